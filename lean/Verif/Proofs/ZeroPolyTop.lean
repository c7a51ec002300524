import Verif.Proofs.ZeroPolyLarge
/-!
# `zero_poly_via_multiplication`: all passes, initial partials, exact success condition
-/

set_option linter.unusedSectionVars false

namespace Kzg
open Res Polynomial Finset

variable {F : Type} [Field F]

theorem nextPowerOfTwo_between {v n : Nat} (h1 : 2 ^ n < v) (h2 : v ≤ 2 ^ (n + 1)) (hn : n + 1 ≤ 63) :
    nextPowerOfTwo v = .ok (2 ^ (n + 1)) := by
  have h3 : 2 ^ (n + 1) ≤ 2 ^ 63 := Nat.pow_le_pow_right (by omega) hn
  rw [nextPowerOfTwo_eq (by omega) (by omega)]
  congr 2
  have ha : bitLen (v - 1) ≤ n + 1 := bitLen_le_of_lt (by omega)
  have hb : n < bitLen (v - 1) := by
    by_contra hc
    have := lt_two_pow_bitLen (v - 1)
    have h4 : 2 ^ bitLen (v - 1) ≤ 2 ^ n := Nat.pow_le_pow_right (by omega) (by omega)
    omega
  omega

theorem q_pow (k : Nat) : 64 * 4 ^ k = 2 ^ (6 + 2 * k) := by
  rw [pow_add, pow_mul]; norm_num

theorem nextPowerOfTwo_full (k : Nat) (h : 6 + 2 * k ≤ 63) :
    nextPowerOfTwo (63 * 4 ^ k + 1) = .ok (64 * 4 ^ k) := by
  have hu : 1 ≤ 4 ^ k := Nat.one_le_pow _ _ (by omega)
  have := nextPowerOfTwo_between (v := 63 * 4 ^ k + 1) (n := 5 + 2 * k) (by
    rw [pow_add, pow_mul]; norm_num) (by
    rw [show 5 + 2 * k + 1 = 6 + 2 * k by ring, ← q_pow]; omega) (by omega)
  rw [this, show 5 + 2 * k + 1 = 6 + 2 * k by ring, ← q_pow]

/-- Lengths of one level: all but the last are full. -/
structure LensOk (k c : Nat) (l : Nat → Nat) : Prop where
  full : ∀ t < c - 1, l t = 63 * 4 ^ k + 1
  lastPos : 1 ≤ l (c - 1)
  last : l (c - 1) ≤ 63 * 4 ^ k + 1

theorem LensOk.pos {k c : Nat} {l : Nat → Nat} (h : LensOk k c l) {t : Nat} (ht : t < c) :
    1 ≤ l t ∧ l t ≤ 63 * 4 ^ k + 1 := by
  by_cases h' : t < c - 1
  · rw [h.full t h']; omega
  · have : t = c - 1 := by omega
    subst this; exact ⟨h.lastPos, h.last⟩

theorem LensOk.sum_full {k c : Nat} {l : Nat → Nat} (h : LensOk k c l) {i pn : Nat}
    (hi : i + pn ≤ c - 1) : ∑ j ∈ range pn, (l (i + j) - 1) = pn * (63 * 4 ^ k) := by
  rw [sum_congr rfl (g := fun _ => 63 * 4 ^ k)]
  · simp
  · intro j hj
    rw [mem_range] at hj
    rw [h.full _ (by omega)]; omega

theorem LensOk.sum_all {k c : Nat} {l : Nat → Nat} (h : LensOk k c l) (hc : 1 ≤ c) :
    ∑ j ∈ range c, (l (0 + j) - 1) = (c - 1) * (63 * 4 ^ k) + (l (c - 1) - 1) := by
  obtain ⟨d, rfl⟩ : ∃ d, c = d + 1 := ⟨c - 1, by omega⟩
  rw [sum_range_succ, h.sum_full (i := 0) (by omega)]
  simp

theorem LensOk.sum_le {k c : Nat} {l : Nat → Nat} (h : LensOk k c l) {i : Nat} (pn : Nat)
    (hi : i + pn ≤ c) : ∑ j ∈ range pn, (l (i + j) - 1) ≤ pn * (63 * 4 ^ k) := by
  calc ∑ j ∈ range pn, (l (i + j) - 1) ≤ ∑ j ∈ range pn, 63 * 4 ^ k := by
        refine sum_le_sum fun j hj => ?_
        rw [mem_range] at hj
        have := (h.pos (show i + j < c by omega)).2
        omega
    _ = pn * (63 * 4 ^ k) := by simp

theorem fit_slot {k c i : Nat} {l : Nat → Nat} (h : LensOk k c l) {pn : Nat} (hpn : 1 ≤ pn)
    (hi : i + pn ≤ c) : ∑ j ∈ range pn, (l (i + j) - 1) + 1 ≤ 64 * 4 ^ k * pn := by
  have h1 := h.sum_le pn hi
  have hu : 1 ≤ 4 ^ k := Nat.one_le_pow _ _ (by omega)
  calc _ ≤ pn * (63 * 4 ^ k) + 1 := by omega
    _ ≤ pn * (63 * 4 ^ k) + pn * 4 ^ k := by
        have : 1 ≤ pn * 4 ^ k := Nat.mul_pos hpn hu
        omega
    _ = 64 * 4 ^ k * pn := by ring

theorem pow_le_of {m K : Nat} (h : 2 ^ m ≤ 2 ^ K) : m ≤ K :=
  (Nat.pow_le_pow_iff_right (by omega)).mp h

/-- The transform size chosen for a group that lies below the ceiling. -/
theorem group_red_inner {k c i K D C : Nat} {l : Nat → Nat} (h : LensOk k c l) (hi : 4 * i < c)
    (hC : (4 * i + 4) * (64 * 4 ^ k) ≤ C) (hCD : C ≤ D) (hDK : D ≤ 2 ^ K) :
    ∃ m ≤ K, min (min ((4 * i + 4) * (64 * 4 ^ k)) C - 4 * i * (64 * 4 ^ k)) D = 2 ^ m ∧
      ∑ j ∈ range (min 4 (c - 4 * i)), (l (i + j) - 1) + 1 ≤ 2 ^ m ∧
      ∑ j ∈ range (min 4 (c - 4 * i)), (l (i + j) - 1) + 1 ≤ 64 * 4 ^ k * min 4 (c - 4 * i) := by
  have hf := fit_slot h (i := i) (pn := min 4 (c - 4 * i)) (by omega) (by omega)
  have e : (4 * i + 4) * (64 * 4 ^ k) = 4 * i * (64 * 4 ^ k) + 4 * (64 * 4 ^ k) := by ring
  have e4 : 4 * (64 * 4 ^ k) = 2 ^ (8 + 2 * k) := by
    rw [q_pow, show (4 : Nat) = 2 ^ 2 by norm_num, ← pow_add]; congr 1; ring
  have hle : 4 * (64 * 4 ^ k) ≤ D := by omega
  have e5 : min (min ((4 * i + 4) * (64 * 4 ^ k)) C - 4 * i * (64 * 4 ^ k)) D = 4 * (64 * 4 ^ k) := by
    rw [min_eq_left hC, e, Nat.add_sub_cancel_left, min_eq_left hle]
  refine ⟨8 + 2 * k, pow_le_of (by rw [← e4]; omega), by rw [e5, e4], ?_, hf⟩
  rw [← e4]
  refine le_trans hf ?_
  rw [mul_comm 4 (64 * 4 ^ k)]
  exact Nat.mul_le_mul_left _ (by omega)

theorem group_red {k b c i K D C : Nat} {l : Nat → Nat} (h : LensOk k c l)
    (hi : 4 * i < c) (hC : C = 64 * 4 ^ k * 2 ^ b) (hCD : C ≤ D) (hDK : D ≤ 2 ^ K)
    (hcb : c ≤ 2 ^ b + 1)
    (hex : c = 2 ^ b + 1 → (c - 1) * (63 * 4 ^ k) + (l (c - 1) - 1) < C)
    (hpn : 1 < min 4 (c - 4 * i)) :
    ∃ m ≤ K, min (min ((4 * i + 4) * (64 * 4 ^ k)) C - 4 * i * (64 * 4 ^ k)) D = 2 ^ m ∧
      ∑ j ∈ range (min 4 (c - 4 * i)), (l (i + j) - 1) + 1 ≤ 2 ^ m ∧
      ∑ j ∈ range (min 4 (c - 4 * i)), (l (i + j) - 1) + 1 ≤ 64 * 4 ^ k * min 4 (c - 4 * i) := by
  have hlt : 4 * i < 2 ^ b := by omega
  by_cases hb : 2 ≤ b
  · obtain ⟨b', rfl⟩ : ∃ b', b = b' + 2 := ⟨b - 2, by omega⟩
    have e2 : 2 ^ (b' + 2) = 4 * 2 ^ b' := by rw [pow_add]; ring
    have h4 : 4 * i + 4 ≤ 2 ^ (b' + 2) := by omega
    refine group_red_inner h hi ?_ hCD hDK
    rw [hC, mul_comm]
    exact Nat.mul_le_mul_left _ h4
  · have hb1 : b = 0 ∨ b = 1 := by omega
    have hi0 : i = 0 := by
      rcases hb1 with rfl | rfl <;> simp at hlt <;> omega
    subst hi0
    have hc3 : c ≤ 3 := by rcases hb1 with rfl | rfl <;> simp at hcb <;> omega
    have hmin : min 4 (c - 4 * 0) = c := by omega
    rw [hmin]
    have hf := fit_slot h (i := 0) (pn := c) (by omega) (by omega)
    have hCle : C ≤ (4 * 0 + 4) * (64 * 4 ^ k) := by
      rw [hC, mul_comm]; refine Nat.mul_le_mul_right _ ?_
      rcases hb1 with rfl | rfl <;> norm_num
    have e1 : C = 2 ^ (6 + 2 * k + b) := by rw [hC, q_pow, ← pow_add]
    have e5 : min (min ((4 * 0 + 4) * (64 * 4 ^ k)) C - 4 * 0 * (64 * 4 ^ k)) D = C := by
      rw [min_eq_right hCle, mul_zero, zero_mul, Nat.sub_zero, min_eq_left hCD]
    refine ⟨6 + 2 * k + b, pow_le_of (by rw [← e1]; omega), by rw [e5, e1], ?_, hf⟩
    rw [← e1]
    by_cases hc2 : c = 2 ^ b + 1
    · have := hex hc2
      rw [h.sum_all (by omega)]
      omega
    · refine le_trans hf ?_
      rw [hC]
      exact Nat.mul_le_mul_left _ (by omega)

theorem LensOk.next {k c : Nat} {l : Nat → Nat} (h : LensOk k c l) (hc : 5 ≤ c) :
    LensOk (k + 1) (1 + (c - 1) / 4) (newLen c l) := by
  have hcc : 1 + (c - 1) / 4 - 1 = (c - 1) / 4 := by omega
  have e4 : 63 * 4 ^ (k + 1) = 4 * (63 * 4 ^ k) := by rw [pow_succ]; ring
  refine ⟨?_, ?_, ?_⟩
  · intro t ht
    rw [hcc] at ht
    have hm : min 4 (c - 4 * t) = 4 := by omega
    rw [newLen, hm, if_pos (by omega), h.sum_full (by omega), e4]
  · rw [hcc, newLen]
    split
    · omega
    · exact (h.pos (by omega)).1
  · rw [hcc, newLen]
    split
    · have := h.sum_le (i := (c - 1) / 4) (min 4 (c - 4 * ((c - 1) / 4))) (by omega)
      rw [e4]
      have h2 : min 4 (c - 4 * ((c - 1) / 4)) * (63 * 4 ^ k) ≤ 4 * (63 * 4 ^ k) :=
        Nat.mul_le_mul_right _ (by omega)
      omega
    · have := (h.pos (show 4 * ((c - 1) / 4) < c by omega)).2
      rw [e4]; omega

/-- Degrees after one pass. -/
theorem newLen_degree {k c : Nat} {l : Nat → Nat} (h : LensOk k c l) {P : Nat → F[X]}
    (hP1 : ∀ t, c ≤ t → P t = 1) (hd : ∀ t < c, (P t).degree < l t) {i : Nat} (hi : 4 * i < c)
    (hil : ∀ j < min 4 (c - 4 * i), l (4 * i + j) ≤ l (i + j)) :
    (quad P i).degree < newLen c l i := by
  rw [quad_eq hP1, newLen]
  have key : ∀ n, n ≤ min 4 (c - 4 * i) → (∏ j ∈ range n, P (4 * i + j)).degree <
      ((∑ j ∈ range n, (l (i + j) - 1) + 1 : Nat) : WithBot Nat) := by
    intro n
    induction n with
    | zero => intro _; simp
    | succ n ih =>
      intro hn
      rw [prod_range_succ, sum_range_succ]
      refine degree_mul_lt (ih (by omega)) (hd (4 * i + n) (by omega)) ?_
      have h1 := hil n (by omega)
      have h2 := (h.pos (show 4 * i + n < c by omega)).1
      omega
  split
  · exact key _ le_rfl
  · have hm : min 4 (c - 4 * i) = 1 := by omega
    rw [hm]
    simpa using hd (4 * i) hi

/-- Everything the reduction loop needs at the start of a pass with at least two partials. -/
structure PassInv (K D C W N k b g c : Nat) (P : Nat → F[X]) (l : Nat → Nat) (s : ZeroWork F) :
    Prop where
  llen : s.lens.length = N
  olen : s.offsets.length = N
  cN : c ≤ N
  lval : ∀ t < c, s.lens[t]? = some (l t)
  ok : LensOk k c l
  deg : ∀ t < c, (P t).degree < l t
  hC : C = 64 * 4 ^ k * 2 ^ b
  cb : c ≤ 2 ^ b + 1
  ex : c = 2 ^ b + 1 → (c - 1) * (63 * 4 ^ k) + (l (c - 1) - 1) < C
  hW : W = 64 * 4 ^ k * 2 ^ g
  cg : c ≤ 2 ^ g

theorem lens_mono {k c : Nat} {l : Nat → Nat} (h : LensOk k c l) {i : Nat}
    (hi : 4 * i < c) : ∀ j < min 4 (c - 4 * i), l (4 * i + j) ≤ l (i + j) := by
  intro j hj
  by_cases hi0 : i = 0
  · subst hi0; simp
  · rw [h.full (i + j) (by omega)]
    exact (h.pos (by omega)).2

theorem lens_group {k c : Nat} {l : Nat → Nat} (h : LensOk k c l) {P : Nat → F[X]}
    (hd : ∀ t < c, (P t).degree < l t) {i : Nat}
    (hi : 4 * i < c) : ∀ j < min 4 (c - 4 * i), 1 ≤ l (i + j) ∧ l (i + j) ≤ 64 * 4 ^ k ∧
      (P (4 * i + j)).degree < l (i + j) := by
  have hu : 1 ≤ 4 ^ k := Nat.one_le_pow _ _ (by omega)
  intro j hj
  have := h.pos (show i + j < c by omega)
  refine ⟨this.1, by omega, lt_of_lt_of_le (hd _ (by omega)) ?_⟩
  exact_mod_cast lens_mono h hi j hj

/-- One pass of the reduction loop. -/
theorem FFTSettings.WF.zeroPass_spec {fs : FFTSettings F} {K : Nat} (hwf : fs.WF K)
    {D C W N : Nat} (hCD : C ≤ D) (hDK : D ≤ 2 ^ K) {c k : Nat} {P : Nat → F[X]} {s : ZeroWork F}
    (hc2 : 1 < c) (hP1 : ∀ t, c ≤ t → P t = 1) (hPd : ∀ t, (P t).degree < (64 * 4 ^ k : Nat))
    (hwl : s.work.length = W) (hw : ∀ idx < W, s.work[idx]? = some (wOld (64 * 4 ^ k) c P idx))
    {b g : Nat} {l : Nat → Nat} (hp : PassInv K D C W N k b g c P l s) :
    rd s.lens 0 = .ok (63 * 4 ^ k + 1) ∧ nextPowerOfTwo (63 * 4 ^ k + 1) = .ok (64 * 4 ^ k) ∧
    ∃ s', forRange 0 (1 + (c - 1) / 4) s (fs.zeroGroup D C (64 * 4 ^ k) c) = .ok s' ∧
      s'.work.length = W ∧
      (∀ idx < W, s'.work[idx]? = some (wOld (64 * 4 ^ (k + 1)) (1 + (c - 1) / 4) (quad P) idx)) ∧
      (∀ t, 1 + (c - 1) / 4 ≤ t → quad P t = 1) ∧
      (∀ t, (quad P t).degree < (64 * 4 ^ (k + 1) : Nat)) ∧
      ∏ t ∈ range (1 + (c - 1) / 4), quad P t = ∏ t ∈ range c, P t ∧
      (2 ≤ 1 + (c - 1) / 4 → 2 ≤ b ∧
        PassInv K D C W N (k + 1) (b - 2) (g - 2) (1 + (c - 1) / 4) (quad P) (newLen c l) s') := by
  have hu : 1 ≤ 4 ^ k := Nat.one_le_pow _ _ (by omega)
  have hC' : 64 * 4 ^ k ≤ C := by
    rw [hp.hC]; exact Nat.le_mul_of_pos_right _ (by positivity)
  have hk63 : 6 + 2 * k ≤ 63 := by
    have : 6 + 2 * k ≤ K := pow_le_of (by rw [← q_pow]; omega)
    have := hwf.lt
    omega
  refine ⟨by rw [rd_of_getElem? (hp.lval 0 (by omega)), hp.ok.full 0 (by omega)], nextPowerOfTwo_full k hk63, ?_⟩
  have hcW : c * (64 * 4 ^ k) ≤ W := by
    rw [hp.hW, mul_comm]; exact Nat.mul_le_mul_left _ hp.cg
  have hq : 0 < 64 * 4 ^ k := by omega
  obtain ⟨s', hs', hm⟩ := forRange_inv (lo := 0) (hi := 1 + (c - 1) / 4) (s := s)
    (body := fs.zeroGroup D C (64 * 4 ^ k) c)
    (MixInv (64 * 4 ^ k) c W N P l) (Nat.zero_le _)
    ⟨hwl, by intro idx hidx; rw [hw idx hidx, wMix, if_neg (by simp)], hp.llen, hp.olen,
      fun t ht => by omega, fun t _ htc => hp.lval t htc⟩ (by
    intro i s _ hi hinv
    have hi4 : 4 * i < c := by omega
    refine hwf.zeroGroup_spec hq hP1 hPd hcW hp.cN hi4 ?_ (lens_group hp.ok hp.deg hi4) ?_ hinv
    · rw [hp.hC, mul_comm]
      refine Nat.mul_le_mul_left _ ?_
      have := hp.cb; omega
    · exact group_red hp.ok hi4 hp.hC hCD hDK hp.cb hp.ex)
  have hq4 : 4 * (64 * 4 ^ k) = 64 * 4 ^ (k + 1) := by rw [pow_succ]; ring
  refine ⟨s', hs', hm.wlen, ?_, ?_, ?_, ?_, ?_⟩
  · intro idx hidx
    rw [hm.w idx hidx, wMix_full hq _ (by omega), hq4]
  · intro t ht
    exact prod_eq_one fun j _ => hP1 _ (by omega)
  · intro t
    rw [← hq4]
    have := prod_degree_lt P hPd (4 * t) 4 (by omega)
    rw [mul_comm (64 * 4 ^ k) 4] at this
    exact this
  · rw [prod_quad]
    symm
    refine prod_subset (range_subset_range.mpr (by omega)) ?_
    intro j _ hj
    exact hP1 j (by simpa using hj)
  · intro hc'
    have hc5 : 5 ≤ c := by omega
    have hb : 2 ≤ b := by
      by_contra hb
      have : b = 0 ∨ b = 1 := by omega
      have := hp.cb
      rcases ‹b = 0 ∨ b = 1› with rfl | rfl <;> simp at this <;> omega
    have hg : 2 ≤ g := by
      by_contra hg
      have := hp.cg
      have : g = 0 ∨ g = 1 := by omega
      rcases this with rfl | rfl <;> simp at * <;> omega
    obtain ⟨b', rfl⟩ : ∃ b', b = b' + 2 := ⟨b - 2, by omega⟩
    obtain ⟨g', rfl⟩ : ∃ g', g = g' + 2 := ⟨g - 2, by omega⟩
    have eb : 2 ^ (b' + 2) = 4 * 2 ^ b' := by rw [pow_add]; ring
    have eg : 2 ^ (g' + 2) = 4 * 2 ^ g' := by rw [pow_add]; ring
    have hcb := hp.cb
    have hcg := hp.cg
    rw [Nat.add_sub_cancel, Nat.add_sub_cancel]
    refine ⟨hb, hm.llen, hm.olen, by have := hp.cN; omega, hm.lnew,
      hp.ok.next hc5, ?_, ?_, by omega, ?_, ?_, by omega⟩
    · intro t ht
      exact newLen_degree hp.ok hP1 hp.deg (by omega) (lens_mono hp.ok (by omega))
    · rw [hp.hC, eb, pow_succ]; ring
    · intro hce
      have hcc : c = 2 ^ (b' + 2) + 1 := by omega
      have := hp.ex hcc
      have e1 : 4 * ((c - 1) / 4) = c - 1 := by omega
      have e2 : 1 + (c - 1) / 4 - 1 = (c - 1) / 4 := by omega
      rw [e2, newLen, e1, if_neg (by omega)]
      have e3 : (c - 1) / 4 * (63 * 4 ^ (k + 1)) = (c - 1) * (63 * 4 ^ k) := by
        rw [pow_succ, ← e1]
        rw [show 4 * ((c - 1) / 4) / 4 = (c - 1) / 4 by omega]; ring
      rw [e3]; exact this
    · rw [hp.hW, eg, pow_succ]; ring

/-- With one slot in use the work vector holds its polynomial. -/
theorem wOld_one {q : Nat} (hq : 0 < q) {P : Nat → F[X]} (hPd : ∀ t, (P t).degree < (q : Nat)) (idx : Nat) :
    wOld q 1 P idx = (∏ t ∈ range 1, P t).coeff idx := by
  rw [wOld]
  simp only [range_one, prod_singleton]
  by_cases h : idx < q
  · rw [Nat.div_eq_of_lt h, if_pos (by omega), Nat.mod_eq_of_lt h]
  · rw [if_neg]
    · exact ((degree_lt_iff_coeff_zero _ _).mp (hPd 0) idx (by omega)).symm
    · rw [not_lt, Nat.le_div_iff_mul_le hq]; omega

theorem FFTSettings.WF.zeroReduce_spec {fs : FFTSettings F} {K : Nat} (hwf : fs.WF K)
    {D C W N : Nat} (hCD : C ≤ D) (hDK : D ≤ 2 ^ K) : ∀ (fuel c k : Nat) (P : Nat → F[X])
    (s : ZeroWork F), c < fuel → 1 ≤ c → (∀ t, c ≤ t → P t = 1) →
    (∀ t, (P t).degree < (64 * 4 ^ k : Nat)) → s.work.length = W →
    (∀ idx < W, s.work[idx]? = some (wOld (64 * 4 ^ k) c P idx)) →
    (2 ≤ c → ∃ b g l, PassInv K D C W N k b g c P l s) →
    Sat (fs.zeroReduce D C fuel c s) (fun s' => s'.work.length = W ∧
      ∀ idx < W, s'.work[idx]? = some ((∏ t ∈ range c, P t).coeff idx)) := by
  intro fuel
  induction fuel with
  | zero => intro c k P s h; omega
  | succ fuel ih =>
    intro c k P s hf hc hP1 hPd hwl hw hpass
    simp only [FFTSettings.zeroReduce]
    by_cases hc2 : c > 1
    · rw [if_pos hc2]
      obtain ⟨b, g, l, hp⟩ := hpass hc2
      obtain ⟨e1, e2, s', hs', h1, h2, h3, h4, h5, h6⟩ := hwf.zeroPass_spec hCD hDK hc2 hP1 hPd hwl hw hp
      rw [e1, bind_ok, e2, bind_ok, hs', bind_ok, ← h5]
      exact ih (1 + (c - 1) / 4) (k + 1) (quad P) s' (by omega) (by omega) h3 h4 h1 h2
        fun hc' => ⟨_, _, _, (h6 hc').2⟩
    · rw [if_neg hc2]
      have hc1 : c = 1 := by omega
      subst hc1
      refine Sat.ok ⟨hwl, ?_⟩
      intro idx hidx
      rw [hw idx hidx, wOld_one (by positivity) hPd]

/-! ### The initial partials -/

/-- The `t`-th block of 63 indices. -/
def chunk (missing : List Nat) (t : Nat) : List Nat := (missing.drop (63 * t)).take 63

theorem chunk_length (missing : List Nat) (t : Nat) :
    (chunk missing t).length = min 63 (missing.length - 63 * t) := by simp [chunk]

theorem prod_chunk (r : Nat → F) (missing : List Nat) (n : Nat) :
    ∏ t ∈ range n, linProd r (chunk missing t) = linProd r (missing.take (63 * n)) := by
  induction n with
  | zero => simp [linProd]
  | succ n ih =>
    rw [prod_range_succ, ih, ← linProd_append, chunk, mul_add, mul_one, List.take_add]

/-- State after `t` partials. -/
structure InitInv (r : Nat → F) (missing : List Nat) (W t : Nat) (s : ZeroWork F × Nat × Nat) : Prop where
  wlen : s.1.work.length = W
  w : ∀ idx < W, s.1.work[idx]? = some (wOld 64 t (fun j => linProd r (chunk missing j)) idx)
  lens : s.1.lens = List.replicate t 64
  olen : s.1.offsets.length = t
  mo : s.2.1 = 63 * t
  wo : s.2.2 = 64 * t

theorem wOld_succ (q t : Nat) (hq : 0 < q) (P : Nat → F[X]) (idx : Nat) :
    wOld q (t + 1) P idx = if t * q ≤ idx ∧ idx < t * q + q then (P t).coeff (idx - t * q)
      else wOld q t P idx := by
  by_cases h : t * q ≤ idx ∧ idx < t * q + q
  · obtain ⟨e1, e2⟩ := split_idx hq idx t h.1 (by rw [add_mul, one_mul]; exact h.2)
    rw [if_pos h, wOld, e1, if_pos (by omega), e2]
  · rw [if_neg h, wOld, wOld]
    have : idx / q ≠ t := by
      intro he
      apply h
      have h1 := Nat.div_mul_le_self idx q
      have h2 := Nat.lt_succ_iff.mpr (le_refl (idx / q))
      have h3 : idx < (idx / q + 1) * q := by
        rw [← Nat.div_lt_iff_lt_mul hq]; omega
      rw [he] at h1 h3
      rw [add_mul, one_mul] at h3
      exact ⟨h1, h3⟩
    by_cases h2 : idx / q < t
    · rw [if_pos h2, if_pos (by omega)]
    · rw [if_neg h2, if_neg (by omega)]

theorem zeroInit_step {fs : FFTSettings F} {r : Nat → F} {missing : List Nat} {stride W t : Nat}
    (hr : ∀ i ∈ missing, fs.expandedRoots[i * stride]? = some (r i)) (ht : 63 * t < missing.length)
    (hW : 64 * t + 64 ≤ W) {s : ZeroWork F × Nat × Nat} (hs : InitInv r missing W t s) :
    Sat (fs.zeroInitStep missing stride s) (InitInv r missing W (t + 1)) := by
  obtain ⟨w, mo, wo⟩ := s
  obtain ⟨h1, h2, h3, h4, h5, h6⟩ := hs
  dsimp only at h1 h2 h3 h4 h5 h6
  subst h5 h6
  unfold FFTSettings.zeroInitStep
  simp only
  have hslice : slice missing (63 * t) (min (63 * t + 63) missing.length) = .ok (chunk missing t) := by
    rw [slice, if_pos ⟨by omega, by omega⟩]
    congr 1
    rw [chunk, List.drop_take, ]
    by_cases h : 63 * t + 63 ≤ missing.length
    · rw [min_eq_left h, Nat.add_sub_cancel_left]
    · rw [min_eq_right (by omega), List.take_of_length_le (by simp), List.take_of_length_le (by simp; omega)]
  have hcl := chunk_length missing t
  have hne : chunk missing t ≠ [] := List.ne_nil_of_length_pos (by omega)
  rw [hslice, bind_ok, zeroPolyPartial_spec fs (chunk missing t) stride r hne (fun i hi =>
    hr i (List.mem_of_mem_drop (List.mem_of_mem_take hi))), bind_ok,
    padPoly_spec _ _ (by simp; omega), bind_ok, spliceV, if_pos ⟨by omega, by omega⟩, bind_ok]
  have hpad : ((List.range 64).map fun i => ((List.range ((chunk missing t).length + 1)).map
      (linProd r (chunk missing t)).coeff).getD i 0) =
      (List.range 64).map (linProd r (chunk missing t)).coeff := by
    refine List.map_congr_left fun i _ => ?_
    rw [getD_range_map]
    split
    · rfl
    · rw [coeff_eq_zero_of_natDegree_lt]
      rw [linProd_natDegree]; omega
  rw [hpad]
  have hlt : (w.work.take (64 * t)).length = 64 * t := by rw [List.length_take]; omega
  refine Sat.ok ⟨?_, ?_, ?_, ?_, ?_, ?_⟩
  · simp; omega
  · intro idx hidx
    dsimp only
    rw [wOld_succ 64 t (by omega)]
    by_cases h5 : idx < t * 64
    · rw [if_neg (by omega), List.append_assoc, List.getElem?_append_left (by omega),
        List.getElem?_take, if_pos (by omega)]
      exact h2 idx hidx
    · by_cases h6 : idx < t * 64 + 64
      · rw [if_pos ⟨by omega, h6⟩, List.append_assoc, List.getElem?_append_right (by omega), hlt,
          List.getElem?_append_left (by simp only [List.length_map, List.length_range]; omega),
          List.getElem?_map, List.getElem?_range (by omega), mul_comm]
        rfl
      · rw [if_neg (by omega), List.getElem?_append_right (by
          rw [List.length_append, hlt]; simp only [List.length_map, List.length_range]; omega),
          List.length_append, hlt, List.length_map, List.length_range, List.getElem?_drop,
          Nat.add_sub_cancel' (by omega)]
        exact h2 idx hidx
  · dsimp only; rw [h3, List.replicate_succ']
  · simp [h4]
  · dsimp only; ring
  · dsimp only; ring

/-- Lengths after the initial loop. -/
def initLen (m c t : Nat) : Nat := if t = c - 1 then 1 + m - (c - 1) * 63 else 64

theorem initLens {m c : Nat} (hc : c = 1 + (m - 1) / 63) (hm : 0 < m) : LensOk 0 c (initLen m c) := by
  refine ⟨?_, ?_, ?_⟩
  · intro t ht; rw [initLen, if_neg (by omega)]; norm_num
  · rw [initLen, if_pos rfl]; omega
  · rw [initLen, if_pos rfl]; norm_num; omega

theorem zeroInit_spec {fs : FFTSettings F} {r : Nat → F} {missing : List Nat} {stride W c : Nat}
    (hr : ∀ i ∈ missing, fs.expandedRoots[i * stride]? = some (r i)) (hm : 0 < missing.length)
    (hc : c = 1 + (missing.length - 1) / 63) (hW : 64 * c ≤ W) :
    Sat (forRange 0 c ((⟨List.replicate W 0, [], []⟩, 0, 0) : ZeroWork F × Nat × Nat)
      fun _ s => fs.zeroInitStep missing stride s) (InitInv r missing W c) := by
  refine forRange_inv (InitInv r missing W) (Nat.zero_le _) ⟨by simp, ?_, rfl, rfl, rfl, rfl⟩ ?_
  · intro idx hidx
    dsimp only
    rw [List.getElem?_replicate, if_pos hidx, wOld, if_neg (by omega)]
  · intro t s _ ht hs
    exact zeroInit_step hr (by omega) (by omega) hs

theorem chunk_deg (r : Nat → F) (missing : List Nat) (t : Nat) :
    (linProd r (chunk missing t)).degree < ((chunk missing t).length + 1 : Nat) := by
  rw [degree_eq_natDegree (linProd_monic r _).ne_zero, linProd_natDegree]
  exact_mod_cast Nat.lt_succ_self _

theorem forRange_err {σ : Type} {body : Nat → σ → Res σ} (e : String) : ∀ (n lo hi : Nat) (s s' : σ),
    forLoop body n lo s = .ok s' → lo + n < hi → body (lo + n) s' = .err e →
    forRange lo hi s body = .err e := by
  intro n
  induction n with
  | zero =>
    intro lo hi s s' h hlt he
    cases h
    rw [forRange_succ _ _ (by omega)]
    rw [show body lo s = .err e from he]; rfl
  | succ n ih =>
    intro lo hi s s' h hlt he
    rw [forRange_succ _ _ (by omega)]
    simp only [forLoop] at h
    cases hb : body lo s with
    | ok a =>
      rw [hb, bind_ok] at h
      rw [bind_ok]
      exact ih (lo + 1) hi a s' h (by omega) (by rw [show lo + 1 + n = lo + (n + 1) by omega]; exact he)
    | err a => rw [hb] at h; cases h
    | panic => rw [hb] at h; cases h

/-- The initial state of the reduction loop. -/
theorem zeroInit_pass {r : Nat → F} {missing : List Nat} {W c : Nat} {s : ZeroWork F × Nat × Nat}
    (hm : 63 < missing.length) (hc : c = 1 + (missing.length - 1) / 63)
    (hs : InitInv r missing W c s) {s' : ZeroWork F}
    (hs' : s' = { s.1 with lens := s.1.lens.set (c - 1) (1 + missing.length - (c - 1) * 63) }) :
    s'.lens.length = c ∧ s'.offsets.length = c ∧
      (∀ t < c, s'.lens[t]? = some (initLen missing.length c t)) ∧
      ∀ t < c, (linProd r (chunk missing t)).degree < initLen missing.length c t := by
  subst hs'
  refine ⟨by simp [hs.lens], hs.olen, ?_, ?_⟩
  · intro t ht
    dsimp only
    rw [hs.lens, getElem?_set_of_lt (by simp; omega), initLen]
    split
    · rfl
    · rw [List.getElem?_replicate, if_pos ht]
  · intro t ht
    refine lt_of_lt_of_le (chunk_deg r missing t) ?_
    have := chunk_length missing t
    rw [initLen]
    split
    · exact_mod_cast (by omega : (chunk missing t).length + 1 ≤ 1 + missing.length - (c - 1) * 63)
    · exact_mod_cast (by omega : (chunk missing t).length + 1 ≤ 64)

theorem chunk_prod_all (r : Nat → F) (missing : List Nat) {c : Nat} (h : missing.length ≤ 63 * c) :
    ∏ t ∈ range c, linProd r (chunk missing t) = linProd r missing := by
  rw [prod_chunk, List.take_of_length_le h]

theorem chunk_one (r : Nat → F) (missing : List Nat) {c : Nat} (h : missing.length ≤ 63 * c) :
    ∀ t, c ≤ t → linProd r (chunk missing t) = 1 := by
  intro t ht
  have : chunk missing t = [] := by
    rw [← List.length_eq_zero_iff, chunk_length]; omega
  rw [this, linProd_nil]

theorem chunk_deg64 (r : Nat → F) (missing : List Nat) (t : Nat) :
    (linProd r (chunk missing t)).degree < (64 * 4 ^ 0 : Nat) := by
  refine lt_of_lt_of_le (chunk_deg r missing t) ?_
  have := chunk_length missing t
  exact_mod_cast (by omega : (chunk missing t).length + 1 ≤ 64)

/-- Sizes for more than 63 indices: the work vector and the domain are multiples of 64. -/
theorem large_sizes {n m : Nat} (hm : 63 < m) (hmn : m < 2 ^ n) (hn : n < 32) :
    ∃ g d, nextPowerOfTwo ((1 + (m - 1) / 63) * 64) = .ok (64 * 2 ^ g) ∧
      1 + (m - 1) / 63 ≤ 2 ^ g ∧ n = d + 6 ∧ 1 ≤ d ∧ 2 ^ n = 64 * 2 ^ d := by
  have hn32 : 2 ^ n ≤ 2 ^ 31 := Nat.pow_le_pow_right (by omega) (by omega)
  set c := 1 + (m - 1) / 63 with hc
  have h1 := nextPowerOfTwo_eq (v := c * 64) (by omega) (by omega)
  have h2 : c * 64 ≤ 2 ^ bitLen (c * 64 - 1) := le_two_pow_bitLen_pred
  have hb : 6 ≤ bitLen (c * 64 - 1) := by
    by_contra hb
    have : 2 ^ bitLen (c * 64 - 1) ≤ 2 ^ 5 := Nat.pow_le_pow_right (by omega) (by omega)
    omega
  obtain ⟨g, hg⟩ : ∃ g, bitLen (c * 64 - 1) = g + 6 := ⟨_, (Nat.sub_add_cancel hb).symm⟩
  have hn7 : 7 ≤ n := by
    by_contra h
    have : 2 ^ n ≤ 2 ^ 6 := Nat.pow_le_pow_right (by omega) (by omega)
    omega
  have e : 2 ^ (g + 6) = 64 * 2 ^ g := by rw [pow_add]; ring
  refine ⟨g, n - 6, ?_, ?_, by omega, by omega, ?_⟩
  · rw [h1, hg, e]
  · rw [hg, e] at h2; omega
  · conv_lhs => rw [show n = (n - 6) + 6 by omega, pow_add]
    ring

theorem FFTSettings.WF.zeroPolyLarge_spec {fs : FFTSettings F} {K : Nat} (hwf : fs.WF K) {n : Nat}
    (hn : n ≤ K) {missing : List Nat} {stride : Nat} {r : Nat → F}
    (hr : ∀ i ∈ missing, fs.expandedRoots[i * stride]? = some (r i)) (hm : 63 < missing.length)
    (hmn : missing.length < 2 ^ n) (hok : missing.length ≤ 63 * (2 ^ n / 64 + 1)) {nextPow : Nat}
    (hnp : nextPowerOfTwo ((1 + (missing.length - 1) / 63) * 64) = .ok nextPow) :
    Sat (fs.zeroPolyLarge (2 ^ n) (min nextPow (2 ^ n)) missing stride (1 + (missing.length - 1) / 63))
      (fun w => w.length = nextPow ∧ missing.length + 1 ≤ nextPow ∧
        ∀ idx < nextPow, w[idx]? = some ((linProd r missing).coeff idx)) := by
  obtain ⟨g, d, h1, hcg, hnd, hd, hD⟩ := large_sizes hm hmn (lt_of_le_of_lt hn hwf.lt)
  rw [hnp] at h1
  cases h1
  set c := 1 + (missing.length - 1) / 63 with hc
  unfold FFTSettings.zeroPolyLarge
  rw [hnp, bind_ok]
  obtain ⟨⟨w, mo, wo⟩, hw, hinv⟩ := zeroInit_spec (fs := fs) (W := 64 * 2 ^ g) hr (by omega) hc
    (by omega)
  rw [hw, bind_ok]
  simp only
  rw [subU_of_le (by omega), bind_ok, wr_of_lt (by rw [hinv.lens]; simp; omega), bind_ok]
  obtain ⟨i1, i2, i3, i4⟩ := zeroInit_pass hm hc hinv rfl
  have hDK : 2 ^ n ≤ 2 ^ K := Nat.pow_le_pow_right (by omega) hn
  have hmc : missing.length ≤ 63 * c := by omega
  obtain ⟨s, hs, hs1, hs2⟩ := hwf.zeroReduce_spec (D := 2 ^ n) (C := min (64 * 2 ^ g) (2 ^ n))
    (W := 64 * 2 ^ g) (N := c)
    (min_le_right _ _) hDK (c + 1) c 0 (fun t => linProd r (chunk missing t))
    { w with lens := w.lens.set (c - 1) (1 + missing.length - (c - 1) * 63) } (by omega) (by omega)
    (chunk_one r missing hmc) (chunk_deg64 r missing) hinv.wlen hinv.w (by
      intro _
      refine ⟨min g d, g, initLen missing.length c, i1, i2, le_rfl, i3, initLens hc (by omega), i4,
        ?_, ?_, ?_, by simp, hcg⟩
      · rw [hD, pow_zero, mul_one]
        rcases le_total g d with h | h
        · rw [min_eq_left h, min_eq_left (Nat.mul_le_mul_left _ (Nat.pow_le_pow_right (by omega) h))]
        · rw [min_eq_right h, min_eq_right (Nat.mul_le_mul_left _ (Nat.pow_le_pow_right (by omega) h))]
      · rcases le_total g d with h | h
        · rw [min_eq_left h]; omega
        · rw [min_eq_right h]; rw [hD] at hok; omega
      · intro hce
        rw [initLen, if_pos rfl, pow_zero]
        rcases le_total g d with h | h
        · rw [min_eq_left h] at hce; omega
        · have : 64 * 2 ^ d ≤ 64 * 2 ^ g := Nat.mul_le_mul_left _ (Nat.pow_le_pow_right (by omega) h)
          rw [min_eq_right (by omega)]
          omega)
  rw [hs, bind_ok]
  refine Sat.ok ⟨hs1, by omega, ?_⟩
  rw [chunk_prod_all r missing hmc] at hs2
  exact hs2

/-- Too many indices: the first pass is an error. -/
theorem FFTSettings.WF.zeroFirst_err {fs : FFTSettings F} {K : Nat} (hwf : fs.WF K) {n : Nat}
    (hn : n ≤ K) {missing : List Nat} {stride : Nat} {r : Nat → F}
    (hr : ∀ i ∈ missing, fs.expandedRoots[i * stride]? = some (r i)) (hm : 63 < missing.length)
    (hmn : missing.length < 2 ^ n) (hbad : 63 * (2 ^ n / 64 + 1) < missing.length) {nextPow : Nat}
    (hnp : nextPowerOfTwo ((1 + (missing.length - 1) / 63) * 64) = .ok nextPow) :
    2 ^ n ≤ nextPow ∧ ∃ w mo wo, forRange 0 (1 + (missing.length - 1) / 63)
        ((⟨List.replicate nextPow 0, [], []⟩, 0, 0) : ZeroWork F × Nat × Nat)
        (fun _ s => fs.zeroInitStep missing stride s) = .ok (w, mo, wo) ∧
      ∃ lens, wr w.lens (1 + (missing.length - 1) / 63 - 1)
          (1 + missing.length - (1 + (missing.length - 1) / 63 - 1) * 63) = .ok lens ∧
        rd lens 0 = .ok 64 ∧
        forRange 0 (1 + (1 + (missing.length - 1) / 63 - 1) / 4) { w with lens := lens }
          (fs.zeroGroup (2 ^ n) (2 ^ n) 64 (1 + (missing.length - 1) / 63)) =
          .err "Expected domain size to be a power of 2" := by
  obtain ⟨g, d, h1, hcg, hnd, hd, hD⟩ := large_sizes hm hmn (lt_of_le_of_lt hn hwf.lt)
  rw [hnp] at h1
  cases h1
  set c := 1 + (missing.length - 1) / 63 with hc
  have hdiv : 2 ^ n / 64 = 2 ^ d := by omega
  rw [hdiv] at hbad
  have hd2 : 2 ≤ d := by
    by_contra h
    have : d = 1 := by omega
    subst this
    omega
  obtain ⟨d', rfl⟩ : ∃ d', d = d' + 2 := ⟨d - 2, by omega⟩
  have e2 : 2 ^ (d' + 2) = 4 * 2 ^ d' := by rw [pow_add]; ring
  have hcd : 4 * 2 ^ d' + 2 ≤ c := by omega
  obtain ⟨⟨w, mo, wo⟩, hw, hinv⟩ := zeroInit_spec (fs := fs) (W := 64 * 2 ^ g) hr (by omega) hc
    (by omega)
  refine ⟨by omega, w, mo, wo, hw, _, wr_of_lt (by rw [hinv.lens]; simp; omega), ?_⟩
  obtain ⟨i1, i2, i3, i4⟩ := zeroInit_pass hm hc hinv rfl
  have hDK : 2 ^ n ≤ 2 ^ K := Nat.pow_le_pow_right (by omega) hn
  have hmc : missing.length ≤ 63 * c := by omega
  have hL := initLens hc (show 0 < missing.length by omega)
  set s0 : ZeroWork F := { w with lens := w.lens.set (c - 1) (1 + missing.length - (c - 1) * 63) }
  set P : Nat → F[X] := fun t => linProd r (chunk missing t) with hP
  have hP1 := chunk_one r missing hmc
  have hPd : ∀ t, (P t).degree < (64 : Nat) := chunk_deg64 r missing
  have hlg : ∀ i, 4 * i < c → ∀ j < min 4 (c - 4 * i), 1 ≤ initLen missing.length c (i + j) ∧
      initLen missing.length c (i + j) ≤ 64 ∧
      (P (4 * i + j)).degree < initLen missing.length c (i + j) := fun i hi =>
    lens_group hL i4 hi
  have hfull := hL.full 0 (by omega)
  rw [pow_zero, mul_one] at hfull
  refine ⟨by rw [rd_of_getElem? (i3 0 (by omega)), hfull], ?_⟩
  obtain ⟨s1, hs1, hm1⟩ := forRange_inv (lo := 0) (hi := 2 ^ d') (s := s0)
      (body := fs.zeroGroup (2 ^ n) (2 ^ n) 64 c)
      (MixInv 64 c (64 * 2 ^ g) c P (initLen missing.length c)) (Nat.zero_le _)
      ⟨hinv.wlen, by intro idx hidx; rw [wMix, if_neg (by simp)]; exact hinv.w idx hidx, i1, i2,
        fun t ht => by omega, fun t _ htc => i3 t htc⟩ (by
      intro i s _ hi hs
      have hi4 : 4 * i < c := by omega
      refine hwf.zeroGroup_spec (by omega) hP1 hPd (by omega) le_rfl hi4 (by omega) (hlg i hi4) ?_ hs
      intro _
      have := group_red_inner hL hi4 (C := 2 ^ n) (D := 2 ^ n) (by omega) le_rfl hDK
      rw [pow_zero, mul_one] at this
      exact this)
  have hgrp : fs.zeroGroup (2 ^ n) (2 ^ n) 64 c (2 ^ d') s1 =
      .err "Expected domain size to be a power of 2" := by
    unfold FFTSettings.zeroGroup
    simp only
    rw [subU_of_le (by omega), bind_ok, subU_of_le (show 2 ^ d' * 4 ≤ c by omega), bind_ok,
      wr_of_lt (by rw [hm1.olen]; omega), bind_ok]
    obtain ⟨⟨offs, vec⟩, hst, h1, h2, h3, h4⟩ := group_vec (F := F) (lens := s1.lens)
      (i := 2 ^ d') (N := c) (c := c) (l := initLen missing.length c) (by omega) hm1.wlen
      hm1.w (by omega) le_rfl (min 4 (c - 2 ^ d' * 4)) (by omega) (by
        intro j hj
        obtain ⟨_, b, e⟩ := hlg (2 ^ d') (by omega) j (by omega)
        exact ⟨hm1.lold _ (by omega) (by omega), b, e⟩) (s1.offsets.set (2 ^ d') (2 ^ d' * 4 * 64))
      (by simp [hm1.olen]) (by rw [getElem?_set_of_lt (by rw [hm1.olen]; omega), if_pos rfl])
    rw [hst, bind_ok]
    dsimp only
    rw [if_pos (by omega)]
    have e0 : min (min ((2 ^ d' * 4 + 4) * 64) (2 ^ n) - 2 ^ d' * 4 * 64) (2 ^ n) = 0 := by omega
    rw [e0]
    rfl
  have := forRange_err "Expected domain size to be a power of 2" (2 ^ d') 0 (1 + (c - 1) / 4) s0 s1
    (body := fs.zeroGroup (2 ^ n) (2 ^ n) 64 c) (by
      rw [forRange, Nat.sub_zero] at hs1; exact hs1) (by omega) (by rw [zero_add]; exact hgrp)
  exact this

/-- Too many indices: an error. -/
theorem FFTSettings.WF.zeroPolyLarge_err {fs : FFTSettings F} {K : Nat} (hwf : fs.WF K) {n : Nat}
    (hn : n ≤ K) {missing : List Nat} {stride : Nat} {r : Nat → F}
    (hr : ∀ i ∈ missing, fs.expandedRoots[i * stride]? = some (r i)) (hm : 63 < missing.length)
    (hmn : missing.length < 2 ^ n) (hbad : 63 * (2 ^ n / 64 + 1) < missing.length) {nextPow : Nat}
    (hnp : nextPowerOfTwo ((1 + (missing.length - 1) / 63) * 64) = .ok nextPow) :
    fs.zeroPolyLarge (2 ^ n) (min nextPow (2 ^ n)) missing stride
      (1 + (missing.length - 1) / 63) = .err "Expected domain size to be a power of 2" := by
  obtain ⟨h0, w, mo, wo, h1, lens, h2, h3, h4⟩ := hwf.zeroFirst_err hn hr hm hmn hbad hnp
  unfold FFTSettings.zeroPolyLarge
  rw [hnp, bind_ok, h1, bind_ok]
  simp only
  rw [subU_of_le (by omega), bind_ok, h2, bind_ok, min_eq_right h0]
  simp only [FFTSettings.zeroReduce]
  rw [if_pos (by omega), h3, bind_ok, show nextPowerOfTwo 64 = .ok 64 by decide +kernel, bind_ok, h4]
  rfl

theorem WF_root {fs : FFTSettings F} {K : Nat} (hwf : fs.WF K) {n : Nat} (hn : n ≤ K) {i : Nat}
    (hi : i ≤ 2 ^ n) :
    fs.expandedRoots[i * (fs.maxWidth / 2 ^ n)]? = some (fs.omega (2 ^ n) ^ i) := by
  have hs : 2 ^ n * (2 ^ K / 2 ^ n) = 2 ^ K := by
    rw [Nat.pow_div hn (by omega), ← pow_add]; congr 1; omega
  rw [hwf.width, hwf.exp _ (le_trans (Nat.mul_le_mul_right _ hi) hs.le), FFTSettings.omega, hwf.width,
    ← pow_mul, mul_comm]

/-- Exact outcome of `zero_poly_via_multiplication` on a supported domain. -/
theorem FFTSettings.WF.zeroPoly_spec {fs : FFTSettings F} {K : Nat} (hwf : fs.WF K) {n : Nat}
    (hn : n ≤ K) {missing : List Nat} (hidx : ∀ i ∈ missing, i ≤ 2 ^ n) (hm : missing ≠ [])
    (hmn : missing.length < 2 ^ n) (hok : missing.length ≤ 63 * (2 ^ n / 64 + 1)) :
    fs.zeroPolyViaMultiplication (2 ^ n) missing =
      .ok ((List.range (2 ^ n)).map (fun j =>
          (linProd (fun i => fs.omega (2 ^ n) ^ i) missing).eval (fs.omega (2 ^ n) ^ j)),
        (List.range (2 ^ n)).map (linProd (fun i => fs.omega (2 ^ n) ^ i) missing).coeff) := by
  have hpos : 0 < missing.length := List.length_pos_iff.mpr hm
  have hDK : 2 ^ n ≤ 2 ^ K := Nat.pow_le_pow_right (by omega) hn
  have h31 : 2 ^ K ≤ 2 ^ 31 := Nat.pow_le_pow_right (by omega) (by have := hwf.lt; omega)
  set r : Nat → F := fun i => fs.omega (2 ^ n) ^ i with hrdef
  have hr : ∀ i ∈ missing, fs.expandedRoots[i * (fs.maxWidth / 2 ^ n)]? = some (r i) :=
    fun i hi => WF_root hwf hn (hidx i hi)
  have hdeg : ∀ j, missing.length < j → (linProd r missing).coeff j = 0 := by
    intro j hj
    rw [coeff_eq_zero_of_natDegree_lt]; rw [linProd_natDegree]; exact hj
  have hdegD : (linProd r missing).degree < (2 ^ n : Nat) := by
    rw [degree_lt_iff_coeff_zero]
    intro j hj; exact hdeg j (by omega)
  unfold FFTSettings.zeroPolyViaMultiplication
  rw [if_neg (by simpa using hm), if_neg (by omega), if_neg (by rw [hwf.width]; omega),
    isPowerOfTwo_two_pow, if_neg (by simp)]
  simp only
  have hnp := nextPowerOfTwo_eq (v := (1 + (missing.length - 1) / 63) * 64) (by omega) (by omega)
  rw [hnp, bind_ok]
  have key : ∀ (zp : List F), missing.length + 1 ≤ zp.length →
      (∀ idx < zp.length, zp[idx]? = some ((linProd r missing).coeff idx)) →
      fitDomain zp (2 ^ n) =
        .ok ((List.range (2 ^ n)).map (linProd r missing).coeff) := by
    intro zp hl hv
    unfold fitDomain
    by_cases h1 : zp.length < 2 ^ n
    · rw [if_pos h1, padPoly_spec _ _ (by omega)]
      congr 1
      refine List.map_congr_left fun j _ => ?_
      by_cases hj : j < zp.length
      · rw [List.getD_eq_getElem?_getD, hv j hj]; rfl
      · rw [List.getD_eq_default _ _ (by omega), hdeg j (by omega)]
    · rw [if_neg h1]
      have hext : zp.take (2 ^ n) = (List.range (2 ^ n)).map (linProd r missing).coeff := by
        apply List.ext_getElem?
        intro j
        rw [List.getElem?_take, List.getElem?_map]
        by_cases hj : j < 2 ^ n
        · rw [if_pos hj, hv j (by omega), List.getElem?_range hj]; rfl
        · rw [if_neg hj, List.getElem?_eq_none (by simp; omega)]; rfl
      by_cases h2 : zp.length = 2 ^ n
      · rw [if_pos h2, ← hext, ← h2, List.take_length]
      · rw [if_neg h2, sliceTo, if_pos (by omega), hext]
  have hzp : ∃ zp, fs.zeroPolyRaw (2 ^ n)
      (min (2 ^ bitLen ((1 + (missing.length - 1) / 63) * 64 - 1)) (2 ^ n))
      missing (fs.maxWidth / 2 ^ n) (1 + (missing.length - 1) / 63) = .ok zp ∧
      missing.length + 1 ≤ zp.length ∧
      ∀ idx < zp.length, zp[idx]? = some ((linProd r missing).coeff idx) := by
    unfold FFTSettings.zeroPolyRaw
    by_cases h63 : missing.length ≤ 63
    · rw [if_pos h63, zeroPolyPartial_spec fs missing _ r hm hr]
      refine ⟨_, rfl, by simp, ?_⟩
      intro idx hidx
      rw [List.length_map, List.length_range] at hidx
      rw [List.getElem?_map, List.getElem?_range hidx]; rfl
    · rw [if_neg h63]
      obtain ⟨w, hw, h1, h2, h3⟩ := hwf.zeroPolyLarge_spec hn hr (by omega) hmn hok hnp
      exact ⟨w, hw, by omega, fun idx h => h3 idx (by omega)⟩
  obtain ⟨zp, hz1, hz2, hz3⟩ := hzp
  rw [hz1, bind_ok, key zp hz2 hz3, bind_ok]
  have := hwf.fft_eval hn ((List.range (2 ^ n)).map (linProd r missing).coeff) (by simp)
  rw [polyOf_map_coeff hdegD] at this
  rw [show fs.fftFr _ false = _ from this, bind_ok]

theorem FFTSettings.WF.zeroPoly_err {fs : FFTSettings F} {K : Nat} (hwf : fs.WF K) {n : Nat}
    (hn : n ≤ K) {missing : List Nat} (hidx : ∀ i ∈ missing, i ≤ 2 ^ n)
    (hmn : missing.length < 2 ^ n) (hbad : 63 * (2 ^ n / 64 + 1) < missing.length) :
    fs.zeroPolyViaMultiplication (2 ^ n) missing =
      .err "Expected domain size to be a power of 2" := by
  have hm : missing ≠ [] := List.ne_nil_of_length_pos (by omega)
  have hDK : 2 ^ n ≤ 2 ^ K := Nat.pow_le_pow_right (by omega) hn
  have h31 : 2 ^ K ≤ 2 ^ 31 := Nat.pow_le_pow_right (by omega) (by have := hwf.lt; omega)
  have hr : ∀ i ∈ missing, fs.expandedRoots[i * (fs.maxWidth / 2 ^ n)]? =
      some ((fun i => fs.omega (2 ^ n) ^ i) i) := fun i hi => WF_root hwf hn (hidx i hi)
  unfold FFTSettings.zeroPolyViaMultiplication
  rw [if_neg (by simpa using hm), if_neg (by omega), if_neg (by rw [hwf.width]; omega),
    isPowerOfTwo_two_pow, if_neg (by simp)]
  simp only
  have hnp := nextPowerOfTwo_eq (v := (1 + (missing.length - 1) / 63) * 64) (by omega) (by omega)
  have hmsg := hwf.zeroPolyLarge_err hn hr (by omega) hmn hbad hnp
  rw [hnp, bind_ok, FFTSettings.zeroPolyRaw, if_neg (by omega), hmsg]
  rfl

end Kzg
