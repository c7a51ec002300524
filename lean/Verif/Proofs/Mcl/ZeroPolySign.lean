import Verif.Proofs.Mcl.ZeroPoly
/-!
# The zero polynomial of mcl-kzg on every domain, with its sign

On the domain of `2^31` values the inverse transform negates. The last reduction uses it if the ceiling of the reduction
is `2^31`; the zero polynomial and its evaluations come out negated then.
-/

set_option linter.unusedSectionVars false

namespace Kzg.Mcl
open Kzg Res Polynomial Finset
open Kzg.ZkP (NoErr powMsg Pos pos_set rd_ok wr_ok slice_ok)

section
variable {F : Type} [Field F] [DecidableEq F] [Lib F]

theorem padPoly_unwrap (n : Nat) (p : List F) (hp : p.length ≤ n) :
    (padPoly n p).unwrap = .ok ((List.range n).map fun i => p.getD i 0) := by
  rw [← padPoly_spec p _ hp, padPoly, Kzg.padPoly, if_neg (by omega), if_neg (by omega)]
  rfl

/-- The only group of the last pass. -/
theorem zeroGroup_last {fs : FFTSettings F} {K : Nat} (hwf : fs.WF K)
    {D C q c W N m : Nat} {P : Nat → F[X]} {l : Nat → Nat} {s : ZeroWork F} (hq : 0 < q)
    (hPd : ∀ t, (P t).degree < q) (hcW : c * q ≤ W) (hcN : c ≤ N) (hc2 : 2 ≤ c) (hc4 : c ≤ 4)
    (hl : ∀ j < c, 1 ≤ l j ∧ l j ≤ q ∧ (P j).degree < l j)
    (hm : m ≤ K) (hlen : min (min (4 * q) C) D = 2 ^ m)
    (hf : ∑ j ∈ range c, (l j - 1) + 1 ≤ 2 ^ m) (hfq : ∑ j ∈ range c, (l j - 1) + 1 ≤ q * c)
    (hwl : s.work.length = W) (hw : ∀ idx < W, s.work[idx]? = some (wOld q c P idx))
    (hll : s.lens.length = N) (hol : s.offsets.length = N) (hlv : ∀ t < c, s.lens[t]? = some (l t)) :
    Sat (zeroGroup fs D C q c 0 s) (fun s' => s'.work.length = W ∧
      ∀ idx < W, s'.work[idx]? = some (isgn m * (∏ t ∈ range c, P t).coeff idx)) := by
  unfold zeroGroup
  simp only
  have hmin : min 4 (c - 0 * 4) = c := by omega
  rw [subU_of_le (by rw [zero_mul, zero_mul]; exact Nat.zero_le _), bind_ok, subU_of_le (show 0 * 4 ≤ c by omega), bind_ok,
    wr_of_lt (by rw [hol]; omega), bind_ok]
  obtain ⟨⟨offs, vec⟩, hst, h1, h2, h3, h4⟩ := group_vec (F := F) (lens := s.lens) (l := l) (i := 0) (P := P) hq hwl
    (by intro idx hidx; rw [hw idx hidx, wMix, if_neg (by omega)]) hcW hcN (min 4 (c - 0 * 4)) (by omega) (by
      intro j hj
      rw [hmin] at hj
      obtain ⟨_, b, d⟩ := hl j hj
      simp only [zero_add, mul_zero]
      exact ⟨hlv j hj, b, d⟩) (s.offsets.set 0 (0 * 4 * q))
    (by simp [hol]) (by rw [getElem?_set_of_lt (by rw [hol]; omega), if_pos rfl])
  rw [hst, bind_ok]
  dsimp only at h1 h2 h3 h4 ⊢
  obtain ⟨f1, f2⟩ := vec_facts h3 h4
  rw [hmin] at f1 f2 h3 h4 ⊢
  simp only [zero_add, mul_zero, zero_mul, Nat.sub_zero] at f1 f2 h2 h4 ⊢
  have hvne : vec ≠ [] := List.ne_nil_of_length_pos (by omega)
  have hpne : ∀ p ∈ vec, p ≠ [] := by
    intro p hp
    obtain ⟨j, hj, rfl⟩ := List.mem_iff_getElem.mp hp
    have := (h4 j (by omega)).1
    rw [List.getD_eq_getElem?_getD, List.getElem?_eq_getElem hj, Option.getD_some] at this
    have h5 := (hl j (by omega)).1
    exact List.ne_nil_of_length_pos (by omega)
  rw [if_pos (by omega), hlen, reducePartials_gen hwf hm vec hvne hpne (by rw [f1]; exact hf), unwrap_ok, bind_ok,
    wr_of_lt (by rw [hll]; omega), bind_ok,
    padPoly_unwrap _ _ (by simp only [List.length_map, List.length_range]; rw [f1]; exact hfq), bind_ok,
    rd_of_getElem? h2, bind_ok]
  have hpad : ((List.range (q * c)).map fun t =>
      ((List.range (degSum vec + 1)).map fun j => isgn m * (listProd vec).coeff j).getD t 0) =
      (List.range (q * c)).map fun t => isgn m * (∏ t ∈ range c, P t).coeff t := by
    refine List.map_congr_left fun t _ => ?_
    rw [← f2, getD_range_map]
    split
    · rfl
    · next h =>
      rw [(degree_lt_iff_coeff_zero _ _).mp (listProd_degree vec hpne) t (by omega), mul_zero]
  rw [hpad, List.length_map, List.length_range, spliceV, if_pos ⟨by omega, by rw [hwl, zero_add, mul_comm]; exact hcW⟩,
    bind_ok]
  have hcq : q * c ≤ W := by rw [mul_comm]; exact hcW
  refine Sat.ok ⟨?_, ?_⟩
  · simp [hwl]; omega
  · intro idx hidx
    dsimp only
    rw [List.take_zero, List.nil_append]
    by_cases h6 : idx < q * c
    · rw [List.getElem?_append_left (by simpa using h6), List.getElem?_map, List.getElem?_range h6]
      rfl
    · rw [List.getElem?_append_right (by simp; omega), List.length_map, List.length_range, List.getElem?_drop, zero_add,
        Nat.add_sub_cancel' (by omega), hw idx hidx, wOld, if_neg]
      · have hd := prod_degree_lt P hPd 0 c (by omega)
        simp only [zero_add] at hd
        rw [(degree_lt_iff_coeff_zero _ _).mp hd idx (by omega), mul_zero]
      · rw [not_lt, Nat.le_div_iff_mul_le hq, mul_comm]; omega

theorem nextPow_ok {v r : Nat} (h : nextPowerOfTwo v = .ok r) : nextPowOf2 v = .ok r :=
  ((nextPow_sim v).ok r h).1

/-- The reduction: the product of the partials, negated if the ceiling is `2^31`. -/
theorem zeroReduce_signed {fs : FFTSettings F} {K : Nat} (hwf : fs.WF K)
    {D C W N : Nat} (hCD : C ≤ D) (hDK : D ≤ 2 ^ K) : ∀ (fuel c k : Nat) (P : Nat → F[X])
    (s : ZeroWork F) (b g : Nat) (l : Nat → Nat), c < fuel → 2 ≤ c → (∀ t, c ≤ t → P t = 1) →
    (∀ t, (P t).degree < (64 * 4 ^ k : Nat)) → s.work.length = W →
    (∀ idx < W, s.work[idx]? = some (wOld (64 * 4 ^ k) c P idx)) →
    PassInv K D C W N k b g c P l s → 2 ^ b < 2 * c → Pos s → ∀ m, C = 2 ^ m →
    Sat (zeroReduce fs D C fuel c s) (fun s' => s'.work.length = W ∧
      ∀ idx < W, s'.work[idx]? = some (isgn m * (∏ t ∈ range c, P t).coeff idx)) := by
  intro fuel
  induction fuel with
  | zero => intro c k P s b g l h; omega
  | succ fuel ih =>
    intro c k P s b g l hf hc hP1 hPd hwl hw hp hbc hpos m hCm
    have hq : 0 < 64 * 4 ^ k := by positivity
    simp only [zeroReduce]
    rw [if_pos (by omega)]
    obtain ⟨e1, e2, s', hs', h1, h2, h3, h4, h5, h6⟩ := hwf.zeroPass_spec hCD hDK (by omega) hP1 hPd hwl hw hp
    rw [e1, bind_ok, nextPow_ok e2, bind_ok]
    have hK : K ≤ 31 := by have := hwf.lt; omega
    have h31 : D ≤ 2 ^ 31 := hDK.trans (Nat.pow_le_pow_right (by omega) hK)
    by_cases hc5 : 5 ≤ c
    · obtain ⟨hb2, hp'⟩ := h6 (by omega)
      have h4q : 4 * (64 * 4 ^ k) ≤ 2 ^ 30 := by
        have e4 : 4 * (64 * 4 ^ k) = 2 ^ (8 + 2 * k) := by
          rw [q_pow, show (4 : Nat) = 2 ^ 2 by norm_num, ← pow_add]; congr 1; ring
        have : 4 * (64 * 4 ^ k) ≤ C := by
          rw [hp.hC, mul_comm]
          refine Nat.mul_le_mul_left _ ?_
          calc 4 = 2 ^ 2 := rfl
            _ ≤ 2 ^ b := Nat.pow_le_pow_right (by omega) hb2
        have : 8 + 2 * k ≤ 31 := pow_le_of (by rw [← e4]; omega)
        rw [e4]
        exact Nat.pow_le_pow_right (by omega) (by omega)
      obtain ⟨hs2, hpos'⟩ := (Sim.forRange (P := Pos) (body := fs.zeroGroup D C (64 * 4 ^ k) c)
        (body' := zeroGroup fs D C (64 * 4 ^ k) c) 0 (1 + (c - 1) / 4) s hpos
        fun i s hs => zeroGroup_sim hwf (by
          have : (i * 4 + 4) * (64 * 4 ^ k) = i * 4 * (64 * 4 ^ k) + 4 * (64 * 4 ^ k) := by ring
          omega) c s hs).ok s' hs'
      rw [hs2, bind_ok, ← h5]
      refine ih (1 + (c - 1) / 4) (k + 1) (quad P) s' _ _ _ (by omega) (by omega) h3 h4 h1 h2 hp' ?_ hpos' m hCm
      obtain ⟨b', rfl⟩ : ∃ b', b = b' + 2 := ⟨b - 2, by omega⟩
      have eb : 2 ^ (b' + 2) = 4 * 2 ^ b' := by rw [pow_add]; ring
      rw [Nat.add_sub_cancel]
      omega
    · have hrc : 1 + (c - 1) / 4 = 1 := by omega
      have hcW : c * (64 * 4 ^ k) ≤ W := by
        rw [hp.hW, mul_comm]; exact Nat.mul_le_mul_left _ hp.cg
      have hb2 : b ≤ 2 := by
        by_contra hb
        have : 2 ^ 3 ≤ 2 ^ b := Nat.pow_le_pow_right (by omega) (by omega)
        omega
      have hC4 : C ≤ 4 * (64 * 4 ^ k) := by
        rw [hp.hC, mul_comm]
        refine Nat.mul_le_mul_right _ ?_
        calc 2 ^ b ≤ 2 ^ 2 := Nat.pow_le_pow_right (by omega) hb2
          _ = 4 := rfl
      obtain ⟨m', hm', hlen, hfit, hfq⟩ := group_red hp.ok (i := 0) (by omega) hp.hC hCD hDK hp.cb hp.ex (by omega)
      have hmin : min 4 (c - 4 * 0) = c := by omega
      rw [hmin] at hfit hfq
      simp only [zero_add, mul_zero, zero_mul, Nat.sub_zero] at hlen hfit hfq
      have hmm : m' = m := by
        have : 2 ^ m' = 2 ^ m := by rw [← hlen, ← hCm, min_eq_right hC4, min_eq_left hCD]
        exact Nat.pow_right_injective le_rfl this
      subst hmm
      obtain ⟨s2, hs2, hs3⟩ := zeroGroup_last hwf (D := D) (C := C) (s := s) hq hPd hcW hp.cN hc (by omega) (by
        have := lens_group hp.ok hp.deg (i := 0) (by omega)
        rw [hmin] at this
        simpa using this) hm' hlen hfit hfq hwl hw hp.llen hp.olen hp.lval
      rw [hrc, forRange_succ _ _ (by omega), hs2, bind_ok,
        show forRange (0 + 1) 1 s2 _ = .ok s2 from rfl, bind_ok]
      cases fuel with
      | zero => omega
      | succ fuel =>
        simp only [zeroReduce]
        rw [if_neg (by omega)]
        exact Sat.ok hs3

/-- The sign of the zero polynomial of `m` positions in a domain of `2^n`. -/
def zsgn (n m : Nat) : F := if n = 31 ∧ 2 ^ 30 < (1 + (m - 1) / 63) * 64 then -1 else 1

theorem zsgn_of_le {n m : Nat} (h : n ≤ 30) : zsgn (F := F) n m = 1 := if_neg (by omega)

theorem zsgn_sq (n m : Nat) : zsgn (F := F) n m * zsgn n m = 1 := by
  unfold zsgn; split <;> simp

theorem zsgn_ne (n m : Nat) : zsgn (F := F) n m ≠ 0 := by
  unfold zsgn; split <;> simp

theorem zeroPolyLarge_signed {fs : FFTSettings F} {K : Nat} (hwf : fs.WF K) {n : Nat}
    (hn : n ≤ K) {missing : List Nat} {stride : Nat} {r : Nat → F}
    (hr : ∀ i ∈ missing, fs.expandedRoots[i * stride]? = some (r i)) (hm : 63 < missing.length)
    (hmn : missing.length < 2 ^ n) (hok : missing.length ≤ 63 * (2 ^ n / 64 + 1)) {nextPow : Nat}
    (hnp : nextPowerOfTwo ((1 + (missing.length - 1) / 63) * 64) = .ok nextPow) :
    Sat (zeroPolyLarge fs (2 ^ n) (min nextPow (2 ^ n)) missing stride (1 + (missing.length - 1) / 63))
      (fun w => w.length = nextPow ∧ missing.length + 1 ≤ nextPow ∧
        ∀ idx < nextPow, w[idx]? = some (zsgn n missing.length * (linProd r missing).coeff idx)) := by
  have hn31 : n ≤ 31 := by have := hwf.lt; omega
  have h31 : 2 ^ n ≤ 2 ^ 31 := Nat.pow_le_pow_right (by omega) hn31
  obtain ⟨g, d, h1, hcg, hnd, hd, hD⟩ := large_sizes hm hmn (lt_of_le_of_lt hn hwf.lt)
  rw [hnp] at h1
  cases h1
  set c := 1 + (missing.length - 1) / 63 with hc
  have e6 : ∀ a, 2 ^ (a + 6) = 64 * 2 ^ a := fun a => by rw [pow_add]; ring
  have hg2 : 2 ^ g < 2 * c := by
    by_contra hcon
    have hg : g ≠ 0 := by rintro rfl; simp at hcon; omega
    obtain ⟨g', rfl⟩ := Nat.exists_eq_succ_of_ne_zero hg
    have e := pow_succ 2 g'
    have h2 : c * 64 ≤ 2 ^ (g' + 6) := by rw [e6]; rw [Nat.succ_eq_add_one] at hcon; omega
    have h3 := two_pow_bitLen_pred_le h2
    have h4 := nextPowerOfTwo_eq (v := c * 64) (by omega) (by omega)
    rw [hnp] at h4
    injection h4 with h4
    rw [← h4, e6, Nat.succ_eq_add_one] at h3
    have : 0 < 2 ^ g' := by positivity
    omega
  have hCm : min (64 * 2 ^ g) (2 ^ n) = 2 ^ (min (g + 6) n) := by
    rw [← e6]
    rcases le_total (g + 6) n with h | h
    · rw [min_eq_left h, min_eq_left (Nat.pow_le_pow_right (by omega) h)]
    · rw [min_eq_right h, min_eq_right (Nat.pow_le_pow_right (by omega) h)]
  have hsgn : isgn (F := F) (min (g + 6) n) = zsgn n missing.length := by
    unfold isgn zsgn
    rw [← hc]
    by_cases hn' : n = 31
    · by_cases hg : 25 ≤ g
      · have : 2 ^ 25 ≤ 2 ^ g := Nat.pow_le_pow_right (by omega) hg
        rw [if_pos (by omega), if_pos ⟨hn', by omega⟩]
      · have : 2 ^ g ≤ 2 ^ 24 := Nat.pow_le_pow_right (by omega) (by omega)
        rw [if_neg (by omega), if_neg (by rintro ⟨_, h⟩; omega)]
    · rw [if_neg (by omega), if_neg (by rintro ⟨h, _⟩; exact hn' h)]
  unfold zeroPolyLarge
  rw [nextPow_ok hnp, bind_ok]
  obtain ⟨⟨w, mo, wo⟩, hw, hinv⟩ := zeroInit_spec (fs := fs) (W := 64 * 2 ^ g) hr (by omega) hc
    (by omega)
  obtain ⟨hw', hpos⟩ := (Sim.forRange (P := fun r : ZeroWork F × Nat × Nat => Pos r.1)
    (body' := fun _ s => zeroInitStep fs missing stride s) 0 c _ (by intro l hl; cases hl)
    fun i s hs => zeroInitStep_sim fs missing stride s hs).ok _ hw
  rw [hw', bind_ok]
  simp only
  rw [subU_of_le (by omega), bind_ok, wr_of_lt (by rw [hinv.lens]; simp; omega), bind_ok]
  obtain ⟨i1, i2, i3, i4⟩ := zeroInit_pass hm hc hinv rfl
  have hDK : 2 ^ n ≤ 2 ^ K := Nat.pow_le_pow_right (by omega) hn
  have hmc : missing.length ≤ 63 * c := by omega
  obtain ⟨s, hs, hs1, hs2⟩ := zeroReduce_signed hwf (D := 2 ^ n) (C := min (64 * 2 ^ g) (2 ^ n))
    (W := 64 * 2 ^ g) (N := c)
    (min_le_right _ _) hDK (c + 1) c 0 (fun t => linProd r (chunk missing t))
    { w with lens := w.lens.set (c - 1) (1 + missing.length - (c - 1) * 63) } (min g d) g
    (initLen missing.length c) (by omega) (by omega)
    (chunk_one r missing hmc) (chunk_deg64 r missing) hinv.wlen hinv.w (by
      refine ⟨i1, i2, le_rfl, i3, initLens hc (by omega), i4, ?_, ?_, ?_, by simp, hcg⟩
      · rw [hD, pow_zero, mul_one]
        rcases le_total g d with h | h
        · rw [min_eq_left h, min_eq_left (Nat.mul_le_mul_left _ (Nat.pow_le_pow_right (by omega) h))]
        · rw [min_eq_right h, min_eq_right (Nat.mul_le_mul_left _ (Nat.pow_le_pow_right (by omega) h))]
      · rcases le_total g d with h | h
        · rw [min_eq_left h]; omega
        · rw [min_eq_right h]; rw [hD] at hok; omega
      · intro hce
        rw [initLen, if_pos rfl, pow_zero]
        rcases le_total g d with h | h
        · rw [min_eq_left h] at hce; omega
        · have : 64 * 2 ^ d ≤ 64 * 2 ^ g := Nat.mul_le_mul_left _ (Nat.pow_le_pow_right (by omega) h)
          rw [min_eq_right (by omega)]
          omega) (lt_of_le_of_lt (Nat.pow_le_pow_right (by omega) (min_le_left _ _)) hg2)
    (pos_set hpos _ _ (by omega)) _ hCm
  rw [hs, bind_ok]
  refine Sat.ok ⟨hs1, by omega, ?_⟩
  rw [chunk_prod_all r missing hmc, hsgn] at hs2
  exact hs2

/-- Exact outcome on every supported domain: the zero polynomial and its evaluations, with a common sign. -/
theorem zeroPoly_signed {fs : FFTSettings F} {K : Nat} (hwf : fs.WF K) {n : Nat}
    (hn : n ≤ K) {missing : List Nat} (hidx : ∀ i ∈ missing, i ≤ 2 ^ n) (hm : missing ≠ [])
    (hmn : missing.length < 2 ^ n) (hok : missing.length ≤ 63 * (2 ^ n / 64 + 1)) :
    zeroPolyViaMultiplication fs (2 ^ n) missing =
      .ok ((List.range (2 ^ n)).map (fun j => zsgn n missing.length *
          (linProd (fun i => fs.omega (2 ^ n) ^ i) missing).eval (fs.omega (2 ^ n) ^ j)),
        (List.range (2 ^ n)).map fun j => zsgn n missing.length *
          (linProd (fun i => fs.omega (2 ^ n) ^ i) missing).coeff j) := by
  have hpos : 0 < missing.length := List.length_pos_iff.mpr hm
  have hDK : 2 ^ n ≤ 2 ^ K := Nat.pow_le_pow_right (by omega) hn
  have h31 : 2 ^ K ≤ 2 ^ 31 := Nat.pow_le_pow_right (by omega) (by have := hwf.lt; omega)
  set r : Nat → F := fun i => fs.omega (2 ^ n) ^ i with hrdef
  set e : F := zsgn n missing.length with he
  have hr : ∀ i ∈ missing, fs.expandedRoots[i * (fs.maxWidth / 2 ^ n)]? = some (r i) :=
    fun i hi => WF_root hwf hn (hidx i hi)
  have hdeg : ∀ j, missing.length < j → (linProd r missing).coeff j = 0 := by
    intro j hj
    rw [coeff_eq_zero_of_natDegree_lt]; rw [linProd_natDegree]; exact hj
  have hdegD : (C e * linProd r missing).degree < (2 ^ n : Nat) := by
    rw [degree_lt_iff_coeff_zero]
    intro j hj; rw [coeff_C_mul, hdeg j (by omega), mul_zero]
  unfold zeroPolyViaMultiplication
  rw [if_neg (by simpa using hm), if_neg (by omega), if_neg (by rw [hwf.width]; omega),
    isPowerOf2_eq (by positivity), bind_ok, isPowerOfTwo_two_pow, if_neg (by simp)]
  simp only
  have hnp := nextPowerOfTwo_eq (v := (1 + (missing.length - 1) / 63) * 64) (by omega) (by omega)
  rw [nextPow_ok hnp, bind_ok]
  have key : ∀ (zp : List F), missing.length + 1 ≤ zp.length →
      (∀ idx < zp.length, zp[idx]? = some (e * (linProd r missing).coeff idx)) →
      padCoeffsMut zp zp.length (2 ^ n) =
        .ok ((List.range (2 ^ n)).map fun j => e * (linProd r missing).coeff j) := by
    intro zp hl hv
    refine ((fit_sim zp (2 ^ n)).ok _ ?_).1
    unfold fitDomain
    by_cases h1 : zp.length < 2 ^ n
    · rw [if_pos h1, padPoly_spec _ _ (by omega)]
      congr 1
      refine List.map_congr_left fun j _ => ?_
      by_cases hj : j < zp.length
      · rw [List.getD_eq_getElem?_getD, hv j hj]; rfl
      · rw [List.getD_eq_default _ _ (by omega), hdeg j (by omega), mul_zero]
    · rw [if_neg h1]
      have hext : zp.take (2 ^ n) = (List.range (2 ^ n)).map fun j => e * (linProd r missing).coeff j := by
        apply List.ext_getElem?
        intro j
        rw [List.getElem?_take, List.getElem?_map]
        by_cases hj : j < 2 ^ n
        · rw [if_pos hj, hv j (by omega), List.getElem?_range hj]; rfl
        · rw [if_neg hj, List.getElem?_eq_none (by simp; omega)]; rfl
      by_cases h2 : zp.length = 2 ^ n
      · rw [if_pos h2, ← hext, ← h2, List.take_length]
      · rw [if_neg h2, sliceTo, if_pos (by omega), hext]
  have hzp : ∃ zp, zeroPolyRaw fs (2 ^ n)
      (min (2 ^ bitLen ((1 + (missing.length - 1) / 63) * 64 - 1)) (2 ^ n))
      missing (fs.maxWidth / 2 ^ n) (1 + (missing.length - 1) / 63) = .ok zp ∧
      missing.length + 1 ≤ zp.length ∧
      ∀ idx < zp.length, zp[idx]? = some (e * (linProd r missing).coeff idx) := by
    unfold zeroPolyRaw
    by_cases h63 : missing.length ≤ 63
    · have he1 : e = 1 := if_neg (by rintro ⟨_, h⟩; omega)
      rw [if_pos h63, ((zeroPolyPartial_sim fs missing _).ok _ (zeroPolyPartial_spec fs missing _ r hm hr)).1, he1]
      refine ⟨_, rfl, by simp, ?_⟩
      intro idx hidx
      rw [List.length_map, List.length_range] at hidx
      rw [List.getElem?_map, List.getElem?_range hidx, one_mul]; rfl
    · rw [if_neg h63]
      obtain ⟨w, hw, h1, h2, h3⟩ := zeroPolyLarge_signed hwf hn hr (by omega) hmn hok hnp
      exact ⟨w, hw, by omega, fun idx h => h3 idx (by omega)⟩
  obtain ⟨zp, hz1, hz2, hz3⟩ := hzp
  rw [hz1, bind_ok, key zp hz2 hz3, bind_ok]
  have hfun : (fun j => e * (linProd r missing).coeff j) = (C e * linProd r missing).coeff := by
    funext j; rw [coeff_C_mul]
  have := hwf.fft_eval hn ((List.range (2 ^ n)).map (C e * linProd r missing).coeff) (by simp)
  rw [polyOf_map_coeff hdegD] at this
  rw [hfun, fft_eq hwf hn (by simp) false (by simp), this, unwrap_ok, bind_ok]
  simp only [eval_mul, eval_C]

/-- Too many positions: a panic, on every domain. -/
theorem zeroPoly_panic {fs : FFTSettings F} {K : Nat} (hwf : fs.WF K) {n : Nat} (hn : n ≤ K)
    (missing : List Nat) (hidx : ∀ i ∈ missing, i < 2 ^ n) (hmn : missing.length < 2 ^ n)
    (hbad : 63 * (2 ^ n / 64 + 1) < missing.length) :
    zeroPolyViaMultiplication fs (2 ^ n) missing = .panic := by
  have hm : missing ≠ [] := List.ne_nil_of_length_pos (by omega)
  have hDK : 2 ^ n ≤ 2 ^ K := Nat.pow_le_pow_right (by omega) hn
  have h31 : 2 ^ K ≤ 2 ^ 31 := Nat.pow_le_pow_right (by omega) (by have := hwf.lt; omega)
  have hr : ∀ i ∈ missing, fs.expandedRoots[i * (fs.maxWidth / 2 ^ n)]? =
      some ((fun i => fs.omega (2 ^ n) ^ i) i) := fun i hi => WF_root hwf hn (hidx i hi).le
  unfold zeroPolyViaMultiplication
  rw [if_neg (by simpa using hm), if_neg (by omega), if_neg (by rw [hwf.width]; omega),
    isPowerOf2_eq (by positivity), bind_ok, isPowerOfTwo_two_pow, if_neg (by simp)]
  simp only
  have hnp := nextPowerOfTwo_eq (v := (1 + (missing.length - 1) / 63) * 64) (by omega) (by omega)
  obtain ⟨h0, w, mo, wo, h1, lens, h2, h3, h4⟩ := hwf.zeroFirst_err hn hr (by omega) hmn hbad hnp
  obtain ⟨hw', hpos⟩ := (Sim.forRange (P := fun r : ZeroWork F × Nat × Nat => Pos r.1)
    (body' := fun _ s => zeroInitStep fs missing (fs.maxWidth / 2 ^ n) s) 0 _ _ (by intro l hl; cases hl)
    fun i s hs => zeroInitStep_sim fs missing _ s hs).ok _ h1
  have hpos' : Pos (F := F) { w with lens := lens } := by
    intro l hl
    rw [show ({ w with lens := lens } : ZeroWork F).lens = lens from rfl, (wr_ok h2).2] at hl
    exact pos_set hpos _ _ (by omega) l hl
  have hpan := (Sim.forRange (P := Pos)
    (body' := zeroGroup fs (2 ^ n) (2 ^ n) 64 (1 + (missing.length - 1) / 63)) 0 _ _ hpos'
    fun i s hs => zeroGroup_sim hwf (by
      have : (i * 4 + 4) * 64 = i * 4 * 64 + 256 := by ring
      omega) _ s hs).err h4
  rw [nextPow_ok hnp, bind_ok, zeroPolyRaw, if_neg (by omega), zeroPolyLarge, nextPow_ok hnp, bind_ok, hw', bind_ok]
  simp only
  rw [subU_of_le (by omega), bind_ok, h2, bind_ok, min_eq_right h0]
  simp only [zeroReduce]
  rw [if_pos (by omega), h3, bind_ok, nextPow_ok (show nextPowerOfTwo 64 = .ok 64 by decide +kernel), bind_ok, hpan]
  rfl

end
end Kzg.Mcl
