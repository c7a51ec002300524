import Verif.Proofs.ZeroPoly
import Verif.Proofs.Utils
/-!
# The reduction loop of `zero_poly_via_multiplication`: proofs

`work` is a sequence of slots of size `q`; slot `t < c` holds the coefficients of `P t`. One pass of
the loop multiplies the polynomials of four neighbouring slots.
-/

set_option linter.unusedSectionVars false

namespace Kzg
open Res Polynomial Finset

variable {F : Type} [Field F]

/-- Content of `work` at `idx`: slots of size `q`, the first `c` of them in use. -/
noncomputable def wOld (q c : Nat) (P : Nat → F[X]) (idx : Nat) : F :=
  if idx / q < c then (P (idx / q)).coeff (idx % q) else 0

/-- Product of four neighbours. -/
noncomputable def quad (P : Nat → F[X]) (t : Nat) : F[X] := ∏ j ∈ range 4, P (4 * t + j)

/-- Content of `work` when the first `i` groups have been multiplied. -/
noncomputable def wMix (q c : Nat) (P : Nat → F[X]) (i idx : Nat) : F :=
  if idx < 4 * i * q then (quad P (idx / (4 * q))).coeff (idx % (4 * q)) else wOld q c P idx

theorem split_idx {q : Nat} (hq : 0 < q) (idx a : Nat) (h1 : a * q ≤ idx) (h2 : idx < (a + 1) * q) :
    idx / q = a ∧ idx % q = idx - a * q := by
  obtain ⟨t, rfl⟩ := Nat.exists_eq_add_of_le h1
  have ht : t < q := by rw [add_mul, one_mul] at h2; omega
  constructor
  · rw [mul_comm, Nat.mul_add_div hq, Nat.div_eq_of_lt ht, add_zero]
  · rw [mul_comm, Nat.mul_add_mod, Nat.mod_eq_of_lt ht]; omega

theorem quad_eq {P : Nat → F[X]} {c : Nat} (hP1 : ∀ t, c ≤ t → P t = 1) (i : Nat) :
    quad P i = ∏ j ∈ range (min 4 (c - 4 * i)), P (4 * i + j) := by
  unfold quad
  symm
  refine prod_subset (range_subset_range.mpr (by omega)) ?_
  intro j hj hj'
  rw [mem_range] at hj hj'
  exact hP1 _ (by omega)

theorem prod_degree_lt {q : Nat} (P : Nat → F[X]) (hP : ∀ t, (P t).degree < q) (a n : Nat)
    (hn : 0 < n) : (∏ j ∈ range n, P (a + j)).degree < (q * n : Nat) := by
  induction n with
  | zero => omega
  | succ n ih =>
    rw [prod_range_succ]
    by_cases h0 : n = 0
    · subst h0; simpa using hP a
    · refine degree_mul_lt (ih (by omega)) (hP _) ?_
      rw [mul_add, mul_one]; omega

theorem wMix_step {q c : Nat} (hq : 0 < q) {P : Nat → F[X]} (hP1 : ∀ t, c ≤ t → P t = 1)
    (hPd : ∀ t, (P t).degree < q) {i : Nat} (hi : 4 * i < c) (idx : Nat) :
    wMix q c P (i + 1) idx =
      if 4 * i * q ≤ idx ∧ idx < 4 * i * q + q * min 4 (c - 4 * i) then
        (quad P i).coeff (idx - 4 * i * q)
      else wMix q c P i idx := by
  set pn := min 4 (c - 4 * i) with hpn
  have hpos : 0 < pn := by omega
  have h4q : 4 * (i + 1) * q = 4 * i * q + 4 * q := by ring
  have hcoeff : ∀ t, q * pn ≤ t → (quad P i).coeff t = 0 := by
    intro t ht
    rw [quad_eq hP1]
    exact (degree_lt_iff_coeff_zero _ _).mp (prod_degree_lt P hPd _ _ hpos) t ht
  have hin : ∀ idx, 4 * i * q ≤ idx → idx < 4 * i * q + 4 * q →
      idx / (4 * q) = i ∧ idx % (4 * q) = idx - 4 * i * q := by
    intro idx h1 h2
    have := split_idx (q := 4 * q) (by omega) idx i (by
      calc i * (4 * q) = 4 * i * q := by ring
        _ ≤ idx := h1) (by
      calc idx < 4 * i * q + 4 * q := h2
        _ = (i + 1) * (4 * q) := by ring)
    rw [show i * (4 * q) = 4 * i * q by ring] at this
    exact this
  have hpn4 : q * pn ≤ 4 * q := by rw [mul_comm]; exact Nat.mul_le_mul_right _ (by omega)
  unfold wMix
  by_cases h1 : idx < 4 * i * q
  · rw [if_pos (by omega), if_neg (by omega), if_pos h1]
  · by_cases h2 : idx < 4 * i * q + 4 * q
    · obtain ⟨e1, e2⟩ := hin idx (by omega) h2
      rw [if_pos (by omega), e1, e2]
      by_cases h3 : idx < 4 * i * q + q * pn
      · rw [if_pos (by omega)]
      · rw [if_neg (by omega), if_neg h1, hcoeff _ (by omega), wOld, if_neg]
        -- slots from `c` on are empty
        have hlt : pn < 4 := by
          by_contra hc
          have : pn = 4 := by omega
          rw [this] at h3; omega
        have hpc : 4 * i + pn = c := by omega
        rw [not_lt, Nat.le_div_iff_mul_le hq, ← hpc]
        calc (4 * i + pn) * q = 4 * i * q + q * pn := by ring
          _ ≤ idx := by omega
    · rw [if_neg (by omega), if_neg (by omega), if_neg (by omega)]

theorem wMix_full {q c : Nat} (hq : 0 < q) {P : Nat → F[X]} (n : Nat) (hn : c ≤ 4 * n) (idx : Nat) :
    wMix q c P n idx = wOld (4 * q) n (quad P) idx := by
  unfold wMix wOld
  have : idx < 4 * n * q ↔ idx / (4 * q) < n := by
    rw [Nat.div_lt_iff_lt_mul (by omega)]
    rw [show n * (4 * q) = 4 * n * q by ring]
  by_cases h : idx < 4 * n * q
  · rw [if_pos h, if_pos (this.mp h)]
  · rw [if_neg h, if_neg (fun h' => h (this.mpr h')), if_neg]
    rw [not_lt, Nat.le_div_iff_mul_le hq]
    calc c * q ≤ 4 * n * q := Nat.mul_le_mul_right _ hn
      _ ≤ idx := by omega

theorem prod_quad (P : Nat → F[X]) (n : Nat) :
    ∏ t ∈ range n, quad P t = ∏ t ∈ range (4 * n), P t := by
  induction n with
  | zero => simp
  | succ n ih =>
    rw [prod_range_succ, ih, quad, mul_add, mul_one, ← prod_range_add]

theorem list_sum_range (f : Nat → Nat) (n : Nat) :
    ((List.range n).map f).sum = ∑ j ∈ range n, f j := by
  induction n with
  | zero => simp
  | succ n ih => rw [List.range_succ, sum_range_succ]; simp [ih]

theorem list_prod_range (f : Nat → F[X]) (n : Nat) :
    ((List.range n).map f).prod = ∏ j ∈ range n, f j := by
  induction n with
  | zero => simp
  | succ n ih => rw [List.range_succ, prod_range_succ]; simp [ih]

/-- Slices read back the polynomial of a slot. -/
theorem slot_slice {work : List F} {W q c i a l : Nat} {P : Nat → F[X]} (hq : 0 < q)
    (hW : work.length = W) (hw : ∀ idx < W, work[idx]? = some (wMix q c P i idx))
    (ha : 4 * i ≤ a) (hac : a < c) (haW : (a + 1) * q ≤ W) (hl : l ≤ q) (hd : (P a).degree < l) :
    Sat (slice work (a * q) (a * q + l)) (fun s => s.length = l ∧ polyOf s = P a) := by
  have hqq : (a + 1) * q = a * q + q := by ring
  rw [slice, if_pos ⟨by omega, by omega⟩]
  refine Sat.ok ⟨by simp; omega, ?_⟩
  ext t
  rw [coeff_polyOf, List.getD_eq_getElem?_getD, List.getElem?_drop, List.getElem?_take]
  by_cases ht : t < l
  · rw [if_pos (by omega), hw _ (by omega)]
    obtain ⟨e1, e2⟩ := split_idx hq (a * q + t) a (by omega) (by omega)
    have h4 : 4 * i * q ≤ a * q := Nat.mul_le_mul_right _ ha
    simp only [Option.getD_some]
    rw [wMix, if_neg (by omega), wOld, e1, if_pos hac, e2]
    congr 1; omega
  · rw [if_neg (by omega)]
    exact ((degree_lt_iff_coeff_zero _ _).mp hd t (by omega)).symm

/-- The inner loop collects the polynomials of one group. -/
theorem group_vec {work : List F} {lens : List Nat} {W q c i N : Nat} {P : Nat → F[X]} (hq : 0 < q)
    (hW : work.length = W) (hw : ∀ idx < W, work[idx]? = some (wMix q c P i idx))
    (hcW : c * q ≤ W) (hcN : c ≤ N) {l : Nat → Nat}
    (pn : Nat) (hpn : 4 * i + pn ≤ c)
    (hl : ∀ j < pn, lens[i + j]? = some (l (i + j)) ∧ l (i + j) ≤ q ∧
      (P (4 * i + j)).degree < l (i + j)) (offsets : List Nat) (ho : offsets.length = N) 
    (ho0 : offsets[i]? = some (i * 4 * q)) :
    Sat (forRange 0 pn (offsets, ([] : List (List F)))
      fun j (st : List Nat × List (List F)) => do
        let offsets ← wr st.1 (i + j) ((i * 4 + j) * q)
        let o ← rd offsets (i + j)
        let l ← rd lens (i + j)
        let c ← slice work o (o + l)
        .ok (offsets, st.2 ++ [c]))
      (fun st => st.1.length = N ∧ st.1[i]? = some (i * 4 * q) ∧ st.2.length = pn ∧
        ∀ j < pn, (st.2.getD j []).length = l (i + j) ∧ polyOf (st.2.getD j []) = P (4 * i + j)) := by
  refine forRange_inv (fun j (st : List Nat × List (List F)) => st.1.length = N ∧
      st.1[i]? = some (i * 4 * q) ∧ st.2.length = j ∧
      ∀ t < j, (st.2.getD t []).length = l (i + t) ∧ polyOf (st.2.getD t []) = P (4 * i + t))
    (Nat.zero_le _) ⟨ho, ho0, rfl, fun t ht => by omega⟩ ?_
  rintro j ⟨offs, vec⟩ _ hj ⟨h1, h2, h3, h4⟩
  dsimp only at h1 h2 h3 h4 ⊢
  obtain ⟨hl1, hl2, hl3⟩ := hl j hj
  have ho' : (offs.set (i + j) ((i * 4 + j) * q))[i + j]? = some ((4 * i + j) * q) := by
    rw [getElem?_set_of_lt (by omega), if_pos rfl, mul_comm i 4]
  rw [wr_of_lt (by omega), bind_ok, rd_of_getElem? ho', bind_ok, rd_of_getElem? hl1, bind_ok]
  have haW : (4 * i + j + 1) * q ≤ W := le_trans (Nat.mul_le_mul_right _ (by omega)) hcW
  obtain ⟨s, hs, hsl, hsp⟩ := slot_slice hq hW hw (show 4 * i ≤ 4 * i + j by omega) (by omega) haW
    hl2 hl3
  rw [hs, bind_ok]
  refine Sat.ok ⟨by simp [h1], ?_, by simp [h3], ?_⟩
  · rw [getElem?_set_of_lt (by omega)]
    by_cases hj0 : j = 0
    · subst hj0; simp
    · rw [if_neg (by omega)]; exact h2
  · intro t ht
    by_cases htj : t = j
    · subst htj
      rw [List.getD_eq_getElem?_getD, List.getElem?_append_right (by omega), h3]
      simp [hsl, hsp]
    · rw [List.getD_eq_getElem?_getD, List.getElem?_append_left (by omega),
        ← List.getD_eq_getElem?_getD]
      exact h4 t (by omega)

theorem vec_facts {vec : List (List F)} {pn i : Nat} {l : Nat → Nat} {P : Nat → F[X]}
    (hlen : vec.length = pn)
    (h : ∀ j < pn, (vec.getD j []).length = l (i + j) ∧ polyOf (vec.getD j []) = P (4 * i + j)) :
    degSum vec = ∑ j ∈ range pn, (l (i + j) - 1) ∧
      listProd vec = ∏ j ∈ range pn, P (4 * i + j) := by
  have e : vec = (List.range pn).map fun j => vec.getD j [] := by
    rw [← hlen]; exact eq_map_getD vec []
  constructor
  · rw [degSum, e, List.map_map, list_sum_range]
    refine sum_congr rfl fun j hj => ?_
    rw [mem_range] at hj
    have := (h j hj).1
    simp only [Function.comp]
    rw [this]
  · rw [listProd, e, List.map_map, list_prod_range]
    refine prod_congr rfl fun j hj => ?_
    rw [mem_range] at hj
    have := (h j hj).2
    simp only [Function.comp]
    rw [this]

/-- New length of group `i`. -/
def newLen (c : Nat) (l : Nat → Nat) (i : Nat) : Nat :=
  if min 4 (c - 4 * i) > 1 then ∑ j ∈ range (min 4 (c - 4 * i)), (l (i + j) - 1) + 1 else l (4 * i)

/-- State after `i` groups. -/
structure MixInv (q c W N : Nat) (P : Nat → F[X]) (l : Nat → Nat) (i : Nat) (s : ZeroWork F) :
    Prop where
  wlen : s.work.length = W
  w : ∀ idx < W, s.work[idx]? = some (wMix q c P i idx)
  llen : s.lens.length = N
  olen : s.offsets.length = N
  lnew : ∀ t < i, s.lens[t]? = some (newLen c l t)
  lold : ∀ t, i ≤ t → t < c → s.lens[t]? = some (l t)

theorem FFTSettings.WF.zeroGroup_spec {fs : FFTSettings F} {K : Nat} (hwf : fs.WF K)
    {D C q c W N i : Nat} {P : Nat → F[X]} {l : Nat → Nat} {s : ZeroWork F} (hq : 0 < q)
    (hP1 : ∀ t, c ≤ t → P t = 1) (hPd : ∀ t, (P t).degree < q)
    (hcW : c * q ≤ W) (hcN : c ≤ N) (hi : 4 * i < c) (hC : 4 * i * q ≤ C)
    (hl : ∀ j < min 4 (c - 4 * i), 1 ≤ l (i + j) ∧ l (i + j) ≤ q ∧
      (P (4 * i + j)).degree < l (i + j))
    (hred : 1 < min 4 (c - 4 * i) → ∃ m ≤ K, min (min ((4 * i + 4) * q) C - 4 * i * q) D = 2 ^ m ∧
      ∑ j ∈ range (min 4 (c - 4 * i)), (l (i + j) - 1) + 1 ≤ 2 ^ m ∧
      ∑ j ∈ range (min 4 (c - 4 * i)), (l (i + j) - 1) + 1 ≤ q * min 4 (c - 4 * i))
    (hs : MixInv q c W N P l i s) :
    Sat (fs.zeroGroup D C q c i s) (MixInv q c W N P l (i + 1)) := by
  unfold FFTSettings.zeroGroup
  have e4 : i * 4 = 4 * i := mul_comm _ _
  have hub : 4 * i * q ≤ min ((i * 4 + 4) * q) C := by
    rw [e4]
    exact le_min (Nat.mul_le_mul_right _ (by omega)) hC
  simp only
  rw [subU_of_le (by rw [e4] at hub ⊢; exact hub), bind_ok,
    subU_of_le (show i * 4 ≤ c by omega), bind_ok, wr_of_lt (by rw [hs.olen]; omega), bind_ok]
  obtain ⟨⟨offs, vec⟩, hst, h1, h2, h3, h4⟩ := group_vec (F := F) (lens := s.lens) (l := l) hq hs.wlen
    hs.w hcW hcN (min 4 (c - i * 4)) (by omega) (by
      intro j hj
      rw [e4] at hj
      obtain ⟨_, b, d⟩ := hl j hj
      exact ⟨hs.lold _ (by omega) (by omega), b, d⟩) (s.offsets.set i (i * 4 * q))
    (by simp [hs.olen]) (by rw [getElem?_set_of_lt (by rw [hs.olen]; omega), if_pos rfl])
  rw [hst, bind_ok]
  dsimp only at h1 h2 h3 h4 ⊢
  rw [e4] at h2 h3 h4 ⊢
  obtain ⟨f1, f2⟩ := vec_facts h3 h4
  have hpq : 4 * i * q + q * min 4 (c - 4 * i) ≤ W := by
    calc 4 * i * q + q * min 4 (c - 4 * i) = (4 * i + min 4 (c - 4 * i)) * q := by ring
      _ ≤ c * q := Nat.mul_le_mul_right _ (by omega)
      _ ≤ W := hcW
  by_cases hpn : min 4 (c - 4 * i) > 1
  · rw [if_pos hpn]
    obtain ⟨m, hm, hlen, hf, hfq⟩ := hred hpn
    have hvne : vec ≠ [] := List.ne_nil_of_length_pos (by omega)
    have hpne : ∀ p ∈ vec, p ≠ [] := by
      intro p hp
      obtain ⟨j, hj, rfl⟩ := List.mem_iff_getElem.mp hp
      have := (h4 j (by omega)).1
      rw [List.getD_eq_getElem?_getD, List.getElem?_eq_getElem hj, Option.getD_some] at this
      have h5 := (hl j (by omega)).1
      exact List.ne_nil_of_length_pos (by omega)
    rw [hlen, hwf.reducePartials_spec hm vec hvne hpne (by rw [f1]; exact hf), bind_ok,
      wr_of_lt (by rw [hs.llen]; omega), bind_ok,
      padPoly_spec _ _ (by simp only [List.length_map, List.length_range]; rw [f1]; exact hfq), bind_ok,
      rd_of_getElem? h2, bind_ok]
    have hpad : ((List.range (q * min 4 (c - 4 * i))).map fun t =>
        ((List.range (degSum vec + 1)).map (listProd vec).coeff).getD t 0) =
        (List.range (q * min 4 (c - 4 * i))).map (quad P i).coeff := by
      refine List.map_congr_left fun t _ => ?_
      rw [← coeff_polyOf, polyOf_map_coeff (listProd_degree vec hpne), f2, quad_eq hP1]
    rw [hpad, List.length_map, List.length_range, spliceV, if_pos ⟨by omega, by rw [hs.wlen]; exact hpq⟩,
      bind_ok]
    have hlenw : (s.work.take (4 * i * q)).length = 4 * i * q := by
      rw [List.length_take, hs.wlen]; omega
    refine Sat.ok ⟨?_, ?_, ?_, h1, ?_, ?_⟩
    · simp [hs.wlen]; omega
    · intro idx hidx
      dsimp only
      rw [wMix_step hq hP1 hPd hi]
      by_cases h5 : idx < 4 * i * q
      · rw [if_neg (by omega), List.append_assoc, List.getElem?_append_left (by omega),
          List.getElem?_take, if_pos h5]
        exact hs.w idx hidx
      · by_cases h6 : idx < 4 * i * q + q * min 4 (c - 4 * i)
        · rw [if_pos ⟨by omega, h6⟩, List.append_assoc, List.getElem?_append_right (by omega), hlenw,
            List.getElem?_append_left (by simp only [List.length_map, List.length_range]; omega),
            List.getElem?_map, List.getElem?_range (by omega)]
          rfl
        · rw [if_neg (by omega), List.getElem?_append_right (by
            rw [List.length_append, hlenw]; simp only [List.length_map, List.length_range]; omega),
            List.length_append, hlenw, List.length_map, List.length_range, List.getElem?_drop,
            Nat.add_sub_cancel' (by omega)]
          exact hs.w idx hidx
    · simp [hs.llen]
    · intro t ht
      dsimp only
      rw [getElem?_set_of_lt (by rw [hs.llen]; omega)]
      by_cases hti : t = i
      · subst hti
        rw [if_pos rfl, newLen, if_pos hpn, List.length_map, List.length_range, f1]
      · rw [if_neg hti]; exact hs.lnew t (by omega)
    · intro t ht htc
      dsimp only
      rw [getElem?_set_of_lt (by rw [hs.llen]; omega), if_neg (by omega)]
      exact hs.lold t (by omega) htc
  · rw [if_neg hpn]
    have hpn1 : min 4 (c - 4 * i) = 1 := by omega
    rw [rd_of_getElem? (hs.lold (4 * i) (by omega) hi), bind_ok, wr_of_lt (by rw [hs.llen]; omega),
      bind_ok]
    refine Sat.ok ⟨hs.wlen, ?_, by simp [hs.llen], h1, ?_, ?_⟩
    · intro idx hidx
      rw [wMix_step hq hP1 hPd hi, hs.w idx hidx, hpn1, mul_one]
      split
      · next h =>
        obtain ⟨e1, e2⟩ := split_idx hq idx (4 * i) h.1 (by rw [add_mul, one_mul]; exact h.2)
        rw [wMix, if_neg (by omega), wOld, e1, if_pos hi, e2, quad_eq hP1, hpn1]
        simp
      · rfl
    · intro t ht
      dsimp only
      rw [getElem?_set_of_lt (by rw [hs.llen]; omega)]
      by_cases hti : t = i
      · subst hti
        rw [if_pos rfl, newLen, if_neg hpn]
      · rw [if_neg hti]; exact hs.lnew t (by omega)
    · intro t ht htc
      dsimp only
      rw [getElem?_set_of_lt (by rw [hs.llen]; omega), if_neg (by omega)]
      exact hs.lold t (by omega) htc

end Kzg
