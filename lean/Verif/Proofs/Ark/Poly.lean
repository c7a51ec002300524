import Verif.Proofs.Ark.FFT
import Verif.Proofs.Mcl.Poly
import Verif.Model.Ark.Poly
/-!
# Polynomials of the Arkworks backend: proofs
-/

namespace Kzg.Ark
open Res Polynomial Finset

set_option linter.unusedSectionVars false

variable {F : Type} [Field F] [DecidableEq F]

theorem polyEval_eq (p : List F) (x : F) : polyEval p x = (polyOf p).eval x := by
  rw [← ZkP.polyOf_polyNorm p, ← Mcl.evalAt_eq]; rfl

theorem padPoly_eq {p : List F} {n : Nat} (h : p.length ≤ n) :
    padPoly p n = p ++ List.replicate (n - p.length) 0 := by
  rw [padPoly]; split
  · rw [show n - p.length = 0 by omega]; simp
  · rfl

theorem padPoly_length {p : List F} {n : Nat} (h : p.length ≤ n) : (padPoly p n).length = n := by
  rw [padPoly_eq h]; simp; omega

theorem polyOf_padPoly (p : List F) (n : Nat) : polyOf (padPoly p n) = polyOf p := by
  rw [padPoly]; split
  · rfl
  · exact ZkP.polyOf_append_zeros _ _

theorem polyNorm_ne {p : List F} (h : polyOf p ≠ 0) : polyNorm p ≠ [] := by
  rw [Ne, ZkP.polyNorm_nil_iff]; exact h

/-! ## Direct multiplication -/

theorem mulDirect_zero (a b : List F) (h : polyOf a = 0 ∨ polyOf b = 0) (n : Nat) : mulDirect a b n = .ok [] := by
  rw [mulDirect]
  rw [if_pos (h.imp (ZkP.polyNorm_nil_iff a).mpr (ZkP.polyNorm_nil_iff b).mpr)]

theorem mulDirect_spec (a b : List F) (ha : polyOf a ≠ 0) (hb : polyOf b ≠ 0) (n : Nat) :
    mulDirect a b n = .ok ((List.range n).map (polyOf a * polyOf b).coeff) := by
  have h := Mcl.mulDirect_spec (polyNorm a) (polyNorm b) n
  rw [Mcl.mulDirect, ZkP.polyOf_polyNorm, ZkP.polyOf_polyNorm] at h
  rw [mulDirect]
  rw [if_neg (by rintro (h | h); exacts [polyNorm_ne ha h, polyNorm_ne hb h]), h, bind_ok]
  congr 1
  set l := (List.range n).map (polyOf a * polyOf b).coeff with hl
  have hll : l.length = n := by simp [hl]
  have hle : (polyNorm l).length ≤ n := by
    rw [ZkP.polyNorm_length, ← hll]; exact ZkP.polyNormLen_le l _
  refine polyOf_inj (by rw [padPoly_length hle, hll]) ?_
  rw [polyOf_padPoly, ZkP.polyOf_polyNorm]

/-! ## Long division -/

theorem longDiv_of_zero (a b : List F) (h : polyOf a = 0) : longDiv a b = .ok [] := by
  rw [longDiv, libQuot, if_pos ((ZkP.polyNorm_nil_iff a).mpr h)]

theorem longDiv_by_zero (a b : List F) (h : polyOf a ≠ 0) (hb : polyOf b = 0) : longDiv a b = .panic := by
  rw [longDiv, libQuot, if_neg (polyNorm_ne h), if_pos ((ZkP.polyNorm_nil_iff b).mpr hb)]

theorem polyNorm_lead_cond (q : List F) : polyNorm q = [] ∨ (polyNorm q).getD ((polyNorm q).length - 1) 0 ≠ 0 := by
  by_cases h : polyNorm q = []
  · exact .inl h
  · exact .inr (ZkP.polyNorm_lead q h)

/-- The quotient, without trailing zeros. -/
theorem longDiv_spec (a b : List F) (hb : polyOf b ≠ 0) :
    Sat (longDiv a b) (fun q => polyOf q = polyOf a / polyOf b ∧
      (q = [] ∨ q.getD (q.length - 1) 0 ≠ 0)) := by
  by_cases ha : polyOf a = 0
  · rw [longDiv_of_zero a b ha, ha]
    exact Sat.ok ⟨by rw [polyOf_nil, EuclideanDomain.zero_div], .inl rfl⟩
  have hbn := polyNorm_ne hb
  have hlead := ZkP.polyNorm_lead b hbn
  rw [longDiv, libQuot, if_neg (polyNorm_ne ha), if_neg hbn]
  obtain ⟨q, hq, hql, hqd⟩ := longDiv_div (polyNorm a) (polyNorm b) hbn hlead
  rw [ZkP.polyOf_polyNorm, ZkP.polyOf_polyNorm] at hqd
  split
  · next hlt =>
    refine Sat.ok ⟨?_, .inl rfl⟩
    have : q = [] := List.length_eq_zero_iff.mp (by omega)
    rw [← hqd, this]
  · rw [hq, bind_ok]
    exact Sat.ok ⟨by rw [ZkP.polyOf_polyNorm, hqd], polyNorm_lead_cond q⟩

/-- A list is determined by its polynomial if it has no trailing zero. -/
theorem eq_polyNorm {q r : List F} (h : polyOf q = polyOf r) (hq : q = [] ∨ q.getD (q.length - 1) 0 ≠ 0) :
    q = polyNorm r := by
  by_cases h0 : polyOf q = 0
  · have e1 := (ZkP.polyNorm_nil_iff q).mpr h0
    rw [ZkP.polyNorm_self hq] at e1
    rw [e1, (ZkP.polyNorm_nil_iff r).mpr (h ▸ h0)]
  · have l1 := ZkP.polyNorm_natDegree q h0
    have l2 := ZkP.polyNorm_natDegree r (h ▸ h0)
    have e := ZkP.polyNorm_self hq
    rw [e] at l1
    refine polyOf_inj ?_ (by rw [ZkP.polyOf_polyNorm, h])
    rw [l1, l2, h]

theorem polyFlip_eq (a : List F) : polyFlip a = .ok a.reverse := by
  rw [polyFlip, Mcl.push_loop (fun i => a.getD (a.length - 1 - i) 0) a.length _ (by
    intro i hi out
    rw [subU_of_le (by omega), bind_ok, subU_of_le (by omega), bind_ok, rd_getD 0 (by omega), bind_ok,
      show a.length - i - 1 = a.length - 1 - i by omega])]
  congr 1
  apply List.ext_getElem?
  intro i
  by_cases hi : i < a.length
  · rw [List.getElem?_map, List.getElem?_range hi, Option.map_some, List.getElem?_reverse hi,
      getElem?_eq_some_getD 0 (by omega)]
  · rw [List.getElem?_eq_none (by simp; omega), List.getElem?_eq_none (by simp; omega)]

theorem polyOf_one {a : List F} (h : a.length = 1) : polyOf a = C (a.getD 0 0) := by
  ext k
  rw [coeff_polyOf, coeff_C]
  split
  · next h => rw [h]
  · rw [List.getD_eq_default _ _ (by omega)]

/-- The reversed quotient is the product of the reversed dividend and the inverse of the reversed divisor. -/
theorem reverse_quotient {a b q v : List F} {k : Nat} (hbl : 0 < b.length) (hk : k = a.length + 1 - b.length)
    (hk0 : 0 < k) (hqk : q.length = k)
    (hdeg : (polyOf a - polyOf q * polyOf b).degree < ((b.length - 1 : Nat) : WithBot Nat))
    (hvd : X ^ k ∣ polyOf b.reverse * polyOf v - 1) :
    (List.range k).map (polyOf a.reverse * polyOf v).coeff = q.reverse := by
  apply polyOf_inj (by simp; omega)
  ext i
  rw [polyOf_map_range]
  by_cases hi : i < k
  · rw [if_pos hi]
    have h1 : X ^ k ∣ polyOf a.reverse - polyOf q.reverse * polyOf b.reverse := by
      rw [polyOf_reverse, polyOf_reverse, polyOf_reverse,
        ← reflect_mul _ _ (natDegree_polyOf_le q) (natDegree_polyOf_le b),
        show q.length - 1 + (b.length - 1) = a.length - 1 by omega]
      rw [X_pow_dvd_iff]
      intro d hd
      rw [coeff_sub, coeff_reflect, coeff_reflect, revAt_le (by omega), ← coeff_sub]
      exact (degree_lt_iff_coeff_zero _ _).mp hdeg _ (by omega)
    have h2 : X ^ k ∣ polyOf a.reverse * polyOf v - polyOf q.reverse := by
      have e : polyOf a.reverse * polyOf v - polyOf q.reverse =
          (polyOf a.reverse - polyOf q.reverse * polyOf b.reverse) * polyOf v +
          polyOf q.reverse * (polyOf b.reverse * polyOf v - 1) := by ring
      rw [e]
      exact dvd_add (h1.mul_right _) (hvd.mul_left _)
    have := X_pow_dvd_iff.mp h2 i hi
    rw [coeff_sub, sub_eq_zero] at this
    exact this
  · rw [if_neg hi, coeff_polyOf, List.getD_eq_default _ _ (by simp; omega)]

/-! ## Multiplication with transforms -/

theorem polyOf_take_dvd (a : List F) (n : Nat) : X ^ n ∣ polyOf a - polyOf (a.take n) := by
  rw [X_pow_dvd_iff]
  intro d hd
  rw [coeff_sub, coeff_polyOf, coeff_polyOf, List.getD_eq_getElem?_getD, List.getD_eq_getElem?_getD,
    List.getElem?_take, if_pos hd, sub_self]

/-- Coefficients below `n` of a product do not see the higher coefficients of the factors. -/
theorem coeff_mul_take (a b : List F) {n k : Nat} (hk : k < n) :
    (polyOf (a.take n) * polyOf (b.take n)).coeff k = (polyOf a * polyOf b).coeff k := by
  have h : X ^ n ∣ polyOf a * polyOf b - polyOf (a.take n) * polyOf (b.take n) := by
    have e : polyOf a * polyOf b - polyOf (a.take n) * polyOf (b.take n) =
      (polyOf a - polyOf (a.take n)) * polyOf b + polyOf (a.take n) * (polyOf b - polyOf (b.take n)) := by ring
    rw [e]
    exact dvd_add ((polyOf_take_dvd a n).mul_right _) ((polyOf_take_dvd b n).mul_left _)
  have := X_pow_dvd_iff.mp h k hk
  rw [coeff_sub, sub_eq_zero] at this
  exact this.symm

variable [Lib F] [LawfulLib F]

/-- The settings a multiplication uses: those given, or new ones. -/
def Fits (ft : Option (FFTSettings F)) (n : Nat) : Prop := ∀ fs, ft = some fs → ∃ k, Made fs k ∧ n ≤ 2 ^ k

theorem fits_none (n : Nat) : Fits (F := F) none n := fun _ h => by cases h

theorem bitLen_le_of_le {v n : Nat} (h : v ≤ 2 ^ n) : bitLen (v - 1) ≤ n := by
  apply bitLen_le_of_lt
  have : 0 < 2 ^ n := by positivity
  omega

/-- The settings option, resolved. -/
theorem pick_spec (ft : Option (FFTSettings F)) {t : Nat} (ht : t < 32)
    (hft : ∀ fs, ft = some fs → ∃ k, Made fs k ∧ t ≤ k) :
    Sat (mulSettings ft (2 ^ t))
      (fun fs => ∃ k, Made fs k ∧ t ≤ k) := by
  cases ft with
  | none =>
    rw [mulSettings, Nat.log2_two_pow]
    obtain ⟨fs, h, hw⟩ := settingsNew_spec (F := F) ht
    rw [h, unwrap_ok]
    exact Sat.ok ⟨t, hw, le_rfl⟩
  | some fs =>
    rw [mulSettings, settingsClone_eq]
    exact Sat.ok (hft fs rfl)

theorem take_min (a : List F) (len : Nat) : a.take (min a.length len) = a.take len := by
  rcases Nat.le_total a.length len with h | h
  · rw [min_eq_left h, List.take_length, List.take_of_length_le h]
  · rw [min_eq_right h]

theorem mulFft_spec (a b : List F) (ft : Option (FFTSettings F)) (len : Nat)
    (h0 : a ≠ []) (h1 : b ≠ []) (hl : 0 < len)
    (hlen : min a.length len + min b.length len ≤ 2 ^ 31 + 1)
    (hft : Fits ft (min a.length len + min b.length len - 1)) :
    mulFft a b ft len = .ok ((List.range len).map (polyOf a * polyOf b).coeff) := by
  have ha0 := List.length_pos_iff.mpr h0
  have hb0 := List.length_pos_iff.mpr h1
  set aLen := min a.length len with haL
  set bLen := min b.length len with hbL
  set t := bitLen (aLen + bLen - 1 - 1) with ht
  have hN : aLen + bLen - 1 ≤ 2 ^ t := le_two_pow_bitLen_pred
  have hp : 0 < 2 ^ t := by positivity
  have ht31 : t ≤ 31 := bitLen_le_of_le (by omega)
  have h63 : aLen + bLen - 1 ≤ 2 ^ 63 := by
    have : 2 ^ 31 ≤ 2 ^ 63 := Nat.pow_le_pow_right (by omega) (by omega)
    omega
  obtain ⟨fs, hfs, k, hw, htk⟩ := pick_spec ft (t := t) (by omega) (fun fs e => by
    obtain ⟨k, hk, hle⟩ := hft fs e
    exact ⟨k, hk, bitLen_le_of_le hle⟩)
  have hle : 2 ^ t ≤ 2 ^ k := Nat.pow_le_pow_right (by omega) htk
  have etl : (a.take len).length ≤ 2 ^ t := by rw [List.length_take]; omega
  have ebl : (b.take len).length ≤ 2 ^ t := by rw [List.length_take]; omega
  have hal := padPoly_length etl
  have hbl := padPoly_length ebl
  set aPad := padPoly (a.take len) (2 ^ t) with haP
  set bPad := padPoly (b.take len) (2 ^ t) with hbP
  have hprod : polyOf aPad * polyOf bPad = polyOf (a.take len) * polyOf (b.take len) := by
    rw [haP, hbP, polyOf_padPoly, polyOf_padPoly]
  set u := (List.range (2 ^ t)).map (fun i => (polyOf aPad).eval (fs.omega (2 ^ t) ^ i)) with hu
  set v := (List.range (2 ^ t)).map (fun i => (polyOf bPad).eval (fs.omega (2 ^ t) ^ i)) with hv
  have hul : u.length = 2 ^ t := by rw [hu, List.length_map, List.length_range]
  have hvl : v.length = 2 ^ t := by rw [hv, List.length_map, List.length_range]
  have hdeg : (polyOf (a.take len) * polyOf (b.take len)).degree < (2 ^ t : Nat) := by
    refine degree_mul_lt (degree_polyOf_lt _) (degree_polyOf_lt _) ?_
    simp only [List.length_take]; omega
  have hpw : (forRange 0 (2 ^ t) aPad fun i ab => do
      let x ← rd u i
      let y ← rd v i
      wr ab i (x * y)) = .ok ((List.range (2 ^ t)).map fun i => u.getD i 0 * v.getD i 0) := by
    refine fill_loop hal.symm _ ?_
    intro i s hi hl _ h2
    rw [rd_getD 0 (by omega : i < u.length), bind_ok, rd_getD 0 (by omega : i < v.length), bind_ok]
  have hin : fs.fft ((List.range (2 ^ t)).map fun i => u.getD i 0 * v.getD i 0) true =
      .ok ((List.range (2 ^ t)).map (polyOf (a.take len) * polyOf (b.take len)).coeff) := by
    refine hw.fft_interp htk _ (by rw [List.length_map, List.length_range]) _ hdeg ?_
    intro i hi
    rw [getD_range_map, if_pos hi, hu, hv, getD_range_map, if_pos hi, getD_range_map, if_pos hi, ← hprod, eval_mul]
  set c := (List.range (2 ^ t)).map (polyOf (a.take len) * polyOf (b.take len)).coeff with hc
  have hcl : c.length = 2 ^ t := by rw [hc, List.length_map, List.length_range]
  obtain ⟨o, ho, hol, ho1, ho2⟩ := update_loop (lo := 0) (hi := min len (2 ^ t)) (v := List.replicate len (0 : F))
    (body := fun i out => do
      let x ← rd c i
      wr out i x) (Nat.zero_le _) (by simp) (fun i => c.getD i 0) (by
      intro i s _ hi _ _ _
      rw [rd_getD 0 (by omega : i < c.length), bind_ok])
  rw [List.length_replicate] at hol
  obtain ⟨z, hz, hzl, hz1, hz2⟩ := update_loop (lo := min len (2 ^ t)) (hi := len) (v := o)
    (body := fun i out => wr out i (0 : F)) (by omega) (by omega) (fun _ => 0) (by
      intro i s _ _ _ _ _; rfl)
  unfold mulFft
  dsimp only
  rw [← haL, ← hbL, subU_of_le (by omega), bind_ok, ZkP.stdNextPowerOfTwo, if_pos h63, bind_ok, ← ht, hfs, bind_ok,
    if_neg (by rw [hw.width]; omega), sliceTo, if_pos (by omega), bind_ok, sliceTo, if_pos (by omega), bind_ok, haL, hbL,
    take_min, take_min, ← haP, ← hbP, fftFr_eq hw htk _ hal, hw.fft_eval htk _ hal, unwrap_ok,
    bind_ok, fftFr_eq hw htk _ hbl, hw.fft_eval htk _ hbl, unwrap_ok, bind_ok,
    ← hu, ← hv, hpw, bind_ok, fftFr_eq hw htk _ (by rw [List.length_map, List.length_range]), hin, unwrap_ok, bind_ok,
    ho, bind_ok, hz]
  congr 1
  refine eq_range_map (by omega) fun i hi => ?_
  by_cases hit : i < 2 ^ t
  · rw [hz2 i (by omega), ho1 i (Nat.zero_le _) (by omega), hc, getD_range_map, if_pos hit,
      coeff_mul_take a b hi]
  · rw [hz1 i (by omega) hi]
    congr 1
    rw [← coeff_mul_take a b hi]
    exact ((degree_lt_iff_coeff_zero _ _).mp hdeg i (by omega)).symm

/-- Nothing to multiply. -/
theorem mulFft_panic (a b : List F) (ft : Option (FFTSettings F)) (len : Nat)
    (h : min a.length len + min b.length len = 0) : mulFft a b ft len = .panic := by
  rw [mulFft]
  dsimp only
  rw [h]; rfl

theorem mulFft_narrow (a b : List F) (fs : FFTSettings F) (len : Nat)
    (hlen : min a.length len + min b.length len ≤ 2 ^ 63)
    (hn : fs.maxWidth < min a.length len + min b.length len - 1) :
    mulFft a b (some fs) len = .err "length should be equals or less than FFTSettings max width" := by
  rw [mulFft]
  dsimp only
  have := le_two_pow_bitLen_pred (v := min a.length len + min b.length len - 1)
  rw [subU_of_le (by omega), bind_ok, ZkP.stdNextPowerOfTwo, if_pos (by omega), bind_ok, mulSettings, settingsClone_eq, bind_ok,
    if_pos (by omega)]

theorem polyMul_spec (a b : List F) (ft : Option (FFTSettings F)) (len : Nat) (ha : polyOf a ≠ 0) (hb : polyOf b ≠ 0)
    (hlen : min a.length len + min b.length len ≤ 2 ^ 31 + 1)
    (hft : Fits ft (min a.length len + min b.length len - 1)) :
    polyMul a b ft len = .ok ((List.range len).map (polyOf a * polyOf b).coeff) := by
  unfold polyMul
  split
  · exact mulDirect_spec a b ha hb len
  · next h =>
    push Not at h
    exact mulFft_spec a b ft len (by rintro rfl; simp at h) (by rintro rfl; simp at h) (by omega) hlen hft

theorem polyMul_zero (a b : List F) (ft : Option (FFTSettings F)) (len : Nat) (hz : polyOf a = 0 ∨ polyOf b = 0)
    (hd : a.length < 64 ∨ b.length < 64 ∨ len < 128) : polyMul a b ft len = .ok [] := by
  rw [polyMul, if_pos hd, mulDirect_zero a b hz]

/-! ## The inverse power series -/

theorem ne_zero_of_coeff {a : List F} (h : a.getD 0 0 ≠ 0) : polyOf a ≠ 0 := by
  intro e
  rw [← coeff_polyOf, e] at h
  exact h rfl

theorem invLoop_spec (a : List F) (ha : a ≠ []) (h0 : a.getD 0 0 ≠ 0) (n : Nat) (hn : 0 < n) (hlen : n ≤ 2 ^ 30)
    (fs : FFTSettings F) {k : Nat} (hwf : Made fs k) (hk : 2 * n - 1 ≤ 2 ^ k) :
    ∀ (j : Nat) (out : List F), out.length = n →
      (∀ i, (n - 1) / 2 ^ j < i → out.getD i 0 = 0) → out.getD 0 0 = (a.getD 0 0)⁻¹ →
      X ^ ((n - 1) / 2 ^ j + 1) ∣ polyOf a * polyOf out - 1 →
      Sat (invLoop a fs n (n - 1) (if j = 0 then 0 else 2 ^ (j - 1)) ((n - 1) / 2 ^ j) out)
        (fun r => r.1 = n - 1 ∧ r.2.length = n ∧ X ^ n ∣ polyOf a * polyOf r.2 - 1) := by
  have ha' : 0 < a.length := List.length_pos_iff.mpr ha
  have hpa := ne_zero_of_coeff h0
  intro j
  induction j with
  | zero =>
    intro ret hl _ _ hd
    unfold invLoop
    rw [if_pos rfl, dif_pos rfl]
    have e : n - 1 + 1 = n := by omega
    exact Sat.ok ⟨by simp, hl, by simpa [e] using hd⟩
  | succ j ih =>
    intro ret hl hz hr0 hd
    have hpr : polyOf ret ≠ 0 := ne_zero_of_coeff (by rw [hr0]; exact inv_ne_zero h0)
    unfold invLoop
    rw [if_neg (by omega), dif_neg (by simp)]
    simp only [Nat.add_sub_cancel]
    rw [next_d]
    have hdd2 : (n - 1) / 2 ^ (j + 1) ≤ (n - 1) / 2 ^ j :=
      Nat.div_le_div_left (Nat.pow_le_pow_right (by omega) (by omega)) (by positivity)
    have hstep : (n - 1) / 2 ^ j + 1 ≤ 2 * ((n - 1) / 2 ^ (j + 1) + 1) := by
      have := next_d (n - 1) j
      split at this <;> omega
    have hdn : (n - 1) / 2 ^ j ≤ n - 1 := Nat.div_le_self _ _
    generalize (n - 1) / 2 ^ j = d at hdd2 hstep hdn ih ⊢
    generalize (n - 1) / 2 ^ (j + 1) = d0 at hdd2 hstep hz hd
    have hmask : 2 ^ j >>> 1 = if j = 0 then 0 else 2 ^ (j - 1) := by
      split
      · next h => subst h; rfl
      · next h =>
        rw [Nat.shiftRight_eq_div_pow, pow_one]
        obtain ⟨i, rfl⟩ : ∃ i, j = i + 1 := ⟨j - 1, by omega⟩
        rw [pow_succ]; simp
    rw [hmask]
    rw [subU_of_le (by omega), bind_ok, hl, min_eq_left (show d + 1 ≤ a.length + n - 1 by omega),
      polyMul_spec a ret (some fs) (d + 1) hpa hpr (by omega)
        (fun fs' e => ⟨k, by cases e; exact hwf, by omega⟩), unwrap_ok, bind_ok]
    set t := (List.range (d + 1)).map (polyOf a * polyOf ret).coeff with ht
    have htl : t.length = d + 1 := by simp [ht]
    have hnl : (forRange 0 (d + 1) t fun i t => do
        let x ← rd t i
        wr t i (-x)) = .ok ((List.range t.length).map fun i => -(t.getD i 0)) := by
      conv_lhs => rw [← htl]
      refine fill_loop rfl _ ?_
      intro i s hi hl _ h2
      rw [rd_of_getElem? (by rw [h2 i le_rfl, getElem?_eq_some_getD 0 hi]), bind_ok]
    rw [hnl, bind_ok]
    set t2 := (List.range t.length).map (fun i => -(t.getD i 0)) with ht2
    have ht2l : t2.length = d + 1 := by simp [ht2, htl]
    rw [rd_getD 0 (show 0 < t2.length by omega), bind_ok, wr_of_lt (show 0 < t2.length by omega), bind_ok]
    have hpt2 : polyOf t2 = - polyOf t := by
      ext i
      rw [coeff_neg, coeff_polyOf, coeff_polyOf, ht2, getD_range_map]
      split
      · rfl
      · rw [List.getD_eq_default t _ (by omega)]; simp
    set t3 := t2.set 0 (t2.getD 0 0 + 2) with ht3
    have ht3l : t3.length = d + 1 := by simp [ht3, ht2l]
    have hpt3 : polyOf t3 = 2 - polyOf t := by
      rw [ht3, polyOf_set (by omega), hpt2]
      simp only [add_sub_cancel_left, pow_zero, mul_one]
      rw [show (C (2 : F)) = 2 from rfl]; ring
    have ht3c : t3.getD 0 0 = 1 := by
      rw [← coeff_polyOf, hpt3, coeff_sub, coeff_polyOf, ht, getD_range_map, if_pos (by omega), mul_coeff_zero,
        coeff_polyOf, coeff_polyOf, hr0, mul_inv_cancel₀ h0]
      rw [show (2 : F[X]) = C 2 from rfl, coeff_C_zero]; ring
    have hpt3n : polyOf t3 ≠ 0 := ne_zero_of_coeff (by rw [ht3c]; exact one_ne_zero)
    rw [polyMul_spec ret t3 (some fs) (d + 1) hpr hpt3n (by omega)
        (fun fs' e => ⟨k, by cases e; exact hwf, by omega⟩), unwrap_ok, bind_ok]
    set u := (List.range (d + 1)).map (polyOf ret * polyOf t3).coeff with hu
    have hul : u.length = d + 1 := by simp [hu]
    rw [if_neg (by omega), bind_ok]
    have hcp : Sat (forRange 0 u.length ret fun i r => do
        let x ← rd u i
        wr r i x) (fun r => r.length = ret.length ∧ polyOf r = polyOf u) := by
      refine Sat.mono (update_loop (Nat.zero_le _) (by omega) (fun i => u.getD i 0) ?_) ?_
      · intro i s _ hi _ _ _
        rw [rd_getD 0 hi, bind_ok]
      · rintro r ⟨hl, h1, h2⟩
        refine ⟨hl, ?_⟩
        ext i
        rw [coeff_polyOf, coeff_polyOf]
        by_cases hi : i < u.length
        · exact getD_of_getElem? (h1 i (Nat.zero_le _) hi)
        · rw [List.getD_eq_getElem?_getD, h2 i (by omega), ← List.getD_eq_getElem?_getD, hz i (by omega),
            List.getD_eq_default _ _ (by omega)]
    obtain ⟨r, hr, hrl, hrp⟩ := hcp
    rw [hr, bind_ok]
    refine ih r (by omega) ?_ ?_ ?_
    · intro i hi
      rw [← coeff_polyOf, hrp, coeff_polyOf, List.getD_eq_default _ _ (by omega)]
    · rw [← coeff_polyOf, hrp, coeff_polyOf, hu, getD_range_map, if_pos (by omega), mul_coeff_zero,
        coeff_polyOf, coeff_polyOf, ht3c, hr0, mul_one]
    · rw [hrp]
      refine newton_step (polyOf a) (polyOf ret) (d0 + 1) (d + 1) hstep hd
        (polyOf t3) _ ?_ (trunc_dvd _ _)
      rw [hpt3, show (2 : F[X]) - polyOf t - (2 - polyOf a * polyOf ret) =
        -(polyOf t - polyOf a * polyOf ret) by ring]
      exact (dvd_neg).mpr (trunc_dvd _ _)

theorem arkLog2_lt (x : Nat) : x / 2 ^ (arkLog2 x + 1) = 0 := by
  apply Nat.div_eq_of_lt
  have h : x < 2 ^ (Nat.log2 x + 1) := Nat.lt_log2_self
  rw [arkLog2]
  split
  · next h => subst h; simp
  · split
    · exact h
    · exact h.trans (Nat.pow_lt_pow_right (by omega) (by omega))

theorem polyInverse_spec (a : List F) (n : Nat) (hn : 0 < n) (ha : a ≠ []) (h0 : a.getD 0 0 ≠ 0)
    (hlen : a.length = 1 ∨ n ≤ 2 ^ 30) :
    Sat (polyInverse a n) (fun r => r.length = n ∧ X ^ n ∣ polyOf a * polyOf r - 1) := by
  have ha' : 0 < a.length := List.length_pos_iff.mpr ha
  unfold polyInverse
  rw [if_neg (by simpa using ha), rd_getD 0 ha', bind_ok, if_neg h0]
  dsimp only
  set ret := (List.replicate n (0 : F)).set 0 (a.getD 0 0)⁻¹ with hret
  have hretl : ret.length = n := by simp [hret]
  have hretp : polyOf ret = C (a.getD 0 0)⁻¹ := by
    rw [hret, polyOf_set (by simpa using hn), polyOf_replicate_zero, List.getD_replicate _ hn]
    simp
  split
  · next h1 =>
    rw [frInv_eq h0, bind_ok, wr_of_lt (by simpa using hn), bind_ok, ← hret]
    obtain ⟨z, hz, hzl, hz1, hz2⟩ := update_loop (lo := 1) (hi := n) (v := ret)
      (body := fun i out => wr out i (0 : F)) (by omega) (by omega) (fun _ => 0) (by
        intro i s _ _ _ _ _; rfl)
    have hzr : z = ret := by
      refine polyOf_inj hzl ?_
      ext i
      rw [coeff_polyOf]
      by_cases hi : i < 1
      · rw [List.getD_eq_getElem?_getD, hz2 i (by omega), ← List.getD_eq_getElem?_getD, coeff_polyOf]
      · rw [hretp, coeff_C, if_neg (by omega)]
        by_cases hin : i < n
        · rw [List.getD_eq_getElem?_getD, hz1 i (by omega) hin]; rfl
        · rw [List.getD_eq_default _ _ (by omega)]
    rw [hz, hzr]
    refine Sat.ok ⟨hretl, ?_⟩
    rw [hretp, polyOf_one h1, ← C_mul, mul_inv_cancel₀ h0]; simp
  · next h1 =>
    have hn30 : n ≤ 2 ^ 30 := hlen.resolve_left h1
    set t := bitLen (2 * n - 1 - 1) with ht
    have ht31 : t ≤ 31 := bitLen_le_of_le (by omega)
    have htn : 2 * n - 1 ≤ 2 ^ t := le_two_pow_bitLen_pred
    obtain ⟨fs, hfs, hw⟩ := settingsNew_spec (F := F) (k := t) (by omega)
    rw [subU_of_le (by omega), bind_ok, subU_of_le (by omega), bind_ok, ZkP.stdNextPowerOfTwo,
      if_pos (le_trans (show 2 * n - 1 ≤ 2 ^ 31 by omega) (Nat.pow_le_pow_right (by omega) (by omega))), bind_ok, ← ht,
      Nat.log2_two_pow, hfs, unwrap_ok, bind_ok, frInv_eq h0, bind_ok, wr_of_lt (by simpa using hn), bind_ok, ← hret]
    have hj : (1 <<< arkLog2 (n - 1)) = if arkLog2 (n - 1) + 1 = 0 then 0 else
        2 ^ (arkLog2 (n - 1) + 1 - 1) := by
      rw [if_neg (by omega), Nat.shiftLeft_eq]; simp
    have hd0 := arkLog2_lt (n - 1)
    have := invLoop_spec a ha h0 n hn hn30 fs hw htn (arkLog2 (n - 1) + 1) ret hretl (by
      intro i hi
      rw [hd0] at hi
      rw [← coeff_polyOf, hretp, coeff_C, if_neg (by omega)])
      (by rw [← coeff_polyOf, hretp, coeff_C_zero]) (by
      rw [hd0, hretp]
      exact dvd_C_mul (coeff_polyOf a 0) h0)
    rw [hd0, ← hj] at this
    obtain ⟨⟨d, r⟩, hr, g1, g2, g3⟩ := this
    simp only at g1 g2 g3
    rw [hr, bind_ok]
    simp only
    rw [if_neg (by omega)]
    exact Sat.ok ⟨g2, g3⟩

theorem polyInverse_empty (n : Nat) : polyInverse ([] : List F) n = .err "b.coeffs is empty" := rfl

theorem polyInverse_err (a : List F) (n : Nat) (ha : a ≠ []) (h0 : a.getD 0 0 = 0) :
    polyInverse a n = .err "b.coeffs[0] is zero" := by
  rw [polyInverse, if_neg (by simpa using ha), rd_getD 0 (List.length_pos_iff.mpr ha), bind_ok, if_pos h0]

/-- Length 0 panics. -/
theorem polyInverse_zero (a : List F) (ha : a ≠ []) (h0 : a.getD 0 0 ≠ 0) : polyInverse a 0 = .panic := by
  rw [polyInverse, if_neg (by simpa using ha), rd_getD 0 (List.length_pos_iff.mpr ha), bind_ok, if_neg h0]
  dsimp only
  split
  · rw [frInv_eq h0]; rfl
  · rfl

/-- So does a length for which there are no settings. -/
theorem polyInverse_long (a : List F) (n : Nat) (ha : 2 ≤ a.length) (h0 : a.getD 0 0 ≠ 0) (hn : 2 ^ 30 < n)
    (hn2 : n ≤ 2 ^ 62) : polyInverse a n = .panic := by
  have han : a ≠ [] := by rintro rfl; simp at ha
  have ht : 32 ≤ bitLen (2 * n - 1 - 1) := by
    by_contra hc
    have h1 := le_two_pow_bitLen_pred (v := 2 * n - 1)
    have h2 : 2 ^ bitLen (2 * n - 1 - 1) ≤ 2 ^ 31 := Nat.pow_le_pow_right (by omega) (by omega)
    omega
  rw [polyInverse, if_neg (by simpa using han), rd_getD 0 (by omega), bind_ok, if_neg h0]
  dsimp only
  rw [if_neg (by omega), subU_of_le (by omega), bind_ok, subU_of_le (by omega), bind_ok, ZkP.stdNextPowerOfTwo,
    if_pos (by omega), bind_ok, Nat.log2_two_pow, settingsNew_err ht, unwrap_err, bind_panic]

/-! ## Fast division -/

theorem fastDiv_empty (a : List F) : fastDiv a [] = .err "divisor coeffs are empty" := rfl

theorem fastDiv_lead (a b : List F) (hb : b ≠ []) (hlead : b.getD (b.length - 1) 0 = 0) :
    fastDiv a b = .err "divisor coeffs last member is zero" := by
  have hbl : 0 < b.length := List.length_pos_iff.mpr hb
  rw [fastDiv, if_neg (by simpa using hb), subU_of_le (by omega), bind_ok, rd_getD 0 (by omega), bind_ok, if_pos hlead]

theorem fastDiv_nil (b : List F) (hb : b ≠ []) (hlead : b.getD (b.length - 1) 0 ≠ 0) : fastDiv [] b = .panic := by
  have hbl : 0 < b.length := List.length_pos_iff.mpr hb
  rw [fastDiv, if_neg (by simpa using hb), subU_of_le (by omega), bind_ok, rd_getD 0 (by omega), bind_ok, if_neg hlead]
  rfl

/-- The common part of the cases with at least two divisor coefficients. -/
theorem fastDiv_reduce (a b : List F) (hb : 2 ≤ b.length) (hlead : b.getD (b.length - 1) 0 ≠ 0)
    (hle : b.length ≤ a.length) (hlen : a.length + 1 - b.length ≤ 2 ^ 30) :
    ∃ v : List F, v.length = a.length + 1 - b.length ∧
      X ^ (a.length + 1 - b.length) ∣ polyOf b.reverse * polyOf v - 1 ∧
      fastDiv a b = (do
        let qFlip ← (polyMul a.reverse v none (a.length + 1 - b.length)).unwrap
        sliceTo qFlip.reverse (a.length + 1 - b.length)) := by
  have hbn : b ≠ [] := by rintro rfl; simp at hb
  have hrevb : b.reverse ≠ [] := by simpa using hbn
  have hb0 : b.reverse.getD 0 0 ≠ 0 := by
    rw [List.getD_eq_getElem _ _ (by simp; omega), List.getElem_reverse]
    rw [List.getD_eq_getElem _ _ (by omega)] at hlead
    simpa using hlead
  obtain ⟨v, hv, hvl, hvd⟩ := polyInverse_spec b.reverse (a.length + 1 - b.length) (by omega) hrevb hb0 (.inr hlen)
  refine ⟨v, hvl, hvd, ?_⟩
  rw [fastDiv, if_neg (by simpa using hbn), subU_of_le (by omega), bind_ok, rd_getD 0 (by omega), bind_ok, if_neg hlead,
    subU_of_le (by omega), bind_ok, bind_ok, if_neg (by omega), if_neg (by omega), polyFlip_eq,
    unwrap_ok, bind_ok, polyFlip_eq, unwrap_ok, bind_ok, show a.length - 1 - (b.length - 1) + 1 = a.length + 1 - b.length by omega,
    hv, unwrap_ok, bind_ok]
  cases (polyMul a.reverse v none (a.length + 1 - b.length)).unwrap with
  | ok q => rw [bind_ok, bind_ok, polyFlip_eq, unwrap_ok, bind_ok]
  | err e => rfl
  | panic => rfl

theorem fastDiv_eq (a b : List F) (ha : a ≠ []) (hb : b ≠ []) (hlead : b.getD (b.length - 1) 0 ≠ 0)
    (hlen : b.length = 1 ∨ a.length + 1 - b.length ≤ 2 ^ 30)
    (hz : b.length = 1 ∨ a.length < b.length ∨ polyOf a ≠ 0 ∨ (64 ≤ a.length ∧ 128 ≤ a.length + 1 - b.length)) :
    fastDiv a b = Kzg.longDiv a b := by
  have hbl : 0 < b.length := List.length_pos_iff.mpr hb
  have hal : 0 < a.length := List.length_pos_iff.mpr ha
  obtain ⟨q, hq, hql, hdeg⟩ := Kzg.longDiv_spec a b hb hlead
  rw [hq]
  by_cases hnm : a.length < b.length
  · rw [fastDiv, if_neg (by simpa using hb), subU_of_le (by omega), bind_ok, rd_getD 0 (by omega), bind_ok,
      if_neg hlead, subU_of_le (by omega), bind_ok, bind_ok, if_pos (by omega)]
    have : q = [] := List.length_eq_zero_iff.mp (by omega)
    rw [this]
  by_cases hb1 : b.length = 1
  · have hlead' : b.getD 0 0 ≠ 0 := by simpa [hb1] using hlead
    rw [fastDiv, if_neg (by simpa using hb), subU_of_le (by omega), bind_ok, rd_getD 0 (by omega), bind_ok,
      if_neg hlead, subU_of_le (by omega), bind_ok, bind_ok, if_neg (by omega), if_pos hb1,
      Mcl.push_loop (fun i => a.getD i 0 / b.getD 0 0) a.length _ (by
      intro i hi out
      rw [rd_getD 0 hi, bind_ok, rd_getD 0 (by omega), bind_ok, frDiv_eq hlead', bind_ok])]
    congr 1
    symm
    have h0 : polyOf a - polyOf q * polyOf b = 0 := by
      rw [hb1] at hdeg
      simpa using hdeg
    apply polyOf_inj (by simp; omega)
    ext i
    rw [polyOf_map_range]
    have := congrArg (fun p => p.coeff i) (sub_eq_zero.mp h0)
    simp only [polyOf_one hb1, coeff_mul_C, coeff_polyOf] at this
    rw [coeff_polyOf]
    split
    · rw [this, mul_div_assoc, div_self hlead', mul_one]
    · rw [List.getD_eq_default q _ (by omega)]
  obtain ⟨v, hvl, hvd, he⟩ := fastDiv_reduce a b (by omega) hlead (by omega) (hlen.resolve_left hb1)
  set k := a.length + 1 - b.length with hk
  have hv0 : polyOf v ≠ 0 := by
    intro e
    rw [e, mul_zero, zero_sub, dvd_neg] at hvd
    have := X_pow_dvd_iff.mp hvd 0 (by omega)
    simp at this
  have hmul : polyMul a.reverse v none k = .ok ((List.range k).map (polyOf a.reverse * polyOf v).coeff) := by
    rcases hz with h | h | h | h
    · omega
    · omega
    · have har : polyOf a.reverse ≠ 0 := by
        intro e
        apply h
        rw [← List.reverse_reverse a, polyOf_reverse, e]; simp
      exact polyMul_spec _ _ none k har hv0 (by omega) (fits_none _)
    · rw [polyMul, if_neg (by rw [List.length_reverse]; omega)]
      exact mulFft_spec _ _ none k (by simpa using ha) (by rintro rfl; simp at hvl; omega) (by omega) (by omega)
        (fits_none _)
  rw [he, hmul, unwrap_ok, bind_ok, reverse_quotient hbl hk (by omega) hql hdeg hvd, List.reverse_reverse,
    sliceTo, if_pos (by omega), List.take_of_length_le (by omega)]

/-- A zero dividend panics if the product is computed directly. -/
theorem fastDiv_zero (a b : List F) (hb : 2 ≤ b.length) (hlead : b.getD (b.length - 1) 0 ≠ 0)
    (hle : b.length ≤ a.length) (ha : polyOf a = 0) (hk : a.length + 1 - b.length < 128) : fastDiv a b = .panic := by
  obtain ⟨v, hvl, hvd, he⟩ := fastDiv_reduce a b hb hlead hle (by omega)
  have har : polyOf a.reverse = 0 := by rw [polyOf_reverse, ha]; simp
  rw [he, polyMul_zero _ _ _ _ (.inl har) (.inr (.inr hk)), unwrap_ok, bind_ok, sliceTo,
    if_neg (by simp; omega)]

/-! ## Division -/

theorem polyDiv_spec (a b : List F) (hb : polyOf b ≠ 0)
    (hlead : 128 ≤ b.length → b.length < a.length → b.getD (b.length - 1) 0 ≠ 0)
    (ha : 128 ≤ b.length → b.length < a.length → polyOf a ≠ 0) (hlen : a.length ≤ 2 ^ 30) :
    Sat (polyDiv a b) (fun q => polyOf q = polyOf a / polyOf b) := by
  unfold polyDiv
  split
  · exact (longDiv_spec a b hb).mono fun q h => h.1
  · next h =>
    push Not at h
    have hbn : b ≠ [] := by rintro rfl; simp at h
    have han : a ≠ [] := by rintro rfl; simp at h
    rw [fastDiv_eq a b han hbn (hlead (by omega) (by omega)) (.inr (by omega)) (.inr (.inr (.inl (ha (by omega) (by omega)))))]
    exact (longDiv_div a b hbn (hlead (by omega) (by omega))).mono fun q h => h.2

end Kzg.Ark
