import Verif.Proofs.FFTPoly
import Verif.Proofs.LongDiv
/-!
# Power series inverse and fast division: proofs
-/

set_option linter.unusedSectionVars false

namespace Kzg
open Res Polynomial Finset

variable {F : Type} [Field F] [DecidableEq F] [FrTable F] [LawfulFr F]

omit [DecidableEq F] [FrTable F] [LawfulFr F] in
theorem trunc_dvd (p : F[X]) (n : Nat) :
    X ^ n ∣ polyOf ((List.range n).map p.coeff) - p := by
  rw [X_pow_dvd_iff]
  intro d hd
  rw [coeff_sub, polyOf_map_range, if_pos hd, sub_self]

theorem neg_loop (l : List F) :
    (forRange 0 l.length l fun i t => do
      let x ← rd t i
      wr t i (-x)) = .ok ((List.range l.length).map fun i => -(l.getD i 0)) := by
  refine fill_loop rfl _ ?_
  intro i s hi hl _ h2
  rw [rd_of_getElem? (by rw [h2 i le_rfl, getElem?_eq_some_getD 0 hi]), bind_ok]

theorem copy_loop (src dst : List F) (h : src.length ≤ dst.length)
    (hz : ∀ i, src.length ≤ i → dst.getD i 0 = 0) :
    Sat (forRange 0 src.length dst fun i r => do
      let x ← rd src i
      wr r i x) (fun r => r.length = dst.length ∧ polyOf r = polyOf src) := by
  refine Sat.mono (update_loop (Nat.zero_le _) h (fun i => src.getD i 0) ?_) ?_
  · intro i s _ hi _ _ _
    rw [rd_getD 0 hi, bind_ok]
  · rintro r ⟨hl, h1, h2⟩
    refine ⟨hl, ?_⟩
    ext i
    rw [coeff_polyOf, coeff_polyOf]
    by_cases hi : i < src.length
    · exact getD_of_getElem? (h1 i (Nat.zero_le _) hi)
    · rw [List.getD_eq_getElem?_getD, h2 i (by omega), ← List.getD_eq_getElem?_getD, hz i (by omega),
        List.getD_eq_default _ _ (by omega)]

/-- The next value of `d` in the loop is the next prefix of the bits of `maxd`. -/
theorem next_d (maxd j : Nat) :
    2 * (maxd / 2 ^ (j + 1)) + (if (maxd &&& 2 ^ j) ≠ 0 then 1 else 0) = maxd / 2 ^ j := by
  rw [Nat.and_two_pow, Nat.testBit_eq_decide_div_mod_eq]
  have hp : 0 < 2 ^ j := by positivity
  have e : maxd / 2 ^ (j + 1) = (maxd / 2 ^ j) / 2 := by
    rw [pow_succ, Nat.div_div_eq_div_mul]
  rw [e]
  by_cases h : maxd / 2 ^ j % 2 = 1
  · simp only [h, decide_true, Bool.toNat_true, one_mul]
    rw [if_pos (by omega)]; omega
  · simp only [h, decide_false, Bool.toNat_false, zero_mul]
    rw [if_neg (by simp)]; omega

omit [DecidableEq F] [FrTable F] [LawfulFr F] in
/-- One iteration. -/
theorem newton_step (a c : F[X]) (n m : Nat) (hm : m ≤ 2 * n) (h : X ^ n ∣ a * c - 1)
    (t0 t1 : F[X]) (h0 : X ^ m ∣ t0 - (2 - a * c)) (h1 : X ^ m ∣ t1 - c * t0) :
    X ^ m ∣ a * t1 - 1 := by
  have e : a * t1 - 1 = a * (t1 - c * t0) + a * c * (t0 - (2 - a * c)) -
      (a * c - 1) * (a * c - 1) := by ring
  rw [e]
  refine dvd_sub (dvd_add (h1.mul_left _) (h0.mul_left _)) ?_
  refine (pow_dvd_pow X hm).trans ?_
  rw [two_mul, pow_add]
  exact mul_dvd_mul h h

theorem invLoop_spec (a : List F) (ha : a ≠ []) (n : Nat) (hn : 0 < n)
    (hlen1 : a.length + n ≤ 2 ^ 31 + 1) (hlen2 : 2 * n ≤ 2 ^ 31 + 1) :
    ∀ (j : Nat) (ret : List F), ret.length = n →
      (∀ i, (n - 1) / 2 ^ j < i → ret.getD i 0 = 0) →
      X ^ ((n - 1) / 2 ^ j + 1) ∣ polyOf a * polyOf ret - 1 →
      Sat (invLoop a n (n - 1) (if j = 0 then 0 else 2 ^ (j - 1)) ((n - 1) / 2 ^ j) ret)
        (fun r => r.1 = n - 1 ∧ r.2.length = n ∧ X ^ n ∣ polyOf a * polyOf r.2 - 1) := by
  have ha' : 0 < a.length := List.length_pos_iff.mpr ha
  intro j
  induction j with
  | zero =>
    intro ret hl _ hd
    unfold invLoop
    rw [if_pos rfl, dif_pos rfl]
    refine Sat.ok ⟨by simp, hl, ?_⟩
    simpa [show n - 1 + 1 = n by omega] using hd
  | succ j ih =>
    intro ret hl hz hd
    unfold invLoop
    rw [if_neg (by omega)]
    rw [dif_neg (by simp)]
    simp only [Nat.add_sub_cancel]
    rw [next_d]
    have hdd2 : (n - 1) / 2 ^ (j + 1) ≤ (n - 1) / 2 ^ j :=
      Nat.div_le_div_left (Nat.pow_le_pow_right (by omega) (by omega)) (by positivity)
    have hstep : (n - 1) / 2 ^ j + 1 ≤ 2 * ((n - 1) / 2 ^ (j + 1) + 1) := by
      have := next_d (n - 1) j
      split at this <;> omega
    have hdn : (n - 1) / 2 ^ j ≤ n - 1 := Nat.div_le_self _ _
    generalize (n - 1) / 2 ^ j = d at hdd2 hstep hdn ih ⊢
    generalize (n - 1) / 2 ^ (j + 1) = d0 at hdd2 hstep hz hd
    have hmask : 2 ^ j >>> 1 = if j = 0 then 0 else 2 ^ (j - 1) := by
      split
      · next h => subst h; rfl
      · next h =>
        rw [Nat.shiftRight_eq_div_pow, pow_one]
        obtain ⟨i, rfl⟩ : ∃ i, j = i + 1 := ⟨j - 1, by omega⟩
        rw [pow_succ]; simp
    rw [hmask]
    have hretne : ret ≠ [] := by intro h; rw [h] at hl; simp at hl; omega
    rw [subU_of_le (show 1 ≤ a.length + n by omega), bind_ok, minU64_eq,
      min_eq_left (show d + 1 ≤ a.length + n - 1 by omega),
      polyMul_spec a ret ha hretne (by omega), unwrap_ok, bind_ok]
    set t := (List.range (d + 1)).map (polyOf a * polyOf ret).coeff with ht
    have htl : t.length = d + 1 := by simp [ht]
    rw [neg_loop, bind_ok]
    set t2 := (List.range t.length).map (fun i => -(t.getD i 0)) with ht2
    have ht2l : t2.length = d + 1 := by simp [ht2, htl]
    rw [rd_getD 0 (show 0 < t2.length by omega), bind_ok,
      wr_of_lt (show 0 < t2.length by omega), bind_ok]
    have hpt2 : polyOf t2 = - polyOf t := by
      ext i
      rw [coeff_neg, coeff_polyOf, coeff_polyOf, ht2, getD_range_map]
      split
      · rfl
      · rw [List.getD_eq_default t _ (by omega)]; simp
    set t3 := t2.set 0 (t2.getD 0 0 + 2) with ht3
    have ht3l : t3.length = d + 1 := by simp [ht3, ht2l]
    have hpt3 : polyOf t3 = 2 - polyOf t := by
      rw [ht3, polyOf_set (by omega), hpt2]
      simp only [add_sub_cancel_left, pow_zero, mul_one]
      rw [show (C (2 : F)) = 2 from rfl]; ring
    have ht3ne : t3 ≠ [] := by intro h; rw [h] at ht3l; simp at ht3l
    rw [polyMul_spec ret t3 hretne ht3ne (by omega), unwrap_ok, bind_ok]
    set u := (List.range (d + 1)).map (polyOf ret * polyOf t3).coeff with hu
    have hul : u.length = d + 1 := by simp [hu]
    obtain ⟨r, hr, hrl, hrp⟩ := copy_loop u ret (by omega) (fun i hi => hz i (by omega))
    rw [hr, bind_ok]
    refine ih r (by omega) ?_ ?_
    · intro i hi
      rw [← coeff_polyOf, hrp, coeff_polyOf, List.getD_eq_default _ _ (by omega)]
    · rw [hrp]
      refine newton_step (polyOf a) (polyOf ret) (d0 + 1) (d + 1) hstep hd
        (polyOf t3) _ ?_ (trunc_dvd _ _)
      · rw [hpt3, show (2 : F[X]) - polyOf t - (2 - polyOf a * polyOf ret) =
          -(polyOf t - polyOf a * polyOf ret) by ring]
        exact (dvd_neg).mpr (trunc_dvd _ _)

omit [DecidableEq F] [FrTable F] [LawfulFr F] in
theorem dvd_C_mul {a : F[X]} {c : F} (h : a.coeff 0 = c) (hc : c ≠ 0) :
    X ^ 1 ∣ a * C c⁻¹ - 1 := by
  rw [X_pow_dvd_iff]
  intro d hd
  have : d = 0 := by omega
  subst this
  rw [coeff_sub, coeff_mul_C, h, mul_inv_cancel₀ hc]; simp

omit [DecidableEq F] [FrTable F] [LawfulFr F] in
theorem polyOf_replicate_zero (n : Nat) : polyOf (List.replicate n (0 : F)) = 0 := by
  ext k
  rw [coeff_polyOf, coeff_zero]
  by_cases hk : k < n
  · rw [List.getD_replicate _ hk]
  · rw [List.getD_eq_default _ _ (by simp; omega)]

theorem polyInverse_spec (a : List F) (n : Nat) (hn : 0 < n) (ha : a ≠ []) (h0 : a.getD 0 0 ≠ 0)
    (hlen1 : a.length + n ≤ 2 ^ 31 + 1) (hlen2 : 2 * n ≤ 2 ^ 31 + 1) :
    Sat (polyInverse a n) (fun r => r.length = n ∧ X ^ n ∣ polyOf a * polyOf r - 1) := by
  have ha' : 0 < a.length := List.length_pos_iff.mpr ha
  unfold polyInverse
  rw [if_neg (by omega), if_neg (by simpa using ha), rd_getD 0 ha', bind_ok, if_neg h0]
  simp only
  rw [wr_of_lt (by simpa using hn), bind_ok]
  set ret := (List.replicate n (0 : F)).set 0 (a.getD 0 0)⁻¹ with hret
  have hretl : ret.length = n := by simp [hret]
  have hretp : polyOf ret = C (a.getD 0 0)⁻¹ := by
    rw [hret, polyOf_set (by simpa using hn), polyOf_replicate_zero, List.getD_replicate _ hn]
    simp
  split
  · next h1 =>
    refine Sat.ok ⟨hretl, ?_⟩
    have hc : polyOf a = C (a.getD 0 0) := by
      ext k
      rw [coeff_polyOf, coeff_C]
      split
      · next h => rw [h]
      · rw [List.getD_eq_default _ _ (by omega)]
    rw [hretp, hc, ← C_mul, mul_inv_cancel₀ h0]; simp
  · rw [subU_of_le (by omega), bind_ok]
    have hj : (1 <<< log2U64 (n - 1)) = if Nat.log2 (n - 1) + 1 = 0 then 0 else
        2 ^ (Nat.log2 (n - 1) + 1 - 1) := by
      rw [if_neg (by omega), log2U64_eq, Nat.shiftLeft_eq]; simp
    have hd0 : (n - 1) / 2 ^ (Nat.log2 (n - 1) + 1) = 0 := Nat.div_eq_of_lt Nat.lt_log2_self
    have := invLoop_spec a ha n hn hlen1 hlen2 (Nat.log2 (n - 1) + 1) ret hretl (by
      intro i hi
      rw [hd0] at hi
      rw [← coeff_polyOf, hretp, coeff_C, if_neg (by omega)]) (by
      rw [hd0, hretp]
      exact dvd_C_mul (coeff_polyOf a 0) h0)
    rw [hd0, ← hj] at this
    obtain ⟨⟨d, r⟩, hr, g1, g2, g3⟩ := this
    simp only at g1 g2 g3
    rw [hr, bind_ok]
    simp only
    rw [if_neg (by omega)]
    exact Sat.ok ⟨g2, g3⟩

/-! ## Fast division -/

omit [DecidableEq F] [FrTable F] [LawfulFr F] in
theorem polyOf_reverse (a : List F) : polyOf a.reverse = reflect (a.length - 1) (polyOf a) := by
  ext i
  rw [coeff_reflect, coeff_polyOf, coeff_polyOf]
  by_cases hi : i < a.length
  · rw [revAt_le (by omega), List.getD_eq_getElem _ _ (by simpa using hi),
      List.getD_eq_getElem _ _ (by omega), List.getElem_reverse]
  · rw [List.getD_eq_default _ _ (by simp; omega)]
    by_cases h0 : a.length = 0
    · rw [List.getD_eq_default _ _ (by omega)]
    · rw [revAt_eq_self_of_lt (by omega), List.getD_eq_default _ _ (by omega)]

omit [DecidableEq F] [FrTable F] [LawfulFr F] in
theorem natDegree_polyOf_le (a : List F) : (polyOf a).natDegree ≤ a.length - 1 := by
  rw [natDegree_le_iff_coeff_eq_zero]
  intro k hk
  rw [coeff_polyOf, List.getD_eq_default _ _ (by omega)]

theorem fastDiv_eq (a b : List F) (ha : a ≠ []) (hb : b ≠ [])
    (hlead : b.getD (b.length - 1) 0 ≠ 0) (hlen : 2 * a.length ≤ 2 ^ 31) :
    fastDiv a b = longDiv a b := by
  have hal : 0 < a.length := List.length_pos_iff.mpr ha
  have hbl : 0 < b.length := List.length_pos_iff.mpr hb
  obtain ⟨q, hq, hql, hdeg⟩ := longDiv_spec a b hb hlead
  rw [hq]
  unfold fastDiv
  rw [if_neg (by simpa using hb), subU_of_le hbl, bind_ok, rd_getD 0 (by omega), bind_ok,
    if_neg hlead, subU_of_le hal, bind_ok, bind_ok]
  by_cases hnm : b.length - 1 > a.length - 1
  · rw [if_pos hnm]
    have : q = [] := List.length_eq_zero_iff.mp (by omega)
    rw [this]
  rw [if_neg hnm]
  by_cases hb1 : b.length = 1
  · rw [if_pos hb1, fill_loop (by simp) (fun i => a.getD i 0 * (b.getD 0 0)⁻¹) (by
      intro i s hi _ _ _
      rw [rd_getD 0 (by simpa using hi), bind_ok, rd_getD 0 (by omega), bind_ok])]
    congr 1
    symm
    have hlead' : b.getD 0 0 ≠ 0 := by simpa [hb1] using hlead
    have h0 : polyOf a - polyOf q * polyOf b = 0 := by
      rw [hb1] at hdeg
      simpa using hdeg
    have hbC : polyOf b = C (b.getD 0 0) := by
      ext k
      rw [coeff_polyOf, coeff_C]
      split
      · next h => rw [h]
      · rw [List.getD_eq_default _ _ (by omega)]
    apply polyOf_inj (by simp; omega)
    ext i
    rw [polyOf_map_range]
    have := congrArg (fun p => p.coeff i) (sub_eq_zero.mp h0)
    simp only [hbC, coeff_mul_C, coeff_polyOf] at this
    rw [coeff_polyOf]
    split
    · rw [this, mul_assoc, mul_inv_cancel₀ hlead', mul_one]
    · rw [List.getD_eq_default q _ (by omega)]
  rw [if_neg hb1, polyFlip_spec, unwrap_ok, bind_ok, polyFlip_spec, unwrap_ok, bind_ok,
    subU_of_le (by omega), bind_ok]
  set k := a.length - 1 - (b.length - 1) + 1 with hk
  have hrevb : b.reverse ≠ [] := by simpa using hb
  have hreva : a.reverse ≠ [] := by simpa using ha
  have hb0 : b.reverse.getD 0 0 ≠ 0 := by
    rw [List.getD_eq_getElem _ _ (by simpa using hbl), List.getElem_reverse]
    rw [List.getD_eq_getElem _ _ (by omega)] at hlead
    simpa using hlead
  obtain ⟨v, hv, hvl, hvd⟩ := polyInverse_spec b.reverse k (by omega) hrevb hb0
    (by simp; omega) (by omega)
  have hvne : v ≠ [] := by intro h; rw [h] at hvl; simp at hvl
  rw [hv, unwrap_ok, bind_ok, polyMul_spec _ _ hreva hvne (by simp; omega), unwrap_ok, bind_ok,
    polyFlip_spec, unwrap_ok]
  congr 1
  rw [List.reverse_eq_iff]
  -- the reversed quotient
  apply polyOf_inj (by simp; omega)
  ext i
  rw [polyOf_map_range]
  have hqk : q.length = k := by omega
  by_cases hi : i < k
  · rw [if_pos hi]
    -- rev a = rev q * rev b + (multiple of X^k)
    have h1 : X ^ k ∣ polyOf a.reverse - polyOf q.reverse * polyOf b.reverse := by
      rw [polyOf_reverse, polyOf_reverse, polyOf_reverse,
        ← reflect_mul _ _ (natDegree_polyOf_le q) (natDegree_polyOf_le b),
        show q.length - 1 + (b.length - 1) = a.length - 1 by omega]
      rw [X_pow_dvd_iff]
      intro d hd
      rw [coeff_sub, coeff_reflect, coeff_reflect, revAt_le (by omega), ← coeff_sub]
      exact (degree_lt_iff_coeff_zero _ _).mp hdeg _ (by omega)
    have h2 : X ^ k ∣ polyOf a.reverse * polyOf v - polyOf q.reverse := by
      have e : polyOf a.reverse * polyOf v - polyOf q.reverse =
          (polyOf a.reverse - polyOf q.reverse * polyOf b.reverse) * polyOf v +
          polyOf q.reverse * (polyOf b.reverse * polyOf v - 1) := by ring
      rw [e]
      exact dvd_add (h1.mul_right _) (hvd.mul_left _)
    have := X_pow_dvd_iff.mp h2 i hi
    rw [coeff_sub, sub_eq_zero] at this
    exact this
  · rw [if_neg hi, coeff_polyOf, List.getD_eq_default _ _ (by simp; omega)]

theorem polyDiv_eq (a b : List F) (hlen : 2 * a.length ≤ 2 ^ 31) : polyDiv a b = longDiv a b := by
  unfold polyDiv
  split
  · rfl
  · next h =>
    have hb : b ≠ [] := by intro h'; rw [h'] at h; simp at h
    have ha : a ≠ [] := by intro h'; rw [h'] at h; simp at h
    by_cases hlead : b.getD (b.length - 1) 0 = 0
    · have hbl : 0 < b.length := List.length_pos_iff.mpr hb
      rw [longDiv_lead a b hb hlead, fastDiv, if_neg (by simpa using hb), subU_of_le hbl, bind_ok,
        rd_getD 0 (by omega), bind_ok, if_pos hlead]
    · exact fastDiv_eq a b ha hb hlead hlen

end Kzg
