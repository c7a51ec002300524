import Mathlib.Algebra.Polynomial.FieldDivision
import Verif.Proofs.Poly
/-!
# Long division: proofs
-/

set_option linter.unusedSectionVars false

namespace Kzg
open Res Polynomial Finset

variable {F : Type} [Field F] [DecidableEq F]

theorem polyOf_set {l : List F} {i : Nat} (h : i < l.length) (v : F) :
    polyOf (l.set i v) = polyOf l + C (v - l.getD i 0) * X ^ i := by
  ext k
  rw [coeff_add, coeff_C_mul, coeff_X_pow, coeff_polyOf, coeff_polyOf, List.getD_eq_getElem?_getD,
    getElem?_set_of_lt h]
  split
  · next h => subst h; simp
  · rw [← List.getD_eq_getElem?_getD]; simp

theorem polyOf_take_succ {l : List F} {i : Nat} (h : i < l.length) :
    polyOf (l.take (i + 1)) = polyOf (l.take i) + C (l.getD i 0) * X ^ i := by
  ext k
  rw [coeff_add, coeff_C_mul, coeff_X_pow, coeff_polyOf, coeff_polyOf, List.getD_eq_getElem?_getD,
    List.getD_eq_getElem?_getD, List.getElem?_take, List.getElem?_take]
  by_cases h1 : k < i
  · rw [if_pos (by omega), if_pos h1, if_neg (by omega)]; simp
  · rw [if_neg h1]
    by_cases h2 : k = i
    · subst h2; simp [h]
    · rw [if_neg (by omega), if_neg h2]; simp

theorem longDivInner_spec (b : List F) (bPos : Nat) (hb : b.length = bPos + 1) (diff : Nat)
    (out a : List F) (q : F) (hq : out[diff]? = some q) (ha : diff + bPos < a.length) :
    Sat (forRange 0 (bPos + 1) a fun i a => do
      let o ← rd out diff
      let d ← rd b i
      let c ← rd a (diff + i)
      wr a (diff + i) (c - o * d))
    (fun r => r.length = a.length ∧ polyOf r = polyOf a - C q * X ^ diff * polyOf b) := by
  have := forRange_inv (lo := 0) (hi := bPos + 1) (s := a) (body := fun i a => do
      let o ← rd out diff
      let d ← rd b i
      let c ← rd a (diff + i)
      wr a (diff + i) (c - o * d))
    (fun i r => r.length = a.length ∧ polyOf r = polyOf a - C q * X ^ diff * polyOf (b.take i))
    (Nat.zero_le _) ⟨rfl, by simp [polyOf_nil]⟩ ?_
  · refine Sat.mono this ?_
    rintro r ⟨hl, hr⟩
    rw [← hb, List.take_length] at hr
    exact ⟨hl, hr⟩
  · rintro i s _ hi ⟨hl, hs⟩
    rw [rd_of_getElem? hq, bind_ok, rd_getD 0 (by omega : i < b.length), bind_ok,
      rd_getD 0 (by omega : diff + i < s.length), bind_ok, wr_of_lt (by omega)]
    refine Sat.ok ⟨by simp [hl], ?_⟩
    rw [polyOf_set (by omega), hs, polyOf_take_succ (by omega)]
    simp only [sub_sub_cancel_left, C_neg, C_mul, pow_add]
    ring

theorem longDivLoop_spec (b : List F) (bPos : Nat) (hb : b.length = bPos + 1)
    (hlead : b.getD bPos 0 ≠ 0) (p : F[X]) : ∀ (diff : Nat) (a out : List F),
    bPos + diff < a.length → diff < out.length →
    (∀ k, bPos + diff < k → a.getD k 0 = 0) → (∀ k ≤ diff, out.getD k 0 = 0) →
    p = polyOf out * polyOf b + polyOf a →
    Sat (longDivLoop b bPos diff (bPos + diff) a out) (fun r => r.1 = bPos ∧
      r.2.1.length = a.length ∧ r.2.2.length = out.length ∧ (∀ k, bPos < k → r.2.1.getD k 0 = 0) ∧
      r.2.2.getD 0 0 = 0 ∧ p = polyOf r.2.2 * polyOf b + polyOf r.2.1) := by
  intro diff
  induction diff with
  | zero =>
    intro a out h1 h2 h3 h4 h5
    exact Sat.ok ⟨rfl, rfl, rfl, h3, h4 0 le_rfl, h5⟩
  | succ diff ih =>
    intro a out h1 h2 h3 h4 h5
    simp only [longDivLoop]
    rw [rd_getD 0 h1, bind_ok, rd_getD 0 (by omega : bPos < b.length), bind_ok, wr_of_lt h2, bind_ok]
    set q := a.getD (bPos + (diff + 1)) 0 * (b.getD bPos 0)⁻¹ with hq
    obtain ⟨a', ha', hl', hp'⟩ := longDivInner_spec b bPos hb (diff + 1) (out.set (diff + 1) q) a q
      (by rw [getElem?_set_of_lt h2, if_pos rfl]) (by omega)
    rw [ha', bind_ok, subU_of_le (by omega), bind_ok]
    have e : bPos + (diff + 1) - 1 = bPos + diff := by omega
    rw [e]
    have hcoef : ∀ k, a'.getD k 0 = a.getD k 0 - q * (if diff + 1 ≤ k then b.getD (k - (diff + 1)) 0 else 0) := by
      intro k
      have := congrArg (fun p => p.coeff k) hp'
      simp only [coeff_polyOf, coeff_sub, mul_assoc, coeff_C_mul, coeff_X_pow_mul'] at this
      exact this
    refine Sat.mono (ih a' (out.set (diff + 1) q) (by omega) (by simp; omega) ?_ ?_ ?_) ?_
    · intro k hk
      rw [hcoef k]
      by_cases hk2 : k = bPos + (diff + 1)
      · subst hk2
        rw [if_pos (by omega), show bPos + (diff + 1) - (diff + 1) = bPos by omega, hq]
        rw [mul_assoc, inv_mul_cancel₀ hlead]; ring
      · rw [h3 k (by omega), if_pos (by omega), List.getD_eq_default b _ (by omega)]; ring
    · intro k hk
      rw [List.getD_eq_getElem?_getD, getElem?_set_of_lt h2, if_neg (by omega),
        ← List.getD_eq_getElem?_getD]
      exact h4 k (by omega)
    · rw [h5, hp', polyOf_set h2, h4 (diff + 1) le_rfl, sub_zero]; ring
    · rintro r ⟨g1, g2, g3, g4, g5, g6⟩
      exact ⟨g1, by omega, by simpa using g3, g4, g5, g6⟩

theorem longDiv_spec (a b : List F) (hb : b ≠ []) (hlead : b.getD (b.length - 1) 0 ≠ 0) :
    Sat (longDiv a b) (fun q => q.length = a.length + 1 - b.length ∧
      (polyOf a - polyOf q * polyOf b).degree < ((b.length - 1 : Nat) : WithBot Nat)) := by
  have hbl : 0 < b.length := List.length_pos_iff.mpr hb
  unfold longDiv
  rw [if_neg (by simpa using hb), subU_of_le (by omega), bind_ok, rd_getD 0 (by omega), bind_ok,
    if_neg hlead]
  by_cases hlen : b.length ≤ a.length
  · have hql : polyQuotientLength a b = a.length - b.length + 1 := by
      rw [polyQuotientLength, if_pos hlen]
    simp only [hql]
    rw [if_neg (by omega), subU_of_le (show 1 ≤ a.length by omega), bind_ok,
      bind_ok,
      subU_of_le (show b.length - 1 ≤ a.length - 1 by omega), bind_ok]
    obtain ⟨⟨p1, a1, o1⟩, hr, g1, g2, g3, g4, g5, g6⟩ := longDivLoop_spec b (b.length - 1) (by omega) hlead
      (polyOf a) (a.length - 1 - (b.length - 1)) a (List.replicate (a.length - b.length + 1) (0 : F))
      (by omega) (by simp; omega)
      (fun k hk => List.getD_eq_default _ _ (by omega))
      (fun k hk => by rw [List.getD_replicate _ (by omega)])
      (by
        have : polyOf (List.replicate (a.length - b.length + 1) (0 : F)) = 0 := by
          ext k
          rw [coeff_polyOf, coeff_zero]
          by_cases hk : k < a.length - b.length + 1
          · rw [List.getD_replicate _ hk]
          · rw [List.getD_eq_default _ _ (by simp; omega)]
        rw [this]; ring)
    simp only at g1 g2 g3 g4 g5 g6
    rw [show b.length - 1 + (a.length - 1 - (b.length - 1)) = a.length - 1 by omega] at hr
    rw [hr, bind_ok]
    simp only
    subst g1
    simp only [List.length_replicate] at g3
    rw [rd_getD 0 (by omega), bind_ok, rd_getD 0 (by omega), bind_ok, wr_of_lt (by omega)]
    refine Sat.ok ⟨by simp; omega, ?_⟩
    rw [polyOf_set (by omega), g5, g6, degree_lt_iff_coeff_zero]
    intro k hk
    set q := a1.getD (b.length - 1) 0 * (b.getD (b.length - 1) 0)⁻¹ with hq
    have e : polyOf o1 * polyOf b + polyOf a1 - (polyOf o1 + C (q - 0) * X ^ 0) * polyOf b =
        polyOf a1 - C q * polyOf b := by simp; ring
    rw [e, coeff_sub, coeff_C_mul, coeff_polyOf, coeff_polyOf]
    by_cases hk2 : k = b.length - 1
    · subst hk2; rw [hq, mul_assoc, inv_mul_cancel₀ hlead]; ring
    · rw [g4 k (by omega), List.getD_eq_default b _ (by omega)]; ring
  · have hql : polyQuotientLength a b = 0 := by rw [polyQuotientLength, if_neg (by omega)]
    simp only [hql, List.replicate_zero, if_true]
    refine Sat.ok ⟨by simp; omega, ?_⟩
    rw [polyOf_nil, zero_mul, sub_zero]
    refine lt_of_lt_of_le (degree_polyOf_lt a) ?_
    exact_mod_cast (by omega : a.length ≤ b.length - 1)

theorem longDiv_empty (a : List F) : longDiv a [] = .err "Can't divide by zero" := by
  simp [longDiv]

theorem longDiv_lead (a b : List F) (hb : b ≠ []) (hlead : b.getD (b.length - 1) 0 = 0) :
    longDiv a b = .err "Highest coefficient must be non-zero" := by
  have hbl : 0 < b.length := List.length_pos_iff.mpr hb
  unfold longDiv
  rw [if_neg (by simpa using hb), subU_of_le (by omega), bind_ok, rd_getD 0 (by omega), bind_ok,
    if_pos hlead]

theorem natDegree_of_lead {b : List F} (hb : b ≠ []) (hlead : b.getD (b.length - 1) 0 ≠ 0) :
    (polyOf b).natDegree = b.length - 1 ∧ polyOf b ≠ 0 := by
  have hbl : 0 < b.length := List.length_pos_iff.mpr hb
  have hc : (polyOf b).coeff (b.length - 1) ≠ 0 := by rw [coeff_polyOf]; exact hlead
  have h0 : polyOf b ≠ 0 := by intro h; rw [h] at hc; simp at hc
  refine ⟨?_, h0⟩
  refine natDegree_eq_of_le_of_coeff_ne_zero ?_ hc
  rw [natDegree_le_iff_coeff_eq_zero]
  intro k hk
  rw [coeff_polyOf, List.getD_eq_default _ _ (by omega)]

/-- The remainder bound determines the quotient: it is the Euclidean quotient. -/
theorem quotient_unique {p q b : F[X]} (hb : b ≠ 0) (h : (p - q * b).degree < b.degree) :
    q = p / b := by
  by_contra hne
  have hne' : q - p / b ≠ 0 := sub_ne_zero.mpr hne
  have e : b * (q - p / b) = p % b - (p - q * b) := by
    have := EuclideanDomain.div_add_mod p b
    linear_combination -this
  have h1 : b.degree ≤ (b * (q - p / b)).degree := degree_le_mul_left b hne'
  have h2 : (p % b - (p - q * b)).degree < b.degree :=
    lt_of_le_of_lt (degree_sub_le _ _) (max_lt (degree_mod_lt p hb) h)
  rw [e] at h1
  exact absurd h1 (not_le.mpr h2)

theorem longDiv_div (a b : List F) (hb : b ≠ []) (hlead : b.getD (b.length - 1) 0 ≠ 0) :
    Sat (longDiv a b) (fun q => q.length = a.length + 1 - b.length ∧
      polyOf q = polyOf a / polyOf b) := by
  refine Sat.mono (longDiv_spec a b hb hlead) ?_
  rintro q ⟨hl, hd⟩
  obtain ⟨hn, h0⟩ := natDegree_of_lead hb hlead
  refine ⟨hl, quotient_unique h0 ?_⟩
  rwa [degree_eq_natDegree h0, hn]

end Kzg
