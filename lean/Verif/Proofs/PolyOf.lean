import Mathlib.Algebra.Polynomial.Eval.Degree
import Mathlib.Algebra.Polynomial.BigOperators
import Mathlib.Data.List.GetD
import Verif.Spec.Poly
/-!
# Lemmas about `polyOf`
-/

namespace Kzg
open Polynomial Finset

variable {F : Type}

theorem coeff_polyOf [Semiring F] (l : List F) (i : Nat) : (polyOf l).coeff i = l.getD i 0 := by
  rw [polyOf, finsetSum_coeff]
  simp only [coeff_C_mul, coeff_X_pow]
  by_cases h : i < l.length
  · rw [sum_eq_single i]
    · simp
    · intro b _ hb; rw [if_neg (fun h => hb h.symm)]; simp
    · intro h'; exact absurd (mem_range.mpr h) h'
  · rw [List.getD_eq_default _ _ (by omega)]
    refine sum_eq_zero fun j hj => ?_
    rw [if_neg (by have := mem_range.mp hj; omega)]; simp

theorem polyOf_nil [Semiring F] : polyOf ([] : List F) = 0 := by simp [polyOf]

theorem degree_polyOf_lt [Semiring F] (l : List F) : (polyOf l).degree < l.length := by
  rw [degree_lt_iff_coeff_zero]
  intro m hm
  rw [coeff_polyOf, List.getD_eq_default _ _ hm]

theorem eval_polyOf [CommSemiring F] (l : List F) (x : F) :
    (polyOf l).eval x = ∑ i ∈ range l.length, l.getD i 0 * x ^ i := by
  rw [polyOf, eval_finsetSum]
  refine sum_congr rfl fun i _ => ?_
  simp

theorem eval_polyOf_le [CommSemiring F] (l : List F) (x : F) {n : Nat} (hn : l.length ≤ n) :
    (polyOf l).eval x = ∑ i ∈ range n, l.getD i 0 * x ^ i := by
  rw [eval_polyOf]
  refine sum_subset (range_subset_range.mpr hn) fun i _ hi => ?_
  rw [List.getD_eq_default _ _ (by simpa using hi)]; simp

theorem polyOf_congr [Semiring F] {a b : List F} (h : ∀ i, a.getD i 0 = b.getD i 0) :
    polyOf a = polyOf b := by
  ext i; rw [coeff_polyOf, coeff_polyOf, h]

theorem polyOf_inj [Semiring F] {a b : List F} (hl : a.length = b.length)
    (h : polyOf a = polyOf b) : a = b := by
  apply List.ext_getElem hl
  intro i h1 h2
  have := congrArg (fun p => p.coeff i) h
  simp only [coeff_polyOf] at this
  simpa [List.getD_eq_getElem?_getD, h1, h2] using this

theorem exists_list [Semiring F] (p : F[X]) (n : Nat) (h : p.degree < n) :
    ∃ l : List F, l.length = n ∧ polyOf l = p := by
  refine ⟨(List.range n).map p.coeff, by simp, ?_⟩
  ext i
  rw [coeff_polyOf, List.getD_eq_getElem?_getD, List.getElem?_map]
  by_cases hi : i < n
  · simp [List.getElem?_range hi]
  · rw [List.getElem?_eq_none (by simp; omega)]
    simp only [Option.map_none, Option.getD_none]
    exact ((degree_lt_iff_coeff_zero p n).mp h i (by omega)).symm

end Kzg
