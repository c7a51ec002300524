import Mathlib.Algebra.Polynomial.Reverse
import Mathlib.Algebra.Polynomial.Div
import Mathlib.Tactic.LinearCombination
import Mathlib.Tactic.FieldSimp
import Verif.Model.Poly
import Verif.Proofs.PolyOf
import Verif.Proofs.Loops
import Verif.Proofs.Utils
/-!
# Polynomial arithmetic: proofs
-/

set_option linter.unusedSectionVars false

namespace Kzg
open Res Polynomial Finset

section Basic
variable {F : Type} [Field F] [DecidableEq F]

/-! ## Evaluation -/

theorem evalLoop_spec (coeffs : List F) (x : F) : ∀ (i : Nat) (ret : F), i < coeffs.length →
    evalLoop coeffs x i ret =
      .ok (ret * x ^ (i + 1) + ∑ j ∈ range (i + 1), coeffs.getD j 0 * x ^ j) := by
  intro i
  induction i with
  | zero =>
    intro ret h
    simp only [evalLoop]
    rw [rd_getD 0 h, bind_ok]
    simp
  | succ i ih =>
    intro ret h
    simp only [evalLoop]
    rw [rd_getD 0 h, bind_ok, ih _ (by omega), sum_range_succ _ (i + 1)]
    congr 1
    ring

theorem polyEval_spec (coeffs : List F) (x : F) (h : coeffs.length ≠ 1 ∨ x = 0) :
    polyEval coeffs x = .ok ((polyOf coeffs).eval x) := by
  unfold polyEval
  by_cases h0 : coeffs = []
  · subst h0; simp [polyOf_nil]
  have hl : 0 < coeffs.length := List.length_pos_iff.mpr h0
  rw [if_neg (by simpa using h0)]
  by_cases hx : x = 0
  · subst hx
    rw [if_pos rfl, rd_getD 0 hl, ← coeff_polyOf, coeff_zero_eq_eval_zero]
  · have h1 : 2 ≤ coeffs.length := by have := h.resolve_right hx; omega
    rw [if_neg hx, subU_of_le hl, bind_ok, rd_getD 0 (by omega), bind_ok,
      subU_of_le h1, bind_ok, evalLoop_spec _ _ _ _ (by omega), eval_polyOf]
    congr 1
    obtain ⟨n, hn⟩ : ∃ n, coeffs.length = n + 2 := ⟨coeffs.length - 2, by omega⟩
    rw [hn, sum_range_succ _ (n + 1)]
    simp only [Nat.add_sub_cancel, show n + 2 - 1 = n + 1 by omega]
    ring

theorem polyEval_one_panic (c x : F) (hx : x ≠ 0) : polyEval [c] x = .panic := by
  simp [polyEval, hx, rd, subU]

/-! ## Scaling -/

theorem polyScaleBy_spec (f : F) (coeffs : List F) :
    polyScaleBy f coeffs = .ok ((List.range coeffs.length).map
      fun i => coeffs.getD i 0 * f ^ (i + 1)) := by
  unfold polyScaleBy
  have := forRange_inv (σ := F × List F) (lo := 0) (hi := coeffs.length) (s := ((1 : F), coeffs))
    (body := fun i s => do
      let factorPower := s.1 * f
      let c ← rd s.2 i
      let v ← wr s.2 i (c * factorPower)
      .ok (factorPower, v))
    (fun i s => s.1 = f ^ i ∧ s.2.length = coeffs.length ∧
      (∀ j < i, s.2[j]? = some (coeffs.getD j 0 * f ^ (j + 1))) ∧
      ∀ j, i ≤ j → s.2[j]? = coeffs[j]?) (Nat.zero_le _)
    ⟨by simp, rfl, fun j h => by omega, fun _ _ => rfl⟩ ?_
  · obtain ⟨s, hs, _, hl, h1, _⟩ := this
    rw [hs, bind_ok]
    congr 1
    apply List.ext_getElem?
    intro i
    by_cases hi : i < coeffs.length
    · rw [h1 i hi, List.getElem?_map, List.getElem?_range hi]; rfl
    · rw [List.getElem?_eq_none (by omega), List.getElem?_eq_none (by simp; omega)]
  · rintro i ⟨p, v⟩ _ hi ⟨hp, hl, h1, h2⟩
    simp only at hp hl h1 h2 ⊢
    have hrd : rd v i = .ok (coeffs.getD i 0) :=
      rd_of_getElem? (by rw [h2 i le_rfl, getElem?_eq_some_getD 0 hi])
    rw [hrd, bind_ok, wr_of_lt (by omega), bind_ok]
    refine Sat.ok ⟨by simp [hp, pow_succ], by simp [hl], ?_, ?_⟩
    · intro j hj
      simp only
      rw [getElem?_set_of_lt (by omega)]
      split
      · next h => subst h; rw [hp, pow_succ]
      · exact h1 j (by omega)
    · intro j hj
      simp only
      rw [getElem?_set_of_lt (by omega), if_neg (by omega)]
      exact h2 j (by omega)

/-! ## Direct multiplication -/

/-- The contribution of row `i` to coefficient `k`. -/
def rowTerm (a b : List F) (i k : Nat) : F := if i ≤ k then a.getD i 0 * b.getD (k - i) 0 else 0

theorem mulDirectInner_spec (a b : List F) (hb : 0 < b.length) (outLen i : Nat)
    (hi : i < a.length) : ∀ (n j : Nat) (ret : List F), n = b.length - j → j ≤ b.length →
      ret.length = outLen →
      Sat (mulDirectInner a b (b.length - 1) outLen i j ret) (fun r => r.length = outLen ∧
        ∀ k < outLen, r.getD k 0 = ret.getD k 0 + if i + j ≤ k then rowTerm a b i k else 0) := by
  intro n
  induction n with
  | zero =>
    intro j ret hn hj hl
    unfold mulDirectInner
    rw [if_neg (by omega)]
    refine Sat.ok ⟨hl, fun k hk => ?_⟩
    split
    · next h =>
      rw [rowTerm, if_pos (by omega), List.getD_eq_default b _ (by omega)]; simp
    · simp
  | succ n ih =>
    intro j ret hn hj hl
    unfold mulDirectInner
    by_cases hout : i + j < outLen
    · rw [if_pos ⟨by omega, hout⟩, rd_getD 0 hi, bind_ok, rd_getD 0 (by omega : j < b.length),
        bind_ok, rd_getD 0 (by omega : i + j < ret.length), bind_ok, wr_of_lt (by omega), bind_ok]
      refine Sat.mono (ih (j + 1) _ (by omega) (by omega) (by simp [hl])) ?_
      rintro r ⟨hrl, hr⟩
      refine ⟨hrl, fun k hk => ?_⟩
      rw [hr k hk, List.getD_eq_getElem?_getD, getElem?_set_of_lt (by omega)]
      by_cases hk1 : k = i + j
      · subst hk1
        rw [if_pos rfl, if_neg (by omega), if_pos (by omega), rowTerm, if_pos (by omega)]
        simp
      · rw [if_neg hk1, ← List.getD_eq_getElem?_getD]
        by_cases hk2 : i + j ≤ k
        · rw [if_pos (by omega), if_pos hk2]
        · rw [if_neg (by omega), if_neg hk2]
    · rw [if_neg (by omega)]
      refine Sat.ok ⟨hl, fun k hk => ?_⟩
      rw [if_neg (by omega)]; simp

theorem sum_rowTerm (a b : List F) (k : Nat) :
    ∑ i ∈ range a.length, rowTerm a b i k = (polyOf a * polyOf b).coeff k := by
  rw [coeff_mul, Finset.Nat.sum_antidiagonal_eq_sum_range_succ
    (fun i j => (polyOf a).coeff i * (polyOf b).coeff j)]
  simp only [coeff_polyOf]
  have h1 : ∑ i ∈ range a.length, rowTerm a b i k =
      ∑ i ∈ range (max a.length (k + 1)), rowTerm a b i k := by
    refine sum_subset (range_subset_range.mpr (by omega)) fun i _ hi => ?_
    rw [rowTerm, List.getD_eq_default a _ (by simpa using hi)]; simp
  have h2 : ∑ i ∈ range (k + 1), a.getD i 0 * b.getD (k - i) 0 =
      ∑ i ∈ range (max a.length (k + 1)), rowTerm a b i k := by
    rw [← sum_subset (range_subset_range.mpr (by omega : k + 1 ≤ max a.length (k + 1)))]
    · refine sum_congr rfl fun i hi => ?_
      rw [rowTerm, if_pos (by have := mem_range.mp hi; omega)]
    · intro i _ hi
      rw [rowTerm, if_neg (by simp at hi; omega)]
  exact h1.trans h2.symm

theorem mulDirect_spec (a b : List F) (ha : a ≠ []) (hb : b ≠ []) (n : Nat) :
    mulDirect a b n = .ok ((List.range n).map (polyOf a * polyOf b).coeff) := by
  have ha' : 0 < a.length := List.length_pos_iff.mpr ha
  have hb' : 0 < b.length := List.length_pos_iff.mpr hb
  unfold mulDirect
  rw [if_neg (by omega), subU_of_le (by omega), bind_ok, subU_of_le (by omega), bind_ok]
  obtain ⟨r, hr, hl, hv⟩ := forRange_inv (lo := 0) (hi := a.length - 1 + 1)
    (s := List.replicate n (0 : F))
    (body := fun i ret => mulDirectInner a b (b.length - 1) n i 0 ret)
    (fun i s => s.length = n ∧ ∀ k < n, s.getD k 0 = ∑ i' ∈ range i, rowTerm a b i' k)
    (Nat.zero_le _) ⟨by simp, fun k hk => by simp [hk]⟩ (by
      rintro i s _ hi ⟨hl, hs⟩
      refine Sat.mono (mulDirectInner_spec a b hb' n i (by omega) _ 0 s rfl (by omega) hl) ?_
      rintro r ⟨hrl, hr⟩
      refine ⟨hrl, fun k hk => ?_⟩
      rw [hr k hk, hs k hk, sum_range_succ]
      congr 1
      rw [rowTerm]; simp only [Nat.add_zero]; split <;> simp)
  rw [hr]
  congr 1
  rw [eq_map_getD r 0, hl]
  apply List.map_congr_left
  intro k hk
  have hk' : k < n := by simpa using hk
  rw [hv k hk', show a.length - 1 + 1 = a.length by omega, sum_rowTerm]

theorem mulDirect_nil (a b : List F) (h : a = [] ∨ b = []) (n : Nat) :
    mulDirect a b n = .ok [] := by
  unfold mulDirect
  rw [if_pos (by rcases h with rfl | rfl <;> simp)]

/-! ## Padding and flipping -/

theorem polyPad_spec (a : List F) (n : Nat) :
    polyPad a n = .ok ((List.range n).map fun i => a.getD i 0) := by
  unfold polyPad
  rw [minU64_eq]
  obtain ⟨r, hr, hl, h1, h2⟩ := update_loop (v := List.replicate n (0 : F)) (lo := 0)
    (hi := min a.length n) (Nat.zero_le _) (by simp) (fun i => a.getD i 0)
    (body := fun i ret => do let x ← rd a i; wr ret i x) (by
      intro i s _ hi _ _ _
      rw [rd_getD 0 (by omega), bind_ok])
  rw [hr]
  congr 1
  apply List.ext_getElem?
  intro i
  by_cases hi : i < n
  · rw [List.getElem?_map, List.getElem?_range hi]
    by_cases hi2 : i < a.length
    · rw [h1 i (Nat.zero_le _) (by omega)]; rfl
    · rw [h2 i (by omega), List.getElem?_replicate_of_lt hi, Option.map_some,
        List.getD_eq_default _ _ (by omega)]
  · rw [List.getElem?_eq_none (by simp at hl; omega), List.getElem?_eq_none (by simp; omega)]

omit [DecidableEq F] in
theorem polyOf_map_range (f : Nat → F) (n : Nat) (i : Nat) :
    (polyOf ((List.range n).map f)).coeff i = if i < n then f i else 0 := by
  rw [coeff_polyOf, getD_range_map]

theorem polyFlip_spec (a : List F) : polyFlip a = .ok a.reverse := by
  unfold polyFlip
  rw [fill_loop (v := List.replicate a.length (0 : F)) (by simp)
    (fun i => a.getD (a.length - i - 1) 0) (by
      intro i s hi _ _ _
      rw [subU_of_le (by omega), bind_ok, subU_of_le (by omega), bind_ok, rd_getD 0 (by omega),
        bind_ok])]
  congr 1
  apply List.ext_getElem (by simp)
  intro i h1 h2
  simp only [List.getElem_map, List.getElem_range, List.getElem_reverse]
  rw [List.getD_eq_getElem _ _ (by simp at h2; omega)]
  congr 1
  omega

end Basic
end Kzg
