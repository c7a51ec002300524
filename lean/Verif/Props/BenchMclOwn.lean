import Verif.Model.BenchMclOwn
import Verif.Props.MclPoly
import Verif.Props.BenchFft
import Verif.Props.BenchKnown
/-!
# Property C205: the tests of its own that mcl-kzg has for polynomials and settings
-/

set_option linter.unusedSectionVars false

namespace Kzg.Props
open Kzg Kzg.Res Kzg.Bench Kzg.Mcl Polynomial

/-- C205 (values): the tests of `eval_at` pass exactly if the expected number is the value of the polynomial. -/
theorem C205_eval (cs : List Int) (x : Int) (expected : Fr) :
    mclEvalTest cs x expected = passIf ((polyOf (cs.map fun c : Int => (c : Fr))).eval (x : Fr) = expected) := by
  unfold mclEvalTest fromI32
  simp only
  rw [evalAt_eq]
  by_cases h : (polyOf (cs.map fun c : Int => (c : Fr))).eval (x : Fr) = expected
  · rw [passIf_true h, assertT_true (by simpa using h)]
  · rw [passIf_false h, beq_eq_false_iff_ne.2 h]; rfl

/-- C205 (extension by zeros): the test passes exactly if the expected coefficients are those of the polynomial, and zeros beyond them, as far
as the test looks. -/
theorem C205_extend (cs : List Int) (size : Nat) (expected : List Fr) :
    mclExtendTest cs size expected =
      passIf (∀ i < min expected.length size, expected.getD i 0 = ((cs.getD i 0 : Int) : Fr)) := by
  have hlen : size ≤ (extend (fromI32 cs : List Fr) size).length := by
    unfold extend
    split
    · omega
    · rw [List.length_append, List.length_replicate]; omega
  have hget : ∀ i < size, (extend (fromI32 cs : List Fr) size)[i]? = some ((cs.getD i 0 : Int) : Fr) := by
    intro i hi
    have hf : ∀ i < cs.length, (fromI32 cs : List Fr)[i]? = some ((cs.getD i 0 : Int) : Fr) := fun i hi => by
      rw [fromI32, List.getElem?_map, List.getElem?_eq_getElem hi, List.getD_eq_getElem?_getD, List.getElem?_eq_getElem hi]; rfl
    have hl : (fromI32 cs : List Fr).length = cs.length := by simp [fromI32]
    unfold extend
    split
    · exact hf i (by omega)
    · by_cases hc : i < cs.length
      · rw [List.getElem?_append_left (by omega)]; exact hf i hc
      · rw [List.getElem?_append_right (by omega), List.getElem?_replicate, if_pos (by omega), List.getD_eq_getElem?_getD,
          List.getElem?_eq_none (by omega)]
        simp
  have hb : ∀ i < min expected.length size, (do
      let item ← rd expected i
      let c ← rd (extend (fromI32 cs : List Fr) size) i
      assertT (item == c)) = assertT (decide (expected.getD i 0 = ((cs.getD i 0 : Int) : Fr))) := by
    intro i hi
    rw [rd_getD 0 (by omega), bind_ok, rd_of_getElem? (hget i (by omega)), bind_ok, beq_eq_decide]
  unfold mclExtendTest
  simp only
  by_cases h : ∀ i < min expected.length size, expected.getD i 0 = ((cs.getD i 0 : Int) : Fr)
  · rw [passIf_true h]
    exact each_ok fun i hi => (hb i hi).trans (assertT_true (decide_eq_true (h i hi)))
  · rw [passIf_false h]
    push Not at h
    obtain ⟨i, hi, hne⟩ := h
    exact each_panic hb ⟨i, hi, decide_eq_false hne⟩

section
variable [Mcl.Lib Fr]

/-- C205 (long division): with a divisor that has a nonzero coefficient at the top the test passes exactly if the expected list has the length
of the quotient and, from the coefficient of `X` on, its coefficients. -/
theorem C205_long_division (a b e : List Fr) (hb : b ≠ []) (hlead : b.getD (b.length - 1) 0 ≠ 0) :
    (mclLongDivTest a b e = .ok () ∨ mclLongDivTest a b e = .panic) ∧
    (mclLongDivTest a b e = .ok () ↔
      e.length = a.length + 1 - b.length ∧ ∀ j, 1 ≤ j → j < e.length → e.getD j 0 = (polyOf a / polyOf b).coeff j) := by
  obtain ⟨q, hq, hql, hp, -⟩ := C100_long_division a b hb hlead
  have inst : Decidable (e.length = a.length + 1 - b.length ∧
      ∀ j, 1 ≤ j → j < e.length → e.getD j 0 = (polyOf a / polyOf b).coeff j) := Classical.propDecidable _
  have key : mclLongDivTest a b e = passIf (e.length = a.length + 1 - b.length ∧
      ∀ j, 1 ≤ j → j < e.length → e.getD j 0 = (polyOf a / polyOf b).coeff j) := by
    unfold mclLongDivTest
    rw [hq, unwrap_ok, bind_ok]
    by_cases hl : e.length = q.length
    · rw [assertT_true (by simp [hl]), bind_ok]
      by_cases h0 : q.length = 0
      · rw [passIf_true ⟨by omega, fun j h1 h2 => by omega⟩, h0]; rfl
      · refine eachFrom_passIf (c := fun j => q.getD j 0 = e.getD j 0) (by omega) (fun j h1 h2 => ?_) ⟨fun h => ⟨by omega, fun j h1 h2 => ?_⟩,
          fun h j h1 h2 => ?_⟩
        · rw [rd_getD 0 h2, bind_ok, rd_getD 0 (by omega), bind_ok]
          by_cases hc : q.getD j 0 = e.getD j 0
          · rw [passIf_true hc, assertT_true (by simpa using hc)]
          · rw [passIf_false hc, beq_eq_false_iff_ne.2 hc]; rfl
        · rw [← h j h1 (by omega), ← hp, coeff_polyOf]
        · rw [h.2 j h1 (by omega), ← hp, coeff_polyOf]
    · rw [passIf_false fun h => hl (by omega), beq_eq_false_iff_ne.2 hl]; rfl
  by_cases h : e.length = a.length + 1 - b.length ∧ ∀ j, 1 ≤ j → j < e.length → e.getD j 0 = (polyOf a / polyOf b).coeff j
  · rw [key, passIf_true h]; exact ⟨.inl rfl, fun _ => h, fun _ => rfl⟩
  · rw [key, passIf_false h]; exact ⟨.inr rfl, fun hc => (by cases hc), fun hc => absurd hc h⟩

/-- C205 (long division, what is not seen): the constant coefficient is not looked at; a test that passes goes on to pass with any other
one. -/
theorem C205_constant_ignored (a b e : List Fr) (c : Fr) (hb : b ≠ []) (hlead : b.getD (b.length - 1) 0 ≠ 0)
    (h : mclLongDivTest a b e = .ok ()) : mclLongDivTest a b (e.set 0 c) = .ok () := by
  obtain ⟨hl, hc⟩ := (C205_long_division a b e hb hlead).2.1 h
  refine (C205_long_division a b _ hb hlead).2.2 ⟨by simpa using hl, fun j h1 h2 => ?_⟩
  rw [List.getD_eq_getElem?_getD, List.getElem?_set_ne (by omega), ← List.getD_eq_getElem?_getD]
  exact hc j h1 (by simpa using h2)

/-- C205 (the row that is left out): with a divisor longer than the dividend the expected empty list passes, so the third row of the data,
marked as one that does not work, would pass. -/
theorem C205_longer_divisor (a b : List Fr) (hlt : a.length < b.length) (hlead : b.getD (b.length - 1) 0 ≠ 0) :
    mclLongDivTest a b [] = .ok () := by
  refine (C205_long_division a b [] ?_ hlead).2.2 ⟨by simp; omega, fun j h1 h2 => by simp at h2⟩
  rintro rfl; simp at hlt

/-- C205 (division by zero): the test passes exactly if the divisor is empty or has a zero at the top. -/
theorem C205_div_by_zero (a b : List Fr) : mclDivByZeroTest a b = passIf (b = [] ∨ b.getD (b.length - 1) 0 = 0) := by
  unfold mclDivByZeroTest
  by_cases h : b = [] ∨ b.getD (b.length - 1) 0 = 0
  · obtain ⟨msg, e⟩ := (C100_rejects a b).1.2 h
    rw [passIf_true h, e]
  · obtain ⟨h1, h2⟩ := not_or.1 h
    obtain ⟨q, hq, -⟩ := C100_long_division a b h1 h2
    rw [passIf_false h, hq]

end

/-- C205 (roots): at every scale below 32 the test passes exactly if the expected values are the first powers of the root of the table, as
far as both lists go. -/
theorem C205_roots {scale : Nat} (hs : scale < 32) (expected : List Fr) :
    mclRootsTest scale expected = passIf (∀ i < min (2 ^ scale + 1) expected.length, row5 scale ^ i = expected.getD i 0) := by
  obtain ⟨fs, he, hwf, hr⟩ := newPR5_spec (F := Fr) start_inv hs
  have hroot : fs.rootOfUnity = row5 scale := by
    have hl : scale < (Tables.pr5 (F := Fr)).length := by rw [len5_fr]; exact hs
    rw [List.getElem?_eq_getElem hl, pr5_getElem hl] at hr
    exact (Option.some.inj hr).symm
  unfold mclRootsTest
  rw [show Mcl.FFTSettings.new5 scale = _ from he, bind_ok]
  have key : (fs.expandedRoots.zip expected).all (fun ab => ab.1 == ab.2) = true ↔
      ∀ i < min (2 ^ scale + 1) expected.length, row5 scale ^ i = expected.getD i 0 := by
    rw [List.all_eq_true]
    have hz : (fs.expandedRoots.zip expected).length = min (2 ^ scale + 1) expected.length := by rw [List.length_zip, hwf.elen]
    constructor
    · intro h i hi
      have h1 : i < (fs.expandedRoots.zip expected).length := by omega
      have := h _ (List.getElem_mem h1)
      rw [List.getElem_zip, beq_iff_eq] at this
      have e1 := hwf.exp i (by omega)
      rw [List.getElem?_eq_getElem (by rw [hwf.elen]; omega), Option.some.injEq, hroot] at e1
      simp only at this
      rw [← e1, this, List.getD_eq_getElem?_getD, List.getElem?_eq_getElem (by omega)]; rfl
    · intro h ab hab
      obtain ⟨i, hi, rfl⟩ := List.getElem_of_mem hab
      rw [List.getElem_zip, beq_iff_eq]
      have e1 := hwf.exp i (by omega)
      rw [List.getElem?_eq_getElem (by rw [hwf.elen]; omega), Option.some.injEq, hroot] at e1
      simp only
      rw [e1, h i (by omega), List.getD_eq_getElem?_getD, List.getElem?_eq_getElem (by omega)]; rfl
  by_cases h : ∀ i < min (2 ^ scale + 1) expected.length, row5 scale ^ i = expected.getD i 0
  · rw [passIf_true h, assertT_true (key.2 h)]
  · rw [passIf_false h, Bool.eq_false_iff.2 fun hc => h (key.1 hc)]; rfl

/-! ### The tests themselves -/

/-- The polynomial of mcl-kzg/kzg-bench/src/poly.rs:22. -/
def ownPoly : List Int := [1, 2, 3, 4, 7, 7, 7, 7, 13, 13, 13, 13, 13, 13, 13, 13]

/-- `polynomial_eval_at_should_specific_value_given_exact_inputs` with its number. -/
example : mclEvalTest ownPoly 17 (39537218396363405614 : Fr) = .ok () := by
  rw [C205_eval, passIf_true]
  rw [← evalAt_eq]
  simp only [ownPoly, evalAt, List.map_cons, List.map_nil, List.foldr_cons, List.foldr_nil]
  norm_num

/-- `extend_poly_appends_fr_zero`. -/
example : mclExtendTest [1, 2, 3, 4] 8 ([1, 2, 3, 4, 0, 0, 0, 0] : List Fr) = .ok () := by
  rw [C205_extend, passIf_true]
  intro i hi
  have : i < 8 := by simpa using hi
  interval_cases i <;> simp

/-- `(X² - 1) / (X + 1)`: the first row passes, also with `5 + X` as the quotient that is expected. -/
example [Mcl.Lib Fr] : mclLongDivTest ([-1, 0, 1] : List Fr) [1, 1] [-1, 1] = .ok () ∧
    mclLongDivTest ([-1, 0, 1] : List Fr) [1, 1] [5, 1] = .ok () := by
  have hq : polyOf ([-1, 0, 1] : List Fr) / polyOf ([1, 1] : List Fr) = polyOf ([-1, 1] : List Fr) := by
    have h1 : polyOf ([-1, 0, 1] : List Fr) = polyOf ([1, 1] : List Fr) * polyOf ([-1, 1] : List Fr) := by
      simp [polyOf, Finset.sum_range_succ]; ring
    have h2 : polyOf ([1, 1] : List Fr) ≠ 0 := by
      intro h
      have := congrArg (fun p => p.coeff 0) h
      simp [coeff_polyOf] at this
    rw [h1, mul_div_cancel_left₀ _ h2]
  have h : mclLongDivTest ([-1, 0, 1] : List Fr) [1, 1] [-1, 1] = .ok () := by
    refine (C205_long_division _ _ _ (by simp) (by simp)).2.2 ⟨rfl, fun j _ _ => ?_⟩
    rw [hq, coeff_polyOf]
  exact ⟨h, C205_constant_ignored _ _ [-1, 1] 5 (by simp) (by simp) h⟩

/-- `poly_div_by_zero`. -/
example [Mcl.Lib Fr] : mclDivByZeroTest ([1, 1] : List Fr) [0] = .ok () := by
  rw [C205_div_by_zero, passIf_true]; right; rfl

/-- `fftsettings_new_creates_valid_settings` with its numbers. -/
example : mclRootsTest 10 ([1, 21328829733576761151404230261968752855781179864716879432436835449516750606329,
    12531186154666751577774347439625638674013361494693625348921624593362229945844,
    36815421669481109810171413925233110915304823983913164224028689762034127238951] : List Fr) = .ok () := by
  have h : ∀ k n : Nat, (rootsPR5.getD 10 0) ^ k % frModulus = n % frModulus → row5 10 ^ k = ((n : Nat) : Fr) := by
    intro k n h
    rw [row5, ← Nat.cast_pow]
    exact (ZMod.natCast_eq_natCast_iff' _ _ _).2 h
  rw [C205_roots (by norm_num), passIf_true]
  intro i hi
  have : i < 4 := by simpa using hi
  interval_cases i
  · simp
  · exact (h 1 21328829733576761151404230261968752855781179864716879432436835449516750606329 (by decide +kernel)).trans (by norm_cast)
  · exact (h 2 12531186154666751577774347439625638674013361494693625348921624593362229945844 (by decide +kernel)).trans (by norm_cast)
  · exact (h 3 36815421669481109810171413925233110915304823983913164224028689762034127238951 (by decide +kernel)).trans (by norm_cast)

end Kzg.Props
