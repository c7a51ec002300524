import Verif.Proofs.PolyInverse
import Verif.Proofs.Scale
import Verif.Proofs.FrLawful
/-!
# Properties C08–C14: polynomial arithmetic

`polyOf l` is the polynomial with coefficient list `l` (`Verif.Spec.Poly`).
`2^31` is the largest transform of the library (`C01`).
-/

namespace Kzg.Props
open Kzg Polynomial

/-! ## C08 -/

/-- C08 (partial): evaluation returns the value of the polynomial. Missing: the polynomials with
exactly one coefficient at a nonzero point, where the code panics (`C08_eval_constant_panics`). -/
theorem C08_eval_partial (coeffs : List Fr) (x : Fr) (h : coeffs.length ≠ 1 ∨ x = 0) :
    polyEval coeffs x = .ok ((polyOf coeffs).eval x) := polyEval_spec coeffs x h

/-- C08 (negation): every one-coefficient polynomial panics at every nonzero point, so the full
statement "evaluation always returns the value" is false. -/
theorem C08_eval_constant_panics (c x : Fr) (hx : x ≠ 0) : polyEval [c] x = .panic :=
  polyEval_one_panic c x hx

theorem C08_full_statement_false :
    ¬ ∀ (coeffs : List Fr) (x : Fr), polyEval coeffs x = .ok ((polyOf coeffs).eval x) := by
  intro h
  have h1 := h [7] 1
  rw [C08_eval_constant_panics 7 1 one_ne_zero] at h1
  exact absurd h1 (by simp)

example : polyEval [(1 : Fr), 2, 3] 2 = .ok 17 := by
  rw [C08_eval_partial _ _ (Or.inl (by simp)), eval_polyOf]
  simp [Finset.sum_range_succ]; norm_num

/-! ## C09 -/

/-- C09: direct multiplication returns exactly the requested number of coefficients of the product. -/
theorem C09_mul_direct (a b : List Fr) (ha : a ≠ []) (hb : b ≠ []) (n : Nat) :
    ∃ out, mulDirect a b n = .ok out ∧ out.length = n ∧
      ∀ k < n, out[k]? = some ((polyOf a * polyOf b).coeff k) := by
  refine ⟨_, mulDirect_spec a b ha hb n, by simp, ?_⟩
  intro k hk
  rw [List.getElem?_map, List.getElem?_range hk]; rfl

example : ∃ out, mulDirect [(1 : Fr), 1] [1, 1] 2 = .ok out ∧ out.length = 2 := by
  obtain ⟨out, h, hl, _⟩ := C09_mul_direct [(1 : Fr), 1] [1, 1] (by simp) (by simp) 2
  exact ⟨out, h, hl⟩

/-! ## C10 -/

/-- C10: for every pair of nonempty polynomials whose product has at most `2^31` coefficients and
every requested length, transform based multiplication, direct multiplication, the automatic choice
between them, and the trait entry point return the same list. -/
theorem C10_mul_agree (a b : List Fr) (ha : a ≠ []) (hb : b ≠ [])
    (hlen : a.length + b.length - 1 ≤ 2 ^ 31) (n : Nat) (fs : Option (FFTSettings Fr)) :
    mulFft a b n = mulDirect a b n ∧ polyMul a b n = mulDirect a b n ∧
      polyMulFft a b n fs = mulDirect a b n := by
  rw [mulDirect_spec a b ha hb, mulFft_spec a b ha hb (by omega), polyMul_spec a b ha hb (by omega),
    polyMulFft, mulFft_spec b a hb ha (by omega), mul_comm (polyOf b)]
  exact ⟨rfl, rfl, rfl⟩

example : mulFft (List.replicate 3000 (2 : Fr)) (List.replicate 70 3) 200 =
    mulDirect (List.replicate 3000 2) (List.replicate 70 3) 200 :=
  (C10_mul_agree _ _ (List.ne_nil_of_length_pos (by rw [List.length_replicate]; norm_num))
    (List.ne_nil_of_length_pos (by rw [List.length_replicate]; norm_num))
    (by rw [List.length_replicate, List.length_replicate]; norm_num) 200 none).1

/-! ## C11 -/

/-- C11 (success): the result has `n` coefficients and is the inverse modulo `x^n`. -/
theorem C11_inverse (a : List Fr) (n : Nat) (hn : 0 < n) (c : Fr) (h0 : a[0]? = some c) (hc : c ≠ 0)
    (hlen : a.length + n ≤ 2 ^ 31) (hn2 : 2 * n ≤ 2 ^ 31) :
    ∃ out, polyInverse a n = .ok out ∧ out.length = n ∧
      (polyOf a * polyOf out) %ₘ (X ^ n) = 1 %ₘ (X ^ n) := by
  have ha : a ≠ [] := by rintro rfl; simp at h0
  obtain ⟨r, hr, hl, hd⟩ := polyInverse_spec a n hn ha (by rw [getD_of_getElem? h0]; exact hc)
    (by omega) (by omega)
  refine ⟨r, hr, hl, ?_⟩
  rw [← sub_eq_zero, ← sub_modByMonic, modByMonic_eq_zero_iff_dvd (monic_X_pow n)]
  exact hd

/-- C11 (errors): zero output length, empty input, zero constant term. -/
theorem C11_inverse_errors (a : List Fr) (n : Nat) (h : n = 0 ∨ a = [] ∨ a[0]? = some 0) :
    ∃ msg, polyInverse a n = .err msg := by
  unfold polyInverse
  by_cases h1 : n = 0
  · rw [if_pos h1]; exact ⟨_, rfl⟩
  rw [if_neg h1]
  by_cases h2 : a = []
  · rw [if_pos (by simpa using h2)]; exact ⟨_, rfl⟩
  rw [if_neg (by simpa using h2)]
  rw [rd_of_getElem? ((h.resolve_left h1).resolve_left h2), Res.bind_ok, if_pos rfl]
  exact ⟨_, rfl⟩

example : ∃ out, polyInverse [(1 : Fr), 1] 5 = .ok out ∧ out.length = 5 := by
  obtain ⟨out, h, hl, _⟩ := C11_inverse [(1 : Fr), 1] 5 (by norm_num) 1 rfl one_ne_zero
    (by simp) (by norm_num)
  exact ⟨out, h, hl⟩

/-! ## C12 -/

/-- C12 (success): Euclidean division with remainder. -/
theorem C12_long_div (a b : List Fr) (c : Fr) (hb : b.getLast? = some c) (hc : c ≠ 0) :
    ∃ q, longDiv a b = .ok q ∧ q.length = a.length + 1 - b.length ∧
      ∃ r : Fr[X], polyOf a = polyOf q * polyOf b + r ∧ r.degree < (polyOf b).degree := by
  have hne : b ≠ [] := by rintro rfl; simp at hb
  have hbl : 0 < b.length := List.length_pos_iff.mpr hne
  have hlead : b.getD (b.length - 1) 0 ≠ 0 := by
    rw [List.getLast?_eq_getElem?] at hb
    rw [getD_of_getElem? hb]; exact hc
  obtain ⟨q, hq, hl, hd⟩ := longDiv_spec a b hne hlead
  obtain ⟨hn, h0⟩ := natDegree_of_lead hne hlead
  exact ⟨q, hq, hl, polyOf a - polyOf q * polyOf b, by ring, by rw [degree_eq_natDegree h0, hn]; exact hd⟩

/-- C12 (errors): empty divisor, zero leading coefficient. -/
theorem C12_long_div_errors (a b : List Fr) (h : b = [] ∨ b.getLast? = some 0) :
    ∃ msg, longDiv a b = .err msg := by
  rcases h with rfl | h
  · exact ⟨_, longDiv_empty a⟩
  · have hne : b ≠ [] := by rintro rfl; simp at h
    rw [List.getLast?_eq_getElem?] at h
    exact ⟨_, longDiv_lead a b hne (getD_of_getElem? h)⟩

example : ∃ q, longDiv [(1 : Fr), 2, 3, 4] [1, 1] = .ok q ∧ q.length = 3 := by
  obtain ⟨q, h, hl, _⟩ := C12_long_div [(1 : Fr), 2, 3, 4] [1, 1] 1 rfl one_ne_zero
  exact ⟨q, h, hl⟩

/-! ## C13 -/

/-- C13 (fast division): equal to long division for nonempty dividends and valid divisors. -/
theorem C13_fast_div (a b : List Fr) (ha : a ≠ []) (c : Fr) (hb : b.getLast? = some c) (hc : c ≠ 0)
    (hlen : a.length ≤ 2 ^ 30) : fastDiv a b = longDiv a b := by
  have hne : b ≠ [] := by rintro rfl; simp at hb
  refine fastDiv_eq a b ha hne ?_ (by omega)
  rw [List.getLast?_eq_getElem?] at hb
  rw [getD_of_getElem? hb]; exact hc

/-- C13 (dispatch): division equals long division for every dividend and divisor, including the error
cases. -/
theorem C13_div (a b : List Fr) (hlen : a.length ≤ 2 ^ 30) : polyDiv a b = longDiv a b :=
  polyDiv_eq a b (by omega)

/-- Calling fast division directly with an empty dividend panics (length minus one underflows);
the dispatcher never does this. -/
theorem C13_fast_div_empty_panics (b : List Fr) (c : Fr) (hb : b.getLast? = some c) (hc : c ≠ 0) :
    fastDiv [] b = .panic := by
  have hne : b ≠ [] := by rintro rfl; simp at hb
  have hbl : 0 < b.length := List.length_pos_iff.mpr hne
  rw [List.getLast?_eq_getElem?] at hb
  unfold fastDiv
  rw [if_neg (by simpa using hne), subU_of_le hbl, Res.bind_ok, rd_of_getElem? hb, Res.bind_ok,
    if_neg hc]
  simp [subU]

example : polyDiv (List.replicate 1000 (1 : Fr)) (List.replicate 200 1) =
    longDiv (List.replicate 1000 1) (List.replicate 200 1) := 
  C13_div _ _ (by rw [List.length_replicate]; norm_num)

/-! ## C14 -/

/-- C14 (meaning): scaling a list of up to 65536 coefficients multiplies coefficient `i` by `5^-i`,
so the scaled polynomial at `x` is the original at `x/5`; unscaling multiplies by `5^i`. -/
theorem C14_scale_values (p : List Fr) (h : p.length ≤ 65536) :
    (∃ s, scalePoly p p.length = .ok s ∧ s.length = p.length ∧
      (∀ i c, p[i]? = some c → s[i]? = some (c / (5 : Fr) ^ i)) ∧
      ∀ x, (polyOf s).eval x = (polyOf p).eval (x / 5)) ∧
    (∃ u, unscalePoly p p.length = .ok u ∧ u.length = p.length ∧
      (∀ i c, p[i]? = some c → u[i]? = some (c * (5 : Fr) ^ i)) ∧
      ∀ x, (polyOf u).eval x = (polyOf p).eval (5 * x)) := by
  have key : ∀ (f : Fr) (i : Nat) (c : Fr), p[i]? = some c →
      ((List.range p.length).map fun i => p.getD i 0 * f ^ i)[i]? = some (c * f ^ i) := by
    intro f i c hi
    have hil : i < p.length := by
      by_contra hcon
      rw [List.getElem?_eq_none (by omega)] at hi
      simp at hi
    rw [List.getElem?_map, List.getElem?_range hil, Option.map_some, getD_of_getElem? hi]
  refine ⟨⟨_, scalePoly_spec p h, by simp, ?_, ?_⟩, ⟨_, unscalePoly_spec p h, by simp, ?_, ?_⟩⟩
  · intro i c hi
    rw [key _ i c hi, inv_pow, div_eq_mul_inv]
  · intro x
    rw [eval_scaled, div_eq_mul_inv, mul_comm x]
  · intro i c hi
    exact key _ i c hi
  · intro x
    rw [eval_scaled]

/-- C14 (round trips): scaling and unscaling undo each other. -/
theorem C14_scale_roundtrip (p : List Fr) (h : p.length ≤ 65536) :
    (do let s ← scalePoly p p.length; unscalePoly s s.length) = .ok p ∧
    (do let s ← unscalePoly p p.length; scalePoly s s.length) = .ok p := by
  have h5 : (5 : Fr) ≠ 0 := LawfulFr.five_ne
  constructor
  · rw [scalePoly_spec p h, Res.bind_ok, unscalePoly_spec _ (by simpa using h)]
    congr 1
    simpa using scale_unscale (5 : Fr)⁻¹ 5 (inv_mul_cancel₀ h5) p
  · rw [unscalePoly_spec p h, Res.bind_ok, scalePoly_spec _ (by simpa using h)]
    congr 1
    simpa using scale_unscale (5 : Fr) (5 : Fr)⁻¹ (mul_inv_cancel₀ h5) p

/-- C14 (limit): beyond 65536 coefficients both functions panic. -/
theorem C14_scale_limit (p : List Fr) (n : Nat) (h : 65536 < n) :
    scalePoly p n = .panic ∧ unscalePoly p n = .panic := by
  unfold scalePoly unscalePoly
  rw [powerTable_spec, powerTable_spec, Res.bind_ok, Res.bind_ok, scaleLoop_panic _ _ _ h,
    scaleLoop_panic _ _ _ h]
  exact ⟨rfl, rfl⟩

/-- C14 (methods): the polynomial methods undo each other for every length. -/
theorem C14_poly_methods (p : List Fr) :
    (do let s ← polyScale p; polyUnscale s) = .ok p ∧
    (do let s ← polyUnscale p; polyScale s) = .ok p := by
  have h5 : (5 : Fr) ≠ 0 := LawfulFr.five_ne
  have key : ∀ f g : Fr, g * f = 1 →
      (do let s ← polyScaleBy g p; polyScaleBy f s) = .ok p := by
    intro f g hfg
    rw [polyScaleBy_spec, Res.bind_ok, polyScaleBy_spec]
    congr 1
    conv_rhs => rw [eq_map_getD p 0]
    simp only [List.length_map, List.length_range]
    apply List.map_congr_left
    intro i hi
    rw [getD_range_map, if_pos (by simpa using hi), mul_assoc, ← mul_pow, hfg, one_pow, mul_one]
  exact ⟨key 5 5⁻¹ (inv_mul_cancel₀ h5), key 5⁻¹ 5 (mul_inv_cancel₀ h5)⟩

example : ∃ s, scalePoly (List.replicate 65536 (1 : Fr)) 65536 = .ok s ∧ s.length = 65536 := by
  obtain ⟨⟨s, h, hl, _⟩, _⟩ := C14_scale_values (List.replicate 65536 (1 : Fr))
    (by rw [List.length_replicate])
  simp only [List.length_replicate] at h hl
  exact ⟨s, h, hl⟩

end Kzg.Props
