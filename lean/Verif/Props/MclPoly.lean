import Verif.Props.MclFFT
import Verif.Props.DAS
import Verif.Proofs.Mcl.Poly
import Verif.Proofs.Mcl.Das
/-!
# Properties C99–C102: polynomials and data availability extension of mcl-kzg
-/

namespace Kzg.Props
open Kzg Polynomial Finset Kzg.Mcl

/-! ## C99: multiplication -/

/-- C99 (evaluation): the value of the polynomial. -/
theorem C99_eval (a : List Fr) (x : Fr) : Mcl.evalAt a x = ∑ i ∈ range a.length, a.getD i 0 * x ^ i := by
  rw [evalAt_eq, eval_polyOf]

/-- C99 (direct): the first `len` coefficients of the product, for all operands and lengths. -/
theorem C99_mul_direct (a b : List Fr) (len : Nat) :
    Mcl.mulDirect a b len = .ok ((List.range len).map (polyOf a * polyOf b).coeff) :=
  Mcl.mulDirect_spec a b len

section
variable [Lib Fr]

/-- C99 (transforms): with settings of the crate that are wide enough, or none, the first `len` coefficients of
the product, provided the number of coefficients taken from the two operands is at most `2^30 + 1`. -/
theorem C99_mul_fft_partial (a b : List Fr) (ft : Option (FFTSettings Fr)) (len : Nat)
    (h0 : 0 < min a.length len + min b.length len)
    (hlen : min a.length len + min b.length len ≤ 2 ^ 30 + 1)
    (hft : ∀ fs, ft = some fs → ∃ scale, MadeSettings fs scale ∧
      min a.length len + min b.length len ≤ 2 ^ scale + 1) :
    Mcl.mulFft a b ft len = .ok ((List.range len).map (polyOf a * polyOf b).coeff) :=
  Mcl.mulFft_spec a b ft len h0 hlen fun fs e => by
    obtain ⟨scale, hs, hl⟩ := hft fs e
    have : 0 < 2 ^ scale := by positivity
    exact ⟨scale, hs.wf, by omega⟩

/-- C99 (choice of method): `mul` and `mul_`, under the same bound. -/
theorem C99_mul_partial (a b : List Fr) (ft : Option (FFTSettings Fr)) (len : Nat)
    (hlen : min a.length len + min b.length len ≤ 2 ^ 30 + 1)
    (hft : ∀ fs, ft = some fs → ∃ scale, MadeSettings fs scale ∧
      min a.length len + min b.length len ≤ 2 ^ scale + 1) :
    Mcl.polyMul a b ft len = .ok ((List.range len).map (polyOf a * polyOf b).coeff) :=
  Mcl.polyMul_spec a b ft len hlen fun fs e => by
    obtain ⟨scale, hs, hl⟩ := hft fs e
    have : 0 < 2 ^ scale := by positivity
    exact ⟨scale, hs.wf, by omega⟩

/-- C99 (refuted above `2^30`): up to `2^31` the product with transforms comes out with the wrong sign. -/
theorem C99_mul_fft_negated (a b : List Fr) (len : Nat)
    (h0 : 2 ^ 30 + 1 < min a.length len + min b.length len)
    (hlen : min a.length len + min b.length len ≤ 2 ^ 31 + 1) :
    Mcl.mulFft a b none len = .ok ((List.range len).map fun k => -(polyOf a * polyOf b).coeff k) :=
  mulFft_31 a b len h0 hlen

/-- C99 (narrow settings): settings that are too narrow for the product are an error. -/
theorem C99_mul_fft_narrow (a b : List Fr) {fs : FFTSettings Fr} {scale : Nat} (hfs : MadeSettings fs scale)
    (len : Nat) (hlen : min a.length len + min b.length len ≤ 2 ^ 31 + 1)
    (hn : 2 ^ scale + 1 < min a.length len + min b.length len) :
    ∃ msg, Mcl.mulFft a b (some fs) len = .err msg := by
  set aLen := min a.length len with haL
  set bLen := min b.length len with hbL
  have hp : 0 < 2 ^ scale := by positivity
  have hN : aLen + bLen - 1 ≤ 2 ^ bitLen (aLen + bLen - 1 - 1) := le_two_pow_bitLen_pred
  have ht31 : bitLen (aLen + bLen - 1 - 1) ≤ 31 := bitLen_le_of_le (by omega)
  have h63 : aLen + bLen - 1 ≤ 2 ^ 63 := by
    have : 2 ^ 31 ≤ 2 ^ 63 := Nat.pow_le_pow_right (by omega) (by omega)
    omega
  obtain ⟨tf, htf, _⟩ := new5_spec (F := Fr) (show bitLen (aLen + bLen - 1 - 1) < 32 by omega)
  refine ⟨"Mul fft only good up to length < 32 bits", ?_⟩
  unfold Mcl.mulFft
  dsimp only
  rw [← haL, ← hbL, subU_of_le (by omega), Res.bind_ok, nextPowOf2_eq h63, Res.bind_ok, log2_two_pow (by omega),
    htf, Res.bind_ok, if_pos]
  rw [Option.getD_some, hfs.wf.width]
  omega

/-- C99 (refuted for nothing to multiply): two operands without a coefficient to use are a panic with transforms,
where direct multiplication gives zeros. -/
theorem C99_mul_fft_empty (ft : Option (FFTSettings Fr)) (len : Nat) (a b : List Fr)
    (h : len = 0 ∨ (a = [] ∧ b = [])) :
    Mcl.mulFft a b ft len = .panic ∧ Mcl.mulDirect a b len = .ok (List.replicate len 0) := by
  constructor
  · have e : min a.length len + min b.length len = 0 := by
      rcases h with rfl | ⟨rfl, rfl⟩ <;> simp
    unfold Mcl.mulFft
    dsimp only
    rw [e]
    rfl
  · rw [C99_mul_direct]
    congr 1
    rcases h with rfl | ⟨rfl, rfl⟩
    · rfl
    · simp only [polyOf_nil, mul_zero]
      apply List.ext_getElem?
      intro i
      rw [List.getElem?_map, List.getElem?_replicate]
      by_cases hi : i < len
      · rw [List.getElem?_range hi, if_pos hi]; simp
      · rw [List.getElem?_eq_none (by simp; omega), if_neg hi]; rfl

/-! ## C100: division -/

/-- C100 (long division): quotient of the Euclidean division, with one coefficient for each power up to the
difference of the lengths. -/
theorem C100_long_division (a b : List Fr) (hb : b ≠ []) (hlead : b.getD (b.length - 1) 0 ≠ 0) :
    ∃ q, longDivision a b = .ok q ∧ q.length = a.length + 1 - b.length ∧ polyOf q = polyOf a / polyOf b ∧
      (polyOf a - polyOf q * polyOf b).degree < (polyOf b).degree := by
  rw [longDivision_eq a b hb hlead]
  obtain ⟨q, hq, h1, h2⟩ := longDiv_spec a b hb hlead
  obtain ⟨q', hq', _, h4⟩ := longDiv_div a b hb hlead
  rw [hq] at hq'
  cases hq'
  obtain ⟨hn, h0⟩ := natDegree_of_lead hb hlead
  exact ⟨q, hq, h1, h4, by rwa [degree_eq_natDegree h0, hn]⟩

/-- C100 (fast division): the same quotient. -/
theorem C100_fast_div_partial (a b : List Fr) (hb : b ≠ []) (hlead : b.getD (b.length - 1) 0 ≠ 0)
    (hlen : b.length = 1 ∨ a.length + 1 - b.length ≤ 2 ^ 29) : Mcl.fastDiv a b = longDivision a b := by
  rw [longDivision_eq a b hb hlead, Mcl.fastDiv_eq a b hb hlead hlen]

/-- C100 (refuted above `2^29`): with a divisor of at least 64 coefficients and a quotient of between `2^29` and
`2^30 · 2/3` coefficients, fast division returns the negative of the quotient. -/
theorem C100_fast_div_negated (a b : List Fr) (hb : 64 ≤ b.length) (hlead : b.getD (b.length - 1) 0 ≠ 0)
    (h1 : 2 ^ 29 < a.length + 1 - b.length)
    (h2 : a.length + 1 - b.length + (a.length + 1 - b.length) / 2 ≤ 2 ^ 30) :
    ∃ q, longDivision a b = .ok q ∧ Mcl.fastDiv a b = .ok (q.map fun x => -x) := by
  have hbn : b ≠ [] := by rintro rfl; simp at hb
  obtain ⟨q, hq, _⟩ := C100_long_division a b hbn hlead
  refine ⟨q, hq, ?_⟩
  rw [longDivision_eq a b hbn hlead] at hq
  rw [fastDiv_negated a b hb hlead h1 h2, hq]
  rfl

/-- C100 (division): for every divisor that is not zero as a polynomial, whatever zeros stand at its top, the
Euclidean quotient. -/
theorem C100_div_partial (a b : List Fr) (hb : polyOf b ≠ 0) (hlen : a.length ≤ 2 ^ 29) :
    ∃ q, Mcl.polyDiv a b = .ok q ∧ q.length = a.length - (polyOf b).natDegree ∧ polyOf q = polyOf a / polyOf b :=
  polyDiv_spec a b hb hlen

/-- C100 (rejection): an empty divisor and one with a zero at the top are errors of both methods; division is an
error exactly for the zero polynomial. -/
theorem C100_rejects (a b : List Fr) :
    ((∃ msg, longDivision a b = .err msg) ↔ b = [] ∨ b.getD (b.length - 1) 0 = 0) ∧
    (b = [] ∨ b.getD (b.length - 1) 0 = 0 → ∃ msg, Mcl.fastDiv a b = .err msg) ∧
    (a.length ≤ 2 ^ 29 → ((∃ msg, Mcl.polyDiv a b = .err msg) ↔ polyOf b = 0)) := by
  refine ⟨⟨?_, ?_⟩, ?_, ?_⟩
  · rintro ⟨msg, h⟩
    by_contra hc
    obtain ⟨h1, h2⟩ := not_or.mp hc
    obtain ⟨q, hq, _⟩ := C100_long_division a b h1 h2
    rw [hq] at h
    cases h
  · intro h
    by_cases hb : b = []
    · exact ⟨_, by rw [hb]; exact longDivision_empty a⟩
    · exact ⟨_, longDivision_lead a b hb (h.resolve_left hb)⟩
  · intro h
    by_cases hb : b = []
    · subst hb
      exact ⟨_, rfl⟩
    · refine ⟨"The divisor's highest coefficient must be non-zero", ?_⟩
      unfold Mcl.fastDiv
      rw [getLast?_getD hb, h.resolve_left hb]
      exact if_pos rfl
  · intro hlen
    constructor
    · rintro ⟨msg, h⟩
      by_contra hb
      obtain ⟨q, hq, _⟩ := C100_div_partial a b hb hlen
      rw [hq] at h
      cases h
    · intro hb
      exact ⟨_, polyDiv_zero a b hb⟩

/-! ## C101: inverse power series -/

/-- C101: the first `n` coefficients of the inverse of the power series. -/
theorem C101_inverse_partial (a : List Fr) (n : Nat) (hn : 0 < n) (ha : a ≠ []) (h0 : a.getD 0 0 ≠ 0)
    (hlen : n + n / 2 ≤ 2 ^ 30) :
    ∃ r, Mcl.polyInverse a n = .ok r ∧ r.length = n ∧
      ∀ k < n, (polyOf a * polyOf r).coeff k = if k = 0 then 1 else 0 := by
  obtain ⟨r, hr, hl, hd⟩ := Mcl.polyInverse_spec a n hn ha h0 hlen
  refine ⟨r, hr, hl, ?_⟩
  intro k hk
  have := X_pow_dvd_iff.mp hd k hk
  rw [coeff_sub, sub_eq_zero] at this
  rw [this, coeff_one]

/-- C101 (rejection): an error exactly when the constant term is zero (and there is something to compute); nothing
to compute gives the empty polynomial. -/
theorem C101_rejects (a : List Fr) (n : Nat) :
    (a = [] ∨ n = 0 → Mcl.polyInverse a n = .ok []) ∧
    (a ≠ [] → 0 < n → n + n / 2 ≤ 2 ^ 30 → ((∃ msg, Mcl.polyInverse a n = .err msg) ↔ a.getD 0 0 = 0)) := by
  refine ⟨polyInverse_zero a n, fun ha hn hlen => ⟨?_, fun h0 => ⟨_, polyInverse_err a n hn ha h0⟩⟩⟩
  rintro ⟨msg, h⟩
  by_contra h0
  obtain ⟨r, hr, _⟩ := C101_inverse_partial a n hn ha h0 hlen
  rw [hr] at h
  cases h

/-! ## C102: data availability extension -/

/-- C102: the extension of `n` values has length `n`, and interleaving input and output gives the values of one
polynomial of degree below `n` at the powers of a primitive `2n`-th root of unity; the trait function gives
the same. -/
theorem C102_das_extension {scale : Nat} {fs : FFTSettings Fr} (hfs : MadeSettings fs scale)
    {m : Nat} (hm : m + 1 ≤ scale) (evens : List Fr) (hl : evens.length = 2 ^ m) :
    ∃ (odds : List Fr) (p : Fr[X]) (ω : Fr), Mcl.das fs evens = .ok odds ∧ Mcl.dasTrait fs evens = .ok odds ∧
      odds.length = 2 ^ m ∧ p.degree < (2 ^ m : Nat) ∧ IsPrimitiveRoot ω (2 ^ (m + 1)) ∧
      ∀ i < 2 ^ (m + 1), (interleave evens odds)[i]? = some (p.eval (ω ^ i)) := by
  obtain ⟨odds, p, ω, h1, h2, h3, h4, h5, _⟩ := das_extension_of hfs.wf hm evens hl
  rw [← das_eq hfs.wf hm hl] at h1
  exact ⟨odds, p, ω, h1, by rw [dasTrait, h1]; rfl, h2, h3, h4, h5⟩

/-- C102 (rejection): an error exactly for the empty list, a length that is no power of two, and a length above
half of the width. -/
theorem C102_das_rejects_partial {scale : Nat} {fs : FFTSettings Fr} (hfs : MadeSettings fs scale) (evens : List Fr) :
    (∃ msg, Mcl.das fs evens = .err msg) ↔
      evens = [] ∨ (∀ m, evens.length ≠ 2 ^ m) ∨ 2 ^ scale < 2 * evens.length :=
  das_rejects hfs.wf evens

/-- C102 (refuted for the trait): where the method returns an error the trait function panics. -/
theorem C102_trait_panics {scale : Nat} {fs : FFTSettings Fr} (hfs : MadeSettings fs scale) (evens : List Fr)
    (h : evens = [] ∨ (∀ m, evens.length ≠ 2 ^ m) ∨ 2 ^ scale < 2 * evens.length) :
    Mcl.dasTrait fs evens = .panic := by
  obtain ⟨msg, e⟩ := (C102_das_rejects_partial hfs evens).mpr h
  rw [dasTrait, e]
  rfl

end

/-! ## Examples -/

/-- A library that panics in the cases left open, for concrete computations. -/
@[reducible] def exampleLib : Lib Fr := ⟨.panic, fun _ => .panic⟩

attribute [local instance] exampleLib in
/-- `(1 + 2x)(3 + x)` cut off after two coefficients. -/
example : Mcl.mulDirect [1, 2] [3, 1] 2 = .ok [(3 : Fr), 7] := by decide +kernel

attribute [local instance] exampleLib in
/-- `(1 + 2x)(3 + x)` padded to five. -/
example : Mcl.polyMul [1, 2] [3, 1] none 5 = .ok [(3 : Fr), 7, 2, 0, 0] := by decide +kernel

attribute [local instance] exampleLib in
example : Mcl.mulDirect [] [3, 1] 2 = .ok [(0 : Fr), 0] := by decide +kernel

attribute [local instance] exampleLib in
/-- `(6 + 5x + x^2) / (3 + x)`, with a zero on top of the divisor. -/
example : Mcl.polyDiv [6, 5, 1] [3, 1, 0] = .ok [(2 : Fr), 1] := by decide +kernel

attribute [local instance] exampleLib in
example : Mcl.longDivision [6, 5, 1] [3, 1, 0] =
    (.err "The divisor's highest coefficient must be non-zero" : Res (List Fr)) := by decide +kernel

example [Lib Fr] : ∃ q : List Fr, Mcl.fastDiv [6, 5, 1] [3, 1] = .ok q ∧ q.length = 2 := by
  rw [C100_fast_div_partial [6, 5, 1] [3, 1] (by simp) (by simp) (Or.inr (by simp))]
  obtain ⟨q, h1, h2, _⟩ := C100_long_division [6, 5, 1] [3, 1] (by simp) (by simp)
  exact ⟨q, h1, h2⟩

example [Lib Fr] : ∃ r : List Fr, Mcl.polyInverse [1, 1] 4 = .ok r ∧ r.length = 4 := by
  obtain ⟨r, h1, h2, _⟩ := C101_inverse_partial [1, 1] 4 (by norm_num) (by simp) (by simp) (by norm_num)
  exact ⟨r, h1, h2⟩

example [Lib Fr] : ∃ fs : FFTSettings Fr, MadeSettings fs 3 ∧ ∃ odds, Mcl.das fs [1, 2, 3, 4] = .ok odds ∧
    odds.length = 4 := by
  obtain ⟨fs, h, _, _⟩ := newTrait_spec (F := Fr) Globals.start (k := 3) (by norm_num)
  have hm : MadeSettings fs 3 := ⟨by norm_num, Or.inr h⟩
  obtain ⟨odds, _, _, h1, _, h2, _⟩ := C102_das_extension hm (m := 2) (by norm_num) [1, 2, 3, 4] (by simp)
  exact ⟨fs, hm, odds, h1, by simpa using h2⟩

end Kzg.Props
