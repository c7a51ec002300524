import Verif.Props.MclPoly
import Verif.Proofs.Mcl.Inverse
/-!
# Properties C100 and C101 of mcl-kzg for all lengths

The inverse power series and the fast division at lengths at which products of more than `2^30` coefficients occur.
-/

namespace Kzg.Props
open Kzg Polynomial Finset Kzg.Mcl

section
variable [Lib Fr]

/-- `r` has `n` coefficients, and its product with `a` is `c` modulo `x^m`. -/
def InverseTo (a r : List Fr) (n m : Nat) (c : Fr) : Prop :=
  r.length = n ∧ ∀ k < m, (polyOf a * polyOf r).coeff k = if k = 0 then c else 0

omit [Lib Fr] in
theorem inverseTo_of_dvd {a r : List Fr} {n m : Nat} {c : Fr} (h : r.length = n)
    (hd : X ^ m ∣ polyOf a * polyOf r - C c) : InverseTo a r n m c := by
  refine ⟨h, fun k hk => ?_⟩
  have := X_pow_dvd_iff.mp hd k hk
  rw [coeff_sub, sub_eq_zero, coeff_C] at this
  exact this

/-- C101 (constants): for a polynomial of one coefficient the inverse is right for every length. -/
theorem C101_constant (a : List Fr) (n : Nat) (hn : 0 < n) (ha : a.length = 1) (h0 : a.getD 0 0 ≠ 0) :
    ∃ r, Mcl.polyInverse a n = .ok r ∧ InverseTo a r n n 1 := by
  refine ⟨_, polyInverse_const a n hn ha h0, inverseTo_of_dvd (by simp; omega) ?_⟩
  have e : (a.getD 0 0)⁻¹ :: List.replicate (n - 1) (0 : Fr) = [(a.getD 0 0)⁻¹] ++ List.replicate (n - 1) 0 := rfl
  rw [e, polyOf_append_zeros, polyOf_one ha, polyOf_one (a := [(a.getD 0 0)⁻¹]) rfl, List.getD_cons_zero,
    ← C_mul, mul_inv_cancel₀ h0, sub_self]
  exact dvd_zero _

/-- C101 (right): with at least two coefficients, as long as the second product of the last step has at most `2^30` coefficients. For
`n` up to `2^30 · 2/3` that is always so; for polynomials of two coefficients up to `n = 2^30`. -/
theorem C101_right_partial (a : List Fr) (n : Nat) (hn : 0 < n) (ha : 2 ≤ a.length) (h0 : a.getD 0 0 ≠ 0) (hlen : n ≤ 2 ^ 30)
    (h : min n (a.length + (n - 1) / 2) + (n - 1) / 2 ≤ 2 ^ 30) :
    ∃ r, Mcl.polyInverse a n = .ok r ∧ InverseTo a r n n 1 := by
  obtain ⟨r, h1, h2, h3⟩ := (polyInverse_cases a n hn ha h0 hlen).1 h
  exact ⟨r, h1, inverseTo_of_dvd h2 (by rw [C_1]; exact h3)⟩

/-- C101 (refuted): if only the second product of the last step is longer, the result is the negative of the inverse. -/
theorem C101_negated (a : List Fr) (n : Nat) (hn : 0 < n) (ha : 2 ≤ a.length) (h0 : a.getD 0 0 ≠ 0) (hlen : n ≤ 2 ^ 30)
    (h : 2 ^ 30 < min n (a.length + (n - 1) / 2) + (n - 1) / 2)
    (h' : a.length < 64 ∨ min a.length n + (n - 1) / 2 ≤ 2 ^ 30) :
    ∃ r, Mcl.polyInverse a n = .ok r ∧ InverseTo a r n n (-1) := by
  obtain ⟨r, h1, h2, h3⟩ := (polyInverse_cases a n hn ha h0 hlen).2.1 h h'
  exact ⟨r, h1, inverseTo_of_dvd h2 (by rw [C_neg, C_1, sub_neg_eq_add]; exact h3)⟩

/-- C101 (refuted): if both products of the last step are longer, the product with the result is `-3` modulo `x` to half of `n`. -/
theorem C101_wrong (a : List Fr) (n : Nat) (hn : 0 < n) (ha : 64 ≤ a.length) (h0 : a.getD 0 0 ≠ 0) (hlen : n ≤ 2 ^ 30)
    (h : 2 ^ 30 < min a.length n + (n - 1) / 2) :
    ∃ r, Mcl.polyInverse a n = .ok r ∧ InverseTo a r n ((n - 1) / 2 + 1) (-3) := by
  obtain ⟨r, h1, h2, h3⟩ := (polyInverse_cases a n hn (by omega) h0 hlen).2.2 ha h
  exact ⟨r, h1, inverseTo_of_dvd h2 (by rw [C_neg, sub_neg_eq_add, show (C (3 : Fr)) = 3 from rfl]; exact h3)⟩

/-- C101 (refuted): above `2^30` coefficients the settings it makes are too large: a panic. -/
theorem C101_panics (a : List Fr) (n : Nat) (ha : 2 ≤ a.length) (h0 : a.getD 0 0 ≠ 0) (hlen : 2 ^ 30 < n) (hmax : n ≤ 2 ^ 62) :
    Mcl.polyInverse a n = .panic := polyInverse_panic a n ha h0 hlen hmax

/-- C101 (exact domain): for a polynomial of at least two coefficients with nonzero constant term and `n` up to `2^62`, the result is the
inverse exactly when `n` is at most `2^30` and the second product of the last step has at most `2^30` coefficients. -/
theorem C101_right_iff (a : List Fr) (n : Nat) (hn : 0 < n) (ha : 2 ≤ a.length) (h0 : a.getD 0 0 ≠ 0) (hmax : n ≤ 2 ^ 62) :
    (∃ r, Mcl.polyInverse a n = .ok r ∧ InverseTo a r n n 1) ↔
      n ≤ 2 ^ 30 ∧ min n (a.length + (n - 1) / 2) + (n - 1) / 2 ≤ 2 ^ 30 := by
  constructor
  · rintro ⟨r, hr, _, h1⟩
    have h1 := h1 0 hn
    rw [if_pos rfl] at h1
    by_contra hc
    by_cases hlen : n ≤ 2 ^ 30
    · have h := not_le.mp fun h => hc ⟨hlen, h⟩
      by_cases h' : a.length < 64 ∨ min a.length n + (n - 1) / 2 ≤ 2 ^ 30
      · obtain ⟨r', hr', _, h2⟩ := C101_negated a n hn ha h0 hlen h h'
        have h2 := h2 0 hn
        rw [hr] at hr'; cases hr'
        rw [if_pos rfl, h1] at h2
        exact absurd h2 (by decide +kernel)
      · obtain ⟨r', hr', _, h2⟩ := C101_wrong a n hn (not_lt.mp fun h => h' (.inl h)) h0 hlen (not_le.mp fun h => h' (.inr h))
        have h2 := h2 0 (by omega)
        rw [hr] at hr'; cases hr'
        rw [if_pos rfl, h1] at h2
        exact absurd h2 (by decide +kernel)
    · rw [C101_panics a n ha h0 (by omega) hmax] at hr
      cases hr
  · rintro ⟨hlen, h⟩
    exact C101_right_partial a n hn ha h0 hlen h

/-- C101 (rejection, all lengths): an error exactly when the constant term is zero. -/
theorem C101_rejects_iff (a : List Fr) (n : Nat) (ha : a ≠ []) (hn : 0 < n) (hmax : n ≤ 2 ^ 62) :
    (∃ msg, Mcl.polyInverse a n = .err msg) ↔ a.getD 0 0 = 0 := by
  refine ⟨?_, fun h0 => ⟨_, polyInverse_err a n hn ha h0⟩⟩
  rintro ⟨msg, h⟩
  by_contra h0
  have hl : 0 < a.length := List.length_pos_iff.mpr ha
  by_cases h1 : a.length = 1
  · obtain ⟨r, hr, _⟩ := C101_constant a n hn h1 h0
    rw [hr] at h; cases h
  have ha2 : 2 ≤ a.length := by omega
  by_cases hlen : n ≤ 2 ^ 30
  · by_cases hT : min n (a.length + (n - 1) / 2) + (n - 1) / 2 ≤ 2 ^ 30
    · obtain ⟨r, hr, _⟩ := C101_right_partial a n hn ha2 h0 hlen hT
      rw [hr] at h; cases h
    · by_cases h' : a.length < 64 ∨ min a.length n + (n - 1) / 2 ≤ 2 ^ 30
      · obtain ⟨r, hr, _⟩ := C101_negated a n hn ha2 h0 hlen (not_le.mp hT) h'
        rw [hr] at h; cases h
      · obtain ⟨r, hr, _⟩ := C101_wrong a n hn (not_lt.mp fun h => h' (.inl h)) h0 hlen (not_le.mp fun h => h' (.inr h))
        rw [hr] at h; cases h
  · rw [C101_panics a n ha2 h0 (by omega) hmax] at h
    cases h

/-! ## C100: fast division of long quotients -/

/-- C100 (refuted, all quotients from `2^29 + 1` to `2^30` coefficients): with a divisor of at least two coefficients, fast division
returns the negative of the quotient where the inverse it uses is right, the quotient where that inverse is negated as well, and
otherwise three times the quotient in the upper half of the coefficients. -/
theorem C100_fast_div_long (a b : List Fr) (hb : 2 ≤ b.length) (hlead : b.getD (b.length - 1) 0 ≠ 0) (k : Nat)
    (hk : k = a.length + 1 - b.length) (h1 : 2 ^ 29 < k) (h2 : k ≤ 2 ^ 30) :
    ∃ q r : List Fr, longDivision a b = .ok q ∧ q.length = k ∧ Mcl.fastDiv a b = .ok r ∧ r.length = k ∧
      (min k (b.length + (k - 1) / 2) + (k - 1) / 2 ≤ 2 ^ 30 → r = q.map fun x => -x) ∧
      (2 ^ 30 < min k (b.length + (k - 1) / 2) + (k - 1) / 2 →
        (b.length < 64 ∨ min b.length k + (k - 1) / 2 ≤ 2 ^ 30) → r = q) ∧
      (64 ≤ b.length → 2 ^ 30 < min b.length k + (k - 1) / 2 →
        ∀ i, i ≤ (k - 1) / 2 → r.getD (k - 1 - i) 0 = 3 * q.getD (k - 1 - i) 0) := by
  have hbn : b ≠ [] := by rintro rfl; simp at hb
  rw [longDivision_eq a b hbn hlead]
  exact fastDiv_cases a b hb hlead k hk h1 h2

/-- C100 (refuted): quotients of more than `2^30` coefficients are a panic. -/
theorem C100_fast_div_panics (a b : List Fr) (hb : 2 ≤ b.length) (hlead : b.getD (b.length - 1) 0 ≠ 0)
    (h1 : 2 ^ 30 < a.length + 1 - b.length) (h2 : a.length + 1 - b.length ≤ 2 ^ 62) : Mcl.fastDiv a b = .panic :=
  fastDiv_panic a b hb hlead h1 h2

/-- C100 (division, all lengths): `div` is long division by the divisor without its zeros on top, or fast division by it if that has at
least 128 coefficients and fewer than the dividend without its zeros. -/
theorem C100_div_choice (a b : List Fr) (hb : polyOf b ≠ 0) :
    ∃ b' : List Fr, polyOf b' = polyOf b ∧ b'.length = (polyOf b).natDegree + 1 ∧ b'.getD (b'.length - 1) 0 ≠ 0 ∧
      Mcl.polyDiv a b = if b'.length < 128 ∨ polyOf a = 0 ∨ (polyOf a).natDegree ≤ (polyOf b).natDegree then longDivision a b'
        else Mcl.fastDiv a b' := by
  have hne : ∀ {c : List Fr}, polyOf c ≠ 0 → normalise c ≠ [] := fun h e => h ((normalise_eq_nil _).mp e)
  have hlen : ∀ {c : List Fr}, polyOf c ≠ 0 → (normalise c).length = (polyOf c).natDegree + 1 := by
    intro c h
    have := natDegree_of_lead (hne h) (normalise_lead c (hne h))
    rw [polyOf_normalise] at this
    have hl := List.length_pos_iff.mpr (hne h)
    omega
  refine ⟨normalise b, polyOf_normalise b, hlen hb, normalise_lead b (hne hb), ?_⟩
  unfold Mcl.polyDiv
  dsimp only
  congr 1
  by_cases ha : polyOf a = 0
  · have : normalise a = [] := (normalise_eq_nil a).mpr ha
    simp [this, ha]
  · rw [hlen ha, hlen hb]
    apply propext
    constructor
    · rintro (h | h)
      · exact .inr (.inr (by omega))
      · exact .inl h
    · rintro (h | h | h)
      · exact .inr h
      · exact absurd h ha
      · exact .inl (by omega)

end

/-! ### Examples -/

/-- A short polynomial to `2^30` terms is right; to one more a panic. -/
example [Lib Fr] : (∃ r, Mcl.polyInverse [1, 1] (2 ^ 30) = .ok r ∧ InverseTo [1, 1] r (2 ^ 30) (2 ^ 30) 1) ∧
    Mcl.polyInverse [1, 1] (2 ^ 30 + 1) = (.panic : Res (List Fr)) :=
  ⟨C101_right_partial [1, 1] _ (by norm_num) (by simp) (by simp) le_rfl (by simp only [List.length_cons, List.length_nil]; omega),
    C101_panics [1, 1] _ (by simp) (by simp) (by omega) (by omega)⟩

/-- Three coefficients to `2^30` terms: negated. -/
example [Lib Fr] : ∃ r, Mcl.polyInverse [1, 1, 1] (2 ^ 30) = .ok r ∧ InverseTo [1, 1, 1] r (2 ^ 30) (2 ^ 30) (-1) :=
  C101_negated [1, 1, 1] _ (by norm_num) (by simp) (by simp) le_rfl
    (by simp only [List.length_cons, List.length_nil]; omega) (.inl (by simp))

/-- As many coefficients as terms: wrong. -/
example [Lib Fr] (a : List Fr) (ha : a.length = 2 ^ 30) (h0 : a.getD 0 0 ≠ 0) :
    ¬ ∃ r, Mcl.polyInverse a (2 ^ 30) = .ok r ∧ InverseTo a r (2 ^ 30) (2 ^ 30) 1 := by
  rw [C101_right_iff a _ (by norm_num) (by omega) h0 (by omega)]
  omega

end Kzg.Props
