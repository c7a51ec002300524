import Verif.Proofs.Zk.Poly
import Verif.Proofs.Zk.ScalarWords
/-!
# Properties C60–C64: polynomial arithmetic of zkcrypto

Coefficients are the values of the Rust type `Scalar` (`ScW`), whose field operations are the word
operations of scalar.rs. `polyOf l` is the polynomial with coefficient list `l`. `2^31` is the largest
transform of the library.
-/

namespace Kzg.Props
open Kzg Kzg.Zk Polynomial

theorem euclid_of_div {K : Type} [Field K] {a b : K[X]} (hb : b ≠ 0) {q : K[X]} (h : q = a / b) :
    ∃ r, a = q * b + r ∧ r.degree < b.degree :=
  ⟨a % b, by rw [h, mul_comm]; exact (EuclideanDomain.div_add_mod a b).symm, degree_mod_lt a hb⟩

/-! ## C60 -/

/-- C60 (partial): dividing a nonzero polynomial of degree below `2^30` by any nonzero polynomial returns
the quotient of the division with remainder, with exactly its number of coefficients, whatever trailing
zeros the lists have. Missing from the full statement: the zero dividend, on which the code panics
(`C60_zero_dividend_panics`). -/
theorem C60_div_partial (a b : List ScW) (ha : polyOf a ≠ 0) (hb : polyOf b ≠ 0)
    (hlen : (polyOf a).natDegree < 2 ^ 30) :
    ∃ q, ZkP.polyDiv a b = .ok q ∧ q.length = (polyOf a).natDegree + 1 - (polyOf b).natDegree ∧
      ∃ r, polyOf a = polyOf q * polyOf b + r ∧ r.degree < (polyOf b).degree := by
  obtain ⟨q, h1, h2, h3⟩ := ZkP.polyDiv_spec a b ha hb hlen
  exact ⟨q, h1, h3, euclid_of_div hb h2⟩

/-- C60: dividing by the zero polynomial, in any representation, is an error. -/
theorem C60_div_by_zero (a b : List ScW) (hb : polyOf b = 0) : ∃ msg, ZkP.polyDiv a b = .err msg :=
  ⟨_, ZkP.polyDiv_zero a b hb⟩

/-- C60 (negation): dividing the zero polynomial by a nonzero one panics. -/
theorem C60_zero_dividend_panics (a b : List ScW) (ha : polyOf a = 0) (hb : polyOf b ≠ 0) :
    ZkP.polyDiv a b = .panic := ZkP.polyDiv_of_zero a b ha hb

theorem polyOf_one_one : polyOf [(1 : ScW), 1] ≠ 0 := by
  intro h
  have := congrArg (fun p => p.coeff 0) h
  simp [coeff_polyOf] at this

theorem C60_full_statement_false :
    ¬ ∀ a b : List ScW, polyOf b ≠ 0 → (polyOf a).natDegree < 2 ^ 30 →
      ∃ q, ZkP.polyDiv a b = .ok q ∧ ∃ r, polyOf a = polyOf q * polyOf b + r ∧ r.degree < (polyOf b).degree := by
  intro h
  obtain ⟨q, hq, _⟩ := h [] [1, 1] polyOf_one_one (by simp [polyOf_nil])
  rw [C60_zero_dividend_panics [] _ polyOf_nil polyOf_one_one] at hq
  cases hq

example : ∃ q, ZkP.polyDiv [(1 : ScW), 1, 0, 0] [1, 1, 0] = .ok q ∧ q.length = 1 := by
  have h1 : polyOf [(1 : ScW), 1, 0, 0] = polyOf [1, 1] :=
    ZkP.polyOf_append_zeros [(1 : ScW), 1] 2
  have h2 : polyOf [(1 : ScW), 1, 0] = polyOf [1, 1] := ZkP.polyOf_append_zeros [(1 : ScW), 1] 1
  have hd : (polyOf [(1 : ScW), 1]).natDegree = 1 := (natDegree_of_lead (by simp) (by simp)).1
  obtain ⟨q, h, hl, _⟩ := C60_div_partial [1, 1, 0, 0] [1, 1, 0] (by rw [h1]; exact polyOf_one_one)
    (by rw [h2]; exact polyOf_one_one) (by rw [h1, hd]; norm_num)
  rw [h1, h2, hd] at hl
  exact ⟨q, h, hl⟩

/-! ## C61 -/

/-- C61 (partial): called directly, the long and the fast division return the quotient for every nonempty
dividend (of at most `2^30` coefficients for the fast one) and every divisor whose last coefficient is not
zero. Missing from the full statement: divisors whose last coefficient is zero, for which the long division
returns a wrong result without an error (`C61_zero_lead_wrong`), and empty dividends, which panic. -/
theorem C61_division_entry_points_partial (a b : List ScW) (c : ScW) (ha : a ≠ []) (hb : b.getLast? = some c)
    (hc : c ≠ 0) :
    ∃ q, ZkP.longDiv a b = .ok q ∧ (a.length ≤ 2 ^ 30 → ZkP.fastDiv a b = .ok q) ∧
      q.length = a.length + 1 - b.length ∧
      ∃ r, polyOf a = polyOf q * polyOf b + r ∧ r.degree < (polyOf b).degree := by
  have hne : b ≠ [] := by rintro rfl; simp at hb
  have hlead : b.getD (b.length - 1) 0 ≠ 0 := by
    rw [List.getLast?_eq_getElem?] at hb
    rw [getD_of_getElem? hb]; exact hc
  obtain ⟨q, hq, hl, hd⟩ := longDiv_spec a b hne hlead
  obtain ⟨hn, h0⟩ := natDegree_of_lead hne hlead
  refine ⟨q, by rw [ZkP.longDiv_eq a b ha hlead, hq], fun h => by rw [ZkP.fastDiv_eq a b ha hlead (by omega), hq],
    hl, polyOf a - polyOf q * polyOf b, by ring, by rw [degree_eq_natDegree h0, hn]; exact hd⟩

/-- C61 (errors and panics): an empty divisor is an error; an empty dividend panics. -/
theorem C61_empty (a b : List ScW) (hb : b ≠ []) :
    (∃ msg, ZkP.longDiv a [] = .err msg) ∧ (∃ msg, ZkP.fastDiv a [] = .err msg) ∧
      ZkP.longDiv [] b = .panic ∧ ZkP.fastDiv [] b = .panic :=
  ⟨⟨_, ZkP.longDiv_empty a⟩, ⟨_, by simp [ZkP.fastDiv]; rfl⟩, ZkP.longDiv_nil b hb, ZkP.fastDiv_nil b hb⟩

/-- C61 (negation): dividing any `x·X + y` by the constant one, written with a trailing zero, returns the
zero polynomial. -/
theorem C61_zero_lead_wrong (x y : ScW) :
    ZkP.longDiv [y, x] [1, 0] = .ok [0] ∧ polyOf [(1 : ScW), 0] = 1 := by
  constructor
  · simp [ZkP.longDiv, ZkP.longDivLoop, subU, polyQuotientLength, rd, wr, ZkP.frDiv]
  · have := ZkP.polyOf_append_zeros [(1 : ScW)] 1
    rw [show [(1 : ScW), 0] = [1] ++ List.replicate 1 0 from rfl, this, ZkP.polyOf_cons, polyOf_nil]
    simp

theorem C61_full_statement_false :
    ¬ ∀ a b q : List ScW, polyOf b ≠ 0 → ZkP.longDiv a b = .ok q →
      ∃ r, polyOf a = polyOf q * polyOf b + r ∧ r.degree < (polyOf b).degree := by
  intro h
  obtain ⟨h1, h2⟩ := C61_zero_lead_wrong 1 1
  obtain ⟨r, hr, hd⟩ := h [1, 1] [1, 0] [0] (by rw [h2]; exact one_ne_zero) h1
  rw [h2, degree_one, Nat.WithBot.lt_zero_iff, degree_eq_bot] at hd
  rw [h2, hd, ZkP.polyOf_cons (0 : ScW) [], polyOf_nil] at hr
  exact polyOf_one_one (by rw [hr]; simp)

example : ∃ q, ZkP.longDiv [(1 : ScW), 2, 3, 4] [1, 1] = .ok q ∧ ZkP.fastDiv [(1 : ScW), 2, 3, 4] [1, 1] = .ok q ∧
    q.length = 3 := by
  obtain ⟨q, h, h', hl, _⟩ := C61_division_entry_points_partial [(1 : ScW), 2, 3, 4] [1, 1] 1 (by simp) rfl
    one_ne_zero
  exact ⟨q, h, h' (by simp), hl⟩

/-! ## C62 -/

/-- C62 (partial): synthetic division by `X - z` returns the quotient, without trailing zeros, for the zero
polynomial in any representation and for every polynomial whose last coefficient is not zero; the value at
`z` is the remainder. Missing from the full statement: nonzero polynomials with a trailing zero coefficient,
on which the code panics (`C62_trailing_zero_panics`). -/
theorem C62_ruffini_partial (p : List ScW) (z : ScW) (h : polyOf p = 0 ∨ p.getLast? ≠ some 0) :
    ∃ q, ZkP.ruffini p z = .ok q ∧ q.getLast? ≠ some 0 ∧
      polyOf p = polyOf q * (X - C z) + C ((polyOf p).eval z) := by
  obtain ⟨q, h1, h2, h3⟩ := ZkP.ruffini_spec p z h
  refine ⟨q, h1, h3, ?_⟩
  rw [h2, ← mod_X_sub_C_eq_C_eval, mul_comm]
  exact (EuclideanDomain.div_add_mod (polyOf p) (X - C z)).symm

/-- C62 (negation): a trailing zero makes the call panic. -/
theorem C62_trailing_zero_panics (p : List ScW) (z : ScW) (h0 : polyOf p ≠ 0) (h : p.getLast? = some 0) :
    ZkP.ruffini p z = .panic := ZkP.ruffini_panic z h0 h

theorem C62_full_statement_false :
    ¬ ∀ (p : List ScW) (z : ScW), ∃ q, ZkP.ruffini p z = .ok q := by
  intro h
  obtain ⟨q, hq⟩ := h [1, 0] 1
  rw [C62_trailing_zero_panics [1, 0] 1 (by rw [(C61_zero_lead_wrong 1 1).2]; exact one_ne_zero) rfl] at hq
  cases hq

example : ∃ q, ZkP.ruffini [(1 : ScW), 2, 3] 5 = .ok q := by
  have h3 : (3 : ScW) ≠ 0 := by
    intro h
    have := congrArg ScW.el h
    rw [ScW.el_ofNat, ScW.el_zero] at this
    exact absurd this (by decide)
  obtain ⟨q, h, _⟩ := C62_ruffini_partial [(1 : ScW), 2, 3] 5 (Or.inr (by simpa using h3))
  exact ⟨q, h⟩

/-! ## C63 -/

/-- C63: for nonempty polynomials whose product has at most `2^31` coefficients and every requested length,
transform based multiplication, direct multiplication, the automatic choice and the trait entry point return
the same list: exactly the requested number of coefficients of the product. -/
theorem C63_mul (a b : List ScW) (ha : a ≠ []) (hb : b ≠ []) (hlen : a.length + b.length - 1 ≤ 2 ^ 31) (n : Nat)
    (fs : Option (FFTSettings ScW)) :
    ∃ out, ZkP.mulFft n a b = .ok out ∧ ZkP.polyMul a b n = .ok out ∧ ZkP.polyMulFft a b n fs = .ok out ∧
      mulDirect a b n = .ok out ∧ out.length = n ∧ ∀ k < n, out[k]? = some ((polyOf a * polyOf b).coeff k) := by
  refine ⟨_, ?_, ?_, ?_, mulDirect_spec a b ha hb n, by simp, ?_⟩
  · rw [ZkP.mulFft_eq, mulFft_spec a b ha hb (by omega)]
  · rw [ZkP.polyMul_eq, polyMul_spec a b ha hb (by omega)]
  · rw [ZkP.polyMulFft, ZkP.mulFft_eq, mulFft_spec a b ha hb (by omega)]
  · intro k hk
    rw [List.getElem?_map, List.getElem?_range hk]; rfl

example : ∃ out, ZkP.polyMul (List.replicate 3000 (2 : ScW)) (List.replicate 70 3) 200 = .ok out ∧ out.length = 200 := by
  obtain ⟨out, _, h, _, _, hl, _⟩ := C63_mul (List.replicate 3000 (2 : ScW)) (List.replicate 70 3)
    (List.ne_nil_of_length_pos (by rw [List.length_replicate]; norm_num))
    (List.ne_nil_of_length_pos (by rw [List.length_replicate]; norm_num))
    (by rw [List.length_replicate, List.length_replicate]; norm_num) 200 none
  exact ⟨out, h, hl⟩

/-! ## C64 -/

/-- C64: the inverse has `n` coefficients and is the inverse modulo `x^n`, for every `n > 0`. -/
theorem C64_inverse (a : List ScW) (n : Nat) (hn : 0 < n) (c : ScW) (h0 : a[0]? = some c) (hc : c ≠ 0)
    (hlen : a.length + n ≤ 2 ^ 31) (hn2 : 2 * n ≤ 2 ^ 31) :
    ∃ out, ZkP.polyInverse a n = .ok out ∧ out.length = n ∧
      (polyOf a * polyOf out) %ₘ (X ^ n) = 1 %ₘ (X ^ n) := by
  have ha : a ≠ [] := by rintro rfl; simp at h0
  obtain ⟨r, hr, hl, hd⟩ := polyInverse_spec a n hn ha (by rw [getD_of_getElem? h0]; exact hc)
    (by omega) (by omega)
  refine ⟨r, ZkP.polyInverse_of_ok hn hr, hl, ?_⟩
  rw [← sub_eq_zero, ← sub_modByMonic, modByMonic_eq_zero_iff_dvd (monic_X_pow n)]
  exact hd

/-- C64 (errors): empty input and zero constant term, for every requested length. -/
theorem C64_inverse_errors (a : List ScW) (n : Nat) (h : a = [] ∨ a[0]? = some 0) :
    ∃ msg, ZkP.polyInverse a n = .err msg := by
  unfold ZkP.polyInverse
  by_cases h2 : a = []
  · rw [if_pos (by simpa using h2)]; exact ⟨_, rfl⟩
  rw [if_neg (by simpa using h2), rd_of_getElem? (h.resolve_left h2), Res.bind_ok, if_pos rfl]
  exact ⟨_, rfl⟩

/-- C64 (length zero): an invertible polynomial with requested length zero panics. -/
theorem C64_inverse_zero_length (a : List ScW) (c : ScW) (h0 : a[0]? = some c) (hc : c ≠ 0) :
    ZkP.polyInverse a 0 = .panic := ZkP.polyInverse_zero a c h0 hc

example : ∃ out, ZkP.polyInverse [(1 : ScW), 1] 5 = .ok out ∧ out.length = 5 := by
  obtain ⟨out, h, hl, _⟩ := C64_inverse [(1 : ScW), 1] 5 (by norm_num) 1 rfl one_ne_zero (by simp) (by norm_num)
  exact ⟨out, h, hl⟩

end Kzg.Props
