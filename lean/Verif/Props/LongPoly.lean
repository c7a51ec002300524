import Verif.Proofs.SizeInv
import Verif.Proofs.SizeMulti
import Verif.Props.ZkPoly
import Verif.Props.ArkPoly
/-!
# Property C197: for which sizes polynomials can be multiplied, inverted and divided

C10, C11, C13, C60, C63, C64, C117 and C118 have sufficient bounds on the lengths. Here are the exact ones: within them the result is
right, beyond them the call panics.
-/

set_option linter.unusedSectionVars false

namespace Kzg.Props
open Kzg Kzg.Res Polynomial

/-- The result has `n` coefficients and is the product up to there. -/
def IsProduct {F : Type} [Field F] (a b out : List F) (n : Nat) : Prop :=
  out.length = n ∧ ∀ k < n, out[k]? = some ((polyOf a * polyOf b).coeff k)

/-- The result has `n` coefficients and is the inverse up to there. -/
def IsInverse {F : Type} [Field F] (a out : List F) (n : Nat) : Prop :=
  out.length = n ∧ ∀ k < n, (polyOf a * polyOf out).coeff k = if k = 0 then 1 else 0

/-- The result is the quotient with remainder. -/
def IsQuotient {F : Type} [Field F] (a b q : List F) : Prop :=
  (polyOf a - polyOf q * polyOf b).degree < (polyOf b).degree

theorem isProduct_range {F : Type} [Field F] (a b : List F) (n : Nat) :
    IsProduct a b ((List.range n).map (polyOf a * polyOf b).coeff) n := by
  refine ⟨by simp, fun k hk => ?_⟩
  rw [List.getElem?_map, List.getElem?_range hk]; rfl

theorem isInverse_of_dvd {F : Type} [Field F] {a out : List F} {n : Nat} (hl : out.length = n)
    (h : X ^ n ∣ polyOf a * polyOf out - 1) : IsInverse a out n := by
  refine ⟨hl, fun k hk => ?_⟩
  have := X_pow_dvd_iff.mp h k hk
  rw [coeff_sub, sub_eq_zero] at this
  rw [this, coeff_one]

theorem isQuotient_of_div {F : Type} [Field F] {a b q : List F} (hb : polyOf b ≠ 0) (h : polyOf q = polyOf a / polyOf b) :
    IsQuotient a b q := by
  have h1 := EuclideanDomain.div_add_mod (polyOf a) (polyOf b)
  have : polyOf a - polyOf q * polyOf b = polyOf a % polyOf b := by rw [h]; linear_combination -h1
  rw [IsQuotient, this]
  exact degree_mod_lt _ hb

/-! ## blst-from-scratch -/

/-- C197 (products, blst-from-scratch): small operands or results are multiplied directly; otherwise the product must have at most
`2^31` coefficients. -/
theorem C197_mul_blst (a b : List Fr) (ha : a ≠ []) (hb : b ≠ []) (n : Nat) :
    (a.length < 64 ∨ b.length < 64 ∨ n < 128 ∨ a.length + b.length - 1 ≤ 2 ^ 31 →
      ∃ out, polyMul a b n = .ok out ∧ IsProduct a b out n) ∧
    (¬ (a.length < 64 ∨ b.length < 64 ∨ n < 128 ∨ a.length + b.length - 1 ≤ 2 ^ 31) → a.length + b.length ≤ 2 ^ 63 →
      polyMul a b n = .panic) := by
  constructor
  · intro h
    refine ⟨_, ?_, isProduct_range a b n⟩
    by_cases h' : a.length < 64 ∨ b.length < 64 ∨ n < 128
    · rw [polyMul, if_pos h']
      exact mulDirect_spec a b ha hb n
    · exact polyMul_sized a b ha hb n (.inr (by omega))
  · intro h h2
    push Not at h
    exact polyMul_beyond a b n h.1 h.2.1 h.2.2.1 (by omega) h2

/-- C197 (products with transforms, blst-from-scratch). -/
theorem C197_mul_fft_blst (a b : List Fr) (ha : a ≠ []) (hb : b ≠ []) (n : Nat) (fs : Option (FFTSettings Fr)) :
    (a.length + b.length - 1 ≤ 2 ^ 31 → ∃ out, polyMulFft a b n fs = .ok out ∧ IsProduct a b out n) ∧
    (2 ^ 31 < a.length + b.length - 1 → a.length + b.length ≤ 2 ^ 63 → polyMulFft a b n fs = .panic) := by
  constructor
  · intro h
    refine ⟨_, ?_, isProduct_range a b n⟩
    rw [polyMulFft, mulFft_spec b a hb ha (by omega), mul_comm (polyOf b)]
  · intro h h2
    rw [polyMulFft, mulFft_beyond b a n (by omega) (by omega)]

/-- C197 (inverses, blst-from-scratch): constants and fewer than 128 coefficients have no bound. -/
theorem C197_inverse_blst (a : List Fr) (n : Nat) (hn : 0 < n) (ha : a ≠ []) (h0 : a.getD 0 0 ≠ 0) :
    (a.length = 1 ∨ n < 128 ∨ (n ≤ 2 ^ 30 ∧ a.length + n ≤ 2 ^ 31 + 1) → ∃ out, polyInverse a n = .ok out ∧ IsInverse a out n) ∧
    (¬ (a.length = 1 ∨ n < 128 ∨ (n ≤ 2 ^ 30 ∧ a.length + n ≤ 2 ^ 31 + 1)) → a.length ≤ 2 ^ 62 → n ≤ 2 ^ 62 →
      polyInverse a n = .panic) := by
  have hl : 0 < a.length := List.length_pos_iff.mpr ha
  constructor
  · intro h
    by_cases h1 : a.length = 1
    · have hc : polyOf a = C (a.getD 0 0) := by
        ext k
        rw [coeff_polyOf, coeff_C]
        split
        · next h => rw [h]
        · rw [List.getD_eq_default _ _ (by omega)]
      have hr : polyOf ((List.replicate n (0 : Fr)).set 0 (a.getD 0 0)⁻¹) = C (a.getD 0 0)⁻¹ := by
        rw [polyOf_set (by simpa using hn), polyOf_replicate_zero, List.getD_replicate _ hn]
        simp
      refine ⟨(List.replicate n (0 : Fr)).set 0 (a.getD 0 0)⁻¹, ?_, isInverse_of_dvd (by simp) ?_⟩
      · unfold polyInverse
        rw [if_neg (by omega), if_neg (by simpa using ha), rd_getD 0 hl, bind_ok, if_neg h0]
        simp only
        rw [wr_of_lt (by simpa using hn), bind_ok, if_pos h1]
      · rw [hr, hc, ← C_mul, mul_inv_cancel₀ h0]; simp
    · obtain ⟨r, hr, h1, h2⟩ := polyInverse_sized a n hn ha h0 (by omega)
      exact ⟨r, hr, isInverse_of_dvd h1 h2⟩
  · intro h h1 h2
    push Not at h
    refine polyInverse_beyond a n h.2.1 (by omega) h0 ?_ h1 h2
    by_cases h3 : n ≤ 2 ^ 30
    · exact .inr (h.2.2 h3)
    · exact .inl (by omega)

/-- C197 (division, blst-from-scratch): divisors of fewer than 128 coefficients and quotients of fewer than 128 have no bound. -/
theorem C197_div_blst (a b : List Fr) (hlead : b.getD (b.length - 1) 0 ≠ 0) :
    (b.length < 128 ∨ a.length + 1 < b.length + 128 ∨ 2 * a.length ≤ 2 ^ 31 + b.length →
      ∃ q, polyDiv a b = .ok q ∧ q.length = a.length + 1 - b.length ∧ IsQuotient a b q) ∧
    (¬ (b.length < 128 ∨ a.length + 1 < b.length + 128 ∨ 2 * a.length ≤ 2 ^ 31 + b.length) → a.length ≤ 2 ^ 62 →
      polyDiv a b = .panic) := by
  have hb : b ≠ [] := by rintro rfl; simp at hlead
  constructor
  · intro h
    obtain ⟨q, hq, h1, h2⟩ := longDiv_div a b hb hlead
    exact ⟨q, by rw [(polyDiv_sized a b hlead).1 (by omega), hq], h1, isQuotient_of_div (natDegree_of_lead hb hlead).2 h2⟩
  · intro h h1
    push Not at h
    exact (polyDiv_sized a b hlead).2 h.1 (by omega) h.2.2 h1

/-- Example of C197: the inverse of a polynomial of two coefficients can be computed to exactly `2^30` coefficients. -/
example (n : Nat) (hn : 0 < n) (h62 : n ≤ 2 ^ 62) :
    (∃ out, polyInverse [(1 : Fr), 1] n = .ok out) ↔ n ≤ 2 ^ 30 := by
  have h := C197_inverse_blst [1, 1] n hn (by simp) (by simp)
  constructor
  · rintro ⟨out, e⟩
    by_contra hc
    rw [h.2 (by simp only [List.length_cons, List.length_nil]; omega) (by simp) h62] at e
    cases e
  · intro h'
    obtain ⟨out, e, -⟩ := h.1 (.inr (.inr ⟨h', by simp only [List.length_cons, List.length_nil]; omega⟩))
    exact ⟨out, e⟩

/-! ## zkcrypto -/

section
open Kzg.Zk ScW

/-- C197 (products, zkcrypto): as in blst-from-scratch. -/
theorem C197_mul_zk (a b : List ScW) (ha : a ≠ []) (hb : b ≠ []) (n : Nat) :
    (a.length < 64 ∨ b.length < 64 ∨ n < 128 ∨ a.length + b.length - 1 ≤ 2 ^ 31 →
      ∃ out, ZkP.polyMul a b n = .ok out ∧ IsProduct a b out n) ∧
    (¬ (a.length < 64 ∨ b.length < 64 ∨ n < 128 ∨ a.length + b.length - 1 ≤ 2 ^ 31) → a.length + b.length ≤ 2 ^ 63 →
      ZkP.polyMul a b n = .panic) := by
  rw [ZkP.polyMul_eq]
  constructor
  · intro h
    refine ⟨_, ?_, isProduct_range a b n⟩
    by_cases h' : a.length < 64 ∨ b.length < 64 ∨ n < 128
    · rw [polyMul, if_pos h']
      exact mulDirect_spec a b ha hb n
    · exact polyMul_sized a b ha hb n (.inr (by omega))
  · intro h h2
    push Not at h
    exact polyMul_beyond a b n h.1 h.2.1 h.2.2.1 (by omega) h2

/-- C197 (inverses, zkcrypto): as in blst-from-scratch. -/
theorem C197_inverse_zk (a : List ScW) (n : Nat) (hn : 0 < n) (ha : a ≠ []) (h0 : a.getD 0 0 ≠ 0) :
    (a.length = 1 ∨ n < 128 ∨ (n ≤ 2 ^ 30 ∧ a.length + n ≤ 2 ^ 31 + 1) → ∃ out, ZkP.polyInverse a n = .ok out ∧ IsInverse a out n) ∧
    (¬ (a.length = 1 ∨ n < 128 ∨ (n ≤ 2 ^ 30 ∧ a.length + n ≤ 2 ^ 31 + 1)) → a.length ≤ 2 ^ 62 → n ≤ 2 ^ 62 →
      ZkP.polyInverse a n = .panic) := by
  have hl : 0 < a.length := List.length_pos_iff.mpr ha
  constructor
  · intro h
    by_cases h1 : a.length = 1
    · have hc : polyOf a = C (a.getD 0 0) := by
        ext k
        rw [coeff_polyOf, coeff_C]
        split
        · next h => rw [h]
        · rw [List.getD_eq_default _ _ (by omega)]
      have hr : polyOf ((List.replicate n (0 : ScW)).set 0 (a.getD 0 0)⁻¹) = C (a.getD 0 0)⁻¹ := by
        rw [polyOf_set (by simpa using hn), polyOf_replicate_zero, List.getD_replicate _ hn]
        simp
      refine ⟨(List.replicate n (0 : ScW)).set 0 (a.getD 0 0)⁻¹, ?_, isInverse_of_dvd (by simp) ?_⟩
      · unfold ZkP.polyInverse
        rw [if_neg (by simpa using ha), rd_getD 0 hl, bind_ok, if_neg h0]
        simp only
        rw [if_pos h1, ZkP.frInv, if_neg h0, bind_ok, wr_of_lt (by simpa using hn)]
      · rw [hr, hc, ← C_mul, mul_inv_cancel₀ h0]; simp
    · obtain ⟨r, hr, h1, h2⟩ := polyInverse_sized a n hn ha h0 (by omega)
      exact ⟨r, ZkP.polyInverse_of_ok hn hr, isInverse_of_dvd h1 h2⟩
  · intro h h1 h2
    push Not at h
    refine ZkP.polyInverse_beyond a n h.2.1 (by omega) h0 ?_ h1 h2
    by_cases h3 : n ≤ 2 ^ 30
    · exact .inr (h.2.2 h3)
    · exact .inl (by omega)

/-- C197 (division, zkcrypto): nonzero operands with `A` and `B` coefficients without zeros on top. -/
theorem C197_div_zk (a b : List ScW) (ha : polyOf a ≠ 0) (hb : polyOf b ≠ 0) {A B : Nat} (hA : A = (polyOf a).natDegree + 1)
    (hB : B = (polyOf b).natDegree + 1) :
    (B < 128 ∨ A + 1 < B + 128 ∨ 2 * A ≤ 2 ^ 31 + B →
      ∃ q, ZkP.polyDiv a b = .ok q ∧ q.length = A + 1 - B ∧ IsQuotient a b q) ∧
    (¬ (B < 128 ∨ A + 1 < B + 128 ∨ 2 * A ≤ 2 ^ 31 + B) → A ≤ 2 ^ 62 → ZkP.polyDiv a b = .panic) := by
  have hs := ZkP.polyDiv_sized a b ha hb (A := A - 1) (n := B - 1) (by omega) (by omega)
  constructor
  · intro h
    rw [hs.1 (by omega)]
    have hbn : polyNorm b ≠ [] := fun e => hb ((ZkP.polyNorm_nil_iff b).1 e)
    obtain ⟨q, e, e1, e2⟩ := longDiv_div (polyNorm a) (polyNorm b) hbn (ZkP.polyNorm_lead b hbn)
    refine ⟨q, e, ?_, isQuotient_of_div hb ?_⟩
    · rw [e1, ZkP.polyNorm_natDegree a ha, ZkP.polyNorm_natDegree b hb]; omega
    · rw [e2, ZkP.polyOf_polyNorm, ZkP.polyOf_polyNorm]
  · intro h h1
    push Not at h
    exact hs.2 (by omega) (by omega) (by omega) (by omega)

/-- Example of C197: a divisor of degree 127 admits dividends of degree up to `2^30 + 63`. -/
example (a b : List ScW) (hb : (polyOf b).natDegree = 127) (ha : polyOf a ≠ 0) (ha62 : (polyOf a).natDegree < 2 ^ 62) :
    (∃ q, ZkP.polyDiv a b = .ok q) ↔ (polyOf a).natDegree ≤ 2 ^ 30 + 63 := by
  have hb0 : polyOf b ≠ 0 := by intro h; rw [h] at hb; simp at hb
  have h := C197_div_zk a b ha hb0 rfl rfl
  rw [hb] at h
  constructor
  · rintro ⟨q, e⟩
    by_contra hc
    rw [h.2 (by omega) (by omega)] at e
    cases e
  · intro h'
    obtain ⟨q, e, -⟩ := h.1 (by omega)
    exact ⟨q, e⟩

end

/-! ## Arkworks -/

/-- C197 (products with transforms, Arkworks): without settings, operands cut at the length asked for. -/
theorem C197_mul_ark (a b : List Fr) (ha : a ≠ []) (hb : b ≠ []) (n : Nat) (hn : 0 < n) :
    (min a.length n + min b.length n - 1 ≤ 2 ^ 31 → ∃ out, Ark.mulFft a b none n = .ok out ∧ IsProduct a b out n) ∧
    (2 ^ 31 < min a.length n + min b.length n - 1 → min a.length n + min b.length n ≤ 2 ^ 63 → Ark.mulFft a b none n = .panic) := by
  constructor
  · intro h
    exact ⟨_, C117_mul_fft a b none n ha hb hn (by omega) (fun f hf => nomatch hf), isProduct_range a b n⟩
  · intro h h2
    have ht : 32 ≤ bitLen (min a.length n + min b.length n - 1 - 1) := by
      by_contra hc
      have h1 := le_two_pow_bitLen_pred (v := min a.length n + min b.length n - 1)
      have h3 : 2 ^ bitLen (min a.length n + min b.length n - 1 - 1) ≤ 2 ^ 31 := Nat.pow_le_pow_right (by omega) (by omega)
      omega
    unfold Ark.mulFft
    dsimp only
    rw [subU_of_le (by omega), bind_ok, ZkP.stdNextPowerOfTwo, if_pos (by omega), bind_ok, Ark.mulSettings, Nat.log2_two_pow,
      Ark.settingsNew_err ht, unwrap_err, bind_panic]

/-- C197 (division, Arkworks): nonzero dividends; the bound is on the quotient. -/
theorem C197_div_ark (a b : List Fr) (ha : polyOf a ≠ 0) (hlead : b.getD (b.length - 1) 0 ≠ 0) :
    (b.length < 128 ∨ a.length + 1 - b.length ≤ 2 ^ 30 → ∃ q, Ark.polyDiv a b = .ok q ∧ IsQuotient a b q) ∧
    (¬ (b.length < 128 ∨ a.length + 1 - b.length ≤ 2 ^ 30) → a.length ≤ 2 ^ 62 → Ark.polyDiv a b = .panic) := by
  have hb : b ≠ [] := by rintro rfl; simp at hlead
  have hb0 : polyOf b ≠ 0 := (natDegree_of_lead hb hlead).2
  constructor
  · intro h
    unfold Ark.polyDiv
    split
    · obtain ⟨q, hq, hqd, -⟩ := Ark.longDiv_spec a b hb0
      exact ⟨q, hq, isQuotient_of_div hb0 hqd⟩
    · next hc =>
      push Not at hc
      have han : a ≠ [] := by rintro rfl; simp at hc
      obtain ⟨q, hq, -, hqd⟩ := longDiv_div a b hb hlead
      refine ⟨q, ?_, isQuotient_of_div hb0 hqd⟩
      rw [Ark.fastDiv_eq a b han hb hlead (.inr (by omega)) (.inr (.inr (.inl ha))), hq]
  · intro h h1
    push Not at h
    rw [Ark.polyDiv, if_neg (by omega), Ark.fastDiv_long a b (by omega) hlead (by omega) (by omega)]

/-- Example of C197: the product of two polynomials of `2^30` coefficients can be computed, and that of polynomials of `2^31` not. -/
example : (∃ out, Ark.mulFft (List.replicate (2 ^ 30) (2 : Fr)) (List.replicate (2 ^ 30) 3) none (2 ^ 31) = .ok out) ∧
    Ark.mulFft (List.replicate (2 ^ 31) (2 : Fr)) (List.replicate (2 ^ 31) 3) none (2 ^ 31) = .panic := by
  have hne : ∀ (k : Nat) (c : Fr), 0 < k → List.replicate k c ≠ [] := by
    intro k c hk h
    have := congrArg List.length h
    rw [List.length_replicate] at this
    simp at this; omega
  constructor
  · obtain ⟨out, e, -⟩ := (C197_mul_ark (List.replicate (2 ^ 30) 2) (List.replicate (2 ^ 30) 3) (hne _ _ (by norm_num))
      (hne _ _ (by norm_num)) (2 ^ 31) (by norm_num)).1 (by rw [List.length_replicate, List.length_replicate]; norm_num)
    exact ⟨out, e⟩
  · exact (C197_mul_ark (List.replicate (2 ^ 31) 2) (List.replicate (2 ^ 31) 3) (hne _ _ (by norm_num))
      (hne _ _ (by norm_num)) (2 ^ 31) (by norm_num)).2 (by rw [List.length_replicate, List.length_replicate]; norm_num)
      (by rw [List.length_replicate, List.length_replicate]; norm_num)

end Kzg.Props
