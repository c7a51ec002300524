import Verif.Proofs.Zk.TowerSpec
/-!
# Properties C70 to C74: the extension fields of zkcrypto

`Fp2.el`, `Fp6.el` and `Fp12.el` (Verif/Spec/ZkTower.lean) say which element of Mathlib's fields `F2`, `F6`, `F12` a
structure stands for; every coefficient is a reduced vector of six words.
-/

set_option exponentiation.threshold 1000

namespace Kzg.Props
open Kzg Kzg.Zk Polynomial

/-! ## C70: the quadratic extension -/

/-- C70: the mathematical ring is a field: `u² + 1` is irreducible. -/
theorem C70_irreducible : Irreducible (X ^ 2 + 1 : Fq[X]) := Fact.out

/-- C70: every element is represented exactly once, and the operations are those of the field. -/
theorem C70_operations : Function.Bijective Fp2.el ∧ Fp2.el 0 = 0 ∧ Fp2.el 1 = 1 ∧ (∀ a b : Fp2 FpW,
    (a + b).el = a.el + b.el ∧ (a - b).el = a.el - b.el ∧ (-a).el = -a.el ∧ (a * b).el = a.el * b.el ∧
    a.square.el = a.el ^ 2 ∧ a.mulByNonresidue.el = (F2.u + 1) * a.el ∧
    (Fp2.ctEq a b = true ↔ a.el = b.el) ∧ (Fp2.isZero a = true ↔ a.el = 0)) := by
  refine ⟨Fp2.elEquiv.bijective, Fp2.el_zero, Fp2.el_one, fun a b => ⟨Fp2.el_add a b,
    Fp2.el_sub a b, Fp2.el_neg a, Fp2.el_mul a b, ?_, ?_, ?_, ?_⟩⟩
  · rw [Fp2.square_eq, pow_two]; exact Fp2.el_mul a a
  · rw [Fp2.mulByNonresidue_eq, ← Fp2.el_xi]; exact Fp2.el_mul _ _
  · rw [Fp2.ctEq_iff]; exact Fp2.elEquiv.injective.eq_iff.symm
  · rw [Fp2.isZero_iff]; exact Fp2.el_eq_zero.symm

/-- C70: exactly zero has no inverse; every other element is inverted. -/
theorem C70_invert (a : Fp2 FpW) : (Fp2.invert a = none ↔ a.el = 0) ∧ ∀ t, Fp2.invert a = some t → t.el * a.el = 1 := by
  rw [Fp2.invert_eq, Fp2.el_eq_zero]
  split
  · next h => exact ⟨by simp [h], fun t ht => by cases ht⟩
  · next h =>
    refine ⟨by simp [h], fun t ht => ?_⟩
    rw [← Option.some.inj ht]
    rw [← Fp2.el_mul, inv_mul_cancel₀ h, Fp2.el_one]

/-- C70: an element of the base field is embedded as a constant. -/
theorem C70_from_fp (a : FpW) : (Fp2.ofFp a).el = AdjoinRoot.of _ a.el := by
  rw [Fp2.el, Fp2.ofFp]
  change AdjoinRoot.of _ a.el + AdjoinRoot.of _ (0 : FpW).el * _ = _
  rw [FpW.el_zero, map_zero, zero_mul, add_zero]

/-- C70: the selection returns the second argument exactly if the choice is set. -/
theorem C70_select (a b : Fp2 FpW) : Fp2.select a b true = b ∧ Fp2.select a b false = a :=
  ⟨Fp2.select_eq a b true, Fp2.select_eq a b false⟩

/-- C70: powers with an exponent of six words. -/
theorem C70_pow (a : Fp2 FpW) {b0 b1 b2 b3 b4 b5 : Nat} (h0 : b0 < 2 ^ 64) (h1 : b1 < 2 ^ 64) (h2 : b2 < 2 ^ 64)
    (h3 : b3 < 2 ^ 64) (h4 : b4 < 2 ^ 64) (h5 : b5 < 2 ^ 64) : (Fp2.powVartime a b0 b1 b2 b3 b4 b5).el =
      a.el ^ (b0 + 2 ^ 64 * b1 + 2 ^ 128 * b2 + 2 ^ 192 * b3 + 2 ^ 256 * b4 + 2 ^ 320 * b5) := by
  have hW : W = 2 ^ 64 := by decide
  rw [Fp2.powVartime_eq a (hW ▸ h0) (hW ▸ h1) (hW ▸ h2) (hW ▸ h3) (hW ▸ h4) (hW ▸ h5),
    show W ^ 2 = 2 ^ 128 by decide, show W ^ 3 = 2 ^ 192 by decide, show W ^ 4 = 2 ^ 256 by decide,
    show W ^ 5 = 2 ^ 320 by decide, show W = 2 ^ 64 by decide]
  exact Fp2.el_pow a _

/-- The inverse of `1 + u` exists, and it is not itself. -/
example : ∃ t, Fp2.invert (⟨1, 1⟩ : Fp2 FpW) = some t ∧ t ≠ ⟨1, 1⟩ := by
  obtain ⟨t, ht, h1⟩ := Fp2.invert_some (Fp2.xi_ne : (Fp2.xi : Fp2 FpW) ≠ 0)
  refine ⟨t, ht, fun e => ?_⟩
  rw [e] at h1
  have := congrArg Fp2.c0 h1
  simp at this

/-! ## C71: the sextic extension -/

/-- C71: `v³ - (u + 1)` is irreducible. -/
theorem C71_irreducible : Irreducible (X ^ 3 - C (F2.u + 1) : F2[X]) := Fact.out

/-- C71: every element is represented exactly once, and the operations are those of the field. -/
theorem C71_operations : Function.Bijective Fp6.el ∧ Fp6.el 0 = 0 ∧ Fp6.el 1 = 1 ∧ (∀ a b : Fp6 FpW,
    (a + b).el = a.el + b.el ∧ (a - b).el = a.el - b.el ∧ (-a).el = -a.el ∧ (a * b).el = a.el * b.el ∧
    a.square.el = a.el ^ 2 ∧ a.mulByNonresidue.el = F6.v * a.el ∧
    (Fp6.ctEq a b = true ↔ a.el = b.el) ∧ (Fp6.isZero a = true ↔ a.el = 0)) := by
  refine ⟨Fp6.elEquiv.bijective, Fp6.el_zero, Fp6.el_one, fun a b => ⟨Fp6.el_add a b,
    Fp6.el_sub a b, Fp6.el_neg a, Fp6.el_mul a b, ?_, ?_, ?_, ?_⟩⟩
  · rw [Fp6.square_eq, pow_two]; exact Fp6.el_mul a a
  · rw [Fp6.mulByNonresidue_eq, ← Fp6.el_v]; exact Fp6.el_mul _ _
  · rw [Fp6.ctEq_iff]; exact Fp6.elEquiv.injective.eq_iff.symm
  · rw [Fp6.isZero_iff]; exact Fp6.el_eq_zero.symm

/-- C71: the products with sparse elements are the products. -/
theorem C71_sparse (a : Fp6 FpW) (c0 c1 : Fp2 FpW) :
    (a.mulBy1 c1).el = a.el * (AdjoinRoot.of _ c1.el * F6.v) ∧
    (a.mulBy01 c0 c1).el = a.el * (AdjoinRoot.of _ c0.el + AdjoinRoot.of _ c1.el * F6.v) := by
  have e1 : Fp6.el ⟨0, c1, 0⟩ = AdjoinRoot.of _ c1.el * F6.v := by
    rw [Fp6.el, Fp2.el_zero, map_zero, zero_mul, zero_add, add_zero]
  have e2 : Fp6.el ⟨c0, c1, 0⟩ = AdjoinRoot.of _ c0.el + AdjoinRoot.of _ c1.el * F6.v := by
    rw [Fp6.el, Fp2.el_zero, map_zero, zero_mul, add_zero]
  exact ⟨by rw [Fp6.mulBy1_eq, Fp6.el_mul, e1], by rw [Fp6.mulBy01_eq, Fp6.el_mul, e2]⟩

/-- C71: exactly zero has no inverse; every other element is inverted. -/
theorem C71_invert (a : Fp6 FpW) : (Fp6.invert a = none ↔ a.el = 0) ∧ ∀ t, Fp6.invert a = some t → t.el * a.el = 1 := by
  rw [Fp6.invert_eq, Fp6.el_eq_zero]
  split
  · next h => exact ⟨by simp [h], fun t ht => by cases ht⟩
  · next h =>
    refine ⟨by simp [h], fun t ht => ?_⟩
    rw [← Option.some.inj ht]
    rw [← Fp6.el_mul, inv_mul_cancel₀ h, Fp6.el_one]

/-- C71: elements of the smaller fields are embedded as constants. -/
theorem C71_from (a : Fp2 FpW) (x : FpW) : (Fp6.ofFp2 a).el = AdjoinRoot.of _ a.el ∧
    (Fp6.ofFp x).el = AdjoinRoot.of _ (AdjoinRoot.of _ x.el) := by
  have h : ∀ a : Fp2 FpW, (Fp6.ofFp2 a).el = AdjoinRoot.of _ a.el := fun a => by
    rw [Fp6.el, Fp6.ofFp2, Fp2.el_zero, map_zero, zero_mul, zero_mul, add_zero, add_zero]
  exact ⟨h a, (h (Fp2.ofFp x)).trans (congrArg _ (C70_from_fp x))⟩

/-- C71: the selection returns the second argument exactly if the choice is set. -/
theorem C71_select (a b : Fp6 FpW) : Fp6.select a b true = b ∧ Fp6.select a b false = a :=
  ⟨Fp6.select_eq a b true, Fp6.select_eq a b false⟩

/-- `v³ = u + 1`, computed by the code. -/
example : (⟨0, 1, 0⟩ * ⟨0, 1, 0⟩ * ⟨0, 1, 0⟩ : Fp6 FpW) = Fp6.ofFp2 ⟨1, 1⟩ := Fp6.v_cube

/-! ## C72: the dodecic extension -/

/-- C72: `w² - v` is irreducible. -/
theorem C72_irreducible : Irreducible (X ^ 2 - C F6.v : F6[X]) := Fact.out

/-- C72: every element is represented exactly once, and the operations are those of the field. -/
theorem C72_operations : Function.Bijective Fp12.el ∧ Fp12.el 0 = 0 ∧ Fp12.el 1 = 1 ∧ (∀ a b : Fp12 FpW,
    (a + b).el = a.el + b.el ∧ (a - b).el = a.el - b.el ∧ (-a).el = -a.el ∧ (a * b).el = a.el * b.el ∧
    a.square.el = a.el ^ 2 ∧ (Fp12.ctEq a b = true ↔ a.el = b.el) ∧ (Fp12.isZero a = true ↔ a.el = 0)) := by
  refine ⟨Fp12.elEquiv.bijective, Fp12.el_zero, Fp12.el_one, fun a b => ⟨Fp12.el_add a b,
    Fp12.el_sub a b, Fp12.el_neg a, Fp12.el_mul a b, ?_, ?_, ?_⟩⟩
  · rw [Fp12.square_eq, pow_two]; exact Fp12.el_mul a a
  · rw [Fp12.ctEq_iff]; exact Fp12.elEquiv.injective.eq_iff.symm
  · rw [Fp12.isZero_iff]; exact Fp12.el_eq_zero.symm

/-- C72: the product with a line `c0 + c1·v + c4·v·w` is the product. -/
theorem C72_sparse (a : Fp12 FpW) (c0 c1 c4 : Fp2 FpW) : (a.mulBy014 c0 c1 c4).el = a.el *
    (AdjoinRoot.of _ (AdjoinRoot.of _ c0.el + AdjoinRoot.of _ c1.el * F6.v) +
      AdjoinRoot.of _ (AdjoinRoot.of _ c4.el * F6.v) * F12.w) := by
  have e1 : Fp6.el ⟨0, c4, 0⟩ = AdjoinRoot.of _ c4.el * F6.v := by
    rw [Fp6.el, Fp2.el_zero, map_zero, zero_mul, zero_add, add_zero]
  have e2 : Fp6.el ⟨c0, c1, 0⟩ = AdjoinRoot.of _ c0.el + AdjoinRoot.of _ c1.el * F6.v := by
    rw [Fp6.el, Fp2.el_zero, map_zero, zero_mul, add_zero]
  rw [Fp12.mulBy014_eq]
  exact (Fp12.el_mul _ _).trans (congrArg (a.el * ·) (Fp12.el_mk e2 e1))

/-- C72: the conjugate changes the sign of `w`. -/
theorem C72_conjugate (a : Fp12 FpW) :
    a.conjugate.el = AdjoinRoot.of _ a.c0.el - AdjoinRoot.of _ a.c1.el * F12.w :=
  Fp12.el_conjugate a

/-- C72: exactly zero has no inverse; every other element is inverted. -/
theorem C72_invert (a : Fp12 FpW) :
    (Fp12.invert a = none ↔ a.el = 0) ∧ ∀ t, Fp12.invert a = some t → t.el * a.el = 1 := by
  rw [Fp12.invert_eq, Fp12.el_eq_zero]
  split
  · next h => exact ⟨by simp [h], fun t ht => by cases ht⟩
  · next h =>
    refine ⟨by simp [h], fun t ht => ?_⟩
    rw [← Option.some.inj ht]
    rw [← Fp12.el_mul, inv_mul_cancel₀ h, Fp12.el_one]

/-- C72: elements of the smaller fields are embedded as constants. -/
theorem C72_from (a : Fp6 FpW) (x : Fp2 FpW) (y : FpW) : (Fp12.ofFp6 a).el = AdjoinRoot.of _ a.el ∧
    (Fp12.ofFp2 x).el = AdjoinRoot.of _ (AdjoinRoot.of _ x.el) ∧
    (Fp12.ofFp y).el = AdjoinRoot.of _ (AdjoinRoot.of _ (AdjoinRoot.of _ y.el)) :=
  ⟨Fp12.el_ofFp6 a, (Fp12.el_ofFp6 (Fp6.ofFp2 x)).trans (congrArg _ (C71_from x y).1),
    (Fp12.el_ofFp6 (Fp6.ofFp y)).trans (congrArg _ (C71_from x y).2)⟩

/-- C72: the selection returns the second argument exactly if the choice is set. -/
theorem C72_select (a b : Fp12 FpW) : Fp12.select a b true = b ∧ Fp12.select a b false = a :=
  ⟨Fp12.select_eq a b true, Fp12.select_eq a b false⟩

/-- `w` is invertible in the code. -/
example : ∃ t, Fp12.invert (⟨0, 1⟩ : Fp12 FpW) = some t :=
  let ⟨t, ht, _⟩ := Fp12.invert_some (a := (Fp12.w : Fp12 FpW)) fun h => one_ne_zero (congrArg Fp12.c1 h)
  ⟨t, ht⟩

/-! ## C73: Frobenius maps -/

/-- C73: the Frobenius map of the quadratic extension is the power with the prime. -/
theorem C73_fp2 (a : Fp2 FpW) : a.frobeniusMap.el = a.el ^ fpModulus := by
  rw [Fp2.frobenius_eq]; exact Fp2.el_pow a _

/-- C73: so is the one of the sextic extension. -/
theorem C73_fp6 (a : Fp6 FpW) : a.frobeniusMap.el = a.el ^ fpModulus := by
  rw [Fp6.frobenius_eq]; exact Fp6.el_pow a _

/-- C73: and the one of the dodecic extension. -/
theorem C73_fp12 (a : Fp12 FpW) : a.frobeniusMap.el = a.el ^ fpModulus := by
  rw [Fp12.frobenius_eq]; exact Fp12.el_pow a _

/-- C73: the conjugate of the dodecic extension is the power with `p^6`. -/
theorem C73_conjugate (a : Fp12 FpW) : a.conjugate.el = a.el ^ fpModulus ^ 6 := by
  rw [Fp12.conjugate_eq]; exact Fp12.el_pow a _

/-- C73: the order of the nonzero elements divides `p^12 - 1`, so twelve Frobenius maps are the identity. -/
theorem C73_order (a : Fp12 FpW) : a.el ^ fpModulus ^ 12 = a.el := by
  conv_rhs => rw [← Fp12.pow_p12 a]
  exact (Fp12.el_pow a _).symm

/-- The map is not the identity: `w` moves. -/
example : Fp12.frobeniusMap ⟨0, 1⟩ ≠ ⟨0, 1⟩ := by decide +kernel

/-! ## C74: square roots in the quadratic extension -/

/-- C74: a root is returned exactly for the squares, and its square is the argument. -/
theorem C74_sqrt (a : Fp2 FpW) : (∀ b, Fp2.sqrt a = some b → b.el ^ 2 = a.el) ∧
    (Fp2.sqrt a = none ↔ ¬ ∃ x : F2, x ^ 2 = a.el) := by
  refine ⟨fun b h => ?_, fun h => ?_, fun h => ?_⟩
  · rw [← Fp2.sqrt_some h, pow_two]; exact (Fp2.el_mul b b).symm
  · rintro ⟨x, hx⟩
    have : a = Fp2.lift x * Fp2.lift x := by
      rw [← map_mul, ← Fp2.lift_el a, ← hx]
      exact congrArg _ (pow_two x)
    have h1 := Fp2.sqrt_isSome (Fp2.lift x)
    rw [← this, h] at h1
    cases h1
  · cases hs : Fp2.sqrt a with
    | none => rfl
    | some b => exact absurd ⟨b.el, by rw [← Fp2.sqrt_some hs, pow_two]; exact (Fp2.el_mul b b).symm⟩ h

/-- C74: an element is the larger root exactly when it comes after its negative, comparing first the coefficients of
`u`, then the constants. -/
theorem C74_larger_root (a : Fp2 FpW) : Fp2.lexLargest a = true ↔
    ((-a).c1.el.val < a.c1.el.val ∨ ((-a).c1.el.val = a.c1.el.val ∧ (-a).c0.el.val < a.c0.el.val)) := by
  rw [Fp2.lexLargest_iff, Fp2.neg_c0, Fp2.neg_c1, FpW.el_neg, FpW.el_neg, ZMod.neg_val, ZMod.neg_val]
  have h0 : a.c1 = 0 ↔ a.c1.el = 0 :=
    ⟨fun h => by rw [h, FpW.el_zero], fun h => FpW.el_inj (h.trans FpW.el_zero.symm)⟩
  rw [h0]
  have h1 := ZMod.val_lt a.c1.el
  have h2 := ZMod.val_lt a.c0.el
  have h3 := ZMod.val_eq_zero a.c1.el
  have h4 := ZMod.val_eq_zero a.c0.el
  have h5 : fpModulus = 2 * ((fpModulus - 1) / 2) + 1 := by decide +kernel
  generalize (fpModulus - 1) / 2 = h at *
  simp only [← h3, ← h4]
  clear h0 h3 h4
  generalize a.c1.el.val = x at *
  generalize a.c0.el.val = y at *
  generalize fpModulus = q at *
  split <;> split <;> omega

/-- `-1` has a root in the quadratic extension, although it has none in the base field. -/
example : ∃ b, Fp2.sqrt (-1 : Fp2 FpW) = some b := by
  have h := Fp2.sqrt_isSome (Fp2.u : Fp2 FpW)
  rw [Fp2.u_sq] at h
  exact Option.isSome_iff_exists.1 h

/-- `1 + u` has no root. -/
example : Fp2.sqrt (⟨1, 1⟩ : Fp2 FpW) = none := by
  cases h : Fp2.sqrt (⟨1, 1⟩ : Fp2 FpW) with
  | none => rfl
  | some b => exact absurd ((pow_two b).trans (Fp2.sqrt_some h)) (Fp2.xi_sq b)

end Kzg.Props
