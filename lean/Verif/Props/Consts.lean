import Verif.Model.Consts
import Verif.Spec.Jacobian
import Verif.Proofs.Zk.G2Curve
/-!
# Property C133: the generators and identities of all backends are the same points

`G1.gen` and `G2.gen` are points of Mathlib's curves `y² = x³ + 4` and `y² = x³ + 4(1 + u)`; C56 and C79 say that
their order is the prime `r`.
-/

namespace Kzg.Props
open Kzg Kzg.Zk Kzg.Consts CurveConsts

local notation "E1" => curve (CurveConsts.b (K := FpW))
local notation "E2" => curve (CurveConsts.b (K := Fp2 FpW))

/-- The words of a triple in Jacobian coordinates stand for the point `P` of the first group. -/
def Jac1 (p : BlstP1) (P : (E1).Point) : Prop := ∃ x y z : FpW, p = ⟨x.1, y.1, z.1⟩ ∧ Jacobian b x y z P

/-- The words of a triple in Jacobian coordinates stand for the point `P` of the second group. -/
def Jac2 (p : BlstP2) (P : (E2).Point) : Prop :=
  ∃ x y z : Fp2 FpW, p = ⟨x.words, y.words, z.words⟩ ∧ Jacobian b x y z P

/-- The words of a triple in homogeneous coordinates stand for the point `P` of the first group. -/
def Hom1 (p : ZkP1) (P : (E1).Point) : Prop := ∃ x y z : FpW, p = ⟨x.1, y.1, z.1⟩ ∧ Projective.Is b ⟨x, y, z⟩ P

/-- The words of a triple in homogeneous coordinates stand for the point `P` of the second group. -/
def Hom2 (p : ZkP2) (P : (E2).Point) : Prop :=
  ∃ x y z : Fp2 FpW, p = ⟨x.words, y.words, z.words⟩ ∧ Projective.Is b ⟨x, y, z⟩ P

theorem jac_one {K : Type} [Field K] {c x y : K} (h : (curve c).Nonsingular x y) : Jacobian c x y 1 (.some x y h) := by
  simpa using Jacobian.finite (b := c) (z := 1) one_ne_zero h

theorem hom_one {K : Type} [Field K] {c x y : K} (h : (curve c).Nonsingular x y) :
    Projective.Is c ⟨x, y, 1⟩ (.some x y h) := by
  simpa using Projective.Is.finite (b := c) (z := 1) one_ne_zero h

theorem neg_some {K : Type} [Field K] [DecidableEq K] {c x y : K} (h : (curve c).Nonsingular x y) :
    ∃ h' : (curve c).Nonsingular x (-y), (-(.some x y h) : (curve c).Point) = .some x (-y) h' := by
  have e : (curve c).negY x y = -y := by simp [WeierstrassCurve.Affine.negY, curve]
  have h' : (curve c).Nonsingular x (-y) := e ▸ (WeierstrassCurve.Affine.nonsingular_neg x y).2 h
  refine ⟨h', ?_⟩
  rw [WeierstrassCurve.Affine.Point.neg_some]
  congr 1

/-- C133: the generator constants of the first group. -/
theorem C133_g1_generator : Jac1 blstG1Generator G1.gen ∧ Jac1 arkG1Generator G1.gen ∧
    Jac1 mclG1Generator G1.gen ∧ Hom1 zkG1Generator G1.gen := by
  have w : blstG1Generator = ⟨G1.generatorX.1, G1.generatorY.1, (1 : FpW).1⟩ := by decide +kernel
  have w2 : arkG1Generator = ⟨G1.generatorX.1, G1.generatorY.1, (1 : FpW).1⟩ := by decide +kernel
  have w3 : mclG1Generator = ⟨G1.generatorX.1, G1.generatorY.1, (1 : FpW).1⟩ := by decide +kernel
  have w4 : zkG1Generator = ⟨G1.generatorX.1, G1.generatorY.1, (1 : FpW).1⟩ := by decide +kernel
  have j := jac_one G1.generator_nonsingular
  exact ⟨⟨_, _, _, w, j⟩, ⟨_, _, _, w2, j⟩, ⟨_, _, _, w3, j⟩, ⟨_, _, _, w4, hom_one G1.generator_nonsingular⟩⟩

/-- C133: the negated generator constants of the first group. -/
theorem C133_g1_negative : Jac1 blstG1NegativeGenerator (-G1.gen) ∧ Jac1 ckzgG1NegativeGenerator (-G1.gen) ∧
    Jac1 arkG1NegativeGenerator (-G1.gen) ∧ Jac1 mclG1NegativeGenerator (-G1.gen) ∧
    Hom1 zkG1NegativeGenerator (-G1.gen) := by
  have w : blstG1NegativeGenerator = ⟨G1.generatorX.1, (-G1.generatorY).1, (1 : FpW).1⟩ := by decide +kernel
  have w1 : ckzgG1NegativeGenerator = ⟨G1.generatorX.1, (-G1.generatorY).1, (1 : FpW).1⟩ := by decide +kernel
  have w2 : arkG1NegativeGenerator = ⟨G1.generatorX.1, (-G1.generatorY).1, (1 : FpW).1⟩ := by decide +kernel
  have w3 : mclG1NegativeGenerator = ⟨G1.generatorX.1, (-G1.generatorY).1, (1 : FpW).1⟩ := by decide +kernel
  have w4 : zkG1NegativeGenerator = ⟨G1.generatorX.1, (-G1.generatorY).1, (1 : FpW).1⟩ := by decide +kernel
  obtain ⟨h, e⟩ := neg_some G1.generator_nonsingular
  rw [show -G1.gen = _ from e]
  have j := jac_one h
  exact ⟨⟨_, _, _, w, j⟩, ⟨_, _, _, w1, j⟩, ⟨_, _, _, w2, j⟩, ⟨_, _, _, w3, j⟩, ⟨_, _, _, w4, hom_one h⟩⟩

/-- C133: the generator constants of the second group. -/
theorem C133_g2_generator : Jac2 blstG2Generator G2.gen ∧ Jac2 arkG2Generator G2.gen ∧
    Hom2 zkG2Generator G2.gen := by
  have w : blstG2Generator = ⟨G2.generatorX.words, G2.generatorY.words, (1 : Fp2 FpW).words⟩ := by decide +kernel
  have w2 : arkG2Generator = ⟨G2.generatorX.words, G2.generatorY.words, (1 : Fp2 FpW).words⟩ := by decide +kernel
  have w4 : zkG2Generator = ⟨G2.generatorX.words, G2.generatorY.words, (1 : Fp2 FpW).words⟩ := by decide +kernel
  have j := jac_one G2.generator_nonsingular
  exact ⟨⟨_, _, _, w, j⟩, ⟨_, _, _, w2, j⟩, ⟨_, _, _, w4, hom_one G2.generator_nonsingular⟩⟩

/-- C133: the negated generator constants of the second group. -/
theorem C133_g2_negative : Jac2 blstG2NegativeGenerator (-G2.gen) ∧ Jac2 ckzgG2NegativeGenerator (-G2.gen) ∧
    Jac2 arkG2NegativeGenerator (-G2.gen) ∧ Jac2 mclG2NegativeGenerator (-G2.gen) ∧
    Hom2 zkG2NegativeGenerator (-G2.gen) := by
  have w : blstG2NegativeGenerator = ⟨G2.generatorX.words, (-G2.generatorY).words, (1 : Fp2 FpW).words⟩ := by
    decide +kernel
  have w1 : ckzgG2NegativeGenerator = ⟨G2.generatorX.words, (-G2.generatorY).words, (1 : Fp2 FpW).words⟩ := by
    decide +kernel
  have w2 : arkG2NegativeGenerator = ⟨G2.generatorX.words, (-G2.generatorY).words, (1 : Fp2 FpW).words⟩ := by
    decide +kernel
  have w3 : mclG2NegativeGenerator = ⟨G2.generatorX.words, (-G2.generatorY).words, (1 : Fp2 FpW).words⟩ := by
    decide +kernel
  have w4 : zkG2NegativeGenerator = ⟨G2.generatorX.words, (-G2.generatorY).words, (1 : Fp2 FpW).words⟩ := by
    decide +kernel
  obtain ⟨h, e⟩ := neg_some G2.generator_nonsingular
  rw [show -G2.gen = _ from e]
  have j := jac_one h
  exact ⟨⟨_, _, _, w, j⟩, ⟨_, _, _, w1, j⟩, ⟨_, _, _, w2, j⟩, ⟨_, _, _, w3, j⟩, ⟨_, _, _, w4, hom_one h⟩⟩

/-- C133: the identity constants. -/
theorem C133_identity : Jac1 g1Identity 0 ∧ Hom1 zkG1Identity 0 :=
  ⟨⟨0, 0, 0, rfl, .infinity _ _⟩, ⟨0, 1, 0, rfl, .infinity one_ne_zero⟩⟩

/-- C133: the decimal strings of mcl-kzg are the coordinates of the same generators. -/
theorem C133_mcl_gen :
    Jacobian b (mclG1Gen.1 : FpW) (mclG1Gen.2.1 : FpW) (mclG1Gen.2.2 : FpW) G1.gen ∧
    Jacobian b (⟨mclG2Gen.1.1, mclG2Gen.1.2⟩ : Fp2 FpW) ⟨mclG2Gen.2.1.1, mclG2Gen.2.1.2⟩
      ⟨mclG2Gen.2.2.1, mclG2Gen.2.2.2⟩ G2.gen := by
  have h1 : G1.generatorX = (mclG1Gen.1 : FpW) := FpW.eq_natCast _ (by decide +kernel)
  have h2 : G1.generatorY = (mclG1Gen.2.1 : FpW) := FpW.eq_natCast _ (by decide +kernel)
  have h3 : G2.generatorX.c0 = (mclG2Gen.1.1 : FpW) := FpW.eq_natCast _ (by decide +kernel)
  have h4 : G2.generatorX.c1 = (mclG2Gen.1.2 : FpW) := FpW.eq_natCast _ (by decide +kernel)
  have h5 : G2.generatorY.c0 = (mclG2Gen.2.1.1 : FpW) := FpW.eq_natCast _ (by decide +kernel)
  have h6 : G2.generatorY.c1 = (mclG2Gen.2.1.2 : FpW) := FpW.eq_natCast _ (by decide +kernel)
  constructor
  · rw [← h1, ← h2, show ((mclG1Gen.2.2 : Nat) : FpW) = 1 from Nat.cast_one]
    exact jac_one G1.generator_nonsingular
  · rw [← h3, ← h4, ← h5, ← h6, show ((mclG2Gen.2.2.1 : Nat) : FpW) = 1 from Nat.cast_one,
      show ((mclG2Gen.2.2.2 : Nat) : FpW) = 0 from Nat.cast_zero]
    exact jac_one G2.generator_nonsingular

/-- C133: words stand for at most one point, so the constants that stand for the generator do not also stand for
another point. -/
theorem C133_unique {p : BlstP1} {P Q : (E1).Point} (hP : Jac1 p P) (hQ : Jac1 p Q) : P = Q := by
  obtain ⟨x, y, z, rfl, h⟩ := hP
  obtain ⟨x', y', z', e, h'⟩ := hQ
  simp only [BlstP1.mk.injEq] at e
  obtain ⟨e1, e2, e3⟩ := e
  obtain rfl : x = x' := Subtype.ext e1
  obtain rfl : y = y' := Subtype.ext e2
  obtain rfl : z = z' := Subtype.ext e3
  cases h with
  | infinity =>
    generalize hz : (0 : FpW) = z at h'
    cases h' with
    | infinity => rfl
    | finite hz' => exact absurd hz.symm hz'
  | @finite X Y _ hz h =>
    generalize hX : X * z ^ 2 = x at h'
    generalize hY : Y * z ^ 3 = y at h'
    cases h' with
    | infinity => exact absurd rfl hz
    | @finite X' Y' _ _ h' =>
      obtain rfl := mul_right_cancel₀ (pow_ne_zero 2 hz) hX
      obtain rfl := mul_right_cancel₀ (pow_ne_zero 3 hz) hY
      rfl

/-- The two constants of blst are different points, and neither is the identity. -/
example : G1.gen ≠ -G1.gen ∧ G1.gen ≠ 0 := by
  refine ⟨fun h => ?_, fun h => by cases h⟩
  obtain ⟨h', e⟩ := neg_some G1.generator_nonsingular
  rw [show -G1.gen = _ from e] at h
  injection h with _ h
  exact absurd (congrArg Subtype.val h) (by decide +kernel)

end Kzg.Props
