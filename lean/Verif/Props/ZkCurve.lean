import Verif.Proofs.Zk.G1Curve
/-!
# Properties C52 and C53: the group law of zkcrypto

The theorems hold for every coordinate field `K` and curve `y² = x³ + b` without a point of order two, the
situation of both pairing groups. `Projective.Is b p P` and `Affine.Is b p P` say that the coordinates stand
for the point `P` of Mathlib's elliptic curve (`Verif/Spec/ZkCurve.lean`); `+`, `-` and sums on the right are
Mathlib's group law.
-/

namespace Kzg.Props
open Kzg Kzg.Zk

section
variable {K : Type} [Field K] [DecidableEq K] [LawfulCurve K]
open CurveConsts
local notation "E" => curve (CurveConsts.b (K := K))

/-! ## C52: the formulas are complete -/

/-- C52: the sum of two projective points, for every pair: equal, opposite and identity included. -/
theorem C52_add {p q : Projective K} {P Q : (E).Point} (hp : Projective.Is b p P) (hq : Projective.Is b q Q) :
    Projective.Is b (p.add q) (P + Q) := add_is hp hq

/-- C52: the sum of a projective and an affine point. -/
theorem C52_add_mixed {p : Projective K} {q : Affine K} {P Q : (E).Point} (hp : Projective.Is b p P)
    (hq : Affine.Is b q Q) : Projective.Is b (p.addMixed q) (P + Q) := addMixed_is hp hq

/-- C52: doubling. -/
theorem C52_double {p : Projective K} {P : (E).Point} (hp : Projective.Is b p P) :
    Projective.Is b p.double (P + P) := double_is hp

/-- C52: negation, of projective and of affine points. -/
theorem C52_neg {p : Projective K} {a : Affine K} {P A : (E).Point} (hp : Projective.Is b p P) (ha : Affine.Is b a A) :
    Projective.Is b p.neg (-P) ∧ Affine.Is b a.neg (-A) := ⟨neg_is hp, affine_neg_is ha⟩

/-- C52: differences. -/
theorem C52_sub {p q : Projective K} {a : Affine K} {P Q A : (E).Point} (hp : Projective.Is b p P)
    (hq : Projective.Is b q Q) (ha : Affine.Is b a A) :
    Projective.Is b (p.sub q) (P - Q) ∧ Projective.Is b (p.subMixed a) (P - A) := ⟨sub_is hp hq, subMixed_is hp ha⟩

/-- C52: the sum of a sequence of points of any length. -/
theorem C52_sum {ps : List (Projective K)} {Ps : List (E).Point} (h : List.Forall₂ (Projective.Is b) ps Ps) :
    Projective.Is b (Projective.sum ps) Ps.sum := sum_is h

/-- C52: multiplication by the (negative) curve parameter. -/
theorem C52_mul_by_x {p : Projective K} {P : (E).Point} (hp : Projective.Is b p P) :
    Projective.Is b p.mulByX (-(0xd201000000010000 : ℤ) • P) := mulByX_is hp

/-! ## C53: comparison and normalisation -/

/-- C53: projective points compare equal exactly when they are the same group element, whatever the
scaling of the coordinates. -/
theorem C53_eq {p q : Projective K} {P Q : (E).Point} (hp : Projective.Is b p P) (hq : Projective.Is b q Q) :
    p.ctEq q = true ↔ P = Q := ctEq_iff hp hq

/-- C53: the same for affine points, which moreover have one set of coordinates per group element. -/
theorem C53_eq_affine {p q : Affine K} {P Q : (E).Point} (hp : Affine.Is b p P) (hq : Affine.Is b q Q) :
    (p.ctEq q = true ↔ P = Q) ∧ (p = q ↔ P = Q) :=
  ⟨affine_ctEq_iff hp hq, fun h => affine_is_unique (h ▸ hp) hq, fun h => affine_is_inj hp (h ▸ hq)⟩

/-- C53: the tests for the identity. -/
theorem C53_is_identity {p : Projective K} {a : Affine K} {P A : (E).Point} (hp : Projective.Is b p P)
    (ha : Affine.Is b a A) : (p.isIdentity = true ↔ P = 0) ∧ (a.isIdentity = true ↔ A = 0) :=
  ⟨isIdentity_iff hp, affine_isIdentity_iff ha⟩

/-- C53: conversion between the coordinate systems keeps the point; the round trip from affine
coordinates gives the very same coordinates. -/
theorem C53_convert {p : Projective K} {a : Affine K} {P A : (E).Point} (hp : Projective.Is b p P)
    (ha : Affine.Is b a A) :
    Affine.Is b (Affine.ofProjective p) P ∧ Projective.Is b (Projective.ofAffine a) A ∧
      Affine.ofProjective (Projective.ofAffine a) = a :=
  ⟨ofProjective_is hp, ofAffine_is ha, affine_is_inj (ofProjective_is (ofAffine_is ha)) ha⟩

/-- C53: normalising many points with one inversion gives what normalising each of them gives, also
when some are the identity; it panics exactly when the two slices have different lengths. -/
theorem C53_batch_normalize (ps : List (Projective K)) (n : Nat) :
    Projective.batchNormalize ps n = if ps.length = n then .ok (ps.map Affine.ofProjective) else .panic := by
  split
  · next h =>
    subst h
    exact batchNormalize_eq ps
  · next h => rw [Projective.batchNormalize, if_pos h]

/-- C53: finite coordinates pass the curve test exactly when they stand for a point of the curve. -/
theorem C53_is_on_curve (x y : K) {z : K} (hz : z ≠ 0) :
    ((Affine.isOnCurve (⟨x, y, false⟩ : Affine K) = true) ↔ ∃ P, Affine.Is b ⟨x, y, false⟩ P) ∧
    ((Projective.isOnCurve (⟨x, y, z⟩ : Projective K) = true) ↔ ∃ P, Projective.Is b ⟨x, y, z⟩ P) :=
  ⟨affine_isOnCurve_iff x y, isOnCurve_iff hz⟩

end

/-! ## The first group is an instance -/

/-- C52: the coordinates of the first group are the residues modulo the base field prime (the stored
integer divided by `2^384`), with the operations on words as ring operations, and the constant of the
curve is 4. -/
theorem C52_coordinates : ∃ e : FpW ≃+* Fq, (∀ a : FpW, Fp.Rep a.1 (e a)) ∧ e CurveConsts.b = 4 ∧
    (∀ a c : FpW, (a + c).1 = Fp.add a.1 c.1 ∧ (a * c).1 = Fp.mul a.1 c.1 ∧ (a - c).1 = Fp.sub a.1 c.1 ∧
      (-a).1 = Fp.neg a.1 ∧ (a⁻¹).1 = (Fp.invert a.1).getD Fp.zero) :=
  ⟨FpW.elEquiv, FpW.el_rep, by rw [G1.b_eq]; exact map_ofNat _ 4, fun _ _ => ⟨rfl, rfl, rfl, rfl, rfl⟩⟩

/-- The generator plus itself, plus its negation, and its comparison with a scaled copy. -/
example : Projective.Is CurveConsts.b (G1.generatorProj.add G1.generatorProj) (G1.gen + G1.gen) ∧
    Projective.Is CurveConsts.b (G1.generatorProj.add G1.generatorProj.neg) 0 ∧
    Projective.Is CurveConsts.b (G1.generatorProj.addMixed G1.generator) (G1.gen + G1.gen) := by
  refine ⟨C52_add G1.generatorProj_is G1.generatorProj_is, ?_, C52_add_mixed G1.generatorProj_is G1.generator_is⟩
  have := C52_add G1.generatorProj_is (C52_neg G1.generatorProj_is G1.generator_is).1
  rwa [add_neg_cancel] at this

/-- One inversion for two points, one of them the identity. -/
example : Projective.batchNormalize [G1.generatorProj, Projective.identity] 2 = .ok [G1.generator, Affine.identity] := by
  rw [C53_batch_normalize, if_pos (by rfl)]
  simp only [List.map_cons, List.map_nil]
  rw [affine_is_inj (ofProjective_is G1.generatorProj_is) G1.generator_is,
    affine_is_inj (ofProjective_is identity_is) affine_identity_is]

end Kzg.Props
