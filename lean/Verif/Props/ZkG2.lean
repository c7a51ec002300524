import Verif.Proofs.Zk.G2Bytes
/-!
# Properties C78 to C82: the second group of zkcrypto

`gen` is the point of Mathlib's curve over `Fp2` with the coordinates of the generator constant.
`frModulus • P = 0` says that `P` lies in the prime order subgroup. Nothing here depends on whether overflow
checks are on: no function of this group can panic.
-/

namespace Kzg.Props
set_option exponentiation.threshold 2000
open Kzg Kzg.Zk Kzg.Zk.G2 CurveConsts

local notation "E" => curve (CurveConsts.b (K := Fp2 FpW))

/-! ## C78: scalar multiplication -/

/-- C78: the product is the multiple, for every point of the curve and every scalar. -/
theorem C78_mul {p : Proj} {P : (E).Point} {s : Scalar} {x : Fr} (hp : Projective.Is b p P) (hs : Scalar.Rep s x) :
    Projective.Is b (G2.mul p s) (x.val • P) := by
  obtain ⟨h1, h2, h3⟩ := Scalar.toBytes_spec hs
  have := multiply_is hp (bytes := Scalar.toBytes s) (fun h => by rw [h] at h1; cases h1) h2
    (by rw [h3, h1]; exact lt_trans (ZMod.val_lt x) (by decide +kernel))
  rwa [h3] at this

/-- C78: the same for the product of an affine point. -/
theorem C78_mul_affine {a : Aff} {P : (E).Point} {s : Scalar} {x : Fr} (ha : Affine.Is b a P) (hs : Scalar.Rep s x) :
    Projective.Is b (G2.mulAffine a s) (x.val • P) := C78_mul (ofAffine_is ha) hs

/-- C78: on the subgroup the scalars act as the field they stand for. -/
theorem C78_linear {p : Proj} {P : (E).Point} {s t : Scalar} {x y : Fr} (hp : Projective.Is b p P)
    (ht : frModulus • P = 0) (hs : Scalar.Rep s x) (hy : Scalar.Rep t y) :
    (G2.mul p (Scalar.add s t)).ctEq ((G2.mul p s).add (G2.mul p t)) = true := by
  rw [ctEq_iff (C78_mul hp (Scalar.add_rep hs hy)) (add_is (C78_mul hp hs) (C78_mul hp hy)), ZMod.val_add, ← add_nsmul]
  conv_rhs => rw [← Nat.mod_add_div (x.val + y.val) frModulus, add_nsmul, mul_nsmul, ht, nsmul_zero, add_zero]

/-- The generator times seven, and a point outside the subgroup times seven. -/
example : ∃ s, Scalar.Rep s 7 ∧ Projective.Is b (G2.mul generatorProj s) (7 • gen) ∧
    ∃ p P, Projective.Is b p P ∧ frModulus • P ≠ 0 ∧ Projective.Is b (G2.mul p s) (7 • P) := by
  obtain ⟨s, hs⟩ := Scalar.rep_exists 7
  have hv : (7 : Fr).val = 7 := ZMod.val_natCast_of_lt (a := 7) (by decide +kernel)
  have h1 := C78_mul generatorProj_is hs
  have h2 := C78_mul (pt_is on13) hs
  rw [hv] at h1 h2
  refine ⟨s, hs, h1, _, _, pt_is on13, fun hr => pt_ne on13 ?_, h2⟩
  rw [← one_nsmul (pt x13 y13 on13), show 1 = 2 * frModulus - 13 * ((2 * frModulus - 1) / 13) by decide +kernel,
    sub_nsmul _ (by decide +kernel), mul_nsmul', hr, mul_nsmul, kill13]
  simp

/-! ## C79: the subgroup test and the order of the group -/

/-- C79: the subgroup test is true exactly for the points of the prime order subgroup. -/
theorem C79_is_torsion_free {p : Aff} {P : (E).Point} (hp : Affine.Is b p P) :
    isTorsionFree p = true ↔ frModulus • P = 0 := isTorsionFree_iff hp

/-- C79: in other words, it is true exactly for the multiples of the generator. -/
theorem C79_multiples {p : Aff} {P : (E).Point} (hp : Affine.Is b p P) :
    isTorsionFree p = true ↔ ∃ n : Nat, P = n • gen := by
  rw [isTorsionFree_iff hp]
  constructor
  · exact torsion_cyclic
  · rintro ⟨n, rfl⟩
    rw [nsmul_left_comm, order_gen, nsmul_zero]

/-- C79: the generator is on the curve and has exactly the order of the scalar field. -/
theorem C79_generator : Affine.Is b generator gen ∧ Projective.Is b generatorProj gen ∧ addOrderOf gen = frModulus := by
  have : Fact (Nat.Prime frModulus) := inferInstance
  exact ⟨generator_is, generatorProj_is, addOrderOf_eq_prime order_gen gen_ne⟩

/-- C79: the number of points of the curve over the quadratic extension. -/
theorem C79_points : Nat.card (E).Point =
    0x5d543a95414e7f1091d50792876a202cd91de4547085abaa68a205b2e5a7ddfa628f1cb4d9e82ef21537e293a6691ae1616ec6e786f0c70cf1c38e31c7238e5
      * frModulus := by
  rw [card_points]
  decide +kernel

/-- The generator passes; a point of order 13 does not. -/
example : isTorsionFree generator = true ∧ ∃ p P, Affine.Is b p P ∧ isTorsionFree p = false := by
  refine ⟨(C79_multiples generator_is).2 ⟨1, (one_nsmul _).symm⟩, ?_⟩
  have hp : Affine.Is b (⟨x13.cast, y13.cast, false⟩ : Aff) (pt x13 y13 on13) := .finite _
  refine ⟨_, _, hp, ?_⟩
  rw [← Bool.not_eq_true, C79_is_torsion_free hp]
  intro hr
  apply pt_ne on13
  rw [← one_nsmul (pt x13 y13 on13), show 1 = 2 * frModulus - 13 * ((2 * frModulus - 1) / 13) by decide +kernel,
    sub_nsmul _ (by decide +kernel), mul_nsmul', hr, mul_nsmul, kill13]
  simp

/-! ## C80: encodings -/

/-- C80: the checked decoder accepts exactly the encodings of points of the prime order subgroup, each of which it
decodes to the point with that encoding. -/
theorem C80_decode_compressed {bs : List Nat} (hl : bs.length = 96) (hb : ∀ c ∈ bs, c < 256) {p : Aff} :
    fromCompressed bs = some p ↔ (∃ P, Affine.Is b p P ∧ frModulus • P = 0) ∧ toCompressed p = bs :=
  fromCompressed_iff hl hb

/-- C80: the same for the uncompressed form. -/
theorem C80_decode_uncompressed {bs : List Nat} (hl : bs.length = 192) (hb : ∀ c ∈ bs, c < 256) {p : Aff} :
    fromUncompressed bs = some p ↔ (∃ P, Affine.Is b p P ∧ frModulus • P = 0) ∧ toUncompressed p = bs :=
  fromUncompressed_iff hl hb

/-- C80: the round trips from a point of the subgroup. -/
theorem C80_round_trip {p : Aff} {P : (E).Point} (hp : Affine.Is b p P) (ht : frModulus • P = 0) :
    fromCompressed (toCompressed p) = some p ∧ fromUncompressed (toUncompressed p) = some p := by
  obtain ⟨h1, h2⟩ := toCompressed_length p
  obtain ⟨h3, h4⟩ := toUncompressed_length p
  exact ⟨(fromCompressed_iff h1 h2).2 ⟨⟨P, hp, ht⟩, rfl⟩, (fromUncompressed_iff h3 h4).2 ⟨⟨P, hp, ht⟩, rfl⟩⟩

/-- C80: the decoders without the subgroup test: the compressed one accepts exactly the encodings of points of
the curve, the uncompressed one those of any pair of coordinates and of the identity. -/
theorem C80_unchecked {bs : List Nat} (hb : ∀ c ∈ bs, c < 256) {p : Aff} :
    (bs.length = 96 → (fromCompressedUnchecked bs = some p ↔ (∃ P, Affine.Is b p P) ∧ toCompressed p = bs)) ∧
    (bs.length = 192 → (fromUncompressedUnchecked bs = some p ↔
      (p = ⟨0, 1, true⟩ ∨ p.infinity = false) ∧ toUncompressed p = bs)) :=
  ⟨fun hl => fromCompressedUnchecked_iff hl hb, fun hl => fromUncompressedUnchecked_iff hl hb⟩

/-- C80: the compressed encoding has 96 bytes; as an integer it is bit 767, plus bit 766 for the identity, plus bit
765 if the second coordinate is the larger of the two square roots (its imaginary part decides, and its real part if
that is zero), plus the imaginary part of the first coordinate above the 384 bits of its real part. -/
theorem C80_format_compressed {p : Aff} {P : (E).Point} (h : Affine.Is b p P) :
    (toCompressed p).length = 96 ∧ (∀ c ∈ toCompressed p, c < 256) ∧
    (P = 0 → beNat (toCompressed p) = 2 ^ 767 + 2 ^ 766) ∧
    (∀ x y hn, P = .some x y hn → beNat (toCompressed p) = 2 ^ 767 +
      (if (fpModulus - 1) / 2 < (FpW.el y.c1).val ∨ (y.c1 = 0 ∧ (fpModulus - 1) / 2 < (FpW.el y.c0).val)
        then 2 ^ 765 else 0) + 2 ^ 384 * (FpW.el x.c1).val + (FpW.el x.c0).val) := by
  obtain ⟨h1, h2⟩ := toCompressed_length p
  refine ⟨h1, h2, ?_, ?_⟩
  · rintro rfl
    obtain rfl : p = Affine.identity := affine_is_inj h .infinity
    decide +kernel
  · rintro x y hn rfl
    obtain rfl : p = ⟨x, y, false⟩ := affine_is_inj h (.finite hn)
    rw [toCompressed_value h]
    have hl := Fp2.lexLargest_iff y
    simp only [Bool.false_eq_true, if_false, Bool.not_false, Bool.true_and, hl, add_zero]
    rw [add_assoc (2 ^ 767 + _)]

/-- C80: the uncompressed encoding has 192 bytes; as an integer it is bit 1534 for the identity, and otherwise the
imaginary and real parts of the first coordinate followed by those of the second, 384 bits each. -/
theorem C80_format_uncompressed {p : Aff} {P : (E).Point} (h : Affine.Is b p P) :
    (toUncompressed p).length = 192 ∧ (∀ c ∈ toUncompressed p, c < 256) ∧
    (P = 0 → beNat (toUncompressed p) = 2 ^ 1534) ∧
    (∀ x y hn, P = .some x y hn → beNat (toUncompressed p) = 2 ^ 1152 * (FpW.el x.c1).val +
      2 ^ 768 * (FpW.el x.c0).val + 2 ^ 384 * (FpW.el y.c1).val + (FpW.el y.c0).val) := by
  obtain ⟨h1, h2⟩ := toUncompressed_length p
  refine ⟨h1, h2, ?_, ?_⟩
  · rintro rfl
    obtain rfl : p = Affine.identity := affine_is_inj h .infinity
    decide +kernel
  · rintro x y hn rfl
    obtain rfl : p = ⟨x, y, false⟩ := affine_is_inj h (.finite hn)
    obtain ⟨c, rest, h0, hc, hl, -⟩ := Fp2.enc_cons x
    rw [toUncompressed_cons (p := ⟨x, y, false⟩) (by simpa using h0) hc, ← Fp.fromBe_eq]
    simp only [Bool.false_eq_true, if_false, add_zero]
    rw [← List.cons_append, ← h0, Fp.fromBe_append, (Fp2.enc_length y).1, Fp2.enc_value, Fp2.enc_value]
    ring

/-- The generator is encoded as the well known string, and decoded from it. -/
example : toCompressed generator = Fp.toBe 96
      0x93e02b6052719f607dacd3a088274f65596bd0d09920b61ab5da61bbdc7f5049334cf11213945d57e5ac7d055d042b7e024aa2b2f08f0a91260805272dc51051c6e47ad4fa403b02b4510b647ae3d1770bac0326a805bbefd48056c8c121bdb8 ∧
    fromCompressed (toCompressed generator) = some generator :=
  ⟨by decide +kernel, (C80_round_trip generator_is order_gen).1⟩

example : fromUncompressed (toUncompressed generator) = some generator ∧
    fromUncompressed (toUncompressed Affine.identity) = some Affine.identity :=
  ⟨(C80_round_trip generator_is order_gen).2, (C80_round_trip affine_identity_is (nsmul_zero _)).2⟩

/-! ## C81: the endomorphism -/

/-- C81: `psi` respects the group: there is an endomorphism of the group of points that it computes, for every
point in any coordinates. -/
theorem C81_endomorphism : ∃ ψ : (E).Point →+ (E).Point, ∀ p P, Projective.Is b p P → Projective.Is b (psi p) (ψ P) :=
  ⟨psiHom, fun _ _ => psi_is⟩

/-- C81: `psi2` is `psi` applied twice, coordinate by coordinate. -/
theorem C81_psi2 (p : Proj) : psi (psi p) = psi2 p := psi_psi p

/-- C81: `psi` meets the equation of the Frobenius map, `ψ² - tψ + p = 0` with the trace `t = 1 -
0xd201000000010000`, on every point of the curve. -/
theorem C81_characteristic {p : Proj} {P S T : (E).Point} (hp : Projective.Is b p P) (h1 : Projective.Is b (psi p) S)
    (h2 : Projective.Is b (psi2 p) T) : T - (1 - 0xd201000000010000 : Int) • S + fpModulus • P = 0 := by
  obtain rfl := is_unique h1 (psi_is hp)
  obtain rfl := is_unique h2 (psi2_is hp)
  have h := char_zero P
  rw [charHom_apply] at h
  rw [← h]
  module

/-- C81: on the subgroup `psi` is multiplication by the curve parameter. -/
theorem C81_eigenvalue {p : Proj} {P : (E).Point} (hp : Projective.Is b p P) (ht : frModulus • P = 0) :
    Projective.Is b (psi p) (-(0xd201000000010000 : Int) • P) := by
  rw [← psi_torsion ht]
  exact psi_is hp

example : Projective.Is b (psi generatorProj) (-(0xd201000000010000 : Int) • gen) := C81_eigenvalue generatorProj_is order_gen

/-! ## C82: clearing the cofactor -/

/-- C82: the cleared point is in the prime order subgroup, for every point of the curve. -/
theorem C82_clear_cofactor {p : Proj} {P Q : (E).Point} (hp : Projective.Is b p P)
    (hq : Projective.Is b (clearCofactor p) Q) : frModulus • Q = 0 := by
  obtain rfl := is_unique hq (clearCofactor_hom hp)
  exact clear_torsion P

/-- C82: clearing respects the group, and its result always stands for a point. -/
theorem C82_homomorphism : ∃ c : (E).Point →+ (E).Point, ∀ p P, Projective.Is b p P →
    Projective.Is b (clearCofactor p) (c P) := ⟨clearHom, fun _ _ => clearCofactor_hom⟩

/-- C82: the subgroup test accepts every cleared point. -/
theorem C82_accepted {p : Proj} {P : (E).Point} (hp : Projective.Is b p P) :
    isTorsionFree (Affine.ofProjective (clearCofactor p)) = true :=
  (C79_is_torsion_free (ofProjective_is (clearCofactor_hom hp))).2 (clear_torsion P)

/-- C82: on the subgroup it is multiplication by `4z² - 2z - 1` for the curve parameter `z`. -/
theorem C82_subgroup {p : Proj} {P : (E).Point} (hp : Projective.Is b p P) (ht : frModulus • P = 0) :
    Projective.Is b (clearCofactor p) ((4 * 0xd201000000010000 ^ 2 + 2 * 0xd201000000010000 - 1 : Int) • P) := by
  have := clearCofactor_hom hp
  convert this using 1
  rw [clearHom_apply, psi_torsion ht, map_zsmul, psi_torsion ht]
  module

/-- C82: no point of the subgroup other than the identity is sent to the identity. -/
theorem C82_injective {p : Proj} {P : (E).Point} (hp : Projective.Is b p P) (ht : frModulus • P = 0)
    (h : (clearCofactor p).isIdentity = true) : P = 0 := by
  rw [isIdentity_iff (C82_subgroup hp ht)] at h
  have h1 := addOrderOf_dvd_of_nsmul_eq_zero ht
  have h2 : (4 * 0xd201000000010000 ^ 2 + 2 * 0xd201000000010000 - 1 : Nat) • P = 0 := by
    rw [← natCast_zsmul, ← h]
    norm_num
  have h3 := Nat.dvd_gcd h1 (addOrderOf_dvd_of_nsmul_eq_zero h2)
  rw [show Nat.gcd frModulus (4 * 0xd201000000010000 ^ 2 + 2 * 0xd201000000010000 - 1) = 1 by decide +kernel,
    Nat.dvd_one] at h3
  exact AddMonoid.addOrderOf_eq_one_iff.1 h3

/-- A point of order 13 is moved into the subgroup. -/
example : isTorsionFree (Affine.ofProjective (clearCofactor (NPt.cast ⟨x13, y13, ⟨1, 0⟩⟩))) = true :=
  C82_accepted (pt_is on13)

end Kzg.Props
