import Verif.Props.ZkVectors
import Verif.Proofs.Zk.Kzg
import Verif.Props.ZkGt
import Verif.Props.ZkPairing

/-! C195: the unit tests of zkcrypto that C193 leaves out: the two towers of the extension field, the other tests of the two
groups and those of the pairing. -/

namespace Kzg.Props
open Kzg Kzg.Zk CurveConsts

section Towers

/-- `a` of `test_arithmetic`, zkcrypto/src/curve/fp6.rs. -/
def sixA : Fp6 FpW :=
  ⟨⟨fpOf 0x47f9cb98b1b82d58 0x5fe911eba3aa1d9d 0x96bf1b5f4dd81db3 0x8100d27cc9259f5b 0xafa20b9674640eab 0x09bbcea7d8d9497d,
    fpOf 0x0303cb98b1662daa 0xd93110aa0a621d5a 0xbfa9820c5be4a468 0x0ba3643ecb05a348 0xdc3534bb1f1c25a6 0x06c305bb19c0e1c1⟩,
   ⟨fpOf 0x46f9cb98b162d858 0x0be9109cf7aa1d57 0xc791bc55fece41d2 0xf84c57704e385ec2 0xcb49c1d9c010e60f 0x0acdb8e158bfe3c8,
    fpOf 0x8aefcb98b15f8306 0x3ea1108fe4f21d54 0xcf79f69fa1b7df3b 0xe4f54aa1d16b1a3c 0xba5e4ef86105a679 0x0ed86c0797bee5cf⟩,
   ⟨fpOf 0xcee5cb98b15c2db4 0x71591082d23a1d51 0xd76230e944a17ca4 0xd19e3dd3549dd5b6 0xa972dc1701fa66e3 0x12e31f2dd6bde7d6,
    fpOf 0xad2acb98b1732d9d 0x2cfd10dd06961d64 0x07396b86c6ef24e8 0xbd76e2fdb1bfc820 0x6afea7f6de94d0d5 0x10994b0c5744c040⟩⟩

/-- `b` of `test_arithmetic`, zkcrypto/src/curve/fp6.rs. -/
def sixB : Fp6 FpW :=
  ⟨⟨fpOf 0xf120cb98b16fd84b 0x5fb510cff3de1d61 0x0f21a5d069d8c251 0xaa1fd62f34f2839a 0x5a1335157f89913f 0x14a3fe329643c247,
    fpOf 0x3516cb98b16c82f9 0x926d10c2e1261d5f 0x1709e01a0cc25fba 0x96c8c960b8253f14 0x4927c234207e51a9 0x18aeb158d542c44e⟩,
   ⟨fpOf 0xbf0dcb98b16982fc 0xa67910b71d1a1d5c 0xb7c147c2b8fb06ff 0x1efa710d47d2e7ce 0xed20a79c7e27653c 0x02b85294dac1dfba,
    fpOf 0x9d52cb98b18082e5 0x621d111151761d6f 0xe79882603b48af43 0x0ad31637a4f4da37 0xaeac737c5ac1cf2e 0x006e7e735b48b824⟩,
   ⟨fpOf 0xe148cb98b17d2d93 0x94d511043ebe1d6c 0xef80bca9de324cac 0xf77c0969282795b1 0x9dc1009afbb68f97 0x047931999a47ba2b,
    fpOf 0x253ecb98b179d841 0xc78d10f72c061d6a 0xf768f6f3811bea15 0xe424fc9aab5a512b 0x8cd58db99cab5001 0x0883e4bfd946bc32⟩⟩

/-- `c` of `test_arithmetic`, zkcrypto/src/curve/fp6.rs. -/
def sixC : Fp6 FpW :=
  ⟨⟨fpOf 0x6934cb98b17682ef 0xfa4510ea194e1d67 0xff51313d2405877e 0xd0cdefcc2e8d0ca5 0x7bea1ad83da0106b 0x0c8e97e61845be39,
    fpOf 0x4779cb98b18d82d8 0xb5e911444daa1d7a 0x2f286bdaa6532fc2 0xbca694f68baeff0f 0x3d75e6b81a3a7a5d 0x0a44c3c498cc96a3⟩,
   ⟨fpOf 0x8b6fcb98b18a2d86 0xe8a111373af21d77 0x3710a624493ccd2b 0xa94f88280ee1ba89 0x2c8a73d6bb2f3ac7 0x0e4f76ead7cb98aa,
    fpOf 0xcf65cb98b186d834 0x1b59112a283a1d74 0x3ef8e06dec266a95 0x95f87b5992147603 0x1b9f00f55c23fb31 0x125a2a1116ca9ab1⟩,
   ⟨fpOf 0x135bcb98b18382e2 0x4e11111d15821d72 0x46e11ab78f1007fe 0x82a16e8b1547317d 0x0ab38e13fd18bb9b 0x1664dd3755c99cb8,
    fpOf 0xce65cb98b1318334 0xc7590fdb7c3a1d2e 0x6fcb81649d1c8eb3 0x0d44004d1727356a 0x3746b738a7d0d296 0x136c144a96b134fc⟩⟩

/-- `a` of `test_arithmetic` as it is first written, zkcrypto/src/curve/fp12.rs. -/
def twelveA0 : Fp12 FpW :=
  ⟨⟨⟨fpOf 0x47f9cb98b1b82d58 0x5fe911eba3aa1d9d 0x96bf1b5f4dd81db3 0x8100d27cc9259f5b 0xafa20b9674640eab 0x09bbcea7d8d9497d,
    fpOf 0x0303cb98b1662daa 0xd93110aa0a621d5a 0xbfa9820c5be4a468 0x0ba3643ecb05a348 0xdc3534bb1f1c25a6 0x06c305bb19c0e1c1⟩,
   ⟨fpOf 0x46f9cb98b162d858 0x0be9109cf7aa1d57 0xc791bc55fece41d2 0xf84c57704e385ec2 0xcb49c1d9c010e60f 0x0acdb8e158bfe3c8,
    fpOf 0x8aefcb98b15f8306 0x3ea1108fe4f21d54 0xcf79f69fa1b7df3b 0xe4f54aa1d16b1a3c 0xba5e4ef86105a679 0x0ed86c0797bee5cf⟩,
   ⟨fpOf 0xcee5cb98b15c2db4 0x71591082d23a1d51 0xd76230e944a17ca4 0xd19e3dd3549dd5b6 0xa972dc1701fa66e3 0x12e31f2dd6bde7d6,
    fpOf 0xad2acb98b1732d9d 0x2cfd10dd06961d64 0x07396b86c6ef24e8 0xbd76e2fdb1bfc820 0x6afea7f6de94d0d5 0x10994b0c5744c040⟩⟩,
   ⟨⟨fpOf 0x47f9cb98b1b82d58 0x5fe911eba3aa1d9d 0x96bf1b5f4dd81db3 0x8100d27cc9259f5b 0xafa20b9674640eab 0x09bbcea7d8d9497d,
    fpOf 0x0303cb98b1662daa 0xd93110aa0a621d5a 0xbfa9820c5be4a468 0x0ba3643ecb05a348 0xdc3534bb1f1c25a6 0x06c305bb19c0e1c1⟩,
   ⟨fpOf 0x46f9cb98b162d858 0x0be9109cf7aa1d57 0xc791bc55fece41d2 0xf84c57704e385ec2 0xcb49c1d9c010e60f 0x0acdb8e158bfe3c8,
    fpOf 0x8aefcb98b15f8306 0x3ea1108fe4f21d54 0xcf79f69fa1b7df3b 0xe4f54aa1d16b1a3c 0xba5e4ef86105a679 0x0ed86c0797bee5cf⟩,
   ⟨fpOf 0xcee5cb98b15c2db4 0x71591082d23a1d51 0xd76230e944a17ca4 0xd19e3dd3549dd5b6 0xa972dc1701fa66e3 0x12e31f2dd6bde7d6,
    fpOf 0xad2acb98b1732d9d 0x2cfd10dd06961d64 0x07396b86c6ef24e8 0xbd76e2fdb1bfc820 0x6afea7f6de94d0d5 0x10994b0c5744c040⟩⟩⟩

/-- `b` of `test_arithmetic` as it is first written, zkcrypto/src/curve/fp12.rs. -/
def twelveB0 : Fp12 FpW :=
  ⟨⟨⟨fpOf 0x47f9cb98b1b82d58 0x5fe911eba3aa1d9d 0x96bf1b5f4dd81db3 0x8100d272c9259f5b 0xafa20b9674640eab 0x09bbcea7d8d9497d,
    fpOf 0x0303cb98b1662daa 0xd93110aa0a621d5a 0xbfa9820c5be4a468 0x0ba3643ecb05a348 0xdc3534bb1f1c25a6 0x06c305bb19c0e1c1⟩,
   ⟨fpOf 0x46f9cb98b162d858 0x0be9109cf7aa1d57 0xc791bc55fece41d2 0xf84c57704e385ec2 0xcb49c1d9c010e60f 0x0acdb8e158bfe348,
    fpOf 0x8aefcb98b15f8306 0x3ea1108fe4f21d54 0xcf79f69fa1b7df3b 0xe4f54aa1d16b1a3c 0xba5e4ef86105a679 0x0ed86c0797bee5cf⟩,
   ⟨fpOf 0xcee5cb98b15c2db4 0x71591082d23a1d51 0xd76230e944a17ca4 0xd19e3dd3549dd5b6 0xa972dc1701fa66e3 0x12e31f2dd6bde7d6,
    fpOf 0xad2acb98b1732d9d 0x2cfd10dd06961d64 0x07396b86c6ef24e8 0xbd76e2fdb1bfc820 0x6afea7f6de94d0d5 0x10994b0c5744c040⟩⟩,
   ⟨⟨fpOf 0x47f9cb98b1b82d58 0x5fe911eba3aa1d9d 0x96bf1b5f4dd21db3 0x8100d27cc9259f5b 0xafa20b9674640eab 0x09bbcea7d8d9497d,
    fpOf 0x0303cb98b1662daa 0xd93110aa0a621d5a 0xbfa9820c5be4a468 0x0ba3643ecb05a348 0xdc3534bb1f1c25a6 0x06c305bb19c0e1c1⟩,
   ⟨fpOf 0x46f9cb98b162d858 0x0be9109cf7aa1d57 0xc791bc55fece41d2 0xf84c57704e385ec2 0xcb49c1d9c010e60f 0x0acdb8e158bfe3c8,
    fpOf 0x8aefcb98b15f8306 0x3ea1108fe4f21d54 0xcf79f69fa117df3b 0xe4f54aa1d16b1a3c 0xba5e4ef86105a679 0x0ed86c0797bee5cf⟩,
   ⟨fpOf 0xcee5cb98b15c2db4 0x71591082d23a1d51 0xd76230e944a17ca4 0xd19e3dd3549dd5b6 0xa972dc1701fa66e3 0x12e31f2dd6bde7d6,
    fpOf 0xad2acb98b1732d9d 0x2cfd10dd06961d64 0x07396b86c6ef24e8 0xbd76e2fdb1bfc820 0x6afea7f6de94d0d5 0x10994b0c5744c040⟩⟩⟩

/-- `c` of `test_arithmetic` as it is first written, zkcrypto/src/curve/fp12.rs. -/
def twelveC0 : Fp12 FpW :=
  ⟨⟨⟨fpOf 0x47f9cb9871b82d58 0x5fe911eba3aa1d9d 0x96bf1b5f4dd81db3 0x8100d27cc9259f5b 0xafa20b9674640eab 0x09bbcea7d8d9497d,
    fpOf 0x0303cb98b1662daa 0xd93110aa0a621d5a 0xbfa9820c5be4a468 0x0ba3643ecb05a348 0xdc3534bb1f1c25a6 0x06c305bb19c0e1c1⟩,
   ⟨fpOf 0x46f9cb98b162d858 0x0be9109cf7aa1d57 0x7791bc55fece41d2 0xf84c57704e385ec2 0xcb49c1d9c010e60f 0x0acdb8e158bfe3c8,
    fpOf 0x8aefcb98b15f8306 0x3ea1108fe4f21d54 0xcf79f69fa1b7df3b 0xe4f54aa1d16b133c 0xba5e4ef86105a679 0x0ed86c0797bee5cf⟩,
   ⟨fpOf 0xcee5cb98b15c2db4 0x71591082d23a1d51 0xd76240e944a17ca4 0xd19e3dd3549dd5b6 0xa972dc1701fa66e3 0x12e31f2dd6bde7d6,
    fpOf 0xad2acb98b1732d9d 0x2cfd10dd06961d64 0x07396b86c6ef24e8 0xbd76e2fdb1bfc820 0x6afea7f6de94d0d5 0x10994b0c1744c040⟩⟩,
   ⟨⟨fpOf 0x47f9cb98b1b82d58 0x5fe911eba3aa1d9d 0x96bf1b5f4dd81db3 0x8100d27cc9259f5b 0xafa20b9674640eab 0x09bbcea7d8d9497d,
    fpOf 0x0303cb98b1662daa 0xd93110aa0a621d5a 0xbfa9820c5be4a468 0x0ba3643ecb05a348 0xdc3534bb1f1c25a6 0x06c305bb19c0e1c1⟩,
   ⟨fpOf 0x46f9cb98b162d858 0x0be9109cf7aa1d57 0xc791bc55fece41d2 0xf84c57704e385ec2 0xcb49c1d3c010e60f 0x0acdb8e158bfe3c8,
    fpOf 0x8aefcb98b15f8306 0x3ea1108fe4f21d54 0xcf79f69fa1b7df3b 0xe4f54aa1d16b1a3c 0xba5e4ef86105a679 0x0ed86c0797bee5cf⟩,
   ⟨fpOf 0xcee5cb98b15c2db4 0x71591082d23a1d51 0xd76230e944a17ca4 0xd19e3dd3549dd5b6 0xa972dc1701fa66e3 0x12e31f2dd6bde7d6,
    fpOf 0xad2acb98b1732d9d 0x2cfd10dd06961d64 0x07396b86c6ef24e8 0xbd76e2fdb1bfc820 0x6afea7f6de94d0d5 0x10994b0c57441040⟩⟩⟩

/-- C195: `test_arithmetic`, zkcrypto/src/curve/fp6.rs:517-703. The laws hold for all elements; the three of the test have inverses. -/
theorem C195_fp6_arithmetic : (∀ a b c : Fp6 FpW, a.square = a * a ∧ (a + b) * c.square = c * c * a + c * c * b) ∧
    ∃ a' b' ab', sixA.invert = some a' ∧ sixB.invert = some b' ∧ (sixA * sixB).invert = some ab' ∧ a' * b' = ab' ∧
      a' * sixA = 1 := by
  have ha : sixA ≠ 0 := fun h => absurd ((Fp6.isZero_iff _).2 h) (by decide +kernel)
  have hb : sixB ≠ 0 := fun h => absurd ((Fp6.isZero_iff _).2 h) (by decide +kernel)
  refine ⟨fun a b c => ⟨Fp6.square_eq a, by rw [Fp6.square_eq]; ring⟩, sixA⁻¹, sixB⁻¹, (sixA * sixB)⁻¹, ?_, ?_, ?_, ?_, ?_⟩
  · rw [Fp6.invert_eq, if_neg ha]
  · rw [Fp6.invert_eq, if_neg hb]
  · rw [Fp6.invert_eq, if_neg (mul_ne_zero ha hb)]
  · rw [mul_inv]
  · rw [inv_mul_cancel₀ ha]

/-- The way in which the test makes its elements more different; a missing inverse would be a panic,
zkcrypto/src/curve/fp12.rs:802-804. -/
def twelveStep (a b : Fp12 FpW) : Option (Fp12 FpW) := a.square.invert.map fun t => t.square + b

/-- The elements of the test. -/
def twelves : Option (Fp12 FpW × Fp12 FpW × Fp12 FpW) := do
  let a ← twelveStep twelveA0 twelveC0
  let b ← twelveStep twelveB0 a
  let c ← twelveStep twelveC0 b
  return (a, b, c)

theorem frob_iter (a : Fp12 FpW) (n : Nat) : Fp12.frobeniusMap^[n] a = a ^ fpModulus ^ n := by
  induction n with
  | zero => simp
  | succ n ih => rw [Function.iterate_succ_apply', ih, Fp12.frobenius_eq, ← pow_mul, pow_succ]

/-- C195: `test_arithmetic`, zkcrypto/src/curve/fp12.rs:448-833. The laws hold for all elements, twelve Frobenius maps are the identity on all
of them; the elements of the test exist, have inverses, and one Frobenius map moves the first. -/
theorem C195_fp12_arithmetic : (∀ a b c : Fp12 FpW, a.square = a * a ∧ (a + b) * c.square = c * c * a + c * c * b) ∧
    (∀ a : Fp12 FpW, Fp12.frobeniusMap^[12] a = a) ∧
    ∃ a b c, twelves = some (a, b, c) ∧ Fp12.ctEq a a.frobeniusMap = false ∧
    ∃ a' b' ab', a.invert = some a' ∧ b.invert = some b' ∧ (a * b).invert = some ab' ∧ a' * b' = ab' ∧ a' * a = 1 := by
  refine ⟨fun a b c => ⟨Fp12.square_eq a, by rw [Fp12.square_eq]; ring⟩, fun a => by rw [frob_iter, Fp12.pow_p12], ?_⟩
  have h : (match twelves with
    | some (a, b, _) => !Fp12.ctEq a a.frobeniusMap && !a.isZero && !b.isZero
    | none => false) = true := by decide +kernel
  match e : twelves with
  | none => rw [e] at h; cases h
  | some (a, b, c) =>
    rw [e] at h
    simp only [Bool.and_eq_true, Bool.not_eq_true'] at h
    have ha : a ≠ 0 := fun h0 => by rw [(Fp12.isZero_iff _).2 h0] at h; cases h.1.2
    have hb : b ≠ 0 := fun h0 => by rw [(Fp12.isZero_iff _).2 h0] at h; cases h.2
    refine ⟨a, b, c, rfl, h.1.1, a⁻¹, b⁻¹, (a * b)⁻¹, ?_, ?_, ?_, ?_, ?_⟩
    · rw [Fp12.invert_eq, if_neg ha]
    · rw [Fp12.invert_eq, if_neg hb]
    · rw [Fp12.invert_eq, if_neg (mul_ne_zero ha hb)]
    · rw [mul_inv]
    · rw [inv_mul_cancel₀ ha]

end Towers

section Points

/-- C195: `test_is_on_curve`, zkcrypto/src/curve/g1.rs:1403-1430. -/
theorem C195_g1_is_on_curve : (Affine.identity : Affine FpW).isOnCurve = true ∧ G1.generator.isOnCurve = true ∧
    (Projective.identity : Projective FpW).isOnCurve = true ∧ G1.generatorProj.isOnCurve = true ∧ scaled1.isOnCurve = true ∧
    (⟨z1, scaled1.y, scaled1.z⟩ : Projective FpW).isOnCurve = false := by decide +kernel

/-- C195: `test_affine_point_equality`, zkcrypto/src/curve/g1.rs:1432-1442. -/
theorem C195_g1_affine_point_equality : G1.generator.ctEq G1.generator = true ∧
    (Affine.identity : Affine FpW).ctEq Affine.identity = true ∧ G1.generator.ctEq Affine.identity = false ∧
    Affine.identity.ctEq G1.generator = false := by decide +kernel

/-- The scaled generator with its second coordinate negated, and with its first one replaced. -/
def negated1 : Projective FpW := ⟨scaled1.x, -scaled1.y, scaled1.z⟩
def replaced1 : Projective FpW := ⟨z1, - -scaled1.y, scaled1.z⟩

/-- C195: `test_projective_point_equality`, zkcrypto/src/curve/g1.rs:1444-1490. -/
theorem C195_g1_projective_point_equality : G1.generatorProj.ctEq G1.generatorProj = true ∧
    (Projective.identity : Projective FpW).ctEq Projective.identity = true ∧
    G1.generatorProj.ctEq Projective.identity = false ∧ Projective.identity.ctEq G1.generatorProj = false ∧
    scaled1.isOnCurve = true ∧ G1.generatorProj.ctEq scaled1 = true ∧ Projective.identity.ctEq scaled1 = false ∧
    scaled1.ctEq G1.generatorProj = true ∧ scaled1.ctEq Projective.identity = false ∧
    negated1.isOnCurve = true ∧ G1.generatorProj.ctEq negated1 = false ∧ Projective.identity.ctEq negated1 = false ∧
    negated1.ctEq G1.generatorProj = false ∧ negated1.ctEq Projective.identity = false ∧
    replaced1.isOnCurve = false ∧ G1.generatorProj.ctEq replaced1 = false ∧
    Projective.identity.ctEq replaced1 = false := by decide +kernel

/-- C195: `test_conditionally_select_affine` and `test_conditionally_select_projective`,
zkcrypto/src/curve/g1.rs:1492-1499 and zkcrypto/src/curve/g1.rs:1501-1514. -/
theorem C195_g1_conditionally_select :
    (Affine.select G1.generator Affine.identity false).ctEq G1.generator = true ∧
    (Affine.select G1.generator Affine.identity true).ctEq Affine.identity = true ∧
    (Projective.select G1.generatorProj Projective.identity false).ctEq G1.generatorProj = true ∧
    (Projective.select G1.generatorProj Projective.identity true).ctEq Projective.identity = true := by decide +kernel

/-- C195: `test_projective_to_affine`, zkcrypto/src/curve/g1.rs:1516-1542. -/
theorem C195_g1_projective_to_affine : (Affine.ofProjective G1.generatorProj).isOnCurve = true ∧
    (Affine.ofProjective G1.generatorProj).isIdentity = false ∧
    (Affine.ofProjective (Projective.identity : Projective FpW)).isOnCurve = true ∧
    (Affine.ofProjective (Projective.identity : Projective FpW)).isIdentity = true ∧
    (Affine.ofProjective scaled1).ctEq G1.generator = true := by decide +kernel

/-- C195: `test_affine_to_projective`, zkcrypto/src/curve/g1.rs:1544-1553. -/
theorem C195_g1_affine_to_projective : (Projective.ofAffine G1.generator).isOnCurve = true ∧
    (Projective.ofAffine G1.generator).isIdentity = false ∧
    (Projective.ofAffine (Affine.identity : Affine FpW)).isOnCurve = true ∧
    (Projective.ofAffine (Affine.identity : Affine FpW)).isIdentity = true := by decide +kernel

/-- C195: `test_projective_negation_and_subtraction` and `test_affine_negation_and_subtraction`,
zkcrypto/src/curve/g1.rs:1835-1841 and zkcrypto/src/curve/g1.rs:1843-1848. -/
theorem C195_g1_negation_and_subtraction :
    (G1.generatorProj.double.add G1.generatorProj.double.neg).ctEq Projective.identity = true ∧
    (G1.generatorProj.double.add G1.generatorProj.double.neg).ctEq (G1.generatorProj.double.sub G1.generatorProj.double) = true ∧
    ((Projective.ofAffine G1.generator).addMixed G1.generator.neg).ctEq Projective.identity = true ∧
    ((Projective.ofAffine G1.generator).addMixed G1.generator.neg).ctEq
      ((Projective.ofAffine G1.generator).subMixed G1.generator) = true := by decide +kernel

/-- C195: `test_batch_normalize`, zkcrypto/src/curve/g1.rs:1983-2021, also with the identity in some of the places: the loops `0..1` of
the test run only once, without it. -/
theorem C195_g1_batch_normalize (i j k : Bool) :
    let a := Projective.select G1.generatorProj.double Projective.identity i
    let b := Projective.select G1.generatorProj.double.double Projective.identity j
    let c := Projective.select G1.generatorProj.double.double.double Projective.identity k
    Projective.batchNormalize [a, b, c] 3 = .ok [Affine.ofProjective a, Affine.ofProjective b, Affine.ofProjective c] :=
  C53_batch_normalize _ 3

/-- C195: `test_is_on_curve`, zkcrypto/src/curve/g2.rs:1407-1444. -/
theorem C195_g2_is_on_curve : (Affine.identity : Affine (Fp2 FpW)).isOnCurve = true ∧ G2.generator.isOnCurve = true ∧
    (Projective.identity : Projective (Fp2 FpW)).isOnCurve = true ∧ G2.generatorProj.isOnCurve = true ∧ scaled2.isOnCurve = true ∧
    (⟨z2, scaled2.y, scaled2.z⟩ : Projective (Fp2 FpW)).isOnCurve = false := by decide +kernel

/-- C195: `test_affine_point_equality`, zkcrypto/src/curve/g2.rs:1446-1456. -/
theorem C195_g2_affine_point_equality : G2.generator.ctEq G2.generator = true ∧
    (Affine.identity : Affine (Fp2 FpW)).ctEq Affine.identity = true ∧ G2.generator.ctEq Affine.identity = false ∧
    Affine.identity.ctEq G2.generator = false := by decide +kernel

/-- The scaled generator with its second coordinate negated, and with its first one replaced. -/
def negated2 : Projective (Fp2 FpW) := ⟨scaled2.x, -scaled2.y, scaled2.z⟩
def replaced2 : Projective (Fp2 FpW) := ⟨z2, - -scaled2.y, scaled2.z⟩

/-- C195: `test_projective_point_equality`, zkcrypto/src/curve/g2.rs:1458-1514. -/
theorem C195_g2_projective_point_equality : G2.generatorProj.ctEq G2.generatorProj = true ∧
    (Projective.identity : Projective (Fp2 FpW)).ctEq Projective.identity = true ∧
    G2.generatorProj.ctEq Projective.identity = false ∧ Projective.identity.ctEq G2.generatorProj = false ∧
    scaled2.isOnCurve = true ∧ G2.generatorProj.ctEq scaled2 = true ∧ Projective.identity.ctEq scaled2 = false ∧
    scaled2.ctEq G2.generatorProj = true ∧ scaled2.ctEq Projective.identity = false ∧
    negated2.isOnCurve = true ∧ G2.generatorProj.ctEq negated2 = false ∧ Projective.identity.ctEq negated2 = false ∧
    negated2.ctEq G2.generatorProj = false ∧ negated2.ctEq Projective.identity = false ∧
    replaced2.isOnCurve = false ∧ G2.generatorProj.ctEq replaced2 = false ∧
    Projective.identity.ctEq replaced2 = false := by decide +kernel

/-- C195: `test_conditionally_select_affine` and `test_conditionally_select_projective`,
zkcrypto/src/curve/g2.rs:1516-1523 and zkcrypto/src/curve/g2.rs:1525-1538. -/
theorem C195_g2_conditionally_select :
    (Affine.select G2.generator Affine.identity false).ctEq G2.generator = true ∧
    (Affine.select G2.generator Affine.identity true).ctEq Affine.identity = true ∧
    (Projective.select G2.generatorProj Projective.identity false).ctEq G2.generatorProj = true ∧
    (Projective.select G2.generatorProj Projective.identity true).ctEq Projective.identity = true := by decide +kernel

/-- C195: `test_projective_to_affine`, zkcrypto/src/curve/g2.rs:1540-1576. -/
theorem C195_g2_projective_to_affine : (Affine.ofProjective G2.generatorProj).isOnCurve = true ∧
    (Affine.ofProjective G2.generatorProj).isIdentity = false ∧
    (Affine.ofProjective (Projective.identity : Projective (Fp2 FpW))).isOnCurve = true ∧
    (Affine.ofProjective (Projective.identity : Projective (Fp2 FpW))).isIdentity = true ∧
    (Affine.ofProjective scaled2).ctEq G2.generator = true := by decide +kernel

/-- C195: `test_affine_to_projective`, zkcrypto/src/curve/g2.rs:1578-1587. -/
theorem C195_g2_affine_to_projective : (Projective.ofAffine G2.generator).isOnCurve = true ∧
    (Projective.ofAffine G2.generator).isIdentity = false ∧
    (Projective.ofAffine (Affine.identity : Affine (Fp2 FpW))).isOnCurve = true ∧
    (Projective.ofAffine (Affine.identity : Affine (Fp2 FpW))).isIdentity = true := by decide +kernel

/-- C195: `test_projective_negation_and_subtraction` and `test_affine_negation_and_subtraction`,
zkcrypto/src/curve/g2.rs:1975-1981 and zkcrypto/src/curve/g2.rs:1983-1988. -/
theorem C195_g2_negation_and_subtraction :
    (G2.generatorProj.double.add G2.generatorProj.double.neg).ctEq Projective.identity = true ∧
    (G2.generatorProj.double.add G2.generatorProj.double.neg).ctEq (G2.generatorProj.double.sub G2.generatorProj.double) = true ∧
    ((Projective.ofAffine G2.generator).addMixed G2.generator.neg).ctEq Projective.identity = true ∧
    ((Projective.ofAffine G2.generator).addMixed G2.generator.neg).ctEq
      ((Projective.ofAffine G2.generator).subMixed G2.generator) = true := by decide +kernel

/-- C195: `test_batch_normalize`, zkcrypto/src/curve/g2.rs:2262-2300, also with the identity in some of the places: the loops `0..1` of
the test run only once, without it. -/
theorem C195_g2_batch_normalize (i j k : Bool) :
    let a := Projective.select G2.generatorProj.double Projective.identity i
    let b := Projective.select G2.generatorProj.double.double Projective.identity j
    let c := Projective.select G2.generatorProj.double.double.double Projective.identity k
    Projective.batchNormalize [a, b, c] 3 = .ok [Affine.ofProjective a, Affine.ofProjective b, Affine.ofProjective c] :=
  C53_batch_normalize _ 3

end Points

section Products
open Top ScW

theorem onCurve_of {K : Type} [Field K] [DecidableEq K] [LawfulCurve K] {p : Projective K} {P : (curve (b : K)).Point}
    (h : Projective.Is b p P) : p.isOnCurve = true := by
  by_cases hz : p.z = 0
  · simp [Projective.isOnCurve, hz]
  · exact (isOnCurve_iff hz).2 ⟨P, h⟩

theorem good_of (s : ScW) (h : ¬ RoundingOverflows (fromLe (Scalar.toBytes s.1))) : Good s := by
  unfold Good
  rwa [← (Scalar.toBytes_spec (el_rep s)).2.2]

/-- The scalars of `test_projective_scalar_multiplication`, the same in both groups, zkcrypto/src/curve/g1.rs:1853-1864. -/
def factorA : ScW :=
  ⟨Scalar.fromRaw 0x2b568297a56da71c 0xd8c39ecb0ef375d1 0x435c38da67bfbf96 0x8088a05026b659b2, by decide +kernel⟩
def factorB : ScW :=
  ⟨Scalar.fromRaw 0x785fdd9b26ef8b85 0xc997f25837695c18 0x4c8dbc39e7b756c1 0x70d9b6cc6d87df20, by decide +kernel⟩

theorem factorAB_good : Good factorA ∧ Good factorB ∧ Good (factorA * factorB) :=
  ⟨good_of _ (by unfold RoundingOverflows; decide +kernel), good_of _ (by unfold RoundingOverflows; decide +kernel),
    good_of _ (by unfold RoundingOverflows; decide +kernel)⟩

/-- C195: `test_projective_scalar_multiplication`, zkcrypto/src/curve/g1.rs:1850-1868, and
`test_affine_scalar_multiplication`, zkcrypto/src/curve/g1.rs:1870-1888; nothing panics, with or without overflow checks. -/
theorem C195_g1_scalar_multiplication (chk : Bool) :
    (∃ p q u, G1.mul chk G1.generatorProj factorA.1 = .ok p ∧ G1.mul chk p factorB.1 = .ok q ∧
      G1.mul chk G1.generatorProj (Scalar.mul factorA.1 factorB.1) = .ok u ∧ q.ctEq u = true) ∧
    ∃ p q u, G1.mulAffine chk G1.generator factorA.1 = .ok p ∧ G1.mulAffine chk (Affine.ofProjective p) factorB.1 = .ok q ∧
      G1.mulAffine chk G1.generator (Scalar.mul factorA.1 factorB.1) = .ok u ∧ q.ctEq u = true := by
  obtain ⟨ga, gb, gc⟩ := factorAB_good
  constructor
  · obtain ⟨p, ep, hp⟩ := at1_mul chk at1_gen ga
    obtain ⟨q, eq, hq⟩ := at1_mul chk hp gb
    obtain ⟨u, eu, hu⟩ := at1_mul chk at1_gen gc
    exact ⟨p, q, u, ep, eq, eu, (at1_ctEq hq hu).2 (by ring)⟩
  · obtain ⟨p, ep, hp⟩ := at1_mul chk at1_gen ga
    have hp' : At1 (Projective.ofAffine (Affine.ofProjective p)) (factorA * 1) := by
      unfold At1 at hp ⊢
      exact ofAffine_is (ofProjective_is hp)
    obtain ⟨q, eq, hq⟩ := at1_mul chk hp' gb
    obtain ⟨u, eu, hu⟩ := at1_mul chk at1_gen gc
    exact ⟨p, q, u, ep, eq, eu, (at1_ctEq hq hu).2 (by ring)⟩

/-- C195: the same two tests of the second group, zkcrypto/src/curve/g2.rs:1990-2008 and
zkcrypto/src/curve/g2.rs:2010-2028. -/
theorem C195_g2_scalar_multiplication :
    (G2.mul (G2.mul G2.generatorProj factorA.1) factorB.1).ctEq
      (G2.mul G2.generatorProj (Scalar.mul factorA.1 factorB.1)) = true ∧
    (G2.mulAffine (Affine.ofProjective (G2.mulAffine G2.generator factorA.1)) factorB.1).ctEq
      (G2.mulAffine G2.generator (Scalar.mul factorA.1 factorB.1)) = true := by
  have hu : At2 (G2.mul G2.generatorProj (factorA * factorB).1) (factorA * factorB * 1) := at2_mul at2_gen
  have hp : At2 (G2.mul G2.generatorProj factorA.1) (factorA * 1) := at2_mul at2_gen
  have hp' : At2 (Projective.ofAffine (Affine.ofProjective (G2.mul G2.generatorProj factorA.1))) (factorA * 1) := by
    unfold At2 at hp ⊢
    exact ofAffine_is (ofProjective_is hp)
  exact ⟨(at2_ctEq (at2_mul hp) hu).2 (by ring), (at2_ctEq (at2_mul hp') hu).2 (by ring)⟩

/-- The scalar `x` of `test_mul_by_x` and the factor 42, zkcrypto/src/curve/g1.rs:1922-1929. -/
def paramX : ScW := ⟨Scalar.neg (Scalar.ofU64 0xd201000000010000), by decide +kernel⟩
def factor42 : ScW := ⟨Scalar.ofU64 42, by decide +kernel⟩

theorem paramX_el : el paramX = ((-(0xd201000000010000 : ℤ) : ℤ) : Fr) := by
  have := Scalar.neg_rep (Scalar.ofU64_rep (v := 0xd201000000010000) (by decide))
  rw [el_eq this]
  push_cast
  rfl

theorem at1_mulByX {p : G1.Proj} {y : ScW} (hp : At1 p y) : At1 p.mulByX (paramX * y) := by
  unfold At1 at hp ⊢
  rw [el_mul, paramX_el, val_mul_nsmul G1.order_gen, val_int_nsmul (Miller.smul_torsion G1.order_gen _)]
  exact mulByX_is hp

theorem at2_mulByX {p : G2.Proj} {y : ScW} (hp : At2 p y) : At2 p.mulByX (paramX * y) := by
  unfold At2 at hp ⊢
  rw [el_mul, paramX_el, val_mul_nsmul G2.order_gen, val_int_nsmul (Miller.smul_torsion G2.order_gen _)]
  exact mulByX_is hp

theorem paramX_good : Good paramX ∧ Good factor42 :=
  ⟨good_of _ (by unfold RoundingOverflows; decide +kernel), good_of _ (by unfold RoundingOverflows; decide +kernel)⟩

/-- C195: `test_mul_by_x`, zkcrypto/src/curve/g1.rs:1917-1931. -/
theorem C195_g1_mul_by_x (chk : Bool) :
    ∃ u p v, G1.mul chk G1.generatorProj (Scalar.neg (Scalar.ofU64 0xd201000000010000)) = .ok u ∧
      G1.generatorProj.mulByX.ctEq u = true ∧ G1.mul chk G1.generatorProj (Scalar.ofU64 42) = .ok p ∧
      G1.mul chk p (Scalar.neg (Scalar.ofU64 0xd201000000010000)) = .ok v ∧ p.mulByX.ctEq v = true := by
  obtain ⟨u, eu, hu⟩ := at1_mul chk at1_gen paramX_good.1
  obtain ⟨p, ep, hp⟩ := at1_mul chk at1_gen paramX_good.2
  obtain ⟨v, ev, hv⟩ := at1_mul chk hp paramX_good.1
  exact ⟨u, p, v, eu, (at1_ctEq (at1_mulByX at1_gen) hu).2 rfl, ep, ev, (at1_ctEq (at1_mulByX hp) hv).2 rfl⟩

/-- C195: the same test of the second group, zkcrypto/src/curve/g2.rs:2077-2091. -/
theorem C195_g2_mul_by_x :
    G2.generatorProj.mulByX.ctEq (G2.mul G2.generatorProj (Scalar.neg (Scalar.ofU64 0xd201000000010000))) = true ∧
    (G2.mul G2.generatorProj (Scalar.ofU64 42)).mulByX.ctEq
      (G2.mul (G2.mul G2.generatorProj (Scalar.ofU64 42)) (Scalar.neg (Scalar.ofU64 0xd201000000010000))) = true := by
  have hp : At2 (G2.mul G2.generatorProj factor42.1) (factor42 * 1) := at2_mul at2_gen
  have hu : At2 (G2.mul G2.generatorProj paramX.1) (paramX * 1) := at2_mul at2_gen
  have hv : At2 (G2.mul (G2.mul G2.generatorProj factor42.1) paramX.1) (paramX * (factor42 * 1)) := at2_mul hp
  exact ⟨(at2_ctEq (at2_mulByX at2_gen) hu).2 rfl, (at2_ctEq (at2_mulByX hp) hv).2 rfl⟩

/-- The point of `test_clear_cofactor`, zkcrypto/src/curve/g1.rs:1943-1972. -/
def clearZ1 : FpW :=
  fpOf 0x3d2d1c670671394e 0x0ee3a800a2f7c1ca 0x270f4f21da2e5050 0xe02840a53f1be768 0x55debeb597512690 0x08bd25353dc8f791
def clearPoint1 : Projective FpW :=
  ⟨fpOf 0x48af5ff540c817f0 0xd73893acaf379d5a 0xe6c43584e18e023c 0x1eda39c30f188b3e 0xf618c6d3ccc0f8d8 0x0073542cd671e16c * clearZ1,
   fpOf 0x57bf8be79461d0ba 0xfc61459cee3547c3 0x0d23567df1ef147b 0x0ee187bcce1d9b64 0xb0c8cfbe9dc8fdc1 0x1328661767ef368b,
   clearZ1 * clearZ1 * clearZ1⟩

/-- Its coordinates as integers. -/
def clearN1 : G1.NPt := ⟨0x567ecefd48ca065c6347b7fcd3175c6b9b273ddaf002bfdac472888972f679a8a5c6de888150e749b4d17a29de36e70,
  0x17445e4ab1315866d12ff607a435b2795c59aa1b2130b9d4a2c21a834863c50e8b618920a55e391ff79e362deb467ca1,
  0xdae332e697cd41eb1d8e2fbf4c877668ecb857b4a1d7dee7ccdf71dfcaa0dd43a797e49ddbcbd38801b5d665cb64b7⟩

theorem clearN1_eq : clearN1.cast = clearPoint1 := by
  have h1 : clearPoint1.x = (clearN1.x : FpW) := FpW.eq_natCast (by decide +kernel) (by decide +kernel)
  have h2 : clearPoint1.y = (clearN1.y : FpW) := FpW.eq_natCast (by decide +kernel) (by decide +kernel)
  have h3 : clearPoint1.z = (clearN1.z : FpW) := FpW.eq_natCast (by decide +kernel) (by decide +kernel)
  rw [G1.NPt.cast, ← h1, ← h2, ← h3]

/-- C195: `test_clear_cofactor`, zkcrypto/src/curve/g1.rs:1933-1981. -/
theorem C195_g1_clear_cofactor (chk : Bool) :
    (G1.clearCofactor G1.generatorProj).isOnCurve = true ∧ (G1.clearCofactor Projective.identity).isOnCurve = true ∧
    clearPoint1.isOnCurve = true ∧ G1.isTorsionFree chk (Affine.ofProjective clearPoint1) = .ok false ∧
    (G1.clearCofactor clearPoint1).isOnCurve = true ∧
    G1.isTorsionFree chk (Affine.ofProjective (G1.clearCofactor clearPoint1)) = .ok true ∧
    ∃ q, G1.mul chk clearPoint1 (Scalar.add (Scalar.ofU64 1) (Scalar.ofU64 0xd201000000010000)) = .ok q ∧
      (G1.clearCofactor clearPoint1).ctEq q = true := by
  have hon : clearPoint1.isOnCurve = true := by decide +kernel
  have hz : clearPoint1.z ≠ 0 := by decide +kernel
  obtain ⟨P, hP⟩ := (C53_is_on_curve clearPoint1.x clearPoint1.y hz).2.1 hon
  have hP : Projective.Is b clearPoint1 P := hP
  refine ⟨onCurve_of (C57_clear_cofactor G1.generatorProj_is).1, onCurve_of (C57_clear_cofactor identity_is).1, hon, ?_,
    onCurve_of (C57_clear_cofactor hP).1, C57_accepted chk hP, ?_⟩
  · obtain ⟨t, e, ht⟩ := C55_is_torsion_free chk (ofProjective_is hP)
    rw [e]
    cases t with
    | false => rfl
    | true =>
      exfalso
      have h0 := ht.1 rfl
      rw [← clearN1_eq] at hP
      have hm := G1.nmul_is 256 frModulus (by decide +kernel) hP G1.nzero_is
      rw [zero_add, h0] at hm
      have hz := (isIdentity_iff hm).2 rfl
      rw [Projective.isIdentity, decide_eq_true_eq] at hz
      have : ((G1.nmul 256 frModulus clearN1 ⟨0, 1, 0⟩).z : FpW) = 0 := hz
      rw [CharP.cast_eq_zero_iff FpW fpModulus] at this
      revert this
      decide +kernel
  · have hv : fromLe (Scalar.toBytes (Scalar.add (Scalar.ofU64 1) (Scalar.ofU64 0xd201000000010000))) = 0xd201000000010001 := by
      decide +kernel
    obtain ⟨q, e, hq⟩ := Glv.multiply_is chk G1.beta_omega hP
      (k := Scalar.toBytes (Scalar.add (Scalar.ofU64 1) (Scalar.ofU64 0xd201000000010000))) (by decide +kernel) (by decide +kernel)
      (by rw [hv]; decide +kernel) (by rw [hv]; unfold Glv.NoCarry; decide +kernel)
    refine ⟨q, e, (ctEq_iff (C57_clear_cofactor hP).1 hq).2 ?_⟩
    rw [hv, show Glv.quot 0xd201000000010001 = 0 by decide +kernel]
    simp only [Nat.cast_zero, mul_zero, sub_zero, zero_smul, add_zero]
    rw [natCast_zsmul]


/-- The coordinates of the point of `test_clear_cofactor` of the second group, which is that of `test_psi`, as integers. -/
def clearN2 : G2.NPt := ⟨⟨0x1337f95f7210878ccf74c865c441a5b2683b14872c30e49b0290daebce297ce566b1b7dd5420fda8cb6a94d86cf084b8,
    0x19b5c5f9091a218cab1a008184546cd2b88352cc3813d99e4deee048f724a899361918383389718855204065aed6f386⟩,
  ⟨0x195627903848946b3b3df9b012d9731c2d9f9155fa42eb599fc6cf7ea438625b15f60dbfa2cef9c31692d1999140845c,
    0x1411561b0674b134cf6c30811b54d0fc6c8511c9e7180f19dfabd588e5cf8324fb0cd406f221ddb66857d7a328ffb97b⟩,
  ⟨0x9f4f08a58010cb973926f7a0fd533ce65a96ffbd83f16b8322a6a8015ebf3ddc7a9d1fd61c08fc7eb1681f703b031d5,
    0x34c8dd12d636922ba648dedd3a82f91644371ffbf5f917a29da658d70653add9cb928d4fb4d2f2629aa841f365fe61a⟩⟩

theorem clearN2_eq : clearN2.cast = psiPoint := by
  have h1 : psiPoint.x = clearN2.x.cast := N2.eq_cast _ _ (by decide +kernel) (by decide +kernel)
  have h2 : psiPoint.y = clearN2.y.cast := N2.eq_cast _ _ (by decide +kernel) (by decide +kernel)
  have h3 : psiPoint.z = clearN2.z.cast := N2.eq_cast _ _ (by decide +kernel) (by decide +kernel)
  rw [G2.NPt.cast, ← h1, ← h2, ← h3]

/-- `h_eff_modq` of `test_clear_cofactor`, zkcrypto/src/curve/g2.rs:2251-2255. -/
def hEff : List Nat :=
  [0xff, 0xff, 0x01, 0x00, 0x04, 0x00, 0x02, 0xa4, 0x09, 0x90, 0x06, 0x00, 0x04, 0x90, 0x16, 0xb1, 0x02, 0, 0, 0, 0, 0, 0, 0, 0,
    0, 0, 0, 0, 0, 0, 0]

theorem hEff_is {p : G2.Proj} {P : (curve (b : Fp2 FpW)).Point} (hp : Projective.Is b p P) (ht : frModulus • P = 0) :
    (G2.clearCofactor p).ctEq (G2.multiply p hEff) = true := by
  have h1 := C82_subgroup hp ht
  have h2 := G2.multiply_is hp (bytes := hEff) (by decide) (by decide) (by decide +kernel)
  rw [ctEq_iff h1 h2, show fromLe hEff = 4 * 0xd201000000010000 ^ 2 + 2 * 0xd201000000010000 - 1 by decide +kernel, ← natCast_zsmul]
  norm_num

/-- C195: the same test of the second group, zkcrypto/src/curve/g2.rs:2172-2260. -/
theorem C195_g2_clear_cofactor :
    psiPoint.isOnCurve = true ∧ G2.isTorsionFree (Affine.ofProjective psiPoint) = false ∧
    (G2.clearCofactor psiPoint).isOnCurve = true ∧
    G2.isTorsionFree (Affine.ofProjective (G2.clearCofactor psiPoint)) = true ∧
    (G2.clearCofactor G2.generatorProj).isOnCurve = true ∧ (G2.clearCofactor Projective.identity).isOnCurve = true ∧
    (G2.clearCofactor G2.generatorProj).ctEq (G2.multiply G2.generatorProj hEff) = true ∧
    (G2.clearCofactor (G2.clearCofactor psiPoint)).ctEq (G2.multiply (G2.clearCofactor psiPoint) hEff) = true := by
  have hon : psiPoint.isOnCurve = true := C193_g2_psi.1
  have hz : psiPoint.z ≠ 0 := by decide +kernel
  obtain ⟨P, hP⟩ := (C53_is_on_curve psiPoint.x psiPoint.y hz).2.1 hon
  have hP : Projective.Is b psiPoint P := hP
  obtain ⟨c, hc⟩ := C82_homomorphism
  refine ⟨hon, ?_, onCurve_of (hc _ _ hP), C82_accepted hP, onCurve_of (hc _ _ G2.generatorProj_is),
    onCurve_of (hc _ _ identity_is),
    hEff_is G2.generatorProj_is G2.order_gen, hEff_is (hc _ _ hP) (C82_clear_cofactor hP (hc _ _ hP))⟩
  rw [← Bool.not_eq_true, C79_is_torsion_free (ofProjective_is hP)]
  intro h0
  rw [← clearN2_eq] at hP
  have hm := G2.nmul_is 256 frModulus (by decide +kernel) hP G2.nzero_is
  rw [zero_add, h0] at hm
  have hz := (isIdentity_iff hm).2 rfl
  rw [Projective.isIdentity, decide_eq_true_eq] at hz
  have : ((G2.nmul 256 frModulus clearN2 ⟨⟨0, 0⟩, ⟨1, 0⟩, ⟨0, 0⟩⟩).z.a : FpW) = 0 := z0_of hz
  rw [CharP.cast_eq_zero_iff FpW fpModulus] at this
  revert this
  decide +kernel

end Products

section Pairings
open Top ScW Pairing

/-- `Scalar::from_raw([a, b, c, d]).invert().unwrap().square()`, zkcrypto/src/curve/pairings.rs:1048. -/
def invSq (a b c d : Nat) : Res Scalar :=
  match Scalar.invert (Scalar.fromRaw a b c d) with
  | some t => .ok (Scalar.square t)
  | none => .panic

instance (k : Nat) : Decidable (RoundingOverflows k) := by unfold RoundingOverflows; infer_instance

/-- That such a scalar exists, is reduced, is not zero and can be multiplied with. -/
def usable : Res Scalar → Bool
  | .ok s => decide (Scalar.Red s) && !decide (RoundingOverflows (fromLe (Scalar.toBytes s))) && !Scalar.ctEq s Scalar.zero
  | _ => false

theorem usable_spec {r : Res Scalar} (h : usable r = true) : ∃ s : ScW, r = .ok s.1 ∧ Good s ∧ s ≠ 0 := by
  match r, h with
  | .ok s, h =>
    simp only [usable, Bool.and_eq_true, decide_eq_true_eq, Bool.not_eq_true', decide_eq_false_iff_not] at h
    refine ⟨⟨s, h.1.1⟩, rfl, good_of _ h.1.2, fun h0 => ?_⟩
    have h1 : s = Scalar.zero := congrArg Subtype.val h0
    have h2 := Scalar.ctEq_iff.2 h1
    rw [h2] at h
    exact absurd h.2 (by decide)

/-- That the product of two scalars can be multiplied with. -/
def usableMul : Res Scalar → Res Scalar → Bool
  | .ok s, .ok t => !decide (RoundingOverflows (fromLe (Scalar.toBytes (Scalar.mul s t))))
  | _, _ => false

theorem usableMul_spec {r q : Res Scalar} (h : usableMul r q = true) {s t : ScW} (hr : r = .ok s.1) (hq : q = .ok t.1) :
    Good (s * t) := by
  subst hr hq
  simp only [usableMul, Bool.not_eq_true', decide_eq_false_iff_not] at h
  exact good_of _ h

theorem five {α β : Type} {R : α → β → Prop} {t1 t2 t3 t4 t5 : α} {l : List β} (h : List.Forall₂ R [t1, t2, t3, t4, t5] l) :
    ∃ u1 u2 u3 u4 u5, l = [u1, u2, u3, u4, u5] ∧ R t1 u1 ∧ R t2 u2 ∧ R t3 u3 ∧ R t4 u4 ∧ R t5 u5 := by
  match l, h with
  | [u1, u2, u3, u4, u5], .cons h1 (.cons h2 (.cons h3 (.cons h4 (.cons h5 .nil)))) =>
    exact ⟨u1, u2, u3, u4, u5, rfl, h1, h2, h3, h4, h5⟩

theorem aff1 {p : G1.Proj} {x : ScW} (h : At1 p (x * 1)) : Affine.Is CurveConsts.b (Affine.ofProjective p) ((el x).val • G1.gen) := by
  unfold At1 at h
  rw [mul_one] at h
  exact ofProjective_is h

theorem aff2 (x : ScW) : Affine.Is CurveConsts.b (Affine.ofProjective (G2.mulAffine G2.generator x.1)) ((el x).val • G2.gen) := by
  have h : At2 (G2.mul G2.generatorProj x.1) (x * 1) := at2_mul at2_gen
  unfold At2 at h
  rw [mul_one] at h
  exact ofProjective_is h

theorem aff1g : Affine.Is CurveConsts.b G1.generator (1 • G1.gen) := by rw [one_smul]; exact G1.generator_is
theorem aff2g : Affine.Is CurveConsts.b G2.generator (1 • G2.gen) := by rw [one_smul]; exact G2.generator_is

/-- C195: `test_gt_generator`, zkcrypto/src/curve/pairings.rs:1035-1041. -/
theorem C195_gt_generator : pairing G1.generator G2.generator = .ok Gt.generator := by
  have := C83_pairing aff1g aff2g
  rwa [mul_one, pow_one] at this

/-- C195: `test_bilinearity`, zkcrypto/src/curve/pairings.rs:1043-1065. -/
theorem C195_bilinearity (chk : Bool) : ∃ a b g e p q, invSq 1 2 3 4 = .ok a ∧ invSq 5 6 7 8 = .ok b ∧
    G1.mulAffine chk G1.generator a = .ok g ∧
    pairing (Affine.ofProjective g) (Affine.ofProjective (G2.mulAffine G2.generator b)) = .ok p ∧
    Fp12.ctEq p Gt.identity = false ∧
    G1.mulAffine chk G1.generator (Scalar.mul a b) = .ok e ∧ pairing (Affine.ofProjective e) G2.generator = .ok p ∧
    pairing G1.generator G2.generator = .ok q ∧ Gt.mul q (Scalar.mul a b) = p := by
  obtain ⟨a, ea, ga, na⟩ := usable_spec (r := invSq 1 2 3 4) (by decide +kernel)
  obtain ⟨b, eb, gb, nb⟩ := usable_spec (r := invSq 5 6 7 8) (by decide +kernel)
  have gc : Good (a * b) := usableMul_spec (r := invSq 1 2 3 4) (q := invSq 5 6 7 8) (by decide +kernel) ea eb
  obtain ⟨g, eg, hg⟩ := at1_mul chk at1_gen ga
  obtain ⟨e, ee, he⟩ := at1_mul chk at1_gen gc
  have h1 := C83_pairing (aff1 hg) (aff2 b)
  have h2 := C83_pairing (aff1 he) aff2g
  have h3 : Gt.generator ^ ((el (a * b)).val * 1) = Gt.generator ^ ((el a).val * (el b).val) := by
    rw [Miller.gen_pow_iff]
    simp [el_mul]
  refine ⟨a.1, b.1, g, e, _, _, ea, eb, eg, h1, ?_, ee, by rw [← h3]; exact h2, C195_gt_generator, ?_⟩
  · rw [Bool.eq_false_iff]
    intro h
    have h0 : Gt.generator ^ ((el a).val * (el b).val) = Gt.generator ^ 0 := by
      rw [pow_zero]
      exact (Fp12.ctEq_iff _ _).1 h
    rw [Miller.gen_pow_iff] at h0
    simp only [Nat.cast_mul, ZMod.natCast_zmod_val, Nat.cast_zero, mul_eq_zero] at h0
    rcases h0 with h0 | h0
    · exact na (el_inj (h0.trans el_zero.symm))
    · exact nb (el_inj (h0.trans el_zero.symm))
  · rw [← h3, mul_one]
    exact Gt.mul_eq _ (el_rep (a * b))

/-- C195: `test_unitary`, zkcrypto/src/curve/pairings.rs:1067-1078. -/
theorem C195_unitary : ∃ v, pairing G1.generator G2.generator = .ok v ∧ pairing G1.generator G2.generator.neg = .ok (Gt.neg v) ∧
    pairing G1.generator.neg G2.generator = .ok (Gt.neg v) := by
  have h1 : (frModulus - 1) • G1.gen = -G1.gen := by
    rw [eq_neg_iff_add_eq_zero, ← succ_nsmul]
    exact G1.order_gen
  have h2 : (frModulus - 1) • G2.gen = -G2.gen := by
    rw [eq_neg_iff_add_eq_zero, ← succ_nsmul]
    exact G2.order_gen
  have hv : Gt.neg Gt.generator = Gt.generator ^ (frModulus - 1) := by
    rw [Gt.neg_eq N12.gen_pow]
    have : Gt.generator ^ (frModulus - 1) * Gt.generator = 1 := by
      rw [← pow_succ]
      exact N12.gen_pow
    exact (eq_inv_of_mul_eq_one_left this).symm
  have a1 : Affine.Is CurveConsts.b G1.generator.neg ((frModulus - 1) • G1.gen) := by
    rw [h1]
    exact affine_neg_is G1.generator_is
  have a2 : Affine.Is CurveConsts.b G2.generator.neg ((frModulus - 1) • G2.gen) := by
    rw [h2]
    exact affine_neg_is G2.generator_is
  refine ⟨_, C195_gt_generator, ?_, ?_⟩
  · rw [C83_pairing aff1g a2, one_mul, hv]
  · rw [C83_pairing a1 aff2g, mul_one, hv]

/-- C195: `test_multi_miller_loop`, zkcrypto/src/curve/pairings.rs:1080-1132. -/
theorem C195_multi_miller_loop (chk : Bool) : ∃ s2 t2 t3 s4 s5 t5 a2 a4 a5, invSq 1 2 3 4 = .ok s2 ∧ invSq 4 2 2 4 = .ok t2 ∧
    invSq 9 2 2 4 = .ok t3 ∧ invSq 5 5 5 5 = .ok s4 ∧ invSq 323 32 3 1 = .ok s5 ∧ invSq 4 2 2 9099 = .ok t5 ∧
    G1.mulAffine chk G1.generator s2 = .ok a2 ∧ G1.mulAffine chk G1.generator s4 = .ok a4 ∧
    G1.mulAffine chk G1.generator s5 = .ok a5 ∧
    ∃ b1 b2 b3 b4 b5 v1 v2 v3 v4 v5 f, prepare G2.generator = .ok b1 ∧
    prepare (Affine.ofProjective (G2.mulAffine G2.generator t2)) = .ok b2 ∧
    prepare (Affine.ofProjective (G2.mulAffine G2.generator t3)) = .ok b3 ∧ prepare Affine.identity = .ok b4 ∧
    prepare (Affine.ofProjective (G2.mulAffine G2.generator t5)) = .ok b5 ∧
    pairing G1.generator G2.generator = .ok v1 ∧
    pairing (Affine.ofProjective a2) (Affine.ofProjective (G2.mulAffine G2.generator t2)) = .ok v2 ∧
    pairing Affine.identity (Affine.ofProjective (G2.mulAffine G2.generator t3)) = .ok v3 ∧
    pairing (Affine.ofProjective a4) Affine.identity = .ok v4 ∧
    pairing (Affine.ofProjective a5) (Affine.ofProjective (G2.mulAffine G2.generator t5)) = .ok v5 ∧
    multiMillerLoop [(G1.generator, b1), (Affine.ofProjective a2, b2), (Affine.identity, b3), (Affine.ofProjective a4, b4),
      (Affine.ofProjective a5, b5)] = .ok f ∧
    Gt.finalExponentiation f = .ok (Gt.add (Gt.add (Gt.add (Gt.add v1 v2) v3) v4) v5) := by
  obtain ⟨s2, es2, gs2, -⟩ := usable_spec (r := invSq 1 2 3 4) (by decide +kernel)
  obtain ⟨t2, et2, -⟩ := usable_spec (r := invSq 4 2 2 4) (by decide +kernel)
  obtain ⟨t3, et3, -⟩ := usable_spec (r := invSq 9 2 2 4) (by decide +kernel)
  obtain ⟨s4, es4, gs4, -⟩ := usable_spec (r := invSq 5 5 5 5) (by decide +kernel)
  obtain ⟨s5, es5, gs5, -⟩ := usable_spec (r := invSq 323 32 3 1) (by decide +kernel)
  obtain ⟨t5, et5, -⟩ := usable_spec (r := invSq 4 2 2 9099) (by decide +kernel)
  obtain ⟨a2, ea2, ha2⟩ := at1_mul chk at1_gen gs2
  obtain ⟨a4, ea4, ha4⟩ := at1_mul chk at1_gen gs4
  obtain ⟨a5, ea5, ha5⟩ := at1_mul chk at1_gen gs5
  refine ⟨s2.1, t2.1, t3.1, s4.1, s5.1, t5.1, a2, a4, a5, es2, et2, et3, es4, es5, et5, ea2, ea4, ea5, ?_⟩
  have tor : ∀ n : Nat, frModulus • (n • G2.gen) = 0 := fun n => Miller.smul_torsion G2.order_gen n
  obtain ⟨terms, f, vs, h1, h2, h3, h4⟩ := C84_product (ts := [(G1.generator, G2.generator),
    (Affine.ofProjective a2, Affine.ofProjective (G2.mulAffine G2.generator t2.1)),
    (Affine.identity, Affine.ofProjective (G2.mulAffine G2.generator t3.1)),
    (Affine.ofProjective a4, Affine.identity),
    (Affine.ofProjective a5, Affine.ofProjective (G2.mulAffine G2.generator t5.1))]) (by
      intro t ht
      simp only [List.mem_cons, List.not_mem_nil, or_false] at ht
      rcases ht with rfl | rfl | rfl | rfl | rfl
      · exact ⟨⟨_, aff1g⟩, _, aff2g, tor 1⟩
      · exact ⟨⟨_, aff1 ha2⟩, _, aff2 t2, tor _⟩
      · exact ⟨⟨_, .infinity⟩, _, aff2 t3, tor _⟩
      · exact ⟨⟨_, aff1 ha4⟩, _, .infinity, nsmul_zero _⟩
      · exact ⟨⟨_, aff1 ha5⟩, _, aff2 t5, tor _⟩)
  obtain ⟨⟨_, b1⟩, ⟨_, b2⟩, ⟨_, b3⟩, ⟨_, b4⟩, ⟨_, b5⟩, rfl, ⟨e1, p1⟩, ⟨e2, p2⟩, ⟨e3, p3⟩, ⟨e4, p4⟩, e5, p5⟩ := five h1
  obtain ⟨v1, v2, v3, v4, v5, rfl, q1, q2, q3, q4, q5⟩ := five h3
  dsimp only at e1 e2 e3 e4 e5
  rw [e1, e2, e3, e4, e5] at h2
  refine ⟨b1, b2, b3, b4, b5, v1, v2, v3, v4, v5, f, p1, p2, p3, p4, p5, q1, q2, q3, q4, q5, h2, ?_⟩
  rw [h4]
  simp only [List.prod_cons, List.prod_nil, mul_one, Gt.add, mul_assoc]

/-- C195: `test_miller_loop_result_default`, zkcrypto/src/curve/pairings.rs:1134-1140. -/
theorem C195_miller_loop_result_default : Gt.finalExponentiation (1 : Fp12 FpW) = .ok Gt.identity := by
  rw [Gt.finalExponentiation_eq one_ne_zero, one_pow]
  rfl

end Pairings

end Kzg.Props
