import Verif.Proofs.FrLawful
import Verif.Props.ZkFp
import Verif.Props.ZkScalar
import Mathlib.Data.Nat.Fib.Basic
import Mathlib.NumberTheory.LegendreSymbol.Basic
import Verif.Props.ZkTower
import Verif.Props.ZkCurve
import Verif.Props.ZkG1
import Verif.Props.ZkG2

/-! C193: the unit tests of the field and curve modules of zkcrypto, with the values written in them. They also check the model
against values that were computed by the authors of the library. -/

namespace Kzg.Props
open Kzg Kzg.Zk

/-- Words written as a constant. -/
def fpOf (l0 l1 l2 l3 l4 l5 : Nat) (h : Fp.Red ⟨l0, l1, l2, l3, l4, l5⟩ := by decide +kernel) : FpW := .raw l0 l1 l2 l3 l4 l5 h

section Base

/-- C193: `test_conditional_selection`, zkcrypto/src/curve/fp.rs:782-794. -/
theorem C193_fp_conditional_selection :
    ∀ a b : Fp, Fp.select a b false = a ∧ Fp.select a b true = b := fun a b => ⟨by cases a; rfl, by cases b; rfl⟩

/-- C193: `test_equality`, zkcrypto/src/curve/fp.rs:798-816. -/
theorem C193_fp_equality :
    Fp.ctEq ⟨1, 2, 3, 4, 5, 6⟩ ⟨1, 2, 3, 4, 5, 6⟩ = true ∧ Fp.ctEq ⟨7, 2, 3, 4, 5, 6⟩ ⟨1, 2, 3, 4, 5, 6⟩ = false ∧ Fp.ctEq ⟨1, 7, 3, 4, 5, 6⟩ ⟨1, 2,
    3, 4, 5, 6⟩ = false ∧ Fp.ctEq ⟨1, 2, 7, 4, 5, 6⟩ ⟨1, 2, 3, 4, 5, 6⟩ = false ∧ Fp.ctEq ⟨1, 2, 3, 7, 5, 6⟩ ⟨1, 2, 3, 4, 5, 6⟩ = false ∧ Fp.ctEq ⟨1,
    2, 3, 4, 7, 6⟩ ⟨1, 2, 3, 4, 5, 6⟩ = false ∧ Fp.ctEq ⟨1, 2, 3, 4, 5, 7⟩ ⟨1, 2, 3, 4, 5, 6⟩ = false := by decide +kernel

/-- C193: `test_squaring`, zkcrypto/src/curve/fp.rs:819-838. -/
theorem C193_fp_squaring :
    Fp.square ⟨0xd215d2768e83191b, 0x5085d80f8fb28261, 0xce9a032ddf393a56, 0x3e9c4fff2ca0c4bb, 0x6436b6f7f4d95dfb, 0x10606628ad4a4d90⟩ =
    ⟨0x33d9c42a3cb3e235, 0xdad11a094c4cd455, 0xa2f144bd729aaeba, 0xd4150932be9ffeac, 0xe27bc7c47d44ee50, 0x14b6a78d3ec7a560⟩ := by decide +kernel

/-- C193: `test_multiplication`, zkcrypto/src/curve/fp.rs:841-868. -/
theorem C193_fp_multiplication :
    Fp.mul ⟨0x0397a38320170cd4, 0x734c1b2c9e761d30, 0x5ed255ad9a48beb5, 0x095a3c6b22a7fcfc, 0x2294ce75d4e26a27, 0x13338bd870011ebb⟩
    ⟨0xb9c3c7c5b1196af7, 0x2580e2086ce335c1, 0xf49aed3d8a57ef42, 0x41f281e49846e878, 0xe0762346c38452ce, 0x0652e89326e57dc0⟩ = ⟨0xf96ef3d711ab5355,
    0xe8d459ea00f148dd, 0x53f7354a5f00fa78, 0x9e34a4f3125c5f83, 0x3fbe0c47ca74c19e, 0x01b06a8bbd4adfe4⟩ := by decide +kernel

/-- C193: `test_addition`, zkcrypto/src/curve/fp.rs:871-898. -/
theorem C193_fp_addition :
    Fp.add ⟨0x5360bb5978678032, 0x7dd275ae799e128e, 0x5c5b5071ce4f4dcf, 0xcdb21f93078dbb3e, 0xc32365c5e73f474a, 0x115a2a5489babe5b⟩
    ⟨0x9fd287733d23dda0, 0xb16bf2af738b3554, 0x3e57a75bd3cc6d1d, 0x900bc0bd627fd6d6, 0xd319a080efb245fe, 0x15fdcaa4e4bb2091⟩ = ⟨0x393442ccb58bb327,
    0x1092685f3bd547e3, 0x3382252cab6ac4c9, 0xf94694cb76887f55, 0x4b215e9093a5e071, 0x0d56e30f34f5f853⟩ := by decide +kernel

/-- C193: `test_subtraction`, zkcrypto/src/curve/fp.rs:901-928. -/
theorem C193_fp_subtraction :
    Fp.sub ⟨0x5360bb5978678032, 0x7dd275ae799e128e, 0x5c5b5071ce4f4dcf, 0xcdb21f93078dbb3e, 0xc32365c5e73f474a, 0x115a2a5489babe5b⟩
    ⟨0x9fd287733d23dda0, 0xb16bf2af738b3554, 0x3e57a75bd3cc6d1d, 0x900bc0bd627fd6d6, 0xd319a080efb245fe, 0x15fdcaa4e4bb2091⟩ = ⟨0x6d8d33e63b434d3d,
    0xeb1282fdb766dd39, 0x85347bb6f133d6d5, 0xa21daa5a9892f727, 0x3b256cfb3ad8ae23, 0x155d7199de7f8464⟩ := by decide +kernel

/-- C193: `test_negation`, zkcrypto/src/curve/fp.rs:931-950. -/
theorem C193_fp_negation :
    Fp.neg ⟨0x5360bb5978678032, 0x7dd275ae799e128e, 0x5c5b5071ce4f4dcf, 0xcdb21f93078dbb3e, 0xc32365c5e73f474a, 0x115a2a5489babe5b⟩ =
    ⟨0x669e44a687982a79, 0xa0d98a5037b5ed71, 0x0ad5822f2861a854, 0x96c52bf1ebf75781, 0x87f841f05c0c658c, 0x08a6e795afc5283e⟩ := by decide +kernel

/-- C193: `test_debug`, zkcrypto/src/curve/fp.rs:953-968. -/
theorem C193_fp_debug :
    Fp.toBytes ⟨0x5360bb5978678032, 0x7dd275ae799e128e, 0x5c5b5071ce4f4dcf, 0xcdb21f93078dbb3e, 0xc32365c5e73f474a, 0x115a2a5489babe5b⟩ = Fp.toBe 48
    0x104bf052ad3bc99bcb176c24a06a6c3aad4eaf2308fc4d282e106c84a757d061052630515305e59bdddf8111bfdeb704 := by decide +kernel

/-- C193: `test_from_bytes`, zkcrypto/src/curve/fp.rs:971-1009. -/
theorem C193_fp_from_bytes :
    (∀ a : Fp, Fp.Red a → Fp.fromBytes (Fp.toBytes a) = some a) ∧ Fp.fromBytes [26, 1, 17, 234, 57, 127, 230, 154, 75, 27, 167, 182, 67, 75, 172,
    215, 100, 119, 75, 132, 243, 133, 18, 191, 103, 48, 210, 160, 246, 176, 246, 36, 30, 171, 255, 254, 177, 83, 255, 255, 185, 254, 255, 255, 255,
    255, 170, 170] = some (Fp.neg Fp.one) ∧ Fp.fromBytes [27, 1, 17, 234, 57, 127, 230, 154, 75, 27, 167, 182, 67, 75, 172, 215, 100, 119, 75, 132,
    243, 133, 18, 191, 103, 48, 210, 160, 246, 176, 246, 36, 30, 171, 255, 254, 177, 83, 255, 255, 185, 254, 255, 255, 255, 255, 170, 170] = none ∧
    Fp.fromBytes (List.replicate 48 0xff) = none := ⟨fun _ h => C47_decode_encode h, by decide +kernel, by decide +kernel, by decide +kernel⟩

/-- C193: `test_sqrt`, zkcrypto/src/curve/fp.rs:1012-1036. -/
theorem C193_fp_sqrt :
    (Fp.sqrt ⟨0xaa270000000cfff3, 0x53cc0032fc34000a, 0x478fe97a6b0a807f, 0xb1d37ebee6ba24d7, 0x8ec9733bbf78ab2f, 0x09d645513d83de7e⟩).map Fp.neg =
    some ⟨0x321300000006554f, 0xb93c0018d6c40005, 0x57605e0db0ddbb51, 0x8b256521ed1f9bcb, 0x6cf28d7901622c03, 0x11ebab9dbb81e28c⟩ := by decide +kernel

/-- C193: `test_inversion`, zkcrypto/src/curve/fp.rs:1039-1059. -/
theorem C193_fp_inversion :
    Fp.invert ⟨0x43b43a5078ac2076, 0x1ce0763046f8962b, 0x724a5276486d735c, 0x6f05c2a6282d48fd, 0x2095bd5bb4ca9331, 0x03b35b3894b0f7da⟩ = some
    ⟨0x69ecd7040952148f, 0x985ccc2022190f55, 0xe19bba36a9ad2f41, 0x19bb16c95219dbd8, 0x14dcacfdfb478693, 0x115ff58afff9a8e1⟩ ∧ Fp.invert Fp.zero =
    none := by decide +kernel

/-- C193: `test_lexicographic_largest`, zkcrypto/src/curve/fp.rs:1062-1098. -/
theorem C193_fp_lexicographic_largest :
    Fp.lexLargest Fp.zero = false ∧ Fp.lexLargest Fp.one = false ∧ Fp.lexLargest ⟨0xa1fafffffffe5557, 0x995bfff976a3fffe, 0x03f41d24d174ceb4,
    0xf6547998c1995dbd, 0x778a468f507a6034, 0x020559931f7f8103⟩ = false ∧ Fp.lexLargest ⟨0x1804000000015554, 0x855000053ab00001, 0x633cb57c253c276f,
    0x6e22d1ec31ebb502, 0xd3916126f2d14ca2, 0x17fbb8571a006596⟩ = true ∧ Fp.lexLargest ⟨0x43f5fffffffcaaae, 0x32b7fff2ed47fffd, 0x07e83a49a2e99d69,
    0xeca8f3318332bb7a, 0xef148d1ea0f4c069, 0x040ab3263eff0206⟩ = true := by decide +kernel

end Base

section Scalars

/-- The loop of `test_inv`. -/
def invLoop : Nat → Nat → Nat
  | 0, inv => inv
  | n + 1, inv => invLoop n (wmul (wmul inv inv) Scalar.modulus.l0)

/-- C193: `test_inv`, zkcrypto/src/curve/scalar.rs:1008-1020. -/
theorem C193_scalar_inv :
    wsub 0 (invLoop 63 1) = Scalar.inv := by decide +kernel

/-- C193: `test_debug`, zkcrypto/src/curve/scalar.rs:1024-1037. -/
theorem C193_scalar_debug :
    Scalar.toBytes Scalar.zero = toLe 32 0 ∧ Scalar.toBytes Scalar.one = toLe 32 1 ∧ Scalar.toBytes Scalar.R2 = toLe 32
    0x1824b159acc5056f998c4fefecbc4ff55884b7fa0003480200000001fffffffe := by decide +kernel

/-- C193: `test_equality`, zkcrypto/src/curve/scalar.rs:1041-1048. -/
theorem C193_scalar_equality :
    Scalar.ctEq Scalar.zero Scalar.zero = true ∧ Scalar.ctEq Scalar.one Scalar.one = true ∧ Scalar.ctEq Scalar.R2 Scalar.R2 = true ∧ Scalar.ctEq
    Scalar.zero Scalar.one = false ∧ Scalar.ctEq Scalar.one Scalar.R2 = false := by decide +kernel

/-- C193: `test_to_bytes`, zkcrypto/src/curve/scalar.rs:1051-1083. -/
theorem C193_scalar_to_bytes :
    Scalar.toBytes Scalar.zero = [0, 0, 0, 0, 0, 0, 0, 0, 0, 0, 0, 0, 0, 0, 0, 0, 0, 0, 0, 0, 0, 0, 0, 0, 0, 0, 0, 0, 0, 0, 0, 0] ∧ Scalar.toBytes
    Scalar.one = [1, 0, 0, 0, 0, 0, 0, 0, 0, 0, 0, 0, 0, 0, 0, 0, 0, 0, 0, 0, 0, 0, 0, 0, 0, 0, 0, 0, 0, 0, 0, 0] ∧ Scalar.toBytes Scalar.R2 = [254,
    255, 255, 255, 1, 0, 0, 0, 2, 72, 3, 0, 250, 183, 132, 88, 245, 79, 188, 236, 239, 79, 140, 153, 111, 5, 197, 172, 89, 177, 36, 24] ∧
    Scalar.toBytes (Scalar.neg Scalar.one) = [0, 0, 0, 0, 255, 255, 255, 255, 254, 91, 254, 255, 2, 164, 189, 83, 5, 216, 161, 9, 8, 216, 57, 51, 72,
    125, 157, 41, 83, 167, 237, 115] := by decide +kernel

/-- C193: `test_from_bytes`, zkcrypto/src/curve/scalar.rs:1086-1154. -/
theorem C193_scalar_from_bytes :
    Scalar.fromBytes [0, 0, 0, 0, 0, 0, 0, 0, 0, 0, 0, 0, 0, 0, 0, 0, 0, 0, 0, 0, 0, 0, 0, 0, 0, 0, 0, 0, 0, 0, 0, 0] = some Scalar.zero ∧
    Scalar.fromBytes [1, 0, 0, 0, 0, 0, 0, 0, 0, 0, 0, 0, 0, 0, 0, 0, 0, 0, 0, 0, 0, 0, 0, 0, 0, 0, 0, 0, 0, 0, 0, 0] = some Scalar.one ∧
    Scalar.fromBytes [254, 255, 255, 255, 1, 0, 0, 0, 2, 72, 3, 0, 250, 183, 132, 88, 245, 79, 188, 236, 239, 79, 140, 153, 111, 5, 197, 172, 89,
    177, 36, 24] = some Scalar.R2 ∧ (Scalar.fromBytes [0, 0, 0, 0, 255, 255, 255, 255, 254, 91, 254, 255, 2, 164, 189, 83, 5, 216, 161, 9, 8, 216,
    57, 51, 72, 125, 157, 41, 83, 167, 237, 115]).isSome = true ∧ Scalar.fromBytes [1, 0, 0, 0, 255, 255, 255, 255, 254, 91, 254, 255, 2, 164, 189,
    83, 5, 216, 161, 9, 8, 216, 57, 51, 72, 125, 157, 41, 83, 167, 237, 115] = none ∧ Scalar.fromBytes [2, 0, 0, 0, 255, 255, 255, 255, 254, 91, 254,
    255, 2, 164, 189, 83, 5, 216, 161, 9, 8, 216, 57, 51, 72, 125, 157, 41, 83, 167, 237, 115] = none ∧ Scalar.fromBytes [1, 0, 0, 0, 255, 255, 255,
    255, 254, 91, 254, 255, 2, 164, 189, 83, 5, 216, 161, 9, 8, 216, 58, 51, 72, 125, 157, 41, 83, 167, 237, 115] = none ∧ Scalar.fromBytes [1, 0, 0,
    0, 255, 255, 255, 255, 254, 91, 254, 255, 2, 164, 189, 83, 5, 216, 161, 9, 8, 216, 57, 51, 72, 125, 157, 41, 83, 167, 237, 116] = none := by
    decide +kernel

/-- C193: `test_from_u512_zero`, zkcrypto/src/curve/scalar.rs:1157-1171. -/
theorem C193_scalar_from_u512_zero :
    Scalar.fromU512 Scalar.modulus.l0 Scalar.modulus.l1 Scalar.modulus.l2 Scalar.modulus.l3 0 0 0 0 = Scalar.zero := by decide +kernel

/-- C193: `test_from_u512_r`, zkcrypto/src/curve/scalar.rs:1174-1176. -/
theorem C193_scalar_from_u512_r :
    Scalar.fromU512 1 0 0 0 0 0 0 0 = Scalar.R := by decide +kernel

/-- C193: `test_from_u512_r2`, zkcrypto/src/curve/scalar.rs:1179-1181. -/
theorem C193_scalar_from_u512_r2 :
    Scalar.fromU512 0 0 0 0 1 0 0 0 = Scalar.R2 := by decide +kernel

/-- C193: `test_from_u512_max`, zkcrypto/src/curve/scalar.rs:1184-1190. -/
theorem C193_scalar_from_u512_max :
    Scalar.fromU512 (W - 1) (W - 1) (W - 1) (W - 1) (W - 1) (W - 1) (W - 1) (W - 1) = Scalar.sub Scalar.R3 Scalar.R := by decide +kernel

/-- C193: `test_from_bytes_wide_r2`, zkcrypto/src/curve/scalar.rs:1193-1202. -/
theorem C193_scalar_from_bytes_wide_r2 :
    Scalar.fromBytesWide [254, 255, 255, 255, 1, 0, 0, 0, 2, 72, 3, 0, 250, 183, 132, 88, 245, 79, 188, 236, 239, 79, 140, 153, 111, 5, 197, 172, 89,
    177, 36, 24, 0, 0, 0, 0, 0, 0, 0, 0, 0, 0, 0, 0, 0, 0, 0, 0, 0, 0, 0, 0, 0, 0, 0, 0, 0, 0, 0, 0, 0, 0, 0, 0] = Scalar.R2 := by decide +kernel

/-- C193: `test_from_bytes_wide_negative_one`, zkcrypto/src/curve/scalar.rs:1205-1214. -/
theorem C193_scalar_from_bytes_wide_negative_one :
    Scalar.fromBytesWide [0, 0, 0, 0, 255, 255, 255, 255, 254, 91, 254, 255, 2, 164, 189, 83, 5, 216, 161, 9, 8, 216, 57, 51, 72, 125, 157, 41, 83,
    167, 237, 115, 0, 0, 0, 0, 0, 0, 0, 0, 0, 0, 0, 0, 0, 0, 0, 0, 0, 0, 0, 0, 0, 0, 0, 0, 0, 0, 0, 0, 0, 0, 0, 0] = Scalar.neg Scalar.one := by
    decide +kernel

/-- C193: `test_from_bytes_wide_maximum`, zkcrypto/src/curve/scalar.rs:1217-1227. -/
theorem C193_scalar_from_bytes_wide_maximum :
    Scalar.fromBytesWide (List.replicate 64 0xff) = ⟨0xc62c1805439b73b1, 0xc2b9551e8ced218e, 0xda44ec81daf9a422, 0x5605aa601c162e79⟩ := by
    decide +kernel

/-- C193: `test_zero`, zkcrypto/src/curve/scalar.rs:1230-1235. -/
theorem C193_scalar_zero :
    Scalar.neg Scalar.zero = Scalar.zero ∧ Scalar.add Scalar.zero Scalar.zero = Scalar.zero ∧ Scalar.sub Scalar.zero Scalar.zero = Scalar.zero ∧
    Scalar.mul Scalar.zero Scalar.zero = Scalar.zero := by decide +kernel

/-- `LARGEST`, zkcrypto/src/curve/scalar.rs:1238-1243. -/
def largest : Scalar := ⟨0xffffffff00000000, 0x53bda402fffe5bfe, 0x3339d80809a1d805, 0x73eda753299d7d48⟩

/-- C193: `test_addition`, zkcrypto/src/curve/scalar.rs:1246-1264. -/
theorem C193_scalar_addition :
    Scalar.add largest largest = ⟨0xfffffffeffffffff, 0x53bda402fffe5bfe, 0x3339d80809a1d805, 0x73eda753299d7d48⟩ ∧ Scalar.add largest ⟨1, 0, 0, 0⟩ =
    Scalar.zero := by decide +kernel

/-- C193: `test_negation`, zkcrypto/src/curve/scalar.rs:1267-1276. -/
theorem C193_scalar_negation :
    Scalar.neg largest = ⟨1, 0, 0, 0⟩ ∧ Scalar.neg Scalar.zero = Scalar.zero ∧ Scalar.neg ⟨1, 0, 0, 0⟩ = largest := by decide +kernel

/-- C193: `test_subtraction`, zkcrypto/src/curve/scalar.rs:1279-1292. -/
theorem C193_scalar_subtraction :
    Scalar.sub largest largest = Scalar.zero ∧ Scalar.sub Scalar.zero largest = Scalar.sub Scalar.modulus largest := by decide +kernel

/-- C193: `test_from_raw`, zkcrypto/src/curve/scalar.rs:1426-1440. -/
theorem C193_scalar_from_raw :
    Scalar.fromRaw 0x0001fffffffd 0x5884b7fa00034802 0x998c4fefecbc4ff5 0x1824b159acc5056f = Scalar.fromRaw (W - 1) (W - 1) (W - 1) (W - 1) ∧
    Scalar.fromRaw Scalar.modulus.l0 Scalar.modulus.l1 Scalar.modulus.l2 Scalar.modulus.l3 = Scalar.zero ∧ Scalar.fromRaw 1 0 0 0 = Scalar.R := by
    decide +kernel

/-- C193: `test_double`, zkcrypto/src/curve/scalar.rs:1443-1452. -/
theorem C193_scalar_double :
    Scalar.double (Scalar.fromRaw 0x1fff3231233ffffd 0x4884b7fa00034802 0x998c4fefecbc4ff3 0x1824b159acc50562) = Scalar.add (Scalar.fromRaw
    0x1fff3231233ffffd 0x4884b7fa00034802 0x998c4fefecbc4ff3 0x1824b159acc50562) (Scalar.fromRaw 0x1fff3231233ffffd 0x4884b7fa00034802
    0x998c4fefecbc4ff3 0x1824b159acc50562) := rfl

/-- The bits of a scalar, highest first, as the tests go through them, zkcrypto/src/curve/scalar.rs:1306-1310. -/
def bitsOf (bytes : List Nat) : List Bool :=
  bytes.reverse.flatMap fun byte => [7, 6, 5, 4, 3, 2, 1, 0].map fun i => decide ((shr byte i &&& 1) = 1)

/-- The inner loop of the tests of multiplication and squaring: double and add, zkcrypto/src/curve/scalar.rs:1311-1318. -/
def doubleAdd (cur : Scalar) (bits : List Bool) : Scalar :=
  bits.foldl (fun tmp2 b => if b then Scalar.add (Scalar.add tmp2 tmp2) cur else Scalar.add tmp2 tmp2) Scalar.zero

/-- The number with these bits, highest first. -/
def bitsVal (bits : List Bool) : Nat := bits.foldl (fun n b => 2 * n + if b then 1 else 0) 0

theorem bitsVal_foldl (bits : List Bool) (n : Nat) :
    bits.foldl (fun n b => 2 * n + if b then 1 else 0) n = n * 2 ^ bits.length + bitsVal bits := by
  induction bits generalizing n with
  | nil => simp [bitsVal]
  | cons b l ih =>
    rw [List.foldl_cons, ih, List.length_cons, show bitsVal (b :: l) = l.foldl _ (2 * 0 + if b then 1 else 0) from rfl, ih]
    ring

theorem bitsVal_byte : ∀ byte : Fin 256, bitsVal ([7, 6, 5, 4, 3, 2, 1, 0].map fun i => decide ((shr byte i &&& 1) = 1)) = byte := by
  decide +kernel

theorem bitsVal_bitsOf (bytes : List Nat) (h : ∀ c ∈ bytes, c < 256) : bitsVal (bitsOf bytes) = fromLe bytes := by
  induction bytes with
  | nil => rfl
  | cons c l ih =>
    have hc := bitsVal_byte ⟨c, h c (by simp)⟩
    rw [bitsOf, List.reverse_cons, List.flatMap_append, bitsVal, List.foldl_append, bitsVal_foldl]
    have e := ih fun d hd => h d (by simp [hd])
    rw [bitsOf, bitsVal] at e
    rw [e]
    simp only [List.flatMap_cons, List.flatMap_nil, List.append_nil]
    rw [hc, fromLe]
    simp
    ring

theorem doubleAdd_rep {s : Scalar} {x : Fr} (hs : Scalar.Rep s x) (bits : List Bool) :
    Scalar.Rep (doubleAdd s bits) (bitsVal bits * x) := by
  have key : ∀ (acc : Scalar) (n : Nat), Scalar.Rep acc (n * x) →
      Scalar.Rep (bits.foldl (fun tmp2 b => if b then Scalar.add (Scalar.add tmp2 tmp2) s else Scalar.add tmp2 tmp2) acc)
        ((bits.foldl (fun n b => 2 * n + if b then 1 else 0) n : Nat) * x) := by
    induction bits with
    | nil => exact fun _ _ h => h
    | cons b l ih =>
      intro acc n h
      simp only [List.foldl_cons]
      apply ih
      have h2 := C36_add h h
      cases b
      · simp only [Bool.false_eq_true, if_false]
        convert h2 using 1
        push_cast; ring
      · simp only [if_true]
        convert C36_add h2 hs using 1
        push_cast; ring
  exact key _ 0 (by simpa using Scalar.zero_rep)

/-- C193: the assertions of `test_multiplication` and `test_squaring`, zkcrypto/src/curve/scalar.rs:1295-1321 and 1324-1350, not only for the
hundred scalars of the tests. -/
theorem C193_scalar_multiplication {cur : Scalar} (h : Scalar.Red cur) :
    Scalar.mul cur cur = doubleAdd cur (bitsOf (Scalar.toBytes cur)) ∧
      Scalar.square cur = doubleAdd cur (bitsOf (Scalar.toBytes cur)) := by
  obtain ⟨x, hx⟩ := Scalar.red_rep h
  obtain ⟨-, hb, e⟩ := C38_to_bytes hx
  have hd := doubleAdd_rep hx (bitsOf (Scalar.toBytes cur))
  rw [bitsVal_bitsOf _ hb, e, ZMod.natCast_zmod_val] at hd
  exact ⟨Scalar.rep_inj (Scalar.mul_rep hx hx) hd, Scalar.rep_inj (Scalar.square_rep hx) hd⟩

/-- C193: the assertions of `test_inversion`, zkcrypto/src/curve/scalar.rs:1353-1368. -/
theorem C193_scalar_inversion : Scalar.invert Scalar.zero = none ∧ Scalar.invert Scalar.one = some Scalar.one ∧
    Scalar.invert (Scalar.neg Scalar.one) = some (Scalar.neg Scalar.one) ∧
    ∀ s : Scalar, Scalar.Red s → s ≠ Scalar.zero → (Scalar.invert s).map (Scalar.mul · s) = some Scalar.one := by
  refine ⟨by decide +kernel, by decide +kernel, by decide +kernel, fun s h h0 => ?_⟩
  obtain ⟨x, hx⟩ := Scalar.red_rep h
  have hx0 : x ≠ 0 := by
    rintro rfl
    exact h0 (Scalar.rep_inj hx Scalar.zero_rep)
  obtain ⟨t, e, ht⟩ := C40_invert hx hx0
  rw [e, Option.map_some]
  have := Scalar.mul_rep ht hx
  rw [inv_mul_cancel₀ hx0] at this
  rw [Scalar.rep_inj this Scalar.one_rep]

/-- C193: the assertions of `test_invert_is_pow`, zkcrypto/src/curve/scalar.rs:1371-1395. -/
theorem C193_scalar_invert_is_pow {s : Scalar} (h : Scalar.Red s) (h0 : s ≠ Scalar.zero) :
    Scalar.invert s = some (Scalar.powVartime s 0xfffffffeffffffff 0x53bda402fffe5bfe 0x3339d80809a1d805 0x73eda753299d7d48) ∧
    Scalar.powVartime s 0xfffffffeffffffff 0x53bda402fffe5bfe 0x3339d80809a1d805 0x73eda753299d7d48 =
      Scalar.pow s 0xfffffffeffffffff 0x53bda402fffe5bfe 0x3339d80809a1d805 0x73eda753299d7d48 := by
  obtain ⟨x, hx⟩ := Scalar.red_rep h
  have hx0 : x ≠ 0 := by
    rintro rfl
    exact h0 (Scalar.rep_inj hx Scalar.zero_rep)
  obtain ⟨t, e, ht⟩ := C40_invert hx hx0
  have h1 := C40_pow_vartime hx (b0 := 0xfffffffeffffffff) (b1 := 0x53bda402fffe5bfe) (b2 := 0x3339d80809a1d805)
    (b3 := 0x73eda753299d7d48) (by norm_num) (by norm_num) (by norm_num) (by norm_num)
  have h2 := C40_pow hx (b0 := 0xfffffffeffffffff) (b1 := 0x53bda402fffe5bfe) (b2 := 0x3339d80809a1d805)
    (b3 := 0x73eda753299d7d48) (by norm_num) (by norm_num) (by norm_num) (by norm_num)
  have hp : x ^ (0xfffffffeffffffff + W * 0x53bda402fffe5bfe + W ^ 2 * 0x3339d80809a1d805 + W ^ 3 * 0x73eda753299d7d48) = x⁻¹ := by
    apply eq_inv_of_mul_eq_one_left
    rw [← pow_succ]
    exact ZMod.pow_card_sub_one_eq_one hx0
  rw [hp] at h1
  exact ⟨by rw [e, Scalar.rep_inj ht h1], Scalar.rep_inj h1 (hp ▸ h2)⟩

/-- The scalars of the loop of `test_inversion`, zkcrypto/src/curve/scalar.rs:1358-1367. -/
def multiples : Nat → Scalar
  | 0 => Scalar.R2
  | n + 1 => Scalar.add (multiples n) Scalar.R2

/-- C193: the loop of `test_inversion` meets no zero. -/
theorem C193_scalar_inversion_loop (n : Nat) (hn : n < 100) : Scalar.Red (multiples n) ∧ multiples n ≠ Scalar.zero := by
  obtain ⟨x, hx⟩ := Scalar.red_rep (s := Scalar.R2) (by unfold Scalar.Red Scalar.Words; decide +kernel)
  have hx0 : x ≠ 0 := by
    rintro rfl
    exact absurd (Scalar.rep_inj hx Scalar.zero_rep) (by decide +kernel)
  have h : Scalar.Rep (multiples n) (((n + 1 : Nat) : Fr) * x) := by
    clear hn
    induction n with
    | zero => simpa [multiples] using hx
    | succ n ih =>
      have := C36_add ih hx
      rw [show ((n + 1 : Nat) : Fr) * x + x = ((n + 1 + 1 : Nat) : Fr) * x by push_cast; ring] at this
      exact this
  refine ⟨h.1, fun e => ?_⟩
  have h0 := Scalar.rep_unique (e ▸ h) Scalar.zero_rep
  rcases mul_eq_zero.1 h0 with h1 | h1
  · rw [ZMod.natCast_eq_zero_iff] at h1
    have := Nat.le_of_dvd (by omega) h1
    have : 1000 < frModulus := by decide +kernel
    omega
  · exact hx0 h1

/-- The scalars of the loop of `test_invert_is_pow`, zkcrypto/src/curve/scalar.rs:1379-1394. -/
def inverses : Nat → Option Scalar
  | 0 => some Scalar.R
  | n + 1 => (inverses n).bind fun r => (Scalar.invert r).map (Scalar.add · Scalar.R)

theorem fib_ne (n : Nat) (h0 : 0 < n) (hn : n < 110) : (Nat.fib n : Fr) ≠ 0 := by
  rw [Ne, ZMod.natCast_eq_zero_iff]
  intro h
  have h1 := Nat.le_of_dvd (Nat.fib_pos.2 h0) h
  have h2 : Nat.fib n ≤ Nat.fib 110 := Nat.fib_mono (by omega)
  have h3 : Nat.fib 110 < frModulus := by
    decide +kernel
  omega

/-- C193: the loop of `test_invert_is_pow` meets no zero: its scalars are quotients of Fibonacci numbers. -/
theorem C193_scalar_invert_is_pow_loop (n : Nat) (hn : n < 100) :
    ∃ r, inverses n = some r ∧ Scalar.Red r ∧ r ≠ Scalar.zero := by
  have key : ∃ r, inverses n = some r ∧ Scalar.Rep r ((Nat.fib (n + 2) : Fr) / Nat.fib (n + 1)) := by
    induction n with
    | zero => exact ⟨Scalar.one, rfl, by simpa using Scalar.one_rep⟩
    | succ n ih =>
      obtain ⟨r, e, h⟩ := ih (by omega)
      have a := fib_ne (n + 1) (by omega) (by omega)
      have b := fib_ne (n + 2) (by omega) (by omega)
      obtain ⟨t, e', ht⟩ := C40_invert h (div_ne_zero b a)
      refine ⟨Scalar.add t Scalar.R, by rw [inverses, e, Option.bind_some, e', Option.map_some], ?_⟩
      have h1 := C36_add ht Scalar.one_rep
      have h2 : ((Nat.fib (n + 2) : Fr) / Nat.fib (n + 1))⁻¹ + 1 = (Nat.fib (n + 1 + 2) : Fr) / Nat.fib (n + 1 + 1) := by
        rw [Nat.fib_add_two (n := n + 1), inv_div, Nat.cast_add, show n + 1 + 1 = n + 2 from rfl, add_div, div_self b]
      rw [h2] at h1
      exact h1
  obtain ⟨r, e, h⟩ := key
  refine ⟨r, e, h.1, ?_⟩
  rintro rfl
  exact div_ne_zero (fib_ne (n + 2) (by omega) (by omega)) (fib_ne (n + 1) (by omega) (by omega))
    (Scalar.rep_unique h Scalar.zero_rep)

/-- The first square of `test_sqrt`, and those that follow. -/
def squares : Nat → Scalar
  | 0 => ⟨0x46cd85a5f273077e, 0x1d30c47dd68fc735, 0x77f656f60beca0eb, 0x494aa01bdf32468d⟩
  | n + 1 => Scalar.sub (squares n) Scalar.one

/-- The number of the first one. -/
def square0 : Nat := 0x2a2001ad5f3b881cb9044583f3a73f8fe4f7dbc7766630c7801b7628ffa01313

theorem squares_rep (n : Nat) (h : n < 1000) : Scalar.Rep (squares n) ((square0 - n : Nat) : Fr) := by
  induction n with
  | zero =>
    refine ⟨by unfold Scalar.Red Scalar.Words; decide +kernel, ?_⟩
    have : (Scalar.val (squares 0) : Fr) = ((square0 * 2 ^ 256 : Nat) : Fr) := by
      rw [ZMod.natCast_eq_natCast_iff']
      decide +kernel
    rw [this, Nat.cast_mul, Nat.cast_pow, Nat.cast_ofNat, Nat.sub_zero]
  | succ n ih =>
    have h1 := Scalar.sub_rep (ih (by omega)) Scalar.one_rep
    have h2 : square0 - n = square0 - (n + 1) + 1 := by
      have : 1000 < square0 := by decide +kernel
      omega
    rw [h2, Nat.cast_add, Nat.cast_one, add_sub_cancel_right] at h1
    exact h1

theorem squares_none (n : Nat) (h : n < 1000) :
    (Scalar.sqrt (squares n)).isNone = decide (powMod frModulus 256 (square0 - n) (frModulus / 2) 1 ≠ 1) := by
  have h0 : ((square0 - n : Nat) : Fr) ≠ 0 := by
    rw [Ne, ZMod.natCast_eq_zero_iff]
    intro hd
    have := Nat.le_of_dvd (by have : 1000 < square0 := by decide +kernel
                              omega) hd
    have : square0 < frModulus := by decide +kernel
    omega
  rw [Bool.eq_iff_iff, Option.isNone_iff_eq_none, C44_sqrt_none (squares_rep n h), ZMod.euler_criterion _ h0, decide_eq_true_eq,
    zmod_pow_eq (c := powMod frModulus 256 (square0 - n) (frModulus / 2) 1) (by decide +kernel) rfl]
  apply not_congr
  constructor
  · intro e
    have e' : ((powMod frModulus 256 (square0 - n) (frModulus / 2) 1 : Nat) : Fr) = ((1 : Nat) : Fr) := by rw [e]; simp
    exact fr_natCast_inj (powMod_lt _ _ frModulus_pos _ _ _) (by decide +kernel) e'
  · intro e
    rw [e]; simp

/-- C193: `test_sqrt`, zkcrypto/src/curve/scalar.rs:1398-1423: the root of zero, the roots that are found, and that 49 of the hundred have none. -/
theorem C193_scalar_sqrt : Scalar.sqrt Scalar.zero = some Scalar.zero ∧
    (∀ n < 100, ∀ t, Scalar.sqrt (squares n) = some t → Scalar.mul t t = squares n) ∧
    (List.range 100).countP (fun n => (Scalar.sqrt (squares n)).isNone) = 49 := by
  refine ⟨by decide +kernel, fun n hn t e => ?_, ?_⟩
  · obtain ⟨y, hy, e'⟩ := C44_sqrt_sound (squares_rep n (by omega)) e
    have := Scalar.mul_rep hy hy
    rw [e'] at this
    exact Scalar.rep_inj this (squares_rep n (by omega))
  · rw [List.countP_congr (q := fun n => decide (powMod frModulus 256 (square0 - n) (frModulus / 2) 1 ≠ 1))
      (fun n hn => by rw [squares_none n (by have := List.mem_range.1 hn; omega)])]
    decide +kernel

end Scalars

section Quadratic

/-- C193: `test_conditional_selection`, zkcrypto/src/curve/fp2.rs:549-567. -/
theorem C193_fp2_conditional_selection :
    ∀ a b : Fp2 FpW, Fp2.select a b false = a ∧ Fp2.select a b true = b := fun _ _ => ⟨rfl, rfl⟩

/-- C193: `test_equality`, zkcrypto/src/curve/fp2.rs:571-613. -/
theorem C193_fp2_equality :
    Fp2.ctEq (⟨fpOf 1 2 3 4 5 6, fpOf 7 8 9 10 11 12⟩ : Fp2 FpW) (⟨fpOf 1 2 3 4 5 6, fpOf 7 8 9 10 11 12⟩ : Fp2 FpW) = true ∧ Fp2.ctEq (⟨fpOf 2 2 3 4
    5 6, fpOf 7 8 9 10 11 12⟩ : Fp2 FpW) (⟨fpOf 1 2 3 4 5 6, fpOf 7 8 9 10 11 12⟩ : Fp2 FpW) = false ∧ Fp2.ctEq (⟨fpOf 1 2 3 4 5 6, fpOf 2 8 9 10 11
    12⟩ : Fp2 FpW) (⟨fpOf 1 2 3 4 5 6, fpOf 7 8 9 10 11 12⟩ : Fp2 FpW) = false := by decide +kernel

/-- C193: `test_squaring`, zkcrypto/src/curve/fp2.rs:616-655. -/
theorem C193_fp2_squaring :
    Fp2.square (⟨fpOf 0xc9a2183163ee70d4 0xbc3770a7196b5c91 0xa247f8c1304c5f44 0xb01fc2a3726c80b5 0xe1d293e5bbd919c9 0x04b78e80020ef2ca, fpOf
    0x952ea4460462618f 0x238d5eddf025c62f 0xf6c94b012ea92e72 0x03ce24eac1c93808 0x055950f945da483c 0x010a768d0df4eabc⟩ : Fp2 FpW) = (⟨fpOf
    0xa1e09175a4d2c1fe 0x8b33acfc204eff12 0xe24415a11b456e42 0x61d996b1b6ee1936 0x1164dbe8667c853c 0x0788557acc7d9c79, fpOf 0xda6a87cc6f48fa36
    0x0fc7b488277c1903 0x9445ac4adc448187 0x02616d5bc9099209 0xdbed46772db58d48 0x11b94d5076c7b7b1⟩ : Fp2 FpW) := by decide +kernel

/-- C193: `test_multiplication`, zkcrypto/src/curve/fp2.rs:658-715. -/
theorem C193_fp2_multiplication :
    (⟨fpOf 0xc9a2183163ee70d4 0xbc3770a7196b5c91 0xa247f8c1304c5f44 0xb01fc2a3726c80b5 0xe1d293e5bbd919c9 0x04b78e80020ef2ca, fpOf 0x952ea4460462618f
    0x238d5eddf025c62f 0xf6c94b012ea92e72 0x03ce24eac1c93808 0x055950f945da483c 0x010a768d0df4eabc⟩ : Fp2 FpW) * (⟨fpOf 0xa1e09175a4d2c1fe
    0x8b33acfc204eff12 0xe24415a11b456e42 0x61d996b1b6ee1936 0x1164dbe8667c853c 0x0788557acc7d9c79, fpOf 0xda6a87cc6f48fa36 0x0fc7b488277c1903
    0x9445ac4adc448187 0x02616d5bc9099209 0xdbed46772db58d48 0x11b94d5076c7b7b1⟩ : Fp2 FpW) = (⟨fpOf 0xf597483e27b4e0f7 0x610fbadf811dae5f
    0x8432af917714327a 0x6a9a9603cf88f09e 0xf05a7bf8bad0eb01 0x09549131c003ffae, fpOf 0x963b02d0f93d37cd 0xc95ce1cdb30a73d4 0x308725fa3126f9b8
    0x56da3c167fab0d50 0x6b5086b5f4b6d6af 0x09c39f062f18e9f2⟩ : Fp2 FpW) := by decide +kernel

/-- C193: `test_addition`, zkcrypto/src/curve/fp2.rs:718-775. -/
theorem C193_fp2_addition :
    (⟨fpOf 0xc9a2183163ee70d4 0xbc3770a7196b5c91 0xa247f8c1304c5f44 0xb01fc2a3726c80b5 0xe1d293e5bbd919c9 0x04b78e80020ef2ca, fpOf 0x952ea4460462618f
    0x238d5eddf025c62f 0xf6c94b012ea92e72 0x03ce24eac1c93808 0x055950f945da483c 0x010a768d0df4eabc⟩ : Fp2 FpW) + (⟨fpOf 0xa1e09175a4d2c1fe
    0x8b33acfc204eff12 0xe24415a11b456e42 0x61d996b1b6ee1936 0x1164dbe8667c853c 0x0788557acc7d9c79, fpOf 0xda6a87cc6f48fa36 0x0fc7b488277c1903
    0x9445ac4adc448187 0x02616d5bc9099209 0xdbed46772db58d48 0x11b94d5076c7b7b1⟩ : Fp2 FpW) = (⟨fpOf 0x6b82a9a708c132d2 0x476b1da339ba5ba4
    0x848c0e624b91cd87 0x11f95955295a99ec 0xf3376fce22559f06 0x0c3fe3face8c8f43, fpOf 0x6f992c1273ab5bc5 0x3355136617a1df33 0x8b0ef74c0aedaff9
    0x062f92468ad2ca12 0xe1469770738fd584 0x12c3c3dd84bca26d⟩ : Fp2 FpW) := by decide +kernel

/-- C193: `test_subtraction`, zkcrypto/src/curve/fp2.rs:778-835. -/
theorem C193_fp2_subtraction :
    (⟨fpOf 0xc9a2183163ee70d4 0xbc3770a7196b5c91 0xa247f8c1304c5f44 0xb01fc2a3726c80b5 0xe1d293e5bbd919c9 0x04b78e80020ef2ca, fpOf 0x952ea4460462618f
    0x238d5eddf025c62f 0xf6c94b012ea92e72 0x03ce24eac1c93808 0x055950f945da483c 0x010a768d0df4eabc⟩ : Fp2 FpW) - (⟨fpOf 0xa1e09175a4d2c1fe
    0x8b33acfc204eff12 0xe24415a11b456e42 0x61d996b1b6ee1936 0x1164dbe8667c853c 0x0788557acc7d9c79, fpOf 0xda6a87cc6f48fa36 0x0fc7b488277c1903
    0x9445ac4adc448187 0x02616d5bc9099209 0xdbed46772db58d48 0x11b94d5076c7b7b1⟩ : Fp2 FpW) = (⟨fpOf 0xe1c086bbbf1b5981 0x4fafc3a9aa705d7e
    0x2734b5c10bb7e726 0xb2bd7776af037a3e 0x1b895fb398a84164 0x17304aef6f113cec, fpOf 0x74c31c7995191204 0x3271aa5479fdad2b 0xc9b471574915a30f
    0x65e40313ec44b8be 0x7487b2385b7067cb 0x09523b26d0ad19a4⟩ : Fp2 FpW) := by decide +kernel

/-- C193: `test_negation`, zkcrypto/src/curve/fp2.rs:838-877. -/
theorem C193_fp2_negation :
    -(⟨fpOf 0xc9a2183163ee70d4 0xbc3770a7196b5c91 0xa247f8c1304c5f44 0xb01fc2a3726c80b5 0xe1d293e5bbd919c9 0x04b78e80020ef2ca, fpOf
    0x952ea4460462618f 0x238d5eddf025c62f 0xf6c94b012ea92e72 0x03ce24eac1c93808 0x055950f945da483c 0x010a768d0df4eabc⟩ : Fp2 FpW) = (⟨fpOf
    0xf05ce7ce9c1139d7 0x62748f5797e8a36d 0xc4e8d9dfc66496df 0xb45788e181189209 0x694913d08772930d 0x1549836a3770f3cf, fpOf 0x24d05bb9fb9d491c
    0xfb1ea120c12e39d0 0x7067879fc807c7b1 0x60a9269a31bbdab6 0x45c256bcfd71649b 0x18f69b5d2b8afbde⟩ : Fp2 FpW) := by decide +kernel

theorem sqrt_of_root {a r : Fp2 FpW} (h : r * r = a) : (Fp2.sqrt a).map Fp2.square = some a := by
  have h1 := Fp2.sqrt_isSome r
  rw [h] at h1
  obtain ⟨b, e⟩ := Option.isSome_iff_exists.1 h1
  rw [e, Option.map_some, Fp2.square_eq, Fp2.sqrt_some e]

theorem sqrt_none_of_pow {a : Fp2 FpW} {n : N2} (ha : a = n.cast) (h0 : n.a % fpModulus ≠ 0)
    (h : (N2.pow 768 n ((fpModulus ^ 2 - 1) / 2) ⟨1, 0⟩).a % fpModulus ≠ 1) : Fp2.sqrt a = none := by
  cases e : Fp2.sqrt a with
  | none => rfl
  | some b =>
    exfalso
    have hb := Fp2.sqrt_some e
    have hb0 : b ≠ 0 := by
      rintro rfl
      rw [mul_zero, ha] at hb
      exact h0 (by simpa using (N2.cast_inj (x := ⟨0, 0⟩) (by rw [← hb]; ext <;> simp [N2.cast])).1.symm)
    have h2 : a ^ ((fpModulus ^ 2 - 1) / 2) = 1 := by
      rw [← hb, ← pow_two, ← pow_mul, Nat.mul_div_cancel' (by decide +kernel), Fp2.pow_card hb0]
    rw [ha, ← one_mul (_ ^ _), ← N2.one_cast, ← N2.pow_cast 768 _ _ _ (by decide +kernel)] at h2
    exact h (by rw [(N2.cast_inj h2).1]; decide +kernel)

/-- C193: `test_sqrt`, zkcrypto/src/curve/fp2.rs:880-959. -/
theorem C193_fp2_sqrt :
    (Fp2.sqrt (⟨fpOf 0x2beed14627d7f9e9 0xb6614e06660e5dce 0x06c4cc7c2f91d42c 0x996d78474b7a63cc 0xebaebc4c820d574e 0x18865e12d93fd845, fpOf
    0x7d828664baf4f566 0xd17e663996ec7339 0x679ead55cb4078d0 0xfe3b2260e001ec28 0x305993d043d91b68 0x0626f03c0489b72d⟩ : Fp2 FpW)).map Fp2.square =
    some (⟨fpOf 0x2beed14627d7f9e9 0xb6614e06660e5dce 0x06c4cc7c2f91d42c 0x996d78474b7a63cc 0xebaebc4c820d574e 0x18865e12d93fd845, fpOf
    0x7d828664baf4f566 0xd17e663996ec7339 0x679ead55cb4078d0 0xfe3b2260e001ec28 0x305993d043d91b68 0x0626f03c0489b72d⟩ : Fp2 FpW) ∧ (Fp2.sqrt (⟨fpOf
    0x6631000000105545 0x211400400eec000d 0x3fa7af30c820e316 0xc52a8b8d6387695d 0x9fb4e61d1e83eac5 0x005cb922afe84dc7, 0⟩ : Fp2 FpW)).map
    Fp2.square = some (⟨fpOf 0x6631000000105545 0x211400400eec000d 0x3fa7af30c820e316 0xc52a8b8d6387695d 0x9fb4e61d1e83eac5 0x005cb922afe84dc7, 0⟩ :
    Fp2 FpW) ∧ (Fp2.sqrt (⟨fpOf 0x44f600000051ffae 0x86b8014199480043 0xd7159952f1f3794a 0x755d6e3dfe1ffc12 0xd36cd6db5547e905 0x02f8c8ecbf1867bb,
    0⟩ : Fp2 FpW)).map Fp2.square = some (⟨fpOf 0x44f600000051ffae 0x86b8014199480043 0xd7159952f1f3794a 0x755d6e3dfe1ffc12 0xd36cd6db5547e905
    0x02f8c8ecbf1867bb, 0⟩ : Fp2 FpW) ∧ Fp2.sqrt (⟨fpOf 0xc5fa1bc8fd00d7f6 0x3830ca454606003b 0x2b287f1104b102da 0xa7fb30f28230f23e
    0x339cdb9ee953dbf0 0x0d78ec51d989fc57, fpOf 0x27ec4898cf87f613 0x9de1394e1abb05a5 0x0947f85dc170fc14 0x586fbc696b6114b7 0x2b3475a4077d7169
    0x13e1c895cc4b6c22⟩ : Fp2 FpW) = none := ⟨sqrt_of_root (r := ⟨fpOf 0x9f5b3de469ddbe2c 0x16d7cb4e1cb5cbaa 0xb866783d3c440ca2 0xc8915301652f458c
    0x622fd84aae75daeb 0x3bddf6c7a5ff5cf, fpOf 0xa5f07b6440e1fffc 0x542d7ab054ec6c41 0x8b4778c9b1d2aee7 0xa4ad877c170e8fe7 0xfeaff2fe73f4fceb
    0x1139ea8b285083bf⟩) (by decide +kernel), sqrt_of_root (r := ⟨fpOf 0x0 0x0 0x0 0x0 0x0 0x0, fpOf 0x4410138f8411cdfe 0xb86e47e60d693f99
    0x3faefd8bfe82b0d1 0xf7cade8af03abf72 0xef2587d82dd0e1e3 0x10357ad7984f5d96⟩) (by decide +kernel), sqrt_of_root (r := ⟨fpOf 0x53cdffffffef5566
    0xfd97ffbea267fff2 0x278923702e90130d 0x9f4cbff78ffda962 0xab66c19924c7c211 0x14357fbf3afb0a22, fpOf 0x0 0x0 0x0 0x0 0x0 0x0⟩) (by
    decide +kernel), sqrt_none_of_pow (n := ⟨0x122bf855fe3e909dbe81264b06f976721808618036c76149747cdb368c1d1ccf7a8a449468e00f21f8f78f53b57f2f81,
    0xe008d8c3ab0276bcf5791fb656da17e25c6bae7a1aac9a8926b246110708adc2b157c33763f6eb6ec8697a38c6cb1d2⟩) (N2.eq_cast _ _ (by decide +kernel) (by
    decide +kernel)) (by decide +kernel) (by decide +kernel)⟩

/-- C193: `test_inversion`, zkcrypto/src/curve/fp2.rs:962-1004. -/
theorem C193_fp2_inversion :
    Fp2.invert (⟨fpOf 0x1128ecad67549455 0x9e7a1cff3a4ea1a8 0xeb208d51e08bcf27 0xe98ad40811f5fc2b 0x736c3a59232d511d 0x10acd42d29cfcbb6, fpOf
    0xd328e37cc2f58d41 0x948df0858a605869 0x6032f9d56f93a573 0x2be483ef3fffdc87 0x30ef61f88f483c2a 0x1333f55a35725be0⟩ : Fp2 FpW) = some (⟨fpOf
    0x0581a1333d4f48a6 0x58242f6ef0748500 0x0292c955349e6da5 0xba37721ddd95fcd0 0x70d167903aa5dfc5 0x11895e118b58a9d5, fpOf 0x0eda09d2d7a85d17
    0x8808e137a7d1a2cf 0x43ae2625c1ff21db 0xf85ac9fdf7a74c64 0x8fccdda5b8da9738 0x08e84f0cb32cd17d⟩ : Fp2 FpW) ∧ Fp2.invert (0 : Fp2 FpW) =
    none := by decide +kernel

/-- C193: `test_lexicographic_largest`, zkcrypto/src/curve/fp2.rs:1007-1080. -/
theorem C193_fp2_lexicographic_largest :
    Fp2.lexLargest 0 = false ∧ Fp2.lexLargest 1 = false ∧ Fp2.lexLargest (⟨fpOf 0x1128ecad67549455 0x9e7a1cff3a4ea1a8 0xeb208d51e08bcf27
    0xe98ad40811f5fc2b 0x736c3a59232d511d 0x10acd42d29cfcbb6, fpOf 0xd328e37cc2f58d41 0x948df0858a605869 0x6032f9d56f93a573 0x2be483ef3fffdc87
    0x30ef61f88f483c2a 0x1333f55a35725be0⟩ : Fp2 FpW) = true ∧ Fp2.lexLargest (⟨-(fpOf 0x1128ecad67549455 0x9e7a1cff3a4ea1a8 0xeb208d51e08bcf27
    0xe98ad40811f5fc2b 0x736c3a59232d511d 0x10acd42d29cfcbb6), -(fpOf 0xd328e37cc2f58d41 0x948df0858a605869 0x6032f9d56f93a573 0x2be483ef3fffdc87
    0x30ef61f88f483c2a 0x1333f55a35725be0)⟩ : Fp2 FpW) = false ∧ Fp2.lexLargest (⟨fpOf 0x1128ecad67549455 0x9e7a1cff3a4ea1a8 0xeb208d51e08bcf27
    0xe98ad40811f5fc2b 0x736c3a59232d511d 0x10acd42d29cfcbb6, 0⟩ : Fp2 FpW) = false ∧ Fp2.lexLargest (⟨-(fpOf 0x1128ecad67549455 0x9e7a1cff3a4ea1a8
    0xeb208d51e08bcf27 0xe98ad40811f5fc2b 0x736c3a59232d511d 0x10acd42d29cfcbb6), 0⟩ : Fp2 FpW) = true := by decide +kernel

end Quadratic

section Points

/-- C193: `test_doubling`, zkcrypto/src/curve/g1.rs:1556-1590. -/
theorem C193_g1_doubling :
    (Projective.identity : Projective FpW).double.isIdentity = true ∧ (Projective.identity : Projective FpW).double.isOnCurve = true ∧
    G1.generatorProj.double.isIdentity = false ∧ G1.generatorProj.double.isOnCurve = true ∧ (Affine.ofProjective G1.generatorProj.double).ctEq (⟨fpOf
    0x53e978ce58a9ba3c 0x3ea0583c4f3d65f9 0x4d20bb47f0012960 0xa54c664ae5b2b5d9 0x26b552a39d7eb21f 0x0008895d26e68785, fpOf 0x70110b3298293940
    0xda33c5393f1f6afc 0xb86edfd16a5aa785 0xaec6d1c9e7b1c895 0x25cfc2b522d11720 0x06361c83f8d09b15, false⟩ : Affine FpW) = true := by decide +kernel

/-- `z`, a factor for the coordinates, zkcrypto/src/curve/g1.rs:1605-1612. -/
def z1 : FpW := fpOf 0xba7afa1f9a6fe250 0xfa0f5b595eafe731 0x3bdc477694c306e7 0x2149be4b3949fa24 0x64aa6e0649b2078c 0x12b108ac33643c3e

/-- The generator with other coordinates. -/
def scaled1 : Projective FpW := ⟨G1.generatorX * z1, G1.generatorY * z1, z1⟩

/-- The points of the degenerate case. -/
def four1 : Projective FpW := G1.generatorProj.double.double
def beta1 : FpW := fpOf 0xcd03c9e48671f071 0x5dab22461fcda5d2 0x587042afd3851b95 0x8eb60ebe01bacb9e 0x03f97d6e83d050d2 0x18f0206554638741
def other1 : Projective FpW := ⟨four1.x * (beta1 * beta1), -four1.y, four1.z⟩

/-- The sum in the degenerate case as written in the test, brought to affine form. -/
def expected1 : Affine FpW := Affine.ofProjective
    ⟨fpOf 0x29e1e987ef68f2d0 0xc5f3ec531db03233 0xacd6c4b6ca19730f 0x18ad9e827bc2bab7 0x46e3b2c5785cc7a9 0x07e571d42d22ddd6, fpOf
    0x94d117a7e5a539e7 0x8e17ef673d4b5d22 0x9d746aaf508a33ea 0x8c6d883d2516c9a2 0x0bc3b8d5fb0447f7 0x07bfa4c7210f4f44, 1⟩

/-- C193: `test_projective_addition`, zkcrypto/src/curve/g1.rs:1593-1711. -/
theorem C193_g1_projective_addition :
    (Projective.add Projective.identity (Projective.identity : Projective FpW)).isIdentity = true ∧ (Projective.add Projective.identity
    (Projective.identity : Projective FpW)).isOnCurve = true ∧ (Projective.add Projective.identity scaled1).isIdentity = false ∧ (Projective.add
    Projective.identity scaled1).isOnCurve = true ∧ (Projective.add Projective.identity scaled1).ctEq G1.generatorProj = true ∧ (Projective.add
    scaled1 Projective.identity).isIdentity = false ∧ (Projective.add scaled1 Projective.identity).isOnCurve = true ∧ (Projective.add scaled1
    Projective.identity).ctEq G1.generatorProj = true ∧ (Projective.add four1 G1.generatorProj.double).isIdentity = false ∧ (Projective.add four1
    G1.generatorProj.double).isOnCurve = true ∧ ((List.replicate 5 G1.generatorProj).foldl Projective.add G1.generatorProj).isIdentity = false ∧
    ((List.replicate 5 G1.generatorProj).foldl Projective.add G1.generatorProj).isOnCurve = true ∧ (Projective.add four1
    G1.generatorProj.double).ctEq ((List.replicate 5 G1.generatorProj).foldl Projective.add G1.generatorProj) = true ∧ four1.isOnCurve = true ∧
    other1.isOnCurve = true ∧ (Affine.ofProjective (Projective.add four1 other1)).ctEq expected1 = true ∧ (Projective.add four1
    other1).isIdentity = false ∧ (Projective.add four1 other1).isOnCurve = true := by
  decide +kernel

/-- C193: `test_mixed_addition`, zkcrypto/src/curve/g1.rs:1714-1833; the two orders of the operands are one function
(`a + b` of an affine and a projective point is `b + a`), so its two identical blocks are stated once. -/
theorem C193_g1_mixed_addition :
    (Projective.addMixed Projective.identity (Affine.identity : Affine FpW)).isIdentity = true ∧ (Projective.addMixed Projective.identity
    (Affine.identity : Affine FpW)).isOnCurve = true ∧ (Projective.addMixed scaled1 Affine.identity).isIdentity = false ∧ (Projective.addMixed
    scaled1 Affine.identity).isOnCurve = true ∧ (Projective.addMixed scaled1 Affine.identity).ctEq G1.generatorProj = true ∧ (Projective.add
    four1 G1.generatorProj.double).isIdentity = false ∧ (Projective.add four1 G1.generatorProj.double).isOnCurve = true ∧ ((List.replicate 5
    G1.generator).foldl Projective.addMixed G1.generatorProj).isIdentity = false ∧ ((List.replicate 5 G1.generator).foldl Projective.addMixed
    G1.generatorProj).isOnCurve = true ∧ (Projective.add four1 G1.generatorProj.double).ctEq ((List.replicate 5 G1.generator).foldl
    Projective.addMixed G1.generatorProj) = true ∧ (Affine.ofProjective four1).isOnCurve = true ∧ other1.isOnCurve = true ∧ (Affine.ofProjective
    (Projective.addMixed other1 (Affine.ofProjective four1))).ctEq expected1 = true ∧ (Projective.addMixed other1 (Affine.ofProjective
    four1)).isIdentity = false ∧ (Projective.addMixed other1 (Affine.ofProjective four1)).isOnCurve = true := by
  decide +kernel

/-- C193: `test_doubling`, zkcrypto/src/curve/g2.rs:1590-1644. -/
theorem C193_g2_doubling :
    (Projective.identity : Projective (Fp2 FpW)).double.isIdentity = true ∧ (Projective.identity : Projective (Fp2 FpW)).double.isOnCurve = true ∧
    G2.generatorProj.double.isIdentity = false ∧ G2.generatorProj.double.isOnCurve = true ∧ (Affine.ofProjective G2.generatorProj.double).ctEq
    (⟨⟨fpOf 0xe9d9e2da9620f98b 0x54f1199346b97f36 0x3db3b820376bed27 0xcfdb31c9b0b64f4c 0x41d7c12786354493 0x05710794c255c064, fpOf
    0xd6c1d3ca6ea0d06e 0xda0cbd905595489f 0x4f5352d43479221d 0x8ade5d736f8c97e0 0x48cc8433925ef70e 0x08d7ea71ea91ef81⟩, ⟨fpOf 0x15ba26eb4b0d186f
    0x0d086d64b7e9e01e 0xc8b848dd652f4c78 0xeecf46a6123bae4f 0x255e8dd8b6dc812a 0x164142af21dcf93f, fpOf 0xf9b4a1a895984db4 0xd417b114cccff748
    0x6856301fc89f086e 0x41c777878931e3da 0x3556b155066a2105 0x00acf7d325cb89cf⟩, false⟩ : Affine (Fp2 FpW)) = true := by decide +kernel

/-- `z`, a factor for the coordinates, zkcrypto/src/curve/g2.rs:1659-1676. -/
def z2 : Fp2 FpW := ⟨fpOf 0xba7afa1f9a6fe250 0xfa0f5b595eafe731 0x3bdc477694c306e7 0x2149be4b3949fa24 0x64aa6e0649b2078c 0x12b108ac33643c3e, fpOf
    0x125325df3d35b5a8 0xdc469ef5555d7fe3 0x02d716d2443106a9 0x05a1db59a6ff37d0 0x7cf7784e5300bb8f 0x16a88922c7a5e844⟩

/-- The generator with other coordinates. -/
def scaled2 : Projective (Fp2 FpW) := ⟨G2.generatorX * z2, G2.generatorY * z2, z2⟩

/-- The points of the degenerate case. -/
def four2 : Projective (Fp2 FpW) := G2.generatorProj.double.double
def beta2 : Fp2 FpW := ⟨fpOf 0xcd03c9e48671f071 0x5dab22461fcda5d2 0x587042afd3851b95 0x8eb60ebe01bacb9e 0x03f97d6e83d050d2 0x18f0206554638741, 0⟩
def other2 : Projective (Fp2 FpW) := ⟨four2.x * beta2.square, -four2.y, four2.z⟩

/-- The sum in the degenerate case as written in the test, brought to affine form. -/
def expected2 : Affine (Fp2 FpW) := Affine.ofProjective
    ⟨⟨fpOf 0x705abc799ca773d3 0xfe132292c1d4bf08 0xf37ece3e07b2b466 0x887e1c43f447e301 0x1e0970d033bc77e8 0x1985c81e20a693f2, fpOf
    0x1d79b25db36ab924 0x23948e4d529639d3 0x471ba7fb0d006297 0x2c36d4b4465dc4c0 0x82bbc3cfec67f538 0x051d2728b67bf952⟩, ⟨fpOf 0x41b1bbf6576c0abf
    0xb6cc93713f7a0f9a 0x6b65b43e48f3f01f 0xfb7a4cfcaf81be4f 0x3e32dadc6ec22cb6 0x0bb0fc49d79807e3, fpOf 0x7d1397788f5f2ddf 0xab2907144ff0d8e8
    0x5b7573e0cdb91f92 0x4cb8932dd31daf28 0x62bbfac6db052a54 0x11f95c16d14c3bbe⟩, 1⟩

/-- C193: `test_projective_addition`, zkcrypto/src/curve/g2.rs:1647-1808. -/
theorem C193_g2_projective_addition :
    (Projective.add Projective.identity (Projective.identity : Projective (Fp2 FpW))).isIdentity = true ∧ (Projective.add Projective.identity
    (Projective.identity : Projective (Fp2 FpW))).isOnCurve = true ∧ (Projective.add Projective.identity scaled2).isIdentity = false ∧
    (Projective.add Projective.identity scaled2).isOnCurve = true ∧ (Projective.add Projective.identity scaled2).ctEq G2.generatorProj = true ∧
    (Projective.add scaled2 Projective.identity).isIdentity = false ∧ (Projective.add scaled2 Projective.identity).isOnCurve = true ∧
    (Projective.add scaled2 Projective.identity).ctEq G2.generatorProj = true ∧ (Projective.add four2 G2.generatorProj.double).isIdentity = false
    ∧ (Projective.add four2 G2.generatorProj.double).isOnCurve = true ∧ ((List.replicate 5 G2.generatorProj).foldl Projective.add
    G2.generatorProj).isIdentity = false ∧ ((List.replicate 5 G2.generatorProj).foldl Projective.add G2.generatorProj).isOnCurve = true ∧
    (Projective.add four2 G2.generatorProj.double).ctEq ((List.replicate 5 G2.generatorProj).foldl Projective.add G2.generatorProj) = true ∧
    four2.isOnCurve = true ∧ other2.isOnCurve = true ∧ (Affine.ofProjective (Projective.add four2 other2)).ctEq expected2 = true ∧
    (Projective.add four2 other2).isIdentity = false ∧ (Projective.add four2 other2).isOnCurve = true := by
  decide +kernel

/-- C193: `test_mixed_addition`, zkcrypto/src/curve/g2.rs:1811-1973; the two orders of the operands are one function
(`a + b` of an affine and a projective point is `b + a`), so its two identical blocks are stated once. -/
theorem C193_g2_mixed_addition :
    (Projective.addMixed Projective.identity (Affine.identity : Affine (Fp2 FpW))).isIdentity = true ∧ (Projective.addMixed Projective.identity
    (Affine.identity : Affine (Fp2 FpW))).isOnCurve = true ∧ (Projective.addMixed scaled2 Affine.identity).isIdentity = false ∧
    (Projective.addMixed scaled2 Affine.identity).isOnCurve = true ∧ (Projective.addMixed scaled2 Affine.identity).ctEq G2.generatorProj = true ∧
    (Projective.add four2 G2.generatorProj.double).isIdentity = false ∧ (Projective.add four2 G2.generatorProj.double).isOnCurve = true ∧
    ((List.replicate 5 G2.generator).foldl Projective.addMixed G2.generatorProj).isIdentity = false ∧ ((List.replicate 5 G2.generator).foldl
    Projective.addMixed G2.generatorProj).isOnCurve = true ∧ (Projective.add four2 G2.generatorProj.double).ctEq ((List.replicate 5
    G2.generator).foldl Projective.addMixed G2.generatorProj) = true ∧ (Affine.ofProjective four2).isOnCurve = true ∧ other2.isOnCurve = true ∧
    (Affine.ofProjective (Projective.addMixed other2 (Affine.ofProjective four2))).ctEq expected2 = true ∧ (Projective.addMixed other2
    (Affine.ofProjective four2)).isIdentity = false ∧ (Projective.addMixed other2 (Affine.ofProjective four2)).isOnCurve = true := by
  decide +kernel

/-- The point of `test_psi`, zkcrypto/src/curve/g2.rs:2094-2155. -/
def psiZ : Fp2 FpW := ⟨fpOf 0x0ef2ddffab187c0a 0x2424522b7d5ecbfc 0xc6f341a3398054f4 0x5523ddf409502df0 0xd55c0b5a88e0dd97 0x066428d704923e52, fpOf
    0x538bbe0c95b4878d 0xad04a50379522881 0x6d5c05bf5c12fb64 0x4ce4a069a2d34787 0x59ea6c8d0dffaeaf 0x0d42a083a75bd6f3⟩
def psiX : Fp2 FpW := ⟨fpOf 0xee4c8cb7c047eaf2 0x44ca22eee036b604 0x33b3affb2aefe101 0x15d3e45bbafaeb02 0x7bfc2154cd7419a4 0x0a2d0c2b756e5edc, fpOf
    0xfc224361029a8777 0x4cbf2baab8740924 0xc5008c6ec6592c89 0xecc2c57b472a9c2d 0x8613eafd9d81ffb1 0x10fe54daa2d3d495⟩
def psiPoint : Projective (Fp2 FpW) := ⟨psiX * psiZ, ⟨fpOf 0x7de7edc43953b75c 0x58be1d2de35e87dc 0x5731d30b0e337b40 0xbe93b60cfeaae4c9
    0x8b22c203764bedca 0x01616c8d1033b771, fpOf 0xea126fe476b5733b 0x85cee68b5dae1652 0x98247779f7272b04 0xa649c8b468c6e808 0xb5b9a62dff0c4e45
    0x1555b67fc7bbe73d⟩, psiZ.square * psiZ⟩

/-- C193: `test_psi`, zkcrypto/src/curve/g2.rs:2094-2170. -/
theorem C193_g2_psi :
    psiPoint.isOnCurve = true ∧ (G2.psi2 G2.generatorProj).ctEq (G2.psi (G2.psi G2.generatorProj)) = true ∧ (G2.psi2 psiPoint).ctEq (G2.psi
    (G2.psi psiPoint)) = true ∧ (G2.psi G2.generatorProj.double).ctEq (G2.psi G2.generatorProj).double = true ∧ ((G2.psi psiPoint).add (G2.psi
    G2.generatorProj)).ctEq (G2.psi (psiPoint.add G2.generatorProj)) = true ∧ ∃ a, Projective.batchNormalize [psiPoint] 1 = .ok [a] ∧ (G2.psi
    psiPoint).ctEq (G2.psi (Projective.ofAffine a)) = true ∧ (G2.psi2 psiPoint).ctEq (G2.psi2 (Projective.ofAffine a)) = true := by
  refine ⟨by decide +kernel, by decide +kernel, by decide +kernel, by decide +kernel, by decide +kernel, Affine.ofProjective psiPoint,
    C53_batch_normalize [psiPoint] 1, by decide +kernel, by decide +kernel⟩

/-- The point of `test_is_torsion_free`, zkcrypto/src/curve/g1.rs:1891-1909. -/
def outside1x : FpW :=
  fpOf 0x0abaf895b97e43c8 0xba4c6432eb9b61b0 0x12506f52adfe307f 0x75028c3439336b72 0x84744f05b8e9bd71 0x113d554fb09554f7
def outside1y : FpW :=
  fpOf 0x73e90e88f5cf01c0 0x37007b65dd3197e2 0x5cf9a1992f0d7c78 0x4f83c10b9eb3330d 0xf6a63f6f07f60961 0x0c53b5b97e634df3

def outside1n : G1.NPt :=
  ⟨0x128d4862a40439a67fd76a9c7560e2ff159e770dcf688ff7b2dd165792541c88ee76c82eb77dd6e9e72c89cbf1a56a68,
    0x9dcf2aa13c29bf88787f725e99c247ff2e8f6bc5d86ba29e16063aafa124cfdd411037d39f1d3a818ea7f85bd4ca1cf, 1⟩

theorem outside1_eq : outside1x = (outside1n.x : FpW) ∧ outside1y = (outside1n.y : FpW) :=
  ⟨FpW.eq_natCast (by decide +kernel) (by decide +kernel), FpW.eq_natCast (by decide +kernel) (by decide +kernel)⟩

theorem outside1_on : (curve (CurveConsts.b : FpW)).Nonsingular outside1x outside1y := by
  rw [nonsingular_iff, outside1_eq.1, outside1_eq.2, G1.b_eq]
  have := G1.natCast_eq_of_mod (m := outside1n.y ^ 2) (n := outside1n.x ^ 3 + 4) (by decide +kernel)
  exact_mod_cast this

/-- C193: `test_is_torsion_free`, zkcrypto/src/curve/g1.rs:1891-1915. -/
theorem C193_g1_is_torsion_free (chk : Bool) : G1.isTorsionFree chk ⟨outside1x, outside1y, false⟩ = .ok false ∧
    G1.isTorsionFree chk Affine.identity = .ok true ∧ G1.isTorsionFree chk G1.generator = .ok true := by
  refine ⟨?_, ?_, ?_⟩
  · have ha : Affine.Is CurveConsts.b ⟨outside1x, outside1y, false⟩ (.some outside1x outside1y outside1_on) := .finite _
    obtain ⟨t, e, ht⟩ := C55_is_torsion_free chk ha
    rw [e]
    cases t with
    | false => rfl
    | true =>
      exfalso
      have h0 := ht.1 rfl
      have hn : Projective.Is CurveConsts.b outside1n.cast (.some outside1x outside1y outside1_on) := by
        have : outside1n.cast = Projective.ofAffine ⟨outside1x, outside1y, false⟩ := by
          simp [G1.NPt.cast, Projective.ofAffine, outside1_eq.1, outside1_eq.2, outside1n]
        rw [this]
        exact ofAffine_is ha
      have hm := G1.nmul_is 256 frModulus (by decide +kernel) hn G1.nzero_is
      rw [zero_add, h0] at hm
      have hz := (isIdentity_iff hm).2 rfl
      rw [Projective.isIdentity, decide_eq_true_eq] at hz
      have : ((G1.nmul 256 frModulus outside1n ⟨0, 1, 0⟩).z : FpW) = 0 := hz
      rw [CharP.cast_eq_zero_iff FpW fpModulus] at this
      revert this
      decide +kernel
  · obtain ⟨t, e, ht⟩ := C55_is_torsion_free chk (p := Affine.identity) .infinity
    rw [e, ht.2 (nsmul_zero frModulus)]
  · obtain ⟨t, e, ht⟩ := C55_is_torsion_free chk G1.generator_is
    rw [e, ht.2 G1.order_gen]

/-- The point of `test_is_torsion_free`, zkcrypto/src/curve/g2.rs:2031-2068. -/
def outside2x : Fp2 FpW :=
  ⟨fpOf 0x89f550c813db6431 0xa50be8c456cd8a1a 0xa45b374114cae851 0xbb6190f5bf7fff63 0x970ca02c3ba80bc7 0x02b85d24e840fbac,
    fpOf 0x6888bc53d70716dc 0x3dea6b4117682d70 0xd8f5f930500ca354 0x6b5ecb6556f5c155 0xc96bef0434778ab0 0x05081505515006ad⟩
def outside2y : Fp2 FpW :=
  ⟨fpOf 0x3cf1ea0d434b0f40 0x1a0dc610e603e333 0x7f89956160c72fa0 0x25ee03decf6431c5 0xeee8e206ec0fe137 0x097592b226dfef28,
    fpOf 0x71e8bb5f29247367 0xa5fe049e211831ce 0x0ce6b354502a3896 0x93b012000997314e 0x6759f3b6aa5b42ac 0x156944c4dfe92bbb⟩

def outside2n : G2.NPt :=
  ⟨⟨0x12acc41318438de3fc03d7736c10f191fb7c42ceea4b974612c42e500e9fdb954670df579e272a69c5f44792f4365dfd,
    0x4667af2fb19066b4ac8e0565d898947e39c8ec1f2ffc728004912fa2bb991b0078e333bf95e9e8da5eb4462a37213d4⟩,
   ⟨0x5be4d5e6271492e3ae1857a685f3df3f866f2a8835efef5bd47b2eab9fe0da2f9fec70cdc3628899a7a4e7e60ffcab8,
    0x144849640c04cdda4221398250bd67234ba8b607b40a3f216b2d395a73a8dd71a3b75175ffdae657276bf9df37c0f5ce⟩, ⟨1, 0⟩⟩

theorem outside2_eq : outside2x = outside2n.x.cast ∧ outside2y = outside2n.y.cast :=
  ⟨N2.eq_cast _ _ (by decide +kernel) (by decide +kernel), N2.eq_cast _ _ (by decide +kernel) (by decide +kernel)⟩

theorem outside2_on : (curve (CurveConsts.b : Fp2 FpW)).Nonsingular outside2x outside2y := by
  rw [nonsingular_iff, outside2_eq.1, outside2_eq.2]
  show _ = _ + G2.curveB
  rw [G2.curveB_eq, pow_two, pow_succ, pow_two, ← N2.mul_cast, ← N2.mul_cast, ← N2.mul_cast, ← N2.add_cast]
  exact N2.cast_eq_of_mod (by decide +kernel) (by decide +kernel)

theorem z0_of {q : G2.NPt} (h : q.cast.z = 0) : (q.z.a : FpW) = 0 := congrArg Fp2.c0 h

/-- C193: `test_is_torsion_free`, zkcrypto/src/curve/g2.rs:2031-2075. -/
theorem C193_g2_is_torsion_free : G2.isTorsionFree ⟨outside2x, outside2y, false⟩ = false ∧
    G2.isTorsionFree Affine.identity = true ∧ G2.isTorsionFree G2.generator = true := by
  refine ⟨?_, ?_, ?_⟩
  · have ha : Affine.Is CurveConsts.b ⟨outside2x, outside2y, false⟩ (.some outside2x outside2y outside2_on) := .finite _
    rw [← Bool.not_eq_true, C79_is_torsion_free ha]
    intro h0
    have hn : Projective.Is CurveConsts.b outside2n.cast (.some outside2x outside2y outside2_on) := by
      have : outside2n.cast = Projective.ofAffine ⟨outside2x, outside2y, false⟩ := by
        simp [G2.NPt.cast, Projective.ofAffine, outside2_eq.1, outside2_eq.2, outside2n, N2.one_cast]
      rw [this]
      exact ofAffine_is ha
    have hm := G2.nmul_is 256 frModulus (by decide +kernel) hn G2.nzero_is
    rw [zero_add, h0] at hm
    have hz := (isIdentity_iff hm).2 rfl
    rw [Projective.isIdentity, decide_eq_true_eq] at hz
    have : ((G2.nmul 256 frModulus outside2n ⟨⟨0, 0⟩, ⟨1, 0⟩, ⟨0, 0⟩⟩).z.a : FpW) = 0 := z0_of hz
    rw [CharP.cast_eq_zero_iff FpW fpModulus] at this
    revert this
    decide +kernel
  · exact (C79_is_torsion_free (p := Affine.identity) .infinity).2 (nsmul_zero frModulus)
  · exact (C79_is_torsion_free G2.generator_is).2 G2.order_gen

end Points

end Kzg.Props
