import Verif.Model.Zk.Tower
import Verif.Proofs.Zk.TowerFrob
/-!
# The second group of zkcrypto (zkcrypto/src/curve/g2.rs)

The coordinates are `Fp2 FpW`, pairs of reduced six-word vectors with the operations of fp2.rs. The formulas
that the file shares with g1.rs are in `Verif/Model/Zk/Curve.lean`; this file has the rest. As there, `square`
is the product of an element with itself (C70 shows that the results are the same).
-/

namespace Kzg.Zk
namespace G2

/-- `G2Affine`. -/
abbrev Aff := Affine (Fp2 FpW)

/-- `G2Projective`. -/
abbrev Proj := Projective (Fp2 FpW)

/-- `B`, zkcrypto/src/curve/g2.rs:361-378. -/
def curveB : Fp2 FpW :=
  ⟨.raw 0xaa270000000cfff3 0x53cc0032fc34000a 0x478fe97a6b0a807f 0xb1d37ebee6ba24d7 0x8ec9733bbf78ab2f
      0x09d645513d83de7e (by decide +kernel),
    .raw 0xaa270000000cfff3 0x53cc0032fc34000a 0x478fe97a6b0a807f 0xb1d37ebee6ba24d7 0x8ec9733bbf78ab2f
      0x09d645513d83de7e (by decide +kernel)⟩

/-- `B` with `B3` and `mul_by_3b`, zkcrypto/src/curve/g2.rs:361-380 and 816-819. -/
instance : CurveConsts (Fp2 FpW) where
  b := curveB
  mul3b a := a * (curveB + curveB + curveB)

/-- The first coordinate of the generator, zkcrypto/src/curve/g2.rs:396-413 and 835-852. -/
def generatorX : Fp2 FpW :=
  ⟨.raw 0xf5f28fa202940a10 0xb3f5fb2687b4961a 0xa1a893b53e2ae580 0x9894999d1a3caee9 0x6f67b7631863366b
      0x058191924350bcd7 (by decide +kernel),
    .raw 0xa5a9c0759e23f606 0xaaa0c59dbccd60c3 0x3bb17e18e2867806 0x1b1ab6cc8541b367 0xc2b6ed0ef2158547
      0x11922a097360edf3 (by decide +kernel)⟩

/-- The second coordinate of the generator, zkcrypto/src/curve/g2.rs:414-431 and 853-870. -/
def generatorY : Fp2 FpW :=
  ⟨.raw 0x4c730af860494c4a 0x597cfa1f5e369c5a 0xe7e6856caa0a635a 0xbbefb5e96e0d495f 0x07d3a975f0ef25a2
      0x0083fd8e7e80dae5 (by decide +kernel),
    .raw 0xadc0fc92df64b05d 0x18aa270a2b1461dc 0x86adac6a3be4eba0 0x79495c4ec93da33a 0xe7175850a43ccaed
      0x0b2bc2a163de1bf2 (by decide +kernel)⟩

/-- `G2Affine::generator`, zkcrypto/src/curve/g2.rs:394-434. -/
def generator : Aff := ⟨generatorX, generatorY, false⟩

/-- `G2Projective::generator`, zkcrypto/src/curve/g2.rs:833-873. -/
def generatorProj : Proj := ⟨generatorX, generatorY, 1⟩

/-- The bits that `multiply` runs through, zkcrypto/src/curve/g2.rs:1002-1007: the bytes from the last to the
first, each from its high bit to its low bit, without the very first bit. -/
def multiplyBits (bytes : List Nat) : List Bool :=
  ((bytes.reverse.flatMap fun byte => [7, 6, 5, 4, 3, 2, 1, 0].map fun i => shr byte i &&& 1 == 1)).drop 1

/-- `multiply`, zkcrypto/src/curve/g2.rs:993-1013. -/
def multiply (p : Proj) (bytes : List Nat) : Proj :=
  (multiplyBits bytes).foldl (fun acc bit =>
    let acc := acc.double
    Projective.select acc (acc.add p) bit) Projective.identity

/-- `Mul<&Scalar> for &G2Projective`, zkcrypto/src/curve/g2.rs:796-802. -/
def mul (p : Proj) (s : Scalar) : Proj := multiply p (Scalar.toBytes s)

/-- `Mul<&Scalar> for &G2Affine`, zkcrypto/src/curve/g2.rs:804-810. -/
def mulAffine (p : Aff) (s : Scalar) : Proj := multiply (Projective.ofAffine p) (Scalar.toBytes s)

/-- `is_torsion_free`, zkcrypto/src/curve/g2.rs:659-669; the byte string is that of g1.rs. -/
def isTorsionFree (p : Aff) : Bool := (multiply (Projective.ofAffine p) G1.orderBytes).isIdentity

/-- `psi_coeff_x`, zkcrypto/src/curve/g2.rs:1017-1027. -/
def psiCoeffX : Fp2 FpW :=
  ⟨0, .raw 0x890dc9e4867545c3 0x2af322533285a5d5 0x50880866309b7e2c 0xa20d1b8c7e881024 0x14e4f04fe2db9068
    0x14e56d3f1564853a (by decide +kernel)⟩

/-- `psi_coeff_y`, zkcrypto/src/curve/g2.rs:1029-1046. -/
def psiCoeffY : Fp2 FpW :=
  ⟨.raw 0x3e2f585da55c9ad1 0x4294213d86c18183 0x382844c88b623732 0x92ad2afd19103e18 0x1d794e4fac7cf0b9
      0x0bd592fc7d825ec8 (by decide +kernel),
    .raw 0x7bcfa7a25aa30fda 0xdc17dec12a927e7c 0x2f088dd86b4ebef1 0xd1ca2087da74d4a7 0x2da2596696cebc1d
      0x0e2b7eedbbfd87d2 (by decide +kernel)⟩

/-- `psi`, zkcrypto/src/curve/g2.rs:1015-1056. -/
def psi (p : Proj) : Proj :=
  ⟨p.x.frobeniusMap * psiCoeffX, p.y.frobeniusMap * psiCoeffY, p.z.frobeniusMap⟩

/-- `psi2_coeff_x`, zkcrypto/src/curve/g2.rs:1060-1070. -/
def psi2CoeffX : Fp2 FpW :=
  ⟨.raw 0xcd03c9e48671f071 0x5dab22461fcda5d2 0x587042afd3851b95 0x8eb60ebe01bacb9e 0x03f97d6e83d050d2
    0x18f0206554638741 (by decide +kernel), 0⟩

/-- `psi2`, zkcrypto/src/curve/g2.rs:1058-1080. -/
def psi2 (p : Proj) : Proj := ⟨p.x * psi2CoeffX, -p.y, p.z⟩

/-- `clear_cofactor`, zkcrypto/src/curve/g2.rs:1106-1115. -/
def clearCofactor (p : Proj) : Proj :=
  let t1 := p.mulByX
  let t2 := psi p
  ((((psi2 p.double).add (t1.add t2).mulByX).sub t1).sub t2).sub p

/-- `to_compressed`, zkcrypto/src/curve/g2.rs:438-465. -/
def toCompressed (p : Aff) : List Nat :=
  let x := if p.infinity then (0 : Fp2 FpW) else p.x
  let res := Fp.toBytes x.c1.1 ++ Fp.toBytes x.c0.1
  let res := res.set 0 (res.getD 0 0 ||| 0x80)
  let res := res.set 0 (res.getD 0 0 ||| if p.infinity then 0x40 else 0)
  res.set 0 (res.getD 0 0 ||| if !p.infinity && Fp2.lexLargest p.y then 0x20 else 0)

/-- `to_uncompressed`, zkcrypto/src/curve/g2.rs:468-484. -/
def toUncompressed (p : Aff) : List Nat :=
  let x := if p.infinity then (0 : Fp2 FpW) else p.x
  let y := if p.infinity then (0 : Fp2 FpW) else p.y
  let res := Fp.toBytes x.c1.1 ++ Fp.toBytes x.c0.1 ++ Fp.toBytes y.c1.1 ++ Fp.toBytes y.c0.1
  res.set 0 (res.getD 0 0 ||| if p.infinity then 0x40 else 0)

/-- `from_uncompressed_unchecked`, zkcrypto/src/curve/g2.rs:496-571; the argument has 192 bytes. -/
def fromUncompressedUnchecked (bytes : List Nat) : Option Aff :=
  let compression := G1.flag bytes 7
  let infinity := G1.flag bytes 6
  let sort := G1.flag bytes 5
  (G1.decodeX bytes).bind fun xc1 =>
  (FpW.fromBytes ((bytes.drop 48).take 48)).bind fun xc0 =>
  (FpW.fromBytes ((bytes.drop 96).take 48)).bind fun yc1 =>
  (FpW.fromBytes ((bytes.drop 144).take 48)).bind fun yc0 =>
  let x : Fp2 FpW := ⟨xc0, xc1⟩
  let y : Fp2 FpW := ⟨yc0, yc1⟩
  let p := Affine.select ⟨x, y, infinity⟩ Affine.identity infinity
  if (!infinity || (infinity && x.isZero && y.isZero)) && !compression && !sort then some p else none

/-- `from_uncompressed`, zkcrypto/src/curve/g2.rs:487-490. -/
def fromUncompressed (bytes : List Nat) : Option Aff :=
  (fromUncompressedUnchecked bytes).bind fun p => if p.isOnCurve && isTorsionFree p then some p else none

/-- `from_compressed_unchecked`, zkcrypto/src/curve/g2.rs:585-647; the argument has 96 bytes. -/
def fromCompressedUnchecked (bytes : List Nat) : Option Aff :=
  let compression := G1.flag bytes 7
  let infinity := G1.flag bytes 6
  let sort := G1.flag bytes 5
  (G1.decodeX bytes).bind fun xc1 =>
  (FpW.fromBytes ((bytes.drop 48).take 48)).bind fun xc0 =>
  let x : Fp2 FpW := ⟨xc0, xc1⟩
  if infinity && compression && !sort && x.isZero then some Affine.identity
  else
    (Fp2.sqrt (x * x * x + curveB)).bind fun y =>
    let y := if Fp2.lexLargest y != sort then -y else y
    if !infinity && compression then some ⟨x, y, infinity⟩ else none

/-- `from_compressed`, zkcrypto/src/curve/g2.rs:574-579. -/
def fromCompressed (bytes : List Nat) : Option Aff :=
  (fromCompressedUnchecked bytes).bind fun p => if isTorsionFree p then some p else none

end G2
end Kzg.Zk
