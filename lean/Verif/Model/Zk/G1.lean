import Verif.Model.Zk.Glv
import Verif.Proofs.Zk.FpWords
/-!
# The first group of zkcrypto (zkcrypto/src/curve/g1.rs)

The coordinates are `FpW`, the reduced six-word vectors with the word operations of fp.rs.

`CtOption` is `Option`. `CtOption::and_then` of the `subtle` crate also runs its closure on a default
value when there is nothing, and drops the result; the closures here panic on no value, or (the call of
`multiply` in `is_torsion_free`) panic independently of the point, so this is not visible.
-/

namespace Kzg.Zk

/-- Words written as a constant, `Fp::from_raw_unchecked`, zkcrypto/src/curve/fp.rs:482-484; the words have to
be reduced. -/
def FpW.raw (l0 l1 l2 l3 l4 l5 : Nat) (h : Fp.Red ⟨l0, l1, l2, l3, l4, l5⟩) : FpW := ⟨⟨l0, l1, l2, l3, l4, l5⟩, h⟩

instance (s : Fp) : Decidable (Fp.Red s) := by unfold Fp.Red Fp.Words; infer_instance

/-- `Fp::from_bytes`; what it returns is reduced (`FpW.fromBytes_eq`). -/
def FpW.fromBytes (bytes : List Nat) : Option FpW :=
  (Fp.fromBytes bytes).bind fun s => if h : Fp.Red s then some ⟨s, h⟩ else none

/-- `Fp::sqrt`; what it returns is reduced (`FpW.sqrt_eq`). -/
def FpW.sqrt (a : FpW) : Option FpW :=
  (Fp.sqrt a.1).bind fun s => if h : Fp.Red s then some ⟨s, h⟩ else none

namespace G1

/-- `G1Affine`. -/
abbrev Aff := Affine FpW

/-- `G1Projective`. -/
abbrev Proj := Projective FpW

/-- `B` and `mul_by_3b`, zkcrypto/src/curve/g1.rs:373-380 and 762-767. -/
instance : CurveConsts FpW where
  b := .raw 0xaa270000000cfff3 0x53cc0032fc34000a 0x478fe97a6b0a807f 0xb1d37ebee6ba24d7 0x8ec9733bbf78ab2f
    0x09d645513d83de7e (by decide +kernel)
  mul3b a :=
    let a := a + a
    let a := a + a
    let a := a + a + a
    a

/-- `BETA`, zkcrypto/src/curve/g1.rs:10-17. -/
def beta : FpW :=
  .raw 0xcd03c9e48671f071 0x5dab22461fcda5d2 0x587042afd3851b95 0x8eb60ebe01bacb9e 0x03f97d6e83d050d2
    0x18f0206554638741 (by decide +kernel)

/-- The first coordinate of the generator, zkcrypto/src/curve/g1.rs:396-403 and 783-790. -/
def generatorX : FpW :=
  .raw 0x5cb38790fd530c16 0x7817fc679976fff5 0x154f95c7143ba1c1 0xf0ae6acdf3d0e747 0xedce6ecc21dbf440
    0x120177419e0bfb75 (by decide +kernel)

/-- The second coordinate of the generator, zkcrypto/src/curve/g1.rs:404-411 and 791-798. -/
def generatorY : FpW :=
  .raw 0xbaac93d50ce72271 0x8c22631a7918fd8e 0xdd595f13570725ce 0x51ac582950405194 0x0e1c8c3fad0059c0
    0x0bbc3efc5008a26a (by decide +kernel)

/-- `G1Affine::generator`, zkcrypto/src/curve/g1.rs:394-414. -/
def generator : Aff := ⟨generatorX, generatorY, false⟩

/-- `G1Projective::generator`, zkcrypto/src/curve/g1.rs:781-801. -/
def generatorProj : Proj := ⟨generatorX, generatorY, 1⟩

/-- `Mul<&Scalar> for &G1Projective`, zkcrypto/src/curve/g1.rs:741-747, which is also `G1Projective::mul`, 634-636.
`chk` says whether overflow checks are on. -/
def mul (chk : Bool) (p : Proj) (s : Scalar) : Res Proj := Glv.multiply chk beta p (Scalar.toBytes s)

/-- `Mul<&Scalar> for &G1Affine`, zkcrypto/src/curve/g1.rs:749-755. -/
def mulAffine (chk : Bool) (p : Aff) (s : Scalar) : Res Proj :=
  Glv.multiply chk beta (Projective.ofAffine p) (Scalar.toBytes s)

/-- `FQ_MODULUS_BYTES`, zkcrypto/src/curve/g1.rs:599-602. -/
def orderBytes : List Nat :=
  [1, 0, 0, 0, 255, 255, 255, 255, 254, 91, 254, 255, 2, 164, 189, 83, 5, 216, 161, 9, 8,
    216, 57, 51, 72, 125, 157, 41, 83, 167, 237, 115]

/-- `is_torsion_free`, zkcrypto/src/curve/g1.rs:598-608. -/
def isTorsionFree (chk : Bool) (p : Aff) : Res Bool := do
  let q ← Glv.multiply chk beta (Projective.ofAffine p) orderBytes
  return q.isIdentity

/-- `clear_cofactor`, zkcrypto/src/curve/g1.rs:1108-1110. -/
def clearCofactor (p : Proj) : Proj := p.sub p.mulByX

/-- `to_compressed`, zkcrypto/src/curve/g1.rs:418-439. -/
def toCompressed (p : Aff) : List Nat :=
  let res := Fp.toBytes (if p.infinity then (0 : FpW) else p.x).1
  let res := res.set 0 (res.getD 0 0 ||| 0x80)
  let res := res.set 0 (res.getD 0 0 ||| if p.infinity then 0x40 else 0)
  res.set 0 (res.getD 0 0 ||| if !p.infinity && Fp.lexLargest p.y.1 then 0x20 else 0)

/-- `to_uncompressed`, zkcrypto/src/curve/g1.rs:443-457. -/
def toUncompressed (p : Aff) : List Nat :=
  let res := Fp.toBytes (if p.infinity then (0 : FpW) else p.x).1 ++
    Fp.toBytes (if p.infinity then (0 : FpW) else p.y).1
  res.set 0 (res.getD 0 0 ||| if p.infinity then 0x40 else 0)

/-- A flag of the first byte, `Choice::from((bytes[0] >> i) & 1)`, zkcrypto/src/curve/g1.rs:472-474. -/
def flag (bytes : List Nat) (i : Nat) : Bool := (shr (bytes.getD 0 0) i &&& 1) == 1

/-- The first coordinate without the flags, zkcrypto/src/curve/g1.rs:477-485 and 541-549. -/
def decodeX (bytes : List Nat) : Option FpW :=
  let tmp := bytes.take 48
  FpW.fromBytes (tmp.set 0 (tmp.getD 0 0 &&& 0x1f))

/-- `from_uncompressed_unchecked`, zkcrypto/src/curve/g1.rs:470-519; the argument has 96 bytes. -/
def fromUncompressedUnchecked (bytes : List Nat) : Option Aff :=
  let compression := flag bytes 7
  let infinity := flag bytes 6
  let sort := flag bytes 5
  (decodeX bytes).bind fun x =>
  (FpW.fromBytes ((bytes.drop 48).take 48)).bind fun y =>
  let p := Affine.select ⟨x, y, infinity⟩ Affine.identity infinity
  if (!infinity || (infinity && decide (x = 0) && decide (y = 0))) && !compression && !sort then some p else none

/-- `from_uncompressed`, zkcrypto/src/curve/g1.rs:461-464. -/
def fromUncompressed (chk : Bool) (bytes : List Nat) : Res (Option Aff) :=
  (fromUncompressedUnchecked bytes).elim (.ok none) fun p => do
    let free ← isTorsionFree chk p
    return if p.isOnCurve && free then some p else none

/-- `from_compressed_unchecked`, zkcrypto/src/curve/g1.rs:534-587; the argument has 48 bytes. -/
def fromCompressedUnchecked (bytes : List Nat) : Option Aff :=
  let compression := flag bytes 7
  let infinity := flag bytes 6
  let sort := flag bytes 5
  (decodeX bytes).bind fun x =>
  if infinity && compression && !sort && decide (x = 0) then some Affine.identity
  else
    (FpW.sqrt (x * x * x + CurveConsts.b)).bind fun y =>
    let y := if Fp.lexLargest y.1 != sort then -y else y
    if !infinity && compression then some ⟨x, y, infinity⟩ else none

/-- `from_compressed`, zkcrypto/src/curve/g1.rs:523-528. -/
def fromCompressed (chk : Bool) (bytes : List Nat) : Res (Option Aff) :=
  (fromCompressedUnchecked bytes).elim (.ok none) fun p => do
    let free ← isTorsionFree chk p
    return if free then some p else none

end G1
end Kzg.Zk
