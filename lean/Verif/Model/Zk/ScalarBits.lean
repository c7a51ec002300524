import Verif.Model.Zk.Scalar
/-!
# The bits of scalars of zkcrypto

This code is compiled with the feature `bits`, in one variant for targets of 64 bits and one for others. `FieldBits` of the crate ff is
an array of words read from the lowest bit of the first word on.
-/

namespace Kzg.Zk.Scalar
open Kzg

/-- `FieldBits` over words of `w` bits: the bit at position `i`, none beyond the array. -/
def bitAt (w : Nat) (limbs : List Nat) (i : Nat) : Option Bool := limbs[i / w]?.map fun l => l.testBit (i % w)

/-- `to_le_bits`, zkcrypto/src/curve/scalar.rs:958-982: the words on targets of 64 bits (973-979). -/
def toLeBits64 (a : Scalar) : List Nat :=
  let bytes := toBytes a
  [fromLe ((bytes.take 8).drop 0), fromLe ((bytes.take 16).drop 8), fromLe ((bytes.take 24).drop 16), fromLe ((bytes.take 32).drop 24)]

/-- `to_le_bits`, zkcrypto/src/curve/scalar.rs:958-982: the words on other targets (961-971). -/
def toLeBits32 (a : Scalar) : List Nat :=
  let bytes := toBytes a
  [fromLe ((bytes.take 4).drop 0), fromLe ((bytes.take 8).drop 4), fromLe ((bytes.take 12).drop 8), fromLe ((bytes.take 16).drop 12),
    fromLe ((bytes.take 20).drop 16), fromLe ((bytes.take 24).drop 20), fromLe ((bytes.take 28).drop 24), fromLe ((bytes.take 32).drop 28)]

/-- `MODULUS_LIMBS_32`, zkcrypto/src/curve/scalar.rs:265-274. -/
def modulusLimbs32 : List Nat :=
  [0x00000001, 0xffffffff, 0xfffe5bfe, 0x53bda402, 0x09a1d805, 0x3339d808, 0x299d7d48, 0x73eda753]

/-- `char_le_bits`, zkcrypto/src/curve/scalar.rs:984-992, on targets of 64 bits. -/
def charLeBits64 : List Nat := [modulus.l0, modulus.l1, modulus.l2, modulus.l3]

/-- `char_le_bits`, zkcrypto/src/curve/scalar.rs:984-992, on other targets. -/
def charLeBits32 : List Nat := modulusLimbs32

end Kzg.Zk.Scalar
