import Verif.Model.Zk.Curve
import Verif.Model.Zk.Fp
import Verif.Model.Zk.Scalar
/-!
# Conversions between zkcrypto and blst (zkcrypto/src/utils.rs), and the words of a scalar

The C structures of blst are vectors of words, like the Rust ones: `blst_fr` four words, `blst_fp` six, so
the types `Scalar` and `Fp` are used for both. Of the library blst two things are trusted: it keeps field
elements in Montgomery form with the same factors `2^256` and `2^384`, so that
`blst_uint64_from_fr` and `blst_uint64_from_fp` leave Montgomery form; and its `blst_p1` is a point
in Jacobian coordinates. The first is written with the reduction of the Rust files, which computes the same
thing (C37, C42).
-/

namespace Kzg.Zk

/-- `to_u64_arr`, zkcrypto/src/zkfr.rs:55-67: the bytes of the scalar, eight at a time. -/
def toU64Arr (a : Scalar) : Scalar :=
  let bytes := Scalar.toBytes a
  ⟨fromLe (bytes.take 8), fromLe ((bytes.drop 8).take 8), fromLe ((bytes.drop 16).take 8),
    fromLe ((bytes.drop 24).take 8)⟩

/-- `from_u64_arr`, zkcrypto/src/zkfr.rs:50-53. -/
def fromU64Arr (u : Scalar) : Scalar := Scalar.fromRaw u.l0 u.l1 u.l2 u.l3

/-- `blst::blst_uint64_from_fr` (FFI, trusted): the words of the integer an element stands for. -/
def blstUint64FromFr (fr : Scalar) : Scalar := Scalar.reduce fr

/-- `blst::blst_uint64_from_fp` (FFI, trusted): the words of the integer an element stands for. -/
def blstUint64FromFp (fp : Fp) : Fp :=
  Fp.montgomeryReduce fp.l0 fp.l1 fp.l2 fp.l3 fp.l4 fp.l5 0 0 0 0 0 0

/-- `struct blst_p1` of the blst library: Jacobian coordinates. -/
structure BlstP1 where
  x : Fp
  y : Fp
  z : Fp
deriving DecidableEq, Repr

/-- `struct G1Projective` with its words, zkcrypto/src/curve/g1.rs:621-625. -/
structure ZkP1 where
  x : Fp
  y : Fp
  z : Fp
deriving DecidableEq, Repr

/-- `blst_poly_into_zk_poly`, zkcrypto/src/utils.rs:26-35: only the lowest word of each coefficient is
read, and it is read as an integer. -/
def blstPolyIntoZkPoly (coeffs : List Scalar) : List Scalar := coeffs.map fun x => Scalar.ofU64 x.l0

/-- `pc_poly_into_blst_poly`, zkcrypto/src/utils.rs:37-45. -/
def pcPolyIntoBlstPoly (coeffs : List Scalar) : List Scalar := coeffs.map fun x => ⟨x.l0, x.l1, x.l2, x.l3⟩

/-- `zk_fr_into_blst_fr`, zkcrypto/src/utils.rs:47-58. The result of the call of
`blst_fr_from_uint64` is dropped. -/
def zkFrIntoBlstFr (fr : Scalar) : Scalar := ⟨fr.l0, fr.l1, fr.l2, fr.l3⟩

/-- `blst_fr_into_zk_fr`, zkcrypto/src/utils.rs:60-70. -/
def blstFrIntoZkFr (fr : Scalar) : Scalar := fromU64Arr (blstUint64FromFr fr)

/-- `zk_fp_into_blst_fp`, zkcrypto/src/utils.rs:72-74. -/
def zkFpIntoBlstFp (fp : Fp) : Fp := ⟨fp.l0, fp.l1, fp.l2, fp.l3, fp.l4, fp.l5⟩

/-- `blst_fp_into_zk_fp`, zkcrypto/src/utils.rs:76-84: the words of the integer are used as they are
(`from_raw_unchecked`, zkcrypto/src/curve/fp.rs:482-484). -/
def blstFpIntoZkFp (fp : Fp) : Fp := blstUint64FromFp fp

/-- `zk_g1projective_into_blst_p1`, zkcrypto/src/utils.rs:87-96. -/
def zkG1ProjectiveIntoBlstP1 (gp : ZkP1) : BlstP1 :=
  ⟨zkFpIntoBlstFp gp.x, zkFpIntoBlstFp gp.y, zkFpIntoBlstFp gp.z⟩

/-- `blst_p1_into_zk_g1projective`, zkcrypto/src/utils.rs:98-107. -/
def blstP1IntoZkG1Projective (p1 : BlstP1) : ZkP1 :=
  ⟨blstFpIntoZkFp p1.x, blstFpIntoZkFp p1.y, blstFpIntoZkFp p1.z⟩

end Kzg.Zk
