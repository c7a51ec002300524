import Verif.Model.Zk.G2
import Verif.Model.Zk.Scalar
/-!
# Random elements and the trait constants of zkcrypto

A random number generator is the list of its answers: the 96 or 64 bytes that `fill_bytes` writes and the number that
`next_u32` returns. A loop that has used up all answers is still running.
-/

namespace Kzg.Zk
open CurveConsts

/-- `Fp::random`, zkcrypto/src/curve/fp.rs:409-428, on the bytes written by the generator. -/
def Fp.random (bytes : List Nat) : Fp :=
  Fp.fromU768 (fromBe (bytes.take 8)) (fromBe ((bytes.drop 8).take 8)) (fromBe ((bytes.drop 16).take 8))
    (fromBe ((bytes.drop 24).take 8)) (fromBe ((bytes.drop 32).take 8)) (fromBe ((bytes.drop 40).take 8))
    (fromBe ((bytes.drop 48).take 8)) (fromBe ((bytes.drop 56).take 8)) (fromBe ((bytes.drop 64).take 8))
    (fromBe ((bytes.drop 72).take 8)) (fromBe ((bytes.drop 80).take 8)) (fromBe ((bytes.drop 88).take 8))

/-- `Fp::random`; what it returns is reduced for all bytes (`C146_fp`). -/
def FpW.random (bytes : List Nat) : FpW := if h : Fp.Red (Fp.random bytes) then ⟨Fp.random bytes, h⟩ else 0

/-- `Fp2::random`, zkcrypto/src/curve/fp2.rs:316-321: first `c0`, then `c1`. -/
def Fp2.random (bytes0 bytes1 : List Nat) : Fp2 FpW := ⟨FpW.random bytes0, FpW.random bytes1⟩

/-- `Field::random` for `Scalar`, zkcrypto/src/curve/scalar.rs:886-890. -/
def Scalar.random (bytes : List Nat) : Scalar := Scalar.fromBytesWide bytes

/-- One iteration of the loop of `Group::random` for `G1Projective`, zkcrypto/src/curve/g1.rs:1259-1275. `square` is written as
a product (C42_square_eq_mul). -/
def G1.randomStep (bytes : List Nat) (u : Nat) : Option G1.Proj :=
  let x := FpW.random bytes
  let flipSign := u % 2 != 0
  (FpW.sqrt (x * x * x + b)).bind fun y =>
    let p := G1.clearCofactor (Projective.ofAffine ⟨x, if flipSign then -y else y, false⟩)
    if !p.isIdentity then some p else none

/-- `Group::random` for `G1Projective`, zkcrypto/src/curve/g1.rs:1257-1277. -/
def G1.random : List (List Nat × Nat) → Option G1.Proj
  | [] => none
  | (bytes, u) :: rest => (G1.randomStep bytes u).elim (G1.random rest) some

/-- One iteration of the loop of `Group::random` for `G2Projective`, zkcrypto/src/curve/g2.rs:1264-1280. -/
def G2.randomStep (bytes0 bytes1 : List Nat) (u : Nat) : Option G2.Proj :=
  let x := Fp2.random bytes0 bytes1
  let flipSign := u % 2 != 0
  (Fp2.sqrt (x.square * x + b)).bind fun y =>
    let p := G2.clearCofactor (Projective.ofAffine ⟨x, if flipSign then -y else y, false⟩)
    if !p.isIdentity then some p else none

/-- `Group::random` for `G2Projective`, zkcrypto/src/curve/g2.rs:1262-1282. -/
def G2.random : List (List Nat × List Nat × Nat) → Option G2.Proj
  | [] => none
  | (bytes0, bytes1, u) :: rest => (G2.randomStep bytes0 bytes1 u).elim (G2.random rest) some

namespace Scalar

/-- `is_odd`, zkcrypto/src/curve/scalar.rs:930-932. -/
def isOdd (a : Scalar) : Bool := ((toBytes a).getD 0 0 &&& 1) == 1

/-- `NUM_BITS`, zkcrypto/src/curve/scalar.rs:934 and 277. -/
def numBits : Nat := 255

/-- `CAPACITY`, zkcrypto/src/curve/scalar.rs:935. -/
def capacity : Nat := numBits - 1

/-- `S`, zkcrypto/src/curve/scalar.rs:941 and 363. -/
def twoAdicity : Nat := 32

/-- `Sum`, zkcrypto/src/curve/scalar.rs:995-1004. -/
def sum (l : List Scalar) : Scalar := l.foldl (fun acc item => add acc item) zero

end Scalar
end Kzg.Zk
