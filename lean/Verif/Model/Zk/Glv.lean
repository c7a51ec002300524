import Verif.Model.Zk.Curve
import Verif.Model.Zk.Scalar
/-!
# Scalar multiplication in the first group (zkcrypto/src/curve/g1.rs:922-1082)

The endomorphism method: the scalar is split into two half-size scalars, each is recoded into 33 odd digits
of absolute value at most 15, and a table of eight odd multiples is read once per digit.

`chk` says whether the program was built with overflow checks (`true`: an overflowing `+` or `-` panics, as
in a debug build; `false`: it wraps, as in a release build). An `i8` is an integer between -128 and 127; a
byte is a natural number below 256; a 32-byte array is a list of 32 bytes.
-/

namespace Kzg.Zk.Glv
open Kzg

/-- `u64 + u64`. -/
def addU64 (chk : Bool) (a b : Nat) : Res Nat :=
  if a + b < W then .ok (a + b) else if chk then .panic else .ok ((a + b) % W)

/-- `x as i8` for a byte, or for the low byte of a word. -/
def asI8 (x : Nat) : Int := if x % 256 < 128 then (x % 256 : Nat) else (x % 256 : Nat) - 256

/-- `x as u8` for an `i8`. -/
def asU8 (x : Int) : Nat := (x % 256).toNat

/-- `i8 - i8`. -/
def subI8 (chk : Bool) (a b : Int) : Res Int :=
  if -128 ≤ a - b ∧ a - b < 128 then .ok (a - b) else if chk then .panic else .ok (asI8 (asU8 (a - b)))

/-- `i8 ^ i8`. -/
def xorI8 (a b : Int) : Int := asI8 (asU8 a ^^^ asU8 b)

/-- `Choice::from(-flag as u8)`, for `flag` 0 or -1. -/
def choiceOf (flag : Int) : Bool := decide (asU8 (-flag) = 1)

/-- `sub_borrow`, zkcrypto/src/curve/g1.rs:926-932. -/
def subBorrow (a0 a1 a2 a3 b0 b1 b2 b3 : Nat) : (Nat × Nat × Nat × Nat) × Int :=
  let (d0, borrow) := sbb a0 b0 0
  let (d1, borrow) := sbb a1 b1 borrow
  let (d2, borrow) := sbb a2 b2 borrow
  let (d3, borrow) := sbb a3 b3 borrow
  ((d0, d1, d2, d3), asI8 borrow)

/-- The eight words returned by `mul_short`. -/
structure Words8 where
  r0 : Nat
  r1 : Nat
  r2 : Nat
  r3 : Nat
  r4 : Nat
  r5 : Nat
  r6 : Nat
  r7 : Nat

/-- `mul_short`, zkcrypto/src/curve/g1.rs:935-958: the top word of `b` is not used. -/
def mulShort (a0 a1 a2 a3 b0 b1 b2 : Nat) : Words8 :=
  let (r0, carry) := mac 0 a0 b0 0
  let (r1, carry) := mac 0 a0 b1 carry
  let (r2, carry) := mac 0 a0 b2 carry
  let r3 := carry
  let (r1, carry) := mac r1 a1 b0 0
  let (r2, carry) := mac r2 a1 b1 carry
  let (r3, carry) := mac r3 a1 b2 carry
  let r4 := carry
  let (r2, carry) := mac r2 a2 b0 0
  let (r3, carry) := mac r3 a2 b1 carry
  let (r4, carry) := mac r4 a2 b2 carry
  let r5 := carry
  let (r3, carry) := mac r3 a3 b0 0
  let (r4, carry) := mac r4 a3 b1 carry
  let (r5, carry) := mac r5 a3 b2 carry
  let r6 := carry
  ⟨r0, r1, r2, r3, r4, r5, r6, 0⟩

/-- `glv_recoding`, zkcrypto/src/curve/g1.rs:960-988. The result is `(s1, k1, s2, k2)`. -/
def glvRecoding (chk : Bool) (k : List Nat) : Res (Int × List Nat × Int × List Nat) := do
  let t0 := fromLe (k.take 8)
  let t1 := fromLe ((k.drop 8).take 8)
  let t2 := fromLe ((k.drop 16).take 8)
  let t3 := fromLe ((k.drop 24).take 8)
  let b2 := mulShort t0 t1 t2 t3 0x63f6e522f6cfee2f 0x7c6becf1e01faadd 1
  let h ← addU64 chk b2.r4 (shr b2.r3 63)
  let b1 := mulShort h b2.r5 b2.r6 b2.r7 0x00000000ffffffff 0xac45a4010001a402 0
  let (d, s1) := subBorrow t0 t1 t2 t3 b1.r0 b1.r1 b1.r2 b1.r3
  let minusK1 := Scalar.add (Scalar.fromRaw (wnot d.1) (wnot d.2.1) (wnot d.2.2.1) (wnot d.2.2.2)) Scalar.one
  let k1 := Scalar.fromRaw d.1 d.2.1 d.2.2.1 d.2.2.2
  let k1 := Scalar.select k1 minusK1 (choiceOf s1)
  let k2 := Scalar.fromRaw h b2.r5 b2.r6 b2.r7
  return (s1, Scalar.toBytes k1, 0, Scalar.toBytes k2)

/-- The division of the byte array by 16, zkcrypto/src/curve/g1.rs:1000-1003; `w - 1` is 4. -/
def shiftBytes : List Nat → List Nat
  | [] => []
  | [c] => [c / 16]
  | c :: c' :: cs => (c / 16 ||| c' * 16 % 256) :: shiftBytes (c' :: cs)

/-- `sc[0] = …`. -/
def setFirst (sc : List Nat) (c : Nat) : List Nat := sc.set 0 c

/-- The loop of `regular_recoding`, zkcrypto/src/curve/g1.rs:996-1005, with `n` turns left, and the last
digit. `w` is 5. Only the 33 written entries of the buffer `naf` are read later, so they are the result. -/
def recode (chk : Bool) : (n : Nat) → (sc : List Nat) → Res (List Int)
  | 0, sc => do
    let c ← rd sc 0
    return [asI8 c]
  | n + 1, sc => do
    let c ← rd sc 0
    let d ← subI8 chk (asI8 (c &&& 31)) 16
    let e ← subI8 chk (asI8 c) d
    let rest ← recode chk n (shiftBytes (setFirst sc (asU8 e)))
    return d :: rest

/-- `regular_recoding`, zkcrypto/src/curve/g1.rs:991-1006: `len` is `2 + 127 / 4`, so 32 turns. -/
def regularRecoding (chk : Bool) (sc : List Nat) : Res (List Int) := recode chk 32 sc

/-- `k[0] |= 1`, zkcrypto/src/curve/g1.rs:1047-1050. -/
def makeOdd (k : List Nat) : List Nat := k.set 0 (k.getD 0 0 ||| 1)

section
variable {K : Type} [Field K] [DecidableEq K] [CurveConsts K]

/-- The odd multiples, zkcrypto/src/curve/g1.rs:1012-1014: `n` more points after `p`, each the previous one
plus `d`. -/
def oddMultiples (d : Projective K) : (n : Nat) → Projective K → List (Projective K)
  | 0, _ => []
  | n + 1, p => p.add d :: oddMultiples d n (p.add d)

/-- The table built by `multiply` and `precompute`, zkcrypto/src/curve/g1.rs:1008-1016 and 1037:
`G1_WIDTH` is 5, so it has eight entries. -/
def precompute (p : Projective K) : Res (List (Affine K)) := do
  let rest ← Projective.batchNormalize (oddMultiples p.double 7 p) 7
  return Affine.ofProjective p :: rest

/-- The test of `linear_pass`, zkcrypto/src/curve/g1.rs:1022-1025. -/
def bitsDiffer (j index : Nat) : Nat :=
  let eq := j ^^^ index
  let bit4 := (eq &&& 0xF) ||| (eq / 16)
  let bit2 := (bit4 &&& 0x3) ||| (bit4 / 4)
  (bit2 &&& 0x1) ||| (bit2 / 2)

/-- The loop of `linear_pass`, zkcrypto/src/curve/g1.rs:1021-1027, from entry `j` on. -/
def linearPassFrom (index : Nat) : List (Affine K) → (j : Nat) → Affine K → Affine K
  | [], _, tmp => tmp
  | a :: rest, j, tmp => linearPassFrom index rest (j + 1) (Affine.select tmp a (!decide (bitsDiffer j index = 1)))

/-- `linear_pass`, zkcrypto/src/curve/g1.rs:1018-1029. -/
def linearPass (index : Nat) (table : List (Affine K)) : Affine K :=
  linearPassFrom index table 0 Affine.identity

/-- The table entry for one digit with the sign of the half scalar,
zkcrypto/src/curve/g1.rs:1058-1063 and 1066-1071. -/
def digitPoint (chk : Bool) (table : List (Affine K)) (d s : Int) : Res (Affine K) := do
  let sign : Int := if d < 0 then -1 else 0
  let a ← subI8 chk (xorI8 d sign) sign
  let t := linearPass (asU8 (a / 2)) table
  return Affine.select t t.neg (choiceOf (xorI8 sign s))

/-- `t.x *= BETA`, zkcrypto/src/curve/g1.rs:1072 and 1078. -/
def scaleX (beta : K) (t : Affine K) : Affine K := ⟨t.x * beta, t.y, t.infinity⟩

/-- One turn of the main loop, zkcrypto/src/curve/g1.rs:1055-1074. -/
def multiplyStep (chk : Bool) (beta : K) (table : List (Affine K)) (s1 s2 d1 d2 : Int) (acc : Projective K) :
    Res (Projective K) := do
  let acc := acc.double.double.double.double
  let t ← digitPoint chk table d1 s1
  let acc := acc.addMixed t
  let t ← digitPoint chk table d2 s2
  return acc.addMixed (scaleX beta t)

/-- The main loop, zkcrypto/src/curve/g1.rs:1054-1074, from the last digits to the first. -/
def multiplyLoop (chk : Bool) (beta : K) (table : List (Affine K)) (s1 s2 : Int) :
    List (Int × Int) → Projective K → Res (Projective K)
  | [], acc => .ok acc
  | (d1, d2) :: rest, acc => do
    let acc ← multiplyLoop chk beta table s1 s2 rest acc
    multiplyStep chk beta table s1 s2 d1 d2 acc

/-- `multiply`, zkcrypto/src/curve/g1.rs:1031-1082; the argument has 32 bytes. -/
def multiply (chk : Bool) (beta : K) (p : Projective K) (k : List Nat) : Res (Projective K) := do
  let (s1, k1, s2, k2) ← glvRecoding chk k
  let table ← precompute p
  let bit1 := k1.getD 0 0 % 2
  let bit2 := k2.getD 0 0 % 2
  let naf1 ← regularRecoding chk (makeOdd k1)
  let naf2 ← regularRecoding chk (makeOdd k2)
  let acc ← multiplyLoop chk beta table s1 s2 (naf1.zip naf2) Projective.identity
  let t0 ← rd table 0
  let t := Affine.select t0 t0.neg (choiceOf s1)
  let acc := Projective.select acc (acc.subMixed t) (decide (1 - bit1 = 1))
  let t0 := scaleX beta t0
  let t := Affine.select t0 t0.neg (choiceOf s2)
  return Projective.select acc (acc.subMixed t) (decide (1 - bit2 = 1))

end

end Kzg.Zk.Glv
