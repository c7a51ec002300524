import Verif.Model.Bench
import Verif.Model.Interface
import Verif.Model.GroupInterface
import Verif.Model.KZG
import Verif.Model.Mcl.Kzg
import Verif.Model.Ark.Kzg
/-!
# The shared tests of field elements and points (kzg-bench/src/tests/bls12_381.rs) as programs

Conventions as in `Verif.Model.Bench`. The tests are written over the interfaces (`Verif.Model.Interface`, `Verif.Model.GroupInterface`), so every
call may panic. What a test fixes or draws at random is an argument: numbers, words, lengths and coefficients.
-/

namespace Kzg.Bench
open Kzg Kzg.Iface

/-! ### Numbers -/

/-- `log_2_byte_works`, kzg-bench/src/tests/bls12_381.rs:4-9, for one byte and its expected answer; the test takes 0x01, 0x80, 0xff and 0x10.
The functions of Arkworks/src/fft_g1.rs:216-223 and zkcrypto/src/utils.rs:129-136 have the text of the one of blst-from-scratch (`log2Byte`). -/
def log2ByteT (log2Byte : Nat → Res Nat) (expected byte : Nat) : Res Unit := do
  let r ← log2Byte byte
  assertT (expected == r)

/-! ### Field elements -/

variable {S : Type}

/-- `fr_is_null_works`, kzg-bench/src/tests/bls12_381.rs:11-18. -/
def frNullT (T : FrTrait S) : Res Unit := do
  let one ← T.fromU64 1
  let zero ← T.zero
  let null ← T.null
  let b ← T.isNull zero
  assertT (!b)
  let b ← T.isNull one
  assertT (!b)
  let b ← T.isNull null
  assertT b

/-- `fr_is_zero_works`, kzg-bench/src/tests/bls12_381.rs:20-23; the test takes 0. -/
def frZeroT (T : FrTrait S) (v : Nat) : Res Unit := do
  let zero ← T.fromU64 v
  let b ← T.isZero zero
  assertT b

/-- `fr_is_one_works` and `fr_from_uint64_works`, kzg-bench/src/tests/bls12_381.rs:25-33; the tests take 1. -/
def frOneT (T : FrTrait S) (v : Nat) : Res Unit := do
  let one ← T.fromU64 v
  let b ← T.isOne one
  assertT b

/-- `fr_equal_works`, kzg-bench/src/tests/bls12_381.rs:35-56; the test takes the words of two roots of unity. -/
def frEqualT (T : FrTrait S) (aa bb : List Nat) : Res Unit := do
  let a ← T.fromU64Arr aa
  let b ← T.fromU64Arr bb
  let t ← T.equals a a
  assertT (true == t)
  let t ← T.equals a b
  assertT (false == t)

/-- `fr_negate_works`, kzg-bench/src/tests/bls12_381.rs:58-68; the test takes the words of the modulus less one. -/
def frNegateT (T : FrTrait S) (m1 : List Nat) : Res Unit := do
  let minus1 ← T.fromU64Arr m1
  let res ← T.negate minus1
  let b ← T.isOne res
  assertT b

/-- `fr_pow_works`, kzg-bench/src/tests/bls12_381.rs:70-84; the test takes 197 and 123456. -/
def frPowT (T : FrTrait S) (v pow : Nat) : Res Unit := do
  let a ← T.fromU64 v
  let expected ← T.one
  let expected ← forRange 0 pow expected fun _ expected => T.mul expected a
  let actual ← T.pow a pow
  let b ← T.equals expected actual
  assertT b

/-- `fr_div_works`, kzg-bench/src/tests/bls12_381.rs:86-92; the test takes 197 and 123456. -/
def frDivT (T : FrTrait S) (v w : Nat) : Res Unit := do
  let a ← T.fromU64 v
  let b ← T.fromU64 w
  let tmp ← (T.div a b).unwrap
  let actual ← T.mul tmp b
  let t ← T.equals a actual
  assertT t

/-- `fr_div_by_zero`, kzg-bench/src/tests/bls12_381.rs:95-100; the test takes 197. -/
def frDivByZeroT (T : FrTrait S) (v : Nat) : Res Unit := do
  let a ← T.fromU64 v
  let b ← T.fromU64 0
  let tmp ← (T.div a b).unwrap
  let t ← T.isZero tmp
  assertT t

/-- `fr_uint64s_roundtrip`, kzg-bench/src/tests/bls12_381.rs:102-112; the test takes 1, 2, 3, 4. -/
def frRoundtripT (T : FrTrait S) (expected : List Nat) : Res Unit := do
  let fr ← T.fromU64Arr expected
  let actual ← T.toU64Arr fr
  each 4 fun i => do
    let x ← rd expected i
    let y ← rd actual i
    assertT (x == y)

/-! ### Points -/

variable {E E' : Type}

/-- `p1_mul_works`, kzg-bench/src/tests/bls12_381.rs:114-124; the test takes the words of the modulus less one. -/
def p1MulT (T : FrTrait S) (G : G1Trait S E) (m1 : List Nat) : Res Unit := do
  let minus1 ← T.fromU64Arr m1
  let g ← G.generator
  let res ← G.mul g minus1
  let n ← G.negativeGenerator
  let b ← G.equals res n
  assertT b

/-- `p1_sub_works`, kzg-bench/src/tests/bls12_381.rs:126-130. -/
def p1SubT (G : G1Trait S E) : Res Unit := do
  let g ← G.generator
  let tmp ← G.dbl g
  let g ← G.generator
  let n ← G.negativeGenerator
  let res ← G.sub g n
  let b ← G.equals tmp res
  assertT b

/-- `p2_add_or_dbl_works`, kzg-bench/src/tests/bls12_381.rs:132-136. -/
def p2AddT (G : G2Trait S E) : Res Unit := do
  let g ← G.generator
  let expected ← G.dbl g
  let g ← G.generator
  let g' ← G.generator
  let (_, actual) ← G.addOrDbl g g'
  let b ← G.equals expected actual
  assertT b

/-- `p2_mul_works`, kzg-bench/src/tests/bls12_381.rs:138-149; the test takes the words of the modulus less one. -/
def p2MulT (T : FrTrait S) (G : G2Trait S E) (m1 : List Nat) : Res Unit := do
  let minus1 ← T.fromU64Arr m1
  let g ← G.generator
  let res ← G.mul g minus1
  let n ← G.negativeGenerator
  let b ← G.equals res n
  assertT b

/-- `p2_sub_works`, kzg-bench/src/tests/bls12_381.rs:151-155. -/
def p2SubT (G : G2Trait S E) : Res Unit := do
  let g ← G.generator
  let tmp ← G.dbl g
  let g ← G.generator
  let n ← G.negativeGenerator
  let res ← G.sub g n
  let b ← G.equals tmp res
  assertT b

/-- `g1_identity_is_infinity`, kzg-bench/src/tests/bls12_381.rs:157-159. -/
def g1InfT (G : G1Trait S E) : Res Unit := do
  let i ← G.identity
  let b ← G.isInf i
  assertT b

/-- `g1_identity_is_identity`, kzg-bench/src/tests/bls12_381.rs:161-164. -/
def g1IdT (G : G1Trait S E) : Res Unit := do
  let g ← G.generator
  let i ← G.identity
  let (_, actual) ← G.addOrDbl g i
  let g ← G.generator
  let b ← G.equals actual g
  assertT b

/-- `g1_make_linear_combination`, kzg-bench/src/tests/bls12_381.rs:166-186; the test takes 255. The function under test is an
argument; what it writes to its first argument is its answer here. -/
def makeLinCombT (T : FrTrait S) (G : G1Trait S E) (lc : List E → List S → Nat → Res E) (len : Nat) : Res Unit := do
  let d ← T.default
  let e ← G.default
  let (coeffs, p) ← forRange 0 len (List.replicate len d, List.replicate len e) fun i s => do
    let c ← T.fromU64 (i + 1)
    let coeffs ← wr s.1 i c
    let g ← G.generator
    let p ← wr s.2 i g
    .ok (coeffs, p)
  let tmp ← T.fromU64 (len * (len + 1) / 2)
  let g ← G.generator
  let exp ← G.mul g tmp
  let res ← lc p coeffs len
  let b ← G.equals exp res
  assertT b

/-- `g1_random_linear_combination`, kzg-bench/src/tests/bls12_381.rs:188-212; the test takes 8192 random coefficients. -/
def randomLinCombT (T : FrTrait S) (G : G1Trait S E) (lc : List E → List S → Nat → Res E) (len : Nat) (rand : Nat → Res S) :
    Res Unit := do
  let d ← T.default
  let e ← G.default
  let p1tmp ← G.generator
  let (coeffs, p, _) ← forRange 0 len (List.replicate len d, List.replicate len e, p1tmp) fun i s => do
    let c ← rand i
    let coeffs ← wr s.1 i c
    let p ← wr s.2.1 i s.2.2
    let t ← G.dbl s.2.2
    .ok (coeffs, p, t)
  let exp ← G.identity
  let exp ← forRange 0 len exp fun i exp => do
    let x ← rd p i
    let c ← rd coeffs i
    let p1tmp ← G.mul x c
    let (_, r) ← G.addOrDbl exp p1tmp
    .ok r
  let res ← lc p coeffs len
  let b ← G.equals exp res
  assertT b

/-- `pairings_work`, kzg-bench/src/tests/bls12_381.rs:214-230; the test takes 3 and 5. -/
def pairingsT (T : FrTrait S) (G : G1Trait S E) (H : G2Trait S E') (verify : E → E' → E → E' → Res Bool) (v w : Nat) :
    Res Unit := do
  let three ← T.fromU64 v
  let five ← T.fromU64 w
  let g ← G.generator
  let g13 ← G.mul g three
  let g ← G.generator
  let g15 ← G.mul g five
  let h ← H.generator
  let g23 ← H.mul h three
  let h ← H.generator
  let g25 ← H.mul h five
  let b ← verify g13 g25 g15 g23
  assertT (true == b)
  let b ← verify g13 g23 g15 g25
  assertT (false == b)

/-! ### What the backends hand to these tests -/

/-- `g1_linear_combination`, Arkworks/src/fft_g1.rs:50-57, on coordinates. -/
def arkLinComb {K : Type} [Field K] [DecidableEq K] (L : ArkCurve K) (g n : Jac K) (p : List (Jac K)) (coeffs : List Fr) (len : Nat) :
    Res (Jac K) := do
  let out ← (arkG1 L g n).identity
  forRange 0 len out fun i out => do
    let x ← rd p i
    let c ← rd coeffs i
    let tmp ← (arkG1 L g n).mul x c
    let (_, r) ← (arkG1 L g n).addOrDbl out tmp
    .ok r

/-- `g1_linear_combination` of the tests of mcl-kzg, mcl-kzg/kzg-bench/src/shared_tests/bls12_381.rs:139-148. The library is
given a number and reads as many points and scalars; fewer would be undefined behaviour and are modelled as a panic. -/
def mclLinComb {G1 G2 GT : Type} (B : Mcl.Backend G1 G2 GT) (p : List G1) (coeffs : List Fr) (n : Nat) : Res G1 := do
  let pts ← sliceTo p n
  let scalars ← sliceTo coeffs n
  .ok (B.mulVec pts scalars)

end Kzg.Bench
