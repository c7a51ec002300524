import Verif.Model.BenchRecover
import Verif.Model.PolyInterface
/-!
# The shared tests of polynomials (kzg-bench/src/tests/poly.rs) as programs

Conventions as in `Verif.Model.Bench`. What a test fixes or draws at random is an argument: lengths, coefficients and expected
coefficients. The polynomials are those of the interface (`Verif.Model.PolyInterface`); the field elements are compared and negated in the
field.
-/

namespace Kzg.Bench
open Kzg Kzg.Iface

variable {F : Type} [Field F] [DecidableEq F]

/-- `TPoly::new(n).unwrap()` and a loop of `set_coeff_at`, e.g. kzg-bench/src/tests/poly.rs:12-16. -/
def fillPoly (T : PolyTrait F) (n : Nat) (coeff : Nat → F) : Res (List F) := do
  let p ← (T.new n).unwrap
  forRange 0 n p fun i p => T.setCoeffAt p i (coeff i)

/-- The comparison of coefficients, e.g. kzg-bench/src/tests/poly.rs:148-150. -/
def sameCoeffs (T : PolyTrait F) (expected actual : List F) : Res Unit := do
  let n ← T.len actual
  each n fun i => do
    let x ← T.getCoeffAt expected i
    let y ← T.getCoeffAt actual i
    assertT (x == y)

/-- `assert_eq!(a.len(), b.len())`, e.g. kzg-bench/src/tests/poly.rs:147. -/
def sameLen (T : PolyTrait F) (a b : List F) : Res Unit := do
  let m ← T.len a
  let n ← T.len b
  assertT (m == n)

/-- `assert!(result.is_ok())` and `unwrap`, e.g. kzg-bench/src/tests/poly.rs:144-145. -/
def okAnd (r : Res (List F)) : Res (List F) := match r with
  | .ok p => .ok p
  | .err _ => .panic
  | .panic => .panic

/-- `create_poly_of_length_ten`, kzg-bench/src/tests/poly.rs:5-8; the test takes 10. -/
def createPoly (T : PolyTrait F) (n : Nat) : Res Unit := do
  let p ← (T.new n).unwrap
  let m ← T.len p
  assertT (m == n)

/-- `poly_eval_check`, kzg-bench/src/tests/poly.rs:10-20; the test takes 10. -/
def evalCheck (T : PolyTrait F) (n : Nat) : Res Unit := do
  let p ← fillPoly T n fun i => ((i + 1 : Nat) : F)
  let actual ← T.eval p 1
  assertT (((n * (n + 1) / 2 : Nat) : F) == actual)

/-- `poly_eval_0_check`, kzg-bench/src/tests/poly.rs:22-33; the test takes 7 and 597. -/
def evalZeroCheck (T : PolyTrait F) (n a : Nat) : Res Unit := do
  let p ← fillPoly T n fun i => ((i + a : Nat) : F)
  let actual ← T.eval p 0
  assertT ((a : F) == actual)

/-- `poly_eval_nil_check`, kzg-bench/src/tests/poly.rs:35-40. -/
def evalNilCheck (T : PolyTrait F) : Res Unit := do
  let p ← (T.new 0).unwrap
  let actual ← T.eval p 1
  assertT (actual == 0)

/-- `poly_inverse_simple_0`, kzg-bench/src/tests/poly.rs:42-56; the test takes 16. -/
def inverseSimple0 (T : PolyTrait F) (d : Nat) : Res Unit := do
  let p ← (T.new 2).unwrap
  let p ← T.setCoeffAt p 0 1
  let p ← T.setCoeffAt p 1 1
  let c ← T.getCoeffAt p 1
  let p ← T.setCoeffAt p 1 (-c)
  let q ← okAnd (T.inverse p d)
  each d fun i => do
    let c ← T.getCoeffAt q i
    assertT (c == 1)

/-- `poly_inverse_simple_1`, kzg-bench/src/tests/poly.rs:58-75; the test takes 16. -/
def inverseSimple1 (T : PolyTrait F) (d : Nat) : Res Unit := do
  let p ← (T.new 2).unwrap
  let p ← T.setCoeffAt p 0 1
  let p ← T.setCoeffAt p 1 1
  let q ← okAnd (T.inverse p d)
  each d fun i => do
    let c ← T.getCoeffAt q i
    assertT ((if i &&& 1 ≠ 0 then -c else c) == 1)

/-- `new_test_poly`, kzg-bench/src/tests/poly.rs:121-135; `-coeff` of an `i32` that is not the least one. -/
def testPoly (T : PolyTrait F) (coeffs : List Int) : Res (List F) := do
  let p ← (T.new coeffs.length).unwrap
  forRange 0 coeffs.length p fun i p => do
    let c ← rd coeffs i
    if 0 ≤ c then T.setCoeffAt p i ((c.toNat : Nat) : F) else T.setCoeffAt p i (-(((-c).toNat : Nat) : F))

/-- One round of `poly_test_div`, `poly_div_long_test` or `poly_div_fast_test`, kzg-bench/src/tests/poly.rs:137-155, 332-353 and 355-376;
`div` is the method of the test. The first asserts `is_ok` before `unwrap`, the others do not. -/
def divCase (T : PolyTrait F) (div : List F → List F → Res (List F)) (dividend divisor expected : List Int) : Res Unit := do
  let a ← testPoly T dividend
  let b ← testPoly T divisor
  let e ← testPoly T expected
  let actual ← okAnd (div a b)
  sameLen T e actual
  sameCoeffs T e actual

/-- `poly_div_by_zero`, kzg-bench/src/tests/poly.rs:157-168; the test takes `1, 1`. -/
def divByZero (T : PolyTrait F) (dividend : List Int) : Res Unit := do
  let a ← testPoly T dividend
  let b ← (T.new 0).unwrap
  match T.div a b with
  | .err _ => .ok ()
  | _ => .panic

/-- `poly_mul_direct_test` and `poly_mul_fft_test`, kzg-bench/src/tests/poly.rs:170-197 and 199-231; `mul` is the method of the test. -/
def mulCase (T : PolyTrait F) (mul : List F → List F → Nat → Res (List F)) (x y expected : List Int) (len : Nat) : Res Unit := do
  let a ← testPoly T x
  let b ← testPoly T y
  let e ← testPoly T expected
  let r0 ← okAnd (mul a b len)
  sameCoeffs T e r0
  let r1 ← okAnd (mul b a len)
  sameCoeffs T e r1

/-- "Ensure that the polynomials' orders corresponds to their lengths", e.g. kzg-bench/src/tests/poly.rs:258-261. -/
def fixLead (T : PolyTrait F) (p : List F) : Res (List F) := do
  let n ← T.len p
  let k ← subU n 1
  let c ← T.getCoeffAt p k
  if c = 0 then T.setCoeffAt p k 1 else .ok p

/-- One round of `poly_mul_random`, kzg-bench/src/tests/poly.rs:233-284, with the lengths and coefficients that it draws. -/
def mulRandom (T : PolyTrait F) (m n out : Nat) (x y : Nat → F) : Res Unit := do
  let a ← fillPoly T m x
  let b ← fillPoly T n y
  let a ← fixLead T a
  let b ← fixLead T b
  let r0 ← okAnd (T.mulDirect a b out)
  let r1 ← okAnd (T.mulFft a b out none)
  sameLen T r0 r1
  sameCoeffs T r1 r0

/-- One round of `poly_div_random`, kzg-bench/src/tests/poly.rs:286-330, with the lengths and coefficients that it draws. -/
def divRandom (T : PolyTrait F) (m n : Nat) (x y : Nat → F) : Res Unit := do
  let a ← fillPoly T m x
  let b ← fillPoly T n y
  let a ← fixLead T a
  let b ← fixLead T b
  let r0 ← okAnd (T.longDiv a b)
  let r1 ← okAnd (T.fastDiv a b)
  sameLen T r0 r1
  sameCoeffs T r1 r0

/-- `test_data`, kzg-bench/src/tests/poly.rs:77-119. -/
def divTable : List (List Int × List Int × List Int) :=
  [([-1, 0, 1], [1, 1], [-1, 1]), ([18, 9, -11, 12], [3, 4], [6, -5, 3]), ([1, 1], [-1, 0, 2], []), ([30, 20, 10], [10], [3, 2, 1]),
   ([0, 1, 1], [1, 1], [0, 1]), ([1, 1, 1], [1], [1, 1, 1]), ([1, 1, 1], [1, 0], [1, 1, 1])]

end Kzg.Bench
