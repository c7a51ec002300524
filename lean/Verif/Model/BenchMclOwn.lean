import Verif.Model.BenchRecover
import Verif.Model.Mcl.FK20
/-!
# The tests of its own that mcl-kzg has for polynomials and settings (mcl-kzg/kzg-bench/src/poly.rs, fft_common.rs) as programs

What a test fixes is an argument. `Fr::from_int` is the image of the integer, and elements that the tests compare as decimal strings are
compared as elements; that the library prints each element in one way is part of the trusted base.
-/

namespace Kzg.Bench
open Kzg Kzg.Mcl

section
variable {F : Type} [Field F] [DecidableEq F]

/-- `Polynomial::from_i32`, mcl-kzg/kzg/src/kzg10.rs:226-230. -/
def fromI32 (cs : List Int) : List F := cs.map fun c : Int => (c : F)

/-- `polynomial_eval_at_should_specific_value_given_exact_inputs` and `poly_eval_0_check`, mcl-kzg/kzg-bench/src/poly.rs:18-30 and 48-67. -/
def mclEvalTest (cs : List Int) (x : Int) (expected : F) : Res Unit := do
  let p := fromI32 cs
  assertT (evalAt p (x : F) == expected)

/-- `extend_poly_appends_fr_zero`, mcl-kzg/kzg-bench/src/poly.rs:32-46; the test takes the size 8. -/
def mclExtendTest (cs : List Int) (size : Nat) (expected : List F) : Res Unit := do
  let extended := extend (fromI32 cs) size
  each (min expected.length size) fun i => do
    let item ← rd expected i
    let c ← rd extended i
    assertT (item == c)

variable [Lib F]

/-- One round of `poly_test_long_division`, mcl-kzg/kzg-bench/src/poly.rs:104-122; the comparison of coefficients starts at 1. -/
def mclLongDivTest (dividend divisor expected : List F) : Res Unit := do
  let result ← (longDivision dividend divisor).unwrap
  assertT (expected.length == result.length)
  eachFrom 1 result.length fun j => do
    let x ← rd result j
    let y ← rd expected j
    assertT (x == y)

/-- `poly_div_by_zero`, mcl-kzg/kzg-bench/src/poly.rs:128-141; the test divides `1 + X` by the list `[0]`. -/
def mclDivByZeroTest (dividend divisor : List F) : Res Unit :=
  match longDivision dividend divisor with
  | .err _ => .ok ()
  | .ok _ => .panic
  | .panic => .panic

end

/-- `fftsettings_new_creates_valid_settings`, mcl-kzg/kzg-bench/src/fft_common.rs:8-41; the test takes the scale 10 and four values. `zip`
stops at the shorter list. -/
def mclRootsTest {F : Type} [Field F] [DecidableEq F] [Tables F] (scale : Nat) (expected : List F) : Res Unit := do
  let fs ← Mcl.FFTSettings.new5 scale
  assertT ((fs.expandedRoots.zip expected).all fun ab => ab.1 == ab.2)

end Kzg.Bench
