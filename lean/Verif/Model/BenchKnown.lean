import Verif.Model.BenchZero
import Verif.Model.BenchConsts
/-!
# The shared tests with precomputed values (kzg-bench/src/tests/das.rs, zero_poly.rs) as programs

Conventions as in `Verif.Model.Bench`. The tables of expected values, the values to extend, the list of present positions and the lists of
positions are arguments; the ones of the tests are below. `fromWords` is `Fr::from_u64_arr`. Simplified: polynomials that the tests
fill coefficient by coefficient are made in one loop each.
-/

namespace Kzg.Bench
open Kzg

variable {F : Type} [Field F] [DecidableEq F]

/-- The expected values of a table, read one by one. -/
def readRows (fromWords : List Nat → Res F) (n : Nat) (rows : List (List Nat)) : Res (List F) := tab n fun i => do
  let row ← rd rows i
  fromWords row

/-- `das_extension_test_known`, kzg-bench/src/tests/das.rs:4-33; the test takes `from_u64(i)` for `value i`, and scale 4. -/
def dasKnownT (A : RecApi F) (fromWords : List Nat → Res F) (value : Nat → F) (expected : List (List Nat)) : Res Unit := do
  let evens ← tab (A.maxWidth / 2) fun i => .ok (value i)
  let odds ← (A.das evens).unwrap
  each expected.length fun i => do
    let row ← rd expected i
    let e ← fromWords row
    let o ← rd odds i
    assertT (e == o)

/-- `check_test_data`, kzg-bench/src/tests/zero_poly.rs:151-181; the test writes 16 for the width and 8 for its half. -/
def checkDataT (A : ZeroApi F) (fromWords : List Nat → Res F) (present : List Bool) (ev po : List (List Nat)) : Res Unit := do
  let expectedEval ← readRows fromWords A.maxWidth ev
  let expectedPoly ← readRows fromWords A.maxWidth po
  each A.maxWidth fun i => do
    let b ← rd present i
    if b then .ok () else do
      let r ← A.rootAt i
      let tmp ← A.eval expectedPoly r
      assertT (tmp == 0)
  eachFrom 1 (A.maxWidth / 2) fun i => do
    let r ← A.rootAt i
    let tmp ← A.eval expectedEval r
    assertT (tmp == 0)
  let back ← (A.fft expectedEval true).unwrap
  each A.maxWidth fun i => do
    let b ← rd back i
    let c ← rd expectedPoly i
    assertT (b == c)

/-- `zero_poly_known`, kzg-bench/src/tests/zero_poly.rs:184-214; the test writes 16 for the width. -/
def zeroKnownT (A : ZeroApi F) (fromWords : List Nat → Res F) (present : List Bool) (ev po : List (List Nat)) : Res Unit := do
  let expectedEval ← readRows fromWords A.maxWidth ev
  let expectedPoly ← readRows fromWords A.maxWidth po
  let missing ← forRange 0 A.maxWidth [] fun i v => do
    let b ← rd present i
    .ok (if b then v else v ++ [i])
  let (zeroEval, zeroPoly) ← (A.zero A.maxWidth missing).unwrap
  each expectedEval.length fun i => do
    let e ← rd expectedEval i
    let z ← rd zeroEval i
    assertT (e == z)
    let c ← rd expectedPoly i
    let p ← rd zeroPoly i
    assertT (c == p)

/-- `test_reduce_partials`, kzg-bench/src/tests/zero_poly.rs:55-85; the test writes 16 for the width and 9 for the number of coefficients. What is
done with two coefficients is an argument, as in `reduceRandom`: the test drops the result of `equals`. -/
def reduceT (A : ZeroApi F) (compare : F → F → Res Unit) (parts : List (List Nat)) (idxs : List Nat) : Res Unit := do
  let partials ← tab parts.length fun i => do
    let p ← rd parts i
    (A.part p 1).unwrap
  let tree ← (A.reduce A.maxWidth partials).unwrap
  let direct ← (A.part idxs 1).unwrap
  each (idxs.length + 1) fun i => do
    let a ← rd tree i
    let b ← rd direct i
    compare a b

/-! ### The tables of the tests -/

/-- `expected_u`, kzg-bench/src/tests/das.rs:5-15. -/
def dasRows : List (List Nat) := [
  [0xa0c43757db972d7d, 0x79d15a1e0677962c, 0xf678865c0c95fa6a, 0x4e85fd4814f96825],
  [0xad9f844939f2705d, 0x319e440c9f3b0325, 0x4cbd29a60e160a28, 0x665961d85d90c4c0],
  [0x5f3ac8a72468d28b, 0xede949e28383c5d2, 0xaf6f84dd8708d8c9, 0x2567aa0b14a41521],
  [0x25abe312b96aadad, 0x4abf043f091ff417, 0x43824b53e09536db, 0x195dbe06a28ca227],
  [0x5f3ac8a72468d28b, 0xede949e28383c5d2, 0xaf6f84dd8708d8c9, 0x2567aa0b14a41521],
  [0xad9f844939f2705d, 0x319e440c9f3b0325, 0x4cbd29a60e160a28, 0x665961d85d90c4c0],
  [0xa0c43757db972d7d, 0x79d15a1e0677962c, 0xf678865c0c95fa6a, 0x4e85fd4814f96825],
  [0x7f171458d2b071a9, 0xd185bbb2a46cbd9b, 0xa41aab0d02886e80, 0x01cacceef58ccee9]]

/-- `EXISTS`, kzg-bench/src/tests/zero_poly.rs:6-12. -/
def existsTable : List Bool := [
  true, false, false, true,
  false, true, true, false,
  false, false, true, true,
  false, true, false, true]

/-- `EXPECTED_EVAL_U64`, kzg-bench/src/tests/zero_poly.rs:14-31. -/
def evalRows : List (List Nat) := [
  [0xfd5a5130b97ce0c3, 0xb4748a4cb0f90e6d, 0x12a1ab34b25b18c1, 0x5a5ac0c81c9f7ea8],
  [0x0000000000000000, 0x0000000000000000, 0x0000000000000000, 0x0000000000000000],
  [0x0000000000000000, 0x0000000000000000, 0x0000000000000000, 0x0000000000000000],
  [0xaa385cbce3dd1657, 0x2fdab57a38bdb514, 0x20e022e205dafa53, 0x14077dd3f5d996b1],
  [0x0000000000000000, 0x0000000000000000, 0x0000000000000000, 0x0000000000000000],
  [0x194018614b6f7276, 0xdf2b18f870532376, 0x1ff427cd5b583fe6, 0x014d6444ff03dd09],
  [0xcc84c2de684c0dde, 0xf1e7ab32aa830d02, 0x967bf35a2a691f20, 0x046109731cdf0d3c],
  [0x0000000000000000, 0x0000000000000000, 0x0000000000000000, 0x0000000000000000],
  [0x0000000000000000, 0x0000000000000000, 0x0000000000000000, 0x0000000000000000],
  [0x0000000000000000, 0x0000000000000000, 0x0000000000000000, 0x0000000000000000],
  [0x96cddd2924212afb, 0xeaa4c1f51421d8d8, 0x3ae969cfa34d0ed1, 0x6b6c5e876bc3916d],
  [0x449310802f74ad49, 0x47c940979163037a, 0x10d311564afb9b2a, 0x269b8531c369bafb],
  [0x0000000000000000, 0x0000000000000000, 0x0000000000000000, 0x0000000000000000],
  [0xd9af75fe35c16cf1, 0x068bb140cea92f75, 0xe769811965e10a47, 0x48ed97e6745612f2],
  [0x0000000000000000, 0x0000000000000000, 0x0000000000000000, 0x0000000000000000],
  [0x7ef1f59bb1677685, 0x33a637296680e8ce, 0xaaf62b3f6e016709, 0x454a299178a4dba9]]

/-- `EXPECTED_POLY_U64`, kzg-bench/src/tests/zero_poly.rs:33-50. -/
def polyRows : List (List Nat) := [
  [0xac159e2688bd4333, 0x3bfef0f00df2ec88, 0x561dcd0fd4d314d9, 0x533bd8c1e977024e],
  [0x18bc6eedc010ef8d, 0xc731a3eb4ea2ab70, 0x5c2589357ae121a8, 0x04f9108d308f7016],
  [0x232759f49556ac08, 0x9776fe2e9f4c613c, 0x74d5bed4eb2de960, 0x1f6cf6719bfa0e68],
  [0xf2f3461e8ab1ae34, 0xeb220fcc11ef1c80, 0x7a4637d3a637739b, 0x19901a58cd177c53],
  [0x9340f62465a1f4fe, 0xd9cb3ea6de494a11, 0xee92ebc763cdff5d, 0x5443e89811b5b9f5],
  [0x269a255e2e4e48a4, 0xfadae7a89d9b2f2b, 0xb5515799b41e1a88, 0x2e990979a0ffcee5],
  [0x1c2f3a5759088c29, 0x2a958d654cf1795f, 0x9ca121fa43d152d1, 0x1425239535953093],
  [0x4c634e2d63ad89fd, 0xd6ea7bc7da4ebe1a, 0x9730a8fb88c7c895, 0x1a01ffae0477c2a8],
  [0x0000000000000001, 0x0000000000000000, 0x0000000000000000, 0x0000000000000000],
  [0x0000000000000000, 0x0000000000000000, 0x0000000000000000, 0x0000000000000000],
  [0x0000000000000000, 0x0000000000000000, 0x0000000000000000, 0x0000000000000000],
  [0x0000000000000000, 0x0000000000000000, 0x0000000000000000, 0x0000000000000000],
  [0x0000000000000000, 0x0000000000000000, 0x0000000000000000, 0x0000000000000000],
  [0x0000000000000000, 0x0000000000000000, 0x0000000000000000, 0x0000000000000000],
  [0x0000000000000000, 0x0000000000000000, 0x0000000000000000, 0x0000000000000000],
  [0x0000000000000000, 0x0000000000000000, 0x0000000000000000, 0x0000000000000000]]

end Kzg.Bench
