import Verif.Model.BenchFr
import Verif.Model.BenchFft
import Verif.Model.SettingsInterface
import Verif.Model.Ckzg.Utils
/-!
# The shared tests of the tables of roots (kzg-bench/src/tests/consts.rs) as programs

As in `Verif.Model.Bench`: what a test fixes is an argument, a failed assertion is a panic. `new` is the one of the trait
(`Kzg.Iface.FftTrait`). Field elements are those of the models of the transforms, and `fromWords` is `Fr::from_u64_arr`.

Shifts are those of a build with overflow checks, as tests are run.
-/

namespace Kzg.Bench
open Kzg Kzg.Iface

variable {F : Type} [Field F] [DecidableEq F]

/-- `roots_of_unity_is_the_expected_size`, kzg-bench/src/tests/consts.rs:3-5. -/
def rootsSizeT (roots : List (List Nat)) : Res Unit := assertT (roots.length == 32)

omit [Field F] [DecidableEq F] in
/-- `roots_of_unity_out_of_bounds_fails`, kzg-bench/src/tests/consts.rs:7-10; the test takes scale 32. -/
def outOfBoundsT (T : FftTrait F) (scale : Nat) : Res Unit :=
  match T.new scale with
  | .ok _ => assertT false
  | .err _ => assertT true
  | .panic => .panic

/-- `roots_of_unity_are_plausible`, kzg-bench/src/tests/consts.rs:13-22. -/
def rootsPlausibleT (fromWords : List Nat → Res F) (roots : List (List Nat)) : Res Unit := each 32 fun i => do
  let row ← rd roots i
  let r ← fromWords row
  let r ← forRange 0 i r fun _ r => .ok (r * r)
  assertT (decide (r = 1))

/-- `expand_roots_is_plausible`, kzg-bench/src/tests/consts.rs:25-43; the test takes scale 15. -/
def expandPlausibleT (fromWords : List Nat → Res F) (expand : F → Nat → Res (List F)) (roots : List (List Nat)) (scale : Nat) :
    Res Unit := do
  let width ← shlU 1 scale
  let row ← rd roots scale
  let root ← fromWords row
  let expanded ← (expand root width).unwrap
  let x ← rd expanded 0
  assertT (decide (x = 1))
  let x ← rd expanded width
  assertT (decide (x = 1))
  each (width / 2 + 1) fun i => do
    let x ← rd expanded i
    let y ← rd expanded (width - i)
    assertT (decide (x * y = 1))

/-- `new_fft_settings_is_plausible`, kzg-bench/src/tests/consts.rs:46-59; the test takes scale 21. -/
def settingsPlausibleT (T : FftTrait F) (scale : Nat) : Res Unit := do
  let width ← shlU 1 scale
  let fs ← (T.new scale).unwrap
  let w ← T.getMaxWidth fs
  assertT (w == width)
  each width fun i => do
    let x ← T.getExpandedAt fs i
    let y ← T.getReverseAt fs i
    assertT (decide (x * y = 1))

/-! ### What the backends hand in -/

/-- `blsScalar::from_u64_arr`, zkcrypto/src/zkfr.rs:50-53, as `Kzg.Iface.zk.fromU64Arr`, on scalars that are known to be reduced. -/
def zkFromWords (u : List Nat) : Res Zk.ScW := .ok (Zk.ScW.ofRow u)

/-- `expand_root_of_unityarr`, mcl-kzg/kzg-bench/src/shared_tests/consts.rs:11-13: the width is not used. -/
def mclExpand (root : F) (_width : Nat) : Res (List F) := Mcl.expandRoot root

/-- The table that mcl-kzg/kzg-bench/src/shared_tests/consts.rs:26-30 and 39-43 make from the statics after `init_globals`: 32 rows of zeros,
overwritten with the words of the entries. -/
def mclRows [Mcl.Lib Fr] (g : Mcl.Globals Fr) : Res (List (List Nat)) :=
  let table := (Mcl.initGlobals g).table
  forRange 0 table.length (List.replicate 32 [0, 0, 0, 0]) fun i arr => do
    let x ← rd table i
    let u ← Iface.mcl.toU64Arr x
    wr arr i u

end Kzg.Bench
