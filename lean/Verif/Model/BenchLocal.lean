import Verif.Model.BenchFft
import Verif.Model.BenchPoly
/-!
# The local tests of blst-from-scratch that are switched off (blst-from-scratch/tests/local_tests) as programs

The modules with these tests are commented out (blst-from-scratch/tests/poly.rs:1-2,12-78 and consts.rs:40-44). Most are copies of the shared
tests; the two that are not are modelled here, with what they fix or draw as arguments. The first is written against the interface, so it
can be run with any backend.
-/

namespace Kzg.Bench
open Kzg Kzg.Iface

variable {F : Type} [Field F] [DecidableEq F]

/-- `roots_of_unity_repeat_at_stride`, blst-from-scratch/tests/local_tests/local_consts.rs:3-16; the test takes the scale 15. -/
def rootsRepeat (new : Nat → Res (FFTSettings F)) (scale : Nat) : Res Unit := do
  let fs1 ← (new scale).unwrap
  let fs2 ← (new (scale + 1)).unwrap
  let fs3 ← (new (scale + 2)).unwrap
  each fs1.maxWidth fun i => do
    let a ← rd fs1.expandedRoots i
    let b ← rd fs2.expandedRoots (i * 2)
    assertT (a == b)
    let a ← rd fs1.expandedRoots i
    let c ← rd fs3.expandedRoots (i * 4)
    assertT (a == c)

/-- One round of `poly_pad_works_rand`, blst-from-scratch/tests/local_tests/local_poly.rs:17-29, for a polynomial of length `n` padded to
`outLength`; the test draws lengths from 1 to 1000 and pads to 1000. -/
def padWorks (T : PolyTrait F) (n outLength : Nat) (x : Nat → F) : Res Unit := do
  let poly ← fillPoly T n x
  let padded ← polyPad poly outLength
  each n fun i => do
    let a ← T.getCoeffAt padded i
    let b ← T.getCoeffAt poly i
    assertT (a == b)
  eachFrom n outLength fun i => do
    let a ← T.getCoeffAt padded i
    assertT (a == 0)

end Kzg.Bench
