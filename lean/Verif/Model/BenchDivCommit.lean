import Verif.Model.BenchPoly
/-!
# The benchmarks of division and of commitments (kzg-bench/src/benches/poly.rs, kzg.rs) as programs

One run is one round of the outer loop up to the first call that is timed; the scale and the random coefficients are arguments, and so are
the settings.
-/

namespace Kzg.Bench
open Kzg Kzg.Iface

variable {F P : Type} [Field F] [DecidableEq F]

/-- `bench_new_poly_div`, kzg-bench/src/benches/poly.rs:6-31, with the random coefficients `x` and `y`; the scales are 6 to 15. -/
def benchPolyDiv (T : PolyTrait F) (scale : Nat) (x y : Nat → F) : Res (List F) := do
  let dividendLength := 2 ^ scale
  let divisorLength := dividendLength / 2
  let dividend ← fillPoly T dividendLength x
  let divisor ← fillPoly T divisorLength y
  let dividend ← fixLead T dividend
  let divisor ← fixLead T divisor
  (T.div dividend divisor).unwrap

/-- `kzg_proof`, kzg-bench/src/benches/kzg.rs:24-29, for settings of width `maxWidth` with the method `commit`, and the random coefficients
`x`; the scales are 1 to 15. -/
def benchCommit (T : PolyTrait F) (commit : List F → Res P) (maxWidth : Nat) (x : Nat → F) : Res P := do
  let poly ← fillPoly T maxWidth x
  (commit poly).unwrap

end Kzg.Bench
