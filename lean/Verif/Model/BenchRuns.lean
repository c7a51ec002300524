import Verif.Model.BenchRecover
import Verif.Model.BenchZero
/-!
# The benchmarks of recovery and of zero polynomials (kzg-bench/src/benches/recover.rs, zero_poly.rs) as programs

One run is one round of the outer loop up to the first call that is timed, with the settings as argument, as in `Verif.Model.BenchRecover`
and `Verif.Model.BenchZero`. The random numbers drawn are a list; the loop that draws positions may need more of them than there are, in
which case the program is still running, which is the answer `none`.
-/

namespace Kzg.Bench
open Kzg

variable {F : Type} [Field F] [DecidableEq F]

/-- The loops that erase half of the samples, kzg-bench/src/benches/recover.rs:32-38, with `left` positions to erase and the random numbers
`draws` to come: the inner loop draws again while the position is erased already. The two loops are one recursion here. -/
def drawErase (width : Nat) : (left : Nat) → List (Option F) → (draws : List Nat) → Res (Option (List (Option F)))
  | 0, w, _ => .ok (some w)
  | _ + 1, _, [] => .ok none
  | left + 1, w, d :: draws => do
    let x ← rd w (d % width)
    match x with
    | none => drawErase width (left + 1) w draws
    | some _ => do
      let w ← wr w (d % width) none
      drawErase width left w draws

/-- `bench_recover`, kzg-bench/src/benches/recover.rs:17-42; `coeffs` are the images of `0, 1, 2, …` under `from_u64`. -/
def benchRecover (A : RecApi F) (coeffs : List F) (draws : List Nat) : Res (Option (List F)) := do
  let poly ← forRange 0 (A.maxWidth / 2) (List.replicate A.maxWidth 0) fun i v => do
    let c ← rd coeffs i
    wr v i c
  let data ← (A.fft poly false).unwrap
  let samples ← tab A.maxWidth fun i => do
    let x ← rd data i
    .ok (some x)
  let s ← drawErase A.maxWidth (A.maxWidth / 2) samples draws
  match s with
  | none => .ok none
  | some samples => do
    let r ← (A.recover samples).unwrap
    .ok (some r)

/-- `bench_zero_poly`, kzg-bench/src/benches/zero_poly.rs:15-25, with the shuffled positions `order`; the answer of the timed call is
dropped, so an error would be timed like a result. -/
def benchZeroPoly (A : ZeroApi F) (order : List Nat) : Res (List F × List F) := do
  let size := A.maxWidth
  let missing ← sliceTo order (size / 2)
  A.zero size missing

end Kzg.Bench
