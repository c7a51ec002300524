import Verif.Model.BenchFft
/-!
# The benchmarks of transforms and of the extension (kzg-bench/src/benches/fft.rs, das.rs) as programs

`vec![TFr::rand(); n]` evaluates its argument once and clones the value, so that a run draws one random element; it is the argument `x`. One
run is one round of the outer loop up to the first call that is timed. The answer of that call is dropped, so an error would be timed like a
result.
-/

namespace Kzg.Bench
open Kzg

variable {F M : Type}

/-- `bench_fft_fr`, kzg-bench/src/benches/fft.rs:6-9 (scales 4 to 15), and `bench_fft_g1`, kzg-bench/src/benches/fft.rs:17-20 (scales 4 to
7). -/
def benchFft (A : FftApi F M) (scale : Nat) (x : M) : Res (List M) := do
  let fs ← (A.new scale).unwrap
  let data := List.replicate fs.maxWidth x
  A.fft fs data false

/-- `bench_das_extension`, kzg-bench/src/benches/das.rs:7-9, with the settings in `A`; the scales are 4 to 15. -/
def benchDas (A : RecApi F) (x : F) : Res (List F) :=
  let data := List.replicate (A.maxWidth / 2) x
  A.das data

end Kzg.Bench
