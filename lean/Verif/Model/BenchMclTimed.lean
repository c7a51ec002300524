import Verif.Model.Mcl.Das
import Verif.Model.Mcl.Kzg
/-!
# The benchmarks of its own that mcl-kzg has (mcl-kzg/kzg-bench/benches) as programs

What a benchmark draws or fixes is an argument. The entries of these files are commented out (mcl-kzg/kzg-bench/Cargo.toml:46-64), so they are
not run as benchmarks at present. The text of the other ones, of proofs (bench_proof_gen.rs, bench_proof_check.rs), is a comment itself.
-/

namespace Kzg.Bench
open Kzg Kzg.Mcl

section
variable {F M : Type} [Field F] [DecidableEq F] [Tables F] [Lib F]

/-- `_fft_fr`, mcl-kzg/kzg-bench/benches/bench_fft.rs:16-21, up to the first call that is timed; the scales are 4 to 15. -/
def mclFftTimed (scale : Nat) (x : Nat → F) : Res (List F) := do
  let settings ← Mcl.FFTSettings.new5 (F := F) scale
  let data := (List.range (settings.maxWidth >>> 1)).map x
  Mcl.fft settings data false

/-- `_fft_g1`, mcl-kzg/kzg-bench/benches/bench_fft.rs:30-37, up to the first call that is timed, with the generator `g`. -/
def mclFftG1Timed [AddCommGroup M] [Module F M] (g : M) (scale : Nat) (x : Nat → F) : Res (List M) := do
  let settings ← Mcl.FFTSettings.new5 (F := F) scale
  let data := (List.range (settings.maxWidth >>> 1)).map fun i => x i • g
  Mcl.fftG1 settings data false

/-- `_set_up_and_bench`, mcl-kzg/kzg-bench/benches/bench_das.rs:14-19: the data after `runs` calls. Every call takes the same vector and
leaves its result in it. -/
def mclDasTimed (scale : Nat) (x : Nat → F) (runs : Nat) : Res (List F) := do
  let settings ← Mcl.FFTSettings.new5 (F := F) scale
  let data := (List.range (settings.maxWidth >>> 1)).map x
  forRange 0 runs data fun _ data => Mcl.das settings data

end

/-- `bench_simple_commit` and `bench_large_commit`, mcl-kzg/kzg-bench/benches/bench_commits.rs:8-16 and 18-25, up to the first call that is
timed. -/
def mclCommitTimed {G1 G2 GT : Type} [AddCommGroup G1] [Module Fr G1] [AddCommGroup G2] [Module Fr G2] (B : Mcl.Backend G1 G2 GT) (g1 : G1) (g2 : G2)
    (secret : Fr) (poly : List Fr) : Res G1 := do
  let curve ← curveNew g1 g2 secret poly.length
  Mcl.commit B curve.1 poly

end Kzg.Bench
