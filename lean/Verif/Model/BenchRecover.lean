import Verif.Model.Bench
import Verif.Model.DAS
import Verif.Model.Recovery
import Verif.Model.Zk.Kzg
import Verif.Model.Mcl.Das
import Verif.Model.Ark.Das
import Verif.Model.Zk.ZeroPoly
import Verif.Model.Mcl.ZeroPoly
import Verif.Model.Ark.ZeroPoly
/-!
# The shared tests of recovery and of the extension (kzg-bench/src/tests/recover.rs, das.rs) as programs

Conventions as in `Verif.Model.Bench`. The shuffled list of positions of `random_missing` is an argument, and so are the coefficients (the
tests take `0, 1, 2, …`), the number of known values (a rounded product of floating-point numbers in the test) and the values to extend
(random in the test). `get_coeff_at` of the recovered polynomial reads the list of its coefficients (C153).
-/

namespace Kzg.Bench
open Kzg

/-- What these tests call: `get_max_width` (kzg/src/lib.rs:125), `fft_fr` (kzg/src/lib.rs:92), `recover_poly_from_samples`
(kzg/src/lib.rs:176) and `das_fft_extension` (kzg/src/lib.rs:100). -/
structure RecApi (F : Type) where
  maxWidth : Nat
  fft : List F → Bool → Res (List F)
  recover : List (Option F) → Res (List F)
  das : List F → Res (List F)

variable {F : Type} [Field F] [DecidableEq F]

/-- `for i in lo..hi { … }` without state. -/
def eachFrom (lo hi : Nat) (body : Nat → Res Unit) : Res Unit := forRange lo hi () fun i _ => body i

/-- `random_missing`, kzg-bench/src/tests/recover.rs:108-126, with the shuffled positions `order`. -/
def randomMissing (data : List F) (order : List Nat) (lenData known : Nat) : Res (List (Option F)) := do
  let withMissing ← tab lenData fun i => do
    let x ← rd data i
    .ok (some x)
  let n ← subU lenData known
  forRange 0 n withMissing fun i w => do
    let j ← rd order i
    wr w j none

/-- The samples of `recover_simple`, kzg-bench/src/tests/recover.rs:31. -/
def simpleMissing (data : List F) : Res (List (Option F)) := do
  let a ← rd data 0
  let b ← rd data 3
  .ok [some a, none, none, some b]

/-- The common part of `recover_simple` and `recover_random`, kzg-bench/src/tests/recover.rs:17-54 and 64-101: the coefficients fill the lower
half, `missing` makes the samples from the values. -/
def recoverRun (A : RecApi F) (coeffs : List F) (missing : List F → Res (List (Option F))) : Res Unit := do
  let poly ← forRange 0 (A.maxWidth / 2) (List.replicate A.maxWidth 0) fun i v => do
    let c ← rd coeffs i
    wr v i c
  let data ← (A.fft poly false).unwrap
  let samples ← missing data
  let recovered ← (A.recover samples).unwrap
  each A.maxWidth fun i => do
    let d ← rd data i
    let r ← rd recovered i
    assertT (d == r)
  let recoveredVec ← tab A.maxWidth fun i => rd recovered i
  let back ← (A.fft recoveredVec true).unwrap
  each (A.maxWidth / 2) fun i => do
    let d ← rd poly i
    let r ← rd back i
    assertT (d == r)
  eachFrom (A.maxWidth / 2) A.maxWidth fun i => do
    let d ← rd poly i
    assertT (d == 0)

/-- `recover_random`, kzg-bench/src/tests/recover.rs:57-106, one round of the inner loop. -/
def recoverRandom (A : RecApi F) (coeffs : List F) (order : List Nat) (known : Nat) : Res Unit :=
  recoverRun A coeffs fun data => randomMissing data order A.maxWidth known

/-- `recover_simple`, kzg-bench/src/tests/recover.rs:10-55. -/
def recoverSimple (A : RecApi F) (coeffs : List F) : Res Unit := recoverRun A coeffs simpleMissing

/-- `das_extension_test_random`, kzg-bench/src/tests/das.rs:45-70, one round of the inner loop. -/
def dasRandom (A : RecApi F) (scale : Nat) (evens : List F) : Res Unit := do
  let width := 2 ^ scale
  assertT (decide (width ≤ A.maxWidth))
  let odds ← (A.das evens).unwrap
  let data ← forRange 0 ((width + 1) / 2) [] fun i v => do
    let e ← rd evens (2 * i / 2)
    let o ← rd odds (2 * i / 2)
    .ok (v ++ [e] ++ [o])
  let coeffs ← (A.fft data true).unwrap
  eachFrom (width / 2) width fun i => do
    let c ← rd coeffs i
    assertT (c == 0)

/-! ### The backends -/

/-- blst-from-scratch: `impl PolyRecover` (blst-from-scratch/src/types/poly.rs:392-480), `impl DAS` (blst-from-scratch/src/data_availability_sampling.rs:70-97). -/
def blstRec (fs : FFTSettings Fr) : RecApi Fr := ⟨fs.maxWidth, fs.fftFr, fs.recoverOption, fs.dasFftExtension⟩

/-- mcl-kzg: mcl-kzg/kzg/src/trait_implementations/poly.rs:73-77 and das.rs:5-11. -/
def mclRec [Mcl.Lib Fr] (fs : FFTSettings Fr) : RecApi Fr := ⟨fs.maxWidth, Mcl.fft fs, Mcl.recover fs, Mcl.dasTrait fs⟩

/-- Arkworks: Arkworks/src/recover.rs:81-212 and Arkworks/src/das.rs:55-80. -/
def arkRec (fs : FFTSettings Fr) : RecApi Fr := ⟨fs.maxWidth, Ark.fftFr fs, Ark.recover fs, Ark.das fs⟩

/-- zkcrypto: zkcrypto/src/recover.rs:89-193 and zkcrypto/src/das.rs:5-49. -/
def zkRec (fs : FFTSettings Zk.ScW) : RecApi Zk.ScW := ⟨fs.maxWidth, fs.fftFr, ZkP.recover fs, Zk.Top.dasFftExtension fs⟩

end Kzg.Bench
