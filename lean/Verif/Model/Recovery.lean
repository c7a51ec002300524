import Verif.Model.ZeroPoly
import Verif.Model.Scale
import Verif.Model.Fr
/-!
# Recovery from samples (blst-from-scratch/src/recovery.rs, blst-from-scratch/src/types/poly.rs)

Two entry points share the algorithm. `FsPoly::recover_poly_from_samples` marks missing samples by
`None`; `recovery::recover_poly_from_samples` marks them by the null element. The second one is
modelled on the list `samples.map toOption`, where `toOption` maps a sample that `is_null` to `none`.
-/

namespace Kzg

variable {F : Type} [Field F] [DecidableEq F]

/-- Collection of the missing positions, blst-from-scratch/src/types/poly.rs:400-406. -/
def missingIdxs (samples : List (Option F)) : List Nat :=
  (List.range samples.length).filter fun i => (samples.getD i none).isNone

/-- Comparison of the mask with the zero evaluations, blst-from-scratch/src/types/poly.rs:413-415 and
blst-from-scratch/src/recovery.rs:67-73. `fail` is what a mismatch does: a failed `assert_eq!` or a
returned error. -/
def checkMask (fail : Res Unit) (samples : List (Option F)) (zeroEval : List F) (len : Nat) :
    Res Unit :=
  forRange 0 len () fun i _ => do
    let s ← rd samples i
    let z ← rd zeroEval i
    if s.isNone != decide (z = 0) then fail else .ok ()

/-- Construction of the evaluations of `E · Z`, blst-from-scratch/src/types/poly.rs:417-428. -/
def evalsWithZero (samples : List (Option F)) (zeroEval : List F) (len : Nat) : Res (List F) :=
  forRange 0 len ([] : List F) fun i acc => do
    let s ← rd samples i
    match s with
    | none => .ok (acc ++ [0])
    | some v => do
      let z ← rd zeroEval i
      .ok (acc ++ [v * z])

/-- Element-wise division, blst-from-scratch/src/types/poly.rs:449-455. -/
def divPointwise (a b : List F) (len : Nat) : Res (List F) :=
  forRange 0 len a fun i acc => do
    let x ← rd a i
    let y ← rd b i
    wr acc i (x * y⁻¹)

/-- From the evaluations of `E · Z` to the reconstructed data,
blst-from-scratch/src/types/poly.rs:417-470 and blst-from-scratch/src/recovery.rs:75-164. -/
def FFTSettings.recoverCore (fs : FFTSettings F) (samples : List (Option F)) (len : Nat)
    (zeroEval zeroPoly : List F) : Res (List F) := do
  let ez ← evalsWithZero samples zeroEval len
  let polyWithZero ← (fs.fftFr ez true).unwrap
  let lenZeroPoly := zeroPoly.length
  let scaledPolyWithZero ← scalePoly polyWithZero len
  let scaledZeroPoly ← scalePoly zeroPoly lenZeroPoly
  let evalPoly ← (fs.fftFr scaledPolyWithZero false).unwrap
  let evalZero ← (fs.fftFr scaledZeroPoly false).unwrap
  let evalRec ← divPointwise evalPoly evalZero len
  let scaledRec ← (fs.fftFr evalRec true).unwrap
  let rec' ← unscalePoly scaledRec len
  (fs.fftFr rec' false).unwrap

/-- The final comparison, blst-from-scratch/src/types/poly.rs:473-475 and
blst-from-scratch/src/recovery.rs:167-173. -/
def checkData (fail : Res Unit) (samples : List (Option F)) (data : List F) (len : Nat) : Res Unit :=
  forRange 0 len () fun i _ => do
    let s ← rd samples i
    match s with
    | none => .ok ()
    | some v => do
      let d ← rd data i
      if d = v then .ok () else fail

/-- `FsPoly::recover_poly_from_samples`, blst-from-scratch/src/types/poly.rs:393-479. -/
def FFTSettings.recoverOption (fs : FFTSettings F) (samples : List (Option F)) : Res (List F) :=
  let len := samples.length
  if !isPowerOfTwo len then .err "Samples must have a length that is a power of two"
  else do
    let (zeroEval, zeroPoly) ← (fs.zeroPolyViaMultiplication len (missingIdxs samples)).unwrap
    checkMask .panic samples zeroEval len
    let data ← fs.recoverCore samples len zeroEval zeroPoly
    checkData .panic samples data len
    .ok data

/-- A sample equal to the null element counts as missing (`is_null`,
blst-from-scratch/src/types/fr.rs:82-84). -/
def toOption (null x : F) : Option F := if x = null then none else some x

/-- `recovery::recover_poly_from_samples`, blst-from-scratch/src/recovery.rs:46-176, with the null
element as parameter. Sequential variant; with the parallel feature the two scalings and the two
transforms run on disjoint vectors. The unused `next_power_of_two(len_zero_poly - 1)` is kept for its
panics; it is evaluated before the transforms, which can only panic too. -/
def FFTSettings.recoverNull (fs : FFTSettings F) (null : F) (raw : List F) (len : Nat) :
    Res (List F) :=
  if !isPowerOfTwo len then .err "len_samples must be a power of two"
  else do
    let samples := raw.map (toOption null)
    let (zeroEval, zeroPoly) ← (fs.zeroPolyViaMultiplication len (missingIdxs samples)).unwrap
    checkMask (.err "recovery error: samples should be null when and only when zero_eval is zero")
      samples zeroEval len
    let k ← subU zeroPoly.length 1
    let _ ← nextPowerOfTwo k
    let data ← fs.recoverCore samples len zeroEval zeroPoly
    checkData (.err "recovery error: samples should be null or equal reconstructed data")
      samples data len
    .ok data

end Kzg
