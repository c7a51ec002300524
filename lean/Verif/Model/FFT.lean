import Mathlib.Algebra.Field.Basic
import Mathlib.Algebra.Module.Defs
import Mathlib.Algebra.BigOperators.Group.Finset.Basic
import Verif.Base.Res
import Verif.Model.Utils
/-!
# FFT settings and FFT (blst-from-scratch)
-/

namespace Kzg

/-- The constant table `SCALE2_ROOT_OF_UNITY` (blst-from-scratch/src/consts.rs:15-50), as field
elements. The field itself is the model of `FsFr`; the concrete table is in `Verif.Model.Fr`. -/
class FrTable (F : Type) where
  rootTable : List F

/-- `struct FsFFTSettings`, blst-from-scratch/src/types/fft_settings.rs:6-11. -/
structure FFTSettings (F : Type) where
  maxWidth : Nat
  rootOfUnity : F
  expandedRoots : List F
  reverseRoots : List F

section Settings
variable {F : Type} [Field F] [DecidableEq F]

/-- The `while` loop of `expand_root_of_unity`, blst-from-scratch/src/types/fft_settings.rs:79-85.
State: the powers generated so far in reverse order (`last` is the head).
Each iteration adds one element and stops when the count exceeds `width`, so `width + 1` iterations
are enough fuel; running out of fuel is reported as a panic and proved unreachable. -/
def expandLoop (root : F) (width : Nat) : (fuel : Nat) → List F → Res (List F)
  | 0, _ => .panic
  | fuel + 1, rev =>
    match rev with
    | [] => .panic
    | last :: _ =>
      if last = 1 then .ok rev.reverse
      else if rev.length > width then .err "Root of unity multiplied for too long"
      else expandLoop root width fuel ((last * root) :: rev)

/-- `expand_root_of_unity`, blst-from-scratch/src/types/fft_settings.rs:76-88. -/
def expandRoot (root : F) (width : Nat) : Res (List F) :=
  expandLoop root width (width + 2) [root, 1]

/-- `FsFFTSettings::new`, blst-from-scratch/src/types/fft_settings.rs:19-41. -/
def FFTSettings.new [FrTable F] (scale : Nat) : Res (FFTSettings F) :=
  if scale ≥ (FrTable.rootTable (F := F)).length then
    .err "Scale is expected to be within root of unity matrix row size"
  else do
    let maxWidth := 1 <<< scale
    let root ← rd (FrTable.rootTable (F := F)) scale
    let expanded ← (expandRoot root maxWidth).unwrap
    .ok { maxWidth := maxWidth, rootOfUnity := root, expandedRoots := expanded,
          reverseRoots := expanded.reverse }

end Settings

section FFT
variable {F M : Type} [Field F] [AddCommGroup M] [Module F M]

/-- `fft_fr_fast` (blst-from-scratch/src/fft_fr.rs:8-56) and `fft_g1_fast`
(blst-from-scratch/src/fft_g1.rs:8-57), sequential variant. The two functions have the same text:
one works on field elements with `mul`, the other on points with scalar `mul`; the model is generic
over a module `M` over the field. `ret` is the output slice; its old content is overwritten.
`add_or_dbl`/`add` is `+`, `sub` is `-`, `y.mul(&root)` is `root • y`. -/
def fftFast (ret data : List M) (stride : Nat) (roots : List F) (rootsStride : Nat) :
    Res (List M) :=
  let half := ret.length / 2
  if _h : half > 0 then do
    let lo ← fftFast (ret.take half) data (stride * 2) roots (rootsStride * 2)
    let dataHi ← sliceFrom data stride
    let hi ← fftFast (ret.drop half) dataHi (stride * 2) roots (rootsStride * 2)
    forRange 0 half (lo ++ hi) fun i r => do
      let y ← rd r (i + half)
      let root ← rd roots (i * rootsStride)
      let yTimesRoot := root • y
      let x ← rd r i
      let r ← wr r (i + half) (x - yTimesRoot)
      let x ← rd r i
      wr r i (x + yTimesRoot)
  else do
    let d ← rd data 0
    wr ret 0 d
termination_by ret.length
decreasing_by
  · simp only [List.length_take]; omega
  · simp only [List.length_drop]; omega

/-- `fft_fr` (blst-from-scratch/src/fft_fr.rs:60-89) and `fft_g1`
(blst-from-scratch/src/fft_g1.rs:60-86), generic over the module as for `fftFast`.
`FsFr::from_u64(n).inverse()` is `(n : F)⁻¹`. -/
def FFTSettings.fft (fs : FFTSettings F) (data : List M) (inverse : Bool) : Res (List M) :=
  if data.length > fs.maxWidth then
    .err "Supplied list is longer than the available max width"
  else if !isPowerOfTwo data.length then
    .err "A list with power-of-two length expected"
  else do
    let stride := fs.maxWidth / data.length
    let ret := List.replicate data.length (0 : M)
    let roots := if inverse then fs.reverseRoots else fs.expandedRoots
    let ret ← fftFast ret data 1 roots stride
    if inverse then
      let invLen : F := ((data.length : Nat) : F)⁻¹
      .ok (ret.map fun f => invLen • f)
    else .ok ret

/-- `fft_fr` on field elements, blst-from-scratch/src/fft_fr.rs:60-89. -/
abbrev FFTSettings.fftFr (fs : FFTSettings F) (data : List F) (inverse : Bool) : Res (List F) :=
  fs.fft data inverse

/-- `fft_g1` on group elements, blst-from-scratch/src/fft_g1.rs:60-86. -/
abbrev FFTSettings.fftG1 (fs : FFTSettings F) (data : List M) (inverse : Bool) : Res (List M) :=
  fs.fft data inverse

/-- `fft_fr_slow` (blst-from-scratch/src/fft_fr.rs:93-111) and `fft_g1_slow`
(blst-from-scratch/src/fft_g1.rs:90-108). -/
def fftSlow (ret data : List M) (stride : Nat) (roots : List F) (rootsStride : Nat) :
    Res (List M) :=
  forRange 0 data.length ret fun i r => do
    let d0 ← rd data 0
    let w0 ← rd roots 0
    let r ← wr r i (w0 • d0)
    forRange 1 data.length r fun j r => do
      let d ← rd data (j * stride)
      let w ← rd roots (((i * j) % data.length) * rootsStride)
      let v := w • d
      let x ← rd r i
      wr r i (x + v)

end FFT
end Kzg
