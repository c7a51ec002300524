import Verif.Model.FFT
/-!
# Data availability sampling extension (blst-from-scratch/src/data_availability_sampling.rs)
-/

namespace Kzg

variable {F : Type} [Field F]

/-- First loop of `das_fft_extension_stride`, blst-from-scratch/src/data_availability_sampling.rs:29-35. -/
def dasFirst (reverse : List F) (half stride : Nat) (evens : List F) : Res (List F) :=
  forRange 0 half evens fun i ev => do
    let a ← rd ev i
    let b ← rd ev (half + i)
    let tmp1 := a + b
    let tmp2 := a - b
    let r ← rd reverse (i * 2 * stride)
    let ev ← wr ev (half + i) (tmp2 * r)
    wr ev i tmp1

/-- Last loop of `das_fft_extension_stride`, blst-from-scratch/src/data_availability_sampling.rs:59-66. -/
def dasLast (expanded : List F) (half stride : Nat) (evens : List F) : Res (List F) :=
  forRange 0 half evens fun i ev => do
    let x ← rd ev i
    let y ← rd ev (half + i)
    let r ← rd expanded ((1 + 2 * i) * stride)
    let yTimesRoot := y * r
    let ev ← wr ev i (x + yTimesRoot)
    wr ev (half + i) (x - yTimesRoot)

/-- `das_fft_extension_stride`, blst-from-scratch/src/data_availability_sampling.rs:10-67,
sequential variant. The recursion halves the slice, so a recursion depth of its length is enough fuel;
running out of fuel is a panic and proved unreachable. -/
def dasStride (expanded reverse : List F) : (fuel : Nat) → (evens : List F) → (stride : Nat) →
    Res (List F)
  | 0, _, _ => .panic
  | fuel + 1, evens, stride =>
    if evens.length < 2 then .ok evens
    else if evens.length = 2 then do
      let e0 ← rd evens 0
      let e1 ← rd evens 1
      let x := e0 + e1
      let y := e0 - e1
      let r ← rd expanded stride
      let yTimesRoot := y * r
      let evens ← wr evens 0 (x + yTimesRoot)
      wr evens 1 (x - yTimesRoot)
    else do
      let half := evens.length / 2
      let evens ← dasFirst reverse half stride evens
      let lo ← sliceTo evens half
      let lo ← dasStride expanded reverse fuel lo (stride * 2)
      let hi ← sliceFrom evens half
      let hi ← dasStride expanded reverse fuel hi (stride * 2)
      dasLast expanded half stride (lo ++ hi)

/-- `das_fft_extension`, blst-from-scratch/src/data_availability_sampling.rs:74-96. -/
def FFTSettings.dasFftExtension (fs : FFTSettings F) (evens : List F) : Res (List F) :=
  if evens.isEmpty then .err "A non-zero list ab expected"
  else if !isPowerOfTwo evens.length then .err "A list with power-of-two length expected"
  else if evens.length * 2 > fs.maxWidth then
    .err "Supplied list is longer than the available max width"
  else do
    let stride := fs.maxWidth / (evens.length * 2)
    let odds ← dasStride fs.expandedRoots fs.reverseRoots (evens.length + 1) evens stride
    let invLen : F := ((odds.length : Nat) : F)⁻¹
    .ok (odds.map fun f => f * invLen)

end Kzg
