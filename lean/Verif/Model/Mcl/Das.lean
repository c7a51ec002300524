import Verif.Model.Mcl.FFT
/-!
# Data availability extension of mcl-kzg (mcl-kzg/kzg/src/das.rs)
-/

namespace Kzg.Mcl
open Kzg

section
variable {F : Type} [Field F]

/-- First loop of `_das_fft_extension`, mcl-kzg/kzg/src/das.rs:49-53. -/
def dasFirst (rev : List F) (half stride : Nat) (values : List F) : Res (List F) :=
  forRange 0 half values fun i v => do
    let a ← rd v i
    let b ← rd v (half + i)
    let add := a + b
    let sub := a - b
    let r ← rd rev ((i <<< 1) * stride)
    let v ← wr v (half + i) (sub * r)
    wr v i add

/-- Last loop of `_das_fft_extension`, mcl-kzg/kzg/src/das.rs:77-84. -/
def dasLast (exp : List F) (half stride : Nat) (values : List F) : Res (List F) :=
  forRange 0 half values fun i v => do
    let root ← rd exp (((i <<< 1) + 1) * stride)
    let y ← rd v (half + i)
    let yTimesRoot := y * root
    let x ← rd v i
    let v ← wr v i (x + yTimesRoot)
    wr v (i + half) (x - yTimesRoot)

/-- `_das_fft_extension`, mcl-kzg/kzg/src/das.rs:31-85, sequential variant. The recursion halves the slice, so its
length is enough fuel; running out of fuel is a panic and proved unreachable. -/
def dasStride (exp rev : List F) : (fuel : Nat) → (values : List F) → (stride : Nat) → Res (List F)
  | 0, _, _ => .panic
  | fuel + 1, values, stride =>
    if values.length < 2 then .ok values
    else if values.length = 2 then do
      let a ← rd values 0
      let b ← rd values 1
      let x := a + b
      let y := a - b
      let r ← rd exp stride
      let temp := y * r
      let values ← wr values 0 (x + temp)
      wr values 1 (x - temp)
    else do
      let half := values.length >>> 1
      let values ← dasFirst rev half stride values
      let lo ← sliceTo values half
      let lo ← dasStride exp rev fuel lo (stride <<< 1)
      let hi ← sliceFrom values half
      let hi ← dasStride exp rev fuel hi (stride <<< 1)
      dasLast exp half stride (lo ++ hi)

variable [DecidableEq F] [Lib F]

/-- `FFTSettings::das_fft_extension`, mcl-kzg/kzg/src/das.rs:6-28. The extended values replace the input. -/
def das (fs : FFTSettings F) (values : List F) : Res (List F) :=
  if values.isEmpty then .err "Values cannot be empty"
  else do
    let p ← isPowerOf2 values.length
    if !p then .err "Value count must be a number of two"
    else if values.length <<< 1 > fs.maxWidth then .err "ftt settings max width too small!"
    else do
      let stride ← divU fs.maxWidth (values.length * 2)
      let values ← dasStride fs.expandedRoots fs.reverseRoots (values.length + 1) values stride
      let i ← invLen (F := F) values.length
      .ok (values.map fun x => x * i)

/-- `das_fft_extension` of the trait, mcl-kzg/kzg/src/trait_implementations/das.rs:6-10. -/
def dasTrait (fs : FFTSettings F) (evens : List F) : Res (List F) := (das fs evens).unwrap

end
end Kzg.Mcl
