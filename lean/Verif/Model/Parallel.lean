import Verif.Model.FFT
import Verif.Model.DAS
import Verif.Model.Conc
/-!
# The transforms with the feature `parallel` (blst-from-scratch)

The mutable slice `ret` is the cells `b, …, b + len - 1` of a shared buffer; `split_at_mut` and slicing
only change `b` and `len`. `cut` decides from the length of the slice whether the two recursive calls are
joined or run one after the other.
-/

namespace Kzg.Conc
open Kzg

variable {F M : Type} [Field F] [AddCommGroup M] [Module F M]

/-- One turn of the loop of `fft_fr_fast`, blst-from-scratch/src/fft_fr.rs:47-51, and of `fft_g1_fast`,
blst-from-scratch/src/fft_g1.rs:49-53. -/
def butterflyT (b half : Nat) (roots : List F) (rootsStride i : Nat) : Task M :=
  .read (b + (i + half)) fun y =>
    match rd roots (i * rootsStride) with
    | .ok root =>
      .read (b + i) fun x =>
        .write (b + (i + half)) (x - root • y) <|
          .read (b + i) fun x =>
            .write (b + i) (x + root • y) .done
    | _ => .panic

/-- `fft_fr_fast`, blst-from-scratch/src/fft_fr.rs:8-56, and `fft_g1_fast`,
blst-from-scratch/src/fft_g1.rs:8-57, with the feature `parallel`. -/
def fftTask (cut : Nat → Bool) (b len : Nat) (data : List M) (stride : Nat) (roots : List F) (rootsStride : Nat) :
    Task M :=
  let half := len / 2
  if _h : half > 0 then
    let lo := fftTask cut b half data (stride * 2) roots (rootsStride * 2)
    let hi := match sliceFrom data stride with
      | .ok dataHi => fftTask cut (b + half) (len - half) dataHi (stride * 2) roots (rootsStride * 2)
      | _ => .panic
    .seq (if cut len then .join lo hi else .seq lo hi) (loopT (butterflyT b half roots rootsStride) half 0)
  else
    match rd data 0 with
    | .ok d => .write b d .done
    | _ => .panic
termination_by len

/-- When `fft_fr_fast` joins, blst-from-scratch/src/fft_fr.rs:34. -/
def cutFr (len : Nat) : Bool := len / 2 > 256

/-- When `fft_g1_fast` joins, blst-from-scratch/src/fft_g1.rs:19. -/
def cutG1 (len : Nat) : Bool := len > 8

/-- The call in `fft_fr`, blst-from-scratch/src/fft_fr.rs:70-82, and `fft_g1`,
blst-from-scratch/src/fft_g1.rs:69-78. -/
def fftStart (cut : Nat → Bool) (fs : FFTSettings F) (data : List M) (inverse : Bool) : Task M :=
  fftTask cut 0 data.length data 1 (if inverse then fs.reverseRoots else fs.expandedRoots) (fs.maxWidth / data.length)

/-- What `fft_fr` (blst-from-scratch/src/fft_fr.rs:84-89) and `fft_g1` (blst-from-scratch/src/fft_g1.rs:80-85) do
with the filled buffer. -/
def fftFinish (F : Type) [Field F] [Module F M] (ret : List M) (inverse : Bool) : List M :=
  if inverse then ret.map fun f => ((ret.length : Nat) : F)⁻¹ • f else ret

/-- One turn of the first loop of `das_fft_extension_stride`,
blst-from-scratch/src/data_availability_sampling.rs:29-35. -/
def dasFirstT (b half stride : Nat) (reverse : List F) (i : Nat) : Task F :=
  .read (b + i) fun a => .read (b + (half + i)) fun a' =>
    .read (b + i) fun c => .read (b + (half + i)) fun c' =>
      match rd reverse (i * 2 * stride) with
      | .ok r => .write (b + (half + i)) ((c - c') * r) <| .write (b + i) (a + a') .done
      | _ => .panic

/-- One turn of the last loop of `das_fft_extension_stride`,
blst-from-scratch/src/data_availability_sampling.rs:59-66. -/
def dasLastT (b half stride : Nat) (expanded : List F) (i : Nat) : Task F :=
  .read (b + i) fun x => .read (b + (half + i)) fun y =>
    match rd expanded ((1 + 2 * i) * stride) with
    | .ok r => .write (b + i) (x + y * r) <| .write (b + (half + i)) (x - y * r) .done
    | _ => .panic

/-- `das_fft_extension_stride`, blst-from-scratch/src/data_availability_sampling.rs:10-67, with the
feature `parallel`. The recursion halves the slice; running out of fuel is a panic. -/
def dasTask (cut : Nat → Bool) (expanded reverse : List F) : (fuel b len stride : Nat) → Task F
  | 0, _, _, _ => .panic
  | fuel + 1, b, len, stride =>
    if len < 2 then .done
    else if len = 2 then
      .read b fun a => .read (b + 1) fun a' => .read b fun c => .read (b + 1) fun c' =>
        match rd expanded stride with
        | .ok r => .write b (a + a' + (c - c') * r) <| .write (b + 1) (a + a' - (c - c') * r) .done
        | _ => .panic
    else
      let half := len / 2
      let lo := dasTask cut expanded reverse fuel b half (stride * 2)
      let hi := dasTask cut expanded reverse fuel (b + half) (len - half) (stride * 2)
      .seq (loopT (dasFirstT b half stride reverse) half 0) <|
        .seq (if cut len then .join hi lo else .seq lo hi) (loopT (dasLastT b half stride expanded) half 0)

/-- When `das_fft_extension_stride` joins, blst-from-scratch/src/data_availability_sampling.rs:39. -/
def cutDas (len : Nat) : Bool := len > 32

/-- The call in `das_fft_extension`, blst-from-scratch/src/data_availability_sampling.rs:86-88. The buffer `odds` starts as a copy of `evens`. -/
def dasStart (cut : Nat → Bool) (fs : FFTSettings F) (len : Nat) : Task F :=
  dasTask cut fs.expandedRoots fs.reverseRoots (len + 1) 0 len (fs.maxWidth / (len * 2))

end Kzg.Conc
