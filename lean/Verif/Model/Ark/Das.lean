import Verif.Model.Ark.FFT
import Verif.Model.DAS
/-!
# Data availability extension of the Arkworks backend (Arkworks/src/das.rs)
-/

namespace Kzg.Ark

variable {F : Type} [Field F] [DecidableEq F]

/-- `das_fft_extension`, Arkworks/src/das.rs:55-80. `das_fft_extension_stride` (Arkworks/src/das.rs:7-52) has the text
of blst-from-scratch; the parallel variant runs its two recursive calls, which have disjoint halves of the slice,
with `rayon::join`. -/
def das (fs : FFTSettings F) (vals : List F) : Res (List F) :=
  if vals.isEmpty then .err "vals can not be empty"
  else if !isPowerOfTwo vals.length then .err "vals lenght has to be power of 2"
  else if vals.length * 2 > fs.maxWidth then
    .err "vals lenght * 2 has to equal or less than FFTSetings max width"
  else do
    let stride := fs.maxWidth / (vals.length * 2)
    let vals ← dasStride fs.expandedRoots fs.reverseRoots (vals.length + 1) vals stride
    let invlen ← frInv ((vals.length : Nat) : F)
    .ok (vals.map fun x => x * invlen)

end Kzg.Ark
