import Verif.Model.FFT
import Verif.Model.Fr
import Verif.Model.Poly
import Verif.Model.Zk.ZeroPoly
/-!
# Field elements, settings and transforms of the Arkworks backend (Arkworks/src)

Field elements and points are kept as blst limbs and handed to the arkworks library, which computes with them
(Arkworks/src/utils.rs:37-125 copies the limbs; both sides hold the Montgomery form). The library is in the trusted
base; what the code uses of it is modelled by its value:

* `Radix2EvaluationDomain::new(n)` is the domain of the next power of two, with the generator that the library
  squares down from its constant `TWO_ADIC_ROOT_OF_UNITY` of order `2^32`; from `2^33` on there is none.
* `domain.fft`, `domain.ifft` resize the coefficients to the domain and give the (inverse) discrete Fourier transform.
* `DensePolynomial::from_coefficients_slice` drops trailing zeros.

`FFTSettings` is the structure of `Verif.Model.FFT`; the field `domain` (Arkworks/src/kzg_proofs.rs:271-277) is only
read while the settings are made, so it is left out.
-/

namespace Kzg.Ark
open ZkP (stdNextPowerOfTwo)

/-- The constant `TWO_ADIC_ROOT_OF_UNITY` of the library's scalar field. -/
class Lib (F : Type) where
  root : F

/-- Its value in ark-bls12-381 0.3 (`7^((r-1)/2^32)`, the constant the zkcrypto backend has as well). -/
instance : Lib Fr where
  root := ((0x16a2a19edfe81f20d09b681922c813b4b63683508c2280b93829971f439f0d2b : Nat) : Fr)

section
variable {F : Type} [Field F] [DecidableEq F]

/-! ### Field elements -/

/-- `inverse`, Arkworks/src/kzg_types.rs:248-250: the library gives `None` for zero, and `unwrap` panics. -/
def frInv (x : F) : Res F := if x = 0 then .panic else .ok x⁻¹

/-- `div`, Arkworks/src/kzg_types.rs:190-199: the library multiplies by the unwrapped inverse. The test for an empty
limb array never holds. -/
def frDiv (x y : F) : Res F := do
  let i ← frInv y
  .ok (x * i)

/-- `eucl_inverse`, Arkworks/src/kzg_types.rs:234-242: `todo!()`. -/
def frEuclInverse (_x : F) : Res F := .panic

end

/-- `from_u64_arr`, Arkworks/src/kzg_types.rs:172-178: the library refuses values from the modulus on, and the code
takes zero instead. -/
def frFromU64Arr (u : List Nat) : Fr := if wordsVal u < frModulus then ((wordsVal u : Nat) : Fr) else 0

/-- `to_u64_arr`, Arkworks/src/kzg_types.rs:185-188: the four words of the canonical representative. -/
def frToU64Arr (x : Fr) : List Nat := (List.range 4).map fun i => x.val / (2 ^ 64) ^ i % 2 ^ 64

/-- `null`, Arkworks/src/kzg_types.rs:159-161: the element whose Montgomery limbs are these. -/
def frNull : Fr :=
  ((wordsVal [14526898868952669296, 2784871451429007392, 11493358522590675359, 7138715389977065193] : Nat) : Fr) *
    (((2 ^ 256 : Nat) : Fr))⁻¹

/-- `is_null`, Arkworks/src/kzg_types.rs:205-207. -/
def frIsNull (x : Fr) : Bool := decide (x = frNull)

section
variable {F : Type} [Field F] [DecidableEq F] [Lib F]

/-! ### Settings -/

/-- `Radix2EvaluationDomain::new(n).unwrap()`: size and generator. -/
def domain (n : Nat) : Res (Nat × F) := do
  let size ← stdNextPowerOfTwo n
  let log := Nat.log2 size
  if log > 32 then .panic else .ok (size, Lib.root ^ 2 ^ (32 - log))

/-- `FFTSettings::new` (Arkworks/src/kzg_types.rs:347-370) and `from_scale` (Arkworks/src/kzg_proofs.rs:294-317), which
have the same text. The table `SCALE2_ROOT_OF_UNITY` is only used for its 32 rows (Arkworks/src/fft.rs:12).
`expand_root_of_unity` (Arkworks/src/kzg_proofs.rs:279-291) has the text of blst-from-scratch. -/
def settingsNew (scale : Nat) : Res (FFTSettings F) :=
  if scale ≥ 32 then .err "Scale is expected to be within root of unity matrix row size"
  else do
    let maxWidth := 1 <<< scale
    let (size, gen) ← domain (F := F) maxWidth
    let roots ← (expandRoot gen size).unwrap
    .ok { maxWidth := maxWidth, rootOfUnity := gen, expandedRoots := roots, reverseRoots := roots.reverse }

omit [DecidableEq F] [Lib F] in
/-- `FFTSettings::default`, Arkworks/src/kzg_types.rs:391-399. -/
def settingsDefault : FFTSettings F := ⟨0, 0, [], []⟩

/-- `Clone` of the settings, Arkworks/src/kzg_types.rs:402-411: new settings of scale 0 with every field (but the
domain) overwritten. -/
def settingsClone (fs : FFTSettings F) : Res (FFTSettings F) := do
  let o ← (settingsNew (F := F) 0).unwrap
  .ok { o with maxWidth := fs.maxWidth, rootOfUnity := fs.rootOfUnity, expandedRoots := fs.expandedRoots,
               reverseRoots := fs.reverseRoots }

/-! ### Transforms of field elements -/

omit [DecidableEq F] [Lib F] in
/-- The transform of the library: the values of the polynomial with (at most `n` of) the given coefficients at the
powers of `w`. -/
def libDft (w : F) (n : Nat) (coeffs : List F) : List F :=
  (List.range n).map fun i => ∑ j ∈ Finset.range n, coeffs.getD j 0 * w ^ (i * j)

/-- `fft_fr`, Arkworks/src/fft.rs:207-253. -/
def fftFr (fs : FFTSettings F) (data : List F) (inverse : Bool) : Res (List F) :=
  if data.length > fs.maxWidth then .err "data length is longer than allowed max width"
  else if !isPowerOfTwo data.length then .err "data length is not power of 2"
  else do
    let width := if fs.maxWidth > data.length then data.length else fs.maxWidth
    let poly := polyNorm data
    let (size, gen) ← domain (F := F) width
    if inverse then do
      let k ← subU data.length poly.length
      let coeffs := poly ++ List.replicate k 0
      .ok ((libDft gen⁻¹ size coeffs).map fun x => ((size : Nat) : F)⁻¹ * x)
    else .ok (libDft gen size poly)

/-- `log2` of ark-std: the logarithm rounded up, and 0 for 0. -/
def arkLog2 (x : Nat) : Nat := if x = 0 then 0 else if isPowerOfTwo x then Nat.log2 x else Nat.log2 x + 1

/-- `fft_fr_fast`, Arkworks/src/fft.rs:256-266: stride and roots are not used. `clone_from_slice` takes as many values
as `ret` has. -/
def fftFrFast (ret data : List F) (_stride : Nat) (_roots : List F) (_rootsStride : Nat) : Res (List F) := do
  let fs ← (settingsNew (F := F) (arkLog2 data.length)).unwrap
  let temp ← (fftFr fs data false).unwrap
  sliceTo temp ret.length

omit [DecidableEq F] [Lib F] in
/-- `fft_fr_slow`, Arkworks/src/fft.rs:268-282: the text of blst-from-scratch. -/
def fftFrSlow (ret data : List F) (stride : Nat) (roots : List F) (rootsStride : Nat) : Res (List F) :=
  fftSlow ret data stride roots rootsStride

end

/-! ### Transforms of points -/

section
variable {F M : Type} [Field F] [DecidableEq F] [AddCommGroup M] [Module F M]

omit [DecidableEq F] in
/-- `fft_g1_fast`, Arkworks/src/fft_g1.rs:159-214, sequential variant: the text of blst-from-scratch, but the last
case copies `ret.len()` points (none or one). -/
def fftG1Fast (ret data : List M) (stride : Nat) (roots : List F) (rootsStride : Nat) : Res (List M) :=
  let half := ret.length / 2
  if _h : half > 0 then do
    let lo ← fftG1Fast (ret.take half) data (stride * 2) roots (rootsStride * 2)
    let dataHi ← sliceFrom data stride
    let hi ← fftG1Fast (ret.drop half) dataHi (stride * 2) roots (rootsStride * 2)
    forRange 0 half (lo ++ hi) fun i r => do
      let y ← rd r (i + half)
      let root ← rd roots (i * rootsStride)
      let yTimesRoot := root • y
      let x ← rd r i
      let r ← wr r (i + half) (x - yTimesRoot)
      let x ← rd r i
      wr r i (x + yTimesRoot)
  else forRange 0 ret.length ret fun i r => do
    let d ← rd data i
    wr r i d
termination_by ret.length
decreasing_by
  · simp only [List.length_take]; omega
  · simp only [List.length_drop]; omega

/-- `fft_g1`, Arkworks/src/fft_g1.rs:84-129. -/
def fftG1 (fs : FFTSettings F) (data : List M) (inverse : Bool) : Res (List M) :=
  if data.length > fs.maxWidth then .err "data length is longer than allowed max width"
  else if !isPowerOfTwo data.length then .err "data length is not power of 2"
  else do
    let stride := fs.maxWidth / data.length
    let out := List.replicate data.length (0 : M)
    if inverse then do
      let invLen ← frInv ((data.length : Nat) : F)
      let out ← fftG1Fast out data 1 fs.reverseRoots stride
      .ok (out.map fun x => invLen • x)
    else fftG1Fast out data 1 fs.expandedRoots stride

omit [DecidableEq F] in
/-- `fft_g1_slow`, Arkworks/src/fft_g1.rs:131-157: the sum is stored inside the inner loop, so with one point nothing
is stored. -/
def fftG1Slow (ret data : List M) (stride : Nat) (roots : List F) (rootsStride : Nat) : Res (List M) :=
  forRange 0 data.length ret fun i r => do
    let d0 ← rd data 0
    let w0 ← rd roots 0
    let (_, r) ← forRange 1 data.length (w0 • d0, r) fun j s => do
      let d ← rd data (j * stride)
      let w ← rd roots (((i * j) % data.length) * rootsStride)
      let last := s.1 + w • d
      let r ← wr s.2 i last
      .ok (last, r)
    .ok r

omit [DecidableEq F] in
/-- `g1_linear_combination`, Arkworks/src/fft_g1.rs:50-57. -/
def g1LinearCombination (p : List M) (coeffs : List F) (len : Nat) : Res M :=
  forRange 0 len (0 : M) fun i out => do
    let x ← rd p i
    let c ← rd coeffs i
    .ok (out + c • x)

end

/-- `make_data`, Arkworks/src/fft_g1.rs:72-82: multiples of the generator. -/
def makeData {M : Type} [AddCommGroup M] (g : M) (n : Nat) : Res (List M) :=
  if n ≠ 0 then
    forRange 1 n [g] fun i v => do
      let j ← subU i 1
      let t ← rd v j
      .ok (v ++ [t + g])
  else .ok []

end Kzg.Ark
