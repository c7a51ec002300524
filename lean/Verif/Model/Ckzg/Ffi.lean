import Verif.Model.Ckzg.Utils
/-!
# The calls of the ckzg wrapper into the C library

The C library is not in the repository; it appears as a structure `Lib` of arbitrary functions. Every call carries the
buffers handed over, as pairs of the number of entries the buffer has and the number of entries the library is told to
touch. The numbers are those of the `extern "C"` declarations; where a declaration has no length (`*_slow`, `*_fast`,
the data availability functions) the number is stated beside the call. Touching more than the buffer has is undefined
behaviour, `ub`. Polynomials have as many coefficients as their `length` field says, which is what `new_poly` makes.
A vector of more than `2^63 - 1` bytes cannot be allocated: `panic`.
-/

namespace Kzg.Ckzg
open Kzg

/-- `KzgRet`, ckzg/src/consts.rs:4-11. -/
inductive KzgRet where
  | ok | badArgs | error | malloc
deriving DecidableEq, Repr

/-- The outcome of a call of the wrapper: `Ok`, `Err` (made from the code of the library), a panic, or undefined
behaviour. -/
inductive Out (α : Type) where
  | ok (a : α)
  | err (e : KzgRet)
  | panic
  | ub
deriving DecidableEq, Repr

/-- Sequencing. -/
def Out.bind {α β : Type} : Out α → (α → Out β) → Out β
  | .ok a, f => f a
  | .err e, _ => .err e
  | .panic, _ => .panic
  | .ub, _ => .ub

/-- `unwrap`. -/
def Out.unwrap {α : Type} : Out α → Out α
  | .err _ => .panic
  | o => o

/-- The `match` on the code of the library that every wrapper has: `KzgOk` gives what the library wrote. -/
def ofRet {α : Type} : KzgRet × α → Out α
  | (.ok, a) => .ok a
  | (e, _) => .err e

/-- A call of the library with the given buffers (entries present, entries touched). -/
def ffi {α : Type} (bufs : List (Nat × Nat)) (r : Out α) : Out α :=
  if bufs.all (fun b => b.2 ≤ b.1) then r else .ub

/-- `vec![x; n]` of elements of `size` bytes: more than `2^63 - 1` bytes cannot be allocated. -/
def alloc {α β : Type} (size : Nat) (x : α) (n : Nat) (k : List α → Out β) : Out β :=
  if size * n < 2 ^ 63 then k (List.replicate n x) else .panic

/-- `KzgFFTSettings`, ckzg/src/fftsettings.rs:9-16; the lists are the memory behind the pointers. -/
structure Settings (F : Type) where
  maxWidth : Nat
  expanded : List F
  reverse : List F

/-- The functions of the library declared in ckzg/src/fftsettings.rs:18-34, poly.rs:8-18, kzgsettings.rs:9-19,
fk20settings.rs:10-21 and finite.rs:5-39, as far as they are called below. `KS`, `S1`, `SM` are what the library
makes for the settings of proofs and of FK20. -/
structure Lib (F P1 P2 KS S1 SM : Type) where
  newFftSettings : Nat → KzgRet × Settings F
  fftFr : List F → Bool → Settings F → KzgRet × List F
  fftG1 : List P1 → Bool → Settings F → KzgRet × List P1
  polyMul_ : List F → List F → Nat → Settings F → KzgRet × List F
  doZeroPolyMulPartial : List Nat → Nat → Settings F → KzgRet × List F
  reducePartials : Nat → List (List F) → Settings F → KzgRet × List F
  zeroPoly : Nat → List Nat → Settings F → KzgRet × (List F × List F)
  das : List F → Settings F → KzgRet × List F
  newPoly : Nat → KzgRet × List F
  polyInverse : List F → Nat → KzgRet × List F
  newPolyDiv : List F → List F → KzgRet × List F
  polyLongDiv : List F → List F → Nat → KzgRet × List F
  polyFastDiv : List F → List F → Nat → KzgRet × List F
  polyMul : List F → List F → Nat → KzgRet × List F
  recover : List (Option F) → Settings F → KzgRet × List F
  newKzgSettings : List P1 → List P2 → Settings F → KzgRet × KS
  commit : List F → KS → KzgRet × P1
  proofSingle : List F → F → KS → KzgRet × P1
  checkSingle : P1 → P1 → F → F → KS → KzgRet × Bool
  proofMulti : List F → F → Nat → KS → KzgRet × P1
  checkMulti : P1 → P1 → F → List F → KS → KzgRet × Bool
  newSingle : Nat → KS → KzgRet × S1
  daSingle : List F → S1 → KzgRet × List P1
  daSingleOpt : List F → S1 → KzgRet × List P1
  newMulti : Nat → Nat → KS → KzgRet × SM
  daMulti : List F → SM → KzgRet × List P1
  daMultiOpt : List F → SM → KzgRet × List P1
  linComb : List P1 → List F → P1
  fftFrFast : List F → List F → Nat → List F → Nat → List F

section
variable {F P1 P2 KS S1 SM : Type} [Zero F] [Zero P1]

section Poly
variable (L : Lib F P1 P2 KS S1 SM)

/-- `KzgPoly::new`, ckzg/src/poly.rs:35-43. -/
def polyNew (size : Nat) : Out (List F) := ofRet (L.newPoly size)

/-- `get_coeff_at`, ckzg/src/poly.rs:45-49: no check of the index. -/
def getCoeffAt (p : List F) (i : Nat) : Out F := ffi [(p.length, i + 1)] (.ok (p.getD i 0))

/-- `set_coeff_at`, ckzg/src/poly.rs:51-55. -/
def setCoeffAt (p : List F) (i : Nat) (x : F) : Out (List F) := ffi [(p.length, i + 1)] (.ok (p.set i x))

/-- `get_coeffs`, ckzg/src/poly.rs:57-61. -/
def getCoeffs (p : List F) : Out (List F) := ffi [(p.length, p.length)] (.ok p)

/-- `inverse`, ckzg/src/poly.rs:83-91. -/
def polyInverse (p : List F) (newLen : Nat) : Out (List F) :=
  (polyNew L newLen).unwrap.bind fun out => ffi [(out.length, newLen)] (ofRet (L.polyInverse p newLen))

/-- `div`, ckzg/src/poly.rs:93-101. -/
def polyDiv (p x : List F) : Out (List F) := ofRet (L.newPolyDiv p x)

/-- `long_div`, ckzg/src/poly.rs:103-111; the output has the length of the dividend. -/
def polyLongDiv (p x : List F) : Out (List F) :=
  (polyNew L p.length).unwrap.bind fun out => ffi [(out.length, p.length)] (ofRet (L.polyLongDiv p x p.length))

/-- `fast_div`, ckzg/src/poly.rs:113-121. -/
def polyFastDiv (p x : List F) : Out (List F) :=
  (polyNew L p.length).unwrap.bind fun out => ffi [(out.length, p.length)] (ofRet (L.polyFastDiv p x p.length))

/-- `mul_direct`, ckzg/src/poly.rs:123-131. -/
def mulDirect (p x : List F) (len : Nat) : Out (List F) :=
  (polyNew L len).unwrap.bind fun out => ffi [(out.length, len)] (ofRet (L.polyMul p x len))

/-- The loop of `recover_poly_from_samples` that stores the data, ckzg/src/poly.rs:160-162. -/
def storeAll (out data : List F) : (n : Nat) → Out (List F)
  | 0 => .ok out
  | n + 1 => (storeAll out data n).bind fun o => setCoeffAt o n (data.getD n 0)

/-- `recover_poly_from_samples`, ckzg/src/poly.rs:143-164. A missing sample is handed over as `Fr::null`, which is no
element of the field; it is `none` here. -/
def recover (samples : List (Option F)) (fs : Settings F) : Out (List F) :=
  alloc 32 (0 : F) samples.length fun data =>
    let optionless := samples.map id
    (ffi [(data.length, samples.length), (optionless.length, samples.length)] (ofRet (L.recover optionless fs))).bind
      fun data => (polyNew L data.length).unwrap.bind fun out => storeAll out data data.length

end Poly

section Fft
variable (L : Lib F P1 P2 KS S1 SM)

/-- `KzgFFTSettings::new`, ckzg/src/fftsettings.rs:45-53. -/
def settingsNew (scale : Nat) : Out (Settings F) := ofRet (L.newFftSettings (scaleArg scale))

/-- `get_expanded_roots_of_unity_at`, ckzg/src/fftsettings.rs:59-63 (and through the settings of proofs,
kzgsettings.rs:106-110). -/
def expandedAt (fs : Settings F) (i : Nat) : Out F := ffi [(fs.expanded.length, i + 1)] (.ok (fs.expanded.getD i 0))

/-- `get_reverse_roots_of_unity_at`, ckzg/src/fftsettings.rs:71-75. -/
def reverseAt (fs : Settings F) (i : Nat) : Out F := ffi [(fs.reverse.length, i + 1)] (.ok (fs.reverse.getD i 0))

/-- `get_expanded_roots_of_unity`, ckzg/src/fftsettings.rs:65-69: the first `max_width` entries. -/
def expandedAll (fs : Settings F) : Out (List F) :=
  ffi [(fs.expanded.length, fs.maxWidth)] (.ok (fs.expanded.take fs.maxWidth))

/-- `get_reversed_roots_of_unity`, ckzg/src/fftsettings.rs:77-81. -/
def reverseAll (fs : Settings F) : Out (List F) :=
  ffi [(fs.reverse.length, fs.maxWidth)] (.ok (fs.reverse.take fs.maxWidth))

/-- `fft_fr`, ckzg/src/fftsettings.rs:95-111. -/
def fftFr (fs : Settings F) (data : List F) (inverse : Bool) : Out (List F) :=
  alloc 32 (0 : F) data.length fun output =>
    ffi [(output.length, data.length), (data.length, data.length)] (ofRet (L.fftFr data inverse fs))

/-- `fft_g1`, ckzg/src/fftsettings.rs:114-130. -/
def fftG1 (fs : Settings F) (data : List P1) (inverse : Bool) : Out (List P1) :=
  alloc 144 (0 : P1) data.length fun output =>
    ffi [(output.length, data.length), (data.length, data.length)] (ofRet (L.fftG1 data inverse fs))

/-- `poly_mul_fft`, ckzg/src/fftsettings.rs:133-147. The settings passed in are ignored; the sum of two lengths below
`2^63` does not overflow, the subtraction is checked. -/
def polyMulFft (a b : List F) (len : Nat) (_fs : Option (Settings F)) : Out (List F) :=
  let aLen := min a.length len
  let bLen := min b.length len
  match subU (aLen + bLen) 1 with
  | .ok n =>
    match nextPowOf2 n with
    | .ok length =>
      (settingsNew L (log2 length)).unwrap.bind fun fft =>
        (polyNew L len).unwrap.bind fun poly => ffi [(poly.length, len)] (ofRet (L.polyMul_ a b len fft))
    | _ => .panic
  | _ => .panic

/-- `do_zero_poly_mul_partial`, ckzg/src/fftsettings.rs:151-161. -/
def doZeroPolyMulPartial (fs : Settings F) (idxs : List Nat) (stride : Nat) : Out (List F) :=
  (polyNew L (idxs.length + 1)).unwrap.bind fun poly =>
    ffi [(poly.length, idxs.length + 1), (idxs.length, idxs.length)] (ofRet (L.doZeroPolyMulPartial idxs stride fs))

/-- `reduce_partials`, ckzg/src/fftsettings.rs:163-176; `domain_size * 3` is checked. -/
def reducePartials (fs : Settings F) (domainSize : Nat) (partials : List (List F)) : Out (List F) :=
  (polyNew L domainSize).unwrap.bind fun poly =>
    if domainSize * 3 < 2 ^ 64 then
      alloc 32 (0 : F) (domainSize * 3) fun scratch =>
        ffi [(poly.length, domainSize), (scratch.length, domainSize * 3), (partials.length, partials.length)]
          (ofRet (L.reducePartials domainSize partials fs))
    else .panic

/-- `zero_poly_via_multiplication`, ckzg/src/fftsettings.rs:178-190. -/
def zeroPoly (fs : Settings F) (domainSize : Nat) (idxs : List Nat) : Out (List F × List F) :=
  (polyNew L domainSize).unwrap.bind fun poly =>
    alloc 32 (0 : F) domainSize fun eval =>
      ffi [(poly.length, domainSize), (eval.length, domainSize), (idxs.length, idxs.length)]
        (ofRet (L.zeroPoly domainSize idxs fs))

/-- `das_fft_extension`, ckzg/src/fftsettings.rs:194-202; `to_vec` is a copy of the argument. -/
def das (fs : Settings F) (evens : List F) : Out (List F) := ffi [(evens.length, evens.length)] (ofRet (L.das evens fs))

/-- `bound_fft_fr_fast`, ckzg/src/fftsettings.rs:217-228 (`bound_fft_fr_slow`, 230-241, hands over the same): the
library is told to transform 4096 entries, whatever the slices are. It writes 4096 entries of `ret` and reads `data` at
the multiples of `stride` below `4096 * stride`. What it reads of `roots` is left out. -/
def boundFftFrFast (ret data : List F) (stride : Nat) (roots : List F) (rootsStride : Nat) : Out (List F) :=
  ffi [(ret.length, 4096), (data.length, 4095 * stride + 1)] (.ok (L.fftFrFast ret data stride roots rootsStride))

end Fft

section Proofs
variable (L : Lib F P1 P2 KS S1 SM)

/-- `KzgKZGSettings::new`, ckzg/src/kzgsettings.rs:46-54: the library reads `length` points of both vectors. -/
def kzgNew (g1 : List P1) (g2 : List P2) (length : Nat) (fs : Settings F) : Out KS :=
  ffi [(g1.length, length), (g2.length, length)] (ofRet (L.newKzgSettings (g1.take length) (g2.take length) fs))

/-- `commit_to_poly`, ckzg/src/kzgsettings.rs:56-64. -/
def commitToPoly (ks : KS) (p : List F) : Out P1 := ofRet (L.commit p ks)

/-- `compute_proof_single`, ckzg/src/kzgsettings.rs:66-74. -/
def computeProofSingle (ks : KS) (p : List F) (x : F) : Out P1 := ofRet (L.proofSingle p x ks)

/-- `check_proof_single`, ckzg/src/kzgsettings.rs:76-84. -/
def checkProofSingle (ks : KS) (com proof : P1) (x value : F) : Out Bool := ofRet (L.checkSingle com proof x value ks)

/-- `compute_proof_multi`, ckzg/src/kzgsettings.rs:86-94. -/
def computeProofMulti (ks : KS) (p : List F) (x : F) (n : Nat) : Out P1 := ofRet (L.proofMulti p x n ks)

/-- `check_proof_multi`, ckzg/src/kzgsettings.rs:96-104: the library reads `n` values. -/
def checkProofMulti (ks : KS) (com proof : P1) (x : F) (values : List F) (n : Nat) : Out Bool :=
  ffi [(values.length, n)] (ofRet (L.checkMulti com proof x (values.take n) ks))

/-- `KzgFK20SingleSettings::new`, ckzg/src/fk20settings.rs:49-57. -/
def singleNew (ks : KS) (n2 : Nat) : Out S1 := ofRet (L.newSingle n2 ks)

/-- `data_availability` of the single settings, ckzg/src/fk20settings.rs:59-67; the library writes `2 * p.len()`
proofs. The product is below `2^64` since a polynomial fits in memory. -/
def singleDa (fk : S1) (p : List F) : Out (List P1) :=
  alloc 144 (0 : P1) (2 * p.length) fun ret => ffi [(ret.length, 2 * p.length)] (ofRet (L.daSingle p fk))

/-- `data_availability_optimized`, ckzg/src/fk20settings.rs:69-77; the library writes `p.len()` proofs. -/
def singleDaOpt (fk : S1) (p : List F) : Out (List P1) :=
  alloc 144 (0 : P1) (2 * p.length) fun ret => ffi [(ret.length, p.length)] (ofRet (L.daSingleOpt p fk))

/-- `KzgFK20MultiSettings::new`, ckzg/src/fk20settings.rs:100-108. -/
def multiNew (ks : KS) (n2 chunkLen : Nat) : Out SM := ofRet (L.newMulti n2 chunkLen ks)

/-- `data_availability` of the multi settings, ckzg/src/fk20settings.rs:110-118; the library writes at most
`2 * p.len()` proofs. -/
def multiDa (fk : SM) (p : List F) : Out (List P1) :=
  alloc 144 (0 : P1) (2 * p.length) fun ret => ffi [(ret.length, 2 * p.length)] (ofRet (L.daMulti p fk))

/-- `data_availability_optimized`, ckzg/src/fk20settings.rs:120-128. -/
def multiDaOpt (fk : SM) (p : List F) : Out (List P1) :=
  alloc 144 (0 : P1) (2 * p.length) fun ret => ffi [(ret.length, 2 * p.length)] (ofRet (L.daMultiOpt p fk))

/-- `linear_combination_g1`, ckzg/src/finite.rs:330-334: the library reads `len` points and `len` coefficients. -/
def linearCombination (p : List P1) (coeffs : List F) (len : Nat) : Out P1 :=
  ffi [(p.length, len), (coeffs.length, len)] (.ok (L.linComb (p.take len) (coeffs.take len)))

end Proofs
end

end Kzg.Ckzg
