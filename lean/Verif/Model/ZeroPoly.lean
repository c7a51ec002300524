import Verif.Model.FFT
import Verif.Model.Utils
/-!
# Zero polynomials (blst-from-scratch/src/zero_poly.rs)
-/

namespace Kzg

variable {F : Type} [Field F]

/-- `Vec::splice(a..b, new)`: replaces the range by `new`; panics for a range outside of the vector. -/
def spliceV {α : Type} (v : List α) (a b : Nat) (new : List α) : Res (List α) :=
  if a ≤ b ∧ b ≤ v.length then .ok (v.take a ++ new ++ v.drop b) else .panic

/-- `pad_poly`, blst-from-scratch/src/zero_poly.rs:24-38. The pushing loop is the appended
`replicate`. -/
def padPoly (coeffs : List F) (newLength : Nat) : Res (List F) :=
  if newLength < coeffs.length then .err "new_length must be longer or equal to poly length"
  else .ok (coeffs ++ List.replicate (newLength - coeffs.length) 0)

/-- The `while j > 0` loop, blst-from-scratch/src/zero_poly.rs:66-71; the argument is the current `j`. -/
def partialInner (negDi : F) : (j : Nat) → List F → Res (List F)
  | 0, poly => .ok poly
  | j + 1, poly => do
    let x ← rd poly (j + 1)
    let poly ← wr poly (j + 1) (x * negDi)
    let x ← rd poly (j + 1)
    let y ← rd poly j
    let poly ← wr poly (j + 1) (x + y)
    partialInner negDi j poly

/-- `do_zero_poly_mul_partial`, blst-from-scratch/src/zero_poly.rs:44-78. -/
def FFTSettings.zeroPolyPartial (fs : FFTSettings F) (idxs : List Nat) (stride : Nat) :
    Res (List F) :=
  if idxs.isEmpty then .err "idx array must be non-zero"
  else do
    let poly := List.replicate (idxs.length + 1) (1 : F)
    let i0 ← rd idxs 0
    let r ← rd fs.expandedRoots (i0 * stride)
    let poly ← wr poly 0 (-r)
    forRange 1 idxs.length poly fun i poly => do
      let ii ← rd idxs i
      let r ← rd fs.expandedRoots (ii * stride)
      let poly ← wr poly i (-r)
      let negDi ← rd poly i
      let x ← rd poly i
      let y ← rd poly (i - 1)
      let poly ← wr poly i (x + y)
      let poly ← partialInner negDi (i - 1) poly
      let z ← rd poly 0
      wr poly 0 (z * negDi)

/-- The accumulation of `out_degree`, blst-from-scratch/src/zero_poly.rs:89-92. -/
def outDegree (partials : List (List F)) : Res Nat :=
  forRange 0 partials.length 0 fun i acc => do
    let p ← rd partials i
    let d ← subU p.length 1
    .ok (acc + d)

/-- `reduce_partials`, blst-from-scratch/src/zero_poly.rs:82-119. -/
def FFTSettings.reducePartials (fs : FFTSettings F) (domainSize : Nat) (partials : List (List F)) :
    Res (List F) :=
  if !isPowerOfTwo domainSize then .err "Expected domain size to be a power of 2"
  else do
    let outDeg ← outDegree partials
    if outDeg + 1 > domainSize then
      .err "Out degree is longer than possible polynomial size in domain"
    else do
      let p0 ← rd partials 0
      let padded ← padPoly p0 domainSize
      let evalResult ← fs.fftFr padded false
      let evalResult ← forRange 1 partials.length evalResult fun i evalResult => do
        let p ← rd partials i
        let padded ← padPoly p domainSize
        let evaluated ← fs.fftFr padded false
        forRange 0 domainSize evalResult fun j evalResult => do
          let x ← rd evalResult j
          let y ← rd evaluated j
          wr evalResult j (x * y)
      let coeffs ← fs.fftFr evalResult true
      sliceTo coeffs (outDeg + 1)

/-- The local vectors `work`, `partial_lens`, `partial_offsets` of `zero_poly_via_multiplication`,
blst-from-scratch/src/zero_poly.rs:164-167. -/
structure ZeroWork (F : Type) where
  work : List F
  lens : List Nat
  offsets : List Nat

/-- One iteration of the loop generating the partials, blst-from-scratch/src/zero_poly.rs:178-193
(sequential variant). The state carries `missing_offset` and `work_offset`. -/
def FFTSettings.zeroInitStep (fs : FFTSettings F) (missing : List Nat) (stride : Nat)
    (s : ZeroWork F × Nat × Nat) : Res (ZeroWork F × Nat × Nat) := do
  let (w, missingOffset, workOffset) := s
  let stop := min (missingOffset + 63) missing.length
  let idxs ← slice missing missingOffset stop
  let partialPoly ← fs.zeroPolyPartial idxs stride
  let padded ← padPoly partialPoly 64
  let work ← spliceV w.work workOffset (workOffset + 64) padded
  .ok (⟨work, w.lens ++ [64], w.offsets ++ [workOffset]⟩, missingOffset + 63, workOffset + 64)

/-- Body of the `for i in 0..reduced_count` loop, blst-from-scratch/src/zero_poly.rs:249-281. -/
def FFTSettings.zeroGroup (fs : FFTSettings F) (domainSize domainCeiling partialSize count : Nat)
    (i : Nat) (s : ZeroWork F) : Res (ZeroWork F) := do
  let start := i * 4
  let outEnd := min ((start + 4) * partialSize) domainCeiling
  let len ← subU outEnd (start * partialSize)
  let reducedLen := min len domainSize
  let left ← subU count start
  let partialsNum := min 4 left
  let offsets ← wr s.offsets i (start * partialSize)
  let (offsets, partialVec) ← forRange 0 partialsNum (offsets, ([] : List (List F)))
    fun j (st : List Nat × List (List F)) => do
      let offsets ← wr st.1 (i + j) ((start + j) * partialSize)
      let o ← rd offsets (i + j)
      let l ← rd s.lens (i + j)
      let c ← slice s.work o (o + l)
      .ok (offsets, st.2 ++ [c])
  if partialsNum > 1 then do
    let reduced ← fs.reducePartials reducedLen partialVec
    let lens ← wr s.lens i reduced.length
    let padded ← padPoly reduced (partialSize * partialsNum)
    let o ← rd offsets i
    let work ← spliceV s.work o (o + padded.length) padded
    .ok ⟨work, lens, offsets⟩
  else do
    let l ← rd s.lens start
    let lens ← wr s.lens i l
    .ok ⟨s.work, lens, offsets⟩

/-- The `while partial_count > 1` loop, blst-from-scratch/src/zero_poly.rs:244-285. The count
decreases in every iteration, so the initial count is enough fuel (running out is a panic, proved
unreachable). -/
def FFTSettings.zeroReduce (fs : FFTSettings F) (domainSize domainCeiling : Nat) :
    (fuel : Nat) → (count : Nat) → ZeroWork F → Res (ZeroWork F)
  | 0, _, _ => .panic
  | fuel + 1, count, s =>
    if count > 1 then do
      let reducedCount := 1 + (count - 1) / 4
      let l0 ← rd s.lens 0
      let partialSize ← nextPowerOfTwo l0
      let s ← forRange 0 reducedCount s (fs.zeroGroup domainSize domainCeiling partialSize count)
      zeroReduce fs domainSize domainCeiling fuel reducedCount s
    else .ok s

/-- The branch for more than 63 indices, blst-from-scratch/src/zero_poly.rs:160-288. -/
def FFTSettings.zeroPolyLarge (fs : FFTSettings F) (domainSize domainCeiling : Nat)
    (missing : List Nat) (stride count : Nat) : Res (List F) := do
  let n ← nextPowerOfTwo (count * 64)
  let (w, _, _) ← forRange 0 count
    ((⟨List.replicate n 0, [], []⟩, 0, 0) : ZeroWork F × Nat × Nat)
    fun _ s => fs.zeroInitStep missing stride s
  let last ← subU (1 + missing.length) ((count - 1) * 63)
  let lens ← wr w.lens (count - 1) last
  let w ← fs.zeroReduce domainSize domainCeiling (count + 1) count { w with lens := lens }
  .ok w.work

/-- Computation of `zero_poly`, blst-from-scratch/src/zero_poly.rs:156-288. -/
def FFTSettings.zeroPolyRaw (fs : FFTSettings F) (domainSize domainCeiling : Nat)
    (missing : List Nat) (stride count : Nat) : Res (List F) :=
  if missing.length ≤ 63 then fs.zeroPolyPartial missing stride
  else fs.zeroPolyLarge domainSize domainCeiling missing stride count

/-- Padding or truncation to the domain size, blst-from-scratch/src/zero_poly.rs:290-299. -/
def fitDomain (zeroPoly : List F) (domainSize : Nat) : Res (List F) :=
  if zeroPoly.length < domainSize then padPoly zeroPoly domainSize
  else if zeroPoly.length = domainSize then .ok zeroPoly
  else sliceTo zeroPoly domainSize

/-- `zero_poly_via_multiplication`, blst-from-scratch/src/zero_poly.rs:121-305, sequential variant.
Returns `(zero_eval, zero_poly)`. -/
def FFTSettings.zeroPolyViaMultiplication (fs : FFTSettings F) (domainSize : Nat)
    (missing : List Nat) : Res (List F × List F) :=
  if missing.isEmpty then .ok ([], [])
  else if missing.length ≥ domainSize then .err "Missing idxs greater than domain size"
  else if domainSize > fs.maxWidth then .err "Domain size greater than fft_settings.max_width"
  else if !isPowerOfTwo domainSize then .err "Domain size must be a power of 2"
  else do
    let stride := fs.maxWidth / domainSize
    let count := 1 + (missing.length - 1) / 63
    let nextPow ← nextPowerOfTwo (count * 64)
    let domainCeiling := min nextPow domainSize
    let zeroPoly ← fs.zeroPolyRaw domainSize domainCeiling missing stride count
    let zeroPoly ← fitDomain zeroPoly domainSize
    let zeroEval ← fs.fftFr zeroPoly false
    .ok (zeroEval, zeroPoly)

end Kzg
