import Verif.Model.Mcl.Poly
import Verif.Model.ZeroPoly
import Verif.Model.Recovery
/-!
# Zero polynomials and recovery of mcl-kzg (mcl-kzg/kzg/src/zero_poly.rs, mcl-kzg/kzg/src/data_recovery.rs)

The working memory `ZeroWork`, `spliceV`, the sum of the degrees `outDegree` and the list of the missing
positions `missingIdxs` are those of `Verif.Model.ZeroPoly` and `Verif.Model.Recovery`, with their own line
numbers below.
-/

namespace Kzg.Mcl
open Kzg

section Zero
variable {F : Type} [Field F] [DecidableEq F] [Lib F]

/-- `pad_poly`, mcl-kzg/kzg/src/zero_poly.rs:8-22. -/
def padPoly (newLength : Nat) (poly : List F) : Res (List F) :=
  if newLength < poly.length then .err "new_length must not be shorter then given poly's length"
  else .ok (poly ++ List.replicate (newLength - poly.length) 0)

/-- The loop `for j in (1..i).rev()`, mcl-kzg/kzg/src/zero_poly.rs:44-46; the argument is one above the next
`j`. -/
def partialInner (negDi : F) : (i : Nat) → List F → Res (List F)
  | 0, poly => .ok poly
  | j + 1, poly =>
    if j = 0 then .ok poly
    else do
      let x ← rd poly j
      let y ← rd poly (j - 1)
      let poly ← wr poly j (x * negDi + y)
      partialInner negDi j poly

/-- `do_zero_poly_mul_partial`, mcl-kzg/kzg/src/zero_poly.rs:28-52. -/
def zeroPolyPartial (fs : FFTSettings F) (indices : List Nat) (stride : Nat) : Res (List F) :=
  if indices.isEmpty then .err "Missing indices array must not be empty"
  else do
    let poly := List.replicate (indices.length + 1) (1 : F)
    let i0 ← rd indices 0
    let r ← rd fs.expandedRoots (i0 * stride)
    let poly ← wr poly 0 (-r)
    forRange 1 indices.length poly fun i poly => do
      let item ← rd indices i
      let r ← rd fs.expandedRoots (item * stride)
      let poly ← wr poly i (-r)
      let negDi ← rd poly i
      let x ← rd poly i
      let y ← rd poly (i - 1)
      let poly ← wr poly i (x + y)
      let poly ← partialInner negDi i poly
      let z ← rd poly 0
      wr poly 0 (z * negDi)

/-- `reduce_partials`, mcl-kzg/kzg/src/zero_poly.rs:56-92. The sum of the degrees (66-69) is `outDegree`. -/
def reducePartials (fs : FFTSettings F) (lenOut : Nat) (partials : List (List F)) : Res (List F) := do
  if !(← isPowerOf2 lenOut) then .err "len out must be a power of two"
  else do
    let outDeg ← outDegree partials
    if outDeg + 1 > lenOut then .err "Out degree is longer than out len"
    else do
      let n ← subU partials.length 1
      let last ← rd partials n
      let padded ← (padPoly lenOut last).unwrap
      let evalResult ← (fft fs padded false).unwrap
      let evalResult ← forRange 0 n evalResult fun i evalResult => do
        let item ← rd partials i
        let padded ← (padPoly lenOut item).unwrap
        let evaluated ← (fft fs padded false).unwrap
        forRange 0 lenOut evalResult fun j evalResult => do
          let x ← rd evalResult j
          let y ← rd evaluated j
          wr evalResult j (x * y)
      let coeffs ← (fft fs evalResult true).unwrap
      sliceTo coeffs (outDeg + 1)

/-- One iteration of the loop generating the partials, mcl-kzg/kzg/src/zero_poly.rs:144-160. -/
def zeroInitStep (fs : FFTSettings F) (missing : List Nat) (stride : Nat) (s : ZeroWork F × Nat × Nat) :
    Res (ZeroWork F × Nat × Nat) := do
  let (w, missingOffset, workOffset) := s
  let stop := min (missingOffset + 63) missing.length
  let idxs ← slice missing missingOffset stop
  let partialPoly ← (zeroPolyPartial fs idxs stride).unwrap
  let padded ← (padPoly 64 partialPoly).unwrap
  let work ← spliceV w.work workOffset (workOffset + 64) padded
  .ok (⟨work, w.lens ++ [64], w.offsets ++ [workOffset]⟩, missingOffset + 63, workOffset + 64)

/-- Body of the `for i in 0..reduced_count` loop, mcl-kzg/kzg/src/zero_poly.rs:171-201. -/
def zeroGroup (fs : FFTSettings F) (length domainCeiling partialSize count : Nat) (i : Nat) (s : ZeroWork F) :
    Res (ZeroWork F) := do
  let start := i * 4
  let outEnd := min ((start + 4) * partialSize) domainCeiling
  let len ← subU outEnd (start * partialSize)
  let reducedLen := min len length
  let left ← subU count start
  let partialsNum := min 4 left
  let offsets ← wr s.offsets i (start * partialSize)
  let (offsets, partialVec) ← forRange 0 partialsNum (offsets, ([] : List (List F)))
    fun j (st : List Nat × List (List F)) => do
      let offsets ← wr st.1 (i + j) ((start + j) * partialSize)
      let o ← rd offsets (i + j)
      let l ← rd s.lens (i + j)
      let c ← slice s.work o (o + l)
      .ok (offsets, st.2 ++ [c])
  if partialsNum > 1 then do
    let reduced ← (reducePartials fs reducedLen partialVec).unwrap
    let lens ← wr s.lens i reduced.length
    let padded ← (padPoly (partialSize * partialsNum) reduced).unwrap
    let o ← rd offsets i
    let work ← spliceV s.work o (o + padded.length) padded
    .ok ⟨work, lens, offsets⟩
  else do
    let l ← rd s.lens start
    let lens ← wr s.lens i l
    .ok ⟨s.work, lens, offsets⟩

/-- The `while partial_count > 1` loop, mcl-kzg/kzg/src/zero_poly.rs:167-204. The count decreases in every
iteration, so the initial count is enough fuel (running out is a panic, proved unreachable). -/
def zeroReduce (fs : FFTSettings F) (length domainCeiling : Nat) :
    (fuel : Nat) → (count : Nat) → ZeroWork F → Res (ZeroWork F)
  | 0, _, _ => .panic
  | fuel + 1, count, s =>
    if count > 1 then do
      let reducedCount := 1 + (count - 1) / 4
      let l0 ← rd s.lens 0
      let partialSize ← nextPowOf2 l0
      let s ← forRange 0 reducedCount s (zeroGroup fs length domainCeiling partialSize count)
      zeroReduce fs length domainCeiling fuel reducedCount s
    else .ok s

/-- The branch for more than 63 indices, mcl-kzg/kzg/src/zero_poly.rs:131-207. -/
def zeroPolyLarge (fs : FFTSettings F) (length domainCeiling : Nat) (missing : List Nat) (stride count : Nat) :
    Res (List F) := do
  let n ← nextPowOf2 (count * 64)
  let (w, _, _) ← forRange 0 count
    ((⟨List.replicate n 0, [], []⟩, 0, 0) : ZeroWork F × Nat × Nat)
    fun _ s => zeroInitStep fs missing stride s
  let last ← subU (1 + missing.length) ((count - 1) * 63)
  let lens ← wr w.lens (count - 1) last
  let w ← zeroReduce fs length domainCeiling (count + 1) count { w with lens := lens }
  .ok w.work

/-- Computation of `zero_poly`, mcl-kzg/kzg/src/zero_poly.rs:127-207. -/
def zeroPolyRaw (fs : FFTSettings F) (length domainCeiling : Nat) (missing : List Nat) (stride count : Nat) :
    Res (List F) :=
  if missing.length ≤ 63 then (zeroPolyPartial fs missing stride).unwrap
  else zeroPolyLarge fs length domainCeiling missing stride count

/-- `zero_poly_via_multiplication`, mcl-kzg/kzg/src/zero_poly.rs:97-213, and of the trait. Returns
`(zero_eval, zero_poly)`. -/
def zeroPolyViaMultiplication (fs : FFTSettings F) (length : Nat) (missing : List Nat) :
    Res (List F × List F) :=
  if missing.isEmpty then .ok (List.replicate length 0, List.replicate length 0)
  else if missing.length ≥ length then .err "Missing indice count is bigger than length"
  else if length > fs.maxWidth then .err "Length is bigger than fft_settings.max_width"
  else do
    if !(← isPowerOf2 length) then .err "Length must be a power of 2"
    else do
      let stride := fs.maxWidth / length
      let count := 1 + (missing.length - 1) / 63
      let nextPow ← nextPowOf2 (count * 64)
      let domainCeiling := min nextPow length
      let zeroPoly ← zeroPolyRaw fs length domainCeiling missing stride count
      let zeroPoly ← padCoeffsMut zeroPoly zeroPoly.length length
      let zeroEval ← (fft fs zeroPoly false).unwrap
      .ok (zeroEval, zeroPoly)

end Zero

/-! ### Recovery -/

section Recover
variable {F : Type} [Field F] [DecidableEq F] [Lib F]

/-- `_shift_in_place`, mcl-kzg/kzg/src/data_recovery.rs:72-78. -/
def shiftInPlace (factor : F) (coeffs : List F) : Res (List F) := do
  let s ← forRange 0 coeffs.length ((1 : F), coeffs) fun i s => do
    let c ← rd s.2 i
    let v ← wr s.2 i (c * s.1)
    .ok (s.1 * factor, v)
  .ok s.2

/-- `shift_in_place`, mcl-kzg/kzg/src/data_recovery.rs:18-42, without the parallel feature. `PRIMITIVE_ROOT` is 5
(mcl-kzg/kzg/src/fk20_fft.rs:90). -/
def shift (coeffs : List F) : Res (List F) := do
  let inv ← frInv (5 : F)
  shiftInPlace inv coeffs

/-- `unshift_in_place`, mcl-kzg/kzg/src/data_recovery.rs:45-69, without the parallel feature. -/
def unshift (coeffs : List F) : Res (List F) := shiftInPlace (5 : F) coeffs

/-- The table of the parallel feature, mcl-kzg/kzg/src/data_recovery.rs:22-32 and 49-59: 65536 powers. -/
def powTable (factor : F) : Res (List F) :=
  forRange 1 65536 [(1 : F)] fun i temp => do
    let x ← rd temp (i - 1)
    .ok (temp ++ [x * factor])

/-- `for i in 1..self.order() { self.coeffs[i] *= &factors[i] }`, mcl-kzg/kzg/src/data_recovery.rs:34-36 and
61-63. -/
def mulTable (factors coeffs : List F) : Res (List F) :=
  forRange 1 coeffs.length coeffs fun i c => do
    let f ← rd factors i
    let x ← rd c i
    wr c i (x * f)

/-- `shift_in_place` with the parallel feature, mcl-kzg/kzg/src/data_recovery.rs:18-37. `get_or_init` gives the
same table in every call (C42 is about the cell). -/
def shiftPar (coeffs : List F) : Res (List F) := do
  let inv ← frInv (5 : F)
  let t ← powTable inv
  mulTable t coeffs

/-- `unshift_in_place` with the parallel feature, mcl-kzg/kzg/src/data_recovery.rs:45-64. -/
def unshiftPar (coeffs : List F) : Res (List F) := do
  let t ← powTable (5 : F)
  mulTable t coeffs

/-- The evaluations of the product with the zero polynomial, mcl-kzg/kzg/src/data_recovery.rs:94-101: `zip` stops
at the shorter list. -/
def evalsWithZero (samples : List (Option F)) (zeroEval : List F) : List F :=
  List.zipWith (fun x e => match x with | none => 0 | some v => v * e) samples zeroEval

/-- The quotients, mcl-kzg/kzg/src/data_recovery.rs:159-162: `zip` stops at the shorter list. -/
def divAll : List F → List F → Res (List F)
  | a :: l, b :: l' => do
    let q ← frDiv a b
    let r ← divAll l l'
    .ok (q :: r)
  | _, _ => .ok []

/-- `recover_from_samples` over the two scalings, mcl-kzg/kzg/src/data_recovery.rs:80-171, and
`recover_poly_from_samples` of the trait (mcl-kzg/kzg/src/trait_implementations/poly.rs:74-76). `optim` is the
computation of that name (107-108), which exists with the parallel feature only; the two branches on it do the same
work on separate vectors. -/
def recoverWith (shift unshift : List F → Res (List F)) (optim : Nat → Res Unit) (fs : FFTSettings F)
    (samples : List (Option F)) : Res (List F) := do
  if !(← isPowerOf2 samples.length) then .err "length of samples must be a power of two"
  else do
    let (zeroEval, zeroPoly) ← (zeroPolyViaMultiplication fs samples.length (missingIdxs samples)).unwrap
    let ez := evalsWithZero samples zeroEval
    let polyWithZero ← (fft fs ez true).unwrap
    optim polyWithZero.length
    let polyWithZero ← shift polyWithZero
    let zeroPoly ← shift zeroPoly
    let evalPoly ← (fft fs polyWithZero false).unwrap
    let evalZero ← (fft fs zeroPoly false).unwrap
    let evalRec ← divAll evalPoly evalZero
    let rec' ← (fft fs evalRec true).unwrap
    let rec' ← unshift rec'
    (fft fs rec' false).unwrap

/-- Without the parallel feature. -/
def recover (fs : FFTSettings F) (samples : List (Option F)) : Res (List F) :=
  recoverWith shift unshift (fun _ => .ok ()) fs samples

/-- With the parallel feature. -/
def recoverPar (fs : FFTSettings F) (samples : List (Option F)) : Res (List F) :=
  recoverWith shiftPar unshiftPar (fun n => do
    let k ← subU n 1
    let _ ← nextPowOf2 k
    .ok ()) fs samples

/-- `unwrap_default`, mcl-kzg/kzg/src/data_recovery.rs:173-180. -/
def unwrapDefault (values : List (Option F)) : List F := values.map fun x => x.getD 0

end Recover
end Kzg.Mcl
