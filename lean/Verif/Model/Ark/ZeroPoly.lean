import Verif.Model.Ark.Poly
import Verif.Model.ZeroPoly
import Verif.Model.Recovery
/-!
# Zero polynomials and recovery of the Arkworks backend (Arkworks/src/zero_poly.rs, Arkworks/src/recover.rs)

`spliceV`, the sum of the degrees `outDegree`, the list of the missing positions `missingIdxs` and the loop over a
partial product `partialInner` are those of `Verif.Model.ZeroPoly` and `Verif.Model.Recovery`, the scaling loops those
of `Verif.Model.Zk.ZeroPoly`; each is cited with its own line numbers below.
-/

namespace Kzg.Ark
open ZkP (stdNextPowerOfTwo)

section Zero
variable {F : Type} [Field F] [DecidableEq F]

/-- `do_zero_poly_mul_partial`, Arkworks/src/zero_poly.rs:27-59; the `while j > 0` loop (48-53) is `partialInner`. The
list of ones goes through `DensePolynomial`, which drops trailing zeros; there are none. -/
def zeroPolyPartial (fs : FFTSettings F) (indices : List Nat) (stride : Nat) : Res (List F) :=
  if indices.isEmpty then .err "idx array must be non-zero"
  else do
    let poly := polyNorm (List.replicate (indices.length + 1) (1 : F))
    let i0 ← rd indices 0
    let r ← rd fs.expandedRoots (i0 * stride)
    let poly ← wr poly 0 (-r)
    forRange 1 indices.length poly fun i poly => do
      let ii ← rd indices i
      let r ← rd fs.expandedRoots (ii * stride)
      let negDi := -r
      let y ← rd poly (i - 1)
      let poly ← wr poly i (negDi + y)
      let poly ← partialInner negDi (i - 1) poly
      let z ← rd poly 0
      wr poly 0 (z * negDi)

variable [Lib F]

/-- `reduce_partials`, Arkworks/src/zero_poly.rs:61-92. The sum of the degrees (62-65) is `outDegree`. The length is not
tested for being a power of two; the transforms are unwrapped. -/
def reducePartials (fs : FFTSettings F) (lenOut : Nat) (partials : List (List F)) : Res (List F) := do
  let outDeg ← outDegree partials
  if outDeg + 1 > lenOut then .err "Expected domain size to be a power of 2"
  else do
    let p0 ← rd partials 0
    let evals ← (fftFr fs (padPoly p0 lenOut) false).unwrap
    let evals ← forRange 1 partials.length evals fun i evals => do
      let p ← rd partials i
      let pEval ← (fftFr fs (padPoly p lenOut) false).unwrap
      forRange 0 lenOut evals fun j evals => do
        let x ← rd evals j
        let y ← rd pEval j
        wr evals j (x * y)
    let coeffs ← fftFr fs evals true
    sliceTo coeffs (outDeg + 1)

/-- One iteration of the loop generating the partials, Arkworks/src/zero_poly.rs:141-155: the vectors `work` and
`partial_lens`, and the offsets `offset` and `out_offset`. -/
def zeroInitStep (fs : FFTSettings F) (missing : List Nat) (stride : Nat)
    (s : (List F × List Nat) × Nat × Nat) : Res ((List F × List Nat) × Nat × Nat) := do
  let ((work, lens), offset, outOffset) := s
  let stop := min (offset + 63) missing.length
  let idxs ← slice missing offset stop
  let partialPoly ← zeroPolyPartial fs idxs stride
  let work ← spliceV work outOffset (outOffset + 64) (padPoly partialPoly 64)
  .ok ((work, lens ++ [64]), offset + 63, outOffset + 64)

/-- Body of the `for i in 0..reduced_count` loop, Arkworks/src/zero_poly.rs:165-189. -/
def zeroGroup (fs : FFTSettings F) (length domainCeiling partialSize count : Nat) (i : Nat)
    (s : List F × List Nat) : Res (List F × List Nat) := do
  let start := i * 4
  let outEnd := min ((start + 4) * partialSize) domainCeiling
  let len ← subU outEnd (start * partialSize)
  let reducedLen := min len length
  let left ← subU count start
  let partialsNum := min 4 left
  let partialVec ← forRange 0 partialsNum ([] : List (List F)) fun j vec => do
    let k := (start + j) * partialSize
    let l ← rd s.2 (i + j)
    let c ← slice s.1 k (k + l)
    .ok (vec ++ [c])
  if partialsNum > 1 then do
    let reduced ← reducePartials fs reducedLen partialVec
    let lens ← wr s.2 i reduced.length
    let padded := padPoly reduced (partialSize * partialsNum)
    let work ← spliceV s.1 (start * partialSize) (start * partialSize + padded.length) padded
    .ok (work, lens)
  else do
    let l ← rd s.2 start
    let lens ← wr s.2 i l
    .ok (s.1, lens)

/-- The `while partial_count > 1` loop, Arkworks/src/zero_poly.rs:160-192. The count decreases in every iteration, so
the initial count is enough fuel (running out is a panic, proved unreachable). -/
def zeroReduce (fs : FFTSettings F) (length domainCeiling : Nat) :
    (fuel : Nat) → (count : Nat) → List F × List Nat → Res (List F × List Nat)
  | 0, _, _ => .panic
  | fuel + 1, count, s =>
    if count > 1 then do
      let reducedCount := 1 + (count - 1) / 4
      let l0 ← rd s.2 0
      let partialSize ← stdNextPowerOfTwo l0
      let s ← forRange 0 reducedCount s (zeroGroup fs length domainCeiling partialSize count)
      zeroReduce fs length domainCeiling fuel reducedCount s
    else .ok s

/-- The branch for more than 63 indices, Arkworks/src/zero_poly.rs:131-195. -/
def zeroPolyLarge (fs : FFTSettings F) (length domainCeiling : Nat) (missing : List Nat) (stride count : Nat) :
    Res (List F) := do
  let n ← stdNextPowerOfTwo (count * 64)
  let ((work, lens), _, _) ← forRange 0 count
    (((List.replicate n 0, []), 0, 0) : (List F × List Nat) × Nat × Nat)
    fun _ s => zeroInitStep fs missing stride s
  let last ← subU (1 + missing.length) ((count - 1) * 63)
  let lens ← wr lens (count - 1) last
  let (work, _) ← zeroReduce fs length domainCeiling (count + 1) count (work, lens)
  .ok work

/-- Computation of `zero_poly`, Arkworks/src/zero_poly.rs:127-195. -/
def zeroPolyRaw (fs : FFTSettings F) (length domainCeiling : Nat) (missing : List Nat) (stride count : Nat) :
    Res (List F) :=
  if missing.length ≤ 63 then zeroPolyPartial fs missing stride
  else zeroPolyLarge fs length domainCeiling missing stride count

omit [DecidableEq F] [Lib F] in
/-- Padding or truncation to the length, Arkworks/src/zero_poly.rs:197-201. -/
def fitDomain (zeroPoly : List F) (length : Nat) : Res (List F) :=
  if zeroPoly.length < length then .ok (padPoly zeroPoly length)
  else if zeroPoly.length > length then sliceTo zeroPoly length
  else .ok zeroPoly

/-- `zero_poly_via_multiplication`, Arkworks/src/zero_poly.rs:95-212. Returns `(zero_eval, zero_poly)`. -/
def zeroPolyViaMultiplication (fs : FFTSettings F) (length : Nat) (missing : List Nat) :
    Res (List F × List F) :=
  if missing.isEmpty then .ok ([], [])
  else if missing.length ≥ length then .err "Missing idxs greater than domain size"
  else if length > fs.maxWidth then .err "Domain size greater than fft_settings.max_width"
  else if !isPowerOfTwo length then .err "Domain size must be a power of 2"
  else do
    let stride := fs.maxWidth / length
    let count := (63 + missing.length - 1) / 63
    let nextPow ← stdNextPowerOfTwo (count * 64)
    let domainCeiling := min nextPow length
    let zeroPoly ← zeroPolyRaw fs length domainCeiling missing stride count
    let zeroPoly ← fitDomain zeroPoly length
    let zeroEval ← fftFr fs zeroPoly false
    .ok (zeroEval, zeroPoly)

end Zero

/-! ### Recovery -/

section Recover
variable {F : Type} [Field F] [DecidableEq F]

/-- `scale_poly`, Arkworks/src/recover.rs:13-50, without the parallel feature; the loop (44-48) is `ZkP.scaleSeq`. -/
def scalePoly (p : List F) : Res (List F) := do
  let inv ← frInv (5 : F)
  ZkP.scaleSeq inv p

/-- `unscale_poly`, Arkworks/src/recover.rs:53-80, without the parallel feature; the loop (74-78) is
`ZkP.scaleSeq`. -/
def unscalePoly (p : List F) : Res (List F) := ZkP.scaleSeq (5 : F) p

/-- `scale_poly` with the parallel feature, Arkworks/src/recover.rs:13-41: the new table `INVERSE_FACTORS` and the scaled
polynomial. Growing the table (21-28) is `ZkP.growTable`, the multiplication (30-32) `ZkP.scaleByTable`. -/
def scalePolyPar (table p : List F) : Res (List F × List F) := do
  let inv ← frInv (5 : F)
  let k ← subU p.length 1
  let optim ← stdNextPowerOfTwo k
  if optim ≤ 1024 then do
    let table ← ZkP.growTable inv table p.length
    let p ← ZkP.scaleByTable table p
    .ok (table, p)
  else do
    let p ← ZkP.scaleSeq inv p
    .ok (table, p)

/-- `unscale_poly` with the parallel feature, Arkworks/src/recover.rs:53-71, on the table `UNSCALE_FACTOR_POWERS`. -/
def unscalePolyPar (table p : List F) : Res (List F × List F) := do
  let table ← ZkP.growTable (5 : F) table p.length
  let p ← ZkP.scaleByTable table p
  .ok (table, p)

/-- The comparison of the mask, Arkworks/src/recover.rs:103-107: the loop runs over the zero evaluations, of which there
are none if nothing is missing. -/
def checkMask (samples : List (Option F)) (zeroEval : List F) : Res Unit :=
  forRange 0 (min zeroEval.length samples.length) () fun i _ => do
    let s ← rd samples i
    let z ← rd zeroEval i
    if s.isNone != decide (z = 0) then .err "sample and item are both zero" else .ok ()

omit [DecidableEq F] in
/-- The product with the zero polynomial, Arkworks/src/recover.rs:111-119. -/
def evalsWithZero (samples : List (Option F)) (zeroEval : List F) : Res (List F) :=
  forRange 0 samples.length (List.replicate samples.length (0 : F)) fun i acc => do
    let s ← rd samples i
    match s with
    | none => wr acc i 0
    | some v => do
      let z ← rd zeroEval i
      wr acc i (v * z)

/-- The element-wise division, Arkworks/src/recover.rs:183-186. -/
def divPointwise (a b : List F) (len : Nat) : Res (List F) :=
  forRange 0 len a fun i acc => do
    let x ← rd a i
    let y ← rd b i
    let q ← (frDiv x y).unwrap
    wr acc i q

variable [Lib F]

/-- `recover_poly_from_samples`, Arkworks/src/recover.rs:82-211, without the parallel feature. The collection of the
missing positions (88-96) is `missingIdxs`, the final comparison (204-209) is `checkData`. -/
def recover (fs : FFTSettings F) (samples : List (Option F)) : Res (List F) :=
  if !isPowerOfTwo samples.length then .err "samples lenght has to be power of 2"
  else do
    let (zeroEval, zeroPoly) ← (zeroPolyViaMultiplication fs samples.length (missingIdxs samples)).unwrap
    checkMask samples zeroEval
    let ez ← evalsWithZero samples zeroEval
    let polyWithZero ← (fftFr fs ez true).unwrap
    let scaledPolyWithZero ← scalePoly polyWithZero
    let scaledZeroPoly ← scalePoly zeroPoly
    let evalPoly ← (fftFr fs scaledPolyWithZero false).unwrap
    let evalZero ← (fftFr fs scaledZeroPoly false).unwrap
    let evalRec ← divPointwise evalPoly evalZero samples.length
    let scaledRec ← (fftFr fs evalRec true).unwrap
    let rec' ← unscalePoly scaledRec
    let out ← (fftFr fs rec' false).unwrap
    checkData (.err "sample is zero and out coeff at i is not equals to sample") samples out samples.length
    .ok out

/-- `recover_poly_from_samples` with the parallel feature, Arkworks/src/recover.rs:82-211, on the tables
`(INVERSE_FACTORS, UNSCALE_FACTOR_POWERS)`: the new tables and the data. The `rayon::join` calls run on separate
vectors; they are taken only above 1024, where `scale_poly` leaves its table alone. -/
def recoverPar (fs : FFTSettings F) (tables : List F × List F) (samples : List (Option F)) :
    Res ((List F × List F) × List F) :=
  if !isPowerOfTwo samples.length then .err "samples lenght has to be power of 2"
  else do
    let (zeroEval, zeroPoly) ← (zeroPolyViaMultiplication fs samples.length (missingIdxs samples)).unwrap
    checkMask samples zeroEval
    let ez ← evalsWithZero samples zeroEval
    let polyWithZero ← (fftFr fs ez true).unwrap
    let k ← subU polyWithZero.length 1
    let _ ← stdNextPowerOfTwo k
    let (inv, scaledPolyWithZero) ← scalePolyPar tables.1 polyWithZero
    let (inv, scaledZeroPoly) ← scalePolyPar inv zeroPoly
    let evalPoly ← (fftFr fs scaledPolyWithZero false).unwrap
    let evalZero ← (fftFr fs scaledZeroPoly false).unwrap
    let evalRec ← divPointwise evalPoly evalZero samples.length
    let scaledRec ← (fftFr fs evalRec true).unwrap
    let (pow, rec') ← unscalePolyPar tables.2 scaledRec
    let out ← (fftFr fs rec' false).unwrap
    checkData (.err "sample is zero and out coeff at i is not equals to sample") samples out samples.length
    .ok ((inv, pow), out)

end Recover
end Kzg.Ark
