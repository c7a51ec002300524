import Verif.Model.Zk.Poly
import Verif.Model.ZeroPoly
import Verif.Model.Recovery
/-!
# Zero polynomials and recovery of zkcrypto (zkcrypto/src/zero_poly.rs, zkcrypto/src/recover.rs)

The structure is that of blst-from-scratch; what differs is the order of some checks, `pad` (which
truncates) instead of `pad_poly` (which reports an error), `unwrap` instead of `?`, and the assertions of
the recovery. The working memory `ZeroWork`, `spliceV`, the inner loop `partialInner` and the helpers
`outDegree`, `missingIdxs`, `checkData` are shared (each with its own line numbers below).
-/

namespace Kzg.ZkP
open Kzg

/-- `usize::next_power_of_two` of the standard library, with overflow checks: the smallest power of two at
least `v`. -/
def stdNextPowerOfTwo (v : Nat) : Res Nat :=
  if v ≤ 2 ^ 63 then .ok (2 ^ bitLen (v - 1)) else .panic

section Zero
variable {F : Type} [Field F] [DecidableEq F]

/-- `do_zero_poly_mul_partial`, zkcrypto/src/zero_poly.rs:25-50; the `while j > 0` loop (40-44) is
`partialInner`. -/
def zeroPolyPartial (fs : FFTSettings F) (idxs : List Nat) (stride : Nat) : Res (List F) :=
  if idxs.isEmpty then .err "index array length mustnt be zero"
  else do
    let poly := List.replicate (idxs.length + 1) (1 : F)
    let i0 ← rd idxs 0
    let r ← rd fs.expandedRoots (i0 * stride)
    let poly ← wr poly 0 (-r)
    forRange 1 idxs.length poly fun i poly => do
      let ii ← rd idxs i
      let r ← rd fs.expandedRoots (ii * stride)
      let negDi := -r
      let poly ← wr poly i negDi
      let x ← rd poly i
      let y ← rd poly (i - 1)
      let poly ← wr poly i (x + y)
      let poly ← partialInner negDi (i - 1) poly
      let z ← rd poly 0
      wr poly 0 (z * negDi)

/-- `reduce_partials`, zkcrypto/src/zero_poly.rs:52-84. The sum of the degrees (54-57) is `outDegree`. -/
def reducePartials (fs : FFTSettings F) (length : Nat) (partials : List (List F)) : Res (List F) := do
  let outDeg ← outDegree partials
  if !isPowerOfTwo length then .err "Expected length to be power of two"
  else if outDeg + 1 > length then .err "Expected out_degree to be within possible polynomial size"
  else do
    let p0 ← rd partials 0
    let padded ← pad p0 length
    let evals ← (fs.fftFr padded false).unwrap
    let evals ← forRange 1 partials.length evals fun i evals => do
      let p ← rd partials i
      let padded ← pad p length
      let pEval ← (fs.fftFr padded false).unwrap
      forRange 0 length evals fun j evals => do
        let x ← rd evals j
        let y ← rd pEval j
        wr evals j (x * y)
    let coeffs ← (fs.fftFr evals true).unwrap
    sliceTo coeffs (outDeg + 1)

/-- One iteration of the loop generating the partials, zkcrypto/src/zero_poly.rs:126-140. -/
def zeroInitStep (fs : FFTSettings F) (missing : List Nat) (stride : Nat) (s : ZeroWork F × Nat × Nat) :
    Res (ZeroWork F × Nat × Nat) := do
  let (w, offset, outOffset) := s
  let stop := min (offset + 63) missing.length
  let idxs ← slice missing offset stop
  let partialPoly ← zeroPolyPartial fs idxs stride
  let padded ← pad partialPoly 64
  let work ← spliceV w.work outOffset (outOffset + 64) padded
  .ok (⟨work, w.lens ++ [64], w.offsets ++ [outOffset]⟩, offset + 63, outOffset + 64)

/-- Body of the `for i in 0..reduced_count` loop, zkcrypto/src/zero_poly.rs:150-178. -/
def zeroGroup (fs : FFTSettings F) (length domainCeiling partialSize count : Nat) (i : Nat) (s : ZeroWork F) :
    Res (ZeroWork F) := do
  let start := i * 4
  let outEnd := min ((start + 4) * partialSize) domainCeiling
  let len ← subU outEnd (start * partialSize)
  let reducedLen := min len length
  let left ← subU count start
  let partialsNum := min 4 left
  let offsets ← wr s.offsets i (start * partialSize)
  let (offsets, partialVec) ← forRange 0 partialsNum (offsets, ([] : List (List F)))
    fun j (st : List Nat × List (List F)) => do
      let offsets ← wr st.1 (i + j) ((start + j) * partialSize)
      let o ← rd offsets (i + j)
      let l ← rd s.lens (i + j)
      let c ← slice s.work o (o + l)
      .ok (offsets, st.2 ++ [c])
  if partialsNum > 1 then do
    let reduced ← reducePartials fs reducedLen partialVec
    let lens ← wr s.lens i reduced.length
    let padded ← pad reduced (partialSize * partialsNum)
    let o ← rd offsets i
    let work ← spliceV s.work o (o + padded.length) padded
    .ok ⟨work, lens, offsets⟩
  else do
    let l ← rd s.lens start
    let lens ← wr s.lens i l
    .ok ⟨s.work, lens, offsets⟩

/-- The `while partial_count > 1` loop, zkcrypto/src/zero_poly.rs:146-181. The count decreases in every
iteration, so the initial count is enough fuel (running out is a panic, proved unreachable). -/
def zeroReduce (fs : FFTSettings F) (length domainCeiling : Nat) :
    (fuel : Nat) → (count : Nat) → ZeroWork F → Res (ZeroWork F)
  | 0, _, _ => .panic
  | fuel + 1, count, s =>
    if count > 1 then do
      let reducedCount := 1 + (count - 1) / 4
      let l0 ← rd s.lens 0
      let partialSize ← stdNextPowerOfTwo l0
      let s ← forRange 0 reducedCount s (zeroGroup fs length domainCeiling partialSize count)
      zeroReduce fs length domainCeiling fuel reducedCount s
    else .ok s

/-- The branch for more than 63 indices, zkcrypto/src/zero_poly.rs:116-184. -/
def zeroPolyLarge (fs : FFTSettings F) (length domainCeiling : Nat) (missing : List Nat) (stride count : Nat) :
    Res (List F) := do
  let n ← stdNextPowerOfTwo (count * 64)
  let (w, _, _) ← forRange 0 count
    ((⟨List.replicate n 0, [], []⟩, 0, 0) : ZeroWork F × Nat × Nat)
    fun _ s => zeroInitStep fs missing stride s
  let last ← subU (1 + missing.length) ((count - 1) * 63)
  let lens ← wr w.lens (count - 1) last
  let w ← zeroReduce fs length domainCeiling (count + 1) count { w with lens := lens }
  .ok w.work

/-- Computation of `zero_poly`, zkcrypto/src/zero_poly.rs:113-184. -/
def zeroPolyRaw (fs : FFTSettings F) (length domainCeiling : Nat) (missing : List Nat) (stride count : Nat) :
    Res (List F) :=
  if missing.length ≤ 63 then (zeroPolyPartial fs missing stride).unwrap
  else zeroPolyLarge fs length domainCeiling missing stride count

/-- Padding or truncation to the length, zkcrypto/src/zero_poly.rs:186-190. -/
def fitDomain (zeroPoly : List F) (length : Nat) : Res (List F) :=
  if zeroPoly.length < length then pad zeroPoly length
  else if zeroPoly.length > length then sliceTo zeroPoly length
  else .ok zeroPoly

/-- `zero_poly_via_multiplication`, zkcrypto/src/zero_poly.rs:86-195. Returns `(zero_eval, zero_poly)`.
`is_power_of_two` of the standard library has the value of `isPowerOfTwo`. -/
def zeroPolyViaMultiplication (fs : FFTSettings F) (length : Nat) (missing : List Nat) :
    Res (List F × List F) :=
  if missing.isEmpty then .ok ([], [])
  else if missing.length ≥ length then .err "Missing indexes are greater than domain size"
  else if length > fs.maxWidth then .err "Domain size is greater than fft_settings.max_width"
  else if !isPowerOfTwo length then .err "Domain size must be a power of 2"
  else do
    let stride := fs.maxWidth / length
    let count := (63 + missing.length - 1) / 63
    let nextPow ← stdNextPowerOfTwo (count * 64)
    let domainCeiling := min nextPow length
    let zeroPoly ← zeroPolyRaw fs length domainCeiling missing stride count
    let zeroPoly ← fitDomain zeroPoly length
    let zeroEval ← fs.fftFr zeroPoly false
    .ok (zeroEval, zeroPoly)

end Zero

/-! ### Recovery -/

section Recover
variable {F : Type} [Field F] [DecidableEq F]

/-- The loop `factor_power = factor_power.mul(&factor); p[i] = p[i].mul(&factor_power)` from `i = 1` to the
length, zkcrypto/src/recover.rs:39-43, 49-53 and 81-85. -/
def scaleSeq (factor : F) (p : List F) : Res (List F) := do
  let s ← forRange 1 p.length ((1 : F), p) fun i s => do
    let factorPower := s.1 * factor
    let c ← rd s.2 i
    let v ← wr s.2 i (c * factorPower)
    .ok (factorPower, v)
  .ok s.2

/-- `scale_poly`, zkcrypto/src/recover.rs:15-55, without the parallel feature. -/
def scalePoly (p : List F) : Res (List F) := do
  let inv ← frInv (5 : F)
  scaleSeq inv p

/-- `unscale_poly`, zkcrypto/src/recover.rs:58-87, without the parallel feature. -/
def unscalePoly (p : List F) : Res (List F) := scaleSeq (5 : F) p

/-- The mask assertion, zkcrypto/src/recover.rs:103-105: the loop runs over the zero evaluations, of which
there are none if nothing is missing. -/
def checkMask (samples : List (Option F)) (zeroEval : List F) : Res Unit :=
  forRange 0 (min zeroEval.length samples.length) () fun i _ => do
    let z ← rd zeroEval i
    let s ← rd samples i
    if s.isNone = decide (z = 0) then .ok () else .panic

/-- The product with the zero polynomial, zkcrypto/src/recover.rs:107-115. -/
def evalsWithZero (samples : List (Option F)) (zeroEval : List F) : Res (List F) :=
  forRange 0 samples.length (List.replicate samples.length (0 : F)) fun i acc => do
    let s ← rd samples i
    match s with
    | none => wr acc i 0
    | some v => do
      let z ← rd zeroEval i
      wr acc i (v * z)

/-- The element-wise division, zkcrypto/src/recover.rs:177-180; `div` never returns an error. -/
def divPointwise (a b : List F) (len : Nat) : Res (List F) :=
  forRange 0 len a fun i acc => do
    let x ← rd a i
    let y ← rd b i
    let q ← frDiv x y
    wr acc i q

/-- `recover_poly_from_samples`, zkcrypto/src/recover.rs:90-193, without the parallel feature. The collection
of the missing positions (92-99) is `missingIdxs`, the final assertion (188-190) is `checkData`. -/
def recover (fs : FFTSettings F) (samples : List (Option F)) : Res (List F) :=
  if !isPowerOfTwo samples.length then .panic
  else do
    let (zeroEval, zeroPoly) ← (zeroPolyViaMultiplication fs samples.length (missingIdxs samples)).unwrap
    checkMask samples zeroEval
    let ez ← evalsWithZero samples zeroEval
    let polyWithZero ← (fs.fftFr ez true).unwrap
    let scaledPolyWithZero ← scalePoly polyWithZero
    let scaledZeroPoly ← scalePoly zeroPoly
    let evalPoly ← (fs.fftFr scaledPolyWithZero false).unwrap
    let evalZero ← (fs.fftFr scaledZeroPoly false).unwrap
    let evalRec ← divPointwise evalPoly evalZero samples.length
    let scaledRec ← (fs.fftFr evalRec true).unwrap
    let rec' ← unscalePoly scaledRec
    let out ← (fs.fftFr rec' false).unwrap
    checkData .panic samples out samples.length
    .ok out

end Recover

/-! ### The scaling tables of the parallel feature -/

section Tables
variable {F : Type} [Field F] [DecidableEq F]

/-- Growing one of the vectors `INVERSE_FACTORS`, `UNSCALE_FACTOR_POWERS`, zkcrypto/src/recover.rs:24-31 and
64-71. -/
def growTable (factor : F) (table : List F) (n : Nat) : Res (List F) :=
  if table.length < n then
    let table := if table.isEmpty then [1] else table
    forRange table.length n table fun i t => do
      let k ← subU i 1
      let x ← rd t k
      .ok (t ++ [x * factor])
  else .ok table

/-- `for i in 1..p.len() { p[i] = p[i].mul(&TABLE[i]) }`, zkcrypto/src/recover.rs:33-35 and 73-75. -/
def scaleByTable (table p : List F) : Res (List F) :=
  forRange 1 p.length p fun i p => do
    let x ← rd p i
    let f ← rd table i
    wr p i (x * f)

/-- `scale_poly` with the parallel feature, zkcrypto/src/recover.rs:15-45: the new table and the scaled
polynomial. -/
def scalePolyPar (table p : List F) : Res (List F × List F) := do
  let inv ← frInv (5 : F)
  let k ← subU p.length 1
  let optim ← stdNextPowerOfTwo k
  if optim ≤ 1024 then do
    let table ← growTable inv table p.length
    let p ← scaleByTable table p
    .ok (table, p)
  else do
    let p ← scaleSeq inv p
    .ok (table, p)

/-- `unscale_poly` with the parallel feature, zkcrypto/src/recover.rs:58-77. -/
def unscalePolyPar (table p : List F) : Res (List F × List F) := do
  let table ← growTable (5 : F) table p.length
  let p ← scaleByTable table p
  .ok (table, p)

/-- `recover_poly_from_samples` with the parallel feature, zkcrypto/src/recover.rs:90-165, on the tables
`(INVERSE_FACTORS, UNSCALE_FACTOR_POWERS)`: the new tables and the data. The two `rayon::join` calls run on
separate vectors; they are taken only above 1024, where `scale_poly` leaves its table alone. -/
def recoverPar (fs : FFTSettings F) (tables : List F × List F) (samples : List (Option F)) :
    Res ((List F × List F) × List F) :=
  if !isPowerOfTwo samples.length then .panic
  else do
    let (zeroEval, zeroPoly) ← (zeroPolyViaMultiplication fs samples.length (missingIdxs samples)).unwrap
    checkMask samples zeroEval
    let ez ← evalsWithZero samples zeroEval
    let polyWithZero ← (fs.fftFr ez true).unwrap
    let k ← subU polyWithZero.length 1
    let _ ← nextPowerOfTwo k
    let (inv, scaledPolyWithZero) ← scalePolyPar tables.1 polyWithZero
    let (inv, scaledZeroPoly) ← scalePolyPar inv zeroPoly
    let evalPoly ← (fs.fftFr scaledPolyWithZero false).unwrap
    let evalZero ← (fs.fftFr scaledZeroPoly false).unwrap
    let evalRec ← divPointwise evalPoly evalZero samples.length
    let scaledRec ← (fs.fftFr evalRec true).unwrap
    let (pow, rec') ← unscalePolyPar tables.2 scaledRec
    let out ← (fs.fftFr rec' false).unwrap
    checkData .panic samples out samples.length
    .ok ((inv, pow), out)

/-! Several threads inside the `unsafe` blocks. Every call of a method of the shared vector is one step
(zkcrypto/src/recover.rs:24-35 and 64-75); nothing orders the steps of different threads. This is generous:
the language leaves even these unsynchronised accesses undefined. -/

/-- Where a thread is. -/
inductive Pc (F : Type) where
  /-- before `TABLE.len() < p.len()` -/
  | start
  /-- before `TABLE.is_empty()` -/
  | checkEmpty
  /-- before `TABLE.push(one)` -/
  | pushOne
  /-- before `TABLE.len()` in the range -/
  | range
  /-- before reading `TABLE[i-1]` in iteration `i` -/
  | readPrev (i : Nat)
  /-- before pushing the product in iteration `i` -/
  | push (i : Nat) (x : F)
  /-- before reading `TABLE[i]` in the second loop -/
  | mul (i : Nat)
  | done

/-- A thread: its position and its polynomial. -/
structure Thread (F : Type) where
  pc : Pc F
  p : List F

/-- Start of the iteration `i` of the growing loop, or the first iteration of the second loop. -/
def growFrom (n i : Nat) : Pc F := if i < n then .readPrev i else if 1 < n then .mul 1 else .done

/-- One step of a thread on the shared table. -/
def threadStep (factor : F) (table : List F) (t : Thread F) : Res (List F × Thread F) :=
  let n := t.p.length
  match t.pc with
  | .start => .ok (table, { t with pc :=
      if table.length < n then .checkEmpty else if 1 < n then .mul 1 else .done })
  | .checkEmpty => .ok (table, { t with pc := if table.isEmpty then .pushOne else .range })
  | .pushOne => .ok (table ++ [1], { t with pc := .range })
  | .range => .ok (table, { t with pc := growFrom n table.length })
  | .readPrev i => do
    let k ← subU i 1
    let x ← rd table k
    .ok (table, { t with pc := .push i (x * factor) })
  | .push i x => .ok (table ++ [x], { t with pc := growFrom n (i + 1) })
  | .mul i => do
    let x ← rd t.p i
    let f ← rd table i
    let p ← wr t.p i (x * f)
    .ok (table, ⟨if i + 1 < n then .mul (i + 1) else .done, p⟩)
  | .done => .ok (table, t)

/-- A run of several threads: the schedule names the thread of every step. -/
def runThreads (factor : F) : (schedule : List Nat) → List F → List (Thread F) →
    Res (List F × List (Thread F))
  | [], table, ts => .ok (table, ts)
  | i :: is, table, ts => do
    let t ← rd ts i
    let (table, t) ← threadStep factor table t
    let ts ← wr ts i t
    runThreads factor is table ts

end Tables
end Kzg.ZkP
