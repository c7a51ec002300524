import Verif.Model.FFT
import Verif.Model.FK20
import Verif.Model.Zk.Poly
/-!
# Transforms of points and amortised proofs of zkcrypto (zkcrypto/src/fft_g1.rs, zkcrypto/src/fk20.rs)

The four point operations the two files call are fields of `PtOps`; `Verif.Model.Zk.Kzg` gives the ones of
`G1Projective`. They are not assumed to form a group here: a point is three coordinates, and multiplication can
panic. Scalars range over a field `F` as in `Verif.Model.Zk.Poly`.

Unsigned subtractions are checked (a build with overflow checks), except where a comment says otherwise.
-/

namespace Kzg.ZkP
open Kzg

/-- The operations of the traits `G1` and `G1Mul`, kzg/src/lib.rs, used by the transforms. -/
structure PtOps (F P : Type) where
  identity : P
  addOrDbl : P → P → P
  sub : P → P → P
  mul : P → F → Res P

section
variable {F P : Type} [Field F] [DecidableEq F]

/-- `fft_g1_slow`, zkcrypto/src/fft_g1.rs:7-22. -/
def fftG1Slow (o : PtOps F P) (ret data : List P) (stride : Nat) (roots : List F) (rootsStride : Nat) :
    Res (List P) :=
  forRange 0 data.length ret fun i ret => do
    let d ← rd data 0
    let w ← rd roots 0
    let v ← o.mul d w
    let ret ← wr ret i v
    forRange 1 data.length ret fun j ret => do
      let d ← rd data (j * stride)
      let w ← rd roots (((i * j) % data.length) * rootsStride)
      let v ← o.mul d w
      let x ← rd ret i
      wr ret i (o.addOrDbl x v)

/-- `fft_g1_fast`, zkcrypto/src/fft_g1.rs:58-91. -/
def fftG1Fast (o : PtOps F P) (ret data : List P) (stride : Nat) (roots : List F) (rootsStride : Nat) :
    Res (List P) :=
  let split := ret.length / 2
  if _h : split > 0 then do
    let lo ← fftG1Fast o (ret.take split) data (stride * 2) roots (rootsStride * 2)
    let dataHi ← sliceFrom data stride
    let hi ← fftG1Fast o (ret.drop split) dataHi (stride * 2) roots (rootsStride * 2)
    forRange 0 split (lo ++ hi) fun i ret => do
      let y ← rd ret (i + split)
      let root ← rd roots (i * rootsStride)
      let yTimesRoot ← o.mul y root
      let x ← rd ret i
      let ret ← wr ret (i + split) (o.sub x yTimesRoot)
      let x ← rd ret i
      wr ret i (o.addOrDbl x yTimesRoot)
  else do
    let d ← rd data 0
    wr ret 0 d
termination_by ret.length
decreasing_by
  · simp only [List.length_take]; omega
  · simp only [List.length_drop]; omega

/-- The final loop of the inverse transform, zkcrypto/src/fft_g1.rs:49-51. -/
def mulAll (o : PtOps F P) (c : F) : List P → Res (List P)
  | [] => .ok []
  | p :: ps => do
    let q ← o.mul p c
    let qs ← mulAll o c ps
    .ok (q :: qs)

/-- `fft_g1`, zkcrypto/src/fft_g1.rs:26-55. `<ZkG1Projective as G1>::default()` is the identity. -/
def fftG1 (o : PtOps F P) (fs : FFTSettings F) (data : List P) (inverse : Bool) : Res (List P) :=
  if data.length > fs.maxWidth then .err "Given data is longer than allowed max width"
  else if !isPowerOfTwo data.length then .err "Given data is not power-of-two length"
  else do
    let stride := fs.maxWidth / data.length
    let ret := List.replicate data.length o.identity
    let roots := if inverse then fs.reverseRoots else fs.expandedRoots
    let ret ← fftG1Fast o ret data 1 roots stride
    if inverse then do
      let invLen ← frInv ((data.length : Nat) : F)
      mulAll o invLen ret
    else .ok ret

/-- `toeplitz_part_1`, zkcrypto/src/fk20.rs:237-252. -/
def toeplitzPart1 (o : PtOps F P) (fs : FFTSettings F) (x : List P) : Res (List P) := do
  let n2 := x.length * 2
  let xExt ← forRange 0 x.length ([] : List P) fun i acc => do
    let v ← rd x i
    .ok (acc ++ [v])
  let xExt ← forRange x.length n2 xExt fun _ acc => .ok (acc ++ [o.identity])
  (fftG1 o fs xExt false).unwrap

/-- `toeplitz_part_2`, zkcrypto/src/fk20.rs:253-264. -/
def toeplitzPart2 (o : PtOps F P) (fs : FFTSettings F) (toeplitz : List F) (xExtFft : List P) : Res (List P) := do
  let fftCoeffs ← (fs.fftFr toeplitz false).unwrap
  forRange 0 toeplitz.length ([] : List P) fun i out => do
    let x ← rd xExtFft i
    let c ← rd fftCoeffs i
    let v ← o.mul x c
    .ok (out ++ [v])

/-- `v[a..b].copy_from_slice(&vec![identity; b - a])`, for instance zkcrypto/src/fk20.rs:275. -/
def clearRange (o : PtOps F P) (v : List P) (a b : Nat) : Res (List P) :=
  if a ≤ b ∧ b ≤ v.length then .ok (v.take a ++ List.replicate (b - a) o.identity ++ v.drop b) else .panic

/-- `toeplitz_part_3`, zkcrypto/src/fk20.rs:265-278. -/
def toeplitzPart3 (o : PtOps F P) (fs : FFTSettings F) (hExtFft : List P) : Res (List P) := do
  let n := hExtFft.length / 2
  let out ← (fftG1 o fs hExtFft true).unwrap
  clearRange o out n hExtFft.length

/-- `toeplitz_coeffs_stride`, zkcrypto/src/fk20.rs:280-303. -/
def toeplitzCoeffsStride (offset stride : Nat) (poly : List F) : Res (List F) := do
  let n := poly.length
  if stride = 0 then .panic
  else do
    let k := n / stride
    let k2 := k * 2
    let a ← subU n 1
    let a ← subU a offset
    let first ← rd poly a
    let out ← forRange 1 (minU64 (k + 2) k2) [first] fun _ out => .ok (out ++ [(0 : F)])
    let j ← subU (2 * stride) offset
    let j ← subU j 1
    let (out, _) ← forRange (k + 2) k2 (out, j) fun _ s => do
      let c ← rd poly s.2
      .ok (s.1 ++ [c], s.2 + stride)
    .ok out

/-- `toeplitz_coeffs_step`, zkcrypto/src/fk20.rs:305-308. -/
def toeplitzCoeffsStep (poly : List F) : Res (List F) := toeplitzCoeffsStride 0 1 poly

end

/-! `ZkFK20SingleSettings` and `ZkFK20MultiSettings` (zkcrypto/src/fk20.rs:9-12 and 100-104) have the fields of
their counterparts in blst-from-scratch. The field `length` of `KZGSettings` (zkcrypto/src/kzg_proofs.rs:24-29)
is only copied and is left out. `reverse_bit_order` (zkcrypto/src/fk20.rs:310-320) has the text of the one in
blst-from-scratch: `reverseBitOrder`. -/

section
variable {F P Q : Type} [Field F] [DecidableEq F]

/-- `FK20SingleSettings::new`, zkcrypto/src/fk20.rs:33-60. -/
def singleNew (o : PtOps F P) (ks : KZGSettings F P Q) (n : Nat) : Res (FK20Single F P Q) :=
  let n2 := n / 2
  if n > ks.fs.maxWidth then .err "n must be less than or equal to kzg settings max width"
  else if !isPowerOfTwo n then .err "n must be a power of two"
  else if n < 2 then .err "n must be greater than or equal to 2"
  else do
    let m ← subU n2 1
    let x ← forRange 0 m ([] : List P) fun i acc => do
      let j ← subU n2 2
      let j ← subU j i
      let v ← rd ks.secretG1 j
      .ok (acc ++ [v])
    let x := x ++ [o.identity]
    let xExtFft ← toeplitzPart1 o ks.fs x
    .ok ⟨ks, xExtFft⟩

/-- `data_availability_optimized` for single proofs, zkcrypto/src/fk20.rs:80-97. -/
def singleOpt (o : PtOps F P) (fk : FK20Single F P Q) (p : List F) : Res (List P) :=
  let n := p.length
  let n2 := n * 2
  if n2 > fk.ks.fs.maxWidth then .err "n2 must be less than or equal to kzg settings max width"
  else if !isPowerOfTwo n2 then .err "n2 must be a power of two"
  else do
    let coeffs ← toeplitzCoeffsStep p
    let hExtFft ← toeplitzPart2 o fk.ks.fs coeffs fk.xExtFft
    let h ← toeplitzPart3 o fk.ks.fs hExtFft
    (fftG1 o fk.ks.fs h false).unwrap

/-- `data_availability` for single proofs, zkcrypto/src/fk20.rs:62-78. -/
def singleDa (o : PtOps F P) (fk : FK20Single F P Q) (p : List F) : Res (List P) :=
  let n := p.length
  let n2 := n * 2
  if n2 > fk.ks.fs.maxWidth then .err "n2 must be less than or equal to kzg settings max width"
  else if !isPowerOfTwo n2 then .err "n2 must be a power of two"
  else do
    let out ← (singleOpt o fk p).unwrap
    reverseBitOrder out

/-- The selection of points for one offset, zkcrypto/src/fk20.rs:147-166. The loop `while i + 1 < k` runs
`k - 1` times, and not at all for `k = 0`; state: output and `j`. -/
def multiSelect (o : PtOps F P) (ks : KZGSettings F P Q) (n2 k chunkLen offset : Nat) : Res (List P) := do
  let start := if n2 ≥ chunkLen + 1 + offset then n2 - chunkLen - 1 - offset else 0
  let (x, _) ← forRange 0 (k - 1) (([] : List P), start) fun _ s => do
    let v ← rd ks.secretG1 s.2
    .ok (s.1 ++ [v], if s.2 ≥ chunkLen then s.2 - chunkLen else 0)
  .ok (x ++ [o.identity])

/-- `FK20MultiSettings::new`, zkcrypto/src/fk20.rs:126-179. -/
def multiNew (o : PtOps F P) (ks : KZGSettings F P Q) (n chunkLen : Nat) : Res (FK20Multi F P Q) :=
  if n > ks.fs.maxWidth then .err "n must be less than or equal to kzg settings max width"
  else if !isPowerOfTwo n then .err "n must be a power of two"
  else if n < 2 then .err "n must be greater than or equal to 2"
  else if chunkLen > n / 2 then .err "chunk_len must be greater or equal to n / 2"
  else if !isPowerOfTwo chunkLen then .err "chunk_len must be a power of two"
  else do
    let n2 := n / 2
    let k := n2 / chunkLen
    let files ← forRange 0 chunkLen ([] : List (List P)) fun offset acc => do
      let x ← multiSelect o ks n2 k chunkLen offset
      let f ← toeplitzPart1 o ks.fs x
      .ok (acc ++ [f])
    .ok ⟨ks, chunkLen, files⟩

/-- The accumulation over the chunk offsets, zkcrypto/src/fk20.rs:211-220. -/
def accumulate (o : PtOps F P) (fk : FK20Multi F P Q) (p : List F) (k2 : Nat) : Res (List P) :=
  forRange 0 fk.chunkLen (List.replicate k2 o.identity) fun i hExtFft => do
    let coeffs ← toeplitzCoeffsStride i fk.chunkLen p
    let f ← rd fk.xExtFftFiles i
    let file ← toeplitzPart2 o fk.ks.fs coeffs f
    forRange 0 k2 hExtFft fun j acc => do
      let a ← rd acc j
      let b ← rd file j
      wr acc j (o.addOrDbl a b)

/-- `data_availability_optimized` for multi proofs, zkcrypto/src/fk20.rs:197-232. -/
def multiOpt (o : PtOps F P) (fk : FK20Multi F P Q) (p : List F) : Res (List P) :=
  let n := p.length
  let n2 := n * 2
  if n2 > fk.ks.fs.maxWidth then .err "n2 must be less than or equal to kzg settings max width"
  else if !isPowerOfTwo n2 then .err "n2 must be a power of two"
  else do
    let n := n2 / 2
    let k ← divU n fk.chunkLen
    let k2 := k * 2
    let hExtFft ← accumulate o fk p k2
    let h ← toeplitzPart3 o fk.ks.fs hExtFft
    let h ← clearRange o h k k2
    (fftG1 o fk.ks.fs h false).unwrap

/-- `data_availability` for multi proofs, zkcrypto/src/fk20.rs:181-195. -/
def multiDa (o : PtOps F P) (fk : FK20Multi F P Q) (p : List F) : Res (List P) :=
  let n := p.length
  let n2 := n * 2
  if n2 > fk.ks.fs.maxWidth then .err "n2 must be less than or equal to kzg settings max width"
  else if !isPowerOfTwo n2 then .err "n2 must be a power of two"
  else do
    let out ← (multiOpt o fk p).unwrap
    reverseBitOrder out

end
end Kzg.ZkP
