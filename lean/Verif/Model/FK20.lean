import Verif.Model.KZG
import Verif.Model.Utils
/-!
# FK20 amortised proofs (blst-from-scratch/src/fk20_proofs.rs, types/fk20_single_settings.rs,
types/fk20_multi_settings.rs)
-/

namespace Kzg

variable {F G1 G2 : Type} [Field F] [AddCommGroup G1] [Module F G1] [AddCommGroup G2] [Module F G2]

/-- `toeplitz_part_1`, blst-from-scratch/src/fk20_proofs.rs:9-23. -/
def FFTSettings.toeplitzPart1 (fs : FFTSettings F) (x : List G1) : Res (List G1) := do
  let n := x.length
  let n2 := n * 2
  let xExt ← forRange 0 n ([] : List G1) fun i acc => do
    let v ← rd x i
    .ok (acc ++ [v])
  let xExt ← forRange n n2 xExt fun _ acc => .ok (acc ++ [0])
  (fs.fftG1 xExt false).unwrap

/-- `toeplitz_part_2`, blst-from-scratch/src/fk20_proofs.rs:26-35. -/
def FFTSettings.toeplitzPart2 (fs : FFTSettings F) (poly : List F) (xExtFft : List G1) :
    Res (List G1) := do
  let coeffsFft ← (fs.fftFr poly false).unwrap
  forRange 0 poly.length ([] : List G1) fun i ret => do
    let x ← rd xExtFft i
    let c ← rd coeffsFft i
    .ok (ret ++ [c • x])

/-- `v[a..b].copy_from_slice(&vec![identity; b - a])` (for instance
blst-from-scratch/src/fk20_proofs.rs:42). -/
def clearRange (v : List G1) (a b : Nat) : Res (List G1) :=
  if a ≤ b ∧ b ≤ v.length then .ok (v.take a ++ List.replicate (b - a) 0 ++ v.drop b) else .panic

/-- `toeplitz_part_3`, blst-from-scratch/src/fk20_proofs.rs:37-45. -/
def FFTSettings.toeplitzPart3 (fs : FFTSettings F) (hExtFft : List G1) : Res (List G1) := do
  let n2 := hExtFft.length
  let n := n2 / 2
  let ret ← (fs.fftG1 hExtFft true).unwrap
  clearRange ret n n2

/-- The number of zeros, blst-from-scratch/src/fk20_proofs.rs:57-62. -/
def toeplitzZeros (k k2 : Nat) : Res Nat := if k + 2 < k2 then .ok (k + 2 - 1) else subU k2 1

/-- Unsigned division `a / b`, panicking on a zero divisor. -/
def divU (a b : Nat) : Res Nat := if b = 0 then .panic else .ok (a / b)

/-- The final loop, blst-from-scratch/src/fk20_proofs.rs:67-74; state: output and `j`. -/
def toeplitzTail (p : List F) (stride k k2 : Nat) (ret : List F) (j : Nat) : Res (List F × Nat) :=
  forRange (k + 2) k2 (ret, j) fun _ s => do
    let c ← rd p s.2
    .ok (s.1 ++ [c], s.2 + stride)

/-- `toeplitz_coeffs_stride`, blst-from-scratch/src/fk20_proofs.rs:49-77. -/
def toeplitzCoeffsStride (p : List F) (offset stride : Nat) : Res (List F) := do
  let n := p.length
  let k ← divU n stride
  let k2 := k * 2
  let a ← subU n 1
  let a ← subU a offset
  let first ← rd p a
  let z ← toeplitzZeros k k2
  let ret := [first] ++ List.replicate z 0
  let j ← subU (2 * stride) offset
  let j ← subU j 1
  let (ret, _) ← toeplitzTail p stride k k2 ret j
  .ok ret

/-- `toeplitz_coeffs_step`, blst-from-scratch/src/fk20_proofs.rs:79-81. -/
def toeplitzCoeffsStep (p : List F) : Res (List F) := toeplitzCoeffsStride p 0 1

/-- `struct FsFK20SingleSettings`, blst-from-scratch/src/types/fk20_single_settings.rs:11-14. -/
structure FK20Single (F G1 G2 : Type) where
  ks : KZGSettings F G1 G2
  xExtFft : List G1

/-- `FK20SingleSettings::new`, blst-from-scratch/src/types/fk20_single_settings.rs:35-63. -/
def FK20Single.new (ks : KZGSettings F G1 G2) (n2 : Nat) : Res (FK20Single F G1 G2) :=
  let n := n2 / 2
  if n2 > ks.fs.maxWidth then .err "n2 must be less than or equal to kzg settings max width"
  else if !isPowerOfTwo n2 then .err "n2 must be a power of two"
  else if n2 < 2 then .err "n2 must be greater than or equal to 2"
  else do
    let m ← subU n 1
    let x ← forRange 0 m ([] : List G1) fun i acc => do
      let j ← subU n 2
      let j ← subU j i
      let v ← rd ks.secretG1 j
      .ok (acc ++ [v])
    let x := x ++ [0]
    let xExtFft ← ks.fs.toeplitzPart1 x
    .ok ⟨ks, xExtFft⟩

/-- `data_availability_optimized`, blst-from-scratch/src/types/fk20_single_settings.rs:83-107. -/
def FK20Single.daOptimized (fk : FK20Single F G1 G2) (p : List F) : Res (List G1) :=
  let n := p.length
  let n2 := n * 2
  if n2 > fk.ks.fs.maxWidth then .err "n2 must be less than or equal to kzg settings max width"
  else if !isPowerOfTwo n2 then .err "n2 must be a power of two"
  else do
    let coeffs ← toeplitzCoeffsStep p
    let hExtFft ← fk.ks.fs.toeplitzPart2 coeffs fk.xExtFft
    let h ← fk.ks.fs.toeplitzPart3 hExtFft
    (fk.ks.fs.fftG1 h false).unwrap

/-- `data_availability`, blst-from-scratch/src/types/fk20_single_settings.rs:65-81. -/
def FK20Single.da (fk : FK20Single F G1 G2) (p : List F) : Res (List G1) :=
  let n := p.length
  let n2 := n * 2
  if n2 > fk.ks.fs.maxWidth then .err "n2 must be less than or equal to kzg settings max width"
  else if !isPowerOfTwo n2 then .err "n2 must be a power of two"
  else do
    let ret ← (fk.daOptimized p).unwrap
    reverseBitOrder ret

/-- `struct FsFK20MultiSettings`, blst-from-scratch/src/types/fk20_multi_settings.rs:11-15. -/
structure FK20Multi (F G1 G2 : Type) where
  ks : KZGSettings F G1 G2
  chunkLen : Nat
  xExtFftFiles : List (List G1)

/-- The selection of every `chunk_len`-th point, blst-from-scratch/src/types/fk20_multi_settings.rs:60-82;
state: output and `j`. -/
def multiSelect (ks : KZGSettings F G1 G2) (n k chunkLen offset : Nat) : Res (List G1) := do
  let start := if n ≥ chunkLen + 1 + offset then n - chunkLen - 1 - offset else 0
  let (x, _) ← forRange 0 (k - 1) (([] : List G1), start) fun _ s => do
    let v ← rd ks.secretG1 s.2
    .ok (s.1 ++ [v], if s.2 ≥ chunkLen then s.2 - chunkLen else 0)
  .ok (x ++ [0])

/-- `FK20MultiSettings::new`, blst-from-scratch/src/types/fk20_multi_settings.rs:39-94. -/
def FK20Multi.new (ks : KZGSettings F G1 G2) (n2 chunkLen : Nat) : Res (FK20Multi F G1 G2) :=
  if n2 > ks.fs.maxWidth then .err "n2 must be less than or equal to kzg settings max width"
  else if !isPowerOfTwo n2 then .err "n2 must be a power of two"
  else if n2 < 2 then .err "n2 must be greater than or equal to 2"
  else if chunkLen > n2 / 2 then .err "chunk_len must be greater or equal to n2 / 2"
  else if !isPowerOfTwo chunkLen then .err "chunk_len must be a power of two"
  else do
    let n := n2 / 2
    let k := n / chunkLen
    let files ← forRange 0 chunkLen ([] : List (List G1)) fun offset acc => do
      let x ← multiSelect ks n k chunkLen offset
      let f ← ks.fs.toeplitzPart1 x
      .ok (acc ++ [f])
    .ok ⟨ks, chunkLen, files⟩

/-- The accumulation over the chunk offsets,
blst-from-scratch/src/types/fk20_multi_settings.rs:138-150. -/
def FK20Multi.accumulate (fk : FK20Multi F G1 G2) (p : List F) (k2 : Nat) : Res (List G1) :=
  forRange 0 fk.chunkLen (List.replicate k2 (0 : G1)) fun i hExtFft => do
    let coeffs ← toeplitzCoeffsStride p i fk.chunkLen
    let f ← rd fk.xExtFftFiles i
    let file ← fk.ks.fs.toeplitzPart2 coeffs f
    forRange 0 k2 hExtFft fun j acc => do
      let a ← rd acc j
      let b ← rd file j
      wr acc j (a + b)

/-- `data_availability_optimized`, blst-from-scratch/src/types/fk20_multi_settings.rs:116-153. -/
def FK20Multi.daOptimized (fk : FK20Multi F G1 G2) (p : List F) : Res (List G1) :=
  let n := p.length
  let n2 := n * 2
  if n2 > fk.ks.fs.maxWidth then .err "n2 must be less than or equal to kzg settings max width"
  else if !isPowerOfTwo n2 then .err "n2 must be a power of two"
  else do
    let n := n2 / 2
    let k ← divU n fk.chunkLen
    let k2 := k * 2
    let hExtFft ← fk.accumulate p k2
    let h ← fk.ks.fs.toeplitzPart3 hExtFft
    let h ← clearRange h k k2
    (fk.ks.fs.fftG1 h false).unwrap

/-- `data_availability`, blst-from-scratch/src/types/fk20_multi_settings.rs:96-114. -/
def FK20Multi.da (fk : FK20Multi F G1 G2) (p : List F) : Res (List G1) :=
  let n := p.length
  let n2 := n * 2
  if n2 > fk.ks.fs.maxWidth then .err "n2 must be less than or equal to kzg settings max width"
  else if !isPowerOfTwo n2 then .err "n2 must be a power of two"
  else do
    let ret ← (fk.daOptimized p).unwrap
    reverseBitOrder ret

end Kzg
