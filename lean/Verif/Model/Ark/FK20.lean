import Verif.Model.FK20
import Verif.Model.Ark.Kzg
/-!
# FK20 amortised proofs of the Arkworks backend (Arkworks/src/fk20_proofs.rs)

`reverse_bit_order` (Arkworks/src/fk20_proofs.rs:26-36) has the text of blst-from-scratch (`Kzg.reverseBitOrder`).
Points inside these functions are group elements; those of the settings are read through `val`. Doubling a length is
not checked for overflow. The last entry of a settings list is the identity, written as coordinates that are all zero,
which the library takes as the identity.
-/

namespace Kzg.Ark
open Kzg

variable {P G1 G2 GT : Type} [AddCommGroup G1] [Module Fr G1] [AddCommGroup G2] [Module Fr G2]
  [CommGroup GT] [DecidableEq GT]

/-- `toeplitz_part_1`, Arkworks/src/fk20_proofs.rs:313-325. -/
def toeplitzPart1 (fs : FFTSettings Fr) (x : List G1) : Res (List G1) :=
  let n := x.length
  fftG1 fs (x ++ List.replicate (n * 2 - n) 0) false

/-- `toeplitz_part_2`, Arkworks/src/fk20_proofs.rs:327-336. -/
def toeplitzPart2 (fs : FFTSettings Fr) (coeffs : List Fr) (xExtFft : List G1) : Res (List G1) := do
  let coeffsFft ← (fftFr fs coeffs false).unwrap
  forRange 0 coeffs.length ([] : List G1) fun i out => do
    let x ← rd xExtFft i
    let c ← rd coeffsFft i
    .ok (out ++ [c • x])

/-- `v.iter_mut().take(b).skip(a)` set to the identity (for instance Arkworks/src/fk20_proofs.rs:349-351). -/
def clearTakeSkip (v : List G1) (a b : Nat) : List G1 :=
  v.take (min a (min b v.length)) ++ List.replicate (min b v.length - a) 0 ++ v.drop (min b v.length)

/-- `toeplitz_part_3`, Arkworks/src/fk20_proofs.rs:338-353. -/
def toeplitzPart3 (fs : FFTSettings Fr) (hExtFft : List G1) : Res (List G1) := do
  let n := hExtFft.length / 2
  let out ← (fftG1 fs hExtFft true).unwrap
  .ok (clearTakeSkip out n hExtFft.length)

/-- `toeplitz_coeffs_stride`, Arkworks/src/fk20_proofs.rs:284-311; state of the second loop: the list and `j`. -/
def toeplitzCoeffsStride (poly : List Fr) (offset stride outlen : Nat) : Res (List Fr) :=
  let n := poly.length
  if stride = 0 then .err "stride must be greater than 0"
  else
    let k := n / stride
    let k2 := k * 2
    if outlen < k2 then .err "outlen must be equal or greater than k2"
    else do
      let out := List.replicate outlen (0 : Fr)
      let a ← subU n 1
      let a ← subU a offset
      let c ← rd poly a
      let out ← wr out 0 c
      let out ← forRange 1 (min (k + 2) k2) out fun i out => wr out i 0
      let j ← subU (2 * stride) offset
      let j ← subU j 1
      let (out, _) ← forRange (k + 2) k2 (out, j) fun i s => do
        let c ← rd poly s.2
        let out ← wr s.1 i c
        .ok (out, s.2 + stride)
      .ok out

/-- `toeplitz_coeffs_step`, Arkworks/src/fk20_proofs.rs:280-282. -/
def toeplitzCoeffsStep (p : List Fr) (outlen : Nat) : Res (List Fr) := toeplitzCoeffsStride p 0 1 outlen

/-! ### Single proofs -/

/-- `struct KzgFK20SingleSettings`, Arkworks/src/fk20_proofs.rs:9-15. -/
structure FKSingle (P G1 G2 : Type) where
  ks : Settings P G1 G2
  xExtFft : List G1
  xExtFftLen : Nat

/-- `FK20SingleSettings::default`, Arkworks/src/fk20_proofs.rs:39-45. -/
def FKSingle.default (B : Backend P G1 G2 GT) : FKSingle P G1 G2 := ⟨defaultSettings B, [], 0⟩

/-- `FK20SingleSettings::new`, Arkworks/src/fk20_proofs.rs:47-75. Only the transform settings of `ks` are kept. -/
def FKSingle.new (B : Backend P G1 G2 GT) (ks : Settings P G1 G2) (n2 : Nat) : Res (FKSingle P G1 G2) :=
  let n := n2 / 2
  if n2 > ks.fs.maxWidth then .err "n2 must be equal or less than kzg settings max width"
  else if !isPowerOfTwo n2 then .err "n2 must be power of 2"
  else if n2 < 2 then .err "n2 must be equal or greater than 2"
  else do
    let m ← subU n 1
    let x ← forRange 0 m ([] : List G1) fun i acc => do
      let j ← subU n 2
      let j ← subU j i
      let v ← rd ks.secretG1 j
      .ok (acc ++ [B.val v])
    let x := x ++ [0]
    let fs ← settingsClone ks.fs
    let xExtFft ← (toeplitzPart1 ks.fs x).unwrap
    .ok ⟨{ defaultSettings B with fs := fs }, xExtFft, n2⟩

/-- `fk20_single_da_opt`, Arkworks/src/fk20_proofs.rs:202-221 (`data_availability_optimized`, 93-95). -/
def FKSingle.daOptimized (fk : FKSingle P G1 G2) (p : List Fr) : Res (List G1) :=
  let n := p.length
  let n2 := n * 2
  if n2 > fk.ks.fs.maxWidth then .err "n2 must be equal or less than kzg settings max width"
  else if !isPowerOfTwo n then .err "n2 must be power of 2"
  else do
    let outlen := 2 * p.length
    let coeffs ← (toeplitzCoeffsStep p outlen).unwrap
    let hExtFft ← (toeplitzPart2 fk.ks.fs coeffs fk.xExtFft).unwrap
    let h ← (toeplitzPart3 fk.ks.fs hExtFft).unwrap
    fftG1 fk.ks.fs h false

/-- `data_availability`, Arkworks/src/fk20_proofs.rs:77-91. -/
def FKSingle.da (fk : FKSingle P G1 G2) (p : List Fr) : Res (List G1) :=
  let n := p.length
  let n2 := n * 2
  if n2 > fk.ks.fs.maxWidth then .err "n2 must be equal or less than kzg settings max width"
  else if !isPowerOfTwo n then .err "n2 must be power of 2"
  else do
    let out ← (fk.daOptimized p).unwrap
    reverseBitOrder out

/-- `#[derive(Clone)]`, Arkworks/src/fk20_proofs.rs:10. -/
def FKSingle.clone (B : Backend P G1 G2 GT) (g1 : G1) (g2 : G2) (fk : FKSingle P G1 G2) : Res (FKSingle P G1 G2) := do
  let ks ← fk.ks.clone B g1 g2
  .ok ⟨ks, fk.xExtFft, fk.xExtFftLen⟩

/-! ### Multi proofs -/

/-- `struct KzgFK20MultiSettings`, Arkworks/src/fk20_proofs.rs:17-24. -/
structure FKMulti (P G1 G2 : Type) where
  ks : Settings P G1 G2
  chunkLen : Nat
  xExtFftFiles : List (List G1)
  length : Nat

/-- `FK20MultiSettings::default`, Arkworks/src/fk20_proofs.rs:99-106. -/
def FKMulti.default (B : Backend P G1 G2 GT) : FKMulti P G1 G2 := ⟨defaultSettings B, 0, [], 0⟩

/-- The selection of every `chunk_len`-th point, Arkworks/src/fk20_proofs.rs:136-152; state of the loop: the list and
`j`. -/
def multiSelect (B : Backend P G1 G2 GT) (ks : Settings P G1 G2) (n k chunkLen offset : Nat) : Res (List G1) := do
  let x := List.replicate k (0 : G1)
  let start := if n ≥ chunkLen + 1 + offset then n - chunkLen - 1 - offset else 0
  let m ← subU k 1
  let (x, _) ← forRange 0 m (x, start) fun i s => do
    let v ← rd ks.secretG1 s.2
    let x ← wr s.1 i (B.val v)
    .ok (x, if s.2 ≥ chunkLen then s.2 - chunkLen else 0)
  let last ← subU k 1
  wr x last 0

/-- `FK20MultiSettings::new`, Arkworks/src/fk20_proofs.rs:108-173. Only the transform settings of `ks` are kept. -/
def FKMulti.new (B : Backend P G1 G2 GT) (ks : Settings P G1 G2) (n2 chunkLen : Nat) : Res (FKMulti P G1 G2) :=
  if n2 > ks.fs.maxWidth then .err "n2 must be equal or less than kzg settings max width"
  else if !isPowerOfTwo n2 then .err "n2 must be power of 2"
  else if n2 < 2 then .err "n2 must be equal or greater than 2"
  else if chunkLen > n2 / 2 then .err "chunk_len must be equal or less than n2/2"
  else if !isPowerOfTwo chunkLen then .err "chunk_len must be power of 2"
  else if chunkLen = 0 then .err "chunk_len must be greater than 0"
  else do
    let n := n2 / 2
    let k := n / chunkLen
    let files ← forRange 0 chunkLen ([] : List (List G1)) fun offset acc => do
      let x ← multiSelect B ks n k chunkLen offset
      let f ← (toeplitzPart1 ks.fs x).unwrap
      .ok (acc ++ [f])
    let fs ← settingsClone ks.fs
    .ok ⟨{ defaultSettings B with fs := fs }, chunkLen, files, n⟩

/-- The loop over the chunk offsets, Arkworks/src/fk20_proofs.rs:239-257 (`toeplitz_coeffs` keeps its length). -/
def FKMulti.accumulate (fk : FKMulti P G1 G2) (p : List Fr) (k2 outlen : Nat) : Res (List G1) :=
  forRange 0 fk.chunkLen (List.replicate k2 (0 : G1)) fun i hExtFft => do
    let coeffs ← (toeplitzCoeffsStride p i fk.chunkLen outlen).unwrap
    let f ← rd fk.xExtFftFiles i
    let file ← (toeplitzPart2 fk.ks.fs coeffs f).unwrap
    forRange 0 k2 hExtFft fun j acc => do
      let a ← rd acc j
      let b ← rd file j
      wr acc j (a + b)

/-- `fk20_multi_da_opt`, Arkworks/src/fk20_proofs.rs:223-278 (`data_availability_optimized`, 198-200). -/
def FKMulti.daOptimized (fk : FKMulti P G1 G2) (p : List Fr) : Res (List G1) :=
  let n := p.length
  let n2 := n * 2
  if n2 > fk.ks.fs.maxWidth then .err "n2 must be equal or less than kzg settings max width"
  else if !isPowerOfTwo n then .err "n2 must be power of 2"
  else do
    let n := n2 / 2
    let k ← divU n fk.chunkLen
    let k2 := k * 2
    let outlen ← divU n2 fk.chunkLen
    let hExtFft ← fk.accumulate p k2 outlen
    let h ← (toeplitzPart3 fk.ks.fs hExtFft).unwrap
    let h := clearTakeSkip h k k2
    fftG1 fk.ks.fs h false

/-- `data_availability`, Arkworks/src/fk20_proofs.rs:175-196. -/
def FKMulti.da (fk : FKMulti P G1 G2) (p : List Fr) : Res (List G1) :=
  let n := p.length
  let n2 := n * 2
  if n2 > fk.ks.fs.maxWidth then .err "n2 must be equal or less than kzg settings max width"
  else if !isPowerOfTwo n then .err "n2 must be power of 2"
  else do
    let out ← (fk.daOptimized p).unwrap
    reverseBitOrder out

/-- `#[derive(Clone)]`, Arkworks/src/fk20_proofs.rs:18. -/
def FKMulti.clone (B : Backend P G1 G2 GT) (g1 : G1) (g2 : G2) (fk : FKMulti P G1 G2) : Res (FKMulti P G1 G2) := do
  let ks ← fk.ks.clone B g1 g2
  .ok ⟨ks, fk.chunkLen, fk.xExtFftFiles, fk.length⟩

end Kzg.Ark
