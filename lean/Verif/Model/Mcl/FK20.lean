import Verif.Model.FK20
import Verif.Model.Mcl.Kzg
/-!
# FK20 amortised proofs of mcl-kzg (mcl-kzg/kzg/src/fk20_matrix.rs)

`FK20SingleMatrix` and `FK20Matrix` are the structures of `Verif.Model.FK20` (the fields are the same). The trait
implementations (mcl-kzg/kzg/src/trait_implementations/fk20.rs) pass everything on:
`data_availability` is `dau_using_fk20_*`, `data_availability_optimized` is `fk20_*_dao_optimized`. Doubling a length
is not checked for overflow.
-/

namespace Kzg.Mcl
open Kzg

variable {F G1 G2 : Type} [Field F] [DecidableEq F] [Lib F] [AddCommGroup G1] [Module F G1] [AddCommGroup G2]
  [Module F G2]

/-- `toeplitz_part_1`, mcl-kzg/kzg/src/fk20_matrix.rs:10-20. -/
def toeplitzPart1 (fs : FFTSettings F) (x : List G1) : Res (List G1) :=
  let n := x.length
  fftG1 fs (x ++ List.replicate n 0) false

/-- `toeplitz_part_2`, mcl-kzg/kzg/src/fk20_matrix.rs:22-31; `zip` stops at the shorter list. -/
def toeplitzPart2 (fs : FFTSettings F) (coeffs : List F) (xExtFft : List G1) : Res (List G1) := do
  let coeffsFft ← (fft fs coeffs false).unwrap
  .ok (List.zipWith (fun x c => c • x) xExtFft coeffsFft)

/-- `toeplitz_part_3`, mcl-kzg/kzg/src/fk20_matrix.rs:33-44. -/
def toeplitzPart3 (fs : FFTSettings F) (hExtFft : List G1) : Res (List G1) := do
  let n2 := hExtFft.length
  let n := n2 / 2
  let ret ← (fftG1 fs hExtFft true).unwrap
  .ok (ret.take n ++ List.replicate (min n2 ret.length - n) 0 ++ ret.drop n2)

/-- The filling loop, mcl-kzg/kzg/src/fk20_matrix.rs:286-290; state: the list and `j`. -/
def toeplitzFill (p : List F) (stride k k2 : Nat) (t : List F) (j : Nat) : Res (List F × Nat) :=
  forRange (k + 2) k2 (t, j) fun i s => do
    let c ← rd p s.2
    let t ← wr s.1 i c
    .ok (t, s.2 + stride)

/-- `toeplitz_coeffs_step_strided`, mcl-kzg/kzg/src/fk20_matrix.rs:277-293. -/
def toeplitzCoeffsStrided (p : List F) (offset stride : Nat) : Res (List F) := do
  let n := p.length
  let k ← divU n stride
  let k2 := k * 2
  let t := List.replicate k2 (0 : F)
  let a ← subU n 1
  let a ← subU a offset
  let v ← rd p a
  let t ← wr t 0 v
  let j ← subU (stride * 2) offset
  let j ← subU j 1
  let (t, _) ← toeplitzFill p stride k k2 t j
  .ok t

/-! ### Single proofs -/

/-- `FK20SingleMatrix::new`, mcl-kzg/kzg/src/fk20_matrix.rs:54-80. -/
def FK20Single.new (ks : KZGSettings F G1 G2) (n2 : Nat) : Res (FK20Single F G1 G2) := do
  let n := n2 / 2
  let ok ← isPowerOf2 n2
  if !ok then .err "n2 must be a power of two"
  else if n2 < 2 then .err "n2 must be greater than or equal to 2"
  else if n2 > ks.fs.maxWidth then .err "n2 must be less than or equal to fft settings max width"
  else do
    let m ← subU n 1
    let x ← forRange 0 m ([] : List G1) fun i acc => do
      let j ← subU n 2
      let j ← subU j i
      let v ← rd ks.secretG1 j
      .ok (acc ++ [v])
    let x := x ++ [0]
    let xExtFft ← (toeplitzPart1 ks.fs x).unwrap
    .ok ⟨ks, xExtFft⟩

/-- `fk20_single_dao_optimized`, mcl-kzg/kzg/src/fk20_matrix.rs:106-122. -/
def FK20Single.daOptimized (fk : FK20Single F G1 G2) (p : List F) : Res (List G1) := do
  let n := p.length
  let n2 := n * 2
  let ok ← isPowerOf2 n2
  if !ok then .err "n2 must be a power of two"
  else if n2 > fk.ks.fs.maxWidth then .err "n2 must be less than or equal to fft settings max width"
  else do
    let coeffs ← toeplitzCoeffsStrided p 0 1
    let hExtFft ← (toeplitzPart2 fk.ks.fs coeffs fk.xExtFft).unwrap
    let h ← (toeplitzPart3 fk.ks.fs hExtFft).unwrap
    fftG1 fk.ks.fs h false

/-- `dau_using_fk20_single`, mcl-kzg/kzg/src/fk20_matrix.rs:89-104. -/
def FK20Single.da (fk : FK20Single F G1 G2) (p : List F) : Res (List G1) := do
  let n := p.length
  let n2 := n * 2
  let ok ← isPowerOf2 n2
  if !ok then .err "n2 must be a power of two"
  else if n2 > fk.ks.fs.maxWidth then .err "n2 must be less than or equal to fft settings max width"
  else do
    let proofs ← (FK20Single.daOptimized fk p).unwrap
    orderByRevBitOrder proofs

/-! ### Multi proofs -/

/-- `x_ext_fft_precompute`, mcl-kzg/kzg/src/fk20_matrix.rs:177-201; state of the loop: `x` and `j`. -/
def xExtFftPrecompute (ks : KZGSettings F G1 G2) (n k chunkLen offset : Nat) : Res (List G1) := do
  let x := List.replicate k (0 : G1)
  let temp := chunkLen + 1 + offset
  let start := if n ≥ temp then n - temp else 0
  let (x, _) ← forRange 0 (k - 1) (x, start + chunkLen) fun i s => do
    let j ← subU s.2 chunkLen
    let v ← rd ks.secretG1 j
    let x ← wr s.1 i v
    .ok (x, j)
  let last ← subU k 1
  let x ← wr x last 0
  toeplitzPart1 ks.fs x

/-- `FK20Matrix::new`, mcl-kzg/kzg/src/fk20_matrix.rs:141-174. -/
def FK20Multi.new (ks : KZGSettings F G1 G2) (n2 chunkLen : Nat) : Res (FK20Multi F G1 G2) := do
  let n := n2 / 2
  let k ← divU n chunkLen
  let ok ← isPowerOf2 n2
  if !ok then .err "n2 must be a power of two"
  else do
    let ok ← isPowerOf2 chunkLen
    if !ok then .err "chunk_len must be a power of two"
    else if n2 < 2 then .err "n2 must be greater than or equal to 2"
    else if n2 > ks.fs.maxWidth then .err "n2 must be less than or equal to kzg settings max width"
    else if n2 > ks.fs.maxWidth then .err "n2 must be less than or equal to fft settings max width"
    else if chunkLen > n2 / 2 then .err "chunk_len must be greater or equal to n2 / 2"
    else do
      let files ← forRange 0 chunkLen ([] : List (List G1)) fun i acc => do
        let f ← (xExtFftPrecompute ks n k chunkLen i).unwrap
        .ok (acc ++ [f])
      .ok ⟨ks, chunkLen, files⟩

/-- The loop over the chunk offsets, mcl-kzg/kzg/src/fk20_matrix.rs:239-247. -/
def FK20Multi.accumulate (fk : FK20Multi F G1 G2) (p : List F) (k2 : Nat) : Res (List G1) :=
  forRange 0 fk.chunkLen (List.replicate k2 (0 : G1)) fun i hExtFft => do
    let coeffs ← toeplitzCoeffsStrided p i fk.chunkLen
    let f ← rd fk.xExtFftFiles i
    let file ← (toeplitzPart2 fk.ks.fs coeffs f).unwrap
    forRange 0 k2 hExtFft fun j acc => do
      let a ← rd acc j
      let b ← rd file j
      wr acc j (a + b)

/-- `fk20_multi_dao_optimized`, mcl-kzg/kzg/src/fk20_matrix.rs:221-258: the argument is taken as extended to twice its
length, and only its first half is used. -/
def FK20Multi.daOptimized (fk : FK20Multi F G1 G2) (polynomial : List F) : Res (List G1) := do
  let n := polynomial.length / 2
  let k ← divU n fk.chunkLen
  let k2 := k * 2
  let n2 := n * 2
  let ok ← isPowerOf2 n2
  if !ok then .err "n2 must be a power of two"
  else if n2 > fk.ks.fs.maxWidth then .err "n2 must be less than or equal to fft settings max width"
  else do
    let reduced := polynomial.take n
    let hExtFft ← FK20Multi.accumulate fk reduced k2
    let h ← (toeplitzPart3 fk.ks.fs hExtFft).unwrap
    let h := h.take k ++ List.replicate k 0
    fftG1 fk.ks.fs h false

/-- `Polynomial::extend` and `get_extended`, mcl-kzg/kzg/src/fk20_matrix.rs:262-275. -/
def extend (v : List F) (size : Nat) : List F :=
  if size < v.length then v else v ++ List.replicate (size - v.length) 0

/-- `dau_using_fk20_multi`, mcl-kzg/kzg/src/fk20_matrix.rs:203-219. -/
def FK20Multi.da (fk : FK20Multi F G1 G2) (polynomial : List F) : Res (List G1) := do
  let n := polynomial.length
  let n2 := n * 2
  let ok ← isPowerOf2 n2
  if !ok then .err "n2 must be a power of two"
  else if n2 > fk.ks.fs.maxWidth then .err "n2 must be less than or equal to fft settings max width"
  else do
    let extended := extend polynomial n2
    let proofs ← (FK20Multi.daOptimized fk extended).unwrap
    orderByRevBitOrder proofs

end Kzg.Mcl
