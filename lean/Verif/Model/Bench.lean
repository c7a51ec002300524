import Verif.Model.SettingsInterface
import Verif.Model.PolyInterface
/-!
# The shared tests (kzg-bench/src/tests) as programs

Every backend runs the same tests against the traits. A test fixes its inputs (a polynomial, a point, a secret, sizes) and asserts
about what the functions of the traits return. Here the inputs are arguments and what a test calls is a record of functions; a failed
assertion is a panic. So `test A input = .ok ()` says that the test passes with this input.

Simplified: the settings are arguments (the tests make them first, which is part of the hypotheses of the theorems); sums, products and
comparisons of field elements are those of the field (C142–C147 show that those of the traits are); vectors filled in a loop are built by
appending.
-/

namespace Kzg.Bench
open Kzg

/-- What the tests of proofs call: `get_max_width` and `get_expanded_roots_of_unity_at` (kzg/src/lib.rs:125-127), `fft_fr` (kzg/src/lib.rs:92),
`eval` (kzg/src/lib.rs:158), and the functions of `KZGSettings` (kzg/src/lib.rs:196-217). -/
structure Api (F P : Type) where
  maxWidth : Nat
  rootAt : Nat → Res F
  fft : List F → Bool → Res (List F)
  eval : List F → F → Res F
  commit : List F → Res P
  single : List F → F → Res P
  checkSingle : P → P → F → F → Res Bool
  multi : List F → F → Nat → Res P
  checkMulti : P → P → F → List F → Nat → Res Bool

/-- `assert!`. -/
def assertT (b : Bool) : Res Unit := if b then .ok () else .panic

/-- `for i in 0..n { … }` without state. -/
def each (n : Nat) (body : Nat → Res Unit) : Res Unit := forRange 0 n () fun i _ => body i

/-- A vector of `n` elements filled in a loop. -/
def tab {α : Type} (n : Nat) (f : Nat → Res α) : Res (List α) := forRange 0 n [] fun i v => do
  let x ← f i
  .ok (v ++ [x])

variable {F P : Type} [Field F] [DecidableEq F]

/-- `proof_single`, kzg-bench/src/tests/kzg_proofs.rs:35-50; the test takes one polynomial and the point 25. -/
def proofSingle (A : Api F P) (p : List F) (x : F) : Res Unit := do
  let commitment ← (A.commit p).unwrap
  let proof ← (A.single p x).unwrap
  let value ← A.eval p x
  let b ← (A.checkSingle commitment proof x value).unwrap
  assertT b
  let value := value + 1
  let b ← (A.checkSingle commitment proof x value).unwrap
  assertT (!b)

/-- `proof_multi`, kzg-bench/src/tests/kzg_proofs.rs:165-193, with two settings for the same secret; the test takes one polynomial,
the point 5431, eight values and `k = 4`. -/
def proofMulti (A1 A2 : Api F P) (p : List F) (x : F) (cosetLen k : Nat) : Res Unit := do
  let commitment ← (A1.commit p).unwrap
  let proof ← (A2.multi p x cosetLen).unwrap
  let y ← tab cosetLen fun i => do
    let r ← A2.rootAt i
    A2.eval p (x * r)
  let b ← (A2.checkMulti commitment proof x y cosetLen).unwrap
  assertT b
  let t ← rd y k
  let y ← wr y k (t + 1)
  let b ← (A2.checkMulti commitment proof x y cosetLen).unwrap
  assertT (!b)

/-- `reverse_bits_limited`, kzg-bench/src/tests/fk20_proofs.rs:24-27; shifting by 64 panics. -/
def reverseBitsLimited (length value : Nat) : Res Nat :=
  let unusedBits := leadingZeros length
  if unusedBits < 64 then .ok (reverseBits 64 value >>> unusedBits) else .panic

/-- The loops of `fk_single`, kzg-bench/src/tests/fk20_proofs.rs:79-85, and of `fk_single_strided`,
kzg-bench/src/tests/fk20_proofs.rs:139-145; the first has no `stride`. -/
def checkReversed (A : Api F P) (commitment : P) (p : List F) (proofs : List P) (stride : Nat) : Res Unit :=
  each (2 * p.length) fun i => do
    let x ← A.rootAt (i * stride)
    let y ← A.eval p x
    let last ← subU (2 * p.length) 1
    let r ← reverseBitsLimited last i
    let proof ← rd proofs r
    let b ← (A.checkSingle commitment proof x y).unwrap
    assertT b

/-- `fk_single`, kzg-bench/src/tests/fk20_proofs.rs:71-100; `da` and `daOpt` are `data_availability` and `data_availability_optimized`
of the settings. -/
def fkSingle (A : Api F P) (da daOpt : List F → Res (List P)) (p : List F) : Res Unit := do
  let commitment ← (A.commit p).unwrap
  let proofs ← (da p).unwrap
  checkReversed A commitment p proofs 1
  let proofs ← (daOpt p).unwrap
  each (2 * p.length) fun i => do
    let x ← A.rootAt i
    let y ← A.eval p x
    let proof ← rd proofs i
    let b ← (A.checkSingle commitment proof x y).unwrap
    assertT b

/-- `fk_single_strided`, kzg-bench/src/tests/fk20_proofs.rs:117, 132-145. -/
def fkSingleStrided (A : Api F P) (da : List F → Res (List P)) (p : List F) : Res Unit := do
  let stride ← divU A.maxWidth (2 * p.length)
  let commitment ← (A.commit p).unwrap
  let proofs ← (da p).unwrap
  checkReversed A commitment p proofs stride

/-- The body of the last loop of `fk_multi_case`, kzg-bench/src/tests/fk20_proofs.rs:241-270. -/
def fkMultiStep (A : Api F P) (commitment : P) (p : List F) (proofs : List P) (ext : List F) (chunkLen pos : Nat) : Res Unit := do
  let n := p.length
  let domainStride := A.maxWidth / (2 * n)
  let domainPos ← reverseBitsLimited (n / chunkLen) pos
  let x ← A.rootAt (domainPos * domainStride)
  let ys ← tab chunkLen fun i => rd ext (chunkLen * pos + i)
  let ys ← reverseBitOrder ys
  let stride := A.maxWidth / chunkLen
  let ys2 ← tab chunkLen fun i => do
    let r ← A.rootAt (i * stride)
    A.eval p (x * r)
  each chunkLen fun i => do
    let a ← rd ys i
    let b ← rd ys2 i
    assertT (decide (a = b))
  let proof ← rd proofs pos
  let b ← (A.checkMulti commitment proof x ys chunkLen).unwrap
  assertT b

/-- `fk_multi_case`, kzg-bench/src/tests/fk20_proofs.rs:217-271, after the settings and the polynomial are made (divisions by `n` and
`chunk_len` come after the assertions of 183-186, by which both are positive). `reverse_bit_order`,
kzg-bench/src/tests/fk20_proofs.rs:29-42, has the text of blst-from-scratch (`Kzg.reverseBitOrder`). -/
def fkMulti (A : Api F P) (da : List F → Res (List P)) (p : List F) (chunkLen : Nat) : Res Unit := do
  let n := p.length
  assertT (decide (chunkLen ≤ n ∧ 0 < chunkLen))
  let commitment ← (A.commit p).unwrap
  let proofs ← (da p).unwrap
  let ext ← (A.fft (p ++ List.replicate n 0) false).unwrap
  let ext ← reverseBitOrder ext
  each (2 * (n / chunkLen)) fun pos => fkMultiStep A commitment p proofs ext chunkLen pos

/-! ### The backends -/

section
variable {G1 G2 GT : Type} [AddCommGroup G1] [Module Fr G1] [AddCommGroup G2] [Module Fr G2] [CommGroup GT] [DecidableEq GT]

/-- blst-from-scratch: `impl KZGSettings`, blst-from-scratch/src/types/kzg_settings.rs:29-182, with `impl FFTSettings` and `impl Poly`. -/
def blst (B : Backend G1 G2 GT) (g1 : G1) (g2 : G2) (ks : KZGSettings Fr G1 G2) : Api Fr G1 where
  maxWidth := ks.fs.maxWidth
  rootAt := Iface.blstFft.getExpandedAt ks.fs
  fft := ks.fs.fftFr
  eval := Iface.blstPoly.eval
  commit := ks.commitToPoly B
  single := ks.computeProofSingle B
  checkSingle := ks.checkProofSingle B g1 g2
  multi := ks.computeProofMulti B
  checkMulti := ks.checkProofMulti B g2

/-- mcl-kzg: `impl CommonKZGSettings`, mcl-kzg/kzg/src/trait_implementations/kzg_settings.rs:7-39. -/
def mcl [Mcl.Lib Fr] (B : Mcl.Backend G1 G2 GT) (g1 : G1) (g2 : G2) (ks : KZGSettings Fr G1 G2) : Api Fr G1 where
  maxWidth := ks.fs.maxWidth
  rootAt := Iface.mclFft.getExpandedAt ks.fs
  fft := Mcl.fft ks.fs
  eval := Iface.mclPoly.eval
  commit := Mcl.commit B ks.secretG1
  single := Mcl.genProofAt B ks.secretG1
  checkSingle := Mcl.checkProofSingle B g1 g2 ks
  multi := Mcl.computeProofMulti B ks
  checkMulti := Mcl.checkProofMulti B g2 ks

/-- Arkworks: `impl KZGSettings for LKZGSettings`, Arkworks/src/kzg_types.rs:413-450. -/
def ark {P : Type} (B : Ark.Backend P G1 G2 GT) (ks : Ark.Settings P G1 G2) : Api Fr G1 where
  maxWidth := ks.fs.maxWidth
  rootAt := Iface.arkFft.getExpandedAt ks.fs
  fft := Ark.fftFr ks.fs
  eval := Iface.arkPoly.eval
  commit := ks.commit
  single := ks.computeSingle
  checkSingle := ks.checkSingle B
  multi := ks.computeMulti
  checkMulti := ks.checkMulti B

end

/-- zkcrypto: `impl KZGSettings for LKZGSettings`, zkcrypto/src/kzg_types.rs:231-263, with and without overflow checks. -/
def zk (chk : Bool) (ks : Zk.Top.Settings) : Api Zk.ScW Zk.G1.Proj where
  maxWidth := ks.fs.maxWidth
  rootAt := Iface.zkFft.getExpandedAt ks.fs
  fft := ks.fs.fftFr
  eval := Iface.zkPoly.eval
  commit := Zk.Top.commitToPoly ks
  single := Zk.Top.computeProofSingle ks
  checkSingle := Zk.Top.checkProofSingle chk ks
  multi := Zk.Top.computeProofMulti ks
  checkMulti := Zk.Top.checkProofMulti ks

end Kzg.Bench
