import Verif.Model.BenchRecover
/-!
# The shared tests of zero polynomials (kzg-bench/src/tests/zero_poly.rs) as programs

Conventions as in `Verif.Model.Bench`. The random choices are arguments: which positions are missing (a bit for every position), the
shuffled list of positions and the number of missing ones (a rounded product of floating-point numbers in the test). The settings are an
argument, too, so the scale is a variable. `test_reduce_partials`, `check_test_data` and `zero_poly_known` are in `Verif.Model.BenchKnown`.
-/

namespace Kzg.Bench
open Kzg

/-- What these tests call: `get_max_width`, `get_expanded_roots_of_unity_at` (kzg/src/lib.rs:125-127), `fft_fr` (kzg/src/lib.rs:92),
`eval` (kzg/src/lib.rs:158) and the functions of `ZeroPoly` (kzg/src/lib.rs:103-119). -/
structure ZeroApi (F : Type) where
  maxWidth : Nat
  rootAt : Nat → Res F
  fft : List F → Bool → Res (List F)
  eval : List F → F → Res F
  part : List Nat → Nat → Res (List F)
  reduce : Nat → List (List F) → Res (List F)
  zero : Nat → List Nat → Res (List F × List F)

variable {F : Type} [Field F] [DecidableEq F]

/-- The common part of `zero_poly_random`, `zero_poly_all_but_one` and `zero_poly_252`, kzg-bench/src/tests/zero_poly.rs:237-257, 276-292 and
308-328. -/
def zeroCheck (A : ZeroApi F) (missing : List Nat) : Res Unit := do
  let (zeroEval, zeroPoly) ← (A.zero A.maxWidth missing).unwrap
  each missing.length fun i => do
    let m ← rd missing i
    let r ← A.rootAt m
    let out ← A.eval zeroPoly r
    assertT (out == 0)
  let back ← (A.fft zeroEval true).unwrap
  each zeroPoly.length fun i => do
    let c ← rd zeroPoly i
    let b ← rd back i
    assertT (c == b)
  eachFrom zeroPoly.length A.maxWidth fun i => do
    let b ← rd back i
    assertT (b == 0)

/-- `zero_poly_random`, kzg-bench/src/tests/zero_poly.rs:217-260, one round; `bit i` says that position `i` is missing. -/
def zeroRandom (A : ZeroApi F) (bit : Nat → Bool) : Res Unit := do
  let missing ← forRange 0 A.maxWidth [] fun i v => .ok (if bit i then v ++ [i] else v)
  if missing.length = A.maxWidth then .ok () else zeroCheck A missing

/-- `zero_poly_all_but_one`, kzg-bench/src/tests/zero_poly.rs:263-293. -/
def zeroAllButOne (A : ZeroApi F) : Res Unit := do
  let n ← subU A.maxWidth 1
  let missing ← tab n fun i => .ok (i + 1)
  zeroCheck A missing

/-- `zero_poly_252`, kzg-bench/src/tests/zero_poly.rs:296-329. -/
def zero252 (A : ZeroApi F) : Res Unit := do
  let missing ← tab 252 fun i => .ok i
  zeroCheck A missing

/-- The partial polynomials of `reduce_partials_random`, kzg-bench/src/tests/zero_poly.rs:111-130; the buffer `idxs` lives across the rounds. -/
def reduceParts (A : ZeroApi F) (missing : List Nat) (count : Nat) : Res (List (List F)) := do
  let (_, partials) ← forRange 0 ((count + 63 - 1) / 63) ((List.replicate 63 0, []) : List Nat × List (List F)) fun i s => do
    let start := i * 63
    let stop := if start + 63 > count then count else start + 63
    let size ← subU stop start
    let idxs ← forRange 0 size s.1 fun j idxs => do
      let m ← rd missing (i * 63 + j)
      wr idxs j m
    let sl ← sliceTo idxs size
    let p ← (A.part sl 1).unwrap
    .ok (idxs, s.2 ++ [p])
  .ok partials

/-- `reduce_partials_random`, kzg-bench/src/tests/zero_poly.rs:87-148, one round, with the shuffled positions `order`. What is done with the
two coefficients is an argument: the test calls `equals` and drops the result (`discard`). -/
def reduceRandom (A : ZeroApi F) (compare : F → F → Res Unit) (order : List Nat) (count : Nat) : Res Unit := do
  let partials ← reduceParts A order count
  let tree ← (A.reduce A.maxWidth partials).unwrap
  let first ← sliceTo order count
  let stride ← divU A.maxWidth A.maxWidth
  let direct ← (A.part first stride).unwrap
  each (count + 1) fun i => do
    let a ← rd tree i
    let b ← rd direct i
    compare a b

/-- The statement `from_tree_reduction.get_coeff_at(i).equals(&from_direct.get_coeff_at(i));`, kzg-bench/src/tests/zero_poly.rs:142-145. -/
def discard (_ _ : F) : Res Unit := .ok ()

/-- The same with an assertion around it. -/
def insist (a b : F) : Res Unit := assertT (a == b)

/-! ### The backends -/

/-- blst-from-scratch: `impl ZeroPoly`, blst-from-scratch/src/zero_poly.rs:41-306. -/
def blstZero (fs : FFTSettings Fr) : ZeroApi Fr where
  maxWidth := fs.maxWidth
  rootAt := Iface.blstFft.getExpandedAt fs
  fft := fs.fftFr
  eval := Iface.blstPoly.eval
  part := fs.zeroPolyPartial
  reduce := fs.reducePartials
  zero := fs.zeroPolyViaMultiplication

/-- mcl-kzg: mcl-kzg/kzg/src/trait_implementations/zero_poly.rs:6-18. -/
def mclZero [Mcl.Lib Fr] (fs : FFTSettings Fr) : ZeroApi Fr where
  maxWidth := fs.maxWidth
  rootAt := Iface.mclFft.getExpandedAt fs
  fft := Mcl.fft fs
  eval := Iface.mclPoly.eval
  part := Mcl.zeroPolyPartial fs
  reduce := Mcl.reducePartials fs
  zero := Mcl.zeroPolyViaMultiplication fs

/-- Arkworks: `impl ZeroPoly`, Arkworks/src/zero_poly.rs:26-213. -/
def arkZero (fs : FFTSettings Fr) : ZeroApi Fr where
  maxWidth := fs.maxWidth
  rootAt := Iface.arkFft.getExpandedAt fs
  fft := Ark.fftFr fs
  eval := Iface.arkPoly.eval
  part := Ark.zeroPolyPartial fs
  reduce := Ark.reducePartials fs
  zero := Ark.zeroPolyViaMultiplication fs

/-- zkcrypto: `impl ZeroPoly`, zkcrypto/src/zero_poly.rs:23-195. -/
def zkZero (fs : FFTSettings Zk.ScW) : ZeroApi Zk.ScW where
  maxWidth := fs.maxWidth
  rootAt := Iface.zkFft.getExpandedAt fs
  fft := fs.fftFr
  eval := Iface.zkPoly.eval
  part := ZkP.zeroPolyPartial fs
  reduce := ZkP.reducePartials fs
  zero := ZkP.zeroPolyViaMultiplication fs

end Kzg.Bench
