import Verif.Model.Bench
import Verif.Model.Mcl.FK20
import Verif.Model.Ark.FK20
import Verif.Model.Zk.G1Fft
import Verif.Model.Zk.Kzg
/-!
# The benchmarks of amortised proofs (kzg-bench/src/benches/fk20.rs) as programs

One run of a benchmark is one round of its outer loop up to the first call that is timed; the scale, which the loops take from 5 to 8,
is an argument, and the answer is that of the timed call. The settings are made by `generate_trusted_setup`, `FFTSettings::new` and
`KZGSettings::new` from a number of secrets and a scale, so what the benchmark calls is a function of these two. Polynomials are their
lists of coefficients. Benchmarks are built without overflow checks, so `u64` arithmetic wraps.
-/

namespace Kzg.Bench
open Kzg

/-- What the benchmarks call of one `KZGSettings`: `commit_to_poly` (kzg/src/lib.rs:196), `FK20SingleSettings` (kzg/src/lib.rs:225-239)
and `FK20MultiSettings` (kzg/src/lib.rs:241-255). -/
structure FkApi (F P S1 S2 : Type) where
  commit : List F → Res P
  singleNew : Nat → Res S1
  singleDa : S1 → List F → Res (List P)
  singleOpt : S1 → List F → Res (List P)
  multiNew : Nat → Nat → Res S2
  multiDa : S2 → List F → Res (List P)
  multiOpt : S2 → List F → Res (List P)

variable {F P S1 S2 : Type}

/-- `fk_single_da`, kzg-bench/src/benches/fk20.rs:36-60 (`timeOpt = false`), and `fk_single_da_optimized`,
kzg-bench/src/benches/fk20.rs:76-102 (`timeOpt = true`), which differ in the timed call only. `vec![rng.next_u64(); n]` draws one number
and repeats it; `coeff` is its image under `from_u64`. -/
def fkSingleBench (A : Nat → Nat → FkApi F P S1 S2) (timeOpt : Bool) (scale : Nat) (coeff : F) : Res (List P) := do
  let e ← subU scale 1
  let p := List.replicate (2 ^ e) coeff
  let nLen := 2 ^ scale
  let secretsLen := nLen + 1
  assertT (decide (2 * p.length ≤ nLen))
  let B := A secretsLen scale
  let fk ← (B.singleNew (2 * p.length)).unwrap
  let _ ← (B.commit p).unwrap
  (if timeOpt then B.singleOpt fk p else B.singleDa fk p).unwrap

/-- `fk_single_da`, kzg-bench/src/benches/fk20.rs:24-62. -/
def fkSingleDaBench (A : Nat → Nat → FkApi F P S1 S2) (scale : Nat) (coeff : F) : Res (List P) := fkSingleBench A false scale coeff

/-- `fk_single_da_optimized`, kzg-bench/src/benches/fk20.rs:64-104. -/
def fkSingleDaOptimizedBench (A : Nat → Nat → FkApi F P S1 S2) (scale : Nat) (coeff : F) : Res (List P) :=
  fkSingleBench A true scale coeff

/-- `vv`, kzg-bench/src/benches/fk20.rs:123 and kzg-bench/src/tests/fk20_proofs.rs:182. -/
def patternValues : List Nat := [1, 2, 3, 4, 7, 8, 9, 10, 13, 14, 1, 15, 1, 1000, 134, 33]

/-- The body of the loops that fill the test polynomial, kzg-bench/src/benches/fk20.rs:144-160, the same text as
kzg-bench/src/tests/fk20_proofs.rs:203-219. -/
def patternStep [Neg F] (fromU64 : Nat → F) (chunkLen i j : Nat) (p : List F) : Res (List F) := do
  let pIndex := i * chunkLen + j
  let vIndex := pIndex % 16
  let v ← rd patternValues vIndex
  let tmp := i * chunkLen / 16
  let v := if vIndex = 3 then (v + tmp) % 2 ^ 64 else v
  let v := if vIndex = 5 then (v + tmp * tmp) % 2 ^ 64 else v
  let p ← wr p pIndex (fromU64 v)
  let p ← if vIndex = 12 then (do let a ← rd p pIndex; wr p pIndex (-a)) else .ok p
  if vIndex = 14 then (do let a ← rd p pIndex; wr p pIndex (-a)) else .ok p

/-- The test polynomial of size `n`, kzg-bench/src/benches/fk20.rs:141-163 and kzg-bench/src/tests/fk20_proofs.rs:200-221. -/
def patternPoly [Zero F] [Neg F] (fromU64 : Nat → F) (n chunkLen : Nat) : Res (List F) := do
  let chunkCount ← divU n chunkLen
  forRange 0 chunkCount (List.replicate n 0) fun i p =>
    forRange 0 chunkLen p fun j p => patternStep fromU64 chunkLen i j p

/-- `is_power_of_two`, kzg-bench/src/benches/fk20.rs:10-12. -/
def benchIsPow2 (n : Nat) : Res Bool := do
  let m ← subU n 1
  .ok (decide (n &&& m = 0))

/-- `fk_multi_da`, kzg-bench/src/benches/fk20.rs:121-177; `log2_pow2`, kzg-bench/src/benches/fk20.rs:14-22, has the text of
blst-from-scratch (`Kzg.log2Pow2`), and the conversion to `u32` keeps the low bits. -/
def fkMultiBench [Zero F] [Neg F] (fromU64 : Nat → F) (A : Nat → Nat → FkApi F P S1 S2) (chunkLen : Nat) (optimized : Bool) (i : Nat) :
    Res (List P) := do
  let n := 2 ^ i
  let b ← benchIsPow2 n
  assertT b
  let b ← benchIsPow2 chunkLen
  assertT b
  assertT (decide (n % 16 = 0))
  assertT (decide (chunkLen ≤ n))
  let secretsLen := 2 * n
  let width := log2Pow2 (secretsLen % 2 ^ 32)
  let B := A secretsLen width
  let fk ← (B.multiNew secretsLen chunkLen).unwrap
  let p ← patternPoly fromU64 n chunkLen
  let _ ← (B.commit p).unwrap
  (if optimized then B.multiOpt fk p else B.multiDa fk p).unwrap

/-- `fk_multi_da_chunk_32`, kzg-bench/src/benches/fk20.rs:180-199. -/
def fkMultiDaChunk32Bench [Zero F] [Neg F] (fromU64 : Nat → F) (A : Nat → Nat → FkApi F P S1 S2) (i : Nat) : Res (List P) :=
  fkMultiBench fromU64 A 32 false i

/-- `fk_multi_da_chunk_32_optimized`, kzg-bench/src/benches/fk20.rs:201-220; the last argument is `false` here too. -/
def fkMultiDaChunk32OptimizedBench [Zero F] [Neg F] (fromU64 : Nat → F) (A : Nat → Nat → FkApi F P S1 S2) (i : Nat) : Res (List P) :=
  fkMultiBench fromU64 A 32 false i

/-! ### The backends -/

section
variable {G1 G2 GT : Type} [AddCommGroup G1] [Module Fr G1] [AddCommGroup G2] [Module Fr G2] [CommGroup GT] [DecidableEq GT]

/-- blst-from-scratch. -/
def blstFk (B : Backend G1 G2 GT) (ks : KZGSettings Fr G1 G2) : FkApi Fr G1 (FK20Single Fr G1 G2) (FK20Multi Fr G1 G2) where
  commit := ks.commitToPoly B
  singleNew := FK20Single.new ks
  singleDa := fun fk p => fk.da p
  singleOpt := fun fk p => fk.daOptimized p
  multiNew := FK20Multi.new ks
  multiDa := fun fk p => fk.da p
  multiOpt := fun fk p => fk.daOptimized p

/-- mcl-kzg. -/
def mclFk [Mcl.Lib Fr] (B : Mcl.Backend G1 G2 GT) (ks : KZGSettings Fr G1 G2) :
    FkApi Fr G1 (FK20Single Fr G1 G2) (FK20Multi Fr G1 G2) where
  commit := Mcl.commit B ks.secretG1
  singleNew := Mcl.FK20Single.new ks
  singleDa := Mcl.FK20Single.da
  singleOpt := Mcl.FK20Single.daOptimized
  multiNew := Mcl.FK20Multi.new ks
  multiDa := Mcl.FK20Multi.da
  multiOpt := Mcl.FK20Multi.daOptimized

/-- Arkworks. -/
def arkFk {P : Type} (B : Ark.Backend P G1 G2 GT) (ks : Ark.Settings P G1 G2) :
    FkApi Fr G1 (Ark.FKSingle P G1 G2) (Ark.FKMulti P G1 G2) where
  commit := ks.commit
  singleNew := Ark.FKSingle.new B ks
  singleDa := fun fk p => fk.da p
  singleOpt := fun fk p => fk.daOptimized p
  multiNew := Ark.FKMulti.new B ks
  multiDa := fun fk p => fk.da p
  multiOpt := fun fk p => fk.daOptimized p

end

/-- zkcrypto, with and without overflow checks. -/
def zkFk (chk : Bool) (ks : Zk.Top.Settings) :
    FkApi Zk.ScW Zk.G1.Proj (FK20Single Zk.ScW Zk.G1.Proj Zk.G2.Proj) (FK20Multi Zk.ScW Zk.G1.Proj Zk.G2.Proj) where
  commit := Zk.Top.commitToPoly ks
  singleNew := ZkP.singleNew (Zk.Top.g1Ops chk) ks
  singleDa := ZkP.singleDa (Zk.Top.g1Ops chk)
  singleOpt := ZkP.singleOpt (Zk.Top.g1Ops chk)
  multiNew := ZkP.multiNew (Zk.Top.g1Ops chk) ks
  multiDa := ZkP.multiDa (Zk.Top.g1Ops chk)
  multiOpt := ZkP.multiOpt (Zk.Top.g1Ops chk)

end Kzg.Bench
