import Verif.Model.Bench
import Verif.Model.GroupInterface
/-!
# The shared tests of commitments and settings (kzg-bench/src/tests/kzg_proofs.rs, fk20_proofs.rs) as programs

Conventions as in `Verif.Model.Bench`: the settings are arguments. The tests take 16 secrets and polynomials of length 0 and 32; here the
length is an argument.
-/

namespace Kzg.Bench
open Kzg

/-- What these tests call: `Poly::new` (kzg/src/lib.rs:148), `commit_to_poly` (kzg/src/lib.rs:196), and `default` and `equals` of `G1`
(kzg/src/lib.rs:46, 64). -/
structure CommitApi (F P : Type) where
  new : Nat → Res (List F)
  commit : List F → Res P
  default : Res P
  equals : P → P → Res Bool

variable {F P : Type}

/-- `commit_to_nil_poly`, kzg-bench/src/tests/kzg_proofs.rs:71-73; the test takes the length 0. -/
def commitNilT (A : CommitApi F P) (len : Nat) : Res Unit := do
  let a ← (A.new len).unwrap
  let result ← (A.commit a).unwrap
  let d ← A.default
  let b ← A.equals result d
  assertT b

/-- `commit_to_too_long_poly`, kzg-bench/src/tests/kzg_proofs.rs:98-99: the answer is dropped, so the test passes unless the call panics. -/
def commitLongT (A : CommitApi F P) (len : Nat) : Res Unit := do
  let a ← (A.new len).unwrap
  match A.commit a with
  | .panic => .panic
  | _ => .ok ()

/-- `commit_to_too_long_poly_returns_err`, kzg-bench/src/tests/kzg_proofs.rs:122-124. -/
def commitLongErrT (A : CommitApi F P) (len : Nat) : Res Unit := do
  let a ← (A.new len).unwrap
  match A.commit a with
  | .panic => .panic
  | .ok _ => assertT false
  | .err _ => assertT true

/-- `fk_multi_settings`, kzg-bench/src/tests/fk20_proofs.rs:166, with any sizes; the test takes 32 and 4 with 33 secrets and scale 5. -/
def fkMultiSettingsT {S : Type} (new : Nat → Nat → Res S) (n2 chunkLen : Nat) : Res Unit := do
  let _ ← (new n2 chunkLen).unwrap
  .ok ()

/-! ### The backends -/

section
variable {G1 G2 GT : Type} [AddCommGroup G1] [Module Fr G1] [AddCommGroup G2] [Module Fr G2] [CommGroup GT] [DecidableEq GT] [DecidableEq G1]

/-- blst-from-scratch: `impl G1 for FsG1`, `impl Poly for FsPoly` and `impl KZGSettings for FsKZGSettings`. -/
def blstCommit (B : Backend G1 G2 GT) (g1 : G1) (ks : KZGSettings Fr G1 G2) : CommitApi Fr G1 where
  new := Iface.blstPoly.new
  commit := ks.commitToPoly B
  default := (Iface.blstG1 g1).default
  equals := (Iface.blstG1 g1).equals

/-- mcl-kzg. -/
def mclCommit [Mcl.Lib Fr] (B : Mcl.Backend G1 G2 GT) (g1 : G1) (ks : KZGSettings Fr G1 G2) : CommitApi Fr G1 where
  new := Iface.mclPoly.new
  commit := Mcl.commit B ks.secretG1
  default := (Iface.mclG1 g1).default
  equals := (Iface.mclG1 g1).equals

/-- Arkworks; the group is that of the settings, in which `default` is the identity and comparison is equality. -/
def arkCommit {P : Type} (ks : Ark.Settings P G1 G2) : CommitApi Fr G1 where
  new := Iface.arkPoly.new
  commit := ks.commit
  default := .ok 0
  equals := fun a b => .ok (decide (a = b))

end

/-- zkcrypto, with and without overflow checks. -/
def zkCommit (chk : Bool) (ks : Zk.Top.Settings) : CommitApi Zk.ScW Zk.G1.Proj where
  new := Iface.zkPoly.new
  commit := Zk.Top.commitToPoly ks
  default := (Iface.zkG1 chk).default
  equals := (Iface.zkG1 chk).equals

end Kzg.Bench
