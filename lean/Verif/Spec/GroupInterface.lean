import Verif.Model.GroupInterface
import Verif.Spec.ZkScalar
import Verif.Spec.Jacobian
/-!
# The contract of the group interface (kzg/src/lib.rs:45-89)

`Rep e P` says which group element the value `e` of the backend stands for, `SRep s x` which residue a scalar stands
for. The parts are stated for the single functions, since the two groups share them.
-/

namespace Kzg.Iface

variable {S E G : Type} [AddCommGroup G]

/-- The call returns a value that stands for `P`. -/
def GivesPt (Rep : E → G → Prop) (r : Res E) (P : G) : Prop := ∃ e, r = .ok e ∧ Rep e P

/-- The sum is right, also for equal and opposite points. -/
def AddRight (Rep : E → G → Prop) (add : E → E → Res (E × E)) : Prop :=
  ∀ e P f Q, Rep e P → Rep f Q → ∃ s r, add e f = .ok (s, r) ∧ Rep r (P + Q)

/-- Adding leaves the first argument as it was. -/
def AddKeeps (Rep : E → G → Prop) (add : E → E → Res (E × E)) : Prop :=
  ∀ e P f Q s r, Rep e P → Rep f Q → add e f = .ok (s, r) → s = e

/-- The double is right. -/
def DblRight (Rep : E → G → Prop) (dbl : E → Res E) : Prop := ∀ e P, Rep e P → GivesPt Rep (dbl e) (P + P)

/-- The difference is right. -/
def SubRight (Rep : E → G → Prop) (sub : E → E → Res E) : Prop :=
  ∀ e P f Q, Rep e P → Rep f Q → GivesPt Rep (sub e f) (P - Q)

/-- Two values are equal exactly when they stand for the same group element. -/
def EqualsRight (Rep : E → G → Prop) (equals : E → E → Res Bool) : Prop :=
  ∀ e P f Q, Rep e P → Rep f Q → ∃ a, equals e f = .ok a ∧ (a = true ↔ P = Q)

/-- The test for the identity. -/
def InfRight (Rep : E → G → Prop) (isInf : E → Res Bool) : Prop :=
  ∀ e P, Rep e P → ∃ a, isInf e = .ok a ∧ (a = true ↔ P = 0)

/-- The product with a scalar is right for the group elements of the prime order. -/
def MulRightOn (Rep : E → G → Prop) (SRep : S → Fr → Prop) (mul : E → S → Res E) : Prop :=
  ∀ e P s x, Rep e P → frModulus • P = 0 → SRep s x → GivesPt Rep (mul e s) (x.val • P)

/-- The whole contract of the first group. -/
structure G1Contract (T : G1Trait S E) (Rep : E → G → Prop) (SRep : S → Fr → Prop) (g : G) : Prop where
  default : GivesPt Rep T.default 0
  identity : GivesPt Rep T.identity 0
  generator : GivesPt Rep T.generator g
  negativeGenerator : GivesPt Rep T.negativeGenerator (-g)
  addRight : AddRight Rep T.addOrDbl
  addKeeps : AddKeeps Rep T.addOrDbl
  isInf : InfRight Rep T.isInf
  dbl : DblRight Rep T.dbl
  sub : SubRight Rep T.sub
  equals : EqualsRight Rep T.equals
  mul : MulRightOn Rep SRep T.mul

/-- The whole contract of the second group. -/
structure G2Contract (T : G2Trait S E) (Rep : E → G → Prop) (SRep : S → Fr → Prop) (g : G) : Prop where
  default : GivesPt Rep T.default 0
  generator : GivesPt Rep T.generator g
  negativeGenerator : GivesPt Rep T.negativeGenerator (-g)
  addRight : AddRight Rep T.addOrDbl
  addKeeps : AddKeeps Rep T.addOrDbl
  dbl : DblRight Rep T.dbl
  sub : SubRight Rep T.sub
  equals : EqualsRight Rep T.equals
  mul : MulRightOn Rep SRep T.mul

open Kzg.Zk in
/-- The Jacobian coordinates stand for the point `P`. -/
def JacIs {K : Type} [Field K] (b : K) (p : Jac K) (P : (curve b).Point) : Prop := Jacobian b p.x p.y p.z P

open Kzg.Zk in
/-- What is trusted of ark-ec: its formulas compute the group law on Jacobian coordinates. Nothing is said about which of
the coordinates of a point come out. -/
structure ArkLawful {K : Type} [Field K] [DecidableEq K] (b : K) (L : ArkCurve K) : Prop where
  add : ∀ p q P Q, JacIs b p P → JacIs b q Q → JacIs b (L.add p q) (P + Q)
  double : ∀ p P, JacIs b p P → JacIs b (L.double p) (P + P)
  sub : ∀ p q P Q, JacIs b p P → JacIs b q Q → JacIs b (L.sub p q) (P - Q)
  mul : ∀ p P (x : Fr), JacIs b p P → JacIs b (L.mul p x) (x.val • P)

end Kzg.Iface
