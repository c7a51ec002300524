import Verif.Model.FrOps
import Verif.Model.Zk.Kzg
/-!
# The group interface of the backends (`trait G1`, `G1Mul`, `G2`, `G2Mul`, kzg/src/lib.rs:45-89)

One record of functions for each backend and group. `add_or_dbl` takes `&mut self`: it answers with what
is left in `self` and with the sum. The second group has no `identity` and no `is_inf`.

The points of zkcrypto are the coordinates the Rust type holds, with the formulas of the crate. Those of Arkworks are the
coordinates too; the formulas are those of ark-ec (trusted base, `ArkCurve`).
The points of blst-from-scratch and mcl-kzg are elements of an abstract group: addition, negation, comparison and
multiplication by a bit string are done by the libraries blst and mcl (trusted base).
-/

namespace Kzg.Iface

/-- `trait G1` and `G1Mul`, kzg/src/lib.rs:45-69. -/
structure G1Trait (S E : Type) where
  default : Res E
  identity : Res E
  generator : Res E
  negativeGenerator : Res E
  addOrDbl : E → E → Res (E × E)
  isInf : E → Res Bool
  dbl : E → Res E
  sub : E → E → Res E
  equals : E → E → Res Bool
  mul : E → S → Res E

/-- `trait G2` and `G2Mul`, kzg/src/lib.rs:71-89. -/
structure G2Trait (S E : Type) where
  default : Res E
  generator : Res E
  negativeGenerator : Res E
  addOrDbl : E → E → Res (E × E)
  dbl : E → Res E
  sub : E → E → Res E
  equals : E → E → Res Bool
  mul : E → S → Res E

/-! ### zkcrypto -/

section
open Kzg.Zk

/-- `G1_NEGATIVE_GENERATOR`, zkcrypto/src/kzg_types.rs:57-61: its words are those of the negated generator
(C133). -/
def zkG1Negative : G1.Proj := G1.generatorProj.neg

/-- `G2_NEGATIVE_GENERATOR`, zkcrypto/src/kzg_types.rs:89-104 (likewise). -/
def zkG2Negative : G2.Proj := G2.generatorProj.neg

/-- `impl G1 for ZkG1Projective`, zkcrypto/src/kzg_types.rs:107-163; `chk` says whether overflow checks are on. -/
def zkG1 (chk : Bool) : G1Trait Scalar G1.Proj where
  default := .ok Projective.identity
  identity := .ok Projective.identity
  generator := .ok G1.generatorProj
  negativeGenerator := .ok zkG1Negative
  addOrDbl a b := .ok (a, if a.ctEq b then a.double else a.add b)
  isInf a := .ok a.isIdentity
  dbl a := .ok a.double
  sub a b := .ok (a.add b.neg)
  equals a b := .ok (a.ctEq b)
  mul a s := G1.mul chk a s

/-- `impl G2 for ZkG2Projective`, zkcrypto/src/kzg_types.rs:165-203. -/
def zkG2 : G2Trait Scalar G2.Proj where
  default := .ok Projective.identity
  generator := .ok G2.generatorProj
  negativeGenerator := .ok zkG2Negative
  addOrDbl a b := .ok (a, Top.g2AddOrDbl a b)
  dbl a := .ok a.double
  sub a b := .ok (a.add b.neg)
  equals a b := .ok (a.ctEq b)
  mul a s := .ok (G2.mul a s)

end

/-! ### Arkworks -/

/-- `blst_p1` and `blst_p2` as Arkworks uses them, Arkworks/src/kzg_types.rs:27-28 and 95-96, and `GroupProjective` of
ark-ec: Jacobian coordinates. The conversions (Arkworks/src/utils.rs:57-125) copy the words. -/
structure Jac (K : Type) where
  x : K
  y : K
  z : K
deriving DecidableEq

/-- What Arkworks calls in other crates. In ark-ec: the sum, the double, the difference, and the product with a scalar.
In blst: the comparison `==` of `blst_p1` and `blst_p2`, which is not in the repository and is left open here. -/
structure ArkCurve (K : Type) where
  beq : Jac K → Jac K → Bool
  add : Jac K → Jac K → Jac K
  double : Jac K → Jac K
  sub : Jac K → Jac K → Jac K
  mul : Jac K → Fr → Jac K

section
variable {K : Type} [Field K] [DecidableEq K]

/-- `impl G1 for ArkG1`, Arkworks/src/kzg_types.rs:36-91. `g` and `n` are the two constants (C133). `default` has all
words zero, like `G1_IDENTITY` (Arkworks/src/fft_g1.rs:60-70). `add_or_dbl` writes the sum to `self` (44);
`equals` is the comparison of the crate blst (49). -/
def arkG1 (L : ArkCurve K) (g n : Jac K) : G1Trait Fr (Jac K) where
  default := .ok ⟨0, 0, 0⟩
  identity := .ok ⟨0, 0, 0⟩
  generator := .ok g
  negativeGenerator := .ok n
  addOrDbl a b :=
    let ret := L.add a b
    .ok (ret, ret)
  isInf a := .ok (decide (a.z = 0))
  dbl a := .ok (L.double a)
  sub a b := .ok (L.sub a b)
  equals a b := .ok (L.beq a b)
  mul a s := .ok (L.mul a s)

/-- `impl G2 for ArkG2`, Arkworks/src/kzg_types.rs:104-145; `default` is `todo!()` (106). -/
def arkG2 (L : ArkCurve K) (g n : Jac K) : G2Trait Fr (Jac K) where
  default := .panic
  generator := .ok g
  negativeGenerator := .ok n
  addOrDbl a b :=
    let ret := L.add a b
    .ok (ret, ret)
  dbl a := .ok (L.double a)
  sub a b := .ok (L.sub a b)
  equals a b := .ok (L.beq a b)
  mul a s := .ok (L.mul a s)

end

/-! ### blst-from-scratch and mcl-kzg -/

section
variable {G : Type} [AddCommGroup G] [DecidableEq G]

/-- `impl G1 for FsG1`, blst-from-scratch/src/types/g1.rs:19-115; `sub` negates a copy and adds. -/
def blstG1 (g : G) : G1Trait Fr G where
  default := .ok 0
  identity := .ok 0
  generator := .ok g
  negativeGenerator := .ok (-g)
  addOrDbl a b := .ok (a, a + b)
  isInf a := .ok (decide (a = 0))
  dbl a := .ok (a + a)
  sub a b := .ok (a + -b)
  equals a b := .ok (decide (a = b))
  mul a s := g1Mul a s

/-- `impl G2 for FsG2`, blst-from-scratch/src/types/g2.rs:12-70: all `8 · 32` bits of the scalar are handed over (22). -/
def blstG2 (g : G) : G2Trait Fr G where
  default := .ok 0
  generator := .ok g
  negativeGenerator := .ok (-g)
  addOrDbl a b := .ok (a, a + b)
  dbl a := .ok (a + a)
  sub a b := .ok (a + -b)
  equals a b := .ok (decide (a = b))
  mul a s := .ok (p1Mult a (scalarBytes s) (8 * 32))

variable [Module Fr G]

/-- `impl CommonG1 for G1`, mcl-kzg/kzg/src/trait_implementations/g1.rs:5-62. -/
def mclG1 (g : G) : G1Trait Fr G where
  default := .ok 0
  identity := .ok 0
  generator := .ok g
  negativeGenerator := .ok (-g)
  addOrDbl a b := .ok (a, if a = b then a + a else a + b)
  isInf a := .ok (decide (a = 0))
  dbl a := .ok (a + a)
  sub a b := .ok (a - b)
  equals a b := .ok (decide (a = b))
  mul a s := .ok (s • a)

/-- `impl CommonG2 for G2`, mcl-kzg/kzg/src/trait_implementations/g2.rs:4-50. -/
def mclG2 (g : G) : G2Trait Fr G where
  default := .ok 0
  generator := .ok g
  negativeGenerator := .ok (-g)
  addOrDbl a b := .ok (a, if a = b then a + a else a + b)
  dbl a := .ok (a + a)
  sub a b := .ok (a - b)
  equals a b := .ok (decide (a = b))
  mul a s := .ok (s • a)

end

end Kzg.Iface
