import Verif.Model.Interface
import Verif.Model.GroupInterface
import Verif.Model.Consts
/-!
# The groups of ckzg (ckzg/src/finite.rs:187-328)

The points are the words the Rust types hold; the operations are functions of the C library (trusted base), so they are
parameters. What the wrapper adds is the constants and the order of the arguments.
-/

namespace Kzg.Iface
open Kzg.Zk Kzg.Consts

/-- The functions of the C library behind the points of a group, ckzg/src/finite.rs:21-35: the generator it points to,
and the operations. `S` are the scalars. The second group has no `is_inf`. -/
structure CGroup (S E : Type) where
  generator : E
  addOrDbl : E → E → E
  equal : E → E → Bool
  mul : E → S → E
  dbl : E → E
  sub : E → E → E
  isInf : E → Bool

/-- `impl G1 for BlstP1` and `G1Mul`, ckzg/src/finite.rs:187-268. `default` and `identity` have all words zero.
`add_or_dbl` hands over its arguments in the opposite order (226) and writes to a new point. -/
def ckzgG1 {S : Type} (L : CGroup S BlstP1) : G1Trait S BlstP1 where
  default := .ok g1Identity
  identity := .ok g1Identity
  generator := .ok L.generator
  negativeGenerator := .ok ckzgG1NegativeGenerator
  addOrDbl a b := .ok (a, L.addOrDbl b a)
  isInf a := .ok (L.isInf a)
  dbl a := .ok (L.dbl a)
  sub a b := .ok (L.sub a b)
  equals a b := .ok (L.equal a b)
  mul a s := .ok (L.mul a s)

/-- `Default` of `BlstP2`, ckzg/src/finite.rs:271-277: all words zero. -/
def ckzgG2Default : BlstP2 :=
  ⟨⟨⟨0, 0, 0, 0, 0, 0⟩, ⟨0, 0, 0, 0, 0, 0⟩⟩, ⟨⟨0, 0, 0, 0, 0, 0⟩, ⟨0, 0, 0, 0, 0, 0⟩⟩,
    ⟨⟨0, 0, 0, 0, 0, 0⟩, ⟨0, 0, 0, 0, 0, 0⟩⟩⟩

/-- `impl G2 for BlstP2` and `G2Mul`, ckzg/src/finite.rs:270-328. -/
def ckzgG2 {S : Type} (L : CGroup S BlstP2) : G2Trait S BlstP2 where
  default := .ok ckzgG2Default
  generator := .ok L.generator
  negativeGenerator := .ok ckzgG2NegativeGenerator
  addOrDbl a b := .ok (a, L.addOrDbl a b)
  dbl a := .ok (L.dbl a)
  sub a b := .ok (L.sub a b)
  equals a b := .ok (L.equal a b)
  mul a s := .ok (L.mul a s)

/-- `Fr::rand`, ckzg/src/finite.rs:63-76, on the four words `u` of the random number generator. -/
def ckzgFrRand {S : Type} (C : CFr S) (u : List Nat) : S := C.fromUint64s u

/-- `G1::rand`, ckzg/src/finite.rs:214-221: the product of the generator with a random scalar. -/
def ckzgG1Rand {S : Type} (C : CFr S) (L : CGroup S BlstP1) (u : List Nat) : BlstP1 := L.mul L.generator (ckzgFrRand C u)

end Kzg.Iface
