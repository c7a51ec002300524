import Verif.Model.Ckzg.Groups
import Verif.Spec.Interface
import Verif.Spec.GroupInterface
/-!
# What the C library does behind the types of ckzg

This is the trusted base for ckzg/src/finite.rs: what each of the declared functions (5-39) does.
-/

namespace Kzg.Iface

/-- The functions on field elements do what their names say; words are taken modulo the modulus, the quotient by zero
is zero, and the four words of ones are the one value taken for null. -/
structure CFrRight {E : Type} (C : CFr E) (Rep : E → Fr → Prop) : Prop where
  onto : Onto Rep
  zeroed : Rep C.zeroed 0
  fromUint64 : ∀ v < 2 ^ 64, Rep (C.fromUint64 v) (v : Fr)
  fromUint64s : ∀ u, Words4 u → Rep (C.fromUint64s u) (wordsVal u : Fr)
  toUint64s : ∀ e x, Rep e x → Words4 (C.toUint64s e) ∧ wordsVal (C.toUint64s e) = x.val
  isZero : ∀ e x, Rep e x → C.isZero e = decide (x = 0)
  isOne : ∀ e x, Rep e x → C.isOne e = decide (x = 1)
  isNull : C.isNull C.ones = true ∧ ∀ e x, Rep e x → C.isNull e = false
  equal : ∀ e x f y, Rep e x → Rep f y → C.equal e f = decide (x = y)
  negate : ∀ e x, Rep e x → Rep (C.negate e) (-x)
  pow : ∀ e x n, Rep e x → n < 2 ^ 64 → Rep (C.pow e n) (x ^ n)
  div : ∀ e x f y, Rep e x → Rep f y → Rep (C.div e f) (x / y)
  add : ∀ e x f y, Rep e x → Rep f y → Rep (C.add e f) (x + y)
  sqr : ∀ e x, Rep e x → Rep (C.sqr e) (x ^ 2)
  mul : ∀ e x f y, Rep e x → Rep f y → Rep (C.mul e f) (x * y)

/-- The functions on points do what their names say. -/
structure CGroupRight {S E G : Type} [AddCommGroup G] (L : CGroup S E) (Rep : E → G → Prop) (SRep : S → Fr → Prop) (g : G) :
    Prop where
  generator : Rep L.generator g
  addOrDbl : ∀ e P f Q, Rep e P → Rep f Q → Rep (L.addOrDbl e f) (P + Q)
  equal : ∀ e P f Q, Rep e P → Rep f Q → (L.equal e f = true ↔ P = Q)
  mul : ∀ e P s x, Rep e P → frModulus • P = 0 → SRep s x → Rep (L.mul e s) (x.val • P)
  dbl : ∀ e P, Rep e P → Rep (L.dbl e) (P + P)
  sub : ∀ e P f Q, Rep e P → Rep f Q → Rep (L.sub e f) (P - Q)
  isInf : ∀ e P, Rep e P → (L.isInf e = true ↔ P = 0)

end Kzg.Iface
