import Verif.Model.Interface
/-!
# The contract of the field element interface (kzg/src/lib.rs:1-43)

`Rep e x` says which residue an element of the backend stands for. The contract is split, because no two
backends break it at the same place. What the shared tests (kzg-bench/src/tests/bls12_381.rs) ask for single values is
asked here for all: among them that a division by zero gives zero (`fr_div_by_zero`, 95-100) and that no element is
taken for null (`fr_is_null_works`, 11-18).
-/

namespace Kzg.Iface

variable {E : Type}

/-- The call returns an element that stands for `x`. -/
def Gives (Rep : E → Fr → Prop) (r : Res E) (x : Fr) : Prop := ∃ e, r = .ok e ∧ Rep e x

/-- Four 64-bit words. -/
def Words4 (u : List Nat) : Prop := u.length = 4 ∧ ∀ w ∈ u, w < 2 ^ 64

/-- The constants. -/
def Consts (T : FrTrait E) (Rep : E → Fr → Prop) : Prop :=
  Gives Rep T.default 0 ∧ Gives Rep T.zero 0 ∧ Gives Rep T.one 1

/-- Every 64-bit number is taken as it is. -/
def FromU64 (T : FrTrait E) (Rep : E → Fr → Prop) : Prop := ∀ v < 2 ^ 64, Gives Rep (T.fromU64 v) (v : Fr)

/-- Words below the modulus are taken as they are. -/
def FromWords (T : FrTrait E) (Rep : E → Fr → Prop) : Prop :=
  ∀ u, Words4 u → wordsVal u < frModulus → Gives Rep (T.fromU64Arr u) (wordsVal u : Fr)

/-- All words are taken modulo the modulus. -/
def FromAllWords (T : FrTrait E) (Rep : E → Fr → Prop) : Prop :=
  ∀ u, Words4 u → Gives Rep (T.fromU64Arr u) (wordsVal u : Fr)

/-- The words given out are those of the canonical integer. -/
def ToWords (T : FrTrait E) (Rep : E → Fr → Prop) : Prop :=
  ∀ e x, Rep e x → ∃ u, T.toU64Arr e = .ok u ∧ Words4 u ∧ wordsVal u = x.val

/-- The comparisons decide equality of the elements stood for. -/
def Tests (T : FrTrait E) (Rep : E → Fr → Prop) : Prop :=
  ∀ e x, Rep e x → T.isOne e = .ok (decide (x = 1)) ∧ T.isZero e = .ok (decide (x = 0)) ∧
    ∀ f y, Rep f y → T.equals e f = .ok (decide (x = y))

/-- The ring operations without subtraction. -/
def Ring (T : FrTrait E) (Rep : E → Fr → Prop) : Prop :=
  ∀ e x, Rep e x → Gives Rep (T.sqr e) (x ^ 2) ∧ Gives Rep (T.negate e) (-x) ∧
    ∀ f y, Rep f y → Gives Rep (T.mul e f) (x * y) ∧ Gives Rep (T.add e f) (x + y)

/-- Subtraction. -/
def Sub (T : FrTrait E) (Rep : E → Fr → Prop) : Prop :=
  ∀ e x f y, Rep e x → Rep f y → Gives Rep (T.sub e f) (x - y)

/-- Powers with every exponent of a machine word. -/
def Pow (T : FrTrait E) (Rep : E → Fr → Prop) : Prop :=
  ∀ e x, Rep e x → ∀ n < 2 ^ 64, Gives Rep (T.pow e n) (x ^ n)

/-- The inverse of everything but zero. -/
def Inverse (T : FrTrait E) (Rep : E → Fr → Prop) : Prop :=
  ∀ e x, Rep e x → x ≠ 0 → Gives Rep (T.inverse e) x⁻¹

/-- The same by the other function. -/
def EuclInverse (T : FrTrait E) (Rep : E → Fr → Prop) : Prop :=
  ∀ e x, Rep e x → x ≠ 0 → Gives Rep (T.euclInverse e) x⁻¹

/-- Division by everything but zero. -/
def Div (T : FrTrait E) (Rep : E → Fr → Prop) : Prop :=
  ∀ e x f y, Rep e x → Rep f y → y ≠ 0 → Gives Rep (T.div e f) (x / y)

/-- Division by zero gives zero. -/
def DivZero (T : FrTrait E) (Rep : E → Fr → Prop) : Prop :=
  ∀ e x f, Rep e x → Rep f 0 → Gives Rep (T.div e f) 0

/-- Null is recognised. -/
def NullIsNull (T : FrTrait E) : Prop := ∃ n, T.null = .ok n ∧ T.isNull n = .ok true

/-- No element is taken for null. -/
def NullIsNone (T : FrTrait E) (Rep : E → Fr → Prop) : Prop := ∀ e x, Rep e x → T.isNull e = .ok false

/-- Neither zero nor one is taken for null. -/
def NullTest (T : FrTrait E) (Rep : E → Fr → Prop) : Prop :=
  ∀ e, (Rep e 0 ∨ Rep e 1) → T.isNull e = .ok false

/-- Every residue has an element. -/
def Onto (Rep : E → Fr → Prop) : Prop := ∀ x, ∃ e, Rep e x

/-- The whole contract. -/
structure Contract (T : FrTrait E) (Rep : E → Fr → Prop) : Prop where
  onto : Onto Rep
  consts : Consts T Rep
  fromU64 : FromU64 T Rep
  fromAllWords : FromAllWords T Rep
  toWords : ToWords T Rep
  tests : Tests T Rep
  ring : Ring T Rep
  sub : Sub T Rep
  pow : Pow T Rep
  inverse : Inverse T Rep
  euclInverse : EuclInverse T Rep
  div : Div T Rep
  divZero : DivZero T Rep
  nullIsNull : NullIsNull T
  nullIsNone : NullIsNone T Rep

end Kzg.Iface
