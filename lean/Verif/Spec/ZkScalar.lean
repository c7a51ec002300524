import Verif.Model.Zk.Scalar
import Verif.Model.Fr
/-!
# What the four words of a zkcrypto scalar stand for

Independent of every operation of the model: a vector of four 64-bit words holds an integer, it is
reduced when that integer is below the group order, and it represents the field element `x` when the
integer is congruent to `x · 2^256`.
-/

namespace Kzg.Zk.Scalar

/-- The integer held by the four words. -/
def val (s : Scalar) : Nat := s.l0 + W * s.l1 + W ^ 2 * s.l2 + W ^ 3 * s.l3

/-- Each limb is a 64-bit word. -/
def Words (s : Scalar) : Prop := s.l0 < W ∧ s.l1 < W ∧ s.l2 < W ∧ s.l3 < W

/-- A reduced element: words, and the integer is below the modulus. -/
def Red (s : Scalar) : Prop := Words s ∧ val s < frModulus

/-- `s` is the reduced Montgomery form of `x`. -/
def Rep (s : Scalar) (x : Fr) : Prop := Red s ∧ (val s : Fr) = x * 2 ^ 256

end Kzg.Zk.Scalar
