import Verif.Model.Zk.Fp
import Mathlib.Data.ZMod.Basic
/-!
# What the six words of a zkcrypto base field element stand for

Independent of every operation of the model: a vector of six 64-bit words holds an integer, it is
reduced when that integer is below the field size, and it represents the field element `x` when the
integer is congruent to `x · 2^384`.
-/

namespace Kzg.Zk

/-- The number of elements of the base field of BLS12-381. -/
def fpModulus : Nat :=
  0x1a0111ea397fe69a4b1ba7b6434bacd764774b84f38512bf6730d2a0f6b0f6241eabfffeb153ffffb9feffffffffaaab

/-- Integers modulo `fpModulus`. -/
abbrev Fq : Type := ZMod fpModulus

/-- The integer of a byte string, most significant byte first. -/
def beNat (bytes : List Nat) : Nat := bytes.foldl (fun a b => a * 256 + b) 0

namespace Fp

/-- The integer held by the six words. -/
def val (s : Fp) : Nat := s.l0 + W * s.l1 + W ^ 2 * s.l2 + W ^ 3 * s.l3 + W ^ 4 * s.l4 + W ^ 5 * s.l5

/-- Each limb is a 64-bit word. -/
def Words (s : Fp) : Prop := s.l0 < W ∧ s.l1 < W ∧ s.l2 < W ∧ s.l3 < W ∧ s.l4 < W ∧ s.l5 < W

/-- A reduced element: words, and the integer is below the modulus. -/
def Red (s : Fp) : Prop := Words s ∧ val s < fpModulus

/-- `s` is the reduced Montgomery form of `x`. -/
def Rep (s : Fp) (x : Fq) : Prop := Red s ∧ (val s : Fq) = x * 2 ^ 384

end Fp
end Kzg.Zk
