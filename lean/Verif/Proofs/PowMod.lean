import Mathlib.Data.ZMod.Basic
import Mathlib.Tactic.Ring
/-!
# Modular exponentiation that the kernel can evaluate
-/

namespace Kzg

/-- `a ^ n % m` by square and multiply; `fuel` bounds the number of bits of `n`. -/
def powMod (m : Nat) : (fuel : Nat) → (a n acc : Nat) → Nat
  | 0, _, _, acc => acc % m
  | fuel + 1, a, n, acc =>
    powMod m fuel (a * a % m) (n / 2) (if n % 2 = 1 then acc * a % m else acc)

theorem powMod_spec (m fuel : Nat) : ∀ a n acc : Nat, n < 2 ^ fuel →
    ((powMod m fuel a n acc : Nat) : ZMod m) = (acc : ZMod m) * (a : ZMod m) ^ n := by
  induction fuel with
  | zero => intro a n acc h; have : n = 0 := by simpa using h
            subst this; simp [powMod]
  | succ f ih =>
    intro a n acc h
    have hn : n / 2 < 2 ^ f := by rw [pow_succ] at h; omega
    rw [powMod, ih _ _ _ hn]
    have hd : n = 2 * (n / 2) + n % 2 := by omega
    have hsq : ((a * a % m : Nat) : ZMod m) = (a : ZMod m) * a := by simp
    rw [hsq]
    conv_rhs => rw [hd]
    rw [pow_add, pow_mul]
    split
    · next h1 => rw [h1]; simp [pow_two]; ring
    · next h1 =>
      have : n % 2 = 0 := by omega
      rw [this]; simp [pow_two]

theorem zmod_pow_eq {m fuel a n c : Nat} (hn : n < 2 ^ fuel) (h : powMod m fuel a n 1 = c) :
    ((a : Nat) : ZMod m) ^ n = (c : Nat) := by
  rw [← h, powMod_spec m fuel a n 1 hn]; simp

end Kzg
