import Verif.Model.Zk.Bits
import Verif.Proofs.Zk.Limbs
import Mathlib.Tactic.IntervalCases
import Mathlib.Tactic.Linarith
/-!
# The bits of a byte string
-/

namespace Kzg.Zk

/-- The number with the given bits, highest first. -/
def bitsVal (l : List Bool) : Nat := l.foldl (fun n b => 2 * n + b.toNat) 0

theorem bitsVal_from (l : List Bool) (n : Nat) :
    l.foldl (fun n b => 2 * n + b.toNat) n = n * 2 ^ l.length + bitsVal l := by
  unfold bitsVal
  induction l generalizing n with
  | nil => simp
  | cons b l ih =>
    rw [List.foldl_cons, List.foldl_cons, ih, ih (2 * 0 + b.toNat), List.length_cons, pow_succ]; ring

theorem bitsVal_append (a b : List Bool) : bitsVal (a ++ b) = bitsVal a * 2 ^ b.length + bitsVal b := by
  rw [bitsVal, List.foldl_append, bitsVal_from]; rfl

theorem bitsVal_byte : ∀ b < 256,
    bitsVal ((List.range 8).reverse.map fun i => decide (shr b i &&& 1 = 1)) = b := by decide +kernel

theorem bitsVal_bitsOf (l : List Nat) (h : ∀ b ∈ l, b < 256) : bitsVal (bitsOf l) = fromLe l := by
  induction l with
  | nil => rfl
  | cons b l ih =>
    have e : bitsOf (b :: l) = bitsOf l ++ (List.range 8).reverse.map fun i => decide (shr b i &&& 1 = 1) := by
      simp [bitsOf]
    rw [e, bitsVal_append, ih (fun c hc => h c (List.mem_cons_of_mem _ hc)), bitsVal_byte b (h b List.mem_cons_self),
      fromLe]
    simp; ring

theorem bitsOf_length (l : List Nat) : (bitsOf l).length = 8 * l.length := by
  induction l with
  | nil => rfl
  | cons b l ih =>
    have e : bitsOf (b :: l) = bitsOf l ++ (List.range 8).reverse.map fun i => decide (shr b i &&& 1 = 1) := by
      simp [bitsOf]
    rw [e, List.length_append, ih]; simp; ring

/-- Skipping the first bit reduces the value modulo its weight. -/
theorem bitsVal_drop (l : List Nat) (h : ∀ b ∈ l, b < 256) :
    bitsVal ((bitsOf l).drop 1) = fromLe l % 2 ^ (8 * l.length - 1) := by
  have hv := bitsVal_bitsOf l h
  have hl := bitsOf_length l
  revert hv hl
  cases bitsOf l with
  | nil => intro hv hl; simp at hl; subst hl; simp [bitsVal, fromLe]
  | cons b t =>
    intro hv hl
    simp only [List.length_cons] at hl
    have e : bitsVal (b :: t) = b.toNat * 2 ^ t.length + bitsVal t := by
      rw [← bitsVal_from, bitsVal, List.foldl_cons]; simp
    have hlt : ∀ t : List Bool, bitsVal t < 2 ^ t.length := by
      intro t
      induction t with
      | nil => simp [bitsVal]
      | cons c t ih =>
        have e : bitsVal (c :: t) = c.toNat * 2 ^ t.length + bitsVal t := by
          rw [← bitsVal_from, bitsVal, List.foldl_cons]; simp
        rw [e, List.length_cons, pow_succ]
        have : c.toNat * 2 ^ t.length ≤ 1 * 2 ^ t.length := Nat.mul_le_mul_right _ (Bool.toNat_le c)
        omega
    rw [← hv, e, ← hl, Nat.add_sub_cancel, List.drop_one, List.tail_cons, mul_comm, Nat.mul_add_mod,
      Nat.mod_eq_of_lt (hlt t)]

/-- Double and add, against any relation preserved by the two steps. -/
theorem double_and_add {α : Type*} (R : α → Nat → Prop) (f : α → Bool → α)
    (hf : ∀ a n b, R a n → R (f a b) (2 * n + b.toNat)) (l : List Bool) {a : α} (h0 : R a 0) :
    R (l.foldl f a) (bitsVal l) := by
  have : ∀ (l : List Bool) (a : α) (n : Nat), R a n → R (l.foldl f a) (l.foldl (fun n b => 2 * n + b.toNat) n) := by
    intro l
    induction l with
    | nil => intro a n h; exact h
    | cons b l ih => intro a n h; exact ih _ _ (hf a n b h)
  exact this l a 0 h0

end Kzg.Zk
