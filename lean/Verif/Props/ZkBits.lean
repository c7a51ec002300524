import Verif.Model.Zk.ScalarBits
import Verif.Model.Zk.Random
import Verif.Props.ZkScalar
/-!
# Property C199: the bits of scalars of zkcrypto
-/

namespace Kzg.Props
open Kzg Kzg.Zk Kzg.Zk.Scalar

theorem fromLe_drop : ∀ (bs : List Nat) (k : Nat), (∀ b ∈ bs, b < 256) → fromLe (bs.drop k) = fromLe bs / 256 ^ k
  | bs, 0, _ => by simp
  | [], k + 1, _ => by simp [fromLe]
  | b :: bs, k + 1, h => by
    have hb := h b (by simp)
    rw [List.drop_succ_cons, fromLe_drop bs k fun c hc => h c (by simp [hc]), fromLe, pow_succ', ← Nat.div_div_eq_div_mul,
      Nat.add_mul_div_left _ _ (by norm_num), Nat.div_eq_of_lt hb, zero_add]

theorem fromLe_take : ∀ (bs : List Nat) (k : Nat), (∀ b ∈ bs, b < 256) → fromLe (bs.take k) = fromLe bs % 256 ^ k
  | bs, 0, _ => by simp [fromLe, Nat.mod_one]
  | [], k + 1, _ => by simp [fromLe]
  | b :: bs, k + 1, h => by
    have hb := h b (by simp)
    rw [List.take_succ_cons, fromLe, fromLe, fromLe_take bs k fun c hc => h c (by simp [hc]), pow_succ', Nat.mod_mul,
      Nat.add_mul_mod_self_left, Nat.mod_eq_of_lt hb, Nat.add_mul_div_left _ _ (by norm_num), Nat.div_eq_of_lt hb, zero_add]

/-- A bit of some of the bytes is a bit of the number they are part of. -/
theorem testBit_bytes {bs : List Nat} (h : ∀ b ∈ bs, b < 256) {a b i : Nat} (hi : 8 * a + i < 8 * b) :
    (fromLe ((bs.take b).drop a)).testBit i = (fromLe bs).testBit (8 * a + i) := by
  rw [fromLe_drop _ _ fun c hc => h c (List.mem_of_mem_take hc), fromLe_take _ _ h, show (256 : Nat) = 2 ^ 8 from rfl, ← pow_mul,
    ← pow_mul, Nat.testBit_div_two_pow, Nat.testBit_mod_two_pow, decide_eq_true (by omega), Bool.true_and, Nat.add_comm]

/-- C199: on either kind of target `to_le_bits` gives 256 bits, of which the bit at position `i` is the bit of the canonical integer at
that position. -/
theorem C199_to_le_bits {s : Scalar} {x : Fr} (hs : Rep s x) (i : Nat) :
    (i < 256 → bitAt 64 (toLeBits64 s) i = some (x.val.testBit i) ∧ bitAt 32 (toLeBits32 s) i = some (x.val.testBit i)) ∧
    (256 ≤ i → bitAt 64 (toLeBits64 s) i = none ∧ bitAt 32 (toLeBits32 s) i = none) := by
  obtain ⟨-, hb, hv⟩ := toBytes_spec hs
  refine ⟨fun h => ⟨?_, ?_⟩, fun h => ⟨?_, ?_⟩⟩
  · rw [bitAt, toLeBits64, ← hv]
    have hd := Nat.div_add_mod i 64
    have hm := Nat.mod_lt i (show 64 > 0 by norm_num)
    obtain h' | h' | h' | h' : i / 64 = 0 ∨ i / 64 = 1 ∨ i / 64 = 2 ∨ i / 64 = 3 := by omega
    all_goals
      rw [h'] at hd ⊢
      refine congrArg some ?_
      refine (testBit_bytes hb (by omega)).trans ?_
      congr 1
  · rw [bitAt, toLeBits32, ← hv]
    have hd := Nat.div_add_mod i 32
    have hm := Nat.mod_lt i (show 32 > 0 by norm_num)
    obtain h' | h' | h' | h' | h' | h' | h' | h' : i / 32 = 0 ∨ i / 32 = 1 ∨ i / 32 = 2 ∨ i / 32 = 3 ∨ i / 32 = 4 ∨ i / 32 = 5 ∨
      i / 32 = 6 ∨ i / 32 = 7 := by omega
    all_goals
      rw [h'] at hd ⊢
      refine congrArg some ?_
      refine (testBit_bytes hb (by omega)).trans ?_
      congr 1
  · rw [bitAt, List.getElem?_eq_none (by simp [toLeBits64]; omega)]; rfl
  · rw [bitAt, List.getElem?_eq_none (by simp [toLeBits32]; omega)]; rfl

/-- C199: bits decide equality. -/
theorem C199_injective {s t : Scalar} (hs : Red s) (ht : Red t)
    (h : ∀ i < 256, bitAt 64 (toLeBits64 s) i = bitAt 64 (toLeBits64 t) i) : s = t := by
  obtain ⟨x, hx⟩ := red_rep hs
  obtain ⟨y, hy⟩ := red_rep ht
  have hlt : ∀ z : Fr, z.val < 2 ^ 256 := fun z => lt_trans (ZMod.val_lt z) (by decide +kernel)
  have : x.val = y.val := by
    refine Nat.eq_of_testBit_eq fun i => ?_
    by_cases hi : i < 256
    · have := h i hi
      rw [((C199_to_le_bits hx i).1 hi).1, ((C199_to_le_bits hy i).1 hi).1] at this
      exact Option.some.inj this
    · have hp : 2 ^ 256 ≤ 2 ^ i := Nat.pow_le_pow_right (by norm_num) (by omega)
      rw [Nat.testBit_lt_two_pow (lt_of_lt_of_le (hlt x) hp), Nat.testBit_lt_two_pow (lt_of_lt_of_le (hlt y) hp)]
  rw [ZMod.val_injective _ this] at hx
  exact rep_inj hx hy

/-- C199: `char_le_bits` gives the 256 lowest bits of the modulus, on either kind of target; the highest one set is at position
`NUM_BITS - 1`. -/
theorem C199_char_le_bits (i : Nat) (hi : i < 256) : bitAt 64 charLeBits64 i = some (frModulus.testBit i) ∧
    bitAt 32 charLeBits32 i = some (frModulus.testBit i) ∧ (frModulus.testBit i = true → i < Scalar.numBits) := by
  revert i
  decide +kernel

theorem C199_num_bits : frModulus.testBit (Scalar.numBits - 1) = true := by decide +kernel

/-! ## Examples -/

example : bitAt 64 (toLeBits64 Scalar.one) 0 = some true ∧ bitAt 32 (toLeBits32 Scalar.one) 77 = some false ∧
    bitAt 32 (toLeBits32 Scalar.one) 300 = none := by decide +kernel
example : ∃ s : Scalar, Rep s (2 ^ 200 : Fr) ∧ bitAt 32 (toLeBits32 s) 200 = some true := by
  obtain ⟨s, hs⟩ := rep_exists (2 ^ 200 : Fr)
  refine ⟨s, hs, ?_⟩
  rw [((C199_to_le_bits hs 200).1 (by norm_num)).2]
  have : ((2 : Fr) ^ 200).val = 2 ^ 200 := by
    have : ((2 : Fr) ^ 200) = ((2 ^ 200 : Nat) : Fr) := by rw [Nat.cast_pow, Nat.cast_ofNat]
    rw [this, ZMod.val_natCast, Nat.mod_eq_of_lt (by decide +kernel)]
  rw [this]
  decide +kernel

end Kzg.Props
