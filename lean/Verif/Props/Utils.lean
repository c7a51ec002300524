import Verif.Proofs.BitRev
import Verif.Proofs.FrOps
/-!
# Properties C32–C35: integer helpers, bit reversal, powers, scalar multiplication
-/

namespace Kzg.Props
open Kzg

/-! ## C32 -/

/-- `r` is the `k`-bit reversal of `i`: bit `b` of `r` is bit `k-1-b` of `i`. -/
def IsBitReversal (k i r : Nat) : Prop := r < 2 ^ k ∧ ∀ b < k, r.testBit b = i.testBit (k - 1 - b)

/-- C32: for every list of length `2^k` (`k < 64`: lengths are machine words), reordering succeeds,
moves element `i` to the bit-reversed position, and is a permutation. -/
theorem C32_reverse_bit_order {α : Type} (v : List α) (k : Nat) (hk : k < 64)
    (hl : v.length = 2 ^ k) :
    ∃ out, reverseBitOrder v = .ok out ∧ out.length = v.length ∧ out.Perm v ∧
      ∀ i < v.length, ∃ r, IsBitReversal k i r ∧ out[r]? = v[i]? := by
  obtain ⟨out, h, hol, ho⟩ := reverseBitOrder_spec v k hk hl
  refine ⟨out, h, by omega, perm_of_bitrev v out k hl hol ho, ?_⟩
  intro i hi
  refine ⟨reverseBits k i, ⟨reverseBits_lt k i, ?_⟩, ?_⟩
  · intro b hb
    rw [testBit_reverseBits]; simp [hb]
  · rw [ho _ (reverseBits_lt k i), reverseBits_invol (by omega)]

/-- C32: applying it twice gives the list back. -/
theorem C32_involution {α : Type} (v : List α) (k : Nat) (hk : k < 64) (hl : v.length = 2 ^ k) :
    (do let w ← reverseBitOrder v; reverseBitOrder w) = .ok v := by
  obtain ⟨w, hw, hwl, hwv⟩ := reverseBitOrder_spec v k hk hl
  obtain ⟨u, hu, hul, huv⟩ := reverseBitOrder_spec w k hk hwl
  rw [hw, Res.bind_ok, hu]
  congr 1
  apply List.ext_getElem?
  intro i
  by_cases hi : i < 2 ^ k
  · rw [huv i hi, hwv _ (reverseBits_lt k i), reverseBits_invol hi]
  · rw [List.getElem?_eq_none (by omega), List.getElem?_eq_none (by omega)]

/-- The reversal is determined by `IsBitReversal`. -/
theorem C32_reversal_unique {k i r r' : Nat} (h : IsBitReversal k i r) (h' : IsBitReversal k i r') :
    r = r' := by
  apply Nat.eq_of_testBit_eq
  intro j
  by_cases hj : j < k
  · rw [h.2 j hj, h'.2 j hj]
  · have e : 2 ^ k ≤ 2 ^ j := Nat.pow_le_pow_right (by omega) (by omega)
    rw [Nat.testBit_lt_two_pow (lt_of_lt_of_le h.1 e), Nat.testBit_lt_two_pow (lt_of_lt_of_le h'.1 e)]

/-- Behaviour outside the property: the empty list panics (the loop bound underflows). -/
theorem C32_empty_panics {α : Type} : reverseBitOrder ([] : List α) = .panic := by
  simp [reverseBitOrder, subU]

example : reverseBitOrder [0, 1, 2, 3, 4, 5, 6, 7] = .ok [0, 4, 2, 6, 1, 5, 3, 7] := by decide +kernel

/-! ## C33 -/

/-- C33 (test): true exactly on the powers of two. -/
theorem C33_is_power_of_two (x : Nat) : isPowerOfTwo x = true ↔ ∃ k, x = 2 ^ k := isPowerOfTwo_iff

/-- C33 (rounding up): the least power of two that is at least the argument. -/
theorem C33_next_power_of_two (v : Nat) (h1 : 1 ≤ v) (h2 : v ≤ 2 ^ 63) :
    ∃ p, nextPowerOfTwo v = .ok p ∧ (∃ k, p = 2 ^ k) ∧ v ≤ p ∧ ∀ k, v ≤ 2 ^ k → p ≤ 2 ^ k :=
  ⟨_, nextPowerOfTwo_eq h1 h2, ⟨_, rfl⟩, le_two_pow_bitLen_pred, fun _ h => two_pow_bitLen_pred_le h⟩

/-- Outside the range: zero panics (checked build). -/
theorem C33_next_power_of_two_zero : nextPowerOfTwo 0 = .panic := by simp [nextPowerOfTwo, subU]

/-- Outside the range: arguments above `2^63` panic (the final increment overflows). -/
theorem C33_next_power_of_two_overflow (v : Nat) (h1 : 2 ^ 63 < v) (h2 : v < 2 ^ 64) :
    nextPowerOfTwo v = .panic := by
  have hb : bitLen (v - 1) = 64 := by
    have := bitLen_le_of_lt (v := v - 1) (n := 64) (by omega)
    by_contra hc
    have h3 := lt_two_pow_bitLen (v - 1)
    have h4 : 2 ^ bitLen (v - 1) ≤ 2 ^ 63 := Nat.pow_le_pow_right (by omega) (by omega)
    omega
  have hs : smear (v - 1) = 2 ^ bitLen (v - 1) - 1 := smear_eq (by omega)
  rw [nextPowerOfTwo, subU_of_le (by omega), Res.bind_ok]
  simp only [hs, hb]
  rw [if_neg (by norm_num), Res.bind_panic]

/-- C33 (exact logarithm): for powers of two below `2^32`. -/
theorem C33_log2_pow2 (k : Nat) (h : k < 32) : log2Pow2 (2 ^ k) = k := log2Pow2_all k h

/-- Outside the range: every power of two from `2^32` on gives zero, because the masks have 32 bits. -/
theorem C33_log2_pow2_beyond (k : Nat) (h : 32 ≤ k) : log2Pow2 (2 ^ k) = 0 := by
  have key : ∀ m < 2 ^ 32, 2 ^ k &&& m = 0 := by
    intro m hm
    rw [Nat.and_comm, Nat.and_two_pow, Nat.testBit_lt_two_pow]
    · simp
    · exact lt_of_lt_of_le hm (Nat.pow_le_pow_right (by omega) h)
  simp only [log2Pow2]
  rw [key _ (by norm_num), key _ (by norm_num), key _ (by norm_num), key _ (by norm_num),
    key _ (by norm_num)]
  rfl

/-- C33 (floor logarithm): for every positive argument. -/
theorem C33_log2_u64 (n : Nat) (h : 0 < n) : 2 ^ log2U64 n ≤ n ∧ n < 2 ^ (log2U64 n + 1) := by
  rw [log2U64_eq]
  exact ⟨Nat.log2_self_le (by omega), Nat.lt_log2_self⟩

/-- C33 (byte logarithm): for every nonzero byte. -/
theorem C33_log_2_byte (b : Nat) (h0 : 0 < b) (h : b < 256) :
    2 ^ log2Byte b ≤ b ∧ b < 2 ^ (log2Byte b + 1) := by
  rw [log2Byte_all b h]
  exact ⟨Nat.log2_self_le (by omega), Nat.lt_log2_self⟩

/-- C33 (minimum and maximum). -/
theorem C33_min_max (a b : Nat) : minU64 a b = min a b ∧ maxU64 a b = max a b := by
  refine ⟨minU64_eq a b, ?_⟩
  unfold maxU64; split <;> omega

example : nextPowerOfTwo 1000 = .ok 1024 := by decide +kernel
example : log2U64 1000 = 9 := by rw [log2U64_eq]; decide +kernel

/-! ## C34 -/

/-- C34: exponentiation is repeated multiplication, for every exponent. -/
theorem C34_pow (x : Fr) (n : Nat) : frPow x n = (List.replicate n x).prod := by
  rw [frPow, frPowLoop_spec, one_mul, List.prod_replicate]

example (x : Fr) : frPow x 0 = 1 := by rw [C34_pow]; rfl
example (x : Fr) : frPow x 3 = x * x * x := by rw [C34_pow]; simp [List.replicate, mul_assoc]

/-! ## C35 -/

/-- C35 (bit count): for every little-endian byte string of value at least two, the multiplication
routine is called with exactly the bit length of the value: all set bits are covered and the top bit
handed over is set. Values zero and one are treated separately. -/
theorem C35_bit_count (bytes : List Nat) (hb : ∀ b ∈ bytes, b < 256) (h : 2 ≤ bytesVal bytes) :
    ∃ nbits, g1MulCall bytes = .ok (.mult nbits) ∧ bytesVal bytes < 2 ^ nbits ∧
      2 ^ (nbits - 1) ≤ bytesVal bytes := by
  rw [g1MulCall_spec bytes hb, if_neg (by omega), if_neg (by omega)]
  refine ⟨_, rfl, lt_two_pow_bitLen _, ?_⟩
  have : bitLen (bytesVal bytes) = (bitLen (bytesVal bytes) - 1) + 1 := by
    have := lt_two_pow_bitLen (bytesVal bytes)
    by_contra hc
    have h0 : bitLen (bytesVal bytes) = 0 := by omega
    rw [h0] at this
    omega
  exact two_pow_le_of_bitLen this

/-- C35 (product): group scalar multiplication returns the scalar multiple, for every scalar. -/
theorem C35_g1_mul {G : Type} [AddCommGroup G] [Module Fr G] (P : G) (b : Fr) :
    g1Mul P b = .ok (b • P) := g1Mul_spec P b

example : g1MulCall [0, 1, 0, 0] = .ok (.mult 9) := by decide +kernel

end Kzg.Props
