import Verif.Base.Res
/-!
# Integer helpers (blst-from-scratch/src/utils.rs)

`usize` is a 64-bit unsigned integer, modelled as a `Nat` below `2^64`. Overflow checks are on
(debug build): unsigned underflow and overflow are panics.
-/

namespace Kzg

/-- `is_power_of_two`, blst-from-scratch/src/utils.rs:8-10. `x - 1` is evaluated only for `x ≠ 0`. -/
def isPowerOfTwo (x : Nat) : Bool := (x != 0) && ((x &&& (x - 1)) == 0)

/-- The bit smearing steps `v |= v >> 1; … v |= v >> 32`, blst-from-scratch/src/utils.rs:16-21. -/
def smear (v : Nat) : Nat :=
  let v := v ||| (v >>> 1)
  let v := v ||| (v >>> 2)
  let v := v ||| (v >>> 4)
  let v := v ||| (v >>> 8)
  let v := v ||| (v >>> 16)
  let v := v ||| (v >>> 32)
  v

/-- `next_power_of_two`, blst-from-scratch/src/utils.rs:12-28. `v -= 1` and `v += 1` are checked;
the final test `v == 0` is kept although it cannot succeed with overflow checks on. -/
def nextPowerOfTwo (v : Nat) : Res Nat := do
  let v ← subU v 1
  let v := smear v
  let v ← if v + 1 < 2 ^ 64 then .ok (v + 1) else .panic
  if v == 0 then .ok (v + 1) else .ok v

/-- `log_2_byte`, blst-from-scratch/src/utils.rs:30-37. `if c {1} else {0} << k` in a `let`
initialiser parses as `(if c {1} else {0}) << k`. -/
def log2Byte (b : Nat) : Nat :=
  let r := (if b > 0xF then 1 else 0) <<< 2
  let b := b >>> r
  let shift := (if b > 0x3 then 1 else 0) <<< 1
  let b := b >>> (shift + 1)
  r ||| (shift ||| b)

/-- `log2_pow2`, blst-from-scratch/src/utils.rs:39-47. -/
def log2Pow2 (n : Nat) : Nat :=
  let r := if (n &&& 0xAAAAAAAA) != 0 then 1 else 0
  let r := r ||| ((if (n &&& 0xCCCCCCCC) != 0 then 1 else 0) <<< 1)
  let r := r ||| ((if (n &&& 0xF0F0F0F0) != 0 then 1 else 0) <<< 2)
  let r := r ||| ((if (n &&& 0xFF00FF00) != 0 then 1 else 0) <<< 3)
  let r := r ||| ((if (n &&& 0xFFFF0000) != 0 then 1 else 0) <<< 4)
  r

/-- The loop of `log2_u64`, blst-from-scratch/src/utils.rs:52-55. -/
def log2U64Loop (n2 r : Nat) : Nat :=
  if h : (n2 >>> 1) ≠ 0 then log2U64Loop (n2 >>> 1) (r + 1) else r
termination_by n2
decreasing_by
  simp only [Nat.shiftRight_eq_div_pow, Nat.pow_one] at h ⊢; omega

/-- `log2_u64`, blst-from-scratch/src/utils.rs:49-57. -/
def log2U64 (n : Nat) : Nat := log2U64Loop n 0

/-- `min_u64`, blst-from-scratch/src/utils.rs:59-65. -/
def minU64 (a b : Nat) : Nat := if a < b then a else b

/-- `max_u64`, blst-from-scratch/src/utils.rs:67-73. -/
def maxU64 (a b : Nat) : Nat := if a < b then b else a

/-- Reversal of the lowest `w` bits of `n` (bit `j` moves to bit `w - 1 - j`).
`usize::reverse_bits` is `reverseBits 64`. -/
def reverseBits : (w n : Nat) → Nat
  | 0, _ => 0
  | w + 1, n => (n % 2) * 2 ^ w + reverseBits w (n / 2)

/-- Number of bits of `n` (0 for 0). -/
def bitLen (n : Nat) : Nat := if n = 0 then 0 else Nat.log2 n + 1

/-- `usize::leading_zeros` for 64-bit words. -/
def leadingZeros (n : Nat) : Nat := 64 - bitLen n

/-- `reverse_bit_order`, blst-from-scratch/src/utils.rs:92-105. `values.len() - 1` is checked.
The shift amount is below 64 whenever the loop body runs. -/
def reverseBitOrder {α : Type} (values : List α) : Res (List α) := do
  let unusedBitLen := leadingZeros values.length + 1
  let hi ← subU values.length 1
  forRange 0 hi values fun i v => do
    let r := reverseBits 64 i >>> unusedBitLen
    if r > i then do
      let tmp ← rd v r
      let x ← rd v i
      let v ← wr v r x
      wr v i tmp
    else .ok v

end Kzg
