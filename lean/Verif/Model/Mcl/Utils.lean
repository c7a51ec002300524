import Verif.Model.Utils
/-!
# Integer helpers of mcl-kzg (mcl-kzg/kzg/src/utilities.rs)

As in `Verif.Model.Utils` words have 64 bits and overflow checks are on: underflow and shifts by 64 or more
are panics.
-/

namespace Kzg.Mcl
open Kzg

/-- Checked shifts: the amount has to be below the word size. -/
def shrU (a s : Nat) : Res Nat := if s < 64 then .ok (a >>> s) else .panic

/-- `is_power_of_2`, mcl-kzg/kzg/src/utilities.rs:15-17; `n - 1` is checked. -/
def isPowerOf2 (n : Nat) : Res Bool := do
  let m ← subU n 1
  .ok ((n &&& m) == 0)

/-- `log_2`, mcl-kzg/kzg/src/utilities.rs:25-30 (and `log_2_byte`, 21-23, which calls it). The subtractions
cannot underflow for a nonzero word. -/
def log2 (x : Nat) : Nat := if x = 0 then 0 else 64 - leadingZeros x - 1

/-- `next_pow_of_2`, mcl-kzg/kzg/src/utilities.rs:32-40; the shift is checked. -/
def nextPowOf2 (x : Nat) : Res Nat :=
  if x = 0 then .ok 1
  else do
    if ← isPowerOf2 x then .ok x
    else if log2 x + 1 < 64 then .ok (1 <<< (log2 x + 1)) else .panic

/-- `order_by_rev_bit_order`, mcl-kzg/kzg/src/utilities.rs:3-13; the shift is checked. -/
def orderByRevBitOrder {α : Type} (vals : List α) : Res (List α) :=
  let unusedBitLen := leadingZeros vals.length + 1
  forRange 0 vals.length vals fun i v => do
    let r ← shrU (reverseBits 64 i) unusedBitLen
    if r > i then do
      let tmp ← rd v r
      let x ← rd v i
      let v ← wr v r x
      wr v i tmp
    else .ok v

/-- `reverse_bits_limited`, mcl-kzg/kzg/src/utilities.rs:42-45; the shift is checked. -/
def reverseBitsLimited (length value : Nat) : Res Nat := shrU (reverseBits 64 value) (leadingZeros length)

/-- Conversion of a word to a signed 32-bit integer (`as i32`): the low 32 bits, in two's complement. -/
def asI32 (n : Nat) : Int := if n % 2 ^ 32 < 2 ^ 31 then (n % 2 ^ 32 : Nat) else (n % 2 ^ 32 : Nat) - (2 ^ 32 : Int)

end Kzg.Mcl
