/-!
# 64-bit word arithmetic of zkcrypto (zkcrypto/src/curve/scalar.rs, zkcrypto/src/curve/fp.rs)

A machine word is a natural number below `2^64`. The operations wrap as the Rust code does; the
`u128` intermediate values are natural numbers taken modulo `2^128`.
-/

namespace Kzg.Zk

/-- Number of values of a `u64`. -/
abbrev W : Nat := 2 ^ 64

/-- `adc`, zkcrypto/src/curve/scalar.rs:21-24 and zkcrypto/src/curve/fp.rs:8-11. -/
def adc (a b carry : Nat) : Nat × Nat :=
  let ret := (a + b + carry) % 2 ^ 128
  (ret % W, ret / W % W)

/-- `sbb`, zkcrypto/src/curve/scalar.rs:28-31 and zkcrypto/src/curve/fp.rs:15-18: the difference modulo
`2^128` (`wrapping_sub`); the borrow is the high word. -/
def sbb (a b borrow : Nat) : Nat × Nat :=
  let ret := (a + 2 ^ 128 - (b + borrow / 2 ^ 63)) % 2 ^ 128
  (ret % W, ret / W % W)

/-- `mac`, zkcrypto/src/curve/scalar.rs:35-38 and zkcrypto/src/curve/fp.rs:22-25. -/
def mac (a b c carry : Nat) : Nat × Nat :=
  let ret := (a + b * c + carry) % 2 ^ 128
  (ret % W, ret / W % W)

/-- `u64::wrapping_mul`. -/
def wmul (a b : Nat) : Nat := a * b % W

/-- `u64::wrapping_sub`. -/
def wsub (a b : Nat) : Nat := (a + W - b) % W

/-- `a << n` on `u64`. -/
def shl (a n : Nat) : Nat := a * 2 ^ n % W

/-- `a >> n` on `u64`. -/
def shr (a n : Nat) : Nat := a / 2 ^ n

/-- `!a` on `u64`. -/
def wnot (a : Nat) : Nat := W - 1 - a

/-- `u64::from_le_bytes` of eight bytes. -/
def fromLe : List Nat → Nat
  | [] => 0
  | b :: bs => b + 256 * fromLe bs

/-- `u64::to_le_bytes`: `n` bytes, lowest first. -/
def toLe : (n : Nat) → Nat → List Nat
  | 0, _ => []
  | n + 1, x => x % 256 :: toLe n (x / 256)

end Kzg.Zk
