import Verif.Model.Zk.Limbs
/-!
# The base field of zkcrypto (zkcrypto/src/curve/fp.rs)

Six 64-bit words, Montgomery form. `CtOption` is `Option`; `Choice` is `Bool`.
-/

namespace Kzg.Zk

/-- `struct Fp([u64; 6])`, zkcrypto/src/curve/fp.rs:195. -/
structure Fp where
  l0 : Nat
  l1 : Nat
  l2 : Nat
  l3 : Nat
  l4 : Nat
  l5 : Nat
deriving DecidableEq, Repr

namespace Fp

/-- `MODULUS`, zkcrypto/src/curve/fp.rs:250-257. -/
def modulus : Fp :=
  ⟨0xb9feffffffffaaab, 0x1eabfffeb153ffff, 0x6730d2a0f6b0f624,
    0x64774b84f38512bf, 0x4b1ba7b6434bacd7, 0x1a0111ea397fe69a⟩

/-- `INV`, zkcrypto/src/curve/fp.rs:260. -/
def inv : Nat := 0x89f3fffcfffcfffd

/-- `R`, zkcrypto/src/curve/fp.rs:263-270. -/
def R : Fp :=
  ⟨0x760900000002fffd, 0xebf4000bc40c0002, 0x5f48985753c758ba,
    0x77ce585370525745, 0x5c071a97a256ec6d, 0x15f65ec3fa80e493⟩

/-- `R2`, zkcrypto/src/curve/fp.rs:273-280. -/
def R2 : Fp :=
  ⟨0xf4df1f341c341746, 0x0a76e6a609d104f1, 0x8de5476c4c95b6d5,
    0x67eb88a9939d83c0, 0x9a793e85b519952d, 0x11988fe592cae3aa⟩

/-- `R3`, zkcrypto/src/curve/fp.rs:283-290. -/
def R3 : Fp :=
  ⟨0xed48ac6bd94ca1e0, 0x315f831e03a7adf8, 0x9a53352a615e29dd,
    0x34c04e5e921e1761, 0x2512d43565724728, 0x0aa6346091755d4d⟩

/-- `zero`, zkcrypto/src/curve/fp.rs:343-345. -/
def zero : Fp := ⟨0, 0, 0, 0, 0, 0⟩

/-- `one`, zkcrypto/src/curve/fp.rs:349-351. -/
def one : Fp := R

/-- `ct_eq`, zkcrypto/src/curve/fp.rs:217-226. -/
def ctEq (a b : Fp) : Bool :=
  (a.l0 == b.l0) && (a.l1 == b.l1) && (a.l2 == b.l2) && (a.l3 == b.l3) && (a.l4 == b.l4) && (a.l5 == b.l5)

/-- `is_zero`, zkcrypto/src/curve/fp.rs:353-355. -/
def isZero (a : Fp) : Bool := ctEq a zero

/-- `conditional_select`, zkcrypto/src/curve/fp.rs:236-247. -/
def select (a b : Fp) (choice : Bool) : Fp :=
  ⟨if choice then b.l0 else a.l0, if choice then b.l1 else a.l1, if choice then b.l2 else a.l2,
    if choice then b.l3 else a.l3, if choice then b.l4 else a.l4, if choice then b.l5 else a.l5⟩

/-- `subtract_p`, zkcrypto/src/curve/fp.rs:541-559. -/
def subtractP (a : Fp) : Fp :=
  let (r0, borrow) := sbb a.l0 modulus.l0 0
  let (r1, borrow) := sbb a.l1 modulus.l1 borrow
  let (r2, borrow) := sbb a.l2 modulus.l2 borrow
  let (r3, borrow) := sbb a.l3 modulus.l3 borrow
  let (r4, borrow) := sbb a.l4 modulus.l4 borrow
  let (r5, borrow) := sbb a.l5 modulus.l5 borrow
  let r0 := (a.l0 &&& borrow) ||| (r0 &&& wnot borrow)
  let r1 := (a.l1 &&& borrow) ||| (r1 &&& wnot borrow)
  let r2 := (a.l2 &&& borrow) ||| (r2 &&& wnot borrow)
  let r3 := (a.l3 &&& borrow) ||| (r3 &&& wnot borrow)
  let r4 := (a.l4 &&& borrow) ||| (r4 &&& wnot borrow)
  let r5 := (a.l5 &&& borrow) ||| (r5 &&& wnot borrow)
  ⟨r0, r1, r2, r3, r4, r5⟩

/-- `add`, zkcrypto/src/curve/fp.rs:561-572. -/
def add (a b : Fp) : Fp :=
  let (d0, carry) := adc a.l0 b.l0 0
  let (d1, carry) := adc a.l1 b.l1 carry
  let (d2, carry) := adc a.l2 b.l2 carry
  let (d3, carry) := adc a.l3 b.l3 carry
  let (d4, carry) := adc a.l4 b.l4 carry
  let (d5, _) := adc a.l5 b.l5 carry
  subtractP ⟨d0, d1, d2, d3, d4, d5⟩

/-- `neg`, zkcrypto/src/curve/fp.rs:575-597. -/
def neg (a : Fp) : Fp :=
  let (d0, borrow) := sbb modulus.l0 a.l0 0
  let (d1, borrow) := sbb modulus.l1 a.l1 borrow
  let (d2, borrow) := sbb modulus.l2 a.l2 borrow
  let (d3, borrow) := sbb modulus.l3 a.l3 borrow
  let (d4, borrow) := sbb modulus.l4 a.l4 borrow
  let (d5, _) := sbb modulus.l5 a.l5 borrow
  let mask := wsub (if (a.l0 ||| a.l1 ||| a.l2 ||| a.l3 ||| a.l4 ||| a.l5) = 0 then 1 else 0) 1
  ⟨d0 &&& mask, d1 &&& mask, d2 &&& mask, d3 &&& mask, d4 &&& mask, d5 &&& mask⟩

/-- `sub`, zkcrypto/src/curve/fp.rs:600-602. -/
def sub (a b : Fp) : Fp := add (neg b) a

/-- `montgomery_reduce`, zkcrypto/src/curve/fp.rs:605-680. -/
def montgomeryReduce (t0 t1 t2 t3 t4 t5 t6 t7 t8 t9 t10 t11 : Nat) : Fp :=
  let k := wmul t0 inv
  let (_, carry) := mac t0 k modulus.l0 0
  let (r1, carry) := mac t1 k modulus.l1 carry
  let (r2, carry) := mac t2 k modulus.l2 carry
  let (r3, carry) := mac t3 k modulus.l3 carry
  let (r4, carry) := mac t4 k modulus.l4 carry
  let (r5, carry) := mac t5 k modulus.l5 carry
  let (r6, r7) := adc t6 0 carry
  let k := wmul r1 inv
  let (_, carry) := mac r1 k modulus.l0 0
  let (r2, carry) := mac r2 k modulus.l1 carry
  let (r3, carry) := mac r3 k modulus.l2 carry
  let (r4, carry) := mac r4 k modulus.l3 carry
  let (r5, carry) := mac r5 k modulus.l4 carry
  let (r6, carry) := mac r6 k modulus.l5 carry
  let (r7, r8) := adc t7 r7 carry
  let k := wmul r2 inv
  let (_, carry) := mac r2 k modulus.l0 0
  let (r3, carry) := mac r3 k modulus.l1 carry
  let (r4, carry) := mac r4 k modulus.l2 carry
  let (r5, carry) := mac r5 k modulus.l3 carry
  let (r6, carry) := mac r6 k modulus.l4 carry
  let (r7, carry) := mac r7 k modulus.l5 carry
  let (r8, r9) := adc t8 r8 carry
  let k := wmul r3 inv
  let (_, carry) := mac r3 k modulus.l0 0
  let (r4, carry) := mac r4 k modulus.l1 carry
  let (r5, carry) := mac r5 k modulus.l2 carry
  let (r6, carry) := mac r6 k modulus.l3 carry
  let (r7, carry) := mac r7 k modulus.l4 carry
  let (r8, carry) := mac r8 k modulus.l5 carry
  let (r9, r10) := adc t9 r9 carry
  let k := wmul r4 inv
  let (_, carry) := mac r4 k modulus.l0 0
  let (r5, carry) := mac r5 k modulus.l1 carry
  let (r6, carry) := mac r6 k modulus.l2 carry
  let (r7, carry) := mac r7 k modulus.l3 carry
  let (r8, carry) := mac r8 k modulus.l4 carry
  let (r9, carry) := mac r9 k modulus.l5 carry
  let (r10, r11) := adc t10 r10 carry
  let k := wmul r5 inv
  let (_, carry) := mac r5 k modulus.l0 0
  let (r6, carry) := mac r6 k modulus.l1 carry
  let (r7, carry) := mac r7 k modulus.l2 carry
  let (r8, carry) := mac r8 k modulus.l3 carry
  let (r9, carry) := mac r9 k modulus.l4 carry
  let (r10, carry) := mac r10 k modulus.l5 carry
  let (r11, _) := adc t11 r11 carry
  subtractP ⟨r6, r7, r8, r9, r10, r11⟩

/-- `mul`, zkcrypto/src/curve/fp.rs:683-727. -/
def mul (a b : Fp) : Fp :=
  let (t0, carry) := mac 0 a.l0 b.l0 0
  let (t1, carry) := mac 0 a.l0 b.l1 carry
  let (t2, carry) := mac 0 a.l0 b.l2 carry
  let (t3, carry) := mac 0 a.l0 b.l3 carry
  let (t4, carry) := mac 0 a.l0 b.l4 carry
  let (t5, t6) := mac 0 a.l0 b.l5 carry
  let (t1, carry) := mac t1 a.l1 b.l0 0
  let (t2, carry) := mac t2 a.l1 b.l1 carry
  let (t3, carry) := mac t3 a.l1 b.l2 carry
  let (t4, carry) := mac t4 a.l1 b.l3 carry
  let (t5, carry) := mac t5 a.l1 b.l4 carry
  let (t6, t7) := mac t6 a.l1 b.l5 carry
  let (t2, carry) := mac t2 a.l2 b.l0 0
  let (t3, carry) := mac t3 a.l2 b.l1 carry
  let (t4, carry) := mac t4 a.l2 b.l2 carry
  let (t5, carry) := mac t5 a.l2 b.l3 carry
  let (t6, carry) := mac t6 a.l2 b.l4 carry
  let (t7, t8) := mac t7 a.l2 b.l5 carry
  let (t3, carry) := mac t3 a.l3 b.l0 0
  let (t4, carry) := mac t4 a.l3 b.l1 carry
  let (t5, carry) := mac t5 a.l3 b.l2 carry
  let (t6, carry) := mac t6 a.l3 b.l3 carry
  let (t7, carry) := mac t7 a.l3 b.l4 carry
  let (t8, t9) := mac t8 a.l3 b.l5 carry
  let (t4, carry) := mac t4 a.l4 b.l0 0
  let (t5, carry) := mac t5 a.l4 b.l1 carry
  let (t6, carry) := mac t6 a.l4 b.l2 carry
  let (t7, carry) := mac t7 a.l4 b.l3 carry
  let (t8, carry) := mac t8 a.l4 b.l4 carry
  let (t9, t10) := mac t9 a.l4 b.l5 carry
  let (t5, carry) := mac t5 a.l5 b.l0 0
  let (t6, carry) := mac t6 a.l5 b.l1 carry
  let (t7, carry) := mac t7 a.l5 b.l2 carry
  let (t8, carry) := mac t8 a.l5 b.l3 carry
  let (t9, carry) := mac t9 a.l5 b.l4 carry
  let (t10, t11) := mac t10 a.l5 b.l5 carry
  montgomeryReduce t0 t1 t2 t3 t4 t5 t6 t7 t8 t9 t10 t11

/-- `square`, zkcrypto/src/curve/fp.rs:731-778. -/
def square (a : Fp) : Fp :=
  let (t1, carry) := mac 0 a.l0 a.l1 0
  let (t2, carry) := mac 0 a.l0 a.l2 carry
  let (t3, carry) := mac 0 a.l0 a.l3 carry
  let (t4, carry) := mac 0 a.l0 a.l4 carry
  let (t5, t6) := mac 0 a.l0 a.l5 carry
  let (t3, carry) := mac t3 a.l1 a.l2 0
  let (t4, carry) := mac t4 a.l1 a.l3 carry
  let (t5, carry) := mac t5 a.l1 a.l4 carry
  let (t6, t7) := mac t6 a.l1 a.l5 carry
  let (t5, carry) := mac t5 a.l2 a.l3 0
  let (t6, carry) := mac t6 a.l2 a.l4 carry
  let (t7, t8) := mac t7 a.l2 a.l5 carry
  let (t7, carry) := mac t7 a.l3 a.l4 0
  let (t8, t9) := mac t8 a.l3 a.l5 carry
  let (t9, t10) := mac t9 a.l4 a.l5 0
  let t11 := shr t10 63
  let t10 := shl t10 1 ||| shr t9 63
  let t9 := shl t9 1 ||| shr t8 63
  let t8 := shl t8 1 ||| shr t7 63
  let t7 := shl t7 1 ||| shr t6 63
  let t6 := shl t6 1 ||| shr t5 63
  let t5 := shl t5 1 ||| shr t4 63
  let t4 := shl t4 1 ||| shr t3 63
  let t3 := shl t3 1 ||| shr t2 63
  let t2 := shl t2 1 ||| shr t1 63
  let t1 := shl t1 1
  let (t0, carry) := mac 0 a.l0 a.l0 0
  let (t1, carry) := adc t1 0 carry
  let (t2, carry) := mac t2 a.l1 a.l1 carry
  let (t3, carry) := adc t3 0 carry
  let (t4, carry) := mac t4 a.l2 a.l2 carry
  let (t5, carry) := adc t5 0 carry
  let (t6, carry) := mac t6 a.l3 a.l3 carry
  let (t7, carry) := adc t7 0 carry
  let (t8, carry) := mac t8 a.l4 a.l4 carry
  let (t9, carry) := adc t9 0 carry
  let (t10, carry) := mac t10 a.l5 a.l5 carry
  let (t11, _) := adc t11 0 carry
  montgomeryReduce t0 t1 t2 t3 t4 t5 t6 t7 t8 t9 t10 t11

/-- `u64::from_be_bytes` of a slice of bytes. -/
def fromBe (bytes : List Nat) : Nat := fromLe bytes.reverse

/-- `u64::to_be_bytes`. -/
def toBe (n x : Nat) : List Nat := (toLe n x).reverse

/-- `from_bytes`, zkcrypto/src/curve/fp.rs:359-387; the argument has 48 bytes. -/
def fromBytes (bytes : List Nat) : Option Fp :=
  let t5 := fromBe (bytes.take 8)
  let t4 := fromBe ((bytes.drop 8).take 8)
  let t3 := fromBe ((bytes.drop 16).take 8)
  let t2 := fromBe ((bytes.drop 24).take 8)
  let t1 := fromBe ((bytes.drop 32).take 8)
  let t0 := fromBe ((bytes.drop 40).take 8)
  let (_, borrow) := sbb t0 modulus.l0 0
  let (_, borrow) := sbb t1 modulus.l1 borrow
  let (_, borrow) := sbb t2 modulus.l2 borrow
  let (_, borrow) := sbb t3 modulus.l3 borrow
  let (_, borrow) := sbb t4 modulus.l4 borrow
  let (_, borrow) := sbb t5 modulus.l5 borrow
  let isSome := (borrow % 256) &&& 1
  let tmp := mul ⟨t0, t1, t2, t3, t4, t5⟩ R2
  if isSome = 1 then some tmp else none

/-- `to_bytes`, zkcrypto/src/curve/fp.rs:391-407. -/
def toBytes (a : Fp) : List Nat :=
  let tmp := montgomeryReduce a.l0 a.l1 a.l2 a.l3 a.l4 a.l5 0 0 0 0 0 0
  toBe 8 tmp.l5 ++ toBe 8 tmp.l4 ++ toBe 8 tmp.l3 ++ toBe 8 tmp.l2 ++ toBe 8 tmp.l1 ++ toBe 8 tmp.l0

/-- `from_u768`, zkcrypto/src/curve/fp.rs:431-449. -/
def fromU768 (l0 l1 l2 l3 l4 l5 l6 l7 l8 l9 l10 l11 : Nat) : Fp :=
  let d1 : Fp := ⟨l11, l10, l9, l8, l7, l6⟩
  let d0 : Fp := ⟨l5, l4, l3, l2, l1, l0⟩
  add (mul d0 R2) (mul d1 R3)

/-- `lexicographically_largest`, zkcrypto/src/curve/fp.rs:453-478. -/
def lexLargest (a : Fp) : Bool :=
  let tmp := montgomeryReduce a.l0 a.l1 a.l2 a.l3 a.l4 a.l5 0 0 0 0 0 0
  let (_, borrow) := sbb tmp.l0 0xdcff7fffffffd556 0
  let (_, borrow) := sbb tmp.l1 0x0f55ffff58a9ffff borrow
  let (_, borrow) := sbb tmp.l2 0xb39869507b587b12 borrow
  let (_, borrow) := sbb tmp.l3 0xb23ba5c279c2895f borrow
  let (_, borrow) := sbb tmp.l4 0x258dd3db21a5d66b borrow
  let (_, borrow) := sbb tmp.l5 0x0d0088f51cbff34d borrow
  !(((borrow % 256) &&& 1) == 1)

/-- One word of `pow_vartime`, zkcrypto/src/curve/fp.rs:492-498. -/
def powVarWord (a : Fp) (e : Nat) : (n : Nat) → Fp → Fp
  | 0, res => res
  | i + 1, res =>
    let res := square res
    powVarWord a e i (if (shr e i &&& 1) = 1 then mul res a else res)

/-- `pow_vartime`, zkcrypto/src/curve/fp.rs:489-501. -/
def powVartime (a : Fp) (b0 b1 b2 b3 b4 b5 : Nat) : Fp :=
  powVarWord a b0 64 (powVarWord a b1 64 (powVarWord a b2 64 (powVarWord a b3 64 (powVarWord a b4 64
    (powVarWord a b5 64 one)))))

/-- `sqrt`, zkcrypto/src/curve/fp.rs:504-520. -/
def sqrt (a : Fp) : Option Fp :=
  let s := powVartime a 0xee7fbfffffffeaab 0x07aaffffac54ffff 0xd9cc34a83dac3d89 0xd91dd2e13ce144af
    0x92c6e9ed90d2eb35 0x0680447a8e5ff9a6
  if ctEq (square s) a then some s else none

/-- `invert`, zkcrypto/src/curve/fp.rs:526-538. -/
def invert (a : Fp) : Option Fp :=
  let t := powVartime a 0xb9feffffffffaaa9 0x1eabfffeb153ffff 0x6730d2a0f6b0f624 0x64774b84f38512bf
    0x4b1ba7b6434bacd7 0x1a0111ea397fe69a
  if !isZero a then some t else none

end Fp
end Kzg.Zk
