import Verif.Model.Zk.Limbs
/-!
# The scalar field of zkcrypto (zkcrypto/src/curve/scalar.rs)

Four 64-bit words, Montgomery form. `CtOption` is `Option`; `Choice` is `Bool`.
-/

namespace Kzg.Zk

/-- `struct Scalar([u64; 4])`, zkcrypto/src/curve/scalar.rs:202. -/
structure Scalar where
  l0 : Nat
  l1 : Nat
  l2 : Nat
  l3 : Nat
deriving DecidableEq, Repr

namespace Scalar

/-- `MODULUS`, zkcrypto/src/curve/scalar.rs:256-261. -/
def modulus : Scalar := ⟨0xffffffff00000001, 0x53bda402fffe5bfe, 0x3339d80809a1d805, 0x73eda753299d7d48⟩

/-- `GENERATOR`, zkcrypto/src/curve/scalar.rs:280-285. -/
def generator : Scalar := ⟨0x0000000efffffff1, 0x17e363d300189c0f, 0xff9c57876f8457b0, 0x351332208fc5a8c4⟩

/-- `INV`, zkcrypto/src/curve/scalar.rs:336. -/
def inv : Nat := 0xfffffffeffffffff

/-- `R`, zkcrypto/src/curve/scalar.rs:339-344. -/
def R : Scalar := ⟨0x00000001fffffffe, 0x5884b7fa00034802, 0x998c4fefecbc4ff5, 0x1824b159acc5056f⟩

/-- `R2`, zkcrypto/src/curve/scalar.rs:347-352. -/
def R2 : Scalar := ⟨0xc999e990f3f29c6d, 0x2b6cedcb87925c23, 0x05d314967254398f, 0x0748d9d99f59ff11⟩

/-- `R3`, zkcrypto/src/curve/scalar.rs:355-360. -/
def R3 : Scalar := ⟨0xc62c1807439b73af, 0x1b3e0d188cf06990, 0x73d13c71c7b5f418, 0x6e2a5bb9c8db33e9⟩

/-- `ROOT_OF_UNITY`, zkcrypto/src/curve/scalar.rs:372-377. -/
def rootOfUnity : Scalar := ⟨0xb9b58d8c5f0e466a, 0x5b1b4c801819d7ec, 0x0af53ae352a31e64, 0x5bf3adda19e9b27b⟩

/-- `zero`, zkcrypto/src/curve/scalar.rs:392-394. -/
def zero : Scalar := ⟨0, 0, 0, 0⟩

/-- `one`, zkcrypto/src/curve/scalar.rs:398-400. -/
def one : Scalar := R

/-- `null`, zkcrypto/src/curve/scalar.rs:403-405. -/
def null : Scalar := ⟨W - 1, W - 1, W - 1, W - 1⟩

/-- `ct_eq`, zkcrypto/src/curve/scalar.rs:227-241. -/
def ctEq (a b : Scalar) : Bool :=
  (a.l0 == b.l0) && (a.l1 == b.l1) && (a.l2 == b.l2) && (a.l3 == b.l3)

/-- `conditional_select`, zkcrypto/src/curve/scalar.rs:243-252. -/
def select (a b : Scalar) (choice : Bool) : Scalar :=
  ⟨if choice then b.l0 else a.l0, if choice then b.l1 else a.l1, if choice then b.l2 else a.l2,
    if choice then b.l3 else a.l3⟩

/-- `sub`, zkcrypto/src/curve/scalar.rs:792-806. -/
def sub (a b : Scalar) : Scalar :=
  let (d0, borrow) := sbb a.l0 b.l0 0
  let (d1, borrow) := sbb a.l1 b.l1 borrow
  let (d2, borrow) := sbb a.l2 b.l2 borrow
  let (d3, borrow) := sbb a.l3 b.l3 borrow
  let (d0, carry) := adc d0 (modulus.l0 &&& borrow) 0
  let (d1, carry) := adc d1 (modulus.l1 &&& borrow) carry
  let (d2, carry) := adc d2 (modulus.l2 &&& borrow) carry
  let (d3, _) := adc d3 (modulus.l3 &&& borrow) carry
  ⟨d0, d1, d2, d3⟩

/-- `add`, zkcrypto/src/curve/scalar.rs:810-819. -/
def add (a b : Scalar) : Scalar :=
  let (d0, carry) := adc a.l0 b.l0 0
  let (d1, carry) := adc a.l1 b.l1 carry
  let (d2, carry) := adc a.l2 b.l2 carry
  let (d3, _) := adc a.l3 b.l3 carry
  sub ⟨d0, d1, d2, d3⟩ modulus

/-- `double`, zkcrypto/src/curve/scalar.rs:409-412. -/
def double (a : Scalar) : Scalar := add a a

/-- `neg`, zkcrypto/src/curve/scalar.rs:823-837. -/
def neg (a : Scalar) : Scalar :=
  let (d0, borrow) := sbb modulus.l0 a.l0 0
  let (d1, borrow) := sbb modulus.l1 a.l1 borrow
  let (d2, borrow) := sbb modulus.l2 a.l2 borrow
  let (d3, _) := sbb modulus.l3 a.l3 borrow
  let mask := wsub (if (a.l0 ||| a.l1 ||| a.l2 ||| a.l3) = 0 then 1 else 0) 1
  ⟨d0 &&& mask, d1 &&& mask, d2 &&& mask, d3 &&& mask⟩

/-- `montgomery_reduce`, zkcrypto/src/curve/scalar.rs:716-760. -/
def montgomeryReduce (r0 r1 r2 r3 r4 r5 r6 r7 : Nat) : Scalar :=
  let k := wmul r0 inv
  let (_, carry) := mac r0 k modulus.l0 0
  let (r1, carry) := mac r1 k modulus.l1 carry
  let (r2, carry) := mac r2 k modulus.l2 carry
  let (r3, carry) := mac r3 k modulus.l3 carry
  let (r4, carry2) := adc r4 0 carry
  let k := wmul r1 inv
  let (_, carry) := mac r1 k modulus.l0 0
  let (r2, carry) := mac r2 k modulus.l1 carry
  let (r3, carry) := mac r3 k modulus.l2 carry
  let (r4, carry) := mac r4 k modulus.l3 carry
  let (r5, carry2) := adc r5 carry2 carry
  let k := wmul r2 inv
  let (_, carry) := mac r2 k modulus.l0 0
  let (r3, carry) := mac r3 k modulus.l1 carry
  let (r4, carry) := mac r4 k modulus.l2 carry
  let (r5, carry) := mac r5 k modulus.l3 carry
  let (r6, carry2) := adc r6 carry2 carry
  let k := wmul r3 inv
  let (_, carry) := mac r3 k modulus.l0 0
  let (r4, carry) := mac r4 k modulus.l1 carry
  let (r5, carry) := mac r5 k modulus.l2 carry
  let (r6, carry) := mac r6 k modulus.l3 carry
  let (r7, _) := adc r7 carry2 carry
  sub ⟨r4, r5, r6, r7⟩ modulus

/-- `mul`, zkcrypto/src/curve/scalar.rs:764-788. -/
def mul (a b : Scalar) : Scalar :=
  let (r0, carry) := mac 0 a.l0 b.l0 0
  let (r1, carry) := mac 0 a.l0 b.l1 carry
  let (r2, carry) := mac 0 a.l0 b.l2 carry
  let (r3, r4) := mac 0 a.l0 b.l3 carry
  let (r1, carry) := mac r1 a.l1 b.l0 0
  let (r2, carry) := mac r2 a.l1 b.l1 carry
  let (r3, carry) := mac r3 a.l1 b.l2 carry
  let (r4, r5) := mac r4 a.l1 b.l3 carry
  let (r2, carry) := mac r2 a.l2 b.l0 0
  let (r3, carry) := mac r3 a.l2 b.l1 carry
  let (r4, carry) := mac r4 a.l2 b.l2 carry
  let (r5, r6) := mac r5 a.l2 b.l3 carry
  let (r3, carry) := mac r3 a.l3 b.l0 0
  let (r4, carry) := mac r4 a.l3 b.l1 carry
  let (r5, carry) := mac r5 a.l3 b.l2 carry
  let (r6, r7) := mac r6 a.l3 b.l3 carry
  montgomeryReduce r0 r1 r2 r3 r4 r5 r6 r7

/-- `square`, zkcrypto/src/curve/scalar.rs:501-529. -/
def square (a : Scalar) : Scalar :=
  let (r1, carry) := mac 0 a.l0 a.l1 0
  let (r2, carry) := mac 0 a.l0 a.l2 carry
  let (r3, r4) := mac 0 a.l0 a.l3 carry
  let (r3, carry) := mac r3 a.l1 a.l2 0
  let (r4, r5) := mac r4 a.l1 a.l3 carry
  let (r5, r6) := mac r5 a.l2 a.l3 0
  let r7 := shr r6 63
  let r6 := shl r6 1 ||| shr r5 63
  let r5 := shl r5 1 ||| shr r4 63
  let r4 := shl r4 1 ||| shr r3 63
  let r3 := shl r3 1 ||| shr r2 63
  let r2 := shl r2 1 ||| shr r1 63
  let r1 := shl r1 1
  let (r0, carry) := mac 0 a.l0 a.l0 0
  let (r1, carry) := adc 0 r1 carry
  let (r2, carry) := mac r2 a.l1 a.l1 carry
  let (r3, carry) := adc 0 r3 carry
  let (r4, carry) := mac r4 a.l2 a.l2 carry
  let (r5, carry) := adc 0 r5 carry
  let (r6, carry) := mac r6 a.l3 a.l3 carry
  let (r7, _) := adc 0 r7 carry
  montgomeryReduce r0 r1 r2 r3 r4 r5 r6 r7

/-- `reduce`, zkcrypto/src/curve/scalar.rs:841-843. -/
def reduce (a : Scalar) : Scalar := montgomeryReduce a.l0 a.l1 a.l2 a.l3 0 0 0 0

/-- `From<u64>`, zkcrypto/src/curve/scalar.rs:221-225. -/
def ofU64 (v : Nat) : Scalar := mul ⟨v, 0, 0, 0⟩ R2

/-- `from_raw`, zkcrypto/src/curve/scalar.rs:495-497. -/
def fromRaw (a b c d : Nat) : Scalar := mul ⟨a, b, c, d⟩ R2

/-- `from_bytes`, zkcrypto/src/curve/scalar.rs:416-440; the argument has 32 bytes. -/
def fromBytes (bytes : List Nat) : Option Scalar :=
  let t0 := fromLe (bytes.take 8)
  let t1 := fromLe ((bytes.drop 8).take 8)
  let t2 := fromLe ((bytes.drop 16).take 8)
  let t3 := fromLe ((bytes.drop 24).take 8)
  let (_, borrow) := sbb t0 modulus.l0 0
  let (_, borrow) := sbb t1 modulus.l1 borrow
  let (_, borrow) := sbb t2 modulus.l2 borrow
  let (_, borrow) := sbb t3 modulus.l3 borrow
  let isSome := (borrow % 256) &&& 1
  let tmp := mul ⟨t0, t1, t2, t3⟩ R2
  if isSome = 1 then some tmp else none

/-- `to_bytes`, zkcrypto/src/curve/scalar.rs:444-456. -/
def toBytes (a : Scalar) : List Nat :=
  let tmp := montgomeryReduce a.l0 a.l1 a.l2 a.l3 0 0 0 0
  toLe 8 tmp.l0 ++ toLe 8 tmp.l1 ++ toLe 8 tmp.l2 ++ toLe 8 tmp.l3

/-- `from_u512`, zkcrypto/src/curve/scalar.rs:473-491. -/
def fromU512 (l0 l1 l2 l3 l4 l5 l6 l7 : Nat) : Scalar :=
  add (mul ⟨l0, l1, l2, l3⟩ R2) (mul ⟨l4, l5, l6, l7⟩ R3)

/-- `from_bytes_wide`, zkcrypto/src/curve/scalar.rs:460-471; the argument has 64 bytes. -/
def fromBytesWide (bytes : List Nat) : Scalar :=
  fromU512 (fromLe (bytes.take 8)) (fromLe ((bytes.drop 8).take 8)) (fromLe ((bytes.drop 16).take 8))
    (fromLe ((bytes.drop 24).take 8)) (fromLe ((bytes.drop 32).take 8)) (fromLe ((bytes.drop 40).take 8))
    (fromLe ((bytes.drop 48).take 8)) (fromLe ((bytes.drop 56).take 8))

/-- One word of `pow`, zkcrypto/src/curve/scalar.rs:586-591: bits `n-1, …, 0` of `e`. -/
def powWord (a : Scalar) (e : Nat) : (n : Nat) → Scalar → Scalar
  | 0, res => res
  | i + 1, res =>
    let res := square res
    let tmp := mul res a
    let res := select res tmp ((shr e i &&& 1) % 256 == 1)
    powWord a e i res

/-- `pow`, zkcrypto/src/curve/scalar.rs:583-594. -/
def pow (a : Scalar) (b0 b1 b2 b3 : Nat) : Scalar :=
  powWord a b0 64 (powWord a b1 64 (powWord a b2 64 (powWord a b3 64 one)))

/-- One word of `pow_vartime`, zkcrypto/src/curve/scalar.rs:605-611. -/
def powVarWord (a : Scalar) (e : Nat) : (n : Nat) → Scalar → Scalar
  | 0, res => res
  | i + 1, res =>
    let res := square res
    powVarWord a e i (if (shr e i &&& 1) = 1 then mul res a else res)

/-- `pow_vartime`, zkcrypto/src/curve/scalar.rs:602-614. -/
def powVartime (a : Scalar) (b0 b1 b2 b3 : Nat) : Scalar :=
  powVarWord a b0 64 (powVarWord a b1 64 (powVarWord a b2 64 (powVarWord a b3 64 one)))

/-- `square_assign_multi`, zkcrypto/src/curve/scalar.rs:620-624. -/
def squareMulti (n : Scalar) : Nat → Scalar
  | 0 => n
  | k + 1 => squareMulti (square n) k

/-- `invert`, zkcrypto/src/curve/scalar.rs:618-713. -/
def invert (a : Scalar) : Option Scalar :=
  let t0 := square a
  let t1 := mul t0 a
  let t16 := square t0
  let t6 := square t16
  let t5 := mul t6 t0
  let t0 := mul t6 t16
  let t12 := mul t5 t16
  let t2 := square t6
  let t7 := mul t5 t6
  let t15 := mul t0 t5
  let t17 := square t12
  let t1 := mul t1 t17
  let t3 := mul t7 t2
  let t8 := mul t1 t17
  let t4 := mul t8 t2
  let t9 := mul t8 t7
  let t7 := mul t4 t5
  let t11 := mul t4 t17
  let t5 := mul t9 t17
  let t14 := mul t7 t15
  let t13 := mul t11 t12
  let t12 := mul t11 t17
  let t15 := mul t15 t12
  let t16 := mul t16 t15
  let t3 := mul t3 t16
  let t17 := mul t17 t3
  let t0 := mul t0 t17
  let t6 := mul t6 t0
  let t2 := mul t2 t6
  let t0 := mul (squareMulti t0 8) t17
  let t0 := mul (squareMulti t0 9) t16
  let t0 := mul (squareMulti t0 9) t15
  let t0 := mul (squareMulti t0 9) t15
  let t0 := mul (squareMulti t0 7) t14
  let t0 := mul (squareMulti t0 7) t13
  let t0 := mul (squareMulti t0 10) t12
  let t0 := mul (squareMulti t0 9) t11
  let t0 := mul (squareMulti t0 8) t8
  let t0 := mul (squareMulti t0 8) a
  let t0 := mul (squareMulti t0 14) t9
  let t0 := mul (squareMulti t0 10) t8
  let t0 := mul (squareMulti t0 15) t7
  let t0 := mul (squareMulti t0 10) t6
  let t0 := mul (squareMulti t0 8) t5
  let t0 := mul (squareMulti t0 16) t3
  let t0 := mul (squareMulti t0 8) t2
  let t0 := mul (squareMulti t0 7) t4
  let t0 := mul (squareMulti t0 9) t2
  let t0 := mul (squareMulti t0 8) t3
  let t0 := mul (squareMulti t0 8) t2
  let t0 := mul (squareMulti t0 8) t2
  let t0 := mul (squareMulti t0 8) t2
  let t0 := mul (squareMulti t0 8) t3
  let t0 := mul (squareMulti t0 8) t2
  let t0 := mul (squareMulti t0 8) t2
  let t0 := mul (squareMulti t0 5) t1
  let t0 := mul (squareMulti t0 5) t1
  if ctEq a zero then none else some t0

/-- The state of `sqrt`: `v`, `x`, `b`, `z`. -/
structure SqrtState where
  v : Nat
  x : Scalar
  b : Scalar
  z : Scalar

/-- The inner loop of `sqrt`, zkcrypto/src/curve/scalar.rs:558-566: `j` from its current value, `n` steps.
The state is `(k, tmp, z, j_less_than_v)`. -/
def sqrtInner (v : Nat) : (n : Nat) → (j : Nat) → Nat × Scalar × Scalar × Bool → Nat × Scalar × Scalar × Bool
  | 0, _, st => st
  | n + 1, j, (k, tmp, z, less) =>
    let tmpIsOne := ctEq tmp one
    let squared := square (select tmp z tmpIsOne)
    let tmp := select squared tmp tmpIsOne
    let newZ := select z squared tmpIsOne
    let less := less && !(j == v)
    let k := if tmpIsOne then k else j
    let z := select z newZ less
    sqrtInner v n (j + 1) (k, tmp, z, less)

/-- The outer loop of `sqrt`, zkcrypto/src/curve/scalar.rs:553-573: `max_v` from `n` down to `1`. -/
def sqrtOuter : (n : Nat) → SqrtState → SqrtState
  | 0, st => st
  | n + 1, ⟨v, x, b, z⟩ =>
    let (k, _, z, _) := sqrtInner v (n + 1 - 2) 2 (1, square b, z, true)
    let result := mul x z
    let x := select result x (ctEq b one)
    let z := square z
    let b := mul b z
    sqrtOuter n ⟨k, x, b, z⟩

/-- `sqrt`, zkcrypto/src/curve/scalar.rs:533-579. -/
def sqrt (a : Scalar) : Option Scalar :=
  let w := powVartime a 0x7fff2dff7fffffff 0x04d0ec02a9ded201 0x94cebea4199cec04 0x0000000039f6d3a9
  let x := mul a w
  let b := mul x w
  let x := (sqrtOuter 32 ⟨32, x, b, rootOfUnity⟩).x
  if ctEq (mul x x) a then some x else none

/-- The word-wise shift of `divn`, zkcrypto/src/curve/scalar.rs:853-859, as a loop with the number of
words still to shift out. -/
def divnWords : Nat → Scalar → Scalar
  | 0, a => a
  | k + 1, a => divnWords k ⟨a.l1, a.l2, a.l3, 0⟩

/-- `divn`, zkcrypto/src/curve/scalar.rs:847-870: shifts the raw words right by `n` bits. -/
def divn (a : Scalar) (n : Nat) : Scalar :=
  if n ≥ 256 then ofU64 0
  else
    let a := divnWords (n / 64) a
    let n := n % 64
    if n > 0 then
      let t := 0
      let t2 := shl a.l3 (64 - n)
      let l3 := shr a.l3 n ||| t
      let t := t2
      let t2 := shl a.l2 (64 - n)
      let l2 := shr a.l2 n ||| t
      let t := t2
      let t2 := shl a.l1 (64 - n)
      let l1 := shr a.l1 n ||| t
      let t := t2
      let l0 := shr a.l0 n ||| t
      ⟨l0, l1, l2, l3⟩
    else a

end Scalar
end Kzg.Zk
