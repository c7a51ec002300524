import Verif.Model.Zk.G1
/-!
# The extension fields of zkcrypto (zkcrypto/src/curve/fp2.rs, fp6.rs, fp12.rs)

`Fp2 = Fp[u] / (u² + 1)`, `Fp6 = Fp2[v] / (v³ - u - 1)`, `Fp12 = Fp6[w] / (w² - v)`, with the sequences of
operations of the source. The base type `K` is any field; the source is `K = FpW`, the reduced six-word
vectors of fp.rs. As in `Verif/Model/Zk/Curve.lean`, `square` of the base type is the product of an element
with itself (C42 shows that the words are the same), `CtOption` is `Option`, `Choice` is `Bool`, and the
operators on references and the assigning operators are the plain operators.

`random`, `Debug`, `Default` and zeroisation are not modelled.
-/

namespace Kzg.Zk

/-- `struct Fp2`, zkcrypto/src/curve/fp2.rs:194-198. -/
@[ext] structure Fp2 (K : Type) where
  c0 : K
  c1 : K
deriving DecidableEq

/-- `struct Fp6`, zkcrypto/src/curve/fp6.rs:196-200. -/
@[ext] structure Fp6 (K : Type) where
  c0 : Fp2 K
  c1 : Fp2 K
  c2 : Fp2 K
deriving DecidableEq

/-- `struct Fp12`, zkcrypto/src/curve/fp12.rs:197-200. -/
@[ext] structure Fp12 (K : Type) where
  c0 : Fp6 K
  c1 : Fp6 K
deriving DecidableEq

section
variable {K : Type} [Field K] [DecidableEq K]

/-- `Fp::invert` on the words as a partial function: nothing for zero, the inverse otherwise (C48). -/
def invertK (a : K) : Option K := if a = 0 then none else some a⁻¹

namespace Fp2

/-- `zero`, zkcrypto/src/curve/fp2.rs:297-302. -/
instance : Zero (Fp2 K) := ⟨⟨0, 0⟩⟩

/-- `one`, zkcrypto/src/curve/fp2.rs:305-310. -/
instance : One (Fp2 K) := ⟨⟨1, 0⟩⟩

/-- `From<Fp>`, zkcrypto/src/curve/fp2.rs:215-222. -/
def ofFp (f : K) : Fp2 K := ⟨f, 0⟩

/-- `ct_eq`, zkcrypto/src/curve/fp2.rs:224-228. -/
def ctEq (a b : Fp2 K) : Bool := decide (a.c0 = b.c0) && decide (a.c1 = b.c1)

/-- `conditional_select`, zkcrypto/src/curve/fp2.rs:238-245. -/
def select (a b : Fp2 K) (choice : Bool) : Fp2 K := ⟨if choice then b.c0 else a.c0, if choice then b.c1 else a.c1⟩

/-- `is_zero`, zkcrypto/src/curve/fp2.rs:312-314. -/
def isZero (a : Fp2 K) : Bool := decide (a.c0 = 0) && decide (a.c1 = 0)

/-- `conjugate`, zkcrypto/src/curve/fp2.rs:332-337. -/
def conjugate (a : Fp2 K) : Fp2 K := ⟨a.c0, -a.c1⟩

/-- `frobenius_map`, zkcrypto/src/curve/fp2.rs:325-329. -/
def frobeniusMap (a : Fp2 K) : Fp2 K := conjugate a

/-- `mul_by_nonresidue`, zkcrypto/src/curve/fp2.rs:340-350. -/
def mulByNonresidue (a : Fp2 K) : Fp2 K := ⟨a.c0 - a.c1, a.c0 + a.c1⟩

/-- `square`, zkcrypto/src/curve/fp2.rs:366-387. -/
def square (x : Fp2 K) : Fp2 K :=
  let a := x.c0 + x.c1
  let b := x.c0 - x.c1
  let c := x.c0 + x.c0
  ⟨a * b, c * x.c1⟩

/-- `mul`, zkcrypto/src/curve/fp2.rs:389-414. -/
instance : Mul (Fp2 K) where
  mul a rhs :=
    let v0 := a.c0 * rhs.c0
    let v1 := (-a.c1) * rhs.c1
    let c0 := v0 + v1
    let c1 := (a.c0 + a.c1) * (rhs.c0 + rhs.c1)
    let c1 := c1 - v0
    let c1 := c1 + v1
    ⟨c0, c1⟩

/-- `add`, zkcrypto/src/curve/fp2.rs:416-421. -/
instance : Add (Fp2 K) := ⟨fun a rhs => ⟨a.c0 + rhs.c0, a.c1 + rhs.c1⟩⟩

/-- `sub`, zkcrypto/src/curve/fp2.rs:423-428. -/
instance : Sub (Fp2 K) := ⟨fun a rhs => ⟨a.c0 - rhs.c0, a.c1 - rhs.c1⟩⟩

/-- `neg`, zkcrypto/src/curve/fp2.rs:430-435. -/
instance : Neg (Fp2 K) := ⟨fun a => ⟨-a.c0, -a.c1⟩⟩

/-- `invert`, zkcrypto/src/curve/fp2.rs:492-511. -/
def invert (a : Fp2 K) : Option (Fp2 K) :=
  (invertK (a.c0 * a.c0 + a.c1 * a.c1)).map fun t => ⟨a.c0 * t, a.c1 * -t⟩

/-- One word of `pow_vartime`, zkcrypto/src/curve/fp2.rs:519-525. -/
def powVarWord (a : Fp2 K) (e : Nat) : (n : Nat) → Fp2 K → Fp2 K
  | 0, res => res
  | i + 1, res =>
    let res := square res
    powVarWord a e i (if (shr e i &&& 1) = 1 then res * a else res)

/-- `pow_vartime`, zkcrypto/src/curve/fp2.rs:516-528. -/
def powVartime (a : Fp2 K) (b0 b1 b2 b3 b4 b5 : Nat) : Fp2 K :=
  powVarWord a b0 64 (powVarWord a b1 64 (powVarWord a b2 64 (powVarWord a b3 64 (powVarWord a b4 64
    (powVarWord a b5 64 1)))))

/-- The candidate of `sqrt` for a nonzero argument, zkcrypto/src/curve/fp2.rs:442-482. -/
def sqrtCandidate (a : Fp2 K) : Fp2 K :=
  let a1 := powVartime a 0xee7fbfffffffeaaa 0x07aaffffac54ffff 0xd9cc34a83dac3d89 0xd91dd2e13ce144af
    0x92c6e9ed90d2eb35 0x0680447a8e5ff9a6
  let alpha := square a1 * a
  let x0 := a1 * a
  if ctEq alpha (-1) then ⟨-x0.c1, x0.c0⟩
  else
    powVartime (alpha + 1) 0xdcff7fffffffd555 0x0f55ffff58a9ffff 0xb39869507b587b12 0xb23ba5c279c2895f
      0x258dd3db21a5d66b 0x0d0088f51cbff34d * x0

/-- `sqrt`, zkcrypto/src/curve/fp2.rs:437-487. -/
def sqrt (a : Fp2 K) : Option (Fp2 K) :=
  if isZero a then some 0
  else if ctEq (square (sqrtCandidate a)) a then some (sqrtCandidate a) else none

/-- `lexicographically_largest`, zkcrypto/src/curve/fp2.rs:355-364, for the words. -/
def lexLargest (a : Fp2 FpW) : Bool := Fp.lexLargest a.c1.1 || (Fp.isZero a.c1.1 && Fp.lexLargest a.c0.1)

end Fp2

namespace Fp6

/-- `zero`, zkcrypto/src/curve/fp6.rs:271-277. -/
instance : Zero (Fp6 K) := ⟨⟨0, 0, 0⟩⟩

/-- `one`, zkcrypto/src/curve/fp6.rs:280-286. -/
instance : One (Fp6 K) := ⟨⟨1, 0, 0⟩⟩

/-- `From<Fp>`, zkcrypto/src/curve/fp6.rs:202-210. -/
def ofFp (f : K) : Fp6 K := ⟨Fp2.ofFp f, 0, 0⟩

/-- `From<Fp2>`, zkcrypto/src/curve/fp6.rs:212-220. -/
def ofFp2 (f : Fp2 K) : Fp6 K := ⟨f, 0, 0⟩

/-- `conditional_select`, zkcrypto/src/curve/fp6.rs:251-260. -/
def select (a b : Fp6 K) (choice : Bool) : Fp6 K :=
  ⟨Fp2.select a.c0 b.c0 choice, Fp2.select a.c1 b.c1 choice, Fp2.select a.c2 b.c2 choice⟩

/-- `ct_eq`, zkcrypto/src/curve/fp6.rs:262-267. -/
def ctEq (a b : Fp6 K) : Bool := Fp2.ctEq a.c0 b.c0 && Fp2.ctEq a.c1 b.c1 && Fp2.ctEq a.c2 b.c2

/-- `is_zero`, zkcrypto/src/curve/fp6.rs:383-385. -/
def isZero (a : Fp6 K) : Bool := a.c0.isZero && a.c1.isZero && a.c2.isZero

/-- `add`, zkcrypto/src/curve/fp6.rs:470-476. -/
instance : Add (Fp6 K) := ⟨fun a rhs => ⟨a.c0 + rhs.c0, a.c1 + rhs.c1, a.c2 + rhs.c2⟩⟩

/-- `neg`, zkcrypto/src/curve/fp6.rs:483-489. -/
instance : Neg (Fp6 K) := ⟨fun a => ⟨-a.c0, -a.c1, -a.c2⟩⟩

/-- `sub`, zkcrypto/src/curve/fp6.rs:505-511. -/
instance : Sub (Fp6 K) := ⟨fun a rhs => ⟨a.c0 - rhs.c0, a.c1 - rhs.c1, a.c2 - rhs.c2⟩⟩

/-- `mul`, zkcrypto/src/curve/fp6.rs:430-463. -/
instance : Mul (Fp6 K) where
  mul a other :=
    let aa := a.c0 * other.c0
    let bb := a.c1 * other.c1
    let cc := a.c2 * other.c2
    let t1 := other.c1 + other.c2
    let tmp := a.c1 + a.c2
    let t1 := t1 * tmp
    let t1 := t1 - bb
    let t1 := t1 - cc
    let t1 := t1.mulByNonresidue
    let t1 := t1 + aa
    let t3 := other.c0 + other.c2
    let tmp := a.c0 + a.c2
    let t3 := t3 * tmp
    let t3 := t3 - aa
    let t3 := t3 + bb
    let t3 := t3 - cc
    let t2 := other.c0 + other.c1
    let tmp := a.c0 + a.c1
    let t2 := t2 * tmp
    let t2 := t2 - aa
    let t2 := t2 - bb
    let cc := cc.mulByNonresidue
    let t2 := t2 + cc
    ⟨t1, t2, t3⟩

/-- `mul_by_1`, zkcrypto/src/curve/fp6.rs:297-310. -/
def mulBy1 (a : Fp6 K) (c1 : Fp2 K) : Fp6 K :=
  let bb := a.c1 * c1
  let t1 := (a.c1 + a.c2) * c1 - bb
  let t1 := t1.mulByNonresidue
  let t2 := (a.c0 + a.c1) * c1 - bb
  ⟨t1, t2, bb⟩

/-- `mul_by_01`, zkcrypto/src/curve/fp6.rs:312-328. -/
def mulBy01 (a : Fp6 K) (c0 c1 : Fp2 K) : Fp6 K :=
  let aa := a.c0 * c0
  let bb := a.c1 * c1
  let t1 := (a.c1 + a.c2) * c1 - bb
  let t1 := t1.mulByNonresidue + aa
  let t2 := (c0 + c1) * (a.c0 + a.c1) - aa - bb
  let t3 := (a.c0 + a.c2) * c0 - aa + bb
  ⟨t1, t2, t3⟩

/-- `mul_by_nonresidue`, zkcrypto/src/curve/fp6.rs:331-342. -/
def mulByNonresidue (a : Fp6 K) : Fp6 K := ⟨a.c2.mulByNonresidue, a.c0, a.c1⟩

/-- `square`, zkcrypto/src/curve/fp6.rs:388-402. -/
def square (a : Fp6 K) : Fp6 K :=
  let s0 := a.c0.square
  let ab := a.c0 * a.c1
  let s1 := ab + ab
  let s2 := (a.c0 - a.c1 + a.c2).square
  let bc := a.c1 * a.c2
  let s3 := bc + bc
  let s4 := a.c2.square
  ⟨s3.mulByNonresidue + s0, s4.mulByNonresidue + s1, s1 + s2 + s3 - s0 - s4⟩

/-- `invert`, zkcrypto/src/curve/fp6.rs:405-423. -/
def invert (a : Fp6 K) : Option (Fp6 K) :=
  let c0 := (a.c1 * a.c2).mulByNonresidue
  let c0 := a.c0.square - c0
  let c1 := a.c2.square.mulByNonresidue
  let c1 := c1 - a.c0 * a.c1
  let c2 := a.c1.square
  let c2 := c2 - a.c0 * a.c2
  let tmp := (a.c1 * c2 + a.c2 * c1).mulByNonresidue
  let tmp := tmp + a.c0 * c0
  tmp.invert.map fun t => ⟨t * c0, t * c1, t * c2⟩

/-- The imaginary part of the first constant of `frobenius_map`, zkcrypto/src/curve/fp6.rs:355-362. -/
def frobC1 : FpW :=
  .raw 0xcd03c9e48671f071 0x5dab22461fcda5d2 0x587042afd3851b95 0x8eb60ebe01bacb9e 0x03f97d6e83d050d2
    0x18f0206554638741 (by decide +kernel)

/-- The real part of the second constant of `frobenius_map`, zkcrypto/src/curve/fp6.rs:368-375. -/
def frobC2 : FpW :=
  .raw 0x890dc9e4867545c3 0x2af322533285a5d5 0x50880866309b7e2c 0xa20d1b8c7e881024 0x14e4f04fe2db9068
    0x14e56d3f1564853a (by decide +kernel)

/-- `frobenius_map`, zkcrypto/src/curve/fp6.rs:346-380. -/
def frobeniusMap (a : Fp6 FpW) : Fp6 FpW :=
  let c0 := a.c0.frobeniusMap
  let c1 := a.c1.frobeniusMap
  let c2 := a.c2.frobeniusMap
  let c1 := c1 * ⟨0, frobC1⟩
  let c2 := c2 * ⟨frobC2, 0⟩
  ⟨c0, c1, c2⟩

end Fp6

namespace Fp12

/-- `zero`, zkcrypto/src/curve/fp12.rs:277-282. -/
instance : Zero (Fp12 K) := ⟨⟨0, 0⟩⟩

/-- `one`, zkcrypto/src/curve/fp12.rs:285-290. -/
instance : One (Fp12 K) := ⟨⟨1, 0⟩⟩

/-- `From<Fp>`, zkcrypto/src/curve/fp12.rs:202-209. -/
def ofFp (f : K) : Fp12 K := ⟨Fp6.ofFp f, 0⟩

/-- `From<Fp2>`, zkcrypto/src/curve/fp12.rs:211-218. -/
def ofFp2 (f : Fp2 K) : Fp12 K := ⟨Fp6.ofFp2 f, 0⟩

/-- `From<Fp6>`, zkcrypto/src/curve/fp12.rs:220-227. -/
def ofFp6 (f : Fp6 K) : Fp12 K := ⟨f, 0⟩

/-- `conditional_select`, zkcrypto/src/curve/fp12.rs:258-266. -/
def select (a b : Fp12 K) (choice : Bool) : Fp12 K := ⟨Fp6.select a.c0 b.c0 choice, Fp6.select a.c1 b.c1 choice⟩

/-- `ct_eq`, zkcrypto/src/curve/fp12.rs:268-273. -/
def ctEq (a b : Fp12 K) : Bool := Fp6.ctEq a.c0 b.c0 && Fp6.ctEq a.c1 b.c1

/-- `is_zero`, zkcrypto/src/curve/fp12.rs:315-317. -/
def isZero (a : Fp12 K) : Bool := a.c0.isZero && a.c1.isZero

/-- `add`, zkcrypto/src/curve/fp12.rs:404-409. -/
instance : Add (Fp12 K) := ⟨fun a rhs => ⟨a.c0 + rhs.c0, a.c1 + rhs.c1⟩⟩

/-- `neg`, zkcrypto/src/curve/fp12.rs:416-421. -/
instance : Neg (Fp12 K) := ⟨fun a => ⟨-a.c0, -a.c1⟩⟩

/-- `sub`, zkcrypto/src/curve/fp12.rs:437-442. -/
instance : Sub (Fp12 K) := ⟨fun a rhs => ⟨a.c0 - rhs.c0, a.c1 - rhs.c1⟩⟩

/-- `mul`, zkcrypto/src/curve/fp12.rs:385-397. -/
@[noinline] def mul (a other : Fp12 K) : Fp12 K :=
  let aa := a.c0 * other.c0
  let bb := a.c1 * other.c1
  let o := other.c0 + other.c1
  let c1 := a.c1 + a.c0
  let c1 := c1 * o
  let c1 := c1 - aa
  let c1 := c1 - bb
  let c0 := bb.mulByNonresidue
  let c0 := c0 + aa
  ⟨c0, c1⟩

instance : Mul (Fp12 K) := ⟨mul⟩

/-- `mul_by_014`, zkcrypto/src/curve/fp12.rs:300-312. -/
def mulBy014 (a : Fp12 K) (c0 c1 c4 : Fp2 K) : Fp12 K :=
  let aa := a.c0.mulBy01 c0 c1
  let bb := a.c1.mulBy1 c4
  let o := c1 + c4
  let c1 := a.c1 + a.c0
  let c1 := c1.mulBy01 c0 o
  let c1 := c1 - aa - bb
  let c0 := bb
  let c0 := c0.mulByNonresidue
  let c0 := c0 + aa
  ⟨c0, c1⟩

/-- `conjugate`, zkcrypto/src/curve/fp12.rs:320-325. -/
def conjugate (a : Fp12 K) : Fp12 K := ⟨a.c0, -a.c1⟩

/-- The constant of `frobenius_map`, zkcrypto/src/curve/fp12.rs:335-353. -/
def frobC : Fp2 FpW :=
  ⟨.raw 0x07089552b319d465 0xc6695f92b50a8313 0x97e83cccd117228f 0xa35baecab2dc29ee 0x1ce393ea5daace4d
      0x08f2220fb0fb66eb (by decide +kernel),
    .raw 0xb2f66aad4ce5d646 0x5842a06bfc497cec 0xcf4895d42599d394 0xc11b9cba40a8e8d0 0x2e3813cbe5a0de89
      0x110eefda88847faf (by decide +kernel)⟩

/-- `frobenius_map`, zkcrypto/src/curve/fp12.rs:329-355. -/
def frobeniusMap (a : Fp12 FpW) : Fp12 FpW :=
  let c0 := a.c0.frobeniusMap
  let c1 := a.c1.frobeniusMap
  let c1 := c1 * Fp6.ofFp2 frobC
  ⟨c0, c1⟩

/-- `square`, zkcrypto/src/curve/fp12.rs:358-369. -/
def square (a : Fp12 K) : Fp12 K :=
  let ab := a.c0 * a.c1
  let c0c1 := a.c0 + a.c1
  let c0 := a.c1.mulByNonresidue
  let c0 := c0 + a.c0
  let c0 := c0 * c0c1
  let c0 := c0 - ab
  let c1 := ab + ab
  let c0 := c0 - ab.mulByNonresidue
  ⟨c0, c1⟩

/-- `invert`, zkcrypto/src/curve/fp12.rs:371-378. -/
def invert (a : Fp12 K) : Option (Fp12 K) :=
  (a.c0.square - a.c1.square.mulByNonresidue).invert.map fun t => ⟨a.c0 * t, a.c1 * -t⟩

end Fp12
end
end Kzg.Zk
