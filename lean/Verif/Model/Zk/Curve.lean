import Verif.Base.Res
import Mathlib.Algebra.Field.Defs
/-!
# Points of the pairing groups of zkcrypto (zkcrypto/src/curve/g1.rs, zkcrypto/src/curve/g2.rs)

The point formulas of the two files are the same text over two coordinate types, so they are written once
over a coordinate type `K`. The operations of `K` are those of a field; `Verif/Proofs/Zk/FpWords.lean` makes
the six-word elements of fp.rs such a type, with the word operations as the field operations. `square` is
the product of an element with itself; `ct_eq` is equality; `Choice` is `Bool`;
`invert().unwrap_or(zero)` is the inverse with `0⁻¹ = 0`, and `invert().unwrap()` panics on zero.
-/

namespace Kzg.Zk

/-- The two constants of a curve file: `B` and `mul_by_3b`. -/
class CurveConsts (K : Type) where
  /-- `B`, zkcrypto/src/curve/g1.rs:373-380 and zkcrypto/src/curve/g2.rs:361-379. -/
  b : K
  /-- `mul_by_3b`, zkcrypto/src/curve/g1.rs:762-767 and zkcrypto/src/curve/g2.rs:817-819. -/
  mul3b : K → K

/-- `struct G1Affine`, zkcrypto/src/curve/g1.rs:225-229; `struct G2Affine`, zkcrypto/src/curve/g2.rs:213-217. -/
structure Affine (K : Type) where
  x : K
  y : K
  infinity : Bool

/-- `struct G1Projective`, zkcrypto/src/curve/g1.rs:621-625; `struct G2Projective`,
zkcrypto/src/curve/g2.rs:682-686. -/
structure Projective (K : Type) where
  x : K
  y : K
  z : K

variable {K : Type} [Field K] [DecidableEq K]

namespace Affine

/-- `identity`, zkcrypto/src/curve/g1.rs:384-390 and zkcrypto/src/curve/g2.rs:384-390. -/
def identity : Affine K := ⟨0, 1, true⟩

/-- `conditional_select`, zkcrypto/src/curve/g1.rs:283-289 and zkcrypto/src/curve/g2.rs:271-277. -/
def select (a b : Affine K) (choice : Bool) : Affine K :=
  ⟨if choice then b.x else a.x, if choice then b.y else a.y, if choice then b.infinity else a.infinity⟩

/-- `ct_eq`, zkcrypto/src/curve/g1.rs:269-279 and zkcrypto/src/curve/g2.rs:257-267. -/
def ctEq (a b : Affine K) : Bool :=
  (a.infinity && b.infinity) || (!a.infinity && !b.infinity && decide (a.x = b.x) && decide (a.y = b.y))

/-- `neg`, zkcrypto/src/curve/g1.rs:304-310 and zkcrypto/src/curve/g2.rs:292-298. -/
def neg (a : Affine K) : Affine K := ⟨a.x, if a.infinity then 1 else -a.y, a.infinity⟩

/-- `is_identity`, zkcrypto/src/curve/g1.rs:591-593 and zkcrypto/src/curve/g2.rs:652-654. -/
def isIdentity (a : Affine K) : Bool := a.infinity

/-- `is_on_curve`, zkcrypto/src/curve/g1.rs:612-615 and zkcrypto/src/curve/g2.rs:673-676. -/
def isOnCurve [CurveConsts K] (a : Affine K) : Bool :=
  decide (a.y * a.y - a.x * a.x * a.x = CurveConsts.b) || a.infinity

/-- `From<&G1Projective> for G1Affine`, zkcrypto/src/curve/g1.rs:247-259 and
zkcrypto/src/curve/g2.rs:235-247. -/
def ofProjective (p : Projective K) : Affine K :=
  let zinv := p.z⁻¹
  let x := p.x * zinv
  let y := p.y * zinv
  select ⟨x, y, false⟩ identity (decide (zinv = 0))

end Affine

namespace Projective

/-- `identity`, zkcrypto/src/curve/g1.rs:771-777 and zkcrypto/src/curve/g2.rs:823-829. -/
def identity : Projective K := ⟨0, 1, 0⟩

/-- `conditional_select`, zkcrypto/src/curve/g1.rs:684-690 and zkcrypto/src/curve/g2.rs:739-745. -/
def select (a b : Projective K) (choice : Bool) : Projective K :=
  ⟨if choice then b.x else a.x, if choice then b.y else a.y, if choice then b.z else a.z⟩

/-- `is_identity`, zkcrypto/src/curve/g1.rs:1159-1161 and zkcrypto/src/curve/g2.rs:1157-1159. -/
def isIdentity (a : Projective K) : Bool := decide (a.z = 0)

/-- `From<&G1Affine> for G1Projective`, zkcrypto/src/curve/g1.rs:649-655 and
zkcrypto/src/curve/g2.rs:704-710. -/
def ofAffine (p : Affine K) : Projective K := ⟨p.x, p.y, if p.infinity then 0 else 1⟩

/-- `ct_eq`, zkcrypto/src/curve/g1.rs:665-680 and zkcrypto/src/curve/g2.rs:720-735. -/
def ctEq (a b : Projective K) : Bool :=
  let x1 := a.x * b.z
  let x2 := b.x * a.z
  let y1 := a.y * b.z
  let y2 := b.y * a.z
  let aZero := decide (a.z = 0)
  let bZero := decide (b.z = 0)
  (aZero && bZero) || (!aZero && !bZero && decide (x1 = x2) && decide (y1 = y2))

/-- `neg`, zkcrypto/src/curve/g1.rs:705-711 and zkcrypto/src/curve/g2.rs:760-766. -/
def neg (a : Projective K) : Projective K := ⟨a.x, -a.y, a.z⟩

/-- `is_on_curve`, zkcrypto/src/curve/g1.rs:1165-1170 and zkcrypto/src/curve/g2.rs:1163-1168. -/
def isOnCurve [CurveConsts K] (a : Projective K) : Bool :=
  decide (a.y * a.y * a.z = a.x * a.x * a.x + a.z * a.z * a.z * CurveConsts.b) || decide (a.z = 0)

section
variable [CurveConsts K]
open CurveConsts

/-- `double`, zkcrypto/src/curve/g1.rs:804-833 and zkcrypto/src/curve/g2.rs:876-905. -/
def double (p : Projective K) : Projective K :=
  let t0 := p.y * p.y
  let z3 := t0 + t0
  let z3 := z3 + z3
  let z3 := z3 + z3
  let t1 := p.y * p.z
  let t2 := p.z * p.z
  let t2 := mul3b t2
  let x3 := t2 * z3
  let y3 := t0 + t2
  let z3 := t1 * z3
  let t1 := t2 + t2
  let t2 := t1 + t2
  let t0 := t0 - t2
  let y3 := t0 * y3
  let y3 := x3 + y3
  let t1 := p.x * p.y
  let x3 := t0 * t1
  let x3 := x3 + x3
  select ⟨x3, y3, z3⟩ identity p.isIdentity

/-- `add`, zkcrypto/src/curve/g1.rs:836-878 and zkcrypto/src/curve/g2.rs:908-950. -/
def add (p q : Projective K) : Projective K :=
  let t0 := p.x * q.x
  let t1 := p.y * q.y
  let t2 := p.z * q.z
  let t3 := p.x + p.y
  let t4 := q.x + q.y
  let t3 := t3 * t4
  let t4 := t0 + t1
  let t3 := t3 - t4
  let t4 := p.y + p.z
  let x3 := q.y + q.z
  let t4 := t4 * x3
  let x3 := t1 + t2
  let t4 := t4 - x3
  let x3 := p.x + p.z
  let y3 := q.x + q.z
  let x3 := x3 * y3
  let y3 := t0 + t2
  let y3 := x3 - y3
  let x3 := t0 + t0
  let t0 := x3 + t0
  let t2 := mul3b t2
  let z3 := t1 + t2
  let t1 := t1 - t2
  let y3 := mul3b y3
  let x3 := t4 * y3
  let t2 := t3 * t1
  let x3 := t2 - x3
  let y3 := y3 * t0
  let t1 := t1 * z3
  let y3 := t1 + y3
  let t0 := t0 * t3
  let z3 := z3 * t4
  let z3 := z3 + t0
  ⟨x3, y3, z3⟩

/-- `add_mixed`, zkcrypto/src/curve/g1.rs:882-920 and zkcrypto/src/curve/g2.rs:954-991. -/
def addMixed (p : Projective K) (q : Affine K) : Projective K :=
  let t0 := p.x * q.x
  let t1 := p.y * q.y
  let t3 := q.x + q.y
  let t4 := p.x + p.y
  let t3 := t3 * t4
  let t4 := t0 + t1
  let t3 := t3 - t4
  let t4 := q.y * p.z
  let t4 := t4 + p.y
  let y3 := q.x * p.z
  let y3 := y3 + p.x
  let x3 := t0 + t0
  let t0 := x3 + t0
  let t2 := mul3b p.z
  let z3 := t1 + t2
  let t1 := t1 - t2
  let y3 := mul3b y3
  let x3 := t4 * y3
  let t2 := t3 * t1
  let x3 := t2 - x3
  let y3 := y3 * t0
  let t1 := t1 * z3
  let y3 := t1 + y3
  let t0 := t0 * t3
  let z3 := z3 * t4
  let z3 := z3 + t0
  select ⟨x3, y3, z3⟩ p q.isIdentity

/-- `sub` of two projective points, zkcrypto/src/curve/g1.rs:736-738 and zkcrypto/src/curve/g2.rs:791-793. -/
def sub (p q : Projective K) : Projective K := add p (neg q)

/-- `sub` of an affine point from a projective one, zkcrypto/src/curve/g1.rs:353-355 and
zkcrypto/src/curve/g2.rs:341-343. -/
def subMixed (p : Projective K) (q : Affine K) : Projective K := addMixed p q.neg

/-- `Sum::sum`, zkcrypto/src/curve/g1.rs:362-367 and zkcrypto/src/curve/g2.rs:350-355. -/
def sum (ps : List (Projective K)) : Projective K := ps.foldl add identity

/-- The loop of `mul_by_x`, zkcrypto/src/curve/g1.rs:1090-1097 and zkcrypto/src/curve/g2.rs:1088-1094, with
`n` a bound on the number of turns. The state is `(x, tmp, xself)`. -/
def mulByXLoop : (n : Nat) → Nat → Projective K → Projective K → Projective K
  | 0, _, _, xself => xself
  | n + 1, x, tmp, xself =>
    if x = 0 then xself
    else
      let tmp := double tmp
      let xself := if x % 2 = 1 then add xself tmp else xself
      mulByXLoop n (x / 2) tmp xself

/-- `mul_by_x`, zkcrypto/src/curve/g1.rs:1085-1103 and zkcrypto/src/curve/g2.rs:1083-1100; `BLS_X` is
`0xd201000000010000` and `BLS_X_IS_NEGATIVE` is true. A 64-bit word is zero after at most 64 halvings. -/
def mulByX (p : Projective K) : Projective K := neg (mulByXLoop 64 (0xd201000000010000 / 2) p identity)

end

/-- First pass of `batch_normalize`, zkcrypto/src/curve/g1.rs:1118-1126 and zkcrypto/src/curve/g2.rs:1123-1131:
the products of the `z` coordinates seen before each point, and the product of all of them. -/
def prefixes : List (Projective K) → K → List K × K
  | [], acc => ([], acc)
  | p :: ps, acc =>
    let (rest, last) := prefixes ps (if p.isIdentity then acc else acc * p.z)
    (acc :: rest, last)

/-- One turn of the second pass of `batch_normalize`, zkcrypto/src/curve/g1.rs:1133-1149 and
zkcrypto/src/curve/g2.rs:1137-1152; `qx` is the stored product. -/
def normalizeStep (p : Projective K) (qx acc : K) : Affine K × K :=
  let skip := p.isIdentity
  let tmp := qx * acc
  let acc := if skip then acc else acc * p.z
  (Affine.select ⟨p.x * tmp, p.y * tmp, false⟩ Affine.identity skip, acc)

/-- The second pass: from the last point to the first. -/
def normalizeBack : List (Projective K) → List K → K → List (Affine K) × K
  | p :: ps, q :: qs, acc =>
    let (rest, acc) := normalizeBack ps qs acc
    let (a, acc) := normalizeStep p q acc
    (a :: rest, acc)
  | _, _, acc => ([], acc)

/-- `batch_normalize`, zkcrypto/src/curve/g1.rs:1115-1151 and zkcrypto/src/curve/g2.rs:1120-1154, for a target
slice of `n` entries; the old entries are never read. -/
def batchNormalize (ps : List (Projective K)) (n : Nat) : Res (List (Affine K)) :=
  if ps.length ≠ n then .panic
  else
    let (qs, acc) := prefixes ps 1
    if acc = 0 then .panic else .ok (normalizeBack ps qs acc⁻¹).1

end Projective
end Kzg.Zk
