import Verif.Base.Res
import Verif.Model.Zk.Scalar
import Verif.Model.Zk.Limbs
import Mathlib.Algebra.Group.Defs
/-!
# Multi-scalar multiplication of zkcrypto

zkcrypto/src/curve/multiscalar_mul.rs. Points are elements of a type `G` with the three operations the code
calls: `G1Projective::identity()` is `0`, `add` is `+`, and `double` is the argument `dbl`.

With the feature `parallel` the windows are mapped by a parallel iterator that keeps the order of the
results. Each window reads only the inputs and its own buckets, so the list of window sums is the same;
the model is the sequential map.
-/

namespace Kzg.Zk.Msm
open Kzg

/-- `usize::leading_zeros` for 64-bit words. -/
def leadingZeros (x : Nat) : Nat := 64 - (if x = 0 then 0 else Nat.log2 x + 1)

/-- `log2`, zkcrypto/src/curve/multiscalar_mul.rs:278-285. -/
def log2 (x : Nat) : Nat := if x ≤ 1 then 0 else 8 * 8 - leadingZeros x

/-- `ln_without_floats`, zkcrypto/src/curve/multiscalar_mul.rs:274-277. -/
def lnWithoutFloats (a : Nat) : Nat := log2 a * 69 / 100

/-- The window width, zkcrypto/src/curve/multiscalar_mul.rs:193-197. -/
def windowBits (n : Nat) : Nat := if n < 32 then 3 else lnWithoutFloats n + 2

/-- `(0..num_bits).step_by(c)` with 255 bits, zkcrypto/src/curve/multiscalar_mul.rs:199-203. -/
def windowStarts (c : Nat) : List Nat := (List.range ((255 + c - 1) / c)).map (· * c)

section
variable {G : Type} [Zero G] [Add G]

/-- The loop over pairs of scalar and point in one window,
zkcrypto/src/curve/multiscalar_mul.rs:218-246. The state is `(res, buckets)`. -/
def fillBuckets (c wStart : Nat) : List (Scalar × G) → G × List G → Res (G × List G)
  | [], st => .ok st
  | (s, base) :: rest, (res, buckets) =>
    if Scalar.ctEq s Scalar.zero then fillBuckets c wStart rest (res, buckets)
    else if Scalar.ctEq s Scalar.one then
      if wStart = 0 then fillBuckets c wStart rest (res + base, buckets)
      else fillBuckets c wStart rest (res, buckets)
    else
      let scalar := Scalar.divn (Scalar.reduce s) wStart
      let d := scalar.l0 % 2 ^ c
      if d ≠ 0 then do
        let b ← rd buckets (d - 1)
        let buckets ← wr buckets (d - 1) (b + base)
        fillBuckets c wStart rest (res, buckets)
      else fillBuckets c wStart rest (res, buckets)

/-- One turn of the bucket summation, zkcrypto/src/curve/multiscalar_mul.rs:248-252. The state is
`(running_sum, res)`. -/
def sumStep (st : G × G) (b : G) : G × G := (st.1 + b, st.2 + (st.1 + b))

/-- One window, zkcrypto/src/curve/multiscalar_mul.rs:213-255. -/
def windowSum (c : Nat) (points : List G) (scalars : List Scalar) (wStart : Nat) : Res G := do
  let (res, buckets) ← fillBuckets c wStart (scalars.zip points) (0, List.replicate (2 ^ c - 1) 0)
  .ok (buckets.reverse.foldl sumStep (0, res)).2

/-- The map over the windows, zkcrypto/src/curve/multiscalar_mul.rs:205-256. -/
def windowSums (c : Nat) (points : List G) (scalars : List Scalar) : List Nat → Res (List G)
  | [] => .ok []
  | w :: ws => do
    let s ← windowSum c points scalars w
    let r ← windowSums c points scalars ws
    .ok (s :: r)

/-- `for _ in 0..c { total = total.double(); }`, zkcrypto/src/curve/multiscalar_mul.rs:266-268. -/
def doubles (dbl : G → G) : Nat → G → G
  | 0, t => t
  | n + 1, t => doubles dbl n (dbl t)

/-- `msm_variable_base`, zkcrypto/src/curve/multiscalar_mul.rs:189-272. -/
def msmVariableBase (dbl : G → G) (points : List G) (scalars : List Scalar) : Res G := do
  let c := windowBits scalars.length
  let sums ← windowSums c points scalars (windowStarts c)
  let lowest ← rd sums 0
  let rest ← sliceFrom sums 1
  .ok (rest.reverse.foldl (fun total s => doubles dbl c (total + s)) 0 + lowest)

end

/-! ## The variant with signed digits

Compiled only with the feature `std`. -/

/-- `to_radix_2w_size_hint`, zkcrypto/src/curve/multiscalar_mul.rs:112-126. The digit widths are 6, 7 and
8; any other width panics. -/
def radixSizeHint (w : Nat) : Res Nat :=
  if w = 6 then .ok ((256 + w - 1) / w)
  else if w = 7 then .ok ((256 + w - 1) / w)
  else if w = 8 then .ok ((256 + w - 1) / w + 1)
  else .panic

/-- The bits from `i * w` on, zkcrypto/src/curve/multiscalar_mul.rs:146-161. -/
def bitBuf (words : List Nat) (w i : Nat) : Res Nat :=
  let bitOffset := i * w
  let u := bitOffset / 64
  let b := bitOffset % 64
  if b < 64 - w ∨ u = 3 then do
    let x ← rd words u
    .ok (shr x b)
  else do
    let x ← rd words u
    let y ← rd words (1 + u)
    .ok (shr x b ||| shl y (64 - b))

/-- Cast to `i8`: wraps. -/
def asI8 (x : Int) : Int := Int.bmod x 256

/-- `+` on `i8`: an overflow panics (overflow checks on). -/
def addI8 (x y : Int) : Res Int := if -128 ≤ x + y ∧ x + y ≤ 127 then .ok (x + y) else .panic

/-- One digit, zkcrypto/src/curve/multiscalar_mul.rs:145-169. The state is `(carry, digits)`. -/
def radixStep (words : List Nat) (w i : Nat) (st : Nat × List Int) : Res (Nat × List Int) := do
  let buf ← bitBuf words w i
  let coef := st.1 + (buf &&& (2 ^ w - 1))
  let carry := shr (coef + 2 ^ w / 2) w
  let digits ← wr st.2 i (asI8 ((coef : Int) - (carry * 2 ^ w : Nat)))
  .ok (carry, digits)

/-- `to_radix_2w`, zkcrypto/src/curve/multiscalar_mul.rs:129-185. -/
def toRadix2w (s : Scalar) (w : Nat) : Res (List Int) := do
  let bytes := Scalar.toBytes s
  let words := [fromLe (bytes.take 8), fromLe ((bytes.drop 8).take 8), fromLe ((bytes.drop 16).take 8),
    fromLe ((bytes.drop 24).take 8)]
  let n := (256 + w - 1) / w
  let (carry, digits) ← forRange 0 n (0, List.replicate 43 0) (radixStep words w)
  if w = 8 then do
    let d ← rd digits n
    let d ← addI8 d (asI8 carry)
    wr digits n d
  else do
    let d ← rd digits (n - 1)
    let d ← addI8 d (asI8 ((carry * 2 ^ w : Nat) : Int))
    wr digits (n - 1) d

section
variable {G : Type} [AddCommGroup G]

/-- The loop over pairs of digits and point for one digit position,
zkcrypto/src/curve/multiscalar_mul.rs:58-68. -/
def fillSigned (digitIndex : Nat) : List (List Int × G) → List G → Res (List G)
  | [], buckets => .ok buckets
  | (digits, pt) :: rest, buckets => do
    let digit ← rd digits digitIndex
    if digit > 0 then do
      let b := (digit - 1).toNat
      let x ← rd buckets b
      let buckets ← wr buckets b (x + pt)
      fillSigned digitIndex rest buckets
    else if digit < 0 then do
      let b := (-digit - 1).toNat
      let x ← rd buckets b
      let buckets ← wr buckets b (x - pt)
      fillSigned digitIndex rest buckets
    else fillSigned digitIndex rest buckets

/-- One digit position, zkcrypto/src/curve/multiscalar_mul.rs:48-86. The buckets are cleared first. -/
def column (bucketsCount : Nat) (pairs : List (List Int × G)) (digitIndex : Nat) : Res G := do
  let buckets ← fillSigned digitIndex pairs (List.replicate bucketsCount 0)
  let k ← subU bucketsCount 1
  let hi ← rd buckets k
  let low ← sliceTo buckets k
  .ok (low.reverse.foldl sumStep (hi, hi)).2

/-- `mul_by_pow_2`, zkcrypto/src/curve/multiscalar_mul.rs:97-108, for `k > 0`. -/
def mulByPow2 (point : G) (k : Nat) : G :=
  let s := doubles (fun t => t + t) (k - 1) point
  s + s

/-- The fold over the remaining columns, from high to low,
zkcrypto/src/curve/multiscalar_mul.rs:92. -/
def foldColumns (bucketsCount w : Nat) (pairs : List (List Int × G)) : List Nat → G → Res G
  | [], total => .ok total
  | i :: rest, total => do
    let p ← column bucketsCount pairs i
    foldColumns bucketsCount w pairs rest (mulByPow2 total w + p)

/-- `scalars.map(|s| to_radix_2w(&s, w))`, zkcrypto/src/curve/multiscalar_mul.rs:39. -/
def radixAll (w : Nat) : List Scalar → Res (List (List Int))
  | [] => .ok []
  | s :: rest => do
    let d ← toRadix2w s w
    let r ← radixAll w rest
    .ok (d :: r)

/-- The digit width, zkcrypto/src/curve/multiscalar_mul.rs:25-31. -/
def digitWidth (size : Nat) : Nat := if size < 500 then 6 else if size < 800 then 7 else 8

/-- `pippenger`, zkcrypto/src/curve/multiscalar_mul.rs:15-93, for iterators that know their length. The
source computes the digits while zipping, so digits of surplus scalars are not computed; the model
computes them and drops them. -/
def pippenger (points : List G) (scalars : List Scalar) : Res G := do
  let w := digitWidth scalars.length
  let n ← radixSizeHint w
  let digits ← radixAll w scalars
  let pairs := digits.zip points
  match (List.range n).reverse with
  | [] => .panic
  | hi :: rest => do
    let total ← column (2 ^ w / 2) pairs hi
    foldColumns (2 ^ w / 2) w pairs rest total

end
end Kzg.Zk.Msm
