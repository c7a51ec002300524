import Verif.Model.Poly
import Verif.Model.ZeroPoly
/-!
# Polynomials of zkcrypto (zkcrypto/src/poly.rs)

`ZPoly` (`KzgPoly`) is its coefficient list, lowest degree first. The coefficients range over a field `F`
with the root table of zkcrypto; the word representation of scalar.rs is such a field
(`Verif.Proofs.Zk.ScalarWords`).

The following functions have the text of their counterparts in blst-from-scratch, and share the model:

* `eval` (zkcrypto/src/poly.rs:125-147): `polyEval`; `scale`, `unscale` (149-168): `polyScale`, `polyUnscale`
  (`scale_factor.inverse()` inverts the constant 5, so its `unwrap` never panics);
* `poly_mul_direct` (498-520): `mulDirect`; `poly_norm` (357-370): `polyNorm`;
  `poly_quotient_length` (372-379): `polyQuotientLength`;
* the settings and transforms: `expand_root_of_unity` (zkcrypto/src/consts.rs:46-58): `expandRoot`;
  `ZkFFTSettings::new` (zkcrypto/src/fftsettings.rs:185-207): `FFTSettings.new`;
  `fft_fr_fast`, `fft_fr_slow`, `fft_fr` (zkcrypto/src/fft_fr.rs, zkcrypto/src/fftsettings.rs:121-153): `fftFast`,
  `fftSlow`, `FFTSettings.fft`; the error texts differ and are not modelled separately (for the group versions
  see `Verif.Model.Zk.G1Fft`);
* `is_power_of_two`, `next_power_of_two`, `log2_pow2`, `log2_u64`, `min_u64` (zkcrypto/src/utils.rs:109-160).

What differs is below. Unsigned subtractions are checked (a build with overflow checks).
-/

namespace Kzg.ZkP
open Kzg

section Basic
variable {F : Type} [Field F] [DecidableEq F]

/-- `eucl_inverse` and `inverse`, zkcrypto/src/zkfr.rs:110-114 and 146-149: `invert().unwrap()` panics on
zero. -/
def frInv (a : F) : Res F := if a = 0 then .panic else .ok a⁻¹

/-- `fr_div`, zkcrypto/src/zkfr.rs:171-178 (and `div`, 155-162): dividing by zero gives zero. -/
def frDiv (a b : F) : Res F :=
  if b = 0 then .ok 0
  else do
    let t ← frInv b
    .ok (a * t)

/-- `is_zero`, zkcrypto/src/poly.rs:24-27. -/
def isZero (p : List F) : Bool := p.isEmpty || p.all (fun c => decide (c = 0))

/-- The loop of `truncate_leading_zeros`, zkcrypto/src/poly.rs:60-68, on the reversed coefficients. -/
def dropZeros : List F → List F
  | [] => []
  | c :: cs => if c = 0 then dropZeros cs else c :: cs

/-- `from_coefficients_vec`, zkcrypto/src/poly.rs:33-46, with its assertion. -/
def fromCoefficientsVec (coeffs : List F) : Res (List F) :=
  let result := (dropZeros coeffs.reverse).reverse
  if result.getLast?.elim true (fun c => decide (c ≠ 0)) then .ok result else .panic

/-- `degree`, zkcrypto/src/poly.rs:49-58, with its assertion. -/
def degree (p : List F) : Res Nat :=
  if isZero p then .ok 0
  else if p.getLast?.elim false (fun c => decide (c ≠ 0)) then subU p.length 1
  else .panic

/-- The loop of `ruffini`, zkcrypto/src/poly.rs:80-84, over the reversed coefficients. The state is
`(quotient, k)`. -/
def ruffiniLoop (z : F) : List F → List F × F → List F × F
  | [], st => st
  | c :: cs, (quotient, k) => ruffiniLoop z cs (quotient ++ [c + k], z * (c + k))

/-- `ruffini`, zkcrypto/src/poly.rs:71-93. `Vec::with_capacity(self.degree())` is kept for the assertion
inside `degree`. -/
def ruffini (p : List F) (z : F) : Res (List F) := do
  let _ ← degree p
  let (quotient, _) := ruffiniLoop z p.reverse ([], 0)
  fromCoefficientsVec quotient.dropLast.reverse

/-- `poly_flip`, zkcrypto/src/poly.rs:325-333. -/
def polyFlip (a : List F) : Res (List F) :=
  forRange 0 a.length (List.replicate a.length (0 : F)) fun i ret => do
    let k ← subU a.length i
    let k ← subU k 1
    let x ← rd a i
    wr ret k x

/-- `pad`, zkcrypto/src/poly.rs:381-399: `out[..k].clone_from_slice(&input[..k])` with `k` the smaller
length. -/
def pad (a : List F) (length : Nat) : Res (List F) := do
  let out := List.replicate length (0 : F)
  let k := minU64 a.length length
  let _ ← sliceTo out k
  let src ← sliceTo a k
  .ok (src ++ out.drop k)

/-- `pad_`, zkcrypto/src/poly.rs:401-409. -/
def padLoop (a : List F) (length : Nat) : Res (List F) :=
  forRange 0 (minU64 a.length length) (List.replicate length (0 : F)) fun i out => do
    let x ← rd a i
    wr out i x

/-- `pad_poly`, zkcrypto/src/poly.rs:410-426. -/
def padPoly (a : List F) (length : Nat) : Res (List F) :=
  if length < a.length then .err "new length must be longer or equal to poly length"
  else pad a length

/-- The `while diff > 0` loop of `poly_long_div`, zkcrypto/src/poly.rs:269-283. The argument is `diff`.
Returns the final `a_pos`, `a` and `out`. -/
def longDivLoop (divisor : List F) (bPos : Nat) :
    (diff aPos : Nat) → (a out : List F) → Res (Nat × List F × List F)
  | 0, aPos, a, out => .ok (aPos, a, out)
  | diff + 1, aPos, a, out => do
    let x ← rd a aPos
    let y ← rd divisor bPos
    let q ← frDiv x y
    let out ← wr out (diff + 1) q
    let a ← forRange 0 (bPos + 1) a fun i a => do
      let o ← rd out (diff + 1)
      let d ← rd divisor i
      let c ← rd a (diff + 1 + i)
      wr a (diff + 1 + i) (c - o * d)
    let aPos ← subU aPos 1
    longDivLoop divisor bPos diff aPos a out

/-- `poly_long_div`, zkcrypto/src/poly.rs:240-288. `diff` is a signed number; it is not negative once the
quotient length is positive. -/
def longDiv (dividend divisor : List F) : Res (List F) :=
  if divisor.isEmpty then .err "Can't divide by zero"
  else do
    let aPos ← subU dividend.length 1
    let bPos ← subU divisor.length 1
    let diff : Int := (aPos : Int) - (bPos : Int)
    let outLength := polyQuotientLength dividend divisor
    let out := List.replicate outLength (0 : F)
    if outLength = 0 then .ok out
    else do
      let (aPos, a, out) ← longDivLoop divisor bPos diff.toNat aPos dividend out
      let x ← rd a aPos
      let y ← rd divisor bPos
      let q ← frDiv x y
      wr out 0 q

end Basic

section FFTBased
variable {F : Type} [Field F] [DecidableEq F] [FrTable F]

/-- The element-wise product of `poly_mul_fft` with its assertion, zkcrypto/src/poly.rs:479-482. -/
def mulPointwise (aFft bFft : List F) (length : Nat) : Res (List F) :=
  forRange 0 length (List.replicate length (0 : F)) fun i ab => do
    let x ← rd aFft i
    let y ← rd bFft i
    let ab ← wr ab i (x * y)
    if x * y = y * x then .ok ab else .panic

/-- `poly_mul_fft`, zkcrypto/src/poly.rs:428-496, sequential variant (the parallel variant computes the two
transforms with `rayon::join`). -/
def mulFft (out : Nat) (a b : List F) : Res (List F) := do
  let s ← subU (a.length + b.length) 1
  let length ← nextPowerOfTwo s
  let ftSize := log2Pow2 length
  let fs ← (FFTSettings.new (F := F) ftSize).unwrap
  let aPad ← pad a length
  let bPad ← pad b length
  let aFft ← (fs.fftFr aPad false).unwrap
  let bFft ← (fs.fftFr bPad false).unwrap
  let abFft ← mulPointwise aFft bFft length
  let ab ← (fs.fftFr abFft true).unwrap
  let output := List.replicate out (0 : F)
  let dataLen := minU64 out length
  let _ ← sliceTo output dataLen
  let src ← sliceTo ab dataLen
  .ok (src ++ output.drop dataLen)

/-- `FFTSettingsPoly::poly_mul_fft`, zkcrypto/src/fftsettings.rs:113-115: the settings are ignored. -/
def polyMulFft (a b : List F) (len : Nat) (_fs : Option (FFTSettings F)) : Res (List F) := mulFft len a b

/-- `poly_mul`, zkcrypto/src/poly.rs:522-529. -/
def polyMul (a b : List F) (outputLen : Nat) : Res (List F) :=
  if a.length < 64 ∨ b.length < 64 ∨ outputLen < 128 then mulDirect a b outputLen
  else mulFft outputLen a b

/-- The `while mask != 0` loop of `inverse`, zkcrypto/src/poly.rs:190-211. Returns the final `d` and
`ret`. -/
def invLoop (self : List F) (newLen maxd mask d : Nat) (ret : List F) : Res (Nat × List F) :=
  if _h : mask = 0 then .ok (d, ret)
  else do
    let d := 2 * d + (if (maxd &&& mask) ≠ 0 then 1 else 0)
    let s ← subU (self.length + newLen) 1
    let lenTemp := minU64 (d + 1) s
    let tmp0 ← (polyMul self ret lenTemp).unwrap
    let tmp0 ← forRange 0 tmp0.length tmp0 fun i t => do
      let x ← rd t i
      wr t i (-x)
    let x ← rd tmp0 0
    let tmp0 ← wr tmp0 0 (x + 2)
    let tmp1 ← (polyMul ret tmp0 (d + 1)).unwrap
    let ret ← forRange 0 tmp1.length ret fun i r => do
      let x ← rd tmp1 i
      wr r i x
    invLoop self newLen maxd (mask >>> 1) d ret
termination_by mask
decreasing_by
  simp only [Nat.shiftRight_eq_div_pow, Nat.pow_one]; omega

/-- `inverse`, zkcrypto/src/poly.rs:170-219. -/
def polyInverse (self : List F) (newLen : Nat) : Res (List F) :=
  if self.isEmpty then .err "Can't inverse a zero-length poly"
  else do
    let c0 ← rd self 0
    if c0 = 0 then .err "First coefficient of polynomial mustn't be zero"
    else do
      let ret := List.replicate newLen (0 : F)
      if self.length = 1 then do
        let i0 ← frInv c0
        wr ret 0 i0
      else do
        let maxd ← subU newLen 1
        let i0 ← frInv c0
        let ret ← wr ret 0 i0
        let (d, ret) ← invLoop self newLen maxd (1 <<< log2U64 maxd) 0 ret
        if d + 1 ≠ newLen then .err "d+1 is bad"
        else .ok ret

/-- `poly_fast_div`, zkcrypto/src/poly.rs:290-323. -/
def fastDiv (dividend divisor : List F) : Res (List F) :=
  if divisor.isEmpty then .err "Cant divide by zero"
  else do
    let m ← subU dividend.length 1
    let n ← subU divisor.length 1
    if n > m then .ok []
    else if divisor.length = 1 then
      forRange 0 dividend.length (List.replicate dividend.length (0 : F)) fun i out => do
        let x ← rd dividend i
        let y ← rd divisor 0
        let q ← frDiv x y
        wr out i q
    else do
      let aFlip ← (polyFlip dividend).unwrap
      let bFlip ← (polyFlip divisor).unwrap
      let mn ← subU m n
      let invBFlip ← (polyInverse bFlip (mn + 1)).unwrap
      let qFlip ← (polyMul aFlip invBFlip (mn + 1)).unwrap
      (polyFlip qFlip).unwrap

/-- `new_poly_div` (`div`), zkcrypto/src/poly.rs:335-355 and 221-225. -/
def polyDiv (dividend divisor : List F) : Res (List F) :=
  let dividend := polyNorm dividend
  let divisor := polyNorm divisor
  if divisor.length ≥ dividend.length ∨ divisor.length < 128 then longDiv dividend divisor
  else fastDiv dividend divisor

end FFTBased
end Kzg.ZkP
