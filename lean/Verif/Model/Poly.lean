import Verif.Model.FFT
/-!
# Polynomials (blst-from-scratch/src/types/poly.rs)

`FsPoly` is its coefficient list, lowest degree first. `FsFr` operations are the field operations;
`eucl_inverse` is the field inverse with `0⁻¹ = 0`; `a.div(&b)` is `a * b⁻¹` and always `Ok`
(blst-from-scratch/src/types/fr.rs:169-174).
-/

namespace Kzg

section Basic
variable {F : Type} [Field F] [DecidableEq F]

/-- The Horner loop of `eval`, blst-from-scratch/src/types/poly.rs:51-59. -/
def evalLoop (coeffs : List F) (x : F) : (i : Nat) → (ret : F) → Res F
  | 0, ret => do
    let c ← rd coeffs 0
    .ok (ret * x + c)
  | i + 1, ret => do
    let c ← rd coeffs (i + 1)
    evalLoop coeffs x i (ret * x + c)

/-- `Poly::eval`, blst-from-scratch/src/types/poly.rs:42-62. `len - 2` is a checked subtraction. -/
def polyEval (coeffs : List F) (x : F) : Res F :=
  if coeffs.isEmpty then .ok 0
  else if x = 0 then rd coeffs 0
  else do
    let l1 ← subU coeffs.length 1
    let ret ← rd coeffs l1
    let i ← subU coeffs.length 2
    evalLoop coeffs x i ret

/-- The common loop of `scale` and `unscale`, blst-from-scratch/src/types/poly.rs:68-72 and 78-82.
State: the running power and the coefficients. -/
def polyScaleBy (factor : F) (coeffs : List F) : Res (List F) := do
  let s ← forRange 0 coeffs.length ((1 : F), coeffs) fun i s => do
    let factorPower := s.1 * factor
    let c ← rd s.2 i
    let v ← wr s.2 i (c * factorPower)
    .ok (factorPower, v)
  .ok s.2

/-- `Poly::scale`, blst-from-scratch/src/types/poly.rs:64-73; `SCALE_FACTOR = 5`
(blst-from-scratch/src/consts.rs:12). -/
def polyScale (coeffs : List F) : Res (List F) := polyScaleBy ((5 : F)⁻¹) coeffs

/-- `Poly::unscale`, blst-from-scratch/src/types/poly.rs:75-83. -/
def polyUnscale (coeffs : List F) : Res (List F) := polyScaleBy (5 : F) coeffs

/-- The inner `while` loop of `mul_direct`, blst-from-scratch/src/types/poly.rs:249-255. -/
def mulDirectInner (a b : List F) (bDegree outLen i j : Nat) (ret : List F) : Res (List F) :=
  if j ≤ bDegree ∧ i + j < outLen then do
    let x ← rd a i
    let y ← rd b j
    let r ← rd ret (i + j)
    let ret ← wr ret (i + j) (r + x * y)
    mulDirectInner a b bDegree outLen i (j + 1) ret
  else .ok ret
termination_by bDegree + 1 - j

/-- `Poly::mul_direct`, blst-from-scratch/src/types/poly.rs:234-259. -/
def mulDirect (a b : List F) (outLen : Nat) : Res (List F) :=
  if a.length = 0 ∨ b.length = 0 then .ok []
  else do
    let aDegree ← subU a.length 1
    let bDegree ← subU b.length 1
    forRange 0 (aDegree + 1) (List.replicate outLen (0 : F)) fun i ret =>
      mulDirectInner a b bDegree outLen i 0 ret

/-- `FsPoly::pad`, blst-from-scratch/src/types/poly.rs:294-304. -/
def polyPad (a : List F) (outLength : Nat) : Res (List F) :=
  forRange 0 (minU64 a.length outLength) (List.replicate outLength (0 : F)) fun i ret => do
    let x ← rd a i
    wr ret i x

/-- `FsPoly::flip`, blst-from-scratch/src/types/poly.rs:306-315. The subtractions are checked. -/
def polyFlip (a : List F) : Res (List F) :=
  forRange 0 a.length (List.replicate a.length (0 : F)) fun i ret => do
    let k ← subU a.length i
    let k ← subU k 1
    let x ← rd a k
    wr ret i x

/-- `FsPoly::poly_quotient_length`, blst-from-scratch/src/types/poly.rs:286-292. -/
def polyQuotientLength (a b : List F) : Nat :=
  if a.length ≥ b.length then a.length - b.length + 1 else 0

/-- The loop of `_poly_norm`, blst-from-scratch/src/types/poly.rs:272-275 (the read is within bounds
because `tempLen` never exceeds the length). -/
def polyNormLen (a : List F) : Nat → Nat
  | 0 => 0
  | n + 1 => if a.getD n 0 = 0 then polyNormLen a n else n + 1

/-- `FsPoly::_poly_norm`, blst-from-scratch/src/types/poly.rs:269-284. -/
def polyNorm (a : List F) : List F :=
  let n := polyNormLen a a.length
  if n = 0 then [] else a.take n

/-- The `while diff > 0` loop of `long_div`, blst-from-scratch/src/types/poly.rs:180-191.
Returns the final `a_pos`, `a` and `out`. -/
def longDivLoop (divisor : List F) (bPos : Nat) :
    (diff aPos : Nat) → (a out : List F) → Res (Nat × List F × List F)
  | 0, aPos, a, out => .ok (aPos, a, out)
  | diff + 1, aPos, a, out => do
    let x ← rd a aPos
    let y ← rd divisor bPos
    let q := x * y⁻¹
    let out ← wr out (diff + 1) q
    let a ← forRange 0 (bPos + 1) a fun i a => do
      let o ← rd out (diff + 1)
      let d ← rd divisor i
      let c ← rd a (diff + 1 + i)
      wr a (diff + 1 + i) (c - o * d)
    let aPos ← subU aPos 1
    longDivLoop divisor bPos diff aPos a out

/-- `Poly::long_div`, blst-from-scratch/src/types/poly.rs:159-196. -/
def longDiv (self divisor : List F) : Res (List F) :=
  if divisor.isEmpty then .err "Can't divide by zero"
  else do
    let l ← subU divisor.length 1
    let lead ← rd divisor l
    if lead = 0 then .err "Highest coefficient must be non-zero"
    else
      let outLength := polyQuotientLength self divisor
      let out := List.replicate outLength (0 : F)
      if outLength = 0 then .ok out
      else do
        let aPos ← subU self.length 1
        let bPos ← subU divisor.length 1
        let diff ← subU aPos bPos
        let (aPos, a, out) ← longDivLoop divisor bPos diff aPos self out
        let x ← rd a aPos
        let y ← rd divisor bPos
        wr out 0 (x * y⁻¹)

end Basic

section FFTBased
variable {F : Type} [Field F] [DecidableEq F] [FrTable F]

/-- Element-wise product loop `ab_fft[i] = a_fft[i].mul(&b_fft[i])`,
blst-from-scratch/src/types/poly.rs:356-359. -/
def mulPointwise (aFft bFft : List F) (length : Nat) : Res (List F) :=
  forRange 0 length (List.replicate length (0 : F)) fun i ab => do
    let x ← rd aFft i
    let y ← rd bFft i
    wr ab i (x * y)

/-- `FsPoly::mul_fft`, blst-from-scratch/src/types/poly.rs:317-372, sequential variant
(the parallel variant computes the same two transforms with `rayon::join`).
`ret[..k].clone_from_slice(&ab[..k])` replaces the first `k` entries. -/
def mulFft (a b : List F) (outLen : Nat) : Res (List F) := do
  let s ← subU (a.length + b.length) 1
  let length ← nextPowerOfTwo s
  let scale := log2Pow2 length
  let fs ← (FFTSettings.new (F := F) scale).unwrap
  let aPad ← polyPad a length
  let bPad ← polyPad b length
  let aFft ← (fs.fftFr aPad false).unwrap
  let bFft ← (fs.fftFr bPad false).unwrap
  let abFft ← mulPointwise aFft bFft length
  let ab ← (fs.fftFr abFft true).unwrap
  let ret := List.replicate outLen (0 : F)
  let k := minU64 outLen length
  let src ← sliceTo ab k
  let _ ← sliceTo ret k
  .ok (src ++ ret.drop k)

/-- `FsPoly::mul`, blst-from-scratch/src/types/poly.rs:374-381. -/
def polyMul (a b : List F) (outLen : Nat) : Res (List F) :=
  if a.length < 64 ∨ b.length < 64 ∨ outLen < 128 then mulDirect a b outLen
  else mulFft a b outLen

/-- `FFTSettingsPoly::poly_mul_fft`, blst-from-scratch/src/types/poly.rs:262-266: the arguments are
swapped and the settings argument is ignored. -/
def polyMulFft (a b : List F) (len : Nat) (_fs : Option (FFTSettings F)) : Res (List F) :=
  mulFft b a len

/-- The `while mask != 0` loop of `inverse`, blst-from-scratch/src/types/poly.rs:120-142.
Returns the final `d` and `ret`. -/
def invLoop (self : List F) (outputLen maxd mask d : Nat) (ret : List F) : Res (Nat × List F) :=
  if _h : mask = 0 then .ok (d, ret)
  else do
    let d := 2 * d + (if (maxd &&& mask) ≠ 0 then 1 else 0)
    let s ← subU (self.length + outputLen) 1
    let lenTemp := minU64 (d + 1) s
    let tmp0 ← (polyMul self ret lenTemp).unwrap
    let tmp0 ← forRange 0 tmp0.length tmp0 fun i t => do
      let x ← rd t i
      wr t i (-x)
    let x ← rd tmp0 0
    let tmp0 ← wr tmp0 0 (x + 2)
    let tmp1 ← (polyMul ret tmp0 (d + 1)).unwrap
    let ret ← forRange 0 tmp1.length ret fun i r => do
      let x ← rd tmp1 i
      wr r i x
    invLoop self outputLen maxd (mask >>> 1) d ret
termination_by mask
decreasing_by
  simp only [Nat.shiftRight_eq_div_pow, Nat.pow_one]; omega

/-- `Poly::inverse`, blst-from-scratch/src/types/poly.rs:86-149. -/
def polyInverse (self : List F) (outputLen : Nat) : Res (List F) :=
  if outputLen = 0 then .err "Can't produce a zero-length result"
  else if self.isEmpty then .err "Can't inverse a zero-length poly"
  else do
    let c0 ← rd self 0
    if c0 = 0 then .err "First coefficient of polynomial mustn't be zero"
    else do
      let ret := List.replicate outputLen (0 : F)
      let ret ← wr ret 0 c0⁻¹
      if self.length = 1 then .ok ret
      else do
        let maxd ← subU outputLen 1
        let (d, ret) ← invLoop self outputLen maxd (1 <<< log2U64 maxd) 0 ret
        if d + 1 ≠ outputLen then .err "D + 1 must be equal to output_len"
        else .ok ret

/-- `Poly::fast_div`, blst-from-scratch/src/types/poly.rs:198-232. -/
def fastDiv (self divisor : List F) : Res (List F) :=
  if divisor.isEmpty then .err "Cant divide by zero"
  else do
    let l ← subU divisor.length 1
    let lead ← rd divisor l
    if lead = 0 then .err "Highest coefficient must be non-zero"
    else do
      let m ← subU self.length 1
      let n ← subU divisor.length 1
      if n > m then .ok []
      else if divisor.length = 1 then
        forRange 0 self.length (List.replicate self.length (0 : F)) fun i out => do
          let x ← rd self i
          let y ← rd divisor 0
          wr out i (x * y⁻¹)
      else do
        let aFlip ← (polyFlip self).unwrap
        let bFlip ← (polyFlip divisor).unwrap
        let mn ← subU m n
        let invBFlip ← (polyInverse bFlip (mn + 1)).unwrap
        let qFlip ← (polyMul aFlip invBFlip (mn + 1)).unwrap
        (polyFlip qFlip).unwrap

/-- `Poly::div`, blst-from-scratch/src/types/poly.rs:151-157. -/
def polyDiv (self divisor : List F) : Res (List F) :=
  if divisor.length ≥ self.length ∨ divisor.length < 128 then longDiv self divisor
  else fastDiv self divisor

end FFTBased
end Kzg
