import Verif.Model.Mcl.FFT
/-!
# Polynomials of mcl-kzg (mcl-kzg/kzg/src/kzg10.rs)

A `Polynomial` is its coefficient list, lowest degree first. Divisions of field elements go to the library
(`frDiv`, `frInv`).
-/

namespace Kzg.Mcl
open Kzg

section
variable {F : Type} [Field F] [DecidableEq F]

/-- `Polynomial::eval_at` (mcl-kzg/kzg/src/kzg10.rs:236-242) is `mclBn_FrEvaluatePolynomial` of the library: the
value of the polynomial (trusted base). -/
def evalAt (coeffs : List F) (x : F) : F := coeffs.foldr (fun c acc => c + x * acc) 0

/-- `Polynomial::poly_quotient_length`, mcl-kzg/kzg/src/kzg10.rs:260-266. -/
def polyQuotientLength (a b : List F) : Nat :=
  if a.length ≥ b.length then a.length - b.length + 1 else 0

/-- `pad_coeffs`, mcl-kzg/kzg/src/kzg10.rs:416-426. -/
def padCoeffs (coeffs : List F) (nIn nOut : Nat) : List F :=
  let num := min nIn nOut
  coeffs.take num ++ List.replicate (nOut - num) 0

/-- `pad_coeffs_mut`, mcl-kzg/kzg/src/kzg10.rs:428-434. -/
def padCoeffsMut (coeffs : List F) (nIn nOut : Nat) : Res (List F) := do
  let num := min nIn nOut
  let c ← sliceTo coeffs num
  .ok (c ++ List.replicate (nOut - num) 0)

/-- The loop of `normalise_coeffs`, mcl-kzg/kzg/src/kzg10.rs:339-341; the read is within bounds because the
length only falls. -/
def normaliseLen (a : List F) : Nat → Nat
  | 0 => 0
  | n + 1 => if a.getD n 0 = 0 then normaliseLen a n else n + 1

/-- `normalise_coeffs`, mcl-kzg/kzg/src/kzg10.rs:337-343. -/
def normalise (a : List F) : List F := a.take (normaliseLen a a.length)

/-- `flip_coeffs`, mcl-kzg/kzg/src/kzg10.rs:349-355: pushes the coefficients from the last to the first. -/
def flip (a : List F) : List F := a.reverse

/-- The inner `while` loop of `mul_direct`, mcl-kzg/kzg/src/kzg10.rs:525-529. -/
def mulDirectInner (a b : List F) (len i j : Nat) (coeffs : List F) : Res (List F) :=
  if j < b.length ∧ i + j < len then do
    let x ← rd a i
    let y ← rd b j
    let c ← rd coeffs (i + j)
    let coeffs ← wr coeffs (i + j) (c + x * y)
    mulDirectInner a b len i (j + 1) coeffs
  else .ok coeffs
termination_by b.length - j

/-- `mul_direct`, mcl-kzg/kzg/src/kzg10.rs:517-532. -/
def mulDirect (a b : List F) (len : Nat) : Res (List F) :=
  forRange 0 a.length (List.replicate len (0 : F)) fun i coeffs => mulDirectInner a b len i 0 coeffs

variable [Lib F]

/-- The `while diff > 0` loop of `long_division`, mcl-kzg/kzg/src/kzg10.rs:289-300. Returns the final `a_pos`, `a`
and `out_coeffs`. -/
def longDivLoop (divisor : List F) (bPos : Nat) :
    (diff aPos : Nat) → (a out : List F) → Res (Nat × List F × List F)
  | 0, aPos, a, out => .ok (aPos, a, out)
  | diff + 1, aPos, a, out => do
    let x ← rd a aPos
    let y ← rd divisor bPos
    let q ← frDiv x y
    let out ← wr out (diff + 1) q
    let a ← forRange 0 bPos a fun i a => do
      let o ← rd out (diff + 1)
      let d ← rd divisor i
      let c ← rd a (diff + 1 + i)
      wr a (diff + 1 + i) (c - o * d)
    let aPos ← subU aPos 1
    longDivLoop divisor bPos diff aPos a out

/-- `long_division`, mcl-kzg/kzg/src/kzg10.rs:268-303. -/
def longDivision (self divisor : List F) : Res (List F) :=
  match divisor.getLast? with
  | none => .err "Dividing by zero is undefined"
  | some lead =>
    if lead = 0 then .err "The divisor's highest coefficient must be non-zero"
    else
      let outLength := polyQuotientLength self divisor
      if outLength = 0 then .ok []
      else do
        let aPos ← subU self.length 1
        let bPos ← subU divisor.length 1
        let diff ← subU aPos bPos
        let (aPos, a, out) ← longDivLoop divisor bPos diff aPos self (List.replicate outLength (0 : F))
        let x ← rd a aPos
        let y ← rd divisor bPos
        let q ← frDiv x y
        wr out 0 q

variable [Tables F]

/-- `mul_fft`, mcl-kzg/kzg/src/kzg10.rs:443-515, sequential variant. The temporary settings are made in any case;
what the constructor does to the statics has no effect on later calls (C95) and is left out. `set_len` is called
with at most the length of the vector. -/
def mulFft (a b : List F) (ft : Option (FFTSettings F)) (len : Nat) : Res (List F) := do
  let aLen := min a.length len
  let bLen := min b.length len
  let s ← subU (aLen + bLen) 1
  let length ← nextPowOf2 s
  let tempFft ← FFTSettings.new5 (F := F) (log2 length)
  let ft := ft.getD tempFft
  if length > ft.maxWidth then .err "Mul fft only good up to length < 32 bits"
  else do
    let aPad := padCoeffs a aLen length
    let bPad := padCoeffs b bLen length
    let aFft ← (fft ft aPad false).unwrap
    let bFft ← (fft ft bPad false).unwrap
    let abFft ← forRange 0 length aFft fun i ab => do
      let x ← rd ab i
      let y ← rd bFft i
      wr ab i (x * y)
    let ab ← (fft ft abFft true).unwrap
    if len > length then .ok (ab ++ List.replicate (len - length) 0)
    else .ok (ab.take len)

/-- `mul_`, mcl-kzg/kzg/src/kzg10.rs:396-408; `mul` (410-412) is this without settings. -/
def polyMul (a b : List F) (ft : Option (FFTSettings F)) (len : Nat) : Res (List F) :=
  if a.length < 64 ∨ b.length < 64 ∨ len < 128 then mulDirect a b len
  else mulFft a b ft len

/-- The `while mask != 0` loop of `inverse`, mcl-kzg/kzg/src/kzg10.rs:567-592. Returns the final `d` and `out`. -/
def invLoop (self : List F) (fs : FFTSettings F) (maxd mask d : Nat) (out : List F) : Res (Nat × List F) :=
  if _h : mask = 0 then .ok (d, out)
  else do
    let d := 2 * d + (if (maxd &&& mask) ≠ 0 then 1 else 0)
    let s ← subU (self.length + out.length) 1
    let temp0Len := min (d + 1) s
    let t0 ← (polyMul self out (some fs) temp0Len).unwrap
    let t0 ← forRange 0 temp0Len t0 fun i t => do
      let x ← rd t i
      wr t i (-x)
    let x ← rd t0 0
    let t0 ← wr t0 0 (x + 2)
    let t1 ← (polyMul out t0 (some fs) (d + 1)).unwrap
    invLoop self fs maxd (mask >>> 1) d t1
termination_by mask
decreasing_by
  simp only [Nat.shiftRight_eq_div_pow, Nat.pow_one]; omega

/-- `Polynomial::inverse`, mcl-kzg/kzg/src/kzg10.rs:534-599. -/
def polyInverse (self : List F) (newLength : Nat) : Res (List F) :=
  if self.length = 0 ∨ newLength = 0 then .ok []
  else do
    let c0 ← rd self 0
    if c0 = 0 then .err "The constant term of self must be nonzero."
    else if self.length = 1 then do
      let i ← frInv c0
      .ok (i :: List.replicate (newLength - 1) 0)
    else do
      let maxd ← subU newLength 1
      let s ← subU (2 * newLength) 1
      let p ← nextPowOf2 s
      let fs ← FFTSettings.new5 (F := F) (log2 p)
      let i ← frInv c0
      let (d, out) ← invLoop self fs maxd (1 <<< log2 maxd) 0 [i]
      if d + 1 ≠ newLength then .err "d + 1 != new_length" else .ok out

/-- `fast_div`, mcl-kzg/kzg/src/kzg10.rs:305-335. -/
def fastDiv (self divisor : List F) : Res (List F) :=
  match divisor.getLast? with
  | none => .err "Dividing by zero is undefined"
  | some lead =>
    if lead = 0 then .err "The divisor's highest coefficient must be non-zero"
    else
      let outLength := polyQuotientLength self divisor
      if outLength = 0 then .ok []
      else if divisor.length = 1 then
        forRange 0 self.length [] fun i out => do
          let x ← rd self i
          let y ← rd divisor 0
          let q ← frDiv x y
          .ok (out ++ [q])
      else do
        let invBFlip ← (polyInverse (flip divisor) outLength).unwrap
        let qFlip ← (polyMul (flip self) invBFlip none outLength).unwrap
        .ok (flip qFlip)

/-- `Polynomial::div`, mcl-kzg/kzg/src/kzg10.rs:361-371: both arguments are normalised for the choice of the
method, the division takes the dividend as it is. -/
def polyDiv (self divisor : List F) : Res (List F) :=
  let dividend := normalise self
  let divisor := normalise divisor
  if divisor.length ≥ dividend.length ∨ divisor.length < 128 then longDivision self divisor
  else fastDiv self divisor

end
end Kzg.Mcl
