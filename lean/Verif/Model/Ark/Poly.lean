import Verif.Model.Ark.FFT
import Verif.Model.Mcl.Poly
/-!
# Polynomials of the Arkworks backend (Arkworks/src/poly.rs)

`PolyData` is its coefficient list, lowest degree first. `blst_poly_into_pc_poly` (Arkworks/src/utils.rs:29-37) makes a
`DensePolynomial` of the library, which drops trailing zeros: `polyNorm`.
-/

namespace Kzg.Ark
open ZkP (stdNextPowerOfTwo)

section
variable {F : Type} [Field F] [DecidableEq F]

/-- `eval_poly`, Arkworks/src/kzg_proofs.rs:466-469 (`eval`, Arkworks/src/kzg_types.rs:295-297): the library evaluates
with Horner's rule (trusted base). -/
def polyEval (p : List F) (x : F) : F := (polyNorm p).foldr (fun c acc => c + x * acc) 0

/-- `PolyData::default`, Arkworks/src/kzg_types.rs:269-271. -/
def polyDefault : List F := [0]

omit [DecidableEq F] in
/-- `pad_poly`, Arkworks/src/zero_poly.rs:11-23: a shorter length gives the polynomial back. -/
def padPoly (p : List F) (newLength : Nat) : List F :=
  if newLength ≤ p.length then p else p ++ List.replicate (newLength - p.length) 0

/-- `poly_mul_direct`, Arkworks/src/poly.rs:87-106. The inner loop breaks at `i + j >= len`, as that of mcl-kzg. -/
def mulDirect (p1 p2 : List F) (len : Nat) : Res (List F) :=
  let p1 := polyNorm p1
  let p2 := polyNorm p2
  if p1 = [] ∨ p2 = [] then .ok []
  else do
    let result ← forRange 0 p1.length (List.replicate len (0 : F)) fun i result =>
      Mcl.mulDirectInner p1 p2 len i 0 result
    .ok (padPoly (polyNorm result) len)

/-- The division of `DensePolynomial` (trusted base): zero divided by anything is zero, otherwise a zero divisor
panics; the quotient of the long division has no trailing zeros. -/
def libQuot (a b : List F) : Res (List F) :=
  if a = [] then .ok []
  else if b = [] then .panic
  else if a.length < b.length then .ok []
  else do
    let q ← Kzg.longDiv a b
    .ok (polyNorm q)

/-- `poly_long_div`, Arkworks/src/poly.rs:108-112. -/
def longDiv (p1 p2 : List F) : Res (List F) := libQuot (polyNorm p1) (polyNorm p2)

/-- `poly_flip`, Arkworks/src/poly.rs:238-244. -/
def polyFlip (a : List F) : Res (List F) :=
  forRange 0 a.length [] fun i out => do
    let k ← subU a.length i
    let k ← subU k 1
    let x ← rd a k
    .ok (out ++ [x])

variable [Lib F]

/-- The settings of `poly_mul_fft`, Arkworks/src/poly.rs:130-137: those given, or new ones. `log2_pow2` of merkle_light
counts the trailing zeros of a power of two. -/
def mulSettings (fs : Option (FFTSettings F)) (length : Nat) : Res (FFTSettings F) :=
  match fs with
  | some x => settingsClone x
  | none => (settingsNew (F := F) (Nat.log2 length)).unwrap

/-- `poly_mul_fft`, Arkworks/src/poly.rs:122-195 (`FFTSettingsPoly`, Arkworks/src/kzg_types.rs:340-344). The parallel
variant computes the two transforms with `rayon::join`. -/
def mulFft (a b : List F) (fs : Option (FFTSettings F)) (len : Nat) : Res (List F) := do
  let aLen := min a.length len
  let bLen := min b.length len
  let s ← subU (aLen + bLen) 1
  let length ← stdNextPowerOfTwo s
  let fsP ← mulSettings fs length
  if length > fsP.maxWidth then .err "length should be equals or less than FFTSettings max width"
  else do
    let a ← sliceTo a aLen
    let b ← sliceTo b bLen
    let aPad := padPoly a length
    let bPad := padPoly b length
    let aFft ← (fftFr fsP aPad false).unwrap
    let bFft ← (fftFr fsP bPad false).unwrap
    let abFft ← forRange 0 length aPad fun i ab => do
      let x ← rd aFft i
      let y ← rd bFft i
      wr ab i (x * y)
    let ab ← (fftFr fsP abFft true).unwrap
    let dataLen := min len length
    let out ← forRange 0 dataLen (List.replicate len (0 : F)) fun i out => do
      let x ← rd ab i
      wr out i x
    forRange dataLen len out fun i out => wr out i 0

/-- `poly_mul`, Arkworks/src/poly.rs:114-120. -/
def polyMul (a b : List F) (fs : Option (FFTSettings F)) (len : Nat) : Res (List F) :=
  if a.length < 64 ∨ b.length < 64 ∨ len < 128 then mulDirect a b len
  else mulFft a b fs len

/-- The `while mask != 0` loop of `poly_inverse`, Arkworks/src/poly.rs:55-79. Returns the final `d` and `output`. -/
def invLoop (b : List F) (fs : FFTSettings F) (outputLen maxd mask d : Nat) (output : List F) :
    Res (Nat × List F) :=
  if _h : mask = 0 then .ok (d, output)
  else do
    let d := 2 * d + (if (maxd &&& mask) ≠ 0 then 1 else 0)
    let s ← subU (b.length + output.length) 1
    let lenTemp := min (d + 1) s
    let tmp0 ← (polyMul b output (some fs) lenTemp).unwrap
    let tmp0 ← forRange 0 lenTemp tmp0 fun i t => do
      let x ← rd t i
      wr t i (-x)
    let x ← rd tmp0 0
    let tmp0 ← wr tmp0 0 (x + 2)
    let tmp1 ← (polyMul output tmp0 (some fs) (d + 1)).unwrap
    let tmp1 ← if tmp1.length > outputLen then sliceTo tmp1 outputLen else .ok tmp1
    let output ← forRange 0 tmp1.length output fun i r => do
      let x ← rd tmp1 i
      wr r i x
    invLoop b fs outputLen maxd (mask >>> 1) d output
termination_by mask
decreasing_by
  simp only [Nat.shiftRight_eq_div_pow, Nat.pow_one]; omega

/-- `poly_inverse`, Arkworks/src/poly.rs:23-84. -/
def polyInverse (b : List F) (outputLen : Nat) : Res (List F) :=
  if b.isEmpty then .err "b.coeffs is empty"
  else do
    let c0 ← rd b 0
    if c0 = 0 then .err "b.coeffs[0] is zero"
    else do
      let output := List.replicate outputLen (0 : F)
      if b.length = 1 then do
        let i0 ← frInv c0
        let output ← wr output 0 i0
        forRange 1 outputLen output fun i r => wr r i 0
      else do
        let maxd ← subU outputLen 1
        let s ← subU (2 * outputLen) 1
        let p ← stdNextPowerOfTwo s
        let fs ← (settingsNew (F := F) (Nat.log2 p)).unwrap
        let i0 ← frInv c0
        let output ← wr output 0 i0
        let (d, output) ← invLoop b fs outputLen maxd (1 <<< arkLog2 maxd) 0 output
        if d + 1 ≠ outputLen then .err "d + 1 is not equals to output_len" else .ok output

/-- `poly_fast_div`, Arkworks/src/poly.rs:197-236. The leading coefficient is tested twice. -/
def fastDiv (dividend divisor : List F) : Res (List F) :=
  if divisor.isEmpty then .err "divisor coeffs are empty"
  else do
    let k ← subU divisor.length 1
    let lead ← rd divisor k
    if lead = 0 then .err "divisor coeffs last member is zero"
    else do
      let m ← subU dividend.length 1
      let n ← subU divisor.length 1
      if n > m then .ok []
      else if divisor.length = 1 then
        forRange 0 dividend.length [] fun i out => do
          let x ← rd dividend i
          let y ← rd divisor 0
          let q ← frDiv x y
          .ok (out ++ [q])
      else do
        let aFlip ← (polyFlip dividend).unwrap
        let bFlip ← (polyFlip divisor).unwrap
        let invBFlip ← (polyInverse bFlip (m - n + 1)).unwrap
        let qFlip ← (polyMul aFlip invBFlip none (m - n + 1)).unwrap
        let out ← (polyFlip qFlip).unwrap
        sliceTo out (m - n + 1)

/-- `div`, Arkworks/src/kzg_types.rs:311-317: the method is chosen by the lengths of the lists. -/
def polyDiv (self x : List F) : Res (List F) :=
  if x.length ≥ self.length ∨ x.length < 128 then longDiv self x else fastDiv self x

end
end Kzg.Ark
