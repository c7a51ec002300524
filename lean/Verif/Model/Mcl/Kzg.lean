import Verif.Model.KZG
import Verif.Model.Mcl.Poly
/-!
# Trusted setup, settings, commitments and proofs of mcl-kzg (mcl-kzg/kzg/src/kzg_settings.rs and the
`Curve` part of mcl-kzg/kzg/src/kzg10.rs)

The settings are `KZGSettings` of `Verif.Model.KZG`: `g1_points` and `g2_points` of the inner `Curve` are
`secretG1` and `secretG2`; the generators are parameters `g1`, `g2`; the field `order` of `Curve` is never read.
The trait implementation (mcl-kzg/kzg/src/trait_implementations/kzg_settings.rs:7-39) passes everything on.
-/

namespace Kzg.Mcl
open Kzg

section
variable {G1 G2 GT : Type} [AddCommGroup G1] [Module Fr G1] [AddCommGroup G2] [Module Fr G2]
  [CommGroup GT] [DecidableEq GT]

/-- The library functions used here that are more than a group operation: `mclBnG1_mulVec` on as many points as
scalars, `mclBn_pairing` (Miller loop and final exponentiation) and `mclBn_finalExp`
(mcl-kzg/kzg/src/mcl_methods.rs). -/
structure Backend (G1 G2 GT : Type) where
  mulVec : List G1 → List Fr → G1
  pairing : G1 → G2 → GT
  finalExp : GT → GT

/-! ### Setup -/

/-- `u64::from_be_bytes`, as used in mcl-kzg/kzg/src/data_types/fr.rs:77-80. -/
def be64 (bytes : List Nat) : Nat := bytes.foldl (fun a b => a * 256 + b) 0

/-- `Fr::from_u64_arr`, mcl-kzg/kzg/src/data_types/fr.rs:71-74: through the decimal representation, which
the library refuses from the group order on; `unwrap` then panics. -/
def frFromU64Arr (u : Nat × Nat × Nat × Nat) : Res Fr :=
  let v := u.1 + 2 ^ 64 * (u.2.1 + 2 ^ 64 * (u.2.2.1 + 2 ^ 64 * u.2.2.2))
  if v < frModulus then .ok ((v : Nat) : Fr) else .panic

/-- `Fr::from_scalar`, mcl-kzg/kzg/src/data_types/fr.rs:76-83: four big-endian words, the first the lowest. -/
def frFromScalar (secret : List Nat) : Res Fr :=
  frFromU64Arr (be64 (secret.take 8), be64 ((secret.drop 8).take 8), be64 ((secret.drop 16).take 8),
    be64 ((secret.drop 24).take 8))

/-- The loop of `generate_trusted_setup` and of `Curve::new`, mcl-kzg/kzg/src/kzg_settings.rs:103-112 and
mcl-kzg/kzg/src/kzg10.rs:629-638. -/
def powersLoop (g1 : G1) (g2 : G2) (secret : Fr) (n : Nat) : Res (List G1 × List G2) := do
  let (a, b, _) ← forRange 0 n (List.replicate n (0 : G1), List.replicate n (0 : G2), (1 : Fr)) fun i s => do
    let a ← wr s.1 i (s.2.2 • g1)
    let b ← wr s.2.1 i (s.2.2 • g2)
    .ok (a, b, s.2.2 * secret)
  .ok (a, b)

/-- `generate_trusted_setup`, mcl-kzg/kzg/src/kzg_settings.rs:99-115. -/
def generateTrustedSetup (g1 : G1) (g2 : G2) (n : Nat) (secret : List Nat) : Res (List G1 × List G2) := do
  let s ← frFromScalar secret
  powersLoop g1 g2 s n

/-- `Curve::new`, mcl-kzg/kzg/src/kzg10.rs:625-647. -/
def curveNew (g1 : G1) (g2 : G2) (secret : Fr) (order : Nat) : Res (List G1 × List G2) :=
  powersLoop g1 g2 secret order

/-- The copying loop of `KZGSettings::new` (mcl-kzg/kzg/src/kzg_settings.rs:39-44) and of `Curve::new2`
(mcl-kzg/kzg/src/kzg10.rs:653-658). -/
def copyPoints (a : List G1) (b : List G2) (n : Nat) : Res (List G1 × List G2) :=
  forRange 0 n (([], []) : List G1 × List G2) fun i s => do
    let x ← rd a i
    let y ← rd b i
    .ok (s.1 ++ [x], s.2 ++ [y])

/-- `new_from_curve`, mcl-kzg/kzg/src/kzg_settings.rs:21-26. -/
def KZGSettings.fromCurve (curve : List G1 × List G2) (fs : FFTSettings Fr) : KZGSettings Fr G1 G2 :=
  ⟨fs, curve.1, curve.2⟩

/-- `KZGSettings::new`, mcl-kzg/kzg/src/kzg_settings.rs:28-51. -/
def KZGSettings.new (secretG1 : List G1) (secretG2 : List G2) (length : Nat) (fs : FFTSettings Fr) :
    Res (KZGSettings Fr G1 G2) :=
  if length < fs.maxWidth then .err "length must be equal to or greater than fft settings max width"
  else if secretG1.length < fs.maxWidth then
    .err "secret g1 must have a length equal to or greater than fft settings max width"
  else if secretG2.length < fs.maxWidth then
    .err "secret g2 must have a length equal to or greater than fft settings max width"
  else do
    let (a, b) ← copyPoints secretG1 secretG2 length
    let (a, b) ← copyPoints a b length
    .ok ⟨fs, a, b⟩

/-! ### Commitments and single proofs -/

/-- `Polynomial::commit`, mcl-kzg/kzg/src/kzg10.rs:373-388; `commit_to_poly` passes `g1_points`
(mcl-kzg/kzg/src/trait_implementations/kzg_settings.rs:16-18). -/
def commit (B : Backend G1 G2 GT) (g1Points : List G1) (p : List Fr) : Res G1 :=
  if p.length > g1Points.length then .err "Provided polynomial is longer than G1!"
  else
    let n := min g1Points.length p.length
    .ok (B.mulVec (g1Points.take n) (p.take n))

/-- `Polynomial::gen_proof_at`, mcl-kzg/kzg/src/kzg10.rs:244-258; `compute_proof_single` passes `g1_points`
(mcl-kzg/kzg/src/trait_implementations/kzg_settings.rs:20-22). -/
def genProofAt [Lib Fr] (B : Backend G1 G2 GT) (g1Points : List G1) (p : List Fr) (point : Fr) : Res G1 := do
  let divisor := [-point, 1]
  let q ← (longDivision p divisor).unwrap
  let n := min g1Points.length q.length
  .ok (B.mulVec (g1Points.take n) (q.take n))

/-- `Curve::verify_pairing`, mcl-kzg/kzg/src/kzg10.rs:676-683. -/
def verifyPairing (B : Backend G1 G2 GT) (a1 : G1) (a2 : G2) (b1 : G1) (b2 : G2) : Bool :=
  let pairing1 := (B.pairing a1 a2)⁻¹
  let pairing2 := B.pairing b1 b2
  decide (B.finalExp (pairing1 * pairing2) = 1)

/-- `check_proof_single`, mcl-kzg/kzg/src/kzg_settings.rs:53-55, with `Curve::is_proof_valid`,
mcl-kzg/kzg/src/kzg10.rs:669-674. -/
def checkProofSingle (B : Backend G1 G2 GT) (g1 : G1) (g2 : G2) (ks : KZGSettings Fr G1 G2)
    (com proof : G1) (x y : Fr) : Res Bool := do
  let s ← rd ks.secretG2 1
  let secretMinusX := s - x • g2
  let comMinusY := com - y • g1
  .ok (verifyPairing B comMinusY g2 proof secretMinusX)

/-! ### Proofs for several points -/

/-- `Fr::pow`, mcl-kzg/kzg/src/data_types/fr.rs:56-63 (the power zero gives the number itself). -/
def frPow (x : Fr) (n : Nat) : Res Fr := forRange 1 n x fun _ r => .ok (r * x)

/-- `compute_proof_multi`, mcl-kzg/kzg/src/kzg_settings.rs:57-74. -/
def computeProofMulti [Lib Fr] (B : Backend G1 G2 GT) (ks : KZGSettings Fr G1 G2) (p : List Fr) (x0 : Fr)
    (n : Nat) : Res G1 := do
  let ok ← isPowerOf2 n
  if !ok then .err "n must be a power of 2"
  else do
    let xn ← frPow x0 n
    let d ← forRange 1 n [-xn] fun _ d => .ok (d ++ [0])
    let d := d ++ [1]
    let q ← (polyDiv p d).unwrap
    (commit B ks.secretG1 q).unwrap

/-- `check_proof_multi`, mcl-kzg/kzg/src/kzg_settings.rs:76-97. -/
def checkProofMulti [Lib Fr] (B : Backend G1 G2 GT) (g2 : G2) (ks : KZGSettings Fr G1 G2)
    (com proof : G1) (x : Fr) (ys : List Fr) (n : Nat) : Res Bool := do
  let ok ← isPowerOf2 n
  if !ok then .err "n must be a power of 2"
  else do
    let interp ← (fft ks.fs ys true).unwrap
    let invX ← frInv x
    let (interp, invXPow) ← cosetScale interp invX n
    let xPow ← frInv invXPow
    let xn2 := xPow • g2
    let sn ← rd ks.secretG2 n
    let xnMinusYn := sn - xn2
    let is1 ← (commit B ks.secretG1 interp).unwrap
    let comMinusInterp := com - is1
    .ok (verifyPairing B comMinusInterp g2 proof xnMinusYn)

end
end Kzg.Mcl
