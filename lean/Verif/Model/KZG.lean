import Mathlib.Algebra.Group.Defs
import Verif.Model.Poly
import Verif.Model.Fr
import Verif.Model.FrOps
import Verif.Proofs.FrPrime
/-!
# KZG commitments and proofs (blst-from-scratch/src/kzg_proofs.rs, types/kzg_settings.rs)

`G1` and `G2` stand for the prime order groups; a point is a group element, `add_or_dbl` is `+`, `sub`
is `-`, `mul` is the scalar multiplication (for G1 see `g1Mul` and property C35; G2 calls
`blst_p2_mult` with all 256 bits).

The two blst routines that are more than a group operation are parameters: the Pippenger
multi-scalar multiplication and the pairing (the primality proof of the order is imported because the
field operations of `Fr` need it). `Verif.Proofs.KZG` states what is assumed of them.
-/

namespace Kzg

section
variable {G1 G2 GT : Type} [AddCommGroup G1] [Module Fr G1] [AddCommGroup G2] [Module Fr G2]
  [CommGroup GT] [DecidableEq GT]

/-- The foreign functions used by the KZG code. `pippenger` stands for `blst_p1s_to_affine` followed
by `blst_p1s_mult_pippenger` with 256 bits (blst-from-scratch/src/kzg_proofs.rs:27-52); `pairing P Q`
for `blst_final_exp` of `blst_miller_loop` on the affine points
(blst-from-scratch/src/kzg_proofs.rs:73-84, where the final exponentiation is applied to the product).
-/
structure Backend (G1 G2 GT : Type) where
  pippenger : List G1 → List Fr → G1
  pairing : G1 → G2 → GT

/-- The loop of the direct approach, blst-from-scratch/src/kzg_proofs.rs:13-19. -/
def linCombDirect (p : List G1) (coeffs : List Fr) (len : Nat) : Res G1 :=
  forRange 0 len (0 : G1) fun i out => do
    let x ← rd p i
    let c ← rd coeffs i
    .ok (out + c • x)

/-- `g1_linear_combination`, blst-from-scratch/src/kzg_proofs.rs:11-55. In the second branch `p[0]` is
indexed and the following `len` points are read through its address; a shorter `p` would be undefined
behaviour and is modelled as a panic (its only caller, `commit_to_poly`, rules it out). -/
def g1LinearCombination (B : Backend G1 G2 GT) (p : List G1) (coeffs : List Fr) (len : Nat) : Res G1 :=
  if len < 8 then linCombDirect p coeffs len
  else do
    let pts ← sliceTo p len
    let scalars ← forRange 0 len ([] : List Fr) fun i acc => do
      let c ← rd coeffs i
      .ok (acc ++ [c])
    .ok (B.pippenger pts scalars)

/-- `pairings_verify`, blst-from-scratch/src/kzg_proofs.rs:57-87. -/
def pairingsVerify (B : Backend G1 G2 GT) (a1 : G1) (a2 : G2) (b1 : G1) (b2 : G2) : Bool :=
  decide (B.pairing (-a1) a2 * B.pairing b1 b2 = 1)

/-- `FsFr::from_scalar`, blst-from-scratch/src/types/fr.rs:199-208 (`blst_fr_from_scalar`, FFI, trusted): the
little-endian integer modulo the group order. -/
def frFromScalar (bytes : List Nat) : Fr := (bytesVal bytes : Nat)

end

section
variable {F G1 G2 : Type} [Field F] [AddCommGroup G1] [Module F G1] [AddCommGroup G2] [Module F G2]

/-- The loop of `generate_trusted_setup`, blst-from-scratch/src/utils.rs:82-87. -/
def setupLoop (g1 : G1) (g2 : G2) (s : F) : (n : Nat) → F → List G1 × List G2 → List G1 × List G2
  | 0, _, acc => acc
  | n + 1, sPow, (s1, s2) => setupLoop g1 g2 s n (sPow * s) (s1 ++ [sPow • g1], s2 ++ [sPow • g2])

end

section
variable {G1 G2 GT : Type} [AddCommGroup G1] [Module Fr G1] [AddCommGroup G2] [Module Fr G2]
  [CommGroup GT] [DecidableEq GT]

/-- `generate_trusted_setup`, blst-from-scratch/src/utils.rs:75-90; `g1`, `g2` are the generators. -/
def generateTrustedSetup (g1 : G1) (g2 : G2) (n : Nat) (secret : List Nat) : List G1 × List G2 :=
  setupLoop g1 g2 (frFromScalar secret) n 1 ([], [])

/-- `struct FsKZGSettings`, blst-from-scratch/src/types/kzg_settings.rs:12-17, over the scalar field `F` (for this
crate `Fr`; zkcrypto has its own scalars). -/
structure KZGSettings (F G1 G2 : Type) where
  fs : FFTSettings F
  secretG1 : List G1
  secretG2 : List G2

/-- `FsKZGSettings::new`, blst-from-scratch/src/types/kzg_settings.rs:38-67. -/
def KZGSettings.new (secretG1 : List G1) (secretG2 : List G2) (length : Nat) (fs : FFTSettings Fr) :
    Res (KZGSettings Fr G1 G2) :=
  if secretG1.length < fs.maxWidth then
    .err "secret_g1 must have a length equal to or greater than fft_settings roots"
  else if secretG2.length < fs.maxWidth then
    .err "secret_g2 must have a length equal to or greater than fft_settings roots"
  else if length < fs.maxWidth then
    .err "length must be equal to or greater than number of fft_settings roots"
  else do
    let (a, b) ← forRange 0 length (([], []) : List G1 × List G2) fun i s => do
      let x ← rd secretG1 i
      let y ← rd secretG2 i
      .ok (s.1 ++ [x], s.2 ++ [y])
    .ok { fs := fs, secretG1 := a, secretG2 := b }

/-- `commit_to_poly`, blst-from-scratch/src/types/kzg_settings.rs:69-78. -/
def KZGSettings.commitToPoly (B : Backend G1 G2 GT) (ks : KZGSettings Fr G1 G2) (poly : List Fr) : Res G1 :=
  if poly.length > ks.secretG1.length then .err "Polynomial is longer than secret g1"
  else g1LinearCombination B ks.secretG1 poly poly.length

/-- The divisor `x^n - x0^n`, blst-from-scratch/src/types/kzg_settings.rs:109-123. -/
def cosetDivisor {F : Type} [Field F] (x0 : F) (n : Nat) : Res (List F) := do
  let d ← forRange 1 n [-(frPow x0 n)] fun _ d => .ok (d ++ [0])
  .ok (d ++ [1])

/-- `compute_proof_multi`, blst-from-scratch/src/types/kzg_settings.rs:104-134. -/
def KZGSettings.computeProofMulti (B : Backend G1 G2 GT) (ks : KZGSettings Fr G1 G2) (p : List Fr) (x0 : Fr)
    (n : Nat) : Res G1 :=
  if !isPowerOfTwo n then .err "n must be a power of two"
  else do
    let divisor ← cosetDivisor x0 n
    let q ← (polyDiv p divisor).unwrap
    (ks.commitToPoly B q).unwrap

/-- `compute_proof_single`, blst-from-scratch/src/types/kzg_settings.rs:80-82. -/
def KZGSettings.computeProofSingle (B : Backend G1 G2 GT) (ks : KZGSettings Fr G1 G2) (p : List Fr) (x : Fr) :
    Res G1 := ks.computeProofMulti B p x 1

/-- `check_proof_single`, blst-from-scratch/src/types/kzg_settings.rs:84-102. -/
def KZGSettings.checkProofSingle (B : Backend G1 G2 GT) (g1 : G1) (g2 : G2) (ks : KZGSettings Fr G1 G2)
    (com proof : G1) (x y : Fr) : Res Bool := do
  let xG2 := x • g2
  let s ← rd ks.secretG2 1
  let sMinusX := s - xG2
  let yG1 := y • g1
  let commitmentMinusY := com - yG1
  .ok (pairingsVerify B commitmentMinusY g2 proof sMinusX)

/-- The interpolation scaling loop, blst-from-scratch/src/types/kzg_settings.rs:153-158; state:
coefficients and `inv_x_pow`. -/
def cosetScale {F : Type} [Field F] (coeffs : List F) (invX : F) (n : Nat) : Res (List F × F) :=
  forRange 1 n (coeffs, invX) fun i s => do
    let c ← rd s.1 i
    let cs ← wr s.1 i (c * s.2)
    .ok (cs, s.2 * invX)

/-- `check_proof_multi`, blst-from-scratch/src/types/kzg_settings.rs:136-177. -/
def KZGSettings.checkProofMulti (B : Backend G1 G2 GT) (g2 : G2) (ks : KZGSettings Fr G1 G2)
    (com proof : G1) (x : Fr) (ys : List Fr) (n : Nat) : Res Bool :=
  if !isPowerOfTwo n then .err "n is not a power of two"
  else do
    let interp ← ks.fs.fftFr ys true
    let (interp, invXPow) ← cosetScale interp x⁻¹ n
    let xPow := invXPow⁻¹
    let xn2 := xPow • g2
    let sn ← rd ks.secretG2 n
    let xnMinusYn := sn - xn2
    let is1 ← (ks.commitToPoly B interp).unwrap
    let commitMinusInterp := com - is1
    .ok (pairingsVerify B commitMinusInterp g2 proof xnMinusYn)

end
end Kzg
