import Verif.Model.KZG
import Verif.Model.Mcl.Kzg
import Verif.Model.Ark.Poly
/-!
# Trusted setup, settings, commitments and proofs of the Arkworks backend (Arkworks/src/kzg_proofs.rs)

A point of G1 comes in two forms: `P` are the stored projective coordinates, `G1` the group elements. The difference
matters because the settings are seeded with the coordinates of a point. Results of the library are taken as group
elements; points of G2 are group elements throughout.

The library is in the trusted base and modelled by its values: `FixedBaseMSM` and `VariableBaseMSM` give the scalar
multiples and the linear combination (of as many terms as the shorter list has), `KZG10::commit` and `KZG10::check`
(ark-poly-commit 0.3) the formulas below, `UniversalParams::max_degree` is the number of powers minus one.
`neg_powers_of_h`, `prepared_h` and `prepared_beta_h` of the parameters and the fields `rand`, `rand2` of the settings
(an unused generator and the empty randomness) are left out. Lengths are `u64`, converted to `usize` and back without
loss.
-/

namespace Kzg.Ark
open Kzg

section
variable {P G1 G2 GT : Type} [AddCommGroup G1] [Module Fr G1] [AddCommGroup G2] [Module Fr G2]
  [CommGroup GT] [DecidableEq GT]

/-- `UniversalParams`. -/
structure Params (G1 G2 : Type) where
  powersOfG : List G1
  powersOfGammaG : List G1
  h : G2
  betaH : G2

/-- The library functions used that are more than a group operation: `val` is the group element with these
coordinates, `mulGen c` the coordinates of `c` times the generator, `mulInf c` those of `c` times the point at
infinity (`mul_assign`), `xLimbs` the six words of the `x` coordinate, `rng` the scalar and the point of G1 drawn from
the generator `StdRng` with this seed, `testParams` the parameters that `KZG10::setup(1, false, test_rng())` gives, and
`pairing` the pairing (`product_of_pairings` multiplies pairings). -/
structure Backend (P G1 G2 GT : Type) where
  val : P → G1
  mulGen : Fr → P
  mulInf : Fr → P
  xLimbs : P → List Nat
  rng : List Nat → Fr × G1
  testParams : Params G1 G2
  pairing : G1 → G2 → GT

/-- `struct KZGSettings`, Arkworks/src/kzg_proofs.rs:320-329. -/
structure Settings (P G1 G2 : Type) where
  fs : FFTSettings Fr
  secretG1 : List P
  secretG2 : List G2
  length : Nat
  params : Params G1 G2

/-! ### Setup -/

/-- The scalar of `generate_trusted_setup`, Arkworks/src/kzg_proofs.rs:353-357 with `read_be_u64` (345-349): four
big-endian words, the first the lowest; `from_repr` gives `None` from the modulus on and `unwrap` panics. -/
def secretScalar (secret : List Nat) : Res Fr :=
  let temp := [Mcl.be64 (secret.take 8), Mcl.be64 ((secret.drop 8).take 8), Mcl.be64 ((secret.drop 16).take 8),
    Mcl.be64 ((secret.drop 24).take 8)]
  if wordsVal temp < frModulus then .ok ((wordsVal temp : Nat) : Fr) else .panic

/-- `generate_trusted_setup`, Arkworks/src/kzg_proofs.rs:351-370. The points to multiply are made with
`G1Affine::new(x, y, true)` and `G2Affine::new(x, y, true)`, whose last argument is the flag for the point at
infinity. -/
def generateTrustedSetup (B : Backend P G1 G2 GT) (len : Nat) (secret : List Nat) : Res (List P × List G2) := do
  let s ← secretScalar secret
  let (s1, s2, _) ← forRange 0 len (([] : List P), ([] : List G2), (1 : Fr)) fun _ st =>
    .ok (st.1 ++ [B.mulInf st.2.2], st.2.1 ++ [st.2.2 • (0 : G2)], st.2.2 * s)
  .ok (s1, s2)

/-- `generate_trusted_setup_test`, Arkworks/src/kzg_proofs.rs:372-387. -/
def generateTrustedSetupTest (B : Backend P G1 G2 GT) (g2 : G2) (len : Nat) (s : Fr) : Res (List P × List G2) := do
  let (s1, s2, _) ← forRange 0 len (([] : List P), ([] : List G2), (1 : Fr)) fun _ st =>
    .ok (st.1 ++ [B.mulGen st.2.2], st.2.1 ++ [st.2.2 • g2], st.2.2 * s)
  .ok (s1, s2)

/-- `setup` with `produce_g2_powers` false (the only value it is called with), Arkworks/src/kzg_proofs.rs:89-186; `r`
holds the scalar and the point drawn from the generator. The additional power of `gamma_g` is made with the limbs of
`beta`, which are those of its Montgomery form. -/
def setup (B : Backend P G1 G2 GT) (g1 : G1) (g2 : G2) (maxDegree : Nat) (r : Fr × G1) :
    Res (Params G1 G2 × List P × List G2) :=
  if maxDegree < 1 then .err "DegreeIsZero"
  else do
    let beta := r.1
    let gammaG := r.2
    let (powersOfBeta, _) ← forRange 0 maxDegree ([(1 : Fr)], beta) fun _ s => .ok (s.1 ++ [s.2], s.2 * beta)
    let powersOfG := powersOfBeta.map (· • g1)
    let powersOfGammaG := powersOfBeta.map (· • gammaG)
    let k ← subU powersOfGammaG.length 1
    let last ← rd powersOfGammaG k
    let powersOfGammaG := powersOfGammaG ++ [(beta * ((2 ^ 256 : Nat) : Fr)) • last]
    let betaH := beta • g2
    let (s1, s2) ← generateTrustedSetupTest B g2 maxDegree beta
    .ok (⟨powersOfG, powersOfGammaG, g2, betaH⟩, s1, s2)

/-- `u64::to_be_bytes`. -/
def toBe64 (w : Nat) : List Nat := (List.range 8).map fun i => w / 256 ^ (7 - i) % 256

/-- `generate_rng_seed`, Arkworks/src/kzg_proofs.rs:389-395: the first 32 bytes of the `x` coordinate of the last
point. -/
def rngSeed (B : Backend P G1 G2 GT) (secretG1 : List P) : Res (List Nat) := do
  let k ← subU secretG1.length 1
  let pt ← rd secretG1 k
  let output := (B.xLimbs pt).flatMap toBe64
  sliceTo output 32

/-- The copying loops, Arkworks/src/kzg_proofs.rs:409-422. -/
def copyLoop {α β : Type} (f : α → β) (v : List α) (n : Nat) : Res (List β) :=
  forRange 0 n ([] : List β) fun i acc => do
    let x ← rd v i
    .ok (acc ++ [f x])

/-- `new_kzg_settings`, Arkworks/src/kzg_proofs.rs:397-434 (`KZGSettings::new`, Arkworks/src/kzg_types.rs:414-421). The
first list of points is used for the seed only, the second not at all. -/
def newSettings (B : Backend P G1 G2 GT) (g1 : G1) (g2 : G2) (secretG1 : List P) (_secretG2 : List G2)
    (length : Nat) (ffs : FFTSettings Fr) : Res (Settings P G1 G2) := do
  let length := length + 1
  let seed ← rngSeed B secretG1
  let (params, s1, s2) ← (setup B g1 g2 length (B.rng seed)).unwrap
  let temp ← copyLoop id s1 length
  let temp2 ← copyLoop id s2 length
  let temp3 ← copyLoop B.val s1 length
  let fs ← settingsClone ffs
  .ok { fs := fs, secretG1 := temp, secretG2 := temp2, length := length, params := { params with powersOfG := temp3 } }

/-- `default_kzg`, Arkworks/src/kzg_proofs.rs:332-342. -/
def defaultSettings (B : Backend P G1 G2 GT) : Settings P G1 G2 :=
  { fs := settingsDefault, secretG1 := [], secretG2 := [], length := 0, params := B.testParams }

/-- `Clone` of the settings, Arkworks/src/kzg_types.rs:452-456. -/
def Settings.clone (B : Backend P G1 G2 GT) (g1 : G1) (g2 : G2) (ks : Settings P G1 G2) : Res (Settings P G1 G2) := do
  let fs ← settingsClone ks.fs
  (newSettings B g1 g2 ks.secretG1 ks.secretG2 ks.length fs).unwrap

/-- The part of `VerifierKey` that is read. -/
structure VerifierKey (G1 G2 : Type) where
  g : G1
  gammaG : G1
  h : G2
  betaH : G2

/-- `trim`, Arkworks/src/kzg_proofs.rs:40-65. -/
def trim (pp : Params G1 G2) (supportedDegree : Nat) : Res (List G1 × List G1 × VerifierKey G1 G2) := do
  let supportedDegree := if supportedDegree = 1 then supportedDegree + 1 else supportedDegree
  let powersOfG ← sliceTo pp.powersOfG (supportedDegree + 1)
  let powersOfGammaG ← copyLoop id pp.powersOfGammaG (supportedDegree + 1)
  let g ← rd pp.powersOfG 0
  let gammaG ← rd pp.powersOfGammaG 0
  .ok (powersOfG, powersOfGammaG, ⟨g, gammaG, pp.h, pp.betaH⟩)

/-- `trim(&ks.params, &ks.params.max_degree() - 1)`, as in Arkworks/src/kzg_proofs.rs:442, 455 and 478. -/
def Settings.trimmed (ks : Settings P G1 G2) : Res (List G1 × List G1 × VerifierKey G1 G2) := do
  let d ← subU ks.params.powersOfG.length 1
  let d ← subU d 1
  (trim ks.params d).unwrap

/-! ### Commitments and single proofs -/

/-- `DensePolynomial::degree` (of a polynomial without trailing zeros; 0 for the zero polynomial). -/
def degree (p : List Fr) : Nat := if p = [] then 0 else p.length - 1

/-- `check_degree_is_too_large`, Arkworks/src/kzg_proofs.rs:242-252 (and the library's own). -/
def checkDegree (degree numPowers : Nat) : Res Unit :=
  if degree + 1 > numPowers then .err "TooManyCoefficients" else .ok ()

/-- `skip_leading_zeros_and_convert_to_bigints`, Arkworks/src/kzg_proofs.rs:254-263 (and the library's own). -/
def skipLeadingZeros (p : List Fr) : Nat × List Fr :=
  let k := (p.takeWhile fun c => decide (c = 0)).length
  (k, p.drop k)

/-- `VariableBaseMSM::multi_scalar_mul` on the powers from the first nonzero coefficient on, as in
Arkworks/src/kzg_proofs.rs:218-224. -/
def msmPowers (powers : List G1) (p : List Fr) : Res G1 := do
  let (k, coeffs) := skipLeadingZeros p
  let bases ← sliceFrom powers k
  .ok (List.zipWith (fun P c => c • P) bases coeffs).sum

/-- `KZG10::commit` without hiding (library). -/
def libCommit (powers : List G1) (p : List Fr) : Res G1 := do
  checkDegree (degree p) powers.length
  msmPowers powers p

/-- `open` and `open_with_witness_polynomial` without hiding, Arkworks/src/kzg_proofs.rs:188-240; the witness
polynomial is the library's quotient by `X - point`. -/
def openAt (powers : List G1) (p : List Fr) (point : Fr) : Res G1 := do
  checkDegree (degree p) powers.length
  let witness ← libQuot p [-point, 1]
  checkDegree (degree witness) powers.length
  msmPowers powers witness

/-- `commit_to_poly`, Arkworks/src/kzg_proofs.rs:436-452. -/
def commitToPoly (ks : Settings P G1 G2) (p : List Fr) : Res G1 :=
  if p.length > ks.length then .err "Poly given is too long"
  else if polyNorm p = [] then .ok 0
  else do
    let (powers, _, _) ← ks.trimmed
    (libCommit powers (polyNorm p)).unwrap

/-- `KZGSettings::commit_to_poly`, Arkworks/src/kzg_types.rs:423-425: unwraps. -/
def Settings.commit (ks : Settings P G1 G2) (p : List Fr) : Res G1 := (commitToPoly ks p).unwrap

/-- `compute_proof_single`, Arkworks/src/kzg_proofs.rs:454-464. -/
def Settings.computeSingle (ks : Settings P G1 G2) (p : List Fr) (x : Fr) : Res G1 := do
  let (powers, _, _) ← ks.trimmed
  (openAt powers (polyNorm p) x).unwrap

/-- `KZG10::check` without hiding (library). -/
def libCheck (B : Backend P G1 G2 GT) (vk : VerifierKey G1 G2) (com : G1) (point value : Fr) (proof : G1) : Bool :=
  decide (B.pairing (com - value • vk.g) vk.h = B.pairing proof (vk.betaH - point • vk.h))

/-- `check_proof_single`, Arkworks/src/kzg_proofs.rs:471-492. -/
def Settings.checkSingle (B : Backend P G1 G2 GT) (ks : Settings P G1 G2) (com proof : G1) (x value : Fr) :
    Res Bool := do
  let (_, _, vk) ← ks.trimmed
  .ok (libCheck B vk com x value proof)

/-- `pairings_verify`, Arkworks/src/kzg_proofs.rs:583-595. -/
def pairingsVerify (B : Backend P G1 G2 GT) (a1 : G1) (a2 : G2) (b1 : G1) (b2 : G2) : Bool :=
  decide (B.pairing (-a1) a2 * B.pairing b1 b2 = 1)

/-! ### Proofs for several points -/

/-- The divisor `x^n - x0^n`, Arkworks/src/kzg_proofs.rs:500-508; with `n = 0` the second value is stored over the
first. -/
def divisorPoly (x : Fr) (n : Nat) : Res (List Fr) := do
  let d := List.replicate (n + 1) (0 : Fr)
  let d ← wr d 0 (-(x ^ n))
  let d ← forRange 1 n d fun i d => wr d i 0
  wr d n 1

/-- `compute_proof_multi`, Arkworks/src/kzg_proofs.rs:494-515. -/
def Settings.computeMulti (ks : Settings P G1 G2) (p : List Fr) (x : Fr) (n : Nat) : Res G1 := do
  let divisor ← divisorPoly x n
  let q ← (polyDiv p divisor).unwrap
  (commitToPoly ks q).unwrap

/-- `check_proof_multi`, Arkworks/src/kzg_proofs.rs:517-546; the scaling loop has the text of blst-from-scratch. -/
def Settings.checkMulti (B : Backend P G1 G2 GT) (ks : Settings P G1 G2) (com proof : G1) (x : Fr)
    (ys : List Fr) (n : Nat) : Res Bool := do
  let interp ← (fftFr ks.fs ys true).unwrap
  let invX ← frInv x
  let (interp, invXPow) ← cosetScale interp invX n
  let xPow ← frInv invXPow
  let xn2 := xPow • ks.params.h
  let sn ← rd ks.secretG2 n
  let xnMinusYn := sn - xn2
  let is1 ← (commitToPoly ks interp).unwrap
  let commitMinusInterp := com - is1
  .ok (pairingsVerify B commitMinusInterp ks.params.h proof xnMinusYn)

end
end Kzg.Ark
