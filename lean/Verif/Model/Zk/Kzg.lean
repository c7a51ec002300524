import Verif.Model.Zk.G1Fft
import Verif.Model.Zk.Poly
import Verif.Model.Zk.Msm
import Verif.Model.Zk.Pairing
import Verif.Model.DAS
import Verif.Proofs.Zk.ScalarWords
/-!
# Commitments and proofs of zkcrypto (zkcrypto/src/kzg_proofs.rs, zkcrypto/src/kzg_types.rs, zkcrypto/src/das.rs)

Everything runs on the values the Rust types hold: scalars are `ScW`, the reduced four-word vectors with the word
operations of scalar.rs, points are the projective coordinates `G1.Proj` and `G2.Proj`. `chk` says whether overflow
checks are on; only the multiplication of points of the first group depends on it.

The field `length` of `KZGSettings` is only copied and is left out; `Clone` (zkcrypto/src/kzg_types.rs:265-269) is
`new` on the same fields. `G1_GENERATOR` and `G2_GENERATOR` (51-55 and 69-87) have the words of the
generators of the curve files: `G1.generatorProj`, `G2.generatorProj`. `Fr::pow` (zkcrypto/src/zkfr.rs:116-135) has the
text of the one in blst-from-scratch: `frPow`.
-/

namespace Kzg.Zk

instance : Zero G1.Proj := ⟨Projective.identity⟩
instance : Add G1.Proj := ⟨Projective.add⟩

instance (s : Scalar) : Decidable (Scalar.Red s) := by unfold Scalar.Red Scalar.Words; infer_instance

namespace Top
open Kzg

/-- The operations of `ZkG1Projective` that the transforms use: `identity` (zkcrypto/src/kzg_types.rs:113-115),
`add_or_dbl` (130-140), `sub` (150-152), `mul` (159-163). -/
def g1Ops (chk : Bool) : ZkP.PtOps ScW G1.Proj where
  identity := Projective.identity
  addOrDbl a b := if a.ctEq b then a.double else a.add b
  sub a b := a.add b.neg
  mul a s := G1.mul chk a s.1

/-- `add_or_dbl` of the second group, zkcrypto/src/kzg_types.rs:179-184. -/
def g2AddOrDbl (a b : G2.Proj) : G2.Proj := if a.ctEq b then a.double else a.add b

/-- `G1::sub`, zkcrypto/src/kzg_types.rs:150-152, and `G2::sub`, 190-192. -/
def ptSub {K : Type} [Field K] [DecidableEq K] [CurveConsts K] (a b : Projective K) : Projective K := a.add b.neg

/-- `KZGSettings` of this crate, zkcrypto/src/kzg_proofs.rs:24-29. -/
abbrev Settings := KZGSettings ScW G1.Proj G2.Proj

/-- `KZGSettings::new`, zkcrypto/src/kzg_types.rs:236-238 and `new_kzg_settings`, zkcrypto/src/kzg_proofs.rs:51-58:
the lists are taken as they are. -/
def new (secretG1 : List G1.Proj) (secretG2 : List G2.Proj) (_length : Nat) (fs : FFTSettings ScW) : Res Settings :=
  .ok { fs := fs, secretG1 := secretG1, secretG2 := secretG2 }

/-- The loop of `generate_trusted_setup`, zkcrypto/src/kzg_proofs.rs:66-71. The state is `(s_pow, s1, s2)`. -/
def setupLoop (chk : Bool) (s : ScW) : (n : Nat) → ScW → List G1.Proj → List G2.Proj →
    Res (List G1.Proj × List G2.Proj)
  | 0, _, s1, s2 => .ok (s1, s2)
  | n + 1, sPow, s1, s2 => do
    let p ← G1.mul chk G1.generatorProj sPow.1
    let s1 := s1 ++ [p]
    let s2 := s2 ++ [G2.mul G2.generatorProj sPow.1]
    setupLoop chk s n (sPow * s) s1 s2

/-- `Scalar::from_bytes`; what it returns is reduced (`scalarOfBytes_spec`). -/
def scalarOfBytes (bytes : List Nat) : Option ScW :=
  (Scalar.fromBytes bytes).bind fun t => if h : Scalar.Red t then some ⟨t, h⟩ else none

/-- `generate_trusted_setup`, zkcrypto/src/kzg_proofs.rs:60-74; the secret has 32 bytes. -/
def generateTrustedSetup (chk : Bool) (n : Nat) (secret : List Nat) : Res (List G1.Proj × List G2.Proj) := do
  let s ← (scalarOfBytes secret).elim .panic .ok
  setupLoop chk s n 1 [] []

/-- `commit_to_poly` of kzg_proofs.rs, zkcrypto/src/kzg_proofs.rs:76-88. -/
def polyCommit (p : List ScW) (ks : Settings) : Res G1.Proj :=
  if p.length > ks.secretG1.length then .err "Poly given is too long"
  else if ZkP.isZero p then .ok Projective.identity
  else Msm.msmVariableBase Projective.double ks.secretG1 (p.map Subtype.val)

/-- `KZGSettings::commit_to_poly`, zkcrypto/src/kzg_types.rs:240-242: `Ok(poly_commit(p, self).unwrap())`. -/
def commitToPoly (ks : Settings) (p : List ScW) : Res G1.Proj := (polyCommit p ks).unwrap

/-- `compute_proof_multi`, zkcrypto/src/kzg_proofs.rs:107-128; the divisor is built as in blst-from-scratch. -/
def computeProofMulti (ks : Settings) (p : List ScW) (x : ScW) (n : Nat) : Res G1.Proj :=
  if !isPowerOfTwo n then .err "n has to be power of two"
  else do
    let p2 ← cosetDivisor x n
    let q ← (ZkP.polyDiv p p2).unwrap
    (polyCommit q ks).unwrap

/-- `compute_proof_single`, zkcrypto/src/kzg_proofs.rs:90-92. -/
def computeProofSingle (ks : Settings) (p : List ScW) (x : ScW) : Res G1.Proj := computeProofMulti ks p x 1

/-- `check_proof_single`, zkcrypto/src/kzg_proofs.rs:94-101. -/
def checkProofSingle (chk : Bool) (ks : Settings) (com proof : G1.Proj) (x value : ScW) : Res Bool := do
  let xG2 := G2.mul G2.generatorProj x.1
  let s ← rd ks.secretG2 1
  let sMinusX := ptSub s xG2
  let yG1 ← G1.mul chk G1.generatorProj value.1
  let commitmentMinusY := ptSub com yG1
  Pairing.pairingsVerify commitmentMinusY G2.generatorProj proof sMinusX

/-- `check_proof_multi`, zkcrypto/src/kzg_proofs.rs:130-152; the scaling loop (139-142) is the one of
blst-from-scratch. -/
def checkProofMulti (ks : Settings) (com proof : G1.Proj) (x : ScW) (values : List ScW) (n : Nat) : Res Bool :=
  if !isPowerOfTwo n then .err "n has to be power of two"
  else do
    let poly ← ks.fs.fftFr values true
    let xInverse ← ZkP.frInv x
    let (poly, xInversePower) ← cosetScale poly xInverse n
    let xPower ← ZkP.frInv xInversePower
    let xn2 := G2.mul G2.generatorProj xPower.1
    let sn ← rd ks.secretG2 n
    let xnMinusYn := ptSub sn xn2
    let g1 ← (polyCommit poly ks).unwrap
    let commitMinusInterp := ptSub com g1
    Pairing.pairingsVerify commitMinusInterp G2.generatorProj proof xnMinusYn

/-- `das_fft_extension`, zkcrypto/src/das.rs:6-49. `das_fft_extension_stride` (zkcrypto/src/fftsettings.rs:23-109) has the
text of the one in blst-from-scratch: `dasStride`; it is also called on an empty list. -/
def dasFftExtension (fs : FFTSettings ScW) (val : List ScW) : Res (List ScW) :=
  if val.isEmpty then .err "The list cannot be empty"
  else if !isPowerOfTwo val.length then .err "The list must be power of two"
  else if val.length * 2 > fs.maxWidth then .err "The list is too long"
  else do
    let stride := fs.maxWidth / (val.length * 2)
    let vals ← dasStride fs.expandedRoots fs.reverseRoots (val.length + 1) val stride
    let invlen ← ZkP.frInv ((val.length : Nat) : ScW)
    let odds ← dasStride fs.expandedRoots fs.reverseRoots 1 [] stride
    .ok (odds ++ vals.map fun v => v * invlen)

/-- `ZkFFTSettings::default`, zkcrypto/src/fftsettings.rs:176-183. -/
def fftDefault : FFTSettings ScW := ⟨0, 0, [], []⟩

/-- `ZkFFTSettings::from_scale`, zkcrypto/src/fftsettings.rs:159-169: only the width is set. -/
def fromScale (maxScale : Nat) : Res (FFTSettings ScW) :=
  if maxScale ≥ 32 then .err "Scale is expected to be within root of unity matrix row size"
  else .ok { fftDefault with maxWidth := 2 ^ maxScale }

/-- `new_fft_settings`, zkcrypto/src/fftsettings.rs:231-233. -/
def newFftSettings (_maxScale : Nat) : FFTSettings ScW := fftDefault

end Top
end Kzg.Zk
