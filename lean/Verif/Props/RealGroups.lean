import Verif.Proofs.Torsion
import Verif.Props.ZkPairing
import Verif.Props.ZkG1
import Verif.Props.ZkG2
import Verif.Props.KZG
import Verif.Props.MclKzg
import Verif.Props.ArkKzg
/-!
# Property C148: what is assumed of the libraries holds of BLS12-381

The commitment layers of blst-from-scratch, mcl-kzg and Arkworks are modelled over arbitrary groups with a pairing that satisfy
`Lawful`. Here the groups are the points of order `r` of Mathlib's curves over the coordinate fields of zkcrypto, the target group
are the units of its field of degree twelve, and the pairing is the one that zkcrypto computes (C83).
-/

set_option linter.unusedSectionVars false

namespace Kzg.Props
open Kzg Kzg.Res Kzg.Zk Kzg.Zk.Pairing Kzg.Zk.Miller CurveConsts Polynomial

local notation "r" => frModulus
local notation "E1" => curve (CurveConsts.b (K := FpW))
local notation "E2" => curve (CurveConsts.b (K := Fp2 FpW))

/-- The points of order `r` of the first curve (and its point at infinity). -/
abbrev Bls1 : Type := Tors (E1).Point

/-- The points of order `r` of the second curve (and its point at infinity). -/
abbrev Bls2 : Type := Tors (E2).Point

/-- The target group lies in the units of the field of degree twelve. -/
abbrev BlsT : Type := (Fp12 FpW)ˣ

/-- The generator of the first group (the constant of the library, C51). -/
noncomputable def blsG1 : Bls1 := ⟨G1.gen, G1.order_gen⟩

/-- The generator of the second group. -/
noncomputable def blsG2 : Bls2 := ⟨G2.gen, G2.order_gen⟩

theorem blsGroups : PairingGroups (E1).Point (E2).Point (Fp12 FpW) blsG1 blsG2 Miller.e Gt.generator where
  ne h := G1.gen_ne (congrArg Subtype.val h)
  gen _ hP := G1.torsion_cyclic hP
  gen2 _ hP := G2.torsion_cyclic hP
  pair := e_mul
  ord := orderOf_eq_prime N12.gen_pow N12.gen_ne

/-- The library of blst-from-scratch over the groups of BLS12-381. -/
noncomputable abbrev blsBlst : Kzg.Backend Bls1 Bls2 BlsT := PairingGroups.blst Miller.e

/-- The library of mcl-kzg over them, with the exponent of the final exponentiation of the curve. -/
noncomputable abbrev blsMcl : Mcl.Backend Bls1 Bls2 BlsT := PairingGroups.mcl Miller.e ((Zk.fpModulus ^ 12 - 1) / r)

/-- The libraries of the Arkworks backend over them; the words of a coordinate, the generator of random numbers and the parameters
for tests are arbitrary. -/
noncomputable abbrev blsArk (limbs : Bls1 → List Nat) (rng : List Nat → Fr × Bls1) (params : Ark.Params Bls1 Bls2) :
    Ark.Backend Bls1 Bls1 Bls2 BlsT := PairingGroups.ark Miller.e blsG1 limbs rng params

/-- C148 (blst): everything assumed of the library, also where the wrapper hands it the identity. -/
theorem C148_blst : blsBlst.Lawful blsG1 blsG2 ∧ blsBlst.MsmTotal ∧ blsBlst.PairTotal :=
  ⟨blsGroups.blst_lawful, PairingGroups.blst_msmTotal, blsGroups.blst_pairTotal⟩

/-- C148 (mcl): everything assumed of the library, with a final exponentiation of values that are already in the target group. -/
theorem C148_mcl : blsMcl.Lawful blsG1 blsG2 := blsGroups.mcl_lawful C108_final_exponent

/-- C148 (Arkworks): everything assumed of the libraries. -/
theorem C148_ark {limbs : Bls1 → List Nat} (hl : ∀ p, (limbs p).length = 6) (rng : List Nat → Fr × Bls1)
    (params : Ark.Params Bls1 Bls2) : (blsArk limbs rng params).Lawful blsG1 blsG2 := blsGroups.ark_lawful hl rng params

/-- C148 (the pairing is the computed one): for coordinates that stand for points of the groups, the pairing of zkcrypto returns the
value of the pairing used here. -/
theorem C148_pairing {a : Zk.G1.Aff} {q : Zk.G2.Aff} {P : Bls1} {Q : Bls2} (ha : Affine.Is CurveConsts.b a (P : (E1).Point))
    (hq : Affine.Is CurveConsts.b q (Q : (E2).Point)) :
    pairing a q = .ok ((blsBlst.pairing P Q : BlsT) : Fp12 FpW) := by
  rw [pairing_spec ha hq Q.2]
  congr 1
  obtain ⟨m, hm⟩ := G1.torsion_cyclic P.2
  obtain ⟨n, hn⟩ := G2.torsion_cyclic Q.2
  refine (unitOf_val ?_).symm
  rw [hm, hn, e_mul]
  exact blsGroups.isUnit.pow _

/-- C148 (scalars): multiplication by a field element is multiplication by the number that stands for it. -/
theorem C148_scalar (a : Fr) (P : Bls1) (Q : Bls2) :
    ((a • P : Bls1) : (E1).Point) = a.val • (P : (E1).Point) ∧ ((a • Q : Bls2) : (E2).Point) = a.val • (Q : (E2).Point) :=
  ⟨tors_smul a P, tors_smul a Q⟩

/-- C148 (coordinates): all points of the groups have coordinates, and the coordinates of a point of either curve pass the test of the
library exactly if the point is in the group. -/
theorem C148_members (chk : Bool) :
    (∀ P : Bls1, ∃ a, Affine.Is CurveConsts.b a (P : (E1).Point)) ∧ (∀ Q : Bls2, ∃ a, Affine.Is CurveConsts.b a (Q : (E2).Point)) ∧
    (∀ a (P : (E1).Point), Affine.Is CurveConsts.b a P → (G1.isTorsionFree chk a = .ok true ↔ ∃ P' : Bls1, P = P')) ∧
    ∀ a (Q : (E2).Point), Affine.Is CurveConsts.b a Q → (G2.isTorsionFree a = true ↔ ∃ Q' : Bls2, Q = Q') := by
  refine ⟨fun P => affine_is_exists _, fun Q => affine_is_exists _, fun a P h => ?_, fun a Q h => ?_⟩
  · obtain ⟨t, e, ht⟩ := G1.isTorsionFree_iff chk h
    rw [e, Res.ok.injEq, ht]
    exact ⟨fun h => ⟨⟨P, h⟩, rfl⟩, by rintro ⟨P', rfl⟩; exact P'.2⟩
  · rw [G2.isTorsionFree_iff h]
    exact ⟨fun h => ⟨⟨Q, h⟩, rfl⟩, by rintro ⟨Q', rfl⟩; exact Q'.2⟩

/-- `1 + 2x + 3x²` with the secret 5 over the real groups: the commitment is `86 · g1`, and the proof at 7 is accepted with 162. -/
example : ∃ (ks : KZGSettings Fr Bls1 Bls2) (proof : Bls1), MadeFrom ks blsG1 blsG2 4 2 5 ∧
    ks.commitToPoly blsBlst [1, 2, 3] = .ok ((86 : Fr) • blsG1) ∧
    ks.computeProofSingle blsBlst [1, 2, 3] 7 = .ok proof ∧
    ks.checkProofSingle blsBlst blsG1 blsG2 ((86 : Fr) • blsG1) proof 7 162 = .ok true ∧
    (((86 : Fr) • blsG1 : Bls1) : (E1).Point) = 86 • G1.gen := by
  obtain ⟨ks, h⟩ := madeFrom_exists blsG1 blsG2 2 4 (by norm_num) (by norm_num) [5]
  have h5 : ((bytesVal [5] : Nat) : Fr) = 5 := by norm_num [bytesVal]
  rw [h5] at h
  obtain ⟨com, proof, h1, h2, h3⟩ := C26_single_complete C148_blst.1 h (by norm_num) [1, 2, 3] (by norm_num) 7
    (.inr (.inr C148_blst.2.1)) (.inr C148_blst.2.2)
  have e : (polyOf [(1 : Fr), 2, 3]).eval 7 = 162 := by
    rw [eval_polyOf]; simp [Finset.sum_range_succ]; norm_num
  have e' : (polyOf [(1 : Fr), 2, 3]).eval 5 = 86 := by
    rw [eval_polyOf]; simp [Finset.sum_range_succ]; norm_num
  have hc := C25_commit C148_blst.1 h [1, 2, 3] (by norm_num) (.inr (.inr C148_blst.2.1))
  rw [e'] at hc
  rw [hc] at h1
  rw [e, ← Res.ok.inj h1] at h3
  refine ⟨ks, proof, h, hc, h2, h3, ?_⟩
  have hv : (86 : Fr).val = 86 := by decide +kernel
  rw [(C148_scalar 86 blsG1 blsG2).1, hv, blsG1]

end Kzg.Props
