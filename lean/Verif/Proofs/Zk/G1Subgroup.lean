import Verif.Proofs.Zk.G1Curve
import Verif.Proofs.FrPrime
import Mathlib.GroupTheory.OrderOfElement
import Mathlib.LinearAlgebra.FreeModule.Finite.CardQuotient
import Mathlib.FieldTheory.Finiteness
import Mathlib.LinearAlgebra.Dimension.FreeAndStrongRankCondition
import Mathlib.Algebra.Module.ZMod
/-!
# The subgroup of prime order
-/

set_option exponentiation.threshold 1000

namespace Kzg.Zk

open WeierstrassCurve.Affine

section
variable {K : Type} [Field K] [DecidableEq K] [LawfulCurve K]
open CurveConsts

local notation "E" => curve (b : K)

/-- A code of points: the first coordinate, and which of the two roots the second one is. -/
noncomputable def pointCode : (E).Point → Option (K × Bool)
  | .zero => none
  | .some x y _ => some (x, by classical exact decide (y = if h : ∃ w : K, w ^ 2 = x ^ 3 + b then h.choose else 0))

theorem pointCode_inj : Function.Injective (pointCode (K := K)) := by
  intro P Q h
  cases P with
  | zero => cases Q with
    | zero => rfl
    | some x y hn => cases h
  | some x y hn => cases Q with
    | zero => cases h
    | some x' y' hn' =>
      simp only [pointCode, Option.some.injEq, Prod.mk.injEq, decide_eq_decide] at h
      obtain ⟨rfl, h⟩ := h
      have e := nonsingular_iff.1 hn
      have e' := nonsingular_iff.1 hn'
      have hex : ∃ w : K, w ^ 2 = x ^ 3 + b := ⟨y, e⟩
      rw [dif_pos hex] at h
      have hw := hex.choose_spec
      generalize hex.choose = w at *
      have f : ∀ v : K, v ^ 2 = x ^ 3 + b → v = w ∨ v = -w := fun v hv => by
        have : (v - w) * (v + w) = 0 := by linear_combination hv - hw
        rcases mul_eq_zero.1 this with g | g
        · exact Or.inl (by linear_combination g)
        · exact Or.inr (by linear_combination g)
      have : y = y' := by
        rcases f y e with g | g
        · rw [g, h.1 g]
        · rcases f y' e' with g' | g'
          · rw [g', h.2 g']
          · rw [g, g']
      subst this
      rfl

instance [Finite K] : Finite (E).Point := Finite.of_injective _ pointCode_inj

theorem card_points_le [Finite K] : Nat.card (E).Point ≤ 2 * Nat.card K + 1 := by
  classical
  have := Fintype.ofFinite K
  have h := Nat.card_le_card_of_injective _ (pointCode_inj (K := K))
  rw [Nat.card_eq_fintype_card (α := Option (K × Bool))] at h
  simp only [Fintype.card_option, Fintype.card_prod, Fintype.card_bool] at h
  rw [Nat.card_eq_fintype_card (α := K)]
  omega

end

namespace G1
open CurveConsts Glv

local notation "E" => curve (b : FpW)

instance : Finite FpW := Finite.of_equiv Fq FpW.elEquiv.symm.toEquiv

theorem card_FpW : Nat.card FpW = fpModulus := by
  rw [Nat.card_congr FpW.elEquiv.toEquiv, Nat.card_zmod]

theorem lambda_sq : lambda ^ 2 + lambda + 1 = frModulus := by decide +kernel

theorem order_gen : frModulus • gen = 0 := by
  have h := phi_sq beta_omega gen
  rw [phi_gen, map_nsmul, phi_gen] at h
  rw [← lambda_sq, ← h]
  module

theorem gen_ne : gen ≠ 0 := by simp [gen, Point.zero_def]

/-- The points killed by the prime order. -/
def torsion : AddSubgroup (E).Point := (nsmulAddMonoidHom (α := (E).Point) frModulus).ker

theorem mem_torsion {P : (E).Point} : P ∈ torsion ↔ frModulus • P = 0 := Iff.rfl

noncomputable instance : Module Fr torsion :=
  AddCommGroup.zmodModule (n := frModulus) (fun P => Subtype.ext (mem_torsion.1 P.2))

/-- Every point of the subgroup is a multiple of the generator. -/
theorem torsion_cyclic {P : (E).Point} (h : frModulus • P = 0) : ∃ n : Nat, P = n • gen := by
  have : Finite torsion := inferInstance
  have hc : Nat.card torsion ≤ 2 * fpModulus + 1 := by
    have := card_points_le (K := FpW)
    rw [card_FpW] at this
    exact (Nat.card_le_card_of_injective _ (Subtype.val_injective)).trans this
  have hpow : Nat.card torsion = frModulus ^ Module.finrank Fr torsion := by
    rw [Module.natCard_eq_pow_finrank (K := Fr), Nat.card_zmod]
  have hle : Module.finrank Fr torsion ≤ 1 := by
    by_contra hn
    have : frModulus ^ 2 ≤ frModulus ^ Module.finrank Fr torsion :=
      Nat.pow_le_pow_right (by decide +kernel) (by omega)
    have h2 : 2 * fpModulus + 1 < frModulus ^ 2 := by decide +kernel
    omega
  obtain ⟨v, hv⟩ := finrank_le_one_iff.1 hle
  obtain ⟨c, hc⟩ := hv ⟨gen, order_gen⟩
  obtain ⟨d, hd⟩ := hv ⟨P, h⟩
  have hc0 : c ≠ 0 := by
    rintro rfl
    rw [zero_smul] at hc
    exact gen_ne (congrArg Subtype.val hc.symm)
  have key : (⟨P, h⟩ : torsion) = (d * c⁻¹) • ⟨gen, order_gen⟩ := by
    rw [← hc, smul_smul, mul_assoc, inv_mul_cancel₀ hc0, mul_one, hd]
  refine ⟨(d * c⁻¹).val, ?_⟩
  have e : ((d * c⁻¹).val : Nat) • (⟨gen, order_gen⟩ : torsion) = (d * c⁻¹) • ⟨gen, order_gen⟩ := by
    rw [← Nat.cast_smul_eq_nsmul Fr, ZMod.natCast_zmod_val]
  have := congrArg Subtype.val (key.trans e.symm)
  simpa using this

/-- On the subgroup the endomorphism is multiplication by `λ`. -/
theorem phi_torsion {P : (E).Point} (h : frModulus • P = 0) : phi beta_omega P = lambda • P := by
  obtain ⟨n, rfl⟩ := torsion_cyclic h
  rw [map_nsmul, phi_gen, nsmul_left_comm]

theorem torsion_of_phi {P : (E).Point} (h : phi beta_omega P = lambda • P) : frModulus • P = 0 := by
  have := phi_sq beta_omega P
  rw [h, map_nsmul, h] at this
  rw [← lambda_sq, ← this]
  module

theorem order_bytes : orderBytes.length = 32 ∧ (∀ c ∈ orderBytes, c < 256) ∧ fromLe orderBytes = frModulus := by
  decide +kernel

/-- The torsion test is exact. -/
theorem isTorsionFree_iff (chk : Bool) {p : Aff} {P : (E).Point} (hp : Affine.Is b p P) :
    ∃ t, isTorsionFree chk p = .ok t ∧ (t = true ↔ frModulus • P = 0) := by
  obtain ⟨h1, h2, h3⟩ := order_bytes
  obtain ⟨q, e, hq⟩ := multiply_is chk beta_omega (ofAffine_is hp) h1 h2 (by rw [h3])
    (by rw [h3]; decide +kernel)
  refine ⟨q.isIdentity, by rw [isTorsionFree, e]; rfl, ?_⟩
  rw [isIdentity_iff hq, h3]
  have hqt : quot frModulus = lambda := by decide +kernel
  have hr : (frModulus : Int) - lambda * lambda = lambda + 1 := by
    rw [← lambda_sq]; push_cast; ring
  rw [hqt, hr]
  constructor
  · intro h
    have h' := congrArg (phi beta_omega) h
    rw [map_add, map_zsmul, map_zsmul, map_zero] at h'
    have h0 := phi_sq beta_omega P
    generalize phi beta_omega (phi beta_omega P) = Q at *
    generalize phi beta_omega P = R at *
    rw [← natCast_zsmul, ← lambda_sq]
    generalize (lambda : Nat) = l at *
    have hQ : Q = -R - P := by rw [← sub_eq_zero, ← h0]; abel
    subst hQ
    have : ((l ^ 2 + l + 1 : Nat) : Int) • P = ((l + 1 : Int) • P + (l : Int) • R) -
        (l : Int) • (((l + 1 : Int) • R) + (l : Int) • (-R - P)) := by
      push_cast
      module
    rw [this, h, h']
    simp
  · intro h
    rw [phi_torsion h, ← natCast_zsmul, smul_smul, ← add_smul]
    have : (lambda : Int) + 1 + lambda * lambda = (frModulus : Int) := by rw [← hr]; ring
    rw [this, natCast_zsmul, h]

/-- Multiplication by a scalar on the subgroup. -/
theorem multiply_torsion (chk : Bool) {p : Proj} {P : (E).Point} (hp : Projective.Is b p P)
    (ht : frModulus • P = 0) {k : List Nat} (hl : k.length = 32) (hb : ∀ c ∈ k, c < 256)
    (hk : fromLe k ≤ frModulus) (hc : NoCarry (fromLe k)) :
    ∃ q, multiply chk beta p k = .ok q ∧ Projective.Is b q (fromLe k • P) := by
  obtain ⟨q, e, hq⟩ := multiply_is chk beta_omega hp hl hb hk hc
  refine ⟨q, e, ?_⟩
  convert hq using 1
  rw [phi_torsion ht, ← natCast_zsmul, ← natCast_zsmul]
  module

end G1
end Kzg.Zk
