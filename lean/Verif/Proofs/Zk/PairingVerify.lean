import Verif.Proofs.Zk.PairingGen
import Verif.Proofs.Zk.G1Subgroup
import Verif.Proofs.Zk.G2Cofactor
/-!
# The comparison of two pairings
-/

set_option exponentiation.threshold 10000

namespace Kzg.Zk.Miller
open Kzg Kzg.Res CurveConsts LawfulCurve Pairing

local notation "r" => frModulus
local notation "E1" => curve (CurveConsts.b (K := FpW))
local notation "E2" => curve (CurveConsts.b (K := Fp2 FpW))

theorem e_mul (m n : Nat) : e (m • G1.gen) (n • G2.gen) = Gt.generator ^ (m * n) := by
  rw [e_smul G1.order_gen G2.order_gen, e_gen]

theorem gen_pow_mod (n : Nat) : Gt.generator ^ n = Gt.generator ^ (n % r) := by
  conv_lhs => rw [← Nat.mod_add_div n r, pow_add, pow_mul, N12.gen_pow, one_pow, mul_one]

theorem gen_pow_iff (m n : Nat) : Gt.generator ^ m = Gt.generator ^ n ↔ (m : Fr) = n := by
  rw [ZMod.natCast_eq_natCast_iff', gen_pow_mod m, gen_pow_mod n]
  have hr : 0 < r := by decide +kernel
  exact ⟨N12.gen_inj (Nat.mod_lt _ hr) (Nat.mod_lt _ hr), fun h => by rw [h]⟩

theorem e_ne_zero (P : (E1).Point) {Q : (E2).Point} (hQ : r • Q = 0) : e P Q ≠ 0 := by
  intro h
  have := e_add_left P (-P) hQ
  rw [add_neg_cancel, e_zero_left, h, zero_mul] at this
  exact one_ne_zero this

theorem e_neg (P : (E1).Point) {Q : (E2).Point} (hQ : r • Q = 0) : e (-P) Q = (e P Q)⁻¹ := by
  apply eq_inv_of_mul_eq_one_right
  rw [← e_add_left _ _ hQ, add_neg_cancel, e_zero_left]

theorem e_pow (P : (E1).Point) {Q : (E2).Point} (hQ : r • Q = 0) (n : Nat) : e (n • P) Q = e P Q ^ n := by
  induction n with
  | zero => rw [zero_nsmul, e_zero_left, pow_zero]
  | succ n ih => rw [succ_nsmul, e_add_left _ _ hQ, ih, pow_succ]

/-- Every value is a power of the generator. -/
theorem e_mem (P : (E1).Point) {Q : (E2).Point} (hQ : r • Q = 0) : e P Q ^ r = 1 := by
  obtain ⟨a, ha⟩ := affine_is_exists P
  obtain ⟨q, hq⟩ := affine_is_exists Q
  by_cases h : P = 0 ∨ Q = 0
  · rw [← (val_one h).eq, one_pow, one_pow]
  · rw [not_or] at h
    obtain ⟨cur, f, -, hv⟩ := loop_val ha h.1 hq hQ h.2
    rw [← hv.eq]
    exact Gt.finalPow_r hv.ne

theorem ctEq_inv {x y z : Fp12 FpW} (hx : x ≠ 0) (h : z = x⁻¹ * y) : Fp12.ctEq 1 z = decide (x = y) := by
  rw [Bool.eq_iff_iff, Fp12.ctEq_iff, decide_eq_true_iff, h]
  constructor
  · intro h
    rw [eq_comm, inv_mul_eq_one₀ hx] at h
    exact h
  · rintro rfl
    rw [inv_mul_cancel₀ hx]

theorem verify_eq {a1 b1 : G1.Proj} {a2 b2 : G2.Proj} {u v : Prepared} {f g w : Fp12 FpW}
    (hu : prepare (Affine.ofProjective a2) = .ok u) (hv : prepare (Affine.ofProjective b2) = .ok v)
    (hf : multiMillerLoop [(Affine.ofProjective a1.neg, u)] = .ok f)
    (hg : multiMillerLoop [(Affine.ofProjective b1, v)] = .ok g)
    (hw : Gt.finalExponentiation (Gt.millerAdd f g) = .ok w) :
    pairingsVerify a1 a2 b1 b2 = .ok (Fp12.ctEq 1 w) := by
  rw [pairingsVerify, hu, bind_ok, hv, bind_ok, hf, bind_ok, hg, bind_ok]
  dsimp only
  rw [hw, bind_ok]

theorem pairingsVerify_spec {a1 b1 : G1.Proj} {a2 b2 : G2.Proj} {P1 P2 : (E1).Point} {Q1 Q2 : (E2).Point}
    (h1 : Projective.Is b a1 P1) (h2 : Projective.Is b a2 Q1) (h3 : Projective.Is b b1 P2) (h4 : Projective.Is b b2 Q2)
    (hQ1 : r • Q1 = 0) (hQ2 : r • Q2 = 0) : pairingsVerify a1 a2 b1 b2 = .ok (decide (e P1 Q1 = e P2 Q2)) := by
  obtain ⟨u, hu, i, f, lf, vf⟩ := multi_one (ofProjective_is (neg_is h1)) (ofProjective_is h2) hQ1
  obtain ⟨v, hv, j, g, lg, vg⟩ := multi_one (ofProjective_is h3) (ofProjective_is h4) hQ2
  have hm : (f * g) ^ finalExp = (e P1 Q1)⁻¹ * e P2 Q2 := by
    rw [mul_pow, vf.eq, e_neg P1 hQ1, vg.eq]
  have hx : Gt.finalExponentiation (f * g) = .ok ((f * g) ^ finalExp) :=
    Gt.finalExponentiation_eq (mul_ne_zero vf.ne vg.ne)
  have hy : Gt.finalExponentiation (Gt.millerAdd f g) = .ok ((f * g) ^ finalExp) := hx
  have lf' : multiMillerLoop [(Affine.ofProjective a1.neg, u)] = .ok f := by rw [multiMillerLoop, lf, bind_ok]
  have lg' : multiMillerLoop [(Affine.ofProjective b1, v)] = .ok g := by rw [multiMillerLoop, lg, bind_ok]
  rw [← ctEq_inv (e_ne_zero P1 hQ1) hm]
  generalize (f * g) ^ finalExp = w at hy
  exact verify_eq hu hv lf' lg' hy

end Kzg.Zk.Miller
