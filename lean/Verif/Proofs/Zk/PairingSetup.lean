import Verif.Proofs.Zk.MillerBilinear
import Verif.Proofs.Zk.FinalExp
import Verif.Proofs.Zk.G2Cofactor
/-!
# The fields of the curve, for the pairing
-/

set_option exponentiation.threshold 1000

namespace Kzg.Zk.Miller
open Kzg Kzg.Res CurveConsts LawfulCurve

local notation "p" => fpModulus
local notation "r" => frModulus

/-- The exponent of the final exponentiation. -/
def finalExp : Nat := 3 * ((p ^ 12 - 1) / r)

/-- The final exponentiation as a homomorphism. -/
def finalHom : Fp12 FpW →* Fp12 FpW := powMonoidHom finalExp

theorem finalHom_apply (x : Fp12 FpW) : finalHom x = x ^ finalExp := rfl

/-- The coordinates of the first group. -/
def inc1 : FpW →+* Fp12 FpW := Gt.inc.comp Fp2.ofHom

section
variable {K : Type} [Field K] [DecidableEq K]

theorem conj_fixed [LawfulTower K] {x : Fp12 K} (h2 : (2 : Fp6 K) ≠ 0) (h : Fp12.conjHom x = x) : x = Fp12.ofHom x.c0 := by
  have h1 : -x.c1 = x.c1 := congrArg Fp12.c1 h
  have h0 : x.c1 = 0 := by
    have h3 : (2 : Fp6 K) * x.c1 = 0 := by linear_combination -h1
    exact (mul_eq_zero.1 h3).resolve_left h2
  conv_lhs => rw [Fp12.eq_add x, h0, map_zero, zero_mul, add_zero]

theorem conj_conj (x : Fp12 K) : Fp12.conjHom (Fp12.conjHom x) = x := by
  apply Fp12.ext
  · rfl
  · exact neg_neg _

theorem conj_inc (c : Fp2 K) : Fp12.conjHom (Gt.inc c) = Gt.inc c := by
  apply Fp12.ext
  · rfl
  · exact neg_zero

theorem conj_w : Fp12.conjHom (Fp12.w : Fp12 K) = -Fp12.w := by
  apply Fp12.ext
  · exact neg_zero.symm
  · rfl

theorem w_ne : (Fp12.w : Fp12 K) ≠ 0 := fun h => one_ne_zero (congrArg Fp12.c1 h)

theorem inc_w2 (a : Fp2 K) : Gt.inc a * (Fp12.w : Fp12 K) ^ 2 = ⟨⟨0, a, 0⟩, 0⟩ := by
  have e : Fp6.ofHom a * (Fp6.v : Fp6 K) = ⟨0, a, 0⟩ := by
    ext1 <;> simp
  rw [pow_two, Fp12.w_sq]
  show Fp12.ofHom (Fp6.ofHom a) * Fp12.ofHom Fp6.v = _
  rw [← map_mul, e]
  rfl

theorem indep {a c : Fp2 K} (ha : a ≠ 0) : Gt.inc a * (Fp12.w : Fp12 K) ^ 2 ≠ Gt.inc c := by
  rw [inc_w2]
  intro h
  exact ha (congrArg (fun x => x.c0.c1) h)

theorem inc_w3 (a : Fp2 K) : Gt.inc a * (Fp12.w : Fp12 K) ^ 3 = ⟨0, ⟨0, a, 0⟩⟩ := by
  rw [pow_succ, ← mul_assoc, inc_w2]
  apply Fp12.ext
  · ext1 <;> simp
  · ext1 <;> simp

/-- The line of the code at a point. -/
theorem ell_eq [LawfulTower K] (f : Fp12 K) (c : Pairing.Coeffs (Fp2 K)) (q : Affine K) :
    Pairing.ell f c q = f * cval Gt.inc (Gt.inc (Fp2.ofHom q.x) * Fp12.w ^ 2) (Gt.inc (Fp2.ofHom q.y) * Fp12.w ^ 3) c := by
  obtain ⟨c0, c1, c2⟩ := c
  rw [Pairing.ell, Fp12.mulBy014_eq, cval, ← mul_assoc, ← mul_assoc, ← map_mul, ← map_mul, inc_w2, inc_w3]
  congr 1
  have e0 : (⟨c0.c0 * q.y, c0.c1 * q.y⟩ : Fp2 K) = c0 * Fp2.ofHom q.y := by ext <;> simp
  have e1 : (⟨c1.c0 * q.x, c1.c1 * q.x⟩ : Fp2 K) = c1 * Fp2.ofHom q.x := by ext <;> simp
  simp only
  rw [e0, e1]
  have e2 : (Gt.inc c2 : Fp12 K) = ⟨⟨c2, 0, 0⟩, 0⟩ := rfl
  rw [e2]
  apply Fp12.ext
  · ext1 <;> simp
  · ext1 <;> simp

end

theorem kill : Kill (Gt.inc : Fp2 FpW →+* Fp12 FpW) Fp12.conjHom finalHom where
  invol := conj_conj
  base := conj_inc
  kill x hx h := by
    have e : x ^ p ^ 6 = x := by
      rw [← Fp12.conjugate_eq, ← Fp12.conjHom_apply, h]
    have e1 : x ^ (p ^ 6 - 1) = 1 := by
      have : x ^ (p ^ 6 - 1) * x = 1 * x := by
        rw [← pow_succ, show p ^ 6 - 1 + 1 = p ^ 6 by decide +kernel, e, one_mul]
      exact mul_right_cancel₀ hx this
    rw [finalHom_apply, show finalExp = (p ^ 6 - 1) * (finalExp / (p ^ 6 - 1)) by decide +kernel, pow_mul, e1, one_pow]

theorem frobC_x : G2.psiCoeffX * (Fp12.frobC * Fp12.frobC) = 1 := by
  have h : (Fp12.frobC : Fp2 FpW) = N2.cast ⟨3850754370037169011952147076051364057158807420970682438676050522613628423219637725072182697113062777891589506424760,
      151655185184498381465642749684540099398075398968325446656007613510403227271200139370504932015952886146304766135027⟩ := by
    rw [← Fp12.xi_pow_sixth]
    exact xi_pow (by decide +kernel) (by decide +kernel)
  rw [h, G2.cx_eq, ← N2.mul_cast, ← N2.mul_cast, ← N2.one_cast]
  exact N2.cast_eq_of_mod (by decide +kernel) (by decide +kernel)

theorem frobC_y : G2.psiCoeffY * (Fp12.frobC * Fp12.frobC * Fp12.frobC) = 1 := by
  have h : (Fp12.frobC : Fp2 FpW) = N2.cast ⟨3850754370037169011952147076051364057158807420970682438676050522613628423219637725072182697113062777891589506424760,
      151655185184498381465642749684540099398075398968325446656007613510403227271200139370504932015952886146304766135027⟩ := by
    rw [← Fp12.xi_pow_sixth]
    exact xi_pow (by decide +kernel) (by decide +kernel)
  rw [h, G2.cy_eq, ← N2.mul_cast, ← N2.mul_cast, ← N2.mul_cast, ← N2.one_cast]
  exact N2.cast_eq_of_mod (by decide +kernel) (by decide +kernel)

theorem frob_w_alg {R S : Type} [CommRing R] [CommRing S] (i : R →+* S) {c x : R} {w w' : S} (hw : w' = i c * w) {n : Nat}
    (h : x * c ^ n = 1) : i x * w' ^ n = w ^ n := by
  rw [hw, mul_pow, ← mul_assoc, ← map_pow, ← map_mul, h, map_one, one_mul]

theorem setup : Setup inc1 (Gt.inc : Fp2 FpW →+* Fp12 FpW) Fp12.w Fp12.conjHom finalHom (frobenius (Fp12 FpW) p)
    Fp2.conjHom G2.psiCoeffX G2.psiCoeffY p r xBits where
  kill := kill
  hb := by
    rw [G2.b_eq, G1.b_eq, Fp12.w_pow_six, map_mul, map_ofNat, map_ofNat]
    rfl
  conj_j a := conj_inc _
  conj_w := conj_w
  w_ne := w_ne
  indep a c ha := indep fun h => ha (congrArg Fp2.c0 h)
  tw := G2.psi_twist
  frob x := rfl
  frob_j a := by
    rw [frobenius_def, ← map_pow, FpW.pow_p]
  frob_i c := by
    rw [frobenius_def, ← map_pow, ← Fp2.frobenius_eq]
    rfl
  frob_w2 := frob_w_alg Gt.inc Fp12.w_pow_p (by rw [pow_two]; exact frobC_x)
  frob_w3 := frob_w_alg Gt.inc Fp12.w_pow_p (by rw [pow_succ, pow_two]; exact frobC_y)
  prime := Fact.out
  three := by decide +kernel
  lt := by rw [xBits_val]; decide +kernel
  dvd := by rw [xBits_val]; decide +kernel
  order x h := Gt.finalPow_r h

theorem psi_xBits {Q : (curve (b : Fp2 FpW)).Point} (h : r • Q = 0) : twistFun G2.psi_twist Q = -(bval xBits • Q) := by
  have e := G2.psi_torsion h
  rw [xBits_val]
  rw [neg_smul] at e
  refine e.trans (congrArg Neg.neg ?_)
  exact natCast_zsmul Q 0xd201000000010000

end Kzg.Zk.Miller
