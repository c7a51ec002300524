import Verif.Proofs.Zk.TowerFrob
import Verif.Spec.ZkTower
import Mathlib.FieldTheory.KummerPolynomial
/-!
# The extension fields of the code and those of Mathlib
-/

set_option linter.unusedSectionVars false

namespace Kzg.Zk
open Polynomial

theorem poly2_eq : (X ^ 2 + 1 : Fq[X]) = X ^ 2 - C (-1) := by rw [map_neg, map_one, sub_neg_eq_add]

instance : Fact (Irreducible (X ^ 2 + 1 : Fq[X])) := ⟨by
  rw [poly2_eq]
  refine X_pow_sub_C_irreducible_of_prime Nat.prime_two fun b hb => ?_
  have := LawfulTower.neg_one (FpW.elEquiv.symm b)
  refine this ?_
  rw [← map_pow, hb, map_neg, map_one]⟩

namespace Fp2

/-- From the mathematical field back to the code. -/
noncomputable def lift : F2 →+* Fp2 FpW :=
  AdjoinRoot.lift (ofHom.comp FpW.elEquiv.symm.toRingHom) u (by
    rw [eval₂_add, eval₂_pow, eval₂_X, eval₂_one, pow_two, u_sq, neg_add_cancel])

theorem lift_el (a : Fp2 FpW) : lift (el a) = a := by
  rw [el, map_add, map_mul, lift, AdjoinRoot.lift_of, AdjoinRoot.lift_of, AdjoinRoot.lift_root]
  conv_rhs => rw [eq_add a]
  rw [RingHom.comp_apply, RingHom.comp_apply]
  have e : ∀ x : FpW, FpW.elEquiv.symm.toRingHom x.el = x := FpW.elEquiv.symm_apply_apply
  rw [e, e]

theorem el_lift (x : F2) : el (lift x) = x := lift.injective (lift_el _)

/-- The correspondence. -/
noncomputable def elEquiv : Fp2 FpW ≃+* F2 := RingEquiv.symm
  { lift with invFun := el, left_inv := el_lift, right_inv := lift_el }

theorem elEquiv_apply (a : Fp2 FpW) : elEquiv a = el a := rfl

theorem el_zero : el (0 : Fp2 FpW) = 0 := map_zero elEquiv
theorem el_one : el (1 : Fp2 FpW) = 1 := map_one elEquiv
theorem el_add (a b : Fp2 FpW) : el (a + b) = el a + el b := map_add elEquiv a b
theorem el_sub (a b : Fp2 FpW) : el (a - b) = el a - el b := map_sub elEquiv a b
theorem el_neg (a : Fp2 FpW) : el (-a) = -el a := map_neg elEquiv a
theorem el_mul (a b : Fp2 FpW) : el (a * b) = el a * el b := map_mul elEquiv a b
theorem el_pow (a : Fp2 FpW) (k : Nat) : el (a ^ k) = el a ^ k := map_pow elEquiv a k
theorem el_eq_zero {a : Fp2 FpW} : el a = 0 ↔ a = 0 := map_eq_zero_iff elEquiv elEquiv.injective

theorem el_xi : el xi = F2.u + 1 := by
  rw [el, xi_c0, xi_c1, FpW.el_one, map_one, one_mul, add_comm]

end Fp2

instance : Fact (Irreducible (X ^ 3 - C (F2.u + 1) : F2[X])) := ⟨by
  refine X_pow_sub_C_irreducible_of_prime Nat.prime_three fun b hb => ?_
  refine Fp2.xi_cube (Fp2.elEquiv.symm b) ?_
  rw [← map_pow, hb, ← Fp2.el_xi]
  exact Fp2.lift_el _⟩

namespace Fp6

/-- From the mathematical field back to the code. -/
noncomputable def lift : F6 →+* Fp6 FpW :=
  AdjoinRoot.lift (ofHom.comp Fp2.lift) v (by
    rw [eval₂_sub, eval₂_pow, eval₂_X, eval₂_C, RingHom.comp_apply, ← Fp2.el_xi, Fp2.lift_el, ← v_cube]
    ring)

theorem lift_el (a : Fp6 FpW) : lift (el a) = a := by
  rw [el, map_add, map_add, map_mul, map_mul, map_pow, lift, AdjoinRoot.lift_of, AdjoinRoot.lift_of,
    AdjoinRoot.lift_of, AdjoinRoot.lift_root]
  rw [RingHom.comp_apply, RingHom.comp_apply, RingHom.comp_apply, Fp2.lift_el, Fp2.lift_el, Fp2.lift_el, pow_two]
  exact (eq_add a).symm

theorem el_lift (x : F6) : el (lift x) = x := lift.injective (lift_el _)

/-- The correspondence. -/
noncomputable def elEquiv : Fp6 FpW ≃+* F6 := RingEquiv.symm
  { lift with invFun := el, left_inv := el_lift, right_inv := lift_el }

theorem elEquiv_apply (a : Fp6 FpW) : elEquiv a = el a := rfl

theorem el_zero : el (0 : Fp6 FpW) = 0 := map_zero elEquiv
theorem el_one : el (1 : Fp6 FpW) = 1 := map_one elEquiv
theorem el_add (a b : Fp6 FpW) : el (a + b) = el a + el b := map_add elEquiv a b
theorem el_sub (a b : Fp6 FpW) : el (a - b) = el a - el b := map_sub elEquiv a b
theorem el_neg (a : Fp6 FpW) : el (-a) = -el a := map_neg elEquiv a
theorem el_mul (a b : Fp6 FpW) : el (a * b) = el a * el b := map_mul elEquiv a b
theorem el_pow (a : Fp6 FpW) (k : Nat) : el (a ^ k) = el a ^ k := map_pow elEquiv a k
theorem el_eq_zero {a : Fp6 FpW} : el a = 0 ↔ a = 0 := map_eq_zero_iff elEquiv elEquiv.injective

theorem el_v : el v = F6.v := by
  rw [el, v_c0, v_c1, v_c2, ← Fp2.elEquiv_apply, ← Fp2.elEquiv_apply, map_zero, map_one, map_zero, map_one]; ring

end Fp6

instance : Fact (Irreducible (X ^ 2 - C F6.v : F6[X])) := ⟨by
  refine X_pow_sub_C_irreducible_of_prime Nat.prime_two fun b hb => ?_
  refine Fp6.v_sq (Fp6.elEquiv.symm b) ?_
  rw [← map_pow, hb, ← Fp6.el_v]
  exact Fp6.lift_el _⟩

namespace Fp12

/-- From the mathematical field back to the code. -/
noncomputable def lift : F12 →+* Fp12 FpW :=
  AdjoinRoot.lift (ofHom.comp Fp6.lift) w (by
    rw [eval₂_sub, eval₂_pow, eval₂_X, eval₂_C, RingHom.comp_apply, ← Fp6.el_v, Fp6.lift_el, ← w_sq]
    ring)

theorem lift_el (a : Fp12 FpW) : lift (el a) = a := by
  rw [el, map_add, map_mul, lift, AdjoinRoot.lift_of, AdjoinRoot.lift_of, AdjoinRoot.lift_root]
  rw [RingHom.comp_apply, RingHom.comp_apply, Fp6.lift_el, Fp6.lift_el]
  exact (eq_add a).symm

theorem el_lift (x : F12) : el (lift x) = x := by
  let _ : Field F12 := AdjoinRoot.instField
  exact lift.injective (lift_el _)

/-- The correspondence. -/
noncomputable def elEquiv : Fp12 FpW ≃+* F12 := RingEquiv.symm
  { lift with invFun := el, left_inv := el_lift, right_inv := lift_el }

theorem elEquiv_apply (a : Fp12 FpW) : elEquiv a = el a := rfl

theorem el_zero : el (0 : Fp12 FpW) = 0 := map_zero elEquiv
theorem el_one : el (1 : Fp12 FpW) = 1 := map_one elEquiv
theorem el_add (a b : Fp12 FpW) : el (a + b) = el a + el b := map_add elEquiv a b
theorem el_sub (a b : Fp12 FpW) : el (a - b) = el a - el b := map_sub elEquiv a b
theorem el_neg (a : Fp12 FpW) : el (-a) = -el a := map_neg elEquiv a
theorem el_mul (a b : Fp12 FpW) : el (a * b) = el a * el b := map_mul elEquiv a b
theorem el_pow (a : Fp12 FpW) (k : Nat) : el (a ^ k) = el a ^ k := map_pow elEquiv a k
theorem el_eq_zero {a : Fp12 FpW} : el a = 0 ↔ a = 0 := map_eq_zero_iff elEquiv elEquiv.injective

theorem el_mk {c0 c1 : Fp6 FpW} {x y : F6} (h0 : c0.el = x) (h1 : c1.el = y) :
    el ⟨c0, c1⟩ = AdjoinRoot.of _ x + AdjoinRoot.of _ y * F12.w := by subst h0 h1; rfl

theorem hom_zero {R S : Type} [CommRing R] [CommRing S] (f : R →+* S) (x : R) (z : S) :
    f x + f 0 * z = f x := by rw [map_zero, zero_mul, add_zero]

theorem el_ofFp6 (a : Fp6 FpW) : (ofFp6 a).el = AdjoinRoot.of _ a.el :=
  (el_mk rfl Fp6.el_zero).trans (hom_zero _ _ _)

theorem hom_neg {R S : Type} [CommRing R] [CommRing S] (f : R →+* S) (x y : R) (z : S) :
    f x + f (-y) * z = f x - f y * z := by rw [map_neg, neg_mul, sub_eq_add_neg]

theorem el_conjugate (a : Fp12 FpW) :
    a.conjugate.el = AdjoinRoot.of _ a.c0.el - AdjoinRoot.of _ a.c1.el * F12.w :=
  (el_mk rfl (Fp6.el_neg a.c1)).trans (hom_neg _ _ _ _)

end Fp12
end Kzg.Zk
