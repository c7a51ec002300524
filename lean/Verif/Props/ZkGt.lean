import Verif.Proofs.Zk.NatTower
import Verif.Proofs.Zk.TowerSpec
/-!
# Properties C75 and C76: the final exponentiation and the target group of zkcrypto

`Fp12.el` (Verif/Spec/ZkTower.lean) says which element of Mathlib's field `F12` a structure stands for. The target group
is the set of elements with `x ^ r = 1`, `r` the order of the scalar field.
-/

set_option exponentiation.threshold 1000

namespace Kzg.Props
open Kzg Kzg.Zk Kzg.Zk.Gt

local notation "p" => fpModulus
local notation "r" => frModulus

/-! ## C75: the final exponentiation -/

/-- C75: the exponent is an integer, and three does not change which elements are sent to one. -/
theorem C75_exponent : r ∣ p ^ 12 - 1 ∧ Nat.Coprime 3 r := by
  constructor
  · exact Nat.dvd_of_mod_eq_zero (by decide +kernel)
  · decide +kernel

/-- C75: every nonzero element is raised to three times `(p¹² - 1) / r`. -/
theorem C75_power {f : Fp12 FpW} (h : f.el ≠ 0) :
    ∃ g, finalExponentiation f = .ok g ∧ g.el = f.el ^ (3 * ((p ^ 12 - 1) / r)) :=
  ⟨_, finalExponentiation_eq (mt Fp12.el_eq_zero.2 h), Fp12.el_pow f _⟩

/-- C75: exactly zero makes it panic. -/
theorem C75_panic (f : Fp12 FpW) : finalExponentiation f = .panic ↔ f.el = 0 := by
  constructor
  · intro h
    by_contra h0
    obtain ⟨g, hg, -⟩ := C75_power h0
    rw [hg] at h
    cases h
  · intro h
    exact finalExponentiation_zero (Fp12.el_eq_zero.1 h)

/-- C75: the result is in the target group. -/
theorem C75_order {f g : Fp12 FpW} (h : finalExponentiation f = .ok g) : g.el ^ r = 1 := by
  have h0 : f ≠ 0 := by
    intro e
    rw [finalExponentiation_zero e] at h
    cases h
  rw [finalExponentiation_eq h0] at h
  rw [← Res.ok.inj h, ← Fp12.el_pow, finalPow_r h0, Fp12.el_one]

/-- C75: a sum of Miller loop results is sent to the sum of their images: one final exponentiation suffices. -/
theorem C75_add {f g a b : Fp12 FpW} (hf : finalExponentiation f = .ok a) (hg : finalExponentiation g = .ok b) :
    finalExponentiation (millerAdd f g) = .ok (add a b) := by
  have hf0 : f ≠ 0 := by
    intro e
    rw [finalExponentiation_zero e] at hf
    cases hf
  have hg0 : g ≠ 0 := by
    intro e
    rw [finalExponentiation_zero e] at hg
    cases hg
  rw [finalExponentiation_eq hf0] at hf
  rw [finalExponentiation_eq hg0] at hg
  rw [millerAdd, finalExponentiation_eq (mul_ne_zero hf0 hg0), mul_pow, Res.ok.inj hf, Res.ok.inj hg]
  rfl

/-- C75: every element of the target group is the image of some element. -/
theorem C75_onto {g : Fp12 FpW} (h : g.el ^ r = 1) : ∃ f, finalExponentiation f = .ok g := by
  have h' : g ^ r = 1 := Fp12.elEquiv.injective
    (show (g ^ r).el = (1 : Fp12 FpW).el by rw [Fp12.el_pow, h, Fp12.el_one])
  obtain ⟨h0, -⟩ := cyc_of_order h'
  have hc : Nat.Coprime (3 * ((p ^ 12 - 1) / r)) r := by decide +kernel
  obtain ⟨k, hk⟩ := Nat.exists_mul_mod_eq_one_of_coprime hc (by decide +kernel)
  refine ⟨g ^ k, ?_⟩
  rw [finalExponentiation_eq (pow_ne_zero _ h0), ← pow_mul, mul_comm]
  generalize 3 * ((p ^ 12 - 1) / r) * k = m at hk
  rw [← Nat.div_add_mod m r, pow_add, pow_mul, h', one_pow, one_mul, hk.2, pow_one]

/-- The element `w` satisfies the hypotheses: it is not zero. -/
example : ∃ g, finalExponentiation (Fp12.w : Fp12 FpW) = .ok g ∧ g.el ^ r = 1 := by
  have h : (Fp12.w : Fp12 FpW).el ≠ 0 := by
    intro e
    have := congrArg (fun x => x.c1.c0.c0) (Fp12.el_eq_zero.1 e)
    exact one_ne_zero this
  obtain ⟨g, hg, -⟩ := C75_power h
  exact ⟨g, hg, C75_order hg⟩

/-! ## C76: the target group -/

/-- C76: the identity is one, and the test for it is exact. -/
theorem C76_identity : (identity : Fp12 FpW).el = 1 ∧ ∀ a : Fp12 FpW, isIdentity a = true ↔ a.el = 1 := by
  refine ⟨Fp12.el_one, fun a => ?_⟩
  rw [isIdentity, Fp12.ctEq_iff, identity, ← Fp12.el_one]
  exact Fp12.elEquiv.injective.eq_iff.symm

/-- C76: addition is the product, doubling the square; the target group is closed under both. -/
theorem C76_add (a b : Fp12 FpW) : (add a b).el = a.el * b.el ∧ (double a).el = a.el ^ 2 ∧
    (a.el ^ r = 1 → b.el ^ r = 1 → (add a b).el ^ r = 1) := by
  have h : (add a b).el = a.el * b.el := Fp12.el_mul a b
  refine ⟨h, ?_, fun ha hb => by rw [h, mul_pow, ha, hb, one_mul]⟩
  rw [double, Fp12.square_eq, pow_two]
  exact Fp12.el_mul a a

/-- C76: on the target group the conjugate is the inverse, so negation and subtraction are right. -/
theorem C76_neg {a : Fp12 FpW} (h : a.el ^ r = 1) : a.el * (neg a).el = 1 ∧ (neg a).el ^ r = 1 ∧
    ∀ b : Fp12 FpW, (sub b a).el * a.el = b.el := by
  have h' : a ^ r = 1 := Fp12.elEquiv.injective
    (show (a ^ r).el = (1 : Fp12 FpW).el by rw [Fp12.el_pow, h, Fp12.el_one])
  obtain ⟨h0, -⟩ := cyc_of_order h'
  have h1 : a.el * (neg a).el = 1 := by rw [neg_eq h', ← Fp12.el_mul, mul_inv_cancel₀ h0, Fp12.el_one]
  refine ⟨h1, ?_, fun b => ?_⟩
  · have := congrArg (· ^ r) h1
    simp only [mul_pow, one_pow] at this
    rwa [h, one_mul] at this
  · rw [sub, (C76_add _ _).1, mul_assoc, mul_comm (neg a).el, h1, mul_one]

/-- C76: outside the target group negation is not the inverse: `neg w = -w` and `w · (-w) ≠ 1`. -/
theorem C76_neg_outside : ∃ a : Fp12 FpW, a.el ≠ 0 ∧ a.el * (neg a).el ≠ 1 := by
  have hw : (Fp12.w : Fp12 FpW) ≠ 0 := by
    intro e
    exact one_ne_zero (congrArg (fun x => x.c1.c0.c0) e)
  have hn : neg (Fp12.w : Fp12 FpW) = -Fp12.w := by
    refine Fp12.ext ?_ rfl
    exact (neg_zero : -(0 : Fp6 FpW) = 0).symm
  refine ⟨Fp12.w, mt Fp12.el_eq_zero.1 hw, fun h => ?_⟩
  rw [← Fp12.el_mul, ← Fp12.el_one] at h
  have h := Fp12.elEquiv.injective h
  rw [hn, mul_neg, Fp12.w_sq] at h
  have := congrArg (fun x => x.c0.c0.c0) h
  exact zero_ne_one ((neg_zero (G := FpW)).symm.trans this)

/-- C76: multiplication by a scalar is the power with the value of the scalar. -/
theorem C76_mul (a : Fp12 FpW) {s : Scalar} {x : Fr} (hs : Scalar.Rep s x) : (mul a s).el = a.el ^ x.val := by
  rw [mul_eq a hs]
  exact Fp12.el_pow a _

/-- C76: on the target group this is an action of the scalar field. -/
theorem C76_mul_action {a : Fp12 FpW} (h : a.el ^ r = 1) {s t u v : Scalar} {x y : Fr} (hs : Scalar.Rep s x)
    (ht : Scalar.Rep t y) (hu : Scalar.Rep u (x + y)) (hv : Scalar.Rep v (x * y)) :
    (mul a u).el = (mul a s).el * (mul a t).el ∧ (mul a v).el = (mul (mul a s) t).el := by
  have key : ∀ n : Nat, a.el ^ (n % r) = a.el ^ n := by
    intro n
    conv_rhs => rw [← Nat.div_add_mod n r, pow_add, pow_mul, h, one_pow, one_mul]
  rw [C76_mul a hu, C76_mul a hs, C76_mul a ht, C76_mul a hv, C76_mul _ ht, C76_mul a hs, ZMod.val_add, ZMod.val_mul,
    key, key, pow_add, pow_mul]
  exact ⟨rfl, rfl⟩

/-- C76: the sum of a list is the product of its elements. -/
theorem C76_sum (l : List (Fp12 FpW)) : (Gt.sum l).el = (l.map Fp12.el).prod := by
  rw [sum_eq]
  induction l with
  | nil => exact Fp12.el_one
  | cons a l ih => rw [List.prod_cons, List.map_cons, List.prod_cons, ← ih]; exact Fp12.el_mul _ _

/-- C76: the constant `generator` is in the target group, is not the identity, and every element of the group is exactly
one multiple of it. -/
theorem C76_generator : generator.el ^ r = 1 ∧ generator.el ≠ 1 ∧
    ∀ a : Fp12 FpW, a.el ^ r = 1 → ∃! n : Fr, a.el = generator.el ^ n.val := by
  have back : ∀ {a b : Fp12 FpW}, a.el = b.el → a = b := fun h => Fp12.elEquiv.injective h
  refine ⟨by rw [← Fp12.el_pow, N12.gen_pow, Fp12.el_one], fun h => N12.gen_ne (back (h.trans Fp12.el_one.symm)), ?_⟩
  intro a ha
  obtain ⟨n, hn, e⟩ := N12.gen_generates (a := a) (back (by rw [Fp12.el_pow, ha, Fp12.el_one]))
  refine ⟨(n : Fr), ?_, fun m hm => ?_⟩
  · show a.el = _
    rw [ZMod.val_natCast_of_lt hn, ← Fp12.el_pow, e]
  · have hm : a.el = generator.el ^ m.val := hm
    rw [← Fp12.el_pow] at hm
    rw [← N12.gen_inj (ZMod.val_lt m) hn ((back hm).symm.trans e.symm), ZMod.natCast_zmod_val]

/-- The generator is an element of the target group other than the identity. -/
example : generator.el ^ r = 1 ∧ isIdentity generator = false := by
  refine ⟨C76_generator.1, ?_⟩
  rw [Bool.eq_false_iff]
  exact fun h => C76_generator.2.1 ((C76_identity.2 _).1 h)

/-! ## C77: random elements of the target group -/

/-- C77, the part that holds: the loop ends at once, and the result is in the target group. -/
theorem C77_random_partial (fuel : Nat) : ∃ g, random (fuel + 1) = some (.ok g) ∧ g.el ^ r = 1 := by
  have h : Fp12.isZero (1 : Fp12 FpW) = false := by
    rw [Bool.eq_false_iff]
    intro h
    exact one_ne_zero ((Fp12.isZero_iff _).1 h)
  refine ⟨1, ?_, ?_⟩
  · rw [random, h, Bool.not_false, if_pos rfl, finalExponentiation_eq one_ne_zero, one_pow]
  · rw [Fp12.el_one, one_pow]

/-- C77, the part that fails: the claim is that every element may be returned; the code never returns any other element
than the identity, although there are others (`C76_generator`). -/
theorem C77_random_is_identity {fuel : Nat} {g : Fp12 FpW} (h : random fuel = some (.ok g)) : g.el = 1 := by
  cases fuel with
  | zero => cases h
  | succ n =>
    have h1 : Fp12.isZero (1 : Fp12 FpW) = false := by
      rw [Bool.eq_false_iff]
      intro h
      exact one_ne_zero ((Fp12.isZero_iff _).1 h)
    rw [random, h1, Bool.not_false, if_pos rfl, finalExponentiation_eq one_ne_zero, one_pow] at h
    rw [← Res.ok.inj (Option.some.inj h), Fp12.el_one]

end Kzg.Props
