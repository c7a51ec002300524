import Verif.Spec.ZkCurve
import Mathlib.Tactic.LinearCombination
import Mathlib.Tactic.FieldSimp
import Mathlib.Tactic.Ring
/-!
# The complete point formulas compute the group law
-/

set_option linter.unusedSectionVars false

namespace Kzg.Zk

open WeierstrassCurve.Affine

variable {K : Type} [Field K] [DecidableEq K]

/-- What the proofs use about the constants: `mul3b` multiplies by `3b`, the field has neither
characteristic 2 nor 3, and `x³ + b` has no root, i.e. the curve has no point of order two. -/
class LawfulCurve (K : Type) [Field K] extends CurveConsts K where
  mul3b_eq : ∀ a : K, mul3b a = 3 * b * a
  two_ne : (2 : K) ≠ 0
  three_ne : (3 : K) ≠ 0
  no_root : ∀ x : K, x ^ 3 + b ≠ 0

section
variable {b : K}

theorem equation_iff {x y : K} : (curve b).Equation x y ↔ y ^ 2 = x ^ 3 + b := by
  rw [WeierstrassCurve.Affine.equation_iff]
  simp [curve]

theorem negY_eq (x y : K) : (curve b).negY x y = -y := by simp [WeierstrassCurve.Affine.negY, curve]

theorem addX_eq (x₁ x₂ l : K) : (curve b).addX x₁ x₂ l = l ^ 2 - x₁ - x₂ := by
  simp [WeierstrassCurve.Affine.addX, curve]

theorem addY_eq (x₁ x₂ y₁ l : K) :
    (curve b).addY x₁ x₂ y₁ l = -(l * ((l ^ 2 - x₁ - x₂) - x₁) + y₁) := by
  rw [WeierstrassCurve.Affine.addY, WeierstrassCurve.Affine.negAddY, negY_eq, addX_eq]

end

variable [LawfulCurve K]
open CurveConsts LawfulCurve

local notation "E" => curve (CurveConsts.b (K := K))

theorem y_ne {x y : K} (h : (E).Equation x y) : y ≠ 0 := by
  rintro rfl
  rw [equation_iff] at h
  exact no_root x (by rw [← h]; ring)

theorem nonsingular_iff {x y : K} : (E).Nonsingular x y ↔ y ^ 2 = x ^ 3 + b := by
  constructor
  · intro h
    exact equation_iff.1 h.1
  · intro h
    have he : (E).Equation x y := equation_iff.2 h
    rw [WeierstrassCurve.Affine.nonsingular_iff]
    refine ⟨he, Or.inr ?_⟩
    simp only [curve]
    intro hy
    have h2 : (2 : K) * y = 0 := by linear_combination hy
    rcases mul_eq_zero.1 h2 with h | h
    · exact two_ne h
    · exact y_ne he h

/-- The identity stands for zero. -/
theorem affine_identity_is : Affine.Is (b : K) Affine.identity 0 := .infinity

theorem identity_is : Projective.Is (b : K) Projective.identity 0 := .infinity one_ne_zero

/-- Scaling the coordinates does not change the point. -/
theorem is_scale {x y z c : K} {P : (E).Point} (h : Projective.Is b ⟨x, y, z⟩ P) (hc : c ≠ 0) :
    Projective.Is b ⟨c * x, c * y, c * z⟩ P := by
  cases h with
  | infinity hy =>
    rw [mul_zero]
    exact .infinity (mul_ne_zero hc hy)
  | @finite x y _ hz hn =>
    have := Projective.Is.finite (b := b) (mul_ne_zero hc hz) hn
    rwa [show x * (c * z) = c * (x * z) by ring, show y * (c * z) = c * (y * z) by ring] at this

/-- Coordinates given by quotients. -/
theorem is_of_eq {x y z u v : K} (hz : z ≠ 0) (hn : (E).Nonsingular u v) (hx : x = u * z) (hy : y = v * z) :
    Projective.Is b ⟨x, y, z⟩ (.some u v hn) := by
  subst hx hy
  exact .finite hz hn

/-- Two descriptions of the same affine point. -/
theorem some_congr {u v u' v' : K} {h : (E).Nonsingular u v} (hu : u = u') (hv : v = v') :
    ∃ h' : (E).Nonsingular u' v', Point.some u v h = Point.some u' v' h' := by
  subst hu hv
  exact ⟨h, rfl⟩

section
variable {x1 y1 x2 y2 : K}

/-- The addition formulas on affine coordinates. -/
def rx (x1 y1 x2 y2 : K) : K := (x1 * y2 + x2 * y1) * (y1 * y2 - 3 * b) - 3 * b * (y1 + y2) * (x1 + x2)
def ry (x1 y1 x2 y2 : K) : K := (y1 * y2) ^ 2 - 9 * b * b + 9 * b * x1 * x2 * (x1 + x2)
def rz (x1 y1 x2 y2 : K) : K := (y1 + y2) * (y1 * y2 + 3 * b) + 3 * x1 * x2 * (x1 * y2 + x2 * y1)

theorem ne_negY {x y : K} (h : (E).Equation x y) : y ≠ (E).negY x y := by
  rw [negY_eq]
  intro hy
  exact mul_ne_zero two_ne (y_ne h) (show (2 : K) * y = 0 by linear_combination hy)

theorem slope_self {x y : K} (h : (E).Equation x y) : (E).slope x x y y = 3 * x ^ 2 / (2 * y) := by
  rw [slope_of_Y_ne rfl (ne_negY h), negY_eq]
  simp only [curve]
  congr 1 <;> ring

theorem some_add_some (h1 : (E).Nonsingular x1 y1) (h2 : (E).Nonsingular x2 y2) :
    Projective.Is b ⟨rx x1 y1 x2 y2, ry x1 y1 x2 y2, rz x1 y1 x2 y2⟩ (Point.some _ _ h1 + Point.some _ _ h2) := by
  have e1 := nonsingular_iff.1 h1
  have e2 := nonsingular_iff.1 h2
  have n1 := y_ne h1.1
  have n2 := y_ne h2.1
  have t2 : (2 : K) ≠ 0 := two_ne
  by_cases hx : x1 = x2
  · subst hx
    by_cases hy : y1 = -y2
    · subst hy
      rw [Point.add_of_Y_eq rfl (by rw [negY_eq])]
      have hs := nonsingular_add h2 h2 (fun hxy => ne_negY h2.1 hxy.2)
      have hyd := y_ne hs.1
      rw [addY_eq, slope_self h2.1] at hyd
      have hry : ry x1 (-y2) x1 y2 ≠ 0 := by
        intro h0
        apply hyd
        unfold ry at h0
        field_simp
        linear_combination h0 - (9 * y2 ^ 2 - 27 * x1 ^ 3 + 9 * b) * e2
      have hrx : rx x1 (-y2) x1 y2 = 0 := by unfold rx; ring
      have hrz : rz x1 (-y2) x1 y2 = 0 := by unfold rz; ring
      rw [hrx, hrz]
      exact .infinity hry
    · have hyy : y1 = y2 := by
        have : (y1 - y2) * (y1 + y2) = 0 := by linear_combination e1 - e2
        rcases mul_eq_zero.1 this with h | h
        · exact sub_eq_zero.1 h
        · exact absurd (eq_neg_of_add_eq_zero_left h) hy
      subst hyy
      rw [Point.add_self_of_Y_ne (ne_negY h1.1)]
      have hz : rz x1 y1 x1 y1 = 8 * y1 ^ 3 := by
        unfold rz
        linear_combination (-6 * y1) * e1
      refine is_of_eq ?_ _ ?_ ?_
      · rw [hz]
        have : (8 : K) = 2 ^ 3 := by norm_num
        rw [this]
        exact mul_ne_zero (pow_ne_zero _ t2) (pow_ne_zero _ n1)
      · rw [hz, addX_eq, slope_self h1.1]
        unfold rx
        field_simp
        linear_combination 72 * x1 * e1
      · rw [hz, addY_eq, slope_self h1.1]
        unfold ry
        field_simp
        linear_combination 8 * (9 * y1 ^ 2 - 27 * x1 ^ 3 + 9 * b) * e1
  · have hd : x1 - x2 ≠ 0 := sub_ne_zero.2 hx
    -- the difference of the two points is finite and its ordinate is not zero
    have h2' := (nonsingular_neg x2 y2).2 h2
    have hs := nonsingular_add h1 h2' (fun hxy => hx hxy.1)
    have hyd := y_ne hs.1
    have hz : rz x1 y1 x2 y2 =
        -((E).addY x1 x2 y1 ((E).slope x1 x2 y1 ((E).negY x2 y2))) * (x1 - x2) ^ 3 := by
      rw [addY_eq, slope_of_X_ne hx, negY_eq]
      unfold rz
      field_simp
      linear_combination (-y1 - 2 * y2) * e1 + (-2 * y1 - y2) * e2
    have hzn : rz x1 y1 x2 y2 ≠ 0 := by
      rw [hz]
      exact mul_ne_zero (neg_ne_zero.2 hyd) (pow_ne_zero _ hd)
    rw [Point.add_of_X_ne hx]
    refine is_of_eq hzn _ ?_ ?_
    · rw [addX_eq, slope_of_X_ne hx]
      unfold rx rz
      field_simp
      linear_combination ((-3)*b*y1 + (2)*b*y2 + (-3)*x1*x2^2*y1 + (3)*x1*x2^2*y2 + (-3)*x1^2*x2*y2
        + (2)*x2^3*y2 + (1)*y1*y2^2 + (-1)*y1^2*y2 + (1)*y2^3) * e1
        + ((3)*b*y1 + (-2)*b*y2 + (-3)*x1*x2^2*y1 + (3)*x1^2*x2*y1 + (-3)*x1^2*x2*y2 + (3)*x1^3*y1
        + (1)*x1^3*y2 + (-1)*y1*y2^2) * e2
    · rw [addY_eq, slope_of_X_ne hx]
      unfold ry rz
      field_simp
      linear_combination ((12)*b*x1*x2^2 + (-6)*b*x2^3 + (-5)*b*y1*y2 + (3)*b*y1^2 + (-2)*b*y2^2 + (3)*b^2
        + (-6)*x1*x2^2*y1*y2 + (3)*x1*x2^2*y1^2 + (15)*x1*x2^2*y2^2 + (-6)*x1*x2^5 + (3)*x1^2*x2*y1*y2
        + (-15)*x1^2*x2*y2^2 + (9)*x1^2*x2^4 + (-2)*x2^3*y1*y2 + (-2)*x2^3*y2^2 + (-2)*y1^2*y2^2
        + (1)*y1^3*y2 + (2)*y2^4) * e1
        + ((15)*b*x1*x2^2 + (-27)*b*x1^2*x2 + (6)*b*x1^3 + (5)*b*y1*y2 + (-1)*b*y2^2 + (-3)*b^2
        + (-3)*x1*x2^2*y1*y2 + (6)*x1^2*x2*y1*y2 + (-3)*x1^2*x2*y2^2 + (2)*x1^3*y1*y2 + (2)*x1^3*y2^2
        + (6)*x1^4*x2^2 + (-9)*x1^5*x2 + (-1)*y1*y2^3) * e2

end

theorem add_is {p q : Projective K} {P Q : (E).Point} (hp : Projective.Is b p P) (hq : Projective.Is b q Q) :
    Projective.Is b (p.add q) (P + Q) := by
  unfold Projective.add
  simp only [mul3b_eq]
  cases hp with
  | @infinity y1 h1 =>
    rw [show (0 : (E).Point) + Q = Q from zero_add Q]
    cases hq with
    | @infinity y2 h2 =>
      have := Projective.Is.infinity (b := (b : K)) (pow_ne_zero 2 (mul_ne_zero h1 h2))
      convert this using 1
      rw [Projective.mk.injEq]
      refine ⟨?_, ?_, ?_⟩ <;> ring
    | @finite x2 y2 z2 hz2 h2 =>
      have := is_scale (Projective.Is.finite hz2 h2)
        (mul_ne_zero (mul_ne_zero (pow_ne_zero 2 h1) (y_ne h2.1)) hz2)
      convert this using 1
      rw [Projective.mk.injEq]
      refine ⟨?_, ?_, ?_⟩ <;> ring
  | @finite x1 y1 z1 hz1 h1 =>
    cases hq with
    | @infinity y2 h2 =>
      rw [show Point.some x1 y1 h1 + 0 = Point.some x1 y1 h1 from add_zero _]
      have := is_scale (Projective.Is.finite hz1 h1)
        (mul_ne_zero (mul_ne_zero (pow_ne_zero 2 h2) (y_ne h1.1)) hz1)
      convert this using 1
      rw [Projective.mk.injEq]
      refine ⟨?_, ?_, ?_⟩ <;> ring
    | @finite x2 y2 z2 hz2 h2 =>
      have := is_scale (some_add_some h1 h2) (pow_ne_zero 2 (mul_ne_zero hz1 hz2))
      unfold rx ry rz at this
      convert this using 1
      rw [Projective.mk.injEq]
      refine ⟨?_, ?_, ?_⟩ <;> ring

theorem addMixed_is {p : Projective K} {q : Affine K} {P Q : (E).Point} (hp : Projective.Is b p P)
    (hq : Affine.Is b q Q) : Projective.Is b (p.addMixed q) (P + Q) := by
  cases hq with
  | infinity =>
    rw [add_zero]
    simpa [Projective.addMixed, Projective.select, Affine.isIdentity] using hp
  | @finite x2 y2 h2 =>
    have h := add_is hp (Projective.Is.finite one_ne_zero h2)
    convert h using 1
    simp only [Projective.addMixed, Projective.select, Affine.isIdentity, Projective.add, mul3b_eq,
      Projective.mk.injEq, Bool.false_eq_true, if_false]
    refine ⟨?_, ?_, ?_⟩ <;> ring

theorem double_is {p : Projective K} {P : (E).Point} (hp : Projective.Is b p P) :
    Projective.Is b p.double (P + P) := by
  cases hp with
  | infinity hy =>
    rw [add_zero]
    simpa [Projective.double, Projective.select, Projective.isIdentity] using identity_is
  | @finite x y z hz h =>
    have e := nonsingular_iff.1 h
    have := is_scale (some_add_some h h) (pow_ne_zero 4 hz)
    convert this using 1
    simp only [Projective.double, Projective.select, Projective.isIdentity, mul3b_eq, Projective.mk.injEq, hz,
      decide_false, Bool.false_eq_true, if_false, rx, ry, rz]
    refine ⟨?_, ?_, ?_⟩
    · ring
    · linear_combination 18 * b * z ^ 4 * e
    · linear_combination 6 * y * z ^ 4 * e

theorem neg_is {p : Projective K} {P : (E).Point} (hp : Projective.Is b p P) : Projective.Is b p.neg (-P) := by
  cases hp with
  | infinity hy => exact .infinity (neg_ne_zero.2 hy)
  | @finite x y z hz h =>
    rw [Point.neg_some]
    exact is_of_eq hz _ rfl (by rw [negY_eq]; simp)

theorem affine_neg_is {p : Affine K} {P : (E).Point} (hp : Affine.Is b p P) : Affine.Is b p.neg (-P) := by
  cases hp with
  | infinity => exact .infinity
  | @finite x y h =>
    rw [Point.neg_some]
    have := Affine.Is.finite ((nonsingular_neg x y).2 h)
    convert this using 1
    simp only [Affine.neg, negY_eq, Bool.false_eq_true, if_false]

theorem sub_is {p q : Projective K} {P Q : (E).Point} (hp : Projective.Is b p P) (hq : Projective.Is b q Q) :
    Projective.Is b (p.sub q) (P - Q) := by
  rw [sub_eq_add_neg]
  exact add_is hp (neg_is hq)

theorem subMixed_is {p : Projective K} {q : Affine K} {P Q : (E).Point} (hp : Projective.Is b p P)
    (hq : Affine.Is b q Q) : Projective.Is b (p.subMixed q) (P - Q) := by
  rw [sub_eq_add_neg]
  exact addMixed_is hp (affine_neg_is hq)

theorem ofAffine_is {p : Affine K} {P : (E).Point} (hp : Affine.Is b p P) :
    Projective.Is b (Projective.ofAffine p) P := by
  cases hp with
  | infinity => exact .infinity one_ne_zero
  | finite h => exact is_of_eq one_ne_zero h (mul_one _).symm (mul_one _).symm

theorem ofProjective_is {p : Projective K} {P : (E).Point} (hp : Projective.Is b p P) :
    Affine.Is b (Affine.ofProjective p) P := by
  cases hp with
  | infinity hy => simpa [Affine.ofProjective, Affine.select, Affine.identity] using affine_identity_is
  | @finite x y z hz h =>
    have := Affine.Is.finite h
    simpa [Affine.ofProjective, Affine.select, hz] using this

/-- The affine coordinates of a point are unique. -/
theorem affine_is_inj {p q : Affine K} {P : (E).Point} (hp : Affine.Is b p P) (hq : Affine.Is b q P) : p = q := by
  cases hp with
  | infinity =>
    generalize hP : (0 : (E).Point) = P at hq
    cases hq with
    | infinity => rfl
    | finite h => cases hP
  | @finite x y h => cases hq; rfl

theorem affine_is_unique {p : Affine K} {P Q : (E).Point} (hp : Affine.Is b p P) (hq : Affine.Is b p Q) : P = Q := by
  cases hp <;> cases hq <;> rfl

theorem affine_ctEq_iff {p q : Affine K} {P Q : (E).Point} (hp : Affine.Is b p P) (hq : Affine.Is b q Q) :
    p.ctEq q = true ↔ P = Q := by
  cases hp <;> cases hq <;> simp [Affine.ctEq, Point.zero_def]

theorem ctEq_iff {p q : Projective K} {P Q : (E).Point} (hp : Projective.Is b p P) (hq : Projective.Is b q Q) :
    p.ctEq q = true ↔ P = Q := by
  cases hp with
  | infinity h1 =>
    cases hq with
    | infinity h2 => simp [Projective.ctEq]
    | finite h2 h => simp [Projective.ctEq, Point.zero_def, h2]
  | @finite x1 y1 z1 hz1 h1 =>
    cases hq with
    | infinity h2 => simp [Projective.ctEq, Point.zero_def, hz1]
    | @finite x2 y2 z2 hz2 h2 =>
      have hx : x1 * z1 * z2 = x2 * z2 * z1 ↔ x1 = x2 := by
        rw [show x2 * z2 * z1 = x2 * z1 * z2 by ring, mul_left_inj' hz2, mul_left_inj' hz1]
      have hy : y1 * z1 * z2 = y2 * z2 * z1 ↔ y1 = y2 := by
        rw [show y2 * z2 * z1 = y2 * z1 * z2 by ring, mul_left_inj' hz2, mul_left_inj' hz1]
      simp [Projective.ctEq, hz1, hz2, hx, hy]

theorem isIdentity_iff {p : Projective K} {P : (E).Point} (hp : Projective.Is b p P) :
    p.isIdentity = true ↔ P = 0 := by
  cases hp with
  | infinity h => simp [Projective.isIdentity]
  | finite hz h => simp [Projective.isIdentity, hz, Point.zero_def]

theorem affine_isIdentity_iff {p : Affine K} {P : (E).Point} (hp : Affine.Is b p P) :
    p.isIdentity = true ↔ P = 0 := by
  cases hp <;> simp [Affine.isIdentity, Point.zero_def]

/-- Every point has affine coordinates. -/
theorem affine_is_exists (P : (E).Point) : ∃ p, Affine.Is b p P := by
  cases P with
  | zero => exact ⟨_, .infinity⟩
  | some x y h => exact ⟨_, .finite h⟩

/-- A finite pair passes the curve test exactly when it stands for a point. -/
theorem affine_isOnCurve_iff (x y : K) :
    (Affine.isOnCurve (⟨x, y, false⟩ : Affine K) = true) ↔ ∃ P, Affine.Is b ⟨x, y, false⟩ P := by
  rw [Affine.isOnCurve, Bool.or_false, decide_eq_true_eq]
  constructor
  · intro h
    exact ⟨_, .finite (nonsingular_iff.2 (by linear_combination h))⟩
  · rintro ⟨P, hP⟩
    cases hP with
    | finite h => linear_combination nonsingular_iff.1 h

theorem isOnCurve_iff {x y z : K} (hz : z ≠ 0) :
    (Projective.isOnCurve (⟨x, y, z⟩ : Projective K) = true) ↔ ∃ P, Projective.Is b ⟨x, y, z⟩ P := by
  rw [Projective.isOnCurve, Bool.or_eq_true, decide_eq_true_eq, decide_eq_true_eq]
  simp only [hz, or_false]
  constructor
  · intro h
    have : (E).Nonsingular (x / z) (y / z) := by
      rw [nonsingular_iff]
      field_simp
      linear_combination h
    exact ⟨_, is_of_eq hz this (by field_simp) (by field_simp)⟩
  · rintro ⟨P, hP⟩
    cases hP with
    | infinity h => exact absurd rfl hz
    | finite h hn => linear_combination z ^ 3 * nonsingular_iff.1 hn

theorem sum_is {ps : List (Projective K)} {Ps : List (E).Point} (h : List.Forall₂ (Projective.Is b) ps Ps) :
    Projective.Is b (Projective.sum ps) Ps.sum := by
  suffices H : ∀ p P, Projective.Is b p P → Projective.Is b (ps.foldl Projective.add p) (P + Ps.sum) by
    simpa [Projective.sum] using H _ _ identity_is
  induction h with
  | nil => intro p P hp; simpa using hp
  | cons h hs ih =>
    intro p P hp
    rw [List.foldl_cons, List.sum_cons, ← add_assoc]
    exact ih _ _ (add_is hp h)

/-! ## Multiplication by the curve parameter -/

theorem mulByXLoop_is (n x : Nat) (hx : x < 2 ^ n) {tmp xs : Projective K} {T X : (E).Point}
    (ht : Projective.Is b tmp T) (hs : Projective.Is b xs X) :
    Projective.Is b (Projective.mulByXLoop n x tmp xs) (X + (2 * x) • T) := by
  induction n generalizing x tmp xs T X with
  | zero =>
    obtain rfl : x = 0 := by simpa using hx
    simpa [Projective.mulByXLoop] using hs
  | succ n ih =>
    rw [Projective.mulByXLoop]
    split
    · next h => subst h; simpa using hs
    · next h =>
      have hd := double_is ht
      have hlt : x / 2 < 2 ^ n := by rw [pow_succ] at hx; omega
      have e : (2 * x) • T = (x % 2) • (T + T) + (2 * (x / 2)) • (T + T) := by
        rw [← add_nsmul, ← two_nsmul, ← mul_nsmul, Nat.mod_add_div]
      rcases Nat.mod_two_eq_zero_or_one x with h0 | h1
      · simp only [h0, zero_ne_one, if_false]
        rw [e, h0, zero_nsmul, zero_add]
        exact ih _ hlt hd hs
      · simp only [h1, if_true]
        rw [e, h1, one_nsmul, ← add_assoc]
        exact ih _ hlt hd (add_is hs hd)

theorem mulByX_is {p : Projective K} {P : (E).Point} (hp : Projective.Is b p P) :
    Projective.Is b p.mulByX (-(0xd201000000010000 : ℤ) • P) := by
  have := neg_is (mulByXLoop_is 64 (0xd201000000010000 / 2) (by norm_num) hp identity_is)
  rw [zero_add] at this
  rw [neg_smul]
  exact_mod_cast this

/-! ## Normalising many points with one inversion -/

theorem prefixes_ne (ps : List (Projective K)) {acc : K} (h : acc ≠ 0) : (Projective.prefixes ps acc).2 ≠ 0 := by
  induction ps generalizing acc with
  | nil => exact h
  | cons p ps ih =>
    simp only [Projective.prefixes]
    apply ih
    split
    · exact h
    · next hp => exact mul_ne_zero h (by simpa [Projective.isIdentity] using hp)

theorem normalizeBack_spec (ps : List (Projective K)) {acc : K} (h : acc ≠ 0) :
    Projective.normalizeBack ps (Projective.prefixes ps acc).1 ((Projective.prefixes ps acc).2)⁻¹ =
      (ps.map Affine.ofProjective, acc⁻¹) := by
  induction ps generalizing acc with
  | nil => rfl
  | cons p ps ih =>
    simp only [Projective.prefixes, Projective.normalizeBack, Projective.normalizeStep, List.map_cons]
    by_cases hz : p.z = 0
    · simp only [Projective.isIdentity, hz, decide_true, if_true]
      rw [ih h]
      simp [Affine.ofProjective, Affine.select, hz]
    · simp only [Projective.isIdentity, hz, decide_false, Bool.false_eq_true, if_false]
      rw [ih (mul_ne_zero h hz)]
      have e : acc * (acc * p.z)⁻¹ = p.z⁻¹ := by field_simp
      have e' : (acc * p.z)⁻¹ * p.z = acc⁻¹ := by field_simp
      simp only [Affine.ofProjective, Affine.select, inv_eq_zero, hz, e, e', decide_false, Bool.false_eq_true,
        if_false]

theorem batchNormalize_eq (ps : List (Projective K)) :
    Projective.batchNormalize ps ps.length = .ok (ps.map Affine.ofProjective) := by
  simp only [Projective.batchNormalize, ne_eq, not_true_eq_false, if_false]
  rw [if_neg (prefixes_ne ps one_ne_zero), normalizeBack_spec ps one_ne_zero]

end Kzg.Zk
