import Verif.Model.Zk.Pairing
import Verif.Proofs.Zk.MillerLines
/-!
# The Miller loop computes the Miller function
-/

set_option linter.unusedSectionVars false

namespace Kzg.Zk.Miller
open Kzg Kzg.Res WeierstrassCurve.Affine CurveConsts LawfulCurve Pairing

section
variable {k L : Type} [Field k] [DecidableEq k] [LawfulCurve k] [Field L]

local notation "E" => curve (CurveConsts.b (K := k))

/-- Jacobian coordinates of a finite point. -/
inductive Jac : Projective k → (E).Point → Prop
  | mk {x y z : k} (hz : z ≠ 0) (h : (E).Nonsingular x y) : Jac ⟨x * z ^ 2, y * z ^ 3, z⟩ (.some x y h)

theorem Jac.ne {r : Projective k} {R : (E).Point} (h : Jac r R) : R ≠ 0 := by
  cases h
  exact Point.some_ne_zero _

theorem jac_of_eq {x y z u v : k} (hz : z ≠ 0) (hn : (E).Nonsingular u v) (hx : x = u * z ^ 2) (hy : y = v * z ^ 3) :
    Jac ⟨x, y, z⟩ (.some u v hn) := by
  subst hx hy
  exact .mk hz hn

/-- The value of the coefficients at a point over `L`. -/
def cval (i : k →+* L) (X Y : L) (c : Coeffs k) : L := i c.2.2 + i c.2.1 * X + i c.1 * Y

theorem doublingStep_spec (i : k →+* L) (X Y : L) {r : Projective k} {R : (E).Point} (hr : Jac r R) :
    Jac (doublingStep r).1 (R + R) ∧ ∃ s : k, s ≠ 0 ∧ cval i X Y (doublingStep r).2 = i s * ln i X Y R R := by
  cases hr with
  | @mk x y z hz hn =>
    have hy := y_ne hn.1
    have e := nonsingular_iff.1 hn
    have t2 : (2 : k) ≠ 0 := two_ne
    constructor
    · rw [Point.add_self_of_Y_ne (ne_negY hn.1)]
      refine jac_of_eq ?_ _ ?_ ?_
      · have : (z + y * z ^ 3) * (z + y * z ^ 3) - y * z ^ 3 * (y * z ^ 3) - z * z = 2 * y * z ^ 4 := by ring
        rw [this]
        exact mul_ne_zero (mul_ne_zero t2 hy) (pow_ne_zero _ hz)
      · rw [addX_eq, slope_self hn.1]
        field_simp
        ring
      · rw [addY_eq, slope_self hn.1]
        field_simp
        ring
    · refine ⟨4 * y * z ^ 6, ?_, ?_⟩
      · rw [show (4 : k) = 2 * 2 by norm_num]
        exact mul_ne_zero (mul_ne_zero (mul_ne_zero t2 t2) hy) (pow_ne_zero _ hz)
      · have hl : (4 * y * z ^ 6) * (E).slope x x y y = 6 * x ^ 2 * z ^ 6 := by
          rw [slope_self hn.1]
          field_simp
          ring
        have c0 : (doublingStep (⟨x * z ^ 2, y * z ^ 3, z⟩ : Projective k)).2.1 = 4 * y * z ^ 6 := by
          simp only [doublingStep]; ring
        have c1 : (doublingStep (⟨x * z ^ 2, y * z ^ 3, z⟩ : Projective k)).2.2.1
            = -((4 * y * z ^ 6) * (E).slope x x y y) := by
          rw [hl]; simp only [doublingStep]; ring
        have c2 : (doublingStep (⟨x * z ^ 2, y * z ^ 3, z⟩ : Projective k)).2.2.2
            = (4 * y * z ^ 6) * (E).slope x x y y * x - (4 * y * z ^ 6) * y := by
          rw [hl]; simp only [doublingStep]; ring
        rw [cval, c0, c1, c2]
        generalize 4 * y * z ^ 6 = s
        simp only [ln, map_mul, map_sub, map_neg]
        ring

theorem additionStep_spec (i : k →+* L) (X Y : L) {r : Projective k} {R Q : (E).Point} {q : Affine k} (hr : Jac r R)
    (hq : Affine.Is b q Q) (hQ : Q ≠ 0) (hne : R ≠ Q) (hne' : R ≠ -Q) :
    Jac (additionStep r q).1 (R + Q) ∧ ∃ s : k, s ≠ 0 ∧ cval i X Y (additionStep r q).2 = i s * ln i X Y R Q := by
  cases hq with
  | infinity => exact absurd rfl hQ
  | @finite u v hm =>
    cases hr with
    | @mk x y z hz hn =>
      have t2 : (2 : k) ≠ 0 := two_ne
      have e1 := nonsingular_iff.1 hn
      have e2 := nonsingular_iff.1 hm
      have hx : x ≠ u := by
        rintro rfl
        rcases Y_eq_of_X_eq hn.1 hm.1 rfl with h | h
        · subst h
          exact hne rfl
        · apply hne'
          rw [Point.neg_some]
          subst h
          rfl
      have hd : u - x ≠ 0 := sub_ne_zero.2 (Ne.symm hx)
      have hd' : x - u ≠ 0 := sub_ne_zero.2 hx
      have hz3 : (additionStep (⟨x * z ^ 2, y * z ^ 3, z⟩ : Projective k) ⟨u, v, false⟩).1.z
          = 2 * z ^ 3 * (u - x) := by
        simp only [additionStep]; ring
      have hsl : (u - x) * (E).slope x u y v = v - y := by
        rw [slope_of_X_ne hx]
        field_simp
        ring
      constructor
      · rw [Point.add_of_X_ne hx]
        refine jac_of_eq ?_ _ ?_ ?_
        · intro h0
          exact mul_ne_zero (mul_ne_zero t2 (pow_ne_zero _ hz)) hd (hz3.symm.trans h0)
        · rw [addX_eq, slope_of_X_ne hx]
          field_simp
          ring
        · rw [addY_eq, slope_of_X_ne hx]
          field_simp
          ring
      · refine ⟨4 * z ^ 3 * (u - x), ?_, ?_⟩
        · rw [show (4 : k) = 2 * 2 by norm_num]
          exact mul_ne_zero (mul_ne_zero (mul_ne_zero t2 t2) (pow_ne_zero _ hz)) hd
        · have c0 : (additionStep (⟨x * z ^ 2, y * z ^ 3, z⟩ : Projective k) ⟨u, v, false⟩).2.1
              = 4 * z ^ 3 * (u - x) := by
            simp only [additionStep]; ring
          have c1 : (additionStep (⟨x * z ^ 2, y * z ^ 3, z⟩ : Projective k) ⟨u, v, false⟩).2.2.1
              = -(4 * z ^ 3 * (u - x) * (E).slope x u y v) := by
            rw [mul_assoc _ (u - x), hsl]; simp only [additionStep]; ring
          have c2 : (additionStep (⟨x * z ^ 2, y * z ^ 3, z⟩ : Projective k) ⟨u, v, false⟩).2.2.2
              = 4 * z ^ 3 * (u - x) * (E).slope x u y v * x - 4 * z ^ 3 * (u - x) * y := by
            rw [mul_assoc _ (u - x), hsl]; simp only [additionStep]; ring
          rw [cval, c0, c1, c2]
          generalize 4 * z ^ 3 * (u - x) = s
          simp only [ln, map_mul, map_sub, map_neg]
          ring

/-- What is used about a driver that evaluates the lines at a point over `L`. -/
structure EvalDriver (i : k →+* L) (X Y : L) (q : Affine k) (d : Driver (Projective k) L) : Prop where
  dbl : ∀ r f, d.doublingStep r f = .ok ((doublingStep r).1, f * cval i X Y (doublingStep r).2)
  add : ∀ r f, d.additionStep r f = .ok ((additionStep r q).1, f * cval i X Y (additionStep r q).2)
  sq : ∀ f, d.squareOutput f = f * f
  one : d.one = 1

variable {i : k →+* L} {X Y : L} {q : Affine k} {d : Driver (Projective k) L}

/-- One turn. -/
theorem EvalDriver.dbl_spec (D : EvalDriver i X Y q d) {Q : (E).Point} {t : List Bool} {cur : Projective k} {f : L}
    (hc : Jac cur (bval t • Q)) (hf : ∃ c : k, c ≠ 0 ∧ f = i c * mf i X Y Q t ^ 2) :
    ∃ cur' f', d.doublingStep cur f = .ok (cur', f') ∧ Jac cur' (bval (false :: t) • Q) ∧
      ∃ c : k, c ≠ 0 ∧ f' = i c * mf i X Y Q (false :: t) := by
  obtain ⟨hj, s, hs, e⟩ := doublingStep_spec i X Y hc
  obtain ⟨c, hc0, rfl⟩ := hf
  refine ⟨_, _, D.dbl _ _, ?_, c * s, mul_ne_zero hc0 hs, ?_⟩
  · rwa [← add_smul, ← two_mul] at hj
  · rw [e]
    simp only [mf, Bool.false_eq_true, if_false, map_mul]
    ring

theorem EvalDriver.add_spec (D : EvalDriver i X Y q d) {Q : (E).Point} (hq : Affine.Is b q Q) {t : List Bool}
    (hQ : ∀ m, 0 < m → m ≤ bval (true :: t) → m • Q ≠ 0)
    {cur : Projective k} {f : L} (hc : Jac cur (bval (false :: t) • Q))
    (hf : ∃ c : k, c ≠ 0 ∧ f = i c * mf i X Y Q (false :: t)) :
    ∃ cur' f', d.additionStep cur f = .ok (cur', f') ∧ Jac cur' (bval (true :: t) • Q) ∧
      ∃ c : k, c ≠ 0 ∧ f' = i c * mf i X Y Q (true :: t) := by
  have hp := bval_pos t
  simp only [bval, Bool.toNat_true, Bool.toNat_false, add_zero] at hQ hc ⊢
  have hQ0 : Q ≠ 0 := by
    have := hQ 1 Nat.one_pos (by omega)
    rwa [one_smul] at this
  have h1 : (2 * bval t) • Q ≠ Q := by
    intro h
    apply hQ (2 * bval t - 1) (by omega) (by omega)
    rw [sub_nsmul _ (by omega), h, one_smul, add_neg_cancel]
  have h2 : (2 * bval t) • Q ≠ -Q := by
    intro h
    apply hQ (2 * bval t + 1) (by omega) (by omega)
    rw [add_smul, h, one_smul, neg_add_cancel]
  obtain ⟨hj, s, hs, e⟩ := additionStep_spec i X Y hc hq hQ0 h1 h2
  obtain ⟨c, hc0, rfl⟩ := hf
  refine ⟨_, _, D.add _ _, ?_, c * s, mul_ne_zero hc0 hs, ?_⟩
  · rwa [add_smul, one_smul]
  · rw [e]
    simp only [mf, Bool.false_eq_true, if_false, if_true, map_mul]
    ring

/-- The bits after the leading one. -/
theorem EvalDriver.loop_spec (D : EvalDriver i X Y q d) {Q : (E).Point} (hq : Affine.Is b q Q) (l t : List Bool)
    (hQ : ∀ m, 0 < m → m ≤ bval (l.reverse ++ t) → m • Q ≠ 0) {cur : Projective k} {f : L}
    (hc : Jac cur (bval t • Q)) (hf : ∃ c : k, c ≠ 0 ∧ f = i c * mf i X Y Q t ^ 2) :
    ∃ cur' f', loopOver d l (true, cur, f) = .ok (true, cur', f') ∧ Jac cur' (bval (l.reverse ++ t) • Q) ∧
      ∃ c : k, c ≠ 0 ∧ f' = i c * mf i X Y Q (l.reverse ++ t) ^ 2 := by
  induction l generalizing t cur f with
  | nil => exact ⟨cur, f, rfl, hc, hf⟩
  | cons c l ih =>
    have mono : ∀ (l t : List Bool), bval t ≤ bval (l ++ t) := by
      intro l t
      induction l with
      | nil => exact le_rfl
      | cons a l ih => rw [List.cons_append, bval]; omega
    have hr : (c :: l).reverse ++ t = l.reverse ++ (c :: t) := by simp
    rw [hr] at hQ ⊢
    obtain ⟨cur1, f1, e1, hc1, hf1⟩ := D.dbl_spec hc hf
    have sq : ∀ {f : L} {t : List Bool}, (∃ c : k, c ≠ 0 ∧ f = i c * mf i X Y Q t) →
        ∃ c : k, c ≠ 0 ∧ d.squareOutput f = i c * mf i X Y Q t ^ 2 := by
      rintro f t ⟨c, h, rfl⟩
      refine ⟨c * c, mul_ne_zero h h, ?_⟩
      rw [D.sq, map_mul]
      ring
    cases c with
    | false =>
      obtain ⟨cur', f', e, hj, hf'⟩ := ih (false :: t) hQ hc1 (sq hf1)
      refine ⟨cur', f', ?_, hj, hf'⟩
      have eb : loopBody d false (true, cur, f) = .ok (true, cur1, d.squareOutput f1) := by
        simp [loopBody, e1, bind_ok]
      rw [loopOver, eb, bind_ok, e]
    | true =>
      obtain ⟨cur2, f2, e2, hc2, hf2⟩ := D.add_spec hq (fun m h0 h1 => hQ m h0 (h1.trans (mono _ _))) hc1 hf1
      obtain ⟨cur', f', e, hj, hf'⟩ := ih (true :: t) hQ hc2 (sq hf2)
      refine ⟨cur', f', ?_, hj, hf'⟩
      have eb : loopBody d true (true, cur, f) = .ok (true, cur2, d.squareOutput f2) := by
        simp [loopBody, e1, e2, bind_ok]
      rw [loopOver, eb, bind_ok, e]

theorem EvalDriver.miller_gen (D : EvalDriver i X Y q d) {Q : (E).Point} (hq : Affine.Is b q Q) {T : List Bool}
    (hT : loopBits = false :: true :: T) (hQ : ∀ m, 0 < m → m ≤ bval (false :: T.reverse) → m • Q ≠ 0) :
    ∃ cur f, millerLoop d (Projective.ofAffine q) = .ok (cur, d.conjugate f) ∧
      ∃ c : k, c ≠ 0 ∧ f = i c * mf i X Y Q (false :: T.reverse) := by
  have hQ0 : Q ≠ 0 := by
    have := hQ 1 Nat.one_pos (bval_pos _)
    rwa [one_smul] at this
  have hj : Jac (Projective.ofAffine q) (bval [] • Q) := by
    rw [bval, one_smul]
    cases hq with
    | infinity => exact absurd rfl hQ0
    | finite h => exact jac_of_eq one_ne_zero h (by simp) (by simp)
  have hle : bval (T.reverse ++ []) ≤ bval (false :: T.reverse) := by
    rw [List.append_nil, bval]
    omega
  obtain ⟨cur, f, e, hc, hf⟩ := D.loop_spec hq T [] (fun m h0 h1 => hQ m h0 (h1.trans hle))
    hj (f := d.one) ⟨1, one_ne_zero, by simp [mf, D.one]⟩
  rw [List.append_nil] at hc hf
  obtain ⟨cur', f', e', -, hf'⟩ := D.dbl_spec hc hf
  refine ⟨cur', f', ?_, hf'⟩
  have el : loopOver d loopBits (false, Projective.ofAffine q, d.one)
      = loopOver d T (true, Projective.ofAffine q, d.one) := by
    rw [hT]
    simp [loopOver, loopBody, bind_ok]
  rw [millerLoop, el, e, bind_ok]
  simp only
  rw [e', bind_ok]

/-- The bits of the loop after the leading one. -/
def tailBits : List Bool := loopBits.drop 2

theorem loopBits_eq : loopBits = false :: true :: tailBits := by decide +kernel

/-- All bits, from the lowest on. -/
def xBits : List Bool := false :: tailBits.reverse

theorem xBits_val : bval xBits = Gt.blsX := by decide +kernel

/-- The Miller loop. -/
theorem EvalDriver.miller_spec (D : EvalDriver i X Y q d) {Q : (E).Point} (hq : Affine.Is b q Q)
    (hQ : ∀ m, 0 < m → m ≤ bval xBits → m • Q ≠ 0) :
    ∃ cur f, millerLoop d (Projective.ofAffine q) = .ok (cur, d.conjugate f) ∧
      ∃ c : k, c ≠ 0 ∧ f = i c * mf i X Y Q xBits := D.miller_gen hq loopBits_eq hQ

end

end Kzg.Zk.Miller
