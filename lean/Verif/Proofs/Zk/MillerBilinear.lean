import Verif.Proofs.Zk.MillerIdeals
import Verif.Proofs.Zk.MillerLoop
import Verif.Proofs.Zk.G2Psi
/-!
# The pairing is bilinear

Stated for any fields, embeddings and exponentiation that satisfy `Setup`; the fields of the curve are put in at the end,
in `Verif/Proofs/Zk/PairingSpec.lean`.
-/

set_option linter.unusedSectionVars false

namespace Kzg.Zk.Miller
open WeierstrassCurve.Affine CurveConsts LawfulCurve

variable {K k L : Type} [Field K] [DecidableEq K] [LawfulCurve K] [Field k] [DecidableEq k] [LawfulCurve k] [Field L]

local notation "E1" => curve (CurveConsts.b (K := K))
local notation "E2" => curve (CurveConsts.b (K := k))

/-- What is used about the fields: `j` and `i` embed the coordinate fields, `w` is the root that untwists, `σ` the
conjugation, `φ` the final exponentiation, `F` the Frobenius map; `τ`, `cx`, `cy` describe `psi`, and the length `n` of the
loop is minus the eigenvalue of `psi`. -/
structure Setup (j : K →+* L) (i : k →+* L) (w : L) (σ : L →+* L) (φ : L →* L) (F : L →+* L) (τ : k →+* k) (cx cy : k)
    (p r : Nat) (t : List Bool) : Prop where
  kill : Kill i σ φ
  hb : i b = j b * w ^ 6
  conj_j : ∀ a, σ (j a) = j a
  conj_w : σ w = -w
  w_ne : w ≠ 0
  indep : ∀ (a : K) (c : k), a ≠ 0 → j a * w ^ 2 ≠ i c
  tw : Twist τ cx cy
  frob : ∀ x, F x = x ^ p
  frob_j : ∀ a, F (j a) = j a
  frob_i : ∀ c, F (i c) = i (τ c)
  frob_w2 : i cx * F w ^ 2 = w ^ 2
  frob_w3 : i cy * F w ^ 3 = w ^ 3
  prime : r.Prime
  three : ¬ r ∣ 3
  lt : bval t < r
  dvd : r ∣ bval t + p
  order : ∀ x, x ≠ 0 → φ x ^ r = 1

variable {j : K →+* L} {i : k →+* L} {w : L} {σ : L →+* L} {φ : L →* L} {F : L →+* L} {τ : k →+* k} {cx cy : k}
  {p r : Nat} {t : List Bool}

/-- The value of the Miller function for a pair of points, after the final exponentiation. -/
noncomputable def pr (j : K →+* L) (i : k →+* L) (w : L) (φ : L →* L) (t : List Bool) : (E1).Point → (E2).Point → L
  | .some x y _, .some u v h => φ (mf i (j x * w ^ 2) (j y * w ^ 3) (.some u v h) t)
  | _, _ => 1

theorem pr_zero_left (Q : (E2).Point) : pr j i w φ t 0 Q = 1 := by
  cases Q <;> rfl

theorem pr_zero_right (P : (E1).Point) : pr j i w φ t P 0 = 1 := by
  cases P <;> rfl

theorem pr_some {x y : K} (h : (E1).Nonsingular x y) {Q : (E2).Point} (hQ : Q ≠ 0) :
    pr j i w φ t (.some x y h) Q = φ (mf i (j x * w ^ 2) (j y * w ^ 3) Q t) := by
  obtain ⟨u, v, h, rfl⟩ := some_cases hQ
  rfl

/-- A point with abscissa zero has order three. -/
theorem three_smul {y : K} (h : (E1).Nonsingular 0 y) : 3 • Point.some 0 y h = 0 := by
  have e : Point.some 0 y h + Point.some 0 y h = -Point.some 0 y h := by
    rw [Point.add_self_of_Y_ne (ne_negY h.1), Point.neg_some]
    have hs : (E1).slope 0 0 y y = 0 := by
      rw [slope_self h.1]
      simp
    obtain ⟨h', e'⟩ := some_congr (h := nonsingular_add h h (fun hxy => ne_negY h.1 hxy.2))
      (u' := 0) (v' := (E1).negY 0 y) (by rw [addX_eq, hs]; ring) (by rw [addY_eq, hs, negY_eq]; ring)
    exact e'
  rw [show (3 : Nat) = 2 + 1 from rfl, add_smul, two_smul, one_smul, e, neg_add_cancel]

theorem smul_ne_of_prime {A : Type} [AddCommGroup A] {r : Nat} (hr : r.Prime) {Q : A} (hQ : r • Q = 0) (h0 : Q ≠ 0)
    {m : Nat} (hm : 0 < m) (hlt : m < r) : m • Q ≠ 0 := by
  intro h
  have hd := addOrderOf_dvd_of_nsmul_eq_zero hQ
  have hd' := addOrderOf_dvd_of_nsmul_eq_zero h
  rcases (Nat.dvd_prime hr).1 hd with h1 | h1
  · exact h0 (AddMonoid.addOrderOf_eq_one_iff.1 h1)
  · rw [h1] at hd'
    exact absurd (Nat.le_of_dvd hm hd') (not_le.2 hlt)

namespace Setup
variable (S : Setup j i w σ φ F τ cx cy p r t)
include S

theorem x_ne {x y : K} {h : (E1).Nonsingular x y} (hP : r • Point.some x y h = 0) : x ≠ 0 := by
  rintro rfl
  have h3 := three_smul h
  have hd := addOrderOf_dvd_of_nsmul_eq_zero hP
  have hd' := addOrderOf_dvd_of_nsmul_eq_zero h3
  rcases (Nat.dvd_prime S.prime).1 hd with h1 | h1
  · exact Point.some_ne_zero h (AddMonoid.addOrderOf_eq_one_iff.1 h1)
  · exact S.three (h1 ▸ hd')

theorem eqn {x y : K} (h : (E1).Nonsingular x y) :
    (j y * w ^ 3) ^ 2 = (j x * w ^ 2) ^ 3 + i b := by
  have e := congrArg j (nonsingular_iff.1 h)
  rw [map_pow, map_add, map_pow] at e
  rw [S.hb]
  linear_combination w ^ 6 * e

theorem conj_X (x : K) : σ (j x * w ^ 2) = j x * w ^ 2 := by
  rw [map_mul, map_pow, S.conj_j, S.conj_w]
  ring

theorem conj_Y (y : K) : σ (j y * w ^ 3) = -(j y * w ^ 3) := by
  rw [map_mul, map_pow, S.conj_j, S.conj_w]
  ring

theorem Y_ne {x y : K} (h : (E1).Nonsingular x y) : j y * w ^ 3 ≠ 0 :=
  mul_ne_zero ((map_ne_zero j).2 (y_ne h.1)) (pow_ne_zero _ S.w_ne)

/-- Conjugation moves a line to the opposite point. -/
theorem conj_ln (x y : K) (R T : (E2).Point) :
    σ (ln i (j x * w ^ 2) (j y * w ^ 3) R T) = ln i (j x * w ^ 2) (-(j y * w ^ 3)) R T := by
  cases R with
  | zero => cases T <;> exact map_one _
  | some x1 y1 h1 =>
    cases T with
    | zero => exact map_one _
    | some x2 y2 h2 =>
      simp only [ln]
      rw [map_sub, S.conj_Y, map_add, map_mul σ (i _), map_sub, S.conj_X, S.kill.base, S.kill.base, S.kill.base]

theorem conj_mf (x y : K) (Q : (E2).Point) (s : List Bool) :
    σ (mf i (j x * w ^ 2) (j y * w ^ 3) Q s) = mf i (j x * w ^ 2) (-(j y * w ^ 3)) Q s := by
  induction s with
  | nil => exact map_one _
  | cons c s ih =>
    cases c <;> simp only [mf, Bool.false_eq_true, if_false, if_true, map_mul, map_pow, ih, S.conj_ln]

theorem ln_ne {x y : K} (h : (E1).Nonsingular x y) (R T : (E2).Point) :
    ln i (j x * w ^ 2) (j y * w ^ 3) R T ≠ 0 := by
  cases R with
  | zero => cases T <;> exact one_ne_zero
  | some x1 y1 h1 =>
    cases T with
    | zero => exact one_ne_zero
    | some x2 y2 h2 =>
      intro e
      have e' := S.conj_ln x y (.some x1 y1 h1) (.some x2 y2 h2)
      rw [e, map_zero] at e'
      simp only [ln] at e e'
      have h2' : (2 : L) * (j y * w ^ 3) = 0 := by linear_combination e + e'
      exact S.Y_ne h ((mul_eq_zero.1 h2').resolve_left S.kill.two)

theorem mf_ne {x y : K} (h : (E1).Nonsingular x y) (Q : (E2).Point) (s : List Bool) :
    mf i (j x * w ^ 2) (j y * w ^ 3) Q s ≠ 0 := by
  induction s with
  | nil => exact one_ne_zero
  | cons c s ih =>
    have h1 := mul_ne_zero (pow_ne_zero 2 ih) (S.ln_ne h (bval s • Q) (bval s • Q))
    cases c with
    | false => simpa only [mf, Bool.false_eq_true, if_false] using h1
    | true => simpa only [mf, if_true] using mul_ne_zero h1 (S.ln_ne h ((2 * bval s) • Q) Q)

/-- The opposite of the first point. -/
theorem pr_neg_left (P : (E1).Point) (Q : (E2).Point) : pr j i w φ t P Q * pr j i w φ t (-P) Q = 1 := by
  by_cases hQ : Q = 0
  · subst hQ
    rw [pr_zero_right, pr_zero_right, one_mul]
  · cases P with
    | zero =>
      have e : (-(.zero) : (E1).Point) = 0 := neg_zero
      have e' : (.zero : (E1).Point) = 0 := rfl
      rw [e, e', pr_zero_left, one_mul]
    | some x y h =>
      rw [Point.neg_some, pr_some _ hQ, pr_some _ hQ, negY_eq, map_neg, neg_mul, ← S.conj_mf]
      exact S.kill.conj (S.mf_ne h Q t)

theorem phi_order {x : L} (h : x ≠ 0) {m : Nat} (hm : r ∣ m) : φ x ^ m = 1 := by
  obtain ⟨q, rfl⟩ := hm
  rw [pow_mul, S.order x h, one_pow]

theorem smul_ne {Q : (E2).Point} (hQ : r • Q = 0) (h0 : Q ≠ 0) (m : Nat) (hm : 0 < m) (hle : m ≤ bval t) : m • Q ≠ 0 :=
  smul_ne_of_prime S.prime hQ h0 hm (hle.trans_lt S.lt)

/-- An odd line at `psi Q`. -/
theorem mv_twist (a c : K) {Q : (E2).Point} (h0 : Q ≠ 0) :
    φ (mv i (j a * w) (j c * w ^ 3) (twistFun S.tw Q)) = φ (mv i (j a * w) (j c * w ^ 3) Q) ^ p := by
  obtain ⟨x, y, h, rfl⟩ := some_cases h0
  have key : mv i (j a * w) (j c * w ^ 3) (twistFun S.tw (.some x y h))
      = i cy * mv i (j a * w) (j c * w ^ 3) (.some x y h) ^ p := by
    rw [← S.frob]
    simp only [twistFun, mv_some]
    simp only [map_sub, map_mul, map_pow, S.frob_j, S.frob_i]
    have hw : F w ≠ 0 := (map_ne_zero F).2 S.w_ne
    have h2 := S.frob_w2
    have h3 := S.frob_w3
    have hx : i cy * F w = w * i cx := by
      have : (i cy * F w) * F w ^ 2 = (w * i cx) * F w ^ 2 := by linear_combination h3 - w * h2
      exact mul_right_cancel₀ (pow_ne_zero 2 hw) this
    linear_combination j a * i (τ x) * hx + j c * h3
  rw [key, map_mul, S.kill.const S.tw.cy_ne, one_mul, map_pow]

/-- Three points of a line in the first group. -/
theorem pr_three_left {P1 P2 : (E1).Point} {Q : (E2).Point} (hQ : r • Q = 0) (hψ : twistFun S.tw Q = -(bval t • Q))
    (h0 : Q ≠ 0) (h1 : P1 ≠ 0) (h2 : P2 ≠ 0) (h3 : P1 + P2 ≠ 0) :
    pr j i w φ t P1 Q * pr j i w φ t P2 Q * pr j i w φ t (-(P1 + P2)) Q = 1 := by
  obtain ⟨x1, y1, n1, rfl⟩ := some_cases h1
  obtain ⟨x2, y2, n2, rfl⟩ := some_cases h2
  have hxy := opp_of_add_eq h3
  obtain ⟨l, hl⟩ : ∃ l, l = (E1).slope x1 x2 y1 y2 := ⟨_, rfl⟩
  obtain ⟨m, hm⟩ : ∃ m, m = y1 - l * x1 := ⟨_, rfl⟩
  obtain ⟨x3, hx3⟩ : ∃ x3, x3 = l ^ 2 - x1 - x2 := ⟨_, rfl⟩
  obtain ⟨a2, a3⟩ := vieta n1.1 n2.1 hxy hl hm hx3
  have a1 : x1 + x2 + x3 = l ^ 2 := by rw [hx3]; ring
  have hy2 := line_snd n1.1 n2.1 hxy
  rw [← hl] at hy2
  have Y1 : j y1 * w ^ 3 = j l * w * (j x1 * w ^ 2) + j m * w ^ 3 := by
    have : y1 = l * x1 + m := by rw [hm]; ring
    rw [this, map_add, map_mul]; ring
  have Y2 : j y2 * w ^ 3 = j l * w * (j x2 * w ^ 2) + j m * w ^ 3 := by
    have : y2 = l * x2 + m := by rw [hm, hy2]; ring
    rw [this, map_add, map_mul]; ring
  have Y3 : j (l * (x3 - x1) + y1) * w ^ 3 = j l * w * (j x3 * w ^ 2) + j m * w ^ 3 := by
    have : l * (x3 - x1) + y1 = l * x3 + m := by rw [hm]; ring
    rw [this, map_add, map_mul]; ring
  have hA : σ (j l * w) = -(j l * w) := by rw [map_mul, S.conj_j, S.conj_w]; ring
  have hB := S.conj_Y m
  have b1 : j x1 * w ^ 2 + j x2 * w ^ 2 + j x3 * w ^ 2 = (j l * w) ^ 2 := by
    have := congrArg j a1
    rw [map_add, map_add, map_pow] at this
    linear_combination w ^ 2 * this
  have b2 : j x1 * w ^ 2 * (j x2 * w ^ 2) + j x1 * w ^ 2 * (j x3 * w ^ 2) + j x2 * w ^ 2 * (j x3 * w ^ 2)
      = -2 * (j l * w) * (j m * w ^ 3) := by
    have := congrArg j a2
    simp only [map_add, map_mul, map_neg, map_ofNat] at this
    linear_combination w ^ 4 * this
  have b3 : j x1 * w ^ 2 * (j x2 * w ^ 2) * (j x3 * w ^ 2) = (j m * w ^ 3) ^ 2 - i b := by
    have := congrArg j a3
    simp only [map_sub, map_mul, map_pow] at this
    rw [S.hb]
    linear_combination w ^ 6 * this
  have key := S.kill.mf_three hA hB b1 b2 b3 t (S.smul_ne hQ h0)
  rw [← Y1, ← Y2, ← Y3] at key
  have hn := S.kill.mv_neg hA hB (S.smul_ne hQ h0 _ (bval_pos t) le_rfl)
  rw [← hψ, S.mv_twist l m h0] at hn
  have ho := S.phi_order (S.kill.mv_ne hA hB h0) S.dvd
  rw [pow_add, ← key, mul_assoc, hn, mul_one, map_mul, map_mul] at ho
  rw [Point.add_some hxy, Point.neg_some, pr_some _ h0, pr_some _ h0, pr_some _ h0, negY_eq, addY_eq, addX_eq, ← hl,
    ← hx3, neg_neg]
  exact ho

/-- Linearity in the first argument. -/
theorem pr_add_left {Q : (E2).Point} (hQ : r • Q = 0) (hψ : twistFun S.tw Q = -(bval t • Q)) (P1 P2 : (E1).Point) :
    pr j i w φ t (P1 + P2) Q = pr j i w φ t P1 Q * pr j i w φ t P2 Q := by
  by_cases h0 : Q = 0
  · subst h0
    rw [pr_zero_right, pr_zero_right, pr_zero_right, one_mul]
  by_cases h1 : P1 = 0
  · subst h1
    rw [zero_add, pr_zero_left, one_mul]
  by_cases h2 : P2 = 0
  · subst h2
    rw [add_zero, pr_zero_left, mul_one]
  by_cases h3 : P1 + P2 = 0
  · rw [h3, pr_zero_left, ← neg_eq_of_add_eq_zero_right h3, S.pr_neg_left]
  · have a := S.pr_three_left hQ hψ h0 h1 h2 h3
    have c := S.pr_neg_left (P1 + P2) Q
    linear_combination (pr j i w φ t P1 Q * pr j i w φ t P2 Q) * c - pr j i w φ t (P1 + P2) Q * a

/-! ## The second argument -/

/-- The line through `psi Q₁` and `psi Q₂`. -/
theorem ln_twist {x y : K} (hn : (E1).Nonsingular x y) {Q1 Q2 : (E2).Point} (h1 : Q1 ≠ 0) (h2 : Q2 ≠ 0)
    (h3 : Q1 + Q2 ≠ 0) :
    φ (ln i (j x * w ^ 2) (j y * w ^ 3) (-twistFun S.tw Q1) (-twistFun S.tw Q2))
      * φ (ln i (j x * w ^ 2) (j y * w ^ 3) Q1 Q2) ^ p = 1 := by
  have hne := S.ln_ne hn Q1 Q2
  obtain ⟨x1, y1, n1, rfl⟩ := some_cases h1
  obtain ⟨x2, y2, n2, rfl⟩ := some_cases h2
  have hxy := opp_of_add_eq h3
  have hcx : cx ≠ 0 := by
    intro e
    have := S.tw.cube
    rw [e] at this
    exact S.tw.cy_ne (pow_eq_zero_iff two_ne_zero |>.1 (by rw [← this]; ring))
  have hslope : (E2).slope (τ x1 * cx) (τ x2 * cx) (-(τ y1 * cy)) (-(τ y2 * cy)) * cx
      = -(τ ((E2).slope x1 x2 y1 y2) * cy) := by
    by_cases hx : x1 = x2
    · have hy : y1 = y2 := Y_eq_of_Y_ne n1.1 n2.1 hx fun h => hxy ⟨hx, h⟩
      subst hx hy
      have n1' := S.tw.nonsingular n1
      have n3 : (E2).Equation (τ x1 * cx) (-(τ y1 * cy)) := by
        have := (nonsingular_neg (W' := E2) _ _).2 n1'
        rw [negY_eq] at this
        exact this.1
      rw [slope_self n3, slope_self n1.1, map_div₀, map_mul, map_mul, map_pow, map_ofNat, map_ofNat]
      have hy0 : τ y1 ≠ 0 := (map_ne_zero τ).2 (y_ne n1.1)
      have hc := S.tw.cube
      have hcy := S.tw.cy_ne
      have t2 : (2 : k) ≠ 0 := two_ne
      field_simp
      linear_combination (-3 * τ x1 ^ 2) * hc
    · have hx' : τ x1 * cx ≠ τ x2 * cx := fun e => hx (τ.injective (mul_right_cancel₀ hcx e))
      rw [slope_of_X_ne hx', slope_of_X_ne hx, map_div₀, map_sub, map_sub]
      have d1 : τ x1 * cx - τ x2 * cx ≠ 0 := sub_ne_zero.2 hx'
      have d2 : τ x1 - τ x2 ≠ 0 := sub_ne_zero.2 fun e => hx (τ.injective e)
      rw [div_mul_eq_mul_div, div_mul_eq_mul_div, div_eq_iff d1, neg_mul, div_mul_eq_mul_div, ← neg_div, eq_div_iff d2]
      ring
  have key : ln i (j x * w ^ 2) (j y * w ^ 3) (-twistFun S.tw (.some x1 y1 n1)) (-twistFun S.tw (.some x2 y2 n2))
      = -(i cy * σ (ln i (j x * w ^ 2) (j y * w ^ 3) (.some x1 y1 n1) (.some x2 y2 n2) ^ p)) := by
    rw [map_pow, S.conj_ln, ← S.frob]
    simp only [twistFun, Point.neg_some, ln, negY_eq]
    have e := congrArg i hslope
    rw [map_mul, map_neg, map_mul] at e
    simp only [map_sub, map_add, map_neg, map_mul, map_pow, S.frob_j, S.frob_i]
    have h2' := S.frob_w2
    have h3' := S.frob_w3
    have hi : i cx ≠ 0 := (map_ne_zero i).2 hcx
    apply mul_left_cancel₀ hi
    generalize i ((E2).slope (τ x1 * cx) (τ x2 * cx) (-(τ y1 * cy)) (-(τ y2 * cy))) = s at *
    generalize i (τ ((E2).slope x1 x2 y1 y2)) = s' at *
    linear_combination (i cx) * (-(j y)) * h3' - (j x * w ^ 2 - i (τ x1) * i cx) * e - s' * i cy * j x * h2'
  rw [key, S.kill.neg, map_mul, S.kill.const S.tw.cy_ne, one_mul, ← map_pow φ, mul_comm]
  exact S.kill.conj (pow_ne_zero _ hne)

theorem pr_neg_right {P : (E1).Point} (hP : r • P = 0) {Q : (E2).Point} (hQ : r • Q = 0) :
    pr j i w φ t P Q * pr j i w φ t P (-Q) = 1 := by
  by_cases h0 : Q = 0
  · subst h0
    rw [neg_zero, pr_zero_right, one_mul]
  by_cases h1 : P = 0
  · subst h1
    rw [pr_zero_left, pr_zero_left, one_mul]
  obtain ⟨x, y, hn, rfl⟩ := some_cases h1
  have hx := S.x_ne hP
  rw [pr_some _ h0, pr_some _ (neg_ne_zero.2 h0)]
  exact S.kill.mf_neg (S.eqn hn) (S.conj_X x) (fun c => S.indep x c hx) t (S.smul_ne hQ h0)

/-- Three points of a line in the second group. -/
theorem pr_three_right {P : (E1).Point} (hP : r • P = 0) (h0 : P ≠ 0) {Q1 Q2 : (E2).Point} (hQ1 : r • Q1 = 0)
    (hQ2 : r • Q2 = 0) (hψ1 : twistFun S.tw Q1 = -(bval t • Q1)) (hψ2 : twistFun S.tw Q2 = -(bval t • Q2))
    (h1 : Q1 ≠ 0) (h2 : Q2 ≠ 0) (h3 : Q1 + Q2 ≠ 0) :
    pr j i w φ t P Q1 * pr j i w φ t P Q2 * pr j i w φ t P (-(Q1 + Q2)) = 1 := by
  obtain ⟨x, y, hn, rfl⟩ := some_cases h0
  have hx := S.x_ne hP
  have hQ3 : r • (Q1 + Q2) = 0 := by rw [smul_add, hQ1, hQ2, add_zero]
  have key := S.kill.mf_sum (S.eqn hn) (S.conj_X x) (fun c => S.indep x c hx) t (S.smul_ne hQ1 h1) (S.smul_ne hQ2 h2)
    (S.smul_ne hQ3 h3)
  have e1 : bval t • Q1 = -twistFun S.tw Q1 := by rw [hψ1, neg_neg]
  have e2 : bval t • Q2 = -twistFun S.tw Q2 := by rw [hψ2, neg_neg]
  have hl := S.ln_twist hn h1 h2 h3
  rw [← e1, ← e2] at hl
  have ho := S.phi_order (S.ln_ne hn Q1 Q2) S.dvd
  rw [pow_add, ← key, mul_assoc, hl, mul_one, map_mul, map_mul] at ho
  rw [pr_some _ h1, pr_some _ h2, pr_some _ (neg_ne_zero.2 h3)]
  exact ho

/-- Linearity in the second argument. -/
theorem pr_add_right {P : (E1).Point} (hP : r • P = 0) {Q1 Q2 : (E2).Point} (hQ1 : r • Q1 = 0)
    (hQ2 : r • Q2 = 0) (hψ1 : twistFun S.tw Q1 = -(bval t • Q1)) (hψ2 : twistFun S.tw Q2 = -(bval t • Q2)) :
    pr j i w φ t P (Q1 + Q2) = pr j i w φ t P Q1 * pr j i w φ t P Q2 := by
  by_cases h0 : P = 0
  · subst h0
    rw [pr_zero_left, pr_zero_left, pr_zero_left, one_mul]
  by_cases h1 : Q1 = 0
  · subst h1
    rw [zero_add, pr_zero_right, one_mul]
  by_cases h2 : Q2 = 0
  · subst h2
    rw [add_zero, pr_zero_right, mul_one]
  by_cases h3 : Q1 + Q2 = 0
  · rw [h3, pr_zero_right, ← neg_eq_of_add_eq_zero_right h3, S.pr_neg_right hP hQ1]
  · have a := S.pr_three_right hP h0 hQ1 hQ2 hψ1 hψ2 h1 h2 h3
    have hQ3 : r • (Q1 + Q2) = 0 := by rw [smul_add, hQ1, hQ2, add_zero]
    have c := S.pr_neg_right hP hQ3
    linear_combination (pr j i w φ t P Q1 * pr j i w φ t P Q2) * c - pr j i w φ t P (Q1 + Q2) * a

end Setup

end Kzg.Zk.Miller
