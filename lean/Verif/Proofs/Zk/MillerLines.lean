import Verif.Proofs.Zk.Curve
/-!
# Lines of the Miller loop and their values

`k` is the field of the points, `L` a field containing it by `i`. Lines go through points over `k` and are evaluated at
points over `L`.
-/

set_option linter.unusedSectionVars false

namespace Kzg.Zk.Miller
open WeierstrassCurve.Affine CurveConsts LawfulCurve

variable {k L : Type} [Field k] [DecidableEq k] [LawfulCurve k] [Field L]

local notation "E" => curve (CurveConsts.b (K := k))

/-- A point is opposite to another. -/
theorem opp_of_add_eq {x1 y1 x2 y2 : k} {h1 : (E).Nonsingular x1 y1} {h2 : (E).Nonsingular x2 y2}
    (h : Point.some x1 y1 h1 + Point.some x2 y2 h2 ≠ 0) : ¬(x1 = x2 ∧ y1 = (E).negY x2 y2) := by
  rintro ⟨hx, hy⟩
  exact h (Point.add_of_Y_eq hx hy)

/-- The second point is on the line. -/
theorem line_snd {x1 y1 x2 y2 : k} (h1 : (E).Equation x1 y1) (h2 : (E).Equation x2 y2)
    (hxy : ¬(x1 = x2 ∧ y1 = (E).negY x2 y2)) : y2 = (E).slope x1 x2 y1 y2 * (x2 - x1) + y1 := by
  by_cases hx : x1 = x2
  · have hy : y1 = y2 := Y_eq_of_Y_ne h1 h2 hx fun h => hxy ⟨hx, h⟩
    rw [hx, hy]
    ring
  · rw [slope_of_X_ne hx]
    have : x1 - x2 ≠ 0 := sub_ne_zero.2 hx
    field_simp
    ring

/-- The three abscissas of a line, by their elementary symmetric functions. -/
theorem vieta {x1 y1 x2 y2 : k} (h1 : (E).Equation x1 y1) (h2 : (E).Equation x2 y2)
    (hxy : ¬(x1 = x2 ∧ y1 = (E).negY x2 y2)) {l m x3 : k} (hl : l = (E).slope x1 x2 y1 y2) (hm : m = y1 - l * x1)
    (h3 : x3 = l ^ 2 - x1 - x2) :
    x1 * x2 + x1 * x3 + x2 * x3 = -2 * l * m ∧ x1 * x2 * x3 = m ^ 2 - b := by
  have key := addPolynomial_slope h1 h2 hxy
  rw [← hl, addX_eq, ← h3] at key
  have ev : ∀ z : k, (l * (z - x1) + y1) ^ 2 - (z ^ 3 + b) = -((z - x1) * (z - x2) * (z - x3)) := by
    intro z
    have := congrArg (Polynomial.eval z) key
    simp only [addPolynomial, linePolynomial, WeierstrassCurve.Affine.polynomial, curve] at this
    simp at this
    linear_combination this
  have e0 := ev 0
  have e1 := ev 1
  have s3 : x1 + x2 + x3 = l ^ 2 := by rw [h3]; ring
  have r3 : x1 * x2 * x3 = m ^ 2 - b := by rw [hm]; linear_combination -e0
  refine ⟨?_, r3⟩
  rw [hm]
  linear_combination e1 - e0 + s3

/-- `∏ (u xⱼ + v)` by the symmetric functions. -/
theorem prod_three {u v x1 x2 x3 e1 e2 e3 : L} (h1 : x1 + x2 + x3 = e1) (h2 : x1 * x2 + x1 * x3 + x2 * x3 = e2)
    (h3 : x1 * x2 * x3 = e3) :
    (u * x1 + v) * (u * x2 + v) * (u * x3 + v) = u ^ 3 * e3 + u ^ 2 * v * e2 + u * v ^ 2 * e1 + v ^ 3 := by
  subst h1 h2 h3
  ring

/-- Two lines `y = l x + m` and `y = A x + B` on `y² = x³ + c`: the values of the first at the points of the second are,
up to the sign, the values of the second at the points of the first. -/
theorem two_lines {c l m A B x1 x2 x3 X1 X2 X3 : L} (a1 : x1 + x2 + x3 = l ^ 2)
    (a2 : x1 * x2 + x1 * x3 + x2 * x3 = -2 * l * m) (a3 : x1 * x2 * x3 = m ^ 2 - c) (b1 : X1 + X2 + X3 = A ^ 2)
    (b2 : X1 * X2 + X1 * X3 + X2 * X3 = -2 * A * B) (b3 : X1 * X2 * X3 = B ^ 2 - c) :
    ((A * X1 + B) - l * X1 - m) * ((A * X2 + B) - l * X2 - m) * ((A * X3 + B) - l * X3 - m)
      = -(((l * x1 + m) - A * x1 - B) * ((l * x2 + m) - A * x2 - B) * ((l * x3 + m) - A * x3 - B)) := by
  have p := prod_three (u := A - l) (v := B - m) b1 b2 b3
  have q := prod_three (u := l - A) (v := m - B) a1 a2 a3
  linear_combination p + q

variable (i : k →+* L)

/-- The value at `(X, Y)` of the line through two points. -/
noncomputable def ln (X Y : L) : (E).Point → (E).Point → L
  | .some x1 y1 _, .some x2 y2 _ => Y - (i ((E).slope x1 x2 y1 y2) * (X - i x1) + i y1)
  | _, _ => 1

/-- The value of the line `Y = A X + B` at a point over `k`. -/
def mv (A B : L) : (E).Point → L
  | .some x y _ => i y - A * i x - B
  | _ => 1

theorem mv_some {A B : L} {x y : k} (h : (E).Nonsingular x y) : mv i A B (.some x y h) = i y - A * i x - B := rfl

theorem some_cases {R : (E).Point} (h : R ≠ 0) : ∃ x y, ∃ h : (E).Nonsingular x y, R = .some x y h := by
  cases R with
  | zero => exact absurd rfl h
  | some x y hn => exact ⟨x, y, hn, rfl⟩

/-- The reciprocity of two lines, with points. -/
theorem ln_three {A B X1 X2 X3 : L} (b1 : X1 + X2 + X3 = A ^ 2) (b2 : X1 * X2 + X1 * X3 + X2 * X3 = -2 * A * B)
    (b3 : X1 * X2 * X3 = B ^ 2 - i b) {R S : (E).Point} (hR : R ≠ 0) (hS : S ≠ 0) (hRS : R + S ≠ 0) :
    ln i X1 (A * X1 + B) R S * ln i X2 (A * X2 + B) R S * ln i X3 (A * X3 + B) R S
      = -(mv i A B R * mv i A B S * mv i A B (-(R + S))) := by
  obtain ⟨x1, y1, h1, rfl⟩ := some_cases hR
  obtain ⟨x2, y2, h2, rfl⟩ := some_cases hS
  have hxy := opp_of_add_eq hRS
  obtain ⟨l, hl⟩ : ∃ l, l = (E).slope x1 x2 y1 y2 := ⟨_, rfl⟩
  obtain ⟨m, hm⟩ : ∃ m, m = y1 - l * x1 := ⟨_, rfl⟩
  obtain ⟨x3, h3⟩ : ∃ x3, x3 = l ^ 2 - x1 - x2 := ⟨_, rfl⟩
  obtain ⟨a2, a3⟩ := vieta h1.1 h2.1 hxy hl hm h3
  have a1 : x1 + x2 + x3 = l ^ 2 := by rw [h3]; ring
  have hy2 := line_snd h1.1 h2.1 hxy
  rw [← hl] at hy2
  have key := two_lines (c := i b) (l := i l) (m := i m) (x1 := i x1) (x2 := i x2) (x3 := i x3)
    (by rw [← map_add, ← map_add, a1, map_pow])
    (by rw [← map_mul, ← map_mul, ← map_mul, ← map_add, ← map_add, a2]; simp only [map_mul, map_neg, map_ofNat])
    (by rw [← map_mul, ← map_mul, a3]; simp) b1 b2 b3
  rw [Point.add_some hxy, Point.neg_some, mv_some, mv_some, mv_some]
  simp only [ln]
  rw [negY_eq, addY_eq, addX_eq, ← hl, ← h3, neg_neg]
  have e1 : i y1 = i l * i x1 + i m := by rw [← map_mul, ← map_add, hm]; congr 1; ring
  have e2 : i y2 = i l * i x2 + i m := by rw [← map_mul, ← map_add, hm, hy2]; congr 1; ring
  have e3 : i (l * (x3 - x1) + y1) = i l * i x3 + i m := by rw [← map_mul, ← map_add, hm]; congr 1; ring
  rw [e2, e3, e1, ← key]
  ring

/-! ## The Miller function

The bits are listed from the lowest on; the leading bit is left out. -/

/-- The number with these bits. -/
def bval : List Bool → Nat
  | [] => 1
  | c :: t => 2 * bval t + c.toNat

theorem bval_pos (t : List Bool) : 0 < bval t := by
  induction t with
  | nil => exact Nat.one_pos
  | cons c t ih => rw [bval]; omega

/-- The product of lines that the Miller loop computes. -/
noncomputable def mf (X Y : L) (Q : (E).Point) : List Bool → L
  | [] => 1
  | c :: t =>
    let f := mf X Y Q t ^ 2 * ln i X Y (bval t • Q) (bval t • Q)
    if c then f * ln i X Y ((2 * bval t) • Q) Q else f

/-- What is used about the exponentiation `φ` that follows: it sends the elements fixed by the conjugation `σ` to
one. -/
structure Kill (σ : L →+* L) (φ : L →* L) : Prop where
  invol : ∀ x, σ (σ x) = x
  base : ∀ c, σ (i c) = i c
  kill : ∀ x, x ≠ 0 → σ x = x → φ x = 1

variable {i} {σ : L →+* L} {φ : L →* L}

theorem Kill.const (H : Kill i σ φ) {c : k} (hc : c ≠ 0) : φ (i c) = 1 :=
  H.kill _ (by rwa [Ne, map_eq_zero]) (H.base c)

theorem Kill.neg_one (H : Kill i σ φ) : φ (-1) = 1 := H.kill _ (by simp) (by simp)

theorem Kill.conj (H : Kill i σ φ) {x : L} (h : x ≠ 0) : φ x * φ (σ x) = 1 := by
  rw [← map_mul]
  refine H.kill _ (mul_ne_zero h (by rwa [Ne, map_eq_zero])) ?_
  rw [map_mul, H.invol, mul_comm]

theorem Kill.neg (H : Kill i σ φ) (x : L) : φ (-x) = φ x := by
  rw [neg_eq_neg_one_mul, map_mul, H.neg_one, one_mul]

theorem Kill.two (_ : Kill i σ φ) : (2 : L) ≠ 0 := by
  have := (map_ne_zero i).2 (two_ne (K := k))
  rwa [map_ofNat] at this

section pside
variable {A B : L}

/-- The value of an odd line at a finite point is not zero. -/
theorem Kill.mv_ne (H : Kill i σ φ) (hA : σ A = -A) (hB : σ B = -B) {R : (E).Point} (hR : R ≠ 0) : mv i A B R ≠ 0 := by
  obtain ⟨x, y, h, rfl⟩ := some_cases hR
  rw [mv_some]
  intro e
  have e' := congrArg σ e
  rw [map_sub, map_sub, map_mul, hA, hB, H.base, H.base, map_zero] at e'
  have : i y = 0 := by
    have h2 : (2 : L) * i y = 0 := by linear_combination e + e'
    exact (mul_eq_zero.1 h2).resolve_left H.two
  exact y_ne h.1 ((map_eq_zero i).1 this)

/-- At the opposite point the value is inverted. -/
theorem Kill.mv_neg (H : Kill i σ φ) (hA : σ A = -A) (hB : σ B = -B) {R : (E).Point} (hR : R ≠ 0) :
    φ (mv i A B R) * φ (mv i A B (-R)) = 1 := by
  have h0 := H.mv_ne hA hB hR
  obtain ⟨x, y, h, rfl⟩ := some_cases hR
  have e : mv i A B (-Point.some x y h) = -σ (mv i A B (Point.some x y h)) := by
    rw [Point.neg_some, mv_some, mv_some, negY_eq, map_neg, map_sub, map_sub, map_mul, hA, hB, H.base, H.base]
    ring
  rw [e, H.neg, H.conj h0]

/-- The product over the three points of a line: step from `n` to `2n` and on to `2n + 1`. -/
theorem Kill.mf_three (H : Kill i σ φ) (hA : σ A = -A) (hB : σ B = -B) {X1 X2 X3 : L} (b1 : X1 + X2 + X3 = A ^ 2)
    (b2 : X1 * X2 + X1 * X3 + X2 * X3 = -2 * A * B) (b3 : X1 * X2 * X3 = B ^ 2 - i b) {Q : (E).Point}
    (t : List Bool) (hQ : ∀ m, 0 < m → m ≤ bval t → m • Q ≠ 0) :
    φ (mf i X1 (A * X1 + B) Q t * mf i X2 (A * X2 + B) Q t * mf i X3 (A * X3 + B) Q t) * φ (mv i A B (bval t • Q))
      = φ (mv i A B Q) ^ bval t := by
  induction t with
  | nil =>
    have h1 : φ (1 : L) = 1 := map_one φ
    simp only [mf, bval, one_smul, mul_one, h1, one_mul, pow_one]
  | cons c t ih =>
    have hp := bval_pos t
    have ih := ih fun m h0 h1 => hQ m h0 (by rw [bval]; omega)
    have hn : bval t • Q ≠ 0 := hQ _ hp (by rw [bval]; omega)
    have h2n : (2 * bval t) • Q ≠ 0 := hQ _ (by omega) (by rw [bval]; omega)
    have e2 : bval t • Q + bval t • Q = (2 * bval t) • Q := by rw [← add_smul, two_mul]
    have hQ0 : Q ≠ 0 := by
      have := hQ 1 Nat.one_pos (by rw [bval]; omega)
      rwa [one_smul] at this
    have d := ln_three i b1 b2 b3 hn hn (by rwa [e2])
    rw [e2] at d
    have dφ := congrArg φ d
    have hneg := H.mv_neg hA hB h2n
    rw [map_mul, map_mul, H.neg, map_mul, map_mul] at dφ
    rw [map_mul, map_mul] at ih
    have D : φ (mf i X1 (A * X1 + B) Q t) ^ 2 * φ (mf i X2 (A * X2 + B) Q t) ^ 2 * φ (mf i X3 (A * X3 + B) Q t) ^ 2
        * (φ (ln i X1 (A * X1 + B) (bval t • Q) (bval t • Q)) * φ (ln i X2 (A * X2 + B) (bval t • Q) (bval t • Q))
          * φ (ln i X3 (A * X3 + B) (bval t • Q) (bval t • Q))) * φ (mv i A B ((2 * bval t) • Q))
          = φ (mv i A B Q) ^ (2 * bval t) := by
      rw [dφ, show φ (mv i A B Q) ^ (2 * bval t) = (φ (mv i A B Q) ^ bval t) ^ 2 by rw [mul_comm 2, pow_mul], ← ih]
      linear_combination (φ (mf i X1 (A * X1 + B) Q t) * φ (mf i X2 (A * X2 + B) Q t) * φ (mf i X3 (A * X3 + B) Q t)
        * φ (mv i A B (bval t • Q))) ^ 2 * hneg
    cases c with
    | false =>
      simp only [mf, bval, Bool.toNat_false, add_zero, Bool.false_eq_true, if_false, map_mul, map_pow]
      rw [← D]
      ring
    | true =>
      have e3 : (2 * bval t) • Q + Q = (2 * bval t + 1) • Q := by rw [add_smul, one_smul]
      have h3 : (2 * bval t + 1) • Q ≠ 0 := hQ _ (by omega) (by rw [bval, Bool.toNat_true])
      have a := ln_three i b1 b2 b3 h2n hQ0 (by rwa [e3])
      rw [e3] at a
      have aφ := congrArg φ a
      rw [map_mul, map_mul, H.neg, map_mul, map_mul] at aφ
      have hneg3 := H.mv_neg hA hB h3
      simp only [mf, bval, Bool.toNat_true, if_true, map_mul, map_pow]
      rw [pow_succ (φ (mv i A B Q)), ← D]
      generalize φ (mf i X1 (A * X1 + B) Q t) = f1 at *
      generalize φ (mf i X2 (A * X2 + B) Q t) = f2 at *
      generalize φ (mf i X3 (A * X3 + B) Q t) = f3 at *
      generalize φ (ln i X1 (A * X1 + B) (bval t • Q) (bval t • Q)) = d1 at *
      generalize φ (ln i X2 (A * X2 + B) (bval t • Q) (bval t • Q)) = d2 at *
      generalize φ (ln i X3 (A * X3 + B) (bval t • Q) (bval t • Q)) = d3 at *
      generalize φ (ln i X1 (A * X1 + B) ((2 * bval t) • Q) Q) = a1 at *
      generalize φ (ln i X2 (A * X2 + B) ((2 * bval t) • Q) Q) = a2 at *
      generalize φ (ln i X3 (A * X3 + B) ((2 * bval t) • Q) Q) = a3 at *
      linear_combination f1 ^ 2 * f2 ^ 2 * f3 ^ 2 * d1 * d2 * d3 * (φ (mv i A B ((2 * bval t + 1) • Q)) * aφ
        + φ (mv i A B ((2 * bval t) • Q)) * φ (mv i A B Q) * hneg3)

end pside

end Kzg.Zk.Miller
