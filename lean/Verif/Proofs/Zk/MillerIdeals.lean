import Verif.Proofs.Zk.MillerLines
/-!
# The Miller function in the coordinate ring

The lines through points over `k` are elements of the coordinate ring of the curve, whose ideals are those of the points.
-/

set_option linter.unusedSectionVars false

namespace Kzg.Zk.Miller
open WeierstrassCurve.Affine CurveConsts LawfulCurve Polynomial

variable {k L : Type} [Field k] [DecidableEq k] [LawfulCurve k] [Field L]

local notation "E" => curve (CurveConsts.b (K := k))
local notation "Rg" => CoordinateRing (curve (CurveConsts.b (K := k)))

/-- A unit of the coordinate ring is a constant. -/
theorem unit_const {u : Rg} (hu : IsUnit u) : ∃ c : k, c ≠ 0 ∧ u = CoordinateRing.mk (E) (C (C c)) := by
  obtain ⟨p, q, rfl⟩ := CoordinateRing.exists_smul_basis_eq u
  have hn : IsUnit (Algebra.norm k[X] (p • (1 : Rg) + q • CoordinateRing.mk (E) X)) := hu.map (Algebra.norm k[X])
  have hd := degree_eq_zero_of_isUnit hn
  rw [CoordinateRing.degree_norm_smul_basis] at hd
  have hq : q = 0 := by
    by_contra h
    have h1 : (0 : WithBot ℕ) ≤ q.degree := zero_le_degree_iff.2 h
    have h2 : (3 : WithBot ℕ) ≤ 2 • q.degree + 3 := by
      rw [two_nsmul]
      have : (0 : WithBot ℕ) ≤ q.degree + q.degree := add_nonneg h1 h1
      calc (3 : WithBot ℕ) = 0 + 3 := (zero_add _).symm
        _ ≤ _ := add_le_add_left this 3
    have h3 : (3 : WithBot ℕ) ≤ 0 := h2.trans ((le_max_right _ _).trans hd.le)
    exact absurd h3 (by decide)
  subst hq
  have hp : p.degree ≤ 0 := by
    by_contra h
    have h1 : (0 : WithBot ℕ) < p.degree := not_le.1 h
    have h2 : p.degree ≤ 2 • p.degree := by
      rw [two_nsmul]
      calc p.degree = p.degree + 0 := (add_zero _).symm
        _ ≤ _ := add_le_add_right h1.le _
    exact absurd ((h1.trans_le h2).trans_le ((le_max_left _ _).trans hd.le)) (lt_irrefl _)
  rw [eq_C_of_degree_le_zero hp] at hu ⊢
  refine ⟨p.coeff 0, ?_, ?_⟩
  · intro h0
    rw [h0, map_zero, zero_smul, zero_smul, add_zero] at hu
    exact not_isUnit_zero hu
  · rw [zero_smul, add_zero, CoordinateRing.smul, mul_one]

/-- The ideal of a point. -/
noncomputable def pid : (E).Point → Ideal Rg
  | .some x y _ => CoordinateRing.XYIdeal (E) x (C y)
  | .zero => 1

/-- The line through two points. -/
noncomputable def lnR : (E).Point → (E).Point → Rg
  | .some x1 y1 _, .some x2 y2 _ => CoordinateRing.YClass (E) (linePolynomial x1 y1 ((E).slope x1 x2 y1 y2))
  | _, _ => 1

/-- The vertical line at a point. -/
noncomputable def vR : (E).Point → Rg
  | .some x _ _ => CoordinateRing.XClass (E) x
  | .zero => 1

theorem vR_ne (R : (E).Point) : vR R ≠ 0 := by
  cases R with
  | zero => exact one_ne_zero
  | some x y h => exact CoordinateRing.XClass_ne_zero x

theorem lnR_ne (R S : (E).Point) : lnR R S ≠ 0 := by
  cases R with
  | zero => cases S <;> exact one_ne_zero
  | some x y h =>
    cases S with
    | zero => exact one_ne_zero
    | some x y h => exact CoordinateRing.YClass_ne_zero _

theorem pid_add {R S : (E).Point} (hR : R ≠ 0) (hS : S ≠ 0) (hRS : R + S ≠ 0) :
    Ideal.span {vR (R + S)} * (pid R * pid S) = Ideal.span {lnR R S} * pid (R + S) := by
  obtain ⟨x1, y1, h1, rfl⟩ := some_cases hR
  obtain ⟨x2, y2, h2, rfl⟩ := some_cases hS
  have hxy := opp_of_add_eq hRS
  rw [Point.add_some hxy]
  exact CoordinateRing.XYIdeal_mul_XYIdeal h1.1 h2.1 hxy

theorem pid_neg {R : (E).Point} (hR : R ≠ 0) : pid (-R) * pid R = Ideal.span {vR R} := by
  obtain ⟨x1, y1, h1, rfl⟩ := some_cases hR
  rw [Point.neg_some]
  exact CoordinateRing.XYIdeal_neg_mul h1

theorem vR_neg (R : (E).Point) : vR (-R) = vR R := by
  cases R with
  | zero => rfl
  | some x y h => rfl

/-- A line goes through three points. -/
theorem pid_three {R S : (E).Point} (hR : R ≠ 0) (hS : S ≠ 0) (hRS : R + S ≠ 0) :
    pid R * pid S * pid (-(R + S)) = Ideal.span {lnR R S} := by
  have h := congrArg (· * pid (-(R + S))) (pid_add hR hS hRS)
  rw [mul_assoc (Ideal.span {lnR R S}), mul_comm (pid (R + S)), pid_neg hRS, mul_assoc,
    mul_comm (Ideal.span {lnR R S})] at h
  exact (Ideal.span_singleton_mul_right_inj (vR_ne _)).1 h

/-- The product of lines that the Miller loop computes. -/
noncomputable def mfR (Q : (E).Point) : List Bool → Rg
  | [] => 1
  | c :: t =>
    let f := mfR Q t ^ 2 * lnR (bval t • Q) (bval t • Q)
    if c then f * lnR ((2 * bval t) • Q) Q else f

/-- The product of verticals that it leaves out. -/
noncomputable def vvR (Q : (E).Point) : List Bool → Rg
  | [] => 1
  | c :: t =>
    let f := vvR Q t ^ 2 * vR ((2 * bval t) • Q)
    if c then f * vR ((2 * bval t + 1) • Q) else f

theorem mfR_ideal {Q : (E).Point} (t : List Bool) (hQ : ∀ m, 0 < m → m ≤ bval t → m • Q ≠ 0) :
    Ideal.span {mfR Q t} * pid (bval t • Q) = pid Q ^ bval t * Ideal.span {vvR Q t} := by
  induction t with
  | nil => simp [mfR, vvR, bval]
  | cons c t ih =>
    have hp := bval_pos t
    have ih := ih fun m h0 h1 => hQ m h0 (by rw [bval]; omega)
    have hn : bval t • Q ≠ 0 := hQ _ hp (by rw [bval]; omega)
    have h2n : (2 * bval t) • Q ≠ 0 := hQ _ (by omega) (by rw [bval]; omega)
    have e2 : bval t • Q + bval t • Q = (2 * bval t) • Q := by rw [← add_smul, two_mul]
    have hQ0 : Q ≠ 0 := by
      have := hQ 1 Nat.one_pos (by rw [bval]; omega)
      rwa [one_smul] at this
    have d := pid_add hn hn (by rwa [e2])
    rw [e2] at d
    have D : Ideal.span {mfR Q t ^ 2 * lnR (bval t • Q) (bval t • Q)} * pid ((2 * bval t) • Q)
        = pid Q ^ (2 * bval t) * Ideal.span {vvR Q t ^ 2 * vR ((2 * bval t) • Q)} := by
      rw [← Ideal.span_singleton_mul_span_singleton, ← Ideal.span_singleton_mul_span_singleton,
        ← Ideal.span_singleton_pow, ← Ideal.span_singleton_pow, mul_assoc, ← d,
        show pid Q ^ (2 * bval t) = (pid Q ^ bval t) ^ 2 by rw [mul_comm 2, pow_mul]]
      calc _ = (Ideal.span {mfR Q t} * pid (bval t • Q)) ^ 2 * Ideal.span {vR ((2 * bval t) • Q)} := by ring
        _ = _ := by rw [ih]; ring
    cases c with
    | false => simpa only [mfR, vvR, bval, Bool.toNat_false, add_zero, Bool.false_eq_true, if_false] using D
    | true =>
      have e3 : (2 * bval t) • Q + Q = (2 * bval t + 1) • Q := by rw [add_smul, one_smul]
      have h3 : (2 * bval t + 1) • Q ≠ 0 := hQ _ (by omega) (by rw [bval, Bool.toNat_true])
      have a := pid_add h2n hQ0 (by rwa [e3])
      rw [e3] at a
      simp only [mfR, vvR, bval, Bool.toNat_true, if_true]
      rw [← Ideal.span_singleton_mul_span_singleton, ← Ideal.span_singleton_mul_span_singleton (vvR Q t ^ 2 * _),
        mul_assoc, ← a, pow_succ (pid Q)]
      calc _ = (Ideal.span {mfR Q t ^ 2 * lnR (bval t • Q) (bval t • Q)} * pid ((2 * bval t) • Q))
            * (Ideal.span {vR ((2 * bval t + 1) • Q)} * pid Q) := by ring
        _ = _ := by rw [D]; ring

/-- Equal principal ideals: the generators differ by a constant. -/
theorem const_of_span {a c : Rg} (h : Ideal.span {a} = Ideal.span {c}) :
    ∃ d : k, d ≠ 0 ∧ a = CoordinateRing.mk (E) (C (C d)) * c := by
  obtain ⟨u, hu⟩ := Ideal.span_singleton_eq_span_singleton.1 h
  obtain ⟨d, hd, e⟩ := unit_const (u⁻¹).isUnit
  refine ⟨d, hd, ?_⟩
  rw [← e, ← hu, mul_comm, mul_assoc, Units.mul_inv, mul_one]

/-- Three points of a line. -/
theorem mfR_three {Q1 Q2 : (E).Point} (t : List Bool) (h1 : ∀ m, 0 < m → m ≤ bval t → m • Q1 ≠ 0)
    (h2 : ∀ m, 0 < m → m ≤ bval t → m • Q2 ≠ 0) (h3 : ∀ m, 0 < m → m ≤ bval t → m • (Q1 + Q2) ≠ 0) :
    ∃ d : k, d ≠ 0 ∧ mfR Q1 t * mfR Q2 t * mfR (-(Q1 + Q2)) t * lnR (bval t • Q1) (bval t • Q2)
      = CoordinateRing.mk (E) (C (C d))
        * (lnR Q1 Q2 ^ bval t * (vvR Q1 t * vvR Q2 t * vvR (-(Q1 + Q2)) t)) := by
  have hp := bval_pos t
  have one : ∀ {Q : (E).Point}, (∀ m, 0 < m → m ≤ bval t → m • Q ≠ 0) → Q ≠ 0 := by
    intro Q h
    have := h 1 Nat.one_pos hp
    rwa [one_smul] at this
  have i1 := mfR_ideal t h1
  have i2 := mfR_ideal t h2
  have i3 := mfR_ideal (Q := -(Q1 + Q2)) t fun m a b => by rw [smul_neg, neg_ne_zero]; exact h3 m a b
  apply const_of_span
  have p1 := pid_three (one h1) (one h2) (one h3)
  have p2 := pid_three (h1 _ hp le_rfl) (h2 _ hp le_rfl) (by rw [← smul_add]; exact h3 _ hp le_rfl)
  rw [← smul_add, ← smul_neg] at p2
  simp only [← Ideal.span_singleton_mul_span_singleton, ← Ideal.span_singleton_pow]
  rw [← p1, ← p2]
  calc _ = (Ideal.span {mfR Q1 t} * pid (bval t • Q1)) * (Ideal.span {mfR Q2 t} * pid (bval t • Q2))
        * (Ideal.span {mfR (-(Q1 + Q2)) t} * pid (bval t • -(Q1 + Q2))) := by ring
    _ = _ := by rw [i1, i2, i3]; ring

/-- Two opposite points. -/
theorem mfR_neg {Q : (E).Point} (t : List Bool) (h : ∀ m, 0 < m → m ≤ bval t → m • Q ≠ 0) :
    ∃ d : k, d ≠ 0 ∧ mfR Q t * mfR (-Q) t * vR (bval t • Q)
      = CoordinateRing.mk (E) (C (C d)) * (vR Q ^ bval t * (vvR Q t * vvR (-Q) t)) := by
  have hp := bval_pos t
  have h0 : Q ≠ 0 := by
    have := h 1 Nat.one_pos hp
    rwa [one_smul] at this
  have i1 := mfR_ideal t h
  have i2 := mfR_ideal (Q := -Q) t fun m a b => by rw [smul_neg, neg_ne_zero]; exact h m a b
  apply const_of_span
  have p1 := pid_neg h0
  have p2 := pid_neg (h _ hp le_rfl)
  simp only [← Ideal.span_singleton_mul_span_singleton, ← Ideal.span_singleton_pow]
  rw [← p1, ← p2, ← smul_neg]
  calc _ = (Ideal.span {mfR Q t} * pid (bval t • Q)) * (Ideal.span {mfR (-Q) t} * pid (bval t • -Q)) := by ring
    _ = _ := by rw [i1, i2]; ring

/-! ## Values -/

section
variable (i : k →+* L) {X Y : L} (h : Y ^ 2 = X ^ 3 + i b)

include h in
theorem root_eq : ((E).polynomial).eval₂ (eval₂RingHom i X) Y = 0 := by
  simp only [WeierstrassCurve.Affine.polynomial, curve]
  simp [eval₂_pow]
  linear_combination h

/-- The value of a function at a point over `L`. -/
noncomputable def ev : Rg →+* L := AdjoinRoot.lift (eval₂RingHom i X) Y (root_eq i h)

theorem ev_const (c : k) : ev i h (CoordinateRing.mk (E) (C (C c))) = i c := by
  rw [ev, AdjoinRoot.lift_mk]
  simp

theorem ev_lnR (R S : (E).Point) : ev i h (lnR R S) = ln i X Y R S := by
  cases R with
  | zero => cases S <;> exact map_one _
  | some x1 y1 h1 =>
    cases S with
    | zero => exact map_one _
    | some x2 y2 h2 =>
      simp only [lnR, ln, ev, CoordinateRing.YClass]
      rw [AdjoinRoot.lift_mk]
      simp [linePolynomial]

theorem ev_mfR (Q : (E).Point) (t : List Bool) : ev i h (mfR Q t) = mf i X Y Q t := by
  induction t with
  | nil => exact map_one _
  | cons c t ih =>
    cases c <;>
      simp only [mf, mfR, Bool.false_eq_true, if_false, if_true, map_mul, map_pow, ih, ev_lnR]

variable {i} {σ : L →+* L} {φ : L →* L}

theorem Kill.ev_vR (H : Kill i σ φ) (hX : σ X = X) (hXn : ∀ c, X ≠ i c) (R : (E).Point) : φ (ev i h (vR R)) = 1 := by
  cases R with
  | zero =>
    have e : ev i h (vR (.zero : (E).Point)) = 1 := map_one (ev i h)
    rw [e, map_one]
  | some x y hn =>
    have e : ev i h (vR (.some x y hn)) = X - i x := by
      simp only [vR, ev, CoordinateRing.XClass]
      rw [AdjoinRoot.lift_mk]
      simp
    rw [e]
    exact H.kill _ (sub_ne_zero.2 (hXn x)) (by rw [map_sub, hX, H.base])

theorem Kill.ev_vvR (H : Kill i σ φ) (hX : σ X = X) (hXn : ∀ c, X ≠ i c) (Q : (E).Point) (t : List Bool) :
    φ (ev i h (vvR Q t)) = 1 := by
  induction t with
  | nil =>
    have e : ev i h (vvR Q []) = 1 := map_one (ev i h)
    rw [e, map_one]
  | cons c t ih =>
    cases c <;>
      simp only [vvR, Bool.false_eq_true, if_false, if_true, map_mul, map_pow, ih, H.ev_vR h hX hXn, one_pow, mul_one]

/-- The product over three points of a line. -/
theorem Kill.mf_sum (H : Kill i σ φ) (h : Y ^ 2 = X ^ 3 + i b) (hX : σ X = X) (hXn : ∀ c, X ≠ i c) {Q1 Q2 : (E).Point}
    (t : List Bool) (h1 : ∀ m, 0 < m → m ≤ bval t → m • Q1 ≠ 0) (h2 : ∀ m, 0 < m → m ≤ bval t → m • Q2 ≠ 0)
    (h3 : ∀ m, 0 < m → m ≤ bval t → m • (Q1 + Q2) ≠ 0) :
    φ (mf i X Y Q1 t * mf i X Y Q2 t * mf i X Y (-(Q1 + Q2)) t) * φ (ln i X Y (bval t • Q1) (bval t • Q2))
      = φ (ln i X Y Q1 Q2) ^ bval t := by
  obtain ⟨d, hd, e⟩ := mfR_three t h1 h2 h3
  have e' := congrArg (fun z => φ (ev i h z)) e
  simp only [map_mul, map_pow, ev_mfR, ev_lnR, ev_const, H.const hd, H.ev_vvR h hX hXn, one_mul, mul_one] at e'
  rw [map_mul, map_mul]
  exact e'

/-- Opposite points. -/
theorem Kill.mf_neg (H : Kill i σ φ) (h : Y ^ 2 = X ^ 3 + i b) (hX : σ X = X) (hXn : ∀ c, X ≠ i c) {Q : (E).Point}
    (t : List Bool) (h1 : ∀ m, 0 < m → m ≤ bval t → m • Q ≠ 0) : φ (mf i X Y Q t) * φ (mf i X Y (-Q) t) = 1 := by
  obtain ⟨d, hd, e⟩ := mfR_neg t h1
  have e' := congrArg (fun z => φ (ev i h z)) e
  simp only [map_mul, map_pow, ev_mfR, ev_const, H.const hd, H.ev_vvR h hX hXn, H.ev_vR h hX hXn, one_pow,
    mul_one] at e'
  exact e'

end

end Kzg.Zk.Miller
