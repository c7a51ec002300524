import Verif.Model.Zk.Tower
import Verif.Proofs.Zk.G1Curve
import Mathlib.Algebra.Field.Basic
import Mathlib.Tactic.Ring
import Mathlib.Tactic.LinearCombination
/-!
# The extension fields: ring and field structure

The operations of the source make each level a commutative ring, and a field once `-1` is not a square and `2`
is neither a square nor a cube in the base field.
-/

set_option linter.unusedSectionVars false

namespace Kzg.Zk

/-- What the tower needs of the base field. -/
class LawfulTower (K : Type) [Field K] : Prop where
  neg_one : ∀ x : K, x ^ 2 ≠ -1
  two_sq : ∀ x : K, x ^ 2 ≠ 2
  two_cube : ∀ x : K, x ^ 3 ≠ 2

/-- A commutative ring with inverses is a field. -/
abbrev mkField (R : Type) [CommRing R] [Nontrivial R] [Inv R] (h : ∀ a : R, a ≠ 0 → a * a⁻¹ = 1)
    (h0 : (0 : R)⁻¹ = 0) : Field R where
  mul_inv_cancel := h
  inv_zero := h0
  nnqsmul := _
  nnqsmul_def := fun _ _ => rfl
  qsmul := _
  qsmul_def := fun _ _ => rfl

variable {K : Type} [Field K] [DecidableEq K]

/-! ## Fp2 -/

namespace Fp2

@[simp] theorem zero_c0 : (0 : Fp2 K).c0 = 0 := rfl
@[simp] theorem zero_c1 : (0 : Fp2 K).c1 = 0 := rfl
@[simp] theorem one_c0 : (1 : Fp2 K).c0 = 1 := rfl
@[simp] theorem one_c1 : (1 : Fp2 K).c1 = 0 := rfl
@[simp] theorem add_c0 (a b : Fp2 K) : (a + b).c0 = a.c0 + b.c0 := rfl
@[simp] theorem add_c1 (a b : Fp2 K) : (a + b).c1 = a.c1 + b.c1 := rfl
@[simp] theorem sub_c0 (a b : Fp2 K) : (a - b).c0 = a.c0 - b.c0 := rfl
@[simp] theorem sub_c1 (a b : Fp2 K) : (a - b).c1 = a.c1 - b.c1 := rfl
@[simp] theorem neg_c0 (a : Fp2 K) : (-a).c0 = -a.c0 := rfl
@[simp] theorem neg_c1 (a : Fp2 K) : (-a).c1 = -a.c1 := rfl
@[simp] theorem mul_c0 (a b : Fp2 K) : (a * b).c0 = a.c0 * b.c0 - a.c1 * b.c1 := by
  show a.c0 * b.c0 + -a.c1 * b.c1 = _
  ring
@[simp] theorem mul_c1 (a b : Fp2 K) : (a * b).c1 = a.c0 * b.c1 + a.c1 * b.c0 := by
  show (a.c0 + a.c1) * (b.c0 + b.c1) - a.c0 * b.c0 + -a.c1 * b.c1 = _
  ring

instance : CommRing (Fp2 K) where
  add_assoc a b c := by ext <;> simp <;> ring
  zero_add a := by ext <;> simp
  add_zero a := by ext <;> simp
  add_comm a b := by ext <;> simp <;> ring
  mul_assoc a b c := by ext <;> simp <;> ring
  one_mul a := by ext <;> simp
  mul_one a := by ext <;> simp
  mul_comm a b := by ext <;> simp <;> ring
  left_distrib a b c := by ext <;> simp <;> ring
  right_distrib a b c := by ext <;> simp <;> ring
  zero_mul a := by ext <;> simp
  mul_zero a := by ext <;> simp
  neg_add_cancel a := by ext <;> simp
  sub_eq_add_neg a b := by ext <;> simp <;> ring
  nsmul := nsmulRec
  zsmul := zsmulRec

theorem square_eq (a : Fp2 K) : a.square = a * a := by
  ext
  · simp [square]; ring
  · simp [square]; ring

/-- The square root of `-1`. -/
def u : Fp2 K := ⟨0, 1⟩

/-- The element `u + 1`. -/
def xi : Fp2 K := ⟨1, 1⟩

@[simp] theorem u_c0 : (u : Fp2 K).c0 = 0 := rfl
@[simp] theorem u_c1 : (u : Fp2 K).c1 = 1 := rfl
@[simp] theorem xi_c0 : (xi : Fp2 K).c0 = 1 := rfl
@[simp] theorem xi_c1 : (xi : Fp2 K).c1 = 1 := rfl

theorem u_sq : (u : Fp2 K) * u = -1 := by ext <;> simp
theorem xi_eq : (xi : Fp2 K) = u + 1 := by ext <;> simp

theorem mulByNonresidue_eq (a : Fp2 K) : a.mulByNonresidue = xi * a := by
  ext
  · simp [mulByNonresidue]
  · simp [mulByNonresidue]; ring

/-- The embedding of the base field. -/
def ofHom : K →+* Fp2 K where
  toFun := ofFp
  map_one' := rfl
  map_zero' := rfl
  map_add' a b := by ext <;> simp [ofFp]
  map_mul' a b := by ext <;> simp [ofFp]

@[simp] theorem ofHom_c0 (a : K) : (ofHom a).c0 = a := rfl
@[simp] theorem ofHom_c1 (a : K) : (ofHom a).c1 = 0 := rfl

theorem ofHom_apply (a : K) : ofHom a = ofFp a := rfl

theorem eq_add (a : Fp2 K) : a = ofHom a.c0 + ofHom a.c1 * u := by ext <;> simp

/-- Conjugation as a homomorphism. -/
def conjHom : Fp2 K →+* Fp2 K where
  toFun := conjugate
  map_one' := by ext <;> simp [conjugate]
  map_zero' := by ext <;> simp [conjugate]
  map_add' a b := by ext <;> simp [conjugate]; ring
  map_mul' a b := by ext <;> simp [conjugate]; ring

theorem conjHom_apply (a : Fp2 K) : conjHom a = conjugate a := rfl

/-- The norm to the base field. -/
def norm (a : Fp2 K) : K := a.c0 * a.c0 + a.c1 * a.c1

theorem norm_mul (a b : Fp2 K) : norm (a * b) = norm a * norm b := by
  simp only [norm, mul_c0, mul_c1]; ring

theorem norm_one : norm (1 : Fp2 K) = 1 := by simp [norm]

theorem norm_pow (a : Fp2 K) (n : Nat) : norm (a ^ n) = norm a ^ n := by
  induction n with
  | zero => rw [pow_zero, pow_zero, norm_one]
  | succ n ih => rw [pow_succ, pow_succ, norm_mul, ih]

theorem norm_xi : norm (xi : Fp2 K) = 2 := by simp [norm]; norm_num

theorem mul_conjugate (a : Fp2 K) : a * conjugate a = ofHom (norm a) := by
  ext
  · simp [conjugate, norm]
  · simp [conjugate]; ring

theorem ctEq_iff (a b : Fp2 K) : ctEq a b = true ↔ a = b := by
  rw [ctEq, Bool.and_eq_true, decide_eq_true_eq, decide_eq_true_eq, Fp2.ext_iff]

theorem isZero_iff (a : Fp2 K) : isZero a = true ↔ a = 0 := by
  rw [isZero, Bool.and_eq_true, decide_eq_true_eq, decide_eq_true_eq, Fp2.ext_iff]; rfl

theorem select_eq (a b : Fp2 K) (c : Bool) : select a b c = if c then b else a := by cases c <;> rfl

instance : Nontrivial (Fp2 K) := ⟨0, 1, fun h => zero_ne_one (congrArg Fp2.c0 h)⟩

section
variable [LawfulTower K]

theorem norm_ne {a : Fp2 K} (h : a ≠ 0) : norm a ≠ 0 := by
  intro hn
  have hn' : a.c0 * a.c0 + a.c1 * a.c1 = 0 := hn
  by_cases h1 : a.c1 = 0
  · have : a.c0 = 0 := by
      rw [h1, mul_zero, add_zero] at hn'
      exact mul_self_eq_zero.1 hn'
    exact h (Fp2.ext this h1)
  · apply LawfulTower.neg_one (a.c0 / a.c1)
    rw [div_pow, div_eq_iff (pow_ne_zero 2 h1)]
    linear_combination hn'

theorem invert_some {a : Fp2 K} (h : a ≠ 0) : ∃ t, invert a = some t ∧ a * t = 1 := by
  have hn := norm_ne h
  refine ⟨⟨a.c0 * (norm a)⁻¹, a.c1 * -(norm a)⁻¹⟩, ?_, ?_⟩
  · rw [invert, invertK, if_neg (show a.c0 * a.c0 + a.c1 * a.c1 ≠ 0 from hn)]
    rfl
  · ext
    · simp only [mul_c0, one_c0]
      have : norm a * (norm a)⁻¹ = 1 := mul_inv_cancel₀ hn
      rw [norm] at this ⊢
      linear_combination this
    · simp only [mul_c1, one_c1]
      ring

theorem invert_zero : invert (0 : Fp2 K) = none := by simp [invert, invertK]

instance : Inv (Fp2 K) := ⟨fun a => (invert a).getD 0⟩

instance : Field (Fp2 K) := mkField _ (by
    intro a ha
    obtain ⟨t, e, h⟩ := invert_some ha
    show a * (invert a).getD 0 = 1
    rw [e]; exact h)
  (by show (invert (0 : Fp2 K)).getD 0 = 0; rw [invert_zero]; rfl)

theorem invert_eq (a : Fp2 K) : invert a = if a = 0 then none else some a⁻¹ := by
  split
  · next h => rw [h, invert_zero]
  · next h =>
    obtain ⟨t, e, h1⟩ := invert_some h
    rw [e, eq_inv_of_mul_eq_one_right h1]

theorem xi_ne : (xi : Fp2 K) ≠ 0 := fun h => one_ne_zero (congrArg Fp2.c0 h)

/-- `u + 1` is not a cube. -/
theorem xi_cube (a : Fp2 K) : a ^ 3 ≠ xi := by
  intro h
  have := congrArg norm h
  rw [norm_pow, norm_xi] at this
  exact LawfulTower.two_cube _ this

/-- `u + 1` is not a square. -/
theorem xi_sq (a : Fp2 K) : a ^ 2 ≠ xi := by
  intro h
  have := congrArg norm h
  rw [norm_pow, norm_xi] at this
  exact LawfulTower.two_sq _ this

end
end Fp2

/-! ## Fp6 -/

namespace Fp6
open Fp2 (xi)

@[simp] theorem zero_c0 : (0 : Fp6 K).c0 = 0 := rfl
@[simp] theorem zero_c1 : (0 : Fp6 K).c1 = 0 := rfl
@[simp] theorem zero_c2 : (0 : Fp6 K).c2 = 0 := rfl
@[simp] theorem one_c0 : (1 : Fp6 K).c0 = 1 := rfl
@[simp] theorem one_c1 : (1 : Fp6 K).c1 = 0 := rfl
@[simp] theorem one_c2 : (1 : Fp6 K).c2 = 0 := rfl
@[simp] theorem add_c0 (a b : Fp6 K) : (a + b).c0 = a.c0 + b.c0 := rfl
@[simp] theorem add_c1 (a b : Fp6 K) : (a + b).c1 = a.c1 + b.c1 := rfl
@[simp] theorem add_c2 (a b : Fp6 K) : (a + b).c2 = a.c2 + b.c2 := rfl
@[simp] theorem sub_c0 (a b : Fp6 K) : (a - b).c0 = a.c0 - b.c0 := rfl
@[simp] theorem sub_c1 (a b : Fp6 K) : (a - b).c1 = a.c1 - b.c1 := rfl
@[simp] theorem sub_c2 (a b : Fp6 K) : (a - b).c2 = a.c2 - b.c2 := rfl
@[simp] theorem neg_c0 (a : Fp6 K) : (-a).c0 = -a.c0 := rfl
@[simp] theorem neg_c1 (a : Fp6 K) : (-a).c1 = -a.c1 := rfl
@[simp] theorem neg_c2 (a : Fp6 K) : (-a).c2 = -a.c2 := rfl
@[simp] theorem mul_c0 (a b : Fp6 K) : (a * b).c0 = a.c0 * b.c0 + xi * (a.c1 * b.c2 + a.c2 * b.c1) := by
  show ((b.c1 + b.c2) * (a.c1 + a.c2) - a.c1 * b.c1 - a.c2 * b.c2).mulByNonresidue + a.c0 * b.c0 = _
  rw [Fp2.mulByNonresidue_eq]
  ring
@[simp] theorem mul_c1 (a b : Fp6 K) : (a * b).c1 = a.c0 * b.c1 + a.c1 * b.c0 + xi * (a.c2 * b.c2) := by
  show (b.c0 + b.c1) * (a.c0 + a.c1) - a.c0 * b.c0 - a.c1 * b.c1 + (a.c2 * b.c2).mulByNonresidue = _
  rw [Fp2.mulByNonresidue_eq]
  ring
@[simp] theorem mul_c2 (a b : Fp6 K) : (a * b).c2 = a.c0 * b.c2 + a.c1 * b.c1 + a.c2 * b.c0 := by
  show (b.c0 + b.c2) * (a.c0 + a.c2) - a.c0 * b.c0 + a.c1 * b.c1 - a.c2 * b.c2 = _
  ring

instance : CommRing (Fp6 K) where
  add_assoc a b c := by ext1 <;> simp only [add_c0, add_c1, add_c2] <;> ring
  zero_add a := by ext1 <;> simp
  add_zero a := by ext1 <;> simp
  add_comm a b := by ext1 <;> simp only [add_c0, add_c1, add_c2] <;> ring
  mul_assoc a b c := by ext1 <;> simp only [mul_c0, mul_c1, mul_c2] <;> ring
  one_mul a := by ext1 <;> simp only [mul_c0, mul_c1, mul_c2, one_c0, one_c1, one_c2] <;> ring
  mul_one a := by ext1 <;> simp only [mul_c0, mul_c1, mul_c2, one_c0, one_c1, one_c2] <;> ring
  mul_comm a b := by ext1 <;> simp only [mul_c0, mul_c1, mul_c2] <;> ring
  left_distrib a b c := by ext1 <;> simp only [mul_c0, mul_c1, mul_c2, add_c0, add_c1, add_c2] <;> ring
  right_distrib a b c := by ext1 <;> simp only [mul_c0, mul_c1, mul_c2, add_c0, add_c1, add_c2] <;> ring
  zero_mul a := by ext1 <;> simp only [mul_c0, mul_c1, mul_c2, zero_c0, zero_c1, zero_c2] <;> ring
  mul_zero a := by ext1 <;> simp only [mul_c0, mul_c1, mul_c2, zero_c0, zero_c1, zero_c2] <;> ring
  neg_add_cancel a := by
    ext1 <;> simp only [add_c0, add_c1, add_c2, neg_c0, neg_c1, neg_c2, zero_c0, zero_c1, zero_c2] <;> ring
  sub_eq_add_neg a b := by
    ext1 <;> simp only [add_c0, add_c1, add_c2, neg_c0, neg_c1, neg_c2, sub_c0, sub_c1, sub_c2] <;> ring
  nsmul := nsmulRec
  zsmul := zsmulRec

/-- The cube root of `u + 1`. -/
def v : Fp6 K := ⟨0, 1, 0⟩

@[simp] theorem v_c0 : (v : Fp6 K).c0 = 0 := rfl
@[simp] theorem v_c1 : (v : Fp6 K).c1 = 1 := rfl
@[simp] theorem v_c2 : (v : Fp6 K).c2 = 0 := rfl

/-- The embedding of Fp2. -/
def ofHom : Fp2 K →+* Fp6 K where
  toFun := ofFp2
  map_one' := rfl
  map_zero' := rfl
  map_add' a b := by ext1 <;> simp [ofFp2]
  map_mul' a b := by ext1 <;> simp [ofFp2]

@[simp] theorem ofHom_c0 (a : Fp2 K) : (ofHom a).c0 = a := rfl
@[simp] theorem ofHom_c1 (a : Fp2 K) : (ofHom a).c1 = 0 := rfl
@[simp] theorem ofHom_c2 (a : Fp2 K) : (ofHom a).c2 = 0 := rfl

theorem ofHom_apply (a : Fp2 K) : ofHom a = ofFp2 a := rfl

theorem v_cube : (v : Fp6 K) * v * v = ofHom xi := by ext1 <;> simp

theorem eq_add (a : Fp6 K) : a = ofHom a.c0 + ofHom a.c1 * v + ofHom a.c2 * (v * v) := by ext1 <;> simp

theorem mulByNonresidue_eq (a : Fp6 K) : a.mulByNonresidue = v * a := by
  ext1 <;> simp [mulByNonresidue, Fp2.mulByNonresidue_eq]

theorem square_eq (a : Fp6 K) : a.square = a * a := by
  ext1
  · simp only [square, Fp2.mulByNonresidue_eq, Fp2.square_eq, mul_c0]; ring
  · simp only [square, Fp2.mulByNonresidue_eq, Fp2.square_eq, mul_c1]; ring
  · simp only [square, Fp2.square_eq, mul_c2]; ring

theorem mulBy1_eq (a : Fp6 K) (c1 : Fp2 K) : a.mulBy1 c1 = a * ⟨0, c1, 0⟩ := by
  ext1
  · simp only [mulBy1, Fp2.mulByNonresidue_eq, mul_c0]; ring
  · simp only [mulBy1, mul_c1]; ring
  · simp only [mulBy1, mul_c2]; ring

theorem mulBy01_eq (a : Fp6 K) (c0 c1 : Fp2 K) : a.mulBy01 c0 c1 = a * ⟨c0, c1, 0⟩ := by
  ext1
  · simp only [mulBy01, Fp2.mulByNonresidue_eq, mul_c0]; ring
  · simp only [mulBy01, mul_c1]; ring
  · simp only [mulBy01, mul_c2]; ring

theorem ctEq_iff (a b : Fp6 K) : ctEq a b = true ↔ a = b := by
  rw [ctEq, Bool.and_eq_true, Bool.and_eq_true, Fp2.ctEq_iff, Fp2.ctEq_iff, Fp2.ctEq_iff, Fp6.ext_iff, and_assoc]

theorem isZero_iff (a : Fp6 K) : isZero a = true ↔ a = 0 := by
  rw [isZero, Bool.and_eq_true, Bool.and_eq_true, Fp2.isZero_iff, Fp2.isZero_iff, Fp2.isZero_iff, Fp6.ext_iff,
    and_assoc]; rfl

theorem select_eq (a b : Fp6 K) (c : Bool) : select a b c = if c then b else a := by cases c <;> rfl

/-- The adjugate: the product with it is the norm. -/
def adj (a : Fp6 K) : Fp6 K :=
  ⟨a.c0 * a.c0 - xi * (a.c1 * a.c2), xi * (a.c2 * a.c2) - a.c0 * a.c1, a.c1 * a.c1 - a.c0 * a.c2⟩

/-- The norm to Fp2. -/
def norm (a : Fp6 K) : Fp2 K := xi * (a.c1 * a.adj.c2 + a.c2 * a.adj.c1) + a.c0 * a.adj.c0

theorem mul_adj (a : Fp6 K) : a * a.adj = ofHom (norm a) := by
  ext1
  · simp only [mul_c0, ofHom_c0, norm]; ring
  · simp only [mul_c1, ofHom_c1, adj]; ring
  · simp only [mul_c2, ofHom_c2, adj]; ring

theorem norm_mul (a b : Fp6 K) : norm (a * b) = norm a * norm b := by
  simp only [norm, adj, mul_c0, mul_c1, mul_c2]; ring

theorem norm_v : norm (v : Fp6 K) = xi := by simp [norm, adj]

instance : Nontrivial (Fp6 K) := ⟨0, 1, fun h => zero_ne_one (congrArg Fp6.c0 h)⟩

section
variable [LawfulTower K]

theorem norm_ne {a : Fp6 K} (h : a ≠ 0) : norm a ≠ 0 := by
  intro hn
  have hz : xi ≠ (0 : Fp2 K) := Fp2.xi_ne
  rw [norm, adj] at hn
  simp only at hn
  have hN : a.c0 ^ 3 + xi * a.c1 ^ 3 + xi ^ 2 * a.c2 ^ 3 - 3 * xi * a.c0 * a.c1 * a.c2 = 0 := by
    linear_combination hn
  -- unless all are zero, a ratio of two entries of the adjugate is a cube root of `u + 1`
  have h2 : xi * ((a.c1 * a.c1 - a.c0 * a.c2) * (a.c1 * a.c1 - a.c0 * a.c2)) =
      (a.c0 * a.c0 - xi * (a.c1 * a.c2)) * (xi * (a.c2 * a.c2) - a.c0 * a.c1) := by linear_combination a.c1 * hN
  have h3 : (xi * (a.c2 * a.c2) - a.c0 * a.c1) * (xi * (a.c2 * a.c2) - a.c0 * a.c1) =
      (a.c0 * a.c0 - xi * (a.c1 * a.c2)) * (a.c1 * a.c1 - a.c0 * a.c2) := by linear_combination a.c2 * hN
  by_cases hC : a.c1 * a.c1 - a.c0 * a.c2 = 0
  · rw [hC, mul_zero] at h3
    have hB := mul_self_eq_zero.1 h3
    by_cases h5 : a.c2 = 0
    · rw [h5, mul_zero, sub_zero] at hC
      have h6 := mul_self_eq_zero.1 hC
      rw [h5, h6] at hN
      have h7 : a.c0 ^ 3 = 0 := by linear_combination hN
      exact h (Fp6.ext (pow_eq_zero_iff (by norm_num) |>.1 h7) h6 h5)
    · apply Fp2.xi_cube (a.c1 / a.c2)
      rw [div_pow, div_eq_iff (pow_ne_zero 3 h5)]
      linear_combination a.c1 * hC - a.c2 * hB
  · apply Fp2.xi_cube ((xi * (a.c2 * a.c2) - a.c0 * a.c1) / (a.c1 * a.c1 - a.c0 * a.c2))
    rw [div_pow, div_eq_iff (pow_ne_zero 3 hC)]
    linear_combination (xi * (a.c2 * a.c2) - a.c0 * a.c1) * h3 - (a.c1 * a.c1 - a.c0 * a.c2) * h2

theorem invert_some {a : Fp6 K} (h : a ≠ 0) : ∃ t, invert a = some t ∧ a * t = 1 := by
  have hn := norm_ne h
  refine ⟨⟨(norm a)⁻¹ * a.adj.c0, (norm a)⁻¹ * a.adj.c1, (norm a)⁻¹ * a.adj.c2⟩, ?_, ?_⟩
  · have e : (a.c1 * (a.c1.square - a.c0 * a.c2) + a.c2 * (a.c2.square.mulByNonresidue - a.c0 * a.c1)).mulByNonresidue +
        a.c0 * (a.c0.square - (a.c1 * a.c2).mulByNonresidue) = norm a := by
      simp only [Fp2.square_eq, Fp2.mulByNonresidue_eq]; rfl
    simp only [invert]
    rw [e, Fp2.invert_eq, if_neg hn]
    simp only [Fp2.square_eq, Fp2.mulByNonresidue_eq]; rfl
  · have e : (⟨(norm a)⁻¹ * a.adj.c0, (norm a)⁻¹ * a.adj.c1, (norm a)⁻¹ * a.adj.c2⟩ : Fp6 K) =
        ofHom (norm a)⁻¹ * a.adj := by ext1 <;> simp
    rw [e, mul_left_comm, mul_adj, ← map_mul, inv_mul_cancel₀ hn, map_one]

theorem invert_zero : invert (0 : Fp6 K) = none := by
  have e : (Fp2.mulByNonresidue ((0 : Fp6 K).c1 * ((0 : Fp6 K).c1.square - (0 : Fp6 K).c0 * (0 : Fp6 K).c2) +
      (0 : Fp6 K).c2 * ((0 : Fp6 K).c2.square.mulByNonresidue - (0 : Fp6 K).c0 * (0 : Fp6 K).c1)) +
        (0 : Fp6 K).c0 * ((0 : Fp6 K).c0.square - ((0 : Fp6 K).c1 * (0 : Fp6 K).c2).mulByNonresidue)) = 0 := by
    simp [Fp2.mulByNonresidue_eq]
  simp only [invert]
  rw [e, Fp2.invert_zero]; rfl

instance : Inv (Fp6 K) := ⟨fun a => (invert a).getD 0⟩

instance : Field (Fp6 K) := mkField _ (by
    intro a ha
    obtain ⟨t, e, h⟩ := invert_some ha
    show a * (invert a).getD 0 = 1
    rw [e]; exact h)
  (by show (invert (0 : Fp6 K)).getD 0 = 0; rw [invert_zero]; rfl)

theorem invert_eq (a : Fp6 K) : invert a = if a = 0 then none else some a⁻¹ := by
  split
  · next h => rw [h, invert_zero]
  · next h =>
    obtain ⟨t, e, h1⟩ := invert_some h
    rw [e, eq_inv_of_mul_eq_one_right h1]

/-- `v` is not a square. -/
theorem v_sq (a : Fp6 K) : a ^ 2 ≠ v := by
  intro h
  have := congrArg norm h
  rw [pow_two, norm_mul, norm_v, ← pow_two] at this
  exact Fp2.xi_sq _ this

end
end Fp6

/-! ## Fp12 -/

namespace Fp12
open Fp6 (v)

@[simp] theorem zero_c0 : (0 : Fp12 K).c0 = 0 := rfl
@[simp] theorem zero_c1 : (0 : Fp12 K).c1 = 0 := rfl
@[simp] theorem one_c0 : (1 : Fp12 K).c0 = 1 := rfl
@[simp] theorem one_c1 : (1 : Fp12 K).c1 = 0 := rfl
@[simp] theorem add_c0 (a b : Fp12 K) : (a + b).c0 = a.c0 + b.c0 := rfl
@[simp] theorem add_c1 (a b : Fp12 K) : (a + b).c1 = a.c1 + b.c1 := rfl
@[simp] theorem sub_c0 (a b : Fp12 K) : (a - b).c0 = a.c0 - b.c0 := rfl
@[simp] theorem sub_c1 (a b : Fp12 K) : (a - b).c1 = a.c1 - b.c1 := rfl
@[simp] theorem neg_c0 (a : Fp12 K) : (-a).c0 = -a.c0 := rfl
@[simp] theorem neg_c1 (a : Fp12 K) : (-a).c1 = -a.c1 := rfl
@[simp] theorem mul_c0 (a b : Fp12 K) : (a * b).c0 = a.c0 * b.c0 + v * (a.c1 * b.c1) := by
  show (a.c1 * b.c1).mulByNonresidue + a.c0 * b.c0 = _
  rw [Fp6.mulByNonresidue_eq]
  ring
@[simp] theorem mul_c1 (a b : Fp12 K) : (a * b).c1 = a.c0 * b.c1 + a.c1 * b.c0 := by
  show (a.c1 + a.c0) * (b.c0 + b.c1) - a.c0 * b.c0 - a.c1 * b.c1 = _
  ring

instance : CommRing (Fp12 K) where
  add_assoc a b c := by ext1 <;> simp only [add_c0, add_c1] <;> ring
  zero_add a := by ext1 <;> simp
  add_zero a := by ext1 <;> simp
  add_comm a b := by ext1 <;> simp only [add_c0, add_c1] <;> ring
  mul_assoc a b c := by ext1 <;> simp only [mul_c0, mul_c1] <;> ring
  one_mul a := by ext1 <;> simp only [mul_c0, mul_c1, one_c0, one_c1] <;> ring
  mul_one a := by ext1 <;> simp only [mul_c0, mul_c1, one_c0, one_c1] <;> ring
  mul_comm a b := by ext1 <;> simp only [mul_c0, mul_c1] <;> ring
  left_distrib a b c := by ext1 <;> simp only [mul_c0, mul_c1, add_c0, add_c1] <;> ring
  right_distrib a b c := by ext1 <;> simp only [mul_c0, mul_c1, add_c0, add_c1] <;> ring
  zero_mul a := by ext1 <;> simp only [mul_c0, mul_c1, zero_c0, zero_c1] <;> ring
  mul_zero a := by ext1 <;> simp only [mul_c0, mul_c1, zero_c0, zero_c1] <;> ring
  neg_add_cancel a := by ext1 <;> simp only [add_c0, add_c1, neg_c0, neg_c1, zero_c0, zero_c1] <;> ring
  sub_eq_add_neg a b := by ext1 <;> simp only [add_c0, add_c1, neg_c0, neg_c1, sub_c0, sub_c1] <;> ring
  nsmul := nsmulRec
  zsmul := zsmulRec

/-- The square root of `v`. -/
def w : Fp12 K := ⟨0, 1⟩

@[simp] theorem w_c0 : (w : Fp12 K).c0 = 0 := rfl
@[simp] theorem w_c1 : (w : Fp12 K).c1 = 1 := rfl

/-- The embedding of Fp6. -/
def ofHom : Fp6 K →+* Fp12 K where
  toFun := ofFp6
  map_one' := rfl
  map_zero' := rfl
  map_add' a b := by ext1 <;> simp [ofFp6]
  map_mul' a b := by ext1 <;> simp [ofFp6]

@[simp] theorem ofHom_c0 (a : Fp6 K) : (ofHom a).c0 = a := rfl
@[simp] theorem ofHom_c1 (a : Fp6 K) : (ofHom a).c1 = 0 := rfl

theorem ofHom_apply (a : Fp6 K) : ofHom a = ofFp6 a := rfl

theorem w_sq : (w : Fp12 K) * w = ofHom v := by ext1 <;> simp

theorem eq_add (a : Fp12 K) : a = ofHom a.c0 + ofHom a.c1 * w := by ext1 <;> simp

theorem square_eq (a : Fp12 K) : a.square = a * a := by
  ext1
  · simp only [square, Fp6.mulByNonresidue_eq, mul_c0]; ring
  · simp only [square, mul_c1]; ring

theorem mulBy014_eq (a : Fp12 K) (c0 c1 c4 : Fp2 K) : a.mulBy014 c0 c1 c4 = a * ⟨⟨c0, c1, 0⟩, ⟨0, c4, 0⟩⟩ := by
  have e : (⟨c0, c1 + c4, 0⟩ : Fp6 K) = ⟨c0, c1, 0⟩ + ⟨0, c4, 0⟩ := by ext1 <;> simp
  ext1
  · simp only [mulBy014, Fp6.mulByNonresidue_eq, Fp6.mulBy01_eq, Fp6.mulBy1_eq, mul_c0]; ring
  · simp only [mulBy014, Fp6.mulBy01_eq, Fp6.mulBy1_eq, e, mul_c1]; ring

/-- Conjugation as a homomorphism. -/
def conjHom : Fp12 K →+* Fp12 K where
  toFun := conjugate
  map_one' := by ext1 <;> simp [conjugate]
  map_zero' := by ext1 <;> simp [conjugate]
  map_add' a b := by ext1 <;> simp only [conjugate, add_c0, add_c1]; ring
  map_mul' a b := by ext1 <;> simp only [conjugate, mul_c0, mul_c1] <;> ring

theorem conjHom_apply (a : Fp12 K) : conjHom a = conjugate a := rfl

theorem ctEq_iff (a b : Fp12 K) : ctEq a b = true ↔ a = b := by
  rw [ctEq, Bool.and_eq_true, Fp6.ctEq_iff, Fp6.ctEq_iff, Fp12.ext_iff]

theorem isZero_iff (a : Fp12 K) : isZero a = true ↔ a = 0 := by
  rw [isZero, Bool.and_eq_true, Fp6.isZero_iff, Fp6.isZero_iff, Fp12.ext_iff]; rfl

theorem select_eq (a b : Fp12 K) (c : Bool) : select a b c = if c then b else a := by cases c <;> rfl

/-- The norm to Fp6. -/
def norm (a : Fp12 K) : Fp6 K := a.c0 * a.c0 - v * (a.c1 * a.c1)

instance : Nontrivial (Fp12 K) := ⟨0, 1, fun h => zero_ne_one (congrArg Fp12.c0 h)⟩

section
variable [LawfulTower K]

theorem norm_ne {a : Fp12 K} (h : a ≠ 0) : norm a ≠ 0 := by
  intro hn
  have hn' : a.c0 * a.c0 - v * (a.c1 * a.c1) = 0 := hn
  by_cases h1 : a.c1 = 0
  · rw [h1, mul_zero, mul_zero, sub_zero] at hn'
    exact h (Fp12.ext (mul_self_eq_zero.1 hn') h1)
  · apply Fp6.v_sq (a.c0 / a.c1)
    rw [div_pow, div_eq_iff (pow_ne_zero 2 h1)]
    linear_combination hn'

theorem invert_some {a : Fp12 K} (h : a ≠ 0) : ∃ t, invert a = some t ∧ a * t = 1 := by
  have hn := norm_ne h
  refine ⟨⟨a.c0 * (norm a)⁻¹, a.c1 * -(norm a)⁻¹⟩, ?_, ?_⟩
  · have e : a.c0.square - a.c1.square.mulByNonresidue = norm a := by
      simp only [Fp6.square_eq, Fp6.mulByNonresidue_eq]; rfl
    rw [invert, e, Fp6.invert_eq, if_neg hn]; rfl
  · have : norm a * (norm a)⁻¹ = 1 := mul_inv_cancel₀ hn
    rw [norm] at this ⊢
    ext1
    · simp only [mul_c0, one_c0]
      linear_combination this
    · simp only [mul_c1, one_c1]
      ring

theorem invert_zero : invert (0 : Fp12 K) = none := by
  have e : (0 : Fp12 K).c0.square - (0 : Fp12 K).c1.square.mulByNonresidue = 0 := by
    simp [Fp6.square_eq, Fp6.mulByNonresidue_eq]
  rw [invert, e, Fp6.invert_zero]; rfl

instance : Inv (Fp12 K) := ⟨fun a => (invert a).getD 0⟩

instance : Field (Fp12 K) := mkField _ (by
    intro a ha
    obtain ⟨t, e, h⟩ := invert_some ha
    show a * (invert a).getD 0 = 1
    rw [e]; exact h)
  (by show (invert (0 : Fp12 K)).getD 0 = 0; rw [invert_zero]; rfl)

theorem invert_eq (a : Fp12 K) : invert a = if a = 0 then none else some a⁻¹ := by
  split
  · next h => rw [h, invert_zero]
  · next h =>
    obtain ⟨t, e, h1⟩ := invert_some h
    rw [e, eq_inv_of_mul_eq_one_right h1]

end
end Fp12
end Kzg.Zk
