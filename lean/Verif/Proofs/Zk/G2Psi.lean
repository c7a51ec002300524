import Verif.Proofs.Zk.G2Curve
/-!
# The untwist-Frobenius-twist endomorphism of the second group
-/

set_option exponentiation.threshold 1000

namespace Kzg.Zk
open CurveConsts LawfulCurve WeierstrassCurve.Affine

section
variable {K : Type} [Field K] [DecidableEq K] [LawfulCurve K]

local notation "E" => curve (b : K)

/-- A map `(x, y) ↦ (σ(x)·cx, σ(y)·cy)` that keeps the curve. -/
structure Twist (σ : K →+* K) (cx cy : K) : Prop where
  hx : cx ^ 3 * σ b = b
  hy : cy ^ 2 * σ b = b

variable {σ : K →+* K} {cx cy : K}

omit [DecidableEq K] in
theorem b_ne : (b : K) ≠ 0 := fun h => no_root (0 : K) (by rw [h]; ring)

omit [DecidableEq K] in
theorem Twist.cy_ne (h : Twist σ cx cy) : cy ≠ 0 := by
  rintro rfl
  exact b_ne (h.hy.symm.trans (by ring))

omit [DecidableEq K] in
theorem Twist.cube (h : Twist σ cx cy) : cx ^ 3 = cy ^ 2 := by
  have hb : σ b ≠ 0 := fun e => b_ne ((map_eq_zero σ).1 e)
  exact mul_right_cancel₀ hb (h.hx.trans h.hy.symm)

theorem Twist.nonsingular (h : Twist σ cx cy) {x y : K} (hn : (E).Nonsingular x y) :
    (E).Nonsingular (σ x * cx) (σ y * cy) := by
  rw [nonsingular_iff] at *
  have := congrArg σ hn
  rw [map_pow, map_add, map_pow] at this
  linear_combination cy ^ 2 * this + h.hy - σ x ^ 3 * h.cube

/-- The map on points. -/
def twistFun (h : Twist σ cx cy) : (E).Point → (E).Point
  | .zero => 0
  | .some x y hn => .some (σ x * cx) (σ y * cy) (h.nonsingular hn)

theorem twist_is (h : Twist σ cx cy) {x y z : K} {P : (E).Point} (hp : Projective.Is b ⟨x, y, z⟩ P) :
    Projective.Is b ⟨σ x * cx, σ y * cy, σ z⟩ (twistFun h P) := by
  cases hp with
  | infinity hy =>
    rw [map_zero, zero_mul]
    exact .infinity (mul_ne_zero (by simpa using hy) h.cy_ne)
  | @finite x y z hz hn =>
    exact is_of_eq (by simpa using hz) _ (by rw [map_mul]; ring) (by rw [map_mul]; ring)

theorem twist_add (h : Twist σ cx cy) (P Q : (E).Point) : twistFun h (P + Q) = twistFun h P + twistFun h Q := by
  obtain ⟨p, hp⟩ := affine_is_exists P
  obtain ⟨q, hq⟩ := affine_is_exists Q
  have hp := ofAffine_is hp
  have hq := ofAffine_is hq
  generalize Projective.ofAffine p = p at hp
  generalize Projective.ofAffine q = q at hq
  obtain ⟨x1, y1, z1⟩ := p
  obtain ⟨x2, y2, z2⟩ := q
  have h1 := add_is (twist_is h hp) (twist_is h hq)
  have h2 := twist_is h (add_is hp hq)
  have hc := h.cube
  have hb := h.hy
  have h3 := is_scale h2 (mul_ne_zero h.cy_ne (pow_ne_zero 2 h.cy_ne))
  refine is_unique h3 ?_
  convert h1 using 1
  simp only [Projective.add, mul3b_eq, map_sub, map_add, map_mul, map_ofNat]
  rw [Projective.mk.injEq]
  generalize σ x1 = u1 at *
  generalize σ x2 = u2 at *
  generalize σ y1 = v1 at *
  generalize σ y2 = v2 at *
  generalize σ z1 = w1 at *
  generalize σ z2 = w2 at *
  generalize σ b = c at *
  rw [← hb]
  refine ⟨by ring, ?_, ?_⟩
  · linear_combination (-9 * c * cy ^ 2 * (u1 * w2 + u2 * w1) * u1 * u2) * hc
  · linear_combination (-3 * cy * u1 * u2 * (u1 * v2 + u2 * v1)) * hc

/-- The endomorphism of the group of points. -/
def twist (h : Twist σ cx cy) : (E).Point →+ (E).Point where
  toFun := twistFun h
  map_zero' := rfl
  map_add' := twist_add h

end

namespace G2

local notation "E" => curve (b : Fp2 FpW)

theorem conj_cast (x : N2) : Fp2.conjHom x.cast = (⟨x.a, G1.nsub 0 x.b⟩ : N2).cast := by
  ext <;> simp [N2.cast, Fp2.conjHom_apply, Fp2.conjugate, G1.nsub_cast]

/-- The integers of the coefficients. -/
def cxN : N2 :=
  ⟨0, 0x1a0111ea397fe699ec02408663d4de85aa0d857d89759ad4897d29650fb85f9b409427eb4f49fffd8bfd00000000aaad⟩

@[inherit_doc cxN] def cyN : N2 :=
  ⟨0x135203e60180a68ee2e9c448d77a2cd91c3dedd930b1cf60ef396489f61eb45e304466cf3e67fa0af1ee7b04121bdea2,
    0x6af0e0437ff400b6831e36d6bd17ffe48395dabc2d3435e77f76e17009241c5ee67992f72ec05f4c81084fbede3cc09⟩

@[inherit_doc cxN] def c2N : N2 :=
  ⟨0x1a0111ea397fe699ec02408663d4de85aa0d857d89759ad4897d29650fb85f9b409427eb4f49fffd8bfd00000000aaac, 0⟩

theorem cx_eq : psiCoeffX = cxN.cast := by
  refine Fp2.ext ?_ (FpW.eq_natCast (by decide +kernel) (by decide +kernel))
  exact (Nat.cast_zero (R := FpW)).symm

theorem cy_eq : psiCoeffY = cyN.cast := N2.eq_cast _ _ (by decide +kernel) (by decide +kernel)

theorem psi_twist : Twist (Fp2.conjHom : Fp2 FpW →+* Fp2 FpW) psiCoeffX psiCoeffY where
  hx := by
    show psiCoeffX ^ 3 * Fp2.conjHom curveB = curveB
    rw [cx_eq, curveB_eq, conj_cast, pow_succ, pow_two, ← N2.mul_cast, ← N2.mul_cast, ← N2.mul_cast]
    exact N2.cast_eq_of_mod (by decide +kernel) (by decide +kernel)
  hy := by
    show psiCoeffY ^ 2 * Fp2.conjHom curveB = curveB
    rw [cy_eq, curveB_eq, conj_cast, pow_two, ← N2.mul_cast, ← N2.mul_cast]
    exact N2.cast_eq_of_mod (by decide +kernel) (by decide +kernel)

/-- The endomorphism `ψ`. -/
def psiHom : (E).Point →+ (E).Point := twist psi_twist

theorem psi_is {p : Proj} {P : (E).Point} (hp : Projective.Is b p P) : Projective.Is b (psi p) (psiHom P) :=
  twist_is psi_twist hp

theorem psi_psi (p : Proj) : psi (psi p) = psi2 p := by
  have hcx : Fp2.conjHom psiCoeffX * psiCoeffX = psi2CoeffX := by
    rw [cx_eq, conj_cast, ← N2.mul_cast]
    refine (N2.cast_eq_of_mod (y := c2N) (by decide +kernel) (by decide +kernel)).trans ?_
    exact Fp2.ext (FpW.eq_natCast (by decide +kernel) (by decide +kernel)).symm (Nat.cast_zero (R := FpW))
  have hcy : Fp2.conjHom psiCoeffY * psiCoeffY = -1 := by
    rw [cy_eq, conj_cast, ← N2.mul_cast, eq_neg_iff_add_eq_zero, ← N2.one_cast, ← N2.add_cast, ← N2.zero_cast]
    exact N2.cast_eq_of_mod (by decide +kernel) (by decide +kernel)
  have hinv : ∀ x : Fp2 FpW, Fp2.conjHom (Fp2.conjHom x) = x := fun x => by
    ext <;> simp [Fp2.conjHom_apply, Fp2.conjugate]
  obtain ⟨x, y, z⟩ := p
  show (⟨Fp2.conjHom (Fp2.conjHom x * psiCoeffX) * psiCoeffX, Fp2.conjHom (Fp2.conjHom y * psiCoeffY) * psiCoeffY,
    Fp2.conjHom (Fp2.conjHom z)⟩ : Proj) = ⟨x * psi2CoeffX, -y, z⟩
  rw [map_mul, map_mul, hinv, hinv, hinv, mul_assoc, mul_assoc, hcx, hcy, mul_neg_one]

theorem psi2_is {p : Proj} {P : (E).Point} (hp : Projective.Is b p P) :
    Projective.Is b (psi2 p) (psiHom (psiHom P)) := by
  rw [← psi_psi]
  exact psi_is (psi_is hp)

/-- `clear_cofactor` as a polynomial in the endomorphism. -/
theorem clearCofactor_is {p : Proj} {P : (E).Point} (hp : Projective.Is b p P) :
    Projective.Is b (clearCofactor p) (psiHom (psiHom (P + P)) +
      -(0xd201000000010000 : Int) • (-(0xd201000000010000 : Int) • P + psiHom P) -
        -(0xd201000000010000 : Int) • P - psiHom P - P) :=
  sub_is (sub_is (sub_is (add_is (psi2_is (double_is hp)) (mulByX_is (add_is (mulByX_is hp) (psi_is hp))))
    (mulByX_is hp)) (psi_is hp)) hp

/-- On the generator `ψ` is multiplication by the curve parameter. -/
theorem psi_gen : psiHom gen = -(0xd201000000010000 : Int) • gen := by
  have h1 := psi_is ng_is
  have e : psi ng.cast = NPt.cast ⟨N2.mul ⟨gxN.a, G1.nsub 0 gxN.b⟩ cxN, N2.mul ⟨gyN.a, G1.nsub 0 gyN.b⟩ cyN, ⟨1, 0⟩⟩ := by
    show (⟨Fp2.conjHom gxN.cast * psiCoeffX, Fp2.conjHom gyN.cast * psiCoeffY, Fp2.conjHom (N2.cast ⟨1, 0⟩)⟩ : Proj) = _
    rw [conj_cast, conj_cast, cx_eq, cy_eq, N2.one_cast, map_one, ← N2.mul_cast, ← N2.mul_cast, ← N2.one_cast]
    rfl
  rw [e] at h1
  have h2 := eq_zero_of_z (nmul_is 64 0xd201000000010000 (by decide +kernel) ng_is h1) (by decide +kernel)
  rw [neg_smul, eq_neg_iff_add_eq_zero]
  rw [show (0xd201000000010000 : Int) • gen = (0xd201000000010000 : Nat) • gen from natCast_zsmul gen _]
  exact h2

end G2
end Kzg.Zk
