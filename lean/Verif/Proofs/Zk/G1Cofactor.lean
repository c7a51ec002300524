import Verif.Proofs.Zk.G1Subgroup
import Mathlib.GroupTheory.Index
import Mathlib.LinearAlgebra.Dimension.Finite
/-!
# The number of points, and clearing the cofactor
-/

set_option exponentiation.threshold 1000

namespace Kzg.Zk

open WeierstrassCurve.Affine

namespace G1
open CurveConsts Glv

local notation "E" => curve (b : FpW)

/-! ## Prime torsion of rank two -/

/-- The points killed by `l`. -/
def killed (l : Nat) : AddSubgroup (E).Point := (nsmulAddMonoidHom (α := (E).Point) l).ker

theorem mem_killed {l : Nat} {P : (E).Point} : P ∈ killed l ↔ l • P = 0 := Iff.rfl

noncomputable instance (l : Nat) : Module (ZMod l) (killed l) :=
  AddCommGroup.zmodModule (fun P => Subtype.ext (mem_killed.1 P.2))

/-- A point of prime order that is no eigenvector of the endomorphism gives `l²` points. -/
theorem sq_dvd_killed {l : Nat} [hl : Fact l.Prime] {Q : (E).Point} (h0 : l • Q = 0) (hne : Q ≠ 0)
    (hroot : ∀ c : ZMod l, c ^ 2 + c + 1 = 0 → phi beta_omega Q ≠ c.val • Q) : l ^ 2 ∣ Nat.card (killed l) := by
  have hphi0 : l • phi beta_omega Q = 0 := by rw [← map_nsmul, h0, map_zero]
  let q : killed l := ⟨Q, h0⟩
  let f : killed l := ⟨phi beta_omega Q, hphi0⟩
  have hq : q ≠ 0 := fun h => hne (congrArg Subtype.val h)
  have : Module.Finite (ZMod l) (killed l) := Module.Finite.of_finite
  have hsm : ∀ c : ZMod l, c • q = 0 → c = 0 := fun c h => by
    by_contra hc
    apply hq
    rw [← one_smul (ZMod l) q, ← inv_mul_cancel₀ hc, ← smul_smul, h, smul_zero]
  have hval : ∀ c : ZMod l, ∀ t : killed l, ((c • t : killed l) : (E).Point) = c.val • (t : (E).Point) := fun c t => by
    conv_lhs => rw [← ZMod.natCast_zmod_val c, Nat.cast_smul_eq_nsmul]
    rfl
  have hf : ∀ c : ZMod l, f ≠ c • q := by
    intro c hc
    have e1 : phi beta_omega Q = c.val • Q := by
      have := congrArg Subtype.val hc
      rwa [hval] at this
    refine hroot c ?_ e1
    have hs := phi_sq beta_omega Q
    rw [e1, map_nsmul, e1] at hs
    have : (c ^ 2 + c + 1) • q = 0 := by
      apply Subtype.ext
      have e : (c ^ 2 + c + 1) • q = c • c • q + c • q + q := by module
      rw [e]
      simp only [AddSubgroup.coe_add, hval]
      exact hs
    exact hsm _ this
  have hli : LinearIndependent (ZMod l) ![q, f] := by
    rw [LinearIndependent.pair_iff]
    intro s t hst
    have ht : t = 0 := by
      by_contra ht
      apply hf (-(t⁻¹ * s))
      have : f = t⁻¹ • (t • f) := by rw [smul_smul, inv_mul_cancel₀ ht, one_smul]
      rw [this, eq_neg_of_add_eq_zero_right hst]
      module
    rw [ht, zero_smul, add_zero] at hst
    exact ⟨hsm s hst, ht⟩
  have hr : 2 ≤ Module.finrank (ZMod l) (killed l) := by
    have := hli.fintype_card_le_finrank
    simpa using this
  rw [Module.natCard_eq_pow_finrank (K := ZMod l), Nat.card_zmod]
  exact pow_dvd_pow _ hr

theorem no_root_inert {l : Nat} [hl : Fact l.Prime] (h2 : l % 3 = 2) (h3 : 3 < l) (c : ZMod l) :
    c ^ 2 + c + 1 ≠ 0 := by
  intro h
  have hc3 : c ^ 3 = 1 := by linear_combination (c - 1) * h
  have hc0 : c ≠ 0 := by
    rintro rfl
    simp at h
  have hc : c = 1 := by
    have h1 := ZMod.pow_card_sub_one_eq_one hc0
    rw [show l - 1 = 3 * ((l - 1) / 3) + 1 by omega, pow_succ, pow_mul, hc3, one_pow, one_mul] at h1
    exact h1
  subst hc
  have : ((3 : Nat) : ZMod l) = 0 := by push_cast; linear_combination h
  rw [ZMod.natCast_eq_zero_iff] at this
  exact absurd (Nat.le_of_dvd (by norm_num) this) (by omega)

/-- Difference of points by cross multiplication of integers. -/
def nne (p q : NPt) : Bool :=
  p.z % fpModulus != 0 && q.z % fpModulus != 0 && (p.x * q.z % fpModulus != q.x * p.z % fpModulus)

theorem ne_of_nne {p q : NPt} {P Q : (E).Point} (hp : Projective.Is b p.cast P) (hq : Projective.Is b q.cast Q)
    (h : nne p q = true) : P ≠ Q := by
  simp only [nne, Bool.and_eq_true, bne_iff_ne] at h
  obtain ⟨⟨h1, h2⟩, h3⟩ := h
  rw [ne_eq, ← ctEq_iff hp hq]
  have z1 := natCast_ne (m := p.z) (n := 0) (by simpa using h1)
  have z2 := natCast_ne (m := q.z) (n := 0) (by simpa using h2)
  have e3 := natCast_ne h3
  push_cast at z1 z2 e3
  simp [Projective.ctEq, NPt.cast, z1, z2, e3]

theorem eq_zero_of_z {p : NPt} {P : (E).Point} (hp : Projective.Is b p.cast P) (h : p.z % fpModulus = 0) : P = 0 := by
  rw [← isIdentity_iff hp]
  have := natCast_eq_of_mod (m := p.z) (n := 0) (by simpa using h)
  rw [Projective.isIdentity, decide_eq_true_eq]
  simpa [NPt.cast] using this

/-- A point given by integers. -/
theorem npt_exists (x y : Nat) (h : y ^ 2 % fpModulus = (x ^ 3 + 4) % fpModulus) :
    ∃ P : (E).Point, P ≠ 0 ∧ Projective.Is b (NPt.cast ⟨x, y, 1⟩) P := by
  have hn : (E).Nonsingular (x : FpW) (y : FpW) := by
    rw [nonsingular_iff, b_eq]
    have := natCast_eq_of_mod h
    exact_mod_cast this
  refine ⟨.some _ _ hn, by simp [Point.zero_def], ?_⟩
  simp only [NPt.cast, Nat.cast_one]
  exact is_of_eq one_ne_zero hn (mul_one _).symm (mul_one _).symm

theorem nphi_is {x y : Nat} {P : (E).Point} (hp : Projective.Is b (NPt.cast ⟨x, y, 1⟩) P) :
    Projective.Is b (NPt.cast ⟨betaNat * x, y, 1⟩) (phi beta_omega P) := by
  simp only [NPt.cast, Nat.cast_mul, ← beta_eq]
  exact phi_is beta_omega hp

theorem sq_dvd_inert {l : Nat} (hl : l.Prime) (h2 : l % 3 = 2) (h3 : 3 < l) (f x y : Nat) (hf : l < 2 ^ f)
    (hc : y ^ 2 % fpModulus = (x ^ 3 + 4) % fpModulus) (hz : (nmul f l ⟨x, y, 1⟩ ⟨0, 1, 0⟩).z % fpModulus = 0) :
    l ^ 2 ∣ Nat.card (killed l) := by
  have : Fact l.Prime := ⟨hl⟩
  obtain ⟨Q, hne, hq⟩ := npt_exists x y hc
  refine sq_dvd_killed (Q := Q) ?_ hne fun c hcr => absurd hcr (no_root_inert h2 h3 c)
  have := eq_zero_of_z (nmul_is f l hf hq nzero_is) hz
  rwa [zero_add] at this

theorem sq_dvd_split {l : Nat} (hl : l.Prime) (c1 c2 f x y : Nat) (hf : l < 2 ^ f) (hsum : (c1 + c2 + 1) % l = 0)
    (hprod : c1 * c2 % l = 1 % l) (h1 : c1 < l) (h2 : c2 < l)
    (hc : y ^ 2 % fpModulus = (x ^ 3 + 4) % fpModulus) (hz : (nmul f l ⟨x, y, 1⟩ ⟨0, 1, 0⟩).z % fpModulus = 0)
    (hn1 : nne ⟨betaNat * x, y, 1⟩ (nmul f c1 ⟨x, y, 1⟩ ⟨0, 1, 0⟩) = true)
    (hn2 : nne ⟨betaNat * x, y, 1⟩ (nmul f c2 ⟨x, y, 1⟩ ⟨0, 1, 0⟩) = true) :
    l ^ 2 ∣ Nat.card (killed l) := by
  have : Fact l.Prime := ⟨hl⟩
  obtain ⟨Q, hne, hq⟩ := npt_exists x y hc
  refine sq_dvd_killed (Q := Q) ?_ hne fun c hcr => ?_
  · have := eq_zero_of_z (nmul_is f l hf hq nzero_is) hz
    rwa [zero_add] at this
  · have e1 : (c1 : ZMod l) + c2 + 1 = 0 := by
      have := (ZMod.natCast_eq_zero_iff (c1 + c2 + 1) l).2 (Nat.dvd_of_mod_eq_zero hsum)
      exact_mod_cast this
    have e2 : (c1 : ZMod l) * c2 = 1 := by
      have := (ZMod.natCast_eq_natCast_iff' (c1 * c2) 1 l).2 hprod
      exact_mod_cast this
    have : (c - c1) * (c - c2) = 0 := by linear_combination hcr - c * e1 + e2
    have hv : ∀ n : Nat, n < l → nne ⟨betaNat * x, y, 1⟩ (nmul f n ⟨x, y, 1⟩ ⟨0, 1, 0⟩) = true → c = n →
        phi beta_omega Q ≠ c.val • Q := by
      rintro n hn hnn rfl
      rw [ZMod.val_natCast, Nat.mod_eq_of_lt hn]
      have := nmul_is f n (by omega) hq nzero_is
      rw [zero_add] at this
      exact ne_of_nne (nphi_is hq) this hnn
    rcases mul_eq_zero.1 this with h | h
    · exact hv c1 h1 hn1 (by linear_combination h)
    · exact hv c2 h2 hn2 (by linear_combination h)

theorem prime_11 : Nat.Prime 11 := by norm_num
theorem prime_10177 : Nat.Prime 10177 := by norm_num
theorem prime_859267 : Nat.Prime 859267 := by norm_num
theorem prime_52437899 : Nat.Prime 52437899 := by norm_num

theorem sq_dvd_11 : 11 ^ 2 ∣ Nat.card (killed 11) :=
  sq_dvd_inert prime_11 (by norm_num) (by norm_num) 4
    0x3f71f11906b170ed96f69490726ef9306c224d4a2b4d8d970feca92b4d8d208eccb74cf3b4c831f1247e6609708996c
    0x66ad6e999f120eab9207d5d1e434f360b68c699084f3e8680006e10211952be0d5ce9d52dbc224d61fefd7765c8e669
    (by norm_num) (by decide +kernel) (by decide +kernel)

theorem sq_dvd_10177 : 10177 ^ 2 ∣ Nat.card (killed 10177) :=
  sq_dvd_split prime_10177 5403 4773 14
    0x19047b0df533b31c20e000422904bd515a002a9adda1c84b93e7c364df5c757233f66fc5400dc994694fd5811ff0c0d3
    0xfb6c6bc741ce191f849ef07e10deae221513c7e76791dbb38190d88079be8d30cc117ff129051c902b90fee55abae0b
    (by norm_num) (by norm_num) (by norm_num) (by norm_num) (by norm_num) (by decide +kernel) (by decide +kernel)
    (by decide +kernel) (by decide +kernel)

theorem sq_dvd_859267 : 859267 ^ 2 ∣ Nat.card (killed 859267) :=
  sq_dvd_split prime_859267 119571 739695 20
    0x1527e854158f21dfd9bf9e28e1962d4d8c81a813b16975faf4d4fa23bfe623e1093ed778a8881e2614d41fc37c1e72c6
    0x1615dac9c1350255f9fe5f24d9124d0939b802da057165aa7d76505e764422598049883c86f7068c5b9b7e57e19245e0
    (by norm_num) (by norm_num) (by norm_num) (by norm_num) (by norm_num) (by decide +kernel) (by decide +kernel)
    (by decide +kernel) (by decide +kernel)

theorem sq_dvd_52437899 : 52437899 ^ 2 ∣ Nat.card (killed 52437899) :=
  sq_dvd_inert prime_52437899 (by norm_num) (by norm_num) 26
    0x5c22819c8235a0d4cd82e964b045c74ad19dff8646cd7c28426922f6971c10a69ce1f716de98569cd90ee8850522107
    0x137d0f9322d15d4f815a42f1cf1f72e3e8dc540c109d81a3f83589c754f0630921fe40a30bac497306d460537f490049
    (by norm_num) (by decide +kernel) (by decide +kernel)

/-! ## The number of points -/

/-- The point `(0, 2)`, of order three. -/
theorem three_dvd : 3 ∣ Nat.card (E).Point := by
  obtain ⟨P, hne, hp⟩ := npt_exists 0 2 (by decide +kernel)
  have h3 := eq_zero_of_z (nmul_is 2 3 (by norm_num) hp nzero_is) (by decide +kernel)
  rw [zero_add] at h3
  have : Fact (Nat.Prime 3) := ⟨Nat.prime_three⟩
  rw [← addOrderOf_eq_prime h3 hne]
  exact addOrderOf_dvd_natCard P

theorem order_dvd : frModulus ∣ Nat.card (E).Point := by
  have : Fact (Nat.Prime frModulus) := inferInstance
  rw [← addOrderOf_eq_prime order_gen gen_ne]
  exact addOrderOf_dvd_natCard gen

/-- The number of points: `h · r` with `h = (z - 1)² / 3`. -/
def points : Nat := 3 * 11 ^ 2 * 10177 ^ 2 * 859267 ^ 2 * 52437899 ^ 2 * frModulus

theorem card_points : Nat.card (E).Point = points := by
  have hk : ∀ l, Nat.card (killed l) ∣ Nat.card (E).Point := fun l => AddSubgroup.card_addSubgroup_dvd_card _
  have hd : points ∣ Nat.card (E).Point := by
    unfold points
    refine Nat.Coprime.mul_dvd_of_dvd_of_dvd (by decide +kernel) ?_ order_dvd
    refine Nat.Coprime.mul_dvd_of_dvd_of_dvd (by decide +kernel) ?_ (sq_dvd_52437899.trans (hk _))
    refine Nat.Coprime.mul_dvd_of_dvd_of_dvd (by decide +kernel) ?_ (sq_dvd_859267.trans (hk _))
    refine Nat.Coprime.mul_dvd_of_dvd_of_dvd (by decide +kernel) ?_ (sq_dvd_10177.trans (hk _))
    exact Nat.Coprime.mul_dvd_of_dvd_of_dvd (by decide +kernel) three_dvd (sq_dvd_11.trans (hk _))
  have hle := card_points_le (K := FpW)
  rw [card_FpW] at hle
  obtain ⟨m, hm⟩ := hd
  have h2 : 2 * fpModulus + 1 < points * 2 := by decide +kernel
  have hpos : 0 < Nat.card (E).Point := Nat.card_pos
  match m, hm with
  | 0, hm => omega
  | 1, hm => omega
  | m + 2, hm =>
    have : points * 2 ≤ points * (m + 2) := Nat.mul_le_mul_left _ (by omega)
    omega

/-- Rank two at `l` removes one factor `l` from the exponent. -/
theorem kill_div {l : Nat} (hl : 0 < l) (h : l ^ 2 ∣ Nat.card (killed l)) (P : (E).Point) : (points / l) • P = 0 := by
  have h1 := AddSubgroup.nsmul_index_mem (killed l) P
  have hmul := AddSubgroup.card_mul_index (killed l)
  rw [card_points] at hmul
  obtain ⟨m, hm⟩ := h
  rw [hm] at hmul
  rw [mem_killed] at h1
  have : points / l = m * (l * (killed l).index) := by
    rw [← hmul, pow_two]
    rw [show l * l * m * (killed l).index = l * (m * (l * (killed l).index)) by ring, Nat.mul_div_cancel_left _ hl]
  rw [this, mul_nsmul', mul_nsmul', h1, nsmul_zero]

/-- The exponent of the group of points divides `(1 - z) · r`. -/
theorem exponent (P : (E).Point) : (0xd201000000010001 * frModulus) • P = 0 := by
  have e : ∀ l, 0 < l → l ^ 2 ∣ Nat.card (killed l) → addOrderOf P ∣ points / l := fun l hl h =>
    addOrderOf_dvd_of_nsmul_eq_zero (kill_div hl h P)
  have g := Nat.dvd_gcd (e 11 (by norm_num) sq_dvd_11) (Nat.dvd_gcd (e 10177 (by norm_num) sq_dvd_10177)
    (Nat.dvd_gcd (e 859267 (by norm_num) sq_dvd_859267) (e 52437899 (by norm_num) sq_dvd_52437899)))
  have hg : Nat.gcd (points / 11) (Nat.gcd (points / 10177) (Nat.gcd (points / 859267) (points / 52437899))) =
      0xd201000000010001 * frModulus := by decide +kernel
  rw [hg] at g
  exact addOrderOf_dvd_iff_nsmul_eq_zero.1 g

theorem clearCofactor_is {p : Proj} {P : (E).Point} (hp : Projective.Is b p P) :
    Projective.Is b (clearCofactor p) (0xd201000000010001 • P) := by
  have := sub_is hp (mulByX_is hp)
  rw [clearCofactor]
  convert this using 1
  rw [← natCast_zsmul]
  push_cast
  module

theorem clearCofactor_torsion (P : (E).Point) : frModulus • (0xd201000000010001 • P) = 0 := by
  rw [← mul_nsmul]
  exact exponent P

end G1
end Kzg.Zk
