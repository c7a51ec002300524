import Verif.Spec.GroupInterface
import Verif.Props.ZkCurve
import Verif.Props.ZkG1
import Verif.Props.ZkG2
import Verif.Props.Consts
import Verif.Props.Utils
/-!
# Properties C143–C145: the group interface of the backends
-/

namespace Kzg.Props
set_option exponentiation.threshold 2000
open Kzg Kzg.Iface Kzg.Zk CurveConsts

local notation "E1" => curve (CurveConsts.b (K := FpW))
local notation "E2" => curve (CurveConsts.b (K := Fp2 FpW))

/-! ## C143: zkcrypto -/

section
variable {K : Type} [Field K] [DecidableEq K] [LawfulCurve K]

omit [DecidableEq K] in
theorem identity_is : Projective.Is (b (K := K)) Projective.identity 0 := Projective.Is.infinity one_ne_zero

theorem addOrDbl_is {p q : Projective K} {P Q : (curve (b (K := K))).Point} (hp : Projective.Is b p P)
    (hq : Projective.Is b q Q) : Projective.Is b (if p.ctEq q then p.double else p.add q) (P + Q) := by
  split
  · rename_i h
    rw [← (C53_eq hp hq).1 h]
    exact C52_double hp
  · exact C52_add hp hq

end

/-- C143: the second group of zkcrypto keeps the whole contract. -/
theorem C143_g2_contract : G2Contract zkG2 (Projective.Is (b (K := Fp2 FpW))) Scalar.Rep G2.gen where
  default := ⟨_, rfl, identity_is⟩
  generator := ⟨_, rfl, C79_generator.2.1⟩
  negativeGenerator := ⟨_, rfl, (C52_neg C79_generator.2.1 C79_generator.1).1⟩
  addRight e P f Q h h' := ⟨_, _, rfl, addOrDbl_is h h'⟩
  addKeeps e P f Q s r _ _ h := (Prod.mk.inj (Res.ok.inj h)).1.symm
  dbl e P h := ⟨_, rfl, C52_double h⟩
  sub e P f Q h h' := ⟨_, rfl, by
    rw [sub_eq_add_neg]; exact C52_add h (C52_neg h' C79_generator.1).1⟩
  equals e P f Q h h' := ⟨_, rfl, C53_eq h h'⟩
  mul e P s x h _ hs := ⟨_, rfl, C78_mul h hs⟩

/-- C143 (the first group, all but products): it keeps the contract but for the products with the scalars whose
rounding overflows (C54). -/
theorem C143_g1_contract_partial (chk : Bool) :
    let T := zkG1 chk
    let Rep := Projective.Is (b (K := FpW))
    GivesPt Rep T.default 0 ∧ GivesPt Rep T.identity 0 ∧ GivesPt Rep T.generator G1.gen ∧
    GivesPt Rep T.negativeGenerator (-G1.gen) ∧ AddRight Rep T.addOrDbl ∧ AddKeeps Rep T.addOrDbl ∧
    InfRight Rep T.isInf ∧ DblRight Rep T.dbl ∧ SubRight Rep T.sub ∧ EqualsRight Rep T.equals ∧
    (∀ e P s x, Rep e P → frModulus • P = 0 → Scalar.Rep s x → ¬ RoundingOverflows x.val →
      GivesPt Rep (T.mul e s) (x.val • P)) := by
  refine ⟨⟨_, rfl, identity_is⟩, ⟨_, rfl, identity_is⟩, ⟨_, rfl, C56_generator.2.1⟩,
    ⟨_, rfl, (C52_neg C56_generator.2.1 C56_generator.1).1⟩, ?_, ?_, ?_, ?_, ?_, ?_, ?_⟩
  · intro e P f Q h h'; exact ⟨_, _, rfl, addOrDbl_is h h'⟩
  · intro e P f Q s r _ _ h; exact (Prod.mk.inj (Res.ok.inj h)).1.symm
  · intro e P h; exact ⟨_, rfl, (C53_is_identity h C56_generator.1).1⟩
  · intro e P h; exact ⟨_, rfl, C52_double h⟩
  · intro e P f Q h h'
    exact ⟨_, rfl, by rw [sub_eq_add_neg]; exact C52_add h (C52_neg h' C56_generator.1).1⟩
  · intro e P f Q h h'; exact ⟨_, rfl, C53_eq h h'⟩
  · intro e P s x h ht hs hx; exact C54_mul_partial chk h ht hs hx

/-- C143 (refuted with overflow checks): some product of the generator panics, so the first group does not keep the
contract. -/
theorem C143_g1_false : ¬ MulRightOn (Projective.Is (b (K := FpW))) Scalar.Rep (zkG1 true).mul := by
  intro h
  obtain ⟨s, hs, _, hv⟩ := bad_scalar
  obtain ⟨q, hq, _⟩ := h G1.generatorProj G1.gen s _ C56_generator.2.1
    (by rw [← C56_generator.2.2]; exact addOrderOf_nsmul_eq_zero _) hs
  have := (C54_debug_panics C56_generator.2.1 hs).2 (by rw [hv]; exact badNat_overflows)
  rw [show (zkG1 true).mul G1.generatorProj s = G1.mul true G1.generatorProj s from rfl, this] at hq
  cases hq

/-! ## C144: Arkworks -/

section
variable {K : Type} [Field K] [DecidableEq K] {c : K}

omit [DecidableEq K] in
theorem jac_unique {p : Jac K} {P Q : (curve c).Point} (hP : JacIs c p P) (hQ : JacIs c p Q) : P = Q := by
  obtain ⟨x, y, z⟩ := p
  unfold JacIs at hP hQ
  generalize hx : (⟨x, y, z⟩ : Jac K).x = x' at hP hQ
  generalize hy : (⟨x, y, z⟩ : Jac K).y = y' at hP hQ
  generalize hz : (⟨x, y, z⟩ : Jac K).z = z' at hP hQ
  cases hP with
  | infinity => cases hQ with
    | infinity => rfl
    | finite h => exact absurd rfl h
  | finite h h' =>
    generalize ex : _ * z' ^ 2 = X at hQ
    generalize ey : _ * z' ^ 3 = Y at hQ
    cases hQ with
    | infinity => exact absurd rfl h
    | finite g g' =>
      have e1 := mul_right_cancel₀ (pow_ne_zero 2 h) ex
      have e2 := mul_right_cancel₀ (pow_ne_zero 3 h) ey
      subst e1 e2
      rfl

omit [DecidableEq K] in
theorem jacobian_z_zero {x y z : K} {P : (curve c).Point} (h : Jacobian c x y z P) : z = 0 ↔ P = 0 := by
  cases h with
  | infinity => simp
  | finite hz h => exact ⟨fun h => absurd h hz, fun h => by cases h⟩

/-- C144 (what holds): the values are right: constants, sums, doubles, differences, the test for the identity, and
products with every scalar. -/
theorem C144_values_partial {L : ArkCurve K} (hL : ArkLawful c L) {g n : Jac K} {G : (curve c).Point} (hg : JacIs c g G)
    (hn : JacIs c n (-G)) :
    let T := arkG1 L g n
    let U := arkG2 L g n
    let Rep := JacIs c
    (GivesPt Rep T.default 0 ∧ GivesPt Rep T.identity 0 ∧ GivesPt Rep T.generator G ∧
      GivesPt Rep T.negativeGenerator (-G) ∧ AddRight Rep T.addOrDbl ∧ InfRight Rep T.isInf ∧ DblRight Rep T.dbl ∧
      SubRight Rep T.sub ∧ MulRightOn Rep (Eq : Fr → Fr → Prop) T.mul) ∧
    (GivesPt Rep U.generator G ∧ GivesPt Rep U.negativeGenerator (-G) ∧ AddRight Rep U.addOrDbl ∧
      DblRight Rep U.dbl ∧ SubRight Rep U.sub ∧ MulRightOn Rep (Eq : Fr → Fr → Prop) U.mul) := by
  have ha : AddRight (JacIs c) (arkG1 L g n).addOrDbl := fun e P f Q h h' => ⟨_, _, rfl, hL.add e f P Q h h'⟩
  have hd : DblRight (JacIs c) (arkG1 L g n).dbl := fun e P h => ⟨_, rfl, hL.double e P h⟩
  have hs : SubRight (JacIs c) (arkG1 L g n).sub := fun e P f Q h h' => ⟨_, rfl, hL.sub e f P Q h h'⟩
  have hm : MulRightOn (JacIs c) (Eq : Fr → Fr → Prop) (arkG1 L g n).mul := by
    intro e P s x h _ hx
    subst hx
    exact ⟨_, rfl, hL.mul e P s h⟩
  refine ⟨⟨⟨_, rfl, Jacobian.infinity 0 0⟩, ⟨_, rfl, Jacobian.infinity 0 0⟩, ⟨_, rfl, hg⟩, ⟨_, rfl, hn⟩, ha, ?_, hd, hs, hm⟩,
    ⟨_, rfl, hg⟩, ⟨_, rfl, hn⟩, ha, hd, hs, hm⟩
  intro e P h
  refine ⟨_, rfl, ?_⟩
  rw [decide_eq_true_iff]
  exact jacobian_z_zero h

/-- C144 (refuted): `add_or_dbl` overwrites its first argument with the sum, in both groups: unless the second point is
the identity, the first argument stands for another point after the call. -/
theorem C144_add_overwrites {L : ArkCurve K} (hL : ArkLawful c L) {g n e f : Jac K} {P Q : (curve c).Point}
    (he : JacIs c e P) (hf : JacIs c f Q) : ∃ s, (arkG1 L g n).addOrDbl e f = .ok (s, s) ∧
    (arkG2 L g n).addOrDbl e f = .ok (s, s) ∧ JacIs c s (P + Q) ∧ (JacIs c s P ↔ Q = 0) := by
  refine ⟨_, rfl, rfl, hL.add e f P Q he hf, fun h => ?_, fun h => ?_⟩
  · simpa using jac_unique (hL.add e f P Q he hf) h
  · have := hL.add e f P Q he hf
    rwa [h, add_zero] at this

/-- C144: `equals` keeps the contract if the comparison of the crate blst decides whether the points are the same. -/
theorem C144_equals_points_partial {L : ArkCurve K} (hb : ∀ p q P Q, JacIs c p P → JacIs c q Q → (L.beq p q = true ↔ P = Q))
    (g n : Jac K) : EqualsRight (JacIs c) (arkG1 L g n).equals ∧ EqualsRight (JacIs c) (arkG2 L g n).equals :=
  ⟨fun e P f Q h h' => ⟨_, rfl, hb e f P Q h h'⟩, fun e P f Q h h' => ⟨_, rfl, hb e f P Q h h'⟩⟩

/-- C144 (refuted if it compares words): then every point has two values that `equals` tells apart, at least when the field
has three elements; the identity of the library, wherever it differs from the words zero, is one case. -/
theorem C144_equals_words {L : ArkCurve K} (hb : ∀ p q, L.beq p q = decide (p = q)) (g n : Jac K) (t : K) (h0 : t ≠ 0)
    (h1 : t ≠ 1) (P : (curve c).Point) : ∃ p q, JacIs c p P ∧ JacIs c q P ∧ (arkG1 L g n).equals p q = .ok false ∧
      (arkG2 L g n).equals p q = .ok false ∧ ((arkG1 L g n).isInf p = (arkG1 L g n).isInf q) := by
  have key : ∀ p q : Jac K, p.z ≠ q.z ∨ p.x ≠ q.x → (arkG1 L g n).equals p q = .ok false := by
    intro p q h
    show Res.ok (L.beq p q) = _
    rw [hb, decide_eq_false]
    rintro rfl
    simp at h
  cases P with
  | zero =>
    refine ⟨⟨0, 0, 0⟩, ⟨1, 1, 0⟩, Jacobian.infinity 0 0, Jacobian.infinity 1 1, key _ _ (by simp), key _ _ (by simp), rfl⟩
  | some x y h =>
    refine ⟨⟨x, y, 1⟩, ⟨x * t ^ 2, y * t ^ 3, t⟩, jac_one h, Jacobian.finite h0 h, key _ _ (Or.inl (Ne.symm h1)),
      key _ _ (Or.inl (Ne.symm h1)), ?_⟩
    simp [arkG1, h0]

omit [Field K] [DecidableEq K] in
/-- C144 (refuted): `default` of the second group panics. -/
theorem C144_g2_default (L : ArkCurve K) (g n : Jac K) : (arkG2 L g n).default = .panic := rfl

end

/-- C144: with the constants of the source, both groups start from the generators of C133. -/
theorem C144_constants : ∃ g n : Jac FpW, Consts.arkG1Generator = ⟨g.x.1, g.y.1, g.z.1⟩ ∧
    Consts.arkG1NegativeGenerator = ⟨n.x.1, n.y.1, n.z.1⟩ ∧ JacIs b g G1.gen ∧ JacIs b n (-G1.gen) := by
  obtain ⟨_, ⟨x, y, z, e, h⟩, _⟩ := C133_g1_generator
  obtain ⟨_, _, ⟨x', y', z', e', h'⟩, _⟩ := C133_g1_negative
  exact ⟨⟨x, y, z⟩, ⟨x', y', z'⟩, e, e', h, h'⟩

/-! ## C145: blst-from-scratch and mcl-kzg -/

section
variable {G : Type} [AddCommGroup G] [DecidableEq G] [Module Fr G]

omit [DecidableEq G] in
theorem val_smul (x : Fr) (P : G) : x.val • P = x • P := by
  rw [← Nat.cast_smul_eq_nsmul Fr, ZMod.natCast_zmod_val]

/-- C145: both groups of blst-from-scratch keep the whole contract. -/
theorem C145_blst (g : G) : G1Contract (blstG1 g) (Eq : G → G → Prop) (Eq : Fr → Fr → Prop) g ∧
    G2Contract (blstG2 g) (Eq : G → G → Prop) (Eq : Fr → Fr → Prop) g := by
  constructor
  · constructor
    · exact ⟨_, rfl, rfl⟩
    · exact ⟨_, rfl, rfl⟩
    · exact ⟨_, rfl, rfl⟩
    · exact ⟨_, rfl, rfl⟩
    · rintro e P f Q rfl rfl; exact ⟨_, _, rfl, rfl⟩
    · rintro e P f Q s r _ _ h; exact (Prod.mk.inj (Res.ok.inj h)).1.symm
    · rintro e P rfl; exact ⟨_, rfl, by simp⟩
    · rintro e P rfl; exact ⟨_, rfl, rfl⟩
    · rintro e P f Q rfl rfl; exact ⟨_, rfl, (sub_eq_add_neg e f).symm⟩
    · rintro e P f Q rfl rfl; exact ⟨_, rfl, by simp⟩
    · rintro e P s x rfl _ rfl; exact ⟨_, C35_g1_mul e s, (val_smul s e).symm⟩
  · constructor
    · exact ⟨_, rfl, rfl⟩
    · exact ⟨_, rfl, rfl⟩
    · exact ⟨_, rfl, rfl⟩
    · rintro e P f Q rfl rfl; exact ⟨_, _, rfl, rfl⟩
    · rintro e P f Q s r _ _ h; exact (Prod.mk.inj (Res.ok.inj h)).1.symm
    · rintro e P rfl; exact ⟨_, rfl, rfl⟩
    · rintro e P f Q rfl rfl; exact ⟨_, rfl, (sub_eq_add_neg e f).symm⟩
    · rintro e P f Q rfl rfl; exact ⟨_, rfl, by simp⟩
    · rintro e P s x rfl _ rfl
      refine ⟨_, rfl, ?_⟩
      rw [p1Mult, bytesVal_scalarBytes, Nat.mod_eq_of_lt (lt_trans (ZMod.val_lt s) (by decide +kernel))]

/-- C145: both groups of mcl-kzg keep the whole contract. -/
theorem C145_mcl (g : G) : G1Contract (mclG1 g) (Eq : G → G → Prop) (Eq : Fr → Fr → Prop) g ∧
    G2Contract (mclG2 g) (Eq : G → G → Prop) (Eq : Fr → Fr → Prop) g := by
  constructor
  · constructor
    · exact ⟨_, rfl, rfl⟩
    · exact ⟨_, rfl, rfl⟩
    · exact ⟨_, rfl, rfl⟩
    · exact ⟨_, rfl, rfl⟩
    · rintro e P f Q rfl rfl
      refine ⟨_, _, rfl, ?_⟩
      split
      · rename_i h; rw [← h]
      · rfl
    · rintro e P f Q s r _ _ h; exact (Prod.mk.inj (Res.ok.inj h)).1.symm
    · rintro e P rfl; exact ⟨_, rfl, by simp⟩
    · rintro e P rfl; exact ⟨_, rfl, rfl⟩
    · rintro e P f Q rfl rfl; exact ⟨_, rfl, rfl⟩
    · rintro e P f Q rfl rfl; exact ⟨_, rfl, by simp⟩
    · rintro e P s x rfl _ rfl; exact ⟨_, rfl, (val_smul s e).symm⟩
  · constructor
    · exact ⟨_, rfl, rfl⟩
    · exact ⟨_, rfl, rfl⟩
    · exact ⟨_, rfl, rfl⟩
    · rintro e P f Q rfl rfl
      refine ⟨_, _, rfl, ?_⟩
      split
      · rename_i h; rw [← h]
      · rfl
    · rintro e P f Q s r _ _ h; exact (Prod.mk.inj (Res.ok.inj h)).1.symm
    · rintro e P rfl; exact ⟨_, rfl, rfl⟩
    · rintro e P f Q rfl rfl; exact ⟨_, rfl, rfl⟩
    · rintro e P f Q rfl rfl; exact ⟨_, rfl, by simp⟩
    · rintro e P s x rfl _ rfl; exact ⟨_, rfl, (val_smul s e).symm⟩

end

theorem prime_order_all {G : Type} [AddCommGroup G] [Module Fr G] (P : G) : frModulus • P = 0 := by
  rw [← Nat.cast_smul_eq_nsmul Fr, ZMod.natCast_self, zero_smul]

/-- The product with `r - 1` is the opposite point, in every backend. -/
example {G : Type} [AddCommGroup G] [DecidableEq G] [Module Fr G] (g P : G) :
    (blstG1 g).mul P (-1) = .ok (-P) ∧ (blstG2 g).mul P (-1) = .ok (-P) ∧ (mclG1 g).mul P (-1) = .ok (-P) ∧
      (mclG2 g).mul P (-1) = .ok (-P) := by
  obtain ⟨a, h, rfl⟩ := (C145_blst g).1.mul P P (-1) (-1) rfl (prime_order_all P) rfl
  obtain ⟨b, h', rfl⟩ := (C145_blst g).2.mul P P (-1) (-1) rfl (prime_order_all P) rfl
  obtain ⟨c, k, rfl⟩ := (C145_mcl g).1.mul P P (-1) (-1) rfl (prime_order_all P) rfl
  obtain ⟨d, k', rfl⟩ := (C145_mcl g).2.mul P P (-1) (-1) rfl (prime_order_all P) rfl
  rw [h, h', k, k', val_smul, neg_smul, one_smul]
  exact ⟨rfl, rfl, rfl, rfl⟩

/-- In zkcrypto the sum of a generator with itself and with its opposite go through the two branches. -/
example : ∃ r s, zkG2.addOrDbl G2.generatorProj G2.generatorProj = .ok (G2.generatorProj, r) ∧
    Projective.Is (b (K := Fp2 FpW)) r (G2.gen + G2.gen) ∧
    zkG2.addOrDbl G2.generatorProj zkG2Negative = .ok (G2.generatorProj, s) ∧
    Projective.Is (b (K := Fp2 FpW)) s 0 := by
  obtain ⟨e, he, hg⟩ := C143_g2_contract.generator
  obtain ⟨f, hf, hn⟩ := C143_g2_contract.negativeGenerator
  cases he
  cases hf
  obtain ⟨s, r, h, hr⟩ := C143_g2_contract.addRight _ _ _ _ hg hg
  obtain ⟨s', r', h', hr'⟩ := C143_g2_contract.addRight _ _ _ _ hg hn
  rw [add_neg_cancel] at hr'
  have e := C143_g2_contract.addKeeps _ _ _ _ _ _ hg hg h
  have e' := C143_g2_contract.addKeeps _ _ _ _ _ _ hg hn h'
  subst e
  subst e'
  exact ⟨r, r', h, hr, h', hr'⟩

/-- A lawful curve of Arkworks exists: choose any coordinates of the right point. -/
theorem arkLawful_exists {K : Type} [Field K] [DecidableEq K] (c : K) : ∃ L : ArkCurve K, ArkLawful c L := by
  classical
  have rep : ∀ P : (curve c).Point, ∃ p : Jac K, JacIs c p P := by
    intro P
    cases P with
    | zero => exact ⟨⟨0, 0, 0⟩, Jacobian.infinity 0 0⟩
    | some x y h => exact ⟨⟨x, y, 1⟩, jac_one h⟩
  choose r hr using rep
  let pt : Jac K → (curve c).Point := fun p => if h : ∃ P, JacIs c p P then h.choose else 0
  have hpt : ∀ p P, JacIs c p P → pt p = P := by
    intro p P h
    have hex : ∃ P, JacIs c p P := ⟨P, h⟩
    show (if h : ∃ P, JacIs c p P then h.choose else 0) = P
    rw [dif_pos hex]
    exact jac_unique hex.choose_spec h
  refine ⟨⟨fun p q => decide (p = q), fun p q => r (pt p + pt q), fun p => r (pt p + pt p), fun p q => r (pt p - pt q),
    fun p x => r (x.val • pt p)⟩, ?_, ?_, ?_, ?_⟩
  · intro p q P Q h h'; simp only [hpt p P h, hpt q Q h']; exact hr _
  · intro p P h; simp only [hpt p P h]; exact hr _
  · intro p q P Q h h'; simp only [hpt p P h, hpt q Q h']; exact hr _
  · intro p P x h; simp only [hpt p P h]; exact hr _

/-- With the constants of the source, adding the generator to itself in Arkworks leaves twice the generator in the first
argument, which is another point. -/
example {L : ArkCurve FpW} (hL : ArkLawful b L) {g n : Jac FpW} (hg : JacIs b g G1.gen) :
    ∃ s, (arkG1 L g n).addOrDbl g g = .ok (s, s) ∧ ¬ JacIs b s G1.gen := by
  obtain ⟨s, h, _, _, h'⟩ := C144_add_overwrites (n := n) (g := g) hL hg hg
  refine ⟨s, h, fun k => ?_⟩
  have h0 := h'.1 k
  have := C56_generator.2.2
  rw [h0, addOrderOf_zero] at this
  exact absurd this (by decide +kernel)

end Kzg.Props
