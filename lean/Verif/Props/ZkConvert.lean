import Verif.Model.Zk.Convert
import Verif.Spec.Jacobian
import Verif.Proofs.Zk.ScalarBytes
import Verif.Proofs.Zk.ScalarWords
import Verif.Proofs.Zk.G1Curve
/-!
# Property C132: conversions between zkcrypto and blst

`Scalar.Rep s x` and `Fp.Rep s x` say which field element reduced words stand for, in both libraries. A
`G1Projective` of zkcrypto stands for a point in homogeneous coordinates `(X·Z, Y·Z, Z)`, a `blst_p1` in
Jacobian coordinates `(X·Z², Y·Z³, Z)`.
-/

namespace Kzg.Props
open Kzg Kzg.Zk CurveConsts

local notation "E" => curve (CurveConsts.b (K := FpW))

/-- The words of a `G1Projective` stand for the point `P`. -/
def ZkStands (p : ZkP1) (P : (E).Point) : Prop :=
  ∃ x y z : FpW, p = ⟨x.1, y.1, z.1⟩ ∧ Projective.Is b ⟨x, y, z⟩ P

/-- The words of a `blst_p1` stand for the point `P`. -/
def BlstStands (p : BlstP1) (P : (E).Point) : Prop :=
  ∃ x y z : FpW, p = ⟨x.1, y.1, z.1⟩ ∧ Jacobian b x y z P

/-! ## Scalars -/

/-- C132: both conversions of scalars keep the element. -/
theorem C132_scalar {s : Scalar} {x : Fr} (h : Scalar.Rep s x) :
    Scalar.Rep (zkFrIntoBlstFr s) x ∧ Scalar.Rep (blstFrIntoZkFr s) x := by
  refine ⟨h, ?_⟩
  obtain ⟨⟨h0, h1, h2, h3⟩, e⟩ := Scalar.reduce_rep h
  have := Scalar.fromRaw_rep h0 h1 h2 h3
  rw [show (⟨(Scalar.reduce s).l0, (Scalar.reduce s).l1, (Scalar.reduce s).l2, (Scalar.reduce s).l3⟩ : Scalar)
    = Scalar.reduce s from rfl, e, ZMod.natCast_zmod_val] at this
  exact this

/-- C132: there and back, both ways, gives the same words. -/
theorem C132_scalar_round_trip {s : Scalar} (h : Scalar.Red s) :
    blstFrIntoZkFr (zkFrIntoBlstFr s) = s ∧ zkFrIntoBlstFr (blstFrIntoZkFr s) = s := by
  obtain ⟨x, hx⟩ := Scalar.red_rep h
  exact ⟨Scalar.rep_inj (C132_scalar (C132_scalar hx).1).2 hx, Scalar.rep_inj (C132_scalar (C132_scalar hx).2).1 hx⟩

/-- C132: the words of `to_u64_arr` are those of the canonical integer, and `from_u64_arr` takes them back;
`from_u64_arr` takes every four words, reduced or not. -/
theorem C132_u64_arr {s : Scalar} {x : Fr} (h : Scalar.Rep s x) :
    Scalar.Words (toU64Arr s) ∧ Scalar.val (toU64Arr s) = x.val ∧ fromU64Arr (toU64Arr s) = s ∧
    ∀ u, Scalar.Words u → Scalar.Rep (fromU64Arr u) (Scalar.val u : Fr) := by
  have hw : ∀ u, Scalar.Words u → Scalar.Rep (fromU64Arr u) (Scalar.val u : Fr) :=
    fun u hu => Scalar.fromRaw_rep hu.1 hu.2.1 hu.2.2.1 hu.2.2.2
  obtain ⟨hl, hb, hv⟩ := Scalar.toBytes_spec h
  have w : Scalar.Words (toU64Arr s) := by
    have := Scalar.word_lt hb 0
    rw [List.drop_zero] at this
    exact ⟨this, Scalar.word_lt hb 8, Scalar.word_lt hb 16, Scalar.word_lt hb 24⟩
  have v : Scalar.val (toU64Arr s) = x.val := by
    rw [← hv]
    have := Scalar.fromLe_four (Scalar.toBytes s) (by omega)
    have e : (Scalar.toBytes s).drop 32 = [] := List.drop_eq_nil_of_le (by omega)
    simp only [e, fromLe] at this
    rw [this]
    simp [toU64Arr, Scalar.val]
  refine ⟨w, v, ?_, hw⟩
  have := hw _ w
  rw [v, ZMod.natCast_zmod_val] at this
  exact Scalar.rep_inj this h

/-! ## Polynomials -/

/-- C132: polynomials converted to blst keep their coefficients. -/
theorem C132_poly_out {l : List Scalar} {p : List Fr} (h : List.Forall₂ Scalar.Rep l p) :
    List.Forall₂ Scalar.Rep (pcPolyIntoBlstPoly l) p := by
  rw [pcPolyIntoBlstPoly]
  simpa using h

/-- What the conversion from blst returns: the lowest word of the Montgomery form, as an integer. -/
theorem C132_poly_in {l : List Scalar} {p : List Fr} (h : List.Forall₂ Scalar.Rep l p) :
    List.Forall₂ Scalar.Rep (blstPolyIntoZkPoly l)
      (p.map fun x => (((x * 2 ^ 256).val % 2 ^ 64 : Nat) : Fr)) := by
  induction h with
  | nil => exact .nil
  | @cons s x _ _ hs _ ih =>
    refine .cons ?_ ih
    have e : (x * 2 ^ 256).val = Scalar.val s := by
      rw [← hs.2, ZMod.val_natCast, Nat.mod_eq_of_lt hs.1.2]
    have e2 : Scalar.val s % 2 ^ 64 = s.l0 := by
      have := hs.1.1.1
      simp only [Scalar.val, W] at *
      omega
    beta_reduce
    rw [e, e2]
    exact Scalar.ofU64_rep hs.1.1.1

/-- Negation for polynomials: the constant polynomial 1 of blst becomes another one. -/
theorem C132_poly_in_wrong : ∃ (l : List Scalar) (p : List Fr), List.Forall₂ Scalar.Rep l p ∧
    ¬ List.Forall₂ Scalar.Rep (blstPolyIntoZkPoly l) p := by
  refine ⟨[Scalar.one], [1], List.forall₂_cons.2 ⟨Scalar.one_rep, .nil⟩, fun h => ?_⟩
  have h' := (List.forall₂_cons.1 h).1
  have := Scalar.rep_inj h' Scalar.one_rep
  exact absurd this (by decide +kernel)

/-! ## Base field elements -/

theorem convert_fp {a : FpW} : ∃ c : FpW, blstFpIntoZkFp a.1 = c.1 ∧ c = a * (2 ^ 384)⁻¹ := by
  obtain ⟨hw, hv⟩ := Fp.reduce_rep (FpW.el_rep a)
  have hr : Fp.Red (blstFpIntoZkFp a.1) := ⟨hw, by
    rw [show Fp.val (blstFpIntoZkFp a.1) = (FpW.el a).val from hv]; exact ZMod.val_lt _⟩
  refine ⟨⟨_, hr⟩, rfl, FpW.el_inj ?_⟩
  have hR : FpW.el ((2 : FpW) ^ 384) = 2 ^ 384 := by
    rw [FpW.el_pow]; exact congrArg (· ^ 384) (FpW.el_natCast 2)
  rw [FpW.el_mul, FpW.el_inv, hR]
  apply FpW.el_eq
  refine ⟨hr, ?_⟩
  rw [show Fp.val (blstFpIntoZkFp a.1) = (FpW.el a).val from hv, ZMod.natCast_zmod_val,
    mul_assoc, inv_mul_cancel₀ Fp.two_pow_ne_zero, mul_one]

/-- C132: base field elements converted to blst are kept. -/
theorem C132_fp_out {s : Fp} {x : Fq} (h : Fp.Rep s x) : Fp.Rep (zkFpIntoBlstFp s) x := h

/-- Base field elements converted from blst come out divided by `2^384`. -/
theorem C132_fp_in {s : Fp} {x : Fq} (h : Fp.Rep s x) : Fp.Rep (blstFpIntoZkFp s) (x * (2 ^ 384)⁻¹) := by
  obtain ⟨hw, hv⟩ := Fp.reduce_rep h
  have hv : Fp.val (blstFpIntoZkFp s) = x.val := hv
  exact ⟨⟨hw, by rw [hv]; exact ZMod.val_lt _⟩, by
    rw [hv, ZMod.natCast_zmod_val, mul_assoc, inv_mul_cancel₀ Fp.two_pow_ne_zero, mul_one]⟩

theorem R_ne_one : (2 : Fq) ^ 384 ≠ 1 := by
  intro h
  have h1 := Fp.one_rep.2
  rw [h, mul_one] at h1
  have h2 : (Fp.val Fp.one : Fq) = ((1 : Nat) : Fq) := by rw [h1]; simp
  rw [ZMod.natCast_eq_natCast_iff'] at h2
  exact absurd h2 (by decide +kernel)

/-- Negation for base field elements: only zero survives the conversion from blst. -/
theorem C132_fp_in_wrong {s : Fp} {x : Fq} (h : Fp.Rep s x) : Fp.Rep (blstFpIntoZkFp s) x ↔ x = 0 := by
  constructor
  · intro h'
    have e := Fp.rep_unique (C132_fp_in h) h'
    by_contra hx
    rw [mul_right_eq_self₀] at e
    rcases e with e | e
    · exact R_ne_one (inv_eq_one.1 e)
    · exact hx e
  · rintro rfl
    have := C132_fp_in h
    rwa [zero_mul] at this

/-! ## Points -/

theorem some_inj {x y x' y' : FpW} {h : (E).Nonsingular x y} {h' : (E).Nonsingular x' y'}
    (e : (WeierstrassCurve.Affine.Point.some x y h : (E).Point) = .some x' y' h') : x = x' ∧ y = y' := by
  injection e with e1 e2
  exact ⟨e1, e2⟩

theorem y_ne_zero {y : FpW} (h : (E).Nonsingular 0 y) : y ≠ 0 := by
  rintro rfl
  have := h.1
  rw [WeierstrassCurve.Affine.equation_iff] at this
  simp only [curve] at this
  have h4 : (CurveConsts.b (K := FpW)) = 0 := by
    have : (0 : FpW) = CurveConsts.b := by simpa using this
    exact this.symm
  exact absurd (congrArg Subtype.val h4) (by decide +kernel)

theorem jac_iff {x y z : FpW} (hz : z ≠ 0) (h : (E).Nonsingular x y) :
    Jacobian b (x * z) (y * z) z (.some x y h) ↔ z = 1 ∨ x = 0 ∧ z = -1 := by
  constructor
  · intro hj
    generalize hX : x * z = X at hj
    generalize hY : y * z = Y at hj
    generalize hP : (WeierstrassCurve.Affine.Point.some x y h : (E).Point) = P at hj
    cases hj with
    | infinity => exact absurd rfl hz
    | @finite x' y' _ hz' h' =>
      obtain ⟨rfl, rfl⟩ := some_inj hP
      have e1 : x * (z - 1) = 0 := by
        have : z * (x * (z - 1)) = 0 := by linear_combination -hX
        exact (mul_eq_zero.1 this).resolve_left hz
      have e2 : y * ((z - 1) * (z + 1)) = 0 := by
        have : z * (y * ((z - 1) * (z + 1))) = 0 := by linear_combination -hY
        exact (mul_eq_zero.1 this).resolve_left hz
      rcases mul_eq_zero.1 e1 with rfl | e1
      · rcases mul_eq_zero.1 e2 with rfl | e2
        · exact absurd rfl (y_ne_zero h)
        · rcases mul_eq_zero.1 e2 with e2 | e2
          · exact .inl (sub_eq_zero.1 e2)
          · exact .inr ⟨rfl, eq_neg_of_add_eq_zero_left e2⟩
      · exact .inl (sub_eq_zero.1 e1)
  · rintro (rfl | ⟨rfl, rfl⟩)
    · have := Jacobian.finite (z := 1) one_ne_zero h
      simpa using this
    · have := Jacobian.finite (z := -1) hz h
      have e : (y : FpW) * (-1) ^ 3 = y * -1 := by ring
      rw [e, zero_mul] at this
      rwa [zero_mul]

/-- C132: a point converted to blst is the same point exactly if it is the identity, or its last coordinate
is one (or it has abscissa zero and the last coordinate is minus one). -/
theorem C132_point_out {x y z : FpW} {P : (E).Point} (h : Projective.Is b ⟨x, y, z⟩ P) :
    BlstStands (zkG1ProjectiveIntoBlstP1 ⟨x.1, y.1, z.1⟩) P ↔ z = 0 ∨ z = 1 ∨ x = 0 ∧ z = -1 := by
  have key : BlstStands (zkG1ProjectiveIntoBlstP1 ⟨x.1, y.1, z.1⟩) P ↔ Jacobian b x y z P := by
    constructor
    · rintro ⟨x', y', z', e, hj⟩
      simp only [zkG1ProjectiveIntoBlstP1, zkFpIntoBlstFp, BlstP1.mk.injEq] at e
      obtain ⟨e1, e2, e3⟩ := e
      rwa [Subtype.ext (p := Fp.Red) (a1 := x) (a2 := x') e1, Subtype.ext (p := Fp.Red) (a1 := y) (a2 := y') e2,
        Subtype.ext (p := Fp.Red) (a1 := z) (a2 := z') e3]
    · intro hj
      exact ⟨x, y, z, rfl, hj⟩
  rw [key]
  cases h with
  | infinity hy => simp only [true_or, iff_true]; exact .infinity _ _
  | @finite X Y _ hz h =>
    rw [jac_iff hz h]
    constructor
    · rintro (h1 | ⟨rfl, h1⟩)
      · exact .inr (.inl h1)
      · exact .inr (.inr ⟨zero_mul _, h1⟩)
    · rintro (h | h | ⟨h, h'⟩)
      · exact absurd h hz
      · exact .inl h
      · exact .inr ⟨(mul_eq_zero.1 h).resolve_right hz, h'⟩

/-- Negation for points: every finite point has words for which the conversion to blst gives another
point. -/
theorem C132_point_out_wrong {X Y : FpW} (h : (E).Nonsingular X Y) :
    ∃ p : ZkP1, ZkStands p (.some X Y h) ∧ ¬ BlstStands (zkG1ProjectiveIntoBlstP1 p) (.some X Y h) := by
  have h2 : (2 : FpW) ≠ 0 := by
    intro e
    exact absurd (congrArg Subtype.val (show ((2 : Nat) : FpW) = 0 from mod_cast e)) (by
      rw [Nat.cast_ofNat]; exact fun e' => absurd (congrArg Fp.val e') (by decide +kernel))
  have h3 : (3 : FpW) ≠ 0 := by
    intro e
    exact absurd (congrArg Subtype.val (show ((3 : Nat) : FpW) = 0 from mod_cast e)) (by
      rw [Nat.cast_ofNat]; exact fun e' => absurd (congrArg Fp.val e') (by decide +kernel))
  have hi := Projective.Is.finite h2 h
  refine ⟨⟨(X * 2).1, (Y * 2).1, (2 : FpW).1⟩, ⟨_, _, _, rfl, hi⟩, ?_⟩
  rw [C132_point_out hi]
  rintro (e | e | ⟨-, e⟩)
  · exact h2 e
  · exact one_ne_zero (α := FpW) (by linear_combination e)
  · exact h3 (by linear_combination e)

theorem convert_point (x y z : FpW) : ∃ u : FpW, u ≠ 0 ∧
    blstP1IntoZkG1Projective ⟨x.1, y.1, z.1⟩ = ⟨(x * u).1, (y * u).1, (z * u).1⟩ := by
  have hR : FpW.el ((2 : FpW) ^ 384) = 2 ^ 384 := by
    rw [FpW.el_pow]; exact congrArg (· ^ 384) (FpW.el_natCast 2)
  refine ⟨(2 ^ 384)⁻¹, ?_, ?_⟩
  · refine inv_ne_zero fun e => ?_
    rw [e, FpW.el_zero] at hR
    exact Fp.two_pow_ne_zero hR.symm
  · obtain ⟨x', hx, rfl⟩ := convert_fp (a := x)
    obtain ⟨y', hy, rfl⟩ := convert_fp (a := y)
    obtain ⟨z', hz, rfl⟩ := convert_fp (a := z)
    rw [blstP1IntoZkG1Projective, hx, hy, hz]

/-- C132: a point taken to blst and back is the same point, although the words differ. -/
theorem C132_point_round_trip {p : ZkP1} {P : (E).Point} (h : ZkStands p P) :
    ZkStands (blstP1IntoZkG1Projective (zkG1ProjectiveIntoBlstP1 p)) P := by
  obtain ⟨x, y, z, rfl, h⟩ := h
  obtain ⟨u, hu, e⟩ := convert_point x y z
  refine ⟨_, _, _, e, ?_⟩
  cases h with
  | infinity hy => rw [zero_mul]; exact .infinity (mul_ne_zero hy hu)
  | finite hz h => rw [mul_assoc, mul_assoc]; exact .finite (mul_ne_zero hz hu) h

/-- C132: a point taken from blst is the same point if its last coordinate is one (which is what blst
returns for its generator and for affine points). -/
theorem C132_point_in_partial {x y : FpW} {P : (E).Point} (h : Jacobian b x y 1 P) :
    ZkStands (blstP1IntoZkG1Projective ⟨x.1, y.1, (1 : FpW).1⟩) P := by
  obtain ⟨u, hu, e⟩ := convert_point x y 1
  refine ⟨_, _, _, e, ?_⟩
  generalize h1 : (1 : FpW) = z at h
  cases h with
  | infinity => exact absurd h1 one_ne_zero
  | finite hz h =>
    rw [← h1]
    simp only [one_pow, mul_one, one_mul]
    exact .finite hu h

/-- Negation: infinity of blst, `(0, 0, 0)` as it stands in the constants of the project, has no counterpart after
the conversion: the words stand for no point. -/
theorem C132_point_in_infinity : Jacobian b 0 0 0 (0 : (E).Point) ∧
    ∀ P, ¬ ZkStands (blstP1IntoZkG1Projective ⟨(0 : FpW).1, (0 : FpW).1, (0 : FpW).1⟩) P := by
  refine ⟨.infinity _ _, ?_⟩
  rintro P ⟨x, y, z, e, h⟩
  obtain ⟨u, hu, e'⟩ := convert_point 0 0 0
  rw [e', zero_mul] at e
  simp only [ZkP1.mk.injEq] at e
  obtain ⟨-, e2, e3⟩ := e
  have e2 : (0 : FpW) = y := Subtype.ext e2
  have e3 : (0 : FpW) = z := Subtype.ext e3
  cases h with
  | infinity hy => exact hy e2.symm
  | finite hz _ => exact hz e3.symm

/-- Negation: every finite point has Jacobian words for which the conversion from blst gives another
point. -/
theorem C132_point_in_wrong {X Y : FpW} (h : (E).Nonsingular X Y) :
    ∃ p : BlstP1, BlstStands p (.some X Y h) ∧ ¬ ZkStands (blstP1IntoZkG1Projective p) (.some X Y h) := by
  have h2 : (2 : FpW) ≠ 0 := by
    intro e
    exact absurd (congrArg Subtype.val (show ((2 : Nat) : FpW) = 0 from mod_cast e)) (by
      rw [Nat.cast_ofNat]; exact fun e' => absurd (congrArg Fp.val e') (by decide +kernel))
  have h3 : (3 : FpW) ≠ 0 := by
    intro e
    exact absurd (congrArg Subtype.val (show ((3 : Nat) : FpW) = 0 from mod_cast e)) (by
      rw [Nat.cast_ofNat]; exact fun e' => absurd (congrArg Fp.val e') (by decide +kernel))
  refine ⟨⟨(X * 2 ^ 2).1, (Y * 2 ^ 3).1, (2 : FpW).1⟩, ⟨_, _, _, rfl, .finite h2 h⟩, ?_⟩
  rintro ⟨x, y, z, e, hi⟩
  obtain ⟨u, hu, e'⟩ := convert_point (X * 2 ^ 2) (Y * 2 ^ 3) 2
  rw [e'] at e
  simp only [ZkP1.mk.injEq] at e
  obtain ⟨e1, e2, e3⟩ := e
  have e1 : X * 2 ^ 2 * u = x := Subtype.ext e1
  have e2 : Y * 2 ^ 3 * u = y := Subtype.ext e2
  have e3 : 2 * u = z := Subtype.ext e3
  generalize hP : (WeierstrassCurve.Affine.Point.some X Y h : (E).Point) = P at hi
  cases hi with
  | infinity hy => exact mul_ne_zero h2 hu e3
  | @finite x' y' _ hz h' =>
    obtain ⟨rfl, rfl⟩ := some_inj hP
    subst e3
    have k1 : X = 0 := by
      have : (2 * u) * X = 0 := by linear_combination e1
      exact (mul_eq_zero.1 this).resolve_left (mul_ne_zero h2 hu)
    subst k1
    have k2 : Y = 0 := by
      have : (2 * u) * (3 * Y) = 0 := by linear_combination e2
      exact (mul_eq_zero.1 ((mul_eq_zero.1 this).resolve_left (mul_ne_zero h2 hu))).resolve_left h3
    exact y_ne_zero h k2

/-- The full claim about points, false: both conversions keep every point. -/
theorem C132_full_statement_false :
    ¬ ((∀ p P, ZkStands p P → BlstStands (zkG1ProjectiveIntoBlstP1 p) P) ∧
      ∀ p P, BlstStands p P → ZkStands (blstP1IntoZkG1Projective p) P) := by
  rintro ⟨h, -⟩
  obtain ⟨p, hp, hn⟩ := C132_point_out_wrong G1.generator_nonsingular
  exact hn (h p _ hp)

/-- The generator of zkcrypto has last coordinate one and is converted correctly; its words are unchanged. -/
example : BlstStands (zkG1ProjectiveIntoBlstP1 ⟨G1.generatorX.1, G1.generatorY.1, (1 : FpW).1⟩) G1.gen := by
  refine (C132_point_out (x := G1.generatorX) (y := G1.generatorY) (z := 1) ?_).2 (.inr (.inl rfl))
  have := Projective.Is.finite (z := (1 : FpW)) one_ne_zero G1.generator_nonsingular
  simp only [mul_one] at this
  exact this

/-- The scalar 5, there and back. -/
example : ∃ s, Scalar.Rep s 5 ∧ Scalar.Rep (blstFrIntoZkFr (zkFrIntoBlstFr s)) 5 := by
  obtain ⟨s, hs⟩ := Scalar.rep_exists 5
  exact ⟨s, hs, (C132_scalar (C132_scalar hs).1).2⟩

/-- Four words and back; the largest words are reduced. -/
example : toU64Arr (fromU64Arr ⟨7, 8, 9, 10⟩) = ⟨7, 8, 9, 10⟩ ∧
    toU64Arr (fromU64Arr ⟨2 ^ 64 - 1, 2 ^ 64 - 1, 2 ^ 64 - 1, 2 ^ 64 - 1⟩) =
      ⟨0x00000001fffffffd, 0x5884b7fa00034802, 0x998c4fefecbc4ff5, 0x1824b159acc5056f⟩ := by decide +kernel

end Kzg.Props
