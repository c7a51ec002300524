import Verif.Model.Zk.Random
import Verif.Props.ZkG1
import Verif.Props.ZkG2
import Verif.Props.ZkFp
import Verif.Props.ZkScalar
/-!
# Properties C146 and C147: random elements and trait constants of zkcrypto
-/

namespace Kzg.Props
set_option exponentiation.threshold 2000
open Kzg Kzg.Zk CurveConsts

local notation "E1" => curve (CurveConsts.b (K := FpW))
local notation "E2" => curve (CurveConsts.b (K := Fp2 FpW))

/-- Bytes as a generator writes them. -/
def Bytes (n : Nat) (bs : List Nat) : Prop := bs.length = n ∧ ∀ c ∈ bs, c < 256

/-! ## C146: random elements -/

/-- C146: a random base field element is reduced, and is the number in the first 48 bytes plus `2^384` times the number in
the last 48 bytes, modulo `p`. -/
theorem C146_fp {bs : List Nat} (h : Bytes 96 bs) :
    Fp.Rep (Fp.random bs) ((beNat (bs.take 48) + 2 ^ 384 * beNat (bs.drop 48) : Nat) : Fq) := by
  obtain ⟨hl, hb⟩ := h
  have w := Fp.beWord_lt hb
  have w0 : Fp.fromBe (bs.take 8) < W := by simpa using w 0
  have := Fp.fromU768_rep (l0 := Fp.fromBe (bs.take 8)) (l1 := Fp.fromBe ((bs.drop 8).take 8))
    (l2 := Fp.fromBe ((bs.drop 16).take 8)) (l3 := Fp.fromBe ((bs.drop 24).take 8))
    (l4 := Fp.fromBe ((bs.drop 32).take 8)) (l5 := Fp.fromBe ((bs.drop 40).take 8))
    (l6 := Fp.fromBe ((bs.drop 48).take 8)) (l7 := Fp.fromBe ((bs.drop 56).take 8))
    (l8 := Fp.fromBe ((bs.drop 64).take 8)) (l9 := Fp.fromBe ((bs.drop 72).take 8))
    (l10 := Fp.fromBe ((bs.drop 80).take 8)) (l11 := Fp.fromBe ((bs.drop 88).take 8))
    ⟨w 40, w 32, w 24, w 16, w 8, w0⟩ ⟨w 88, w 80, w 72, w 64, w 56, w 48⟩
  have e1 := Fp.fromBe_six (bs.take 48) (by simp; omega)
  have e2 := Fp.fromBe_six (bs.drop 48) (by simp; omega)
  simp only [List.take_take, List.drop_drop, List.drop_take, Nat.reduceAdd, Nat.reduceSub, show min 8 8 = 8 from rfl,
    show min 8 16 = 8 from rfl, show min 8 24 = 8 from rfl, show min 8 32 = 8 from rfl, show min 8 40 = 8 from rfl,
    show min 8 48 = 8 from rfl] at e1 e2
  rw [← e1, ← e2] at this
  rw [Nat.cast_add, Nat.cast_mul, Nat.cast_pow, Nat.cast_ofNat, Fp.random, ← Fp.fromBe_eq, ← Fp.fromBe_eq]
  exact this

/-- Bytes for a given number. -/
def bytesOf (x : Nat) : List Nat := Fp.toBe 48 x ++ List.replicate 48 0

theorem bytesOf_bytes (x : Nat) : Bytes 96 (bytesOf x) := by
  constructor
  · simp [bytesOf, Fp.toBe_length]
  · intro c hc
    rw [bytesOf, List.mem_append] at hc
    rcases hc with hc | hc
    · rw [Fp.toBe, List.mem_reverse] at hc; exact toLe_bytes _ _ c hc
    · rw [List.eq_of_mem_replicate hc]; norm_num

theorem random_bytesOf (x : Fq) : Fp.Rep (Fp.random (bytesOf x.val)) x := by
  have h := C146_fp (bytesOf_bytes x.val)
  have hl : (Fp.toBe 48 x.val).length = 48 := Fp.toBe_length _ _
  have e1 : (bytesOf x.val).take 48 = Fp.toBe 48 x.val := by
    rw [bytesOf, List.take_append_of_le_length (by omega), List.take_of_length_le (by omega)]
  have e2 : (bytesOf x.val).drop 48 = List.replicate 48 0 := by
    rw [bytesOf, List.drop_append_of_le_length (by omega), List.drop_eq_nil_of_le (by omega), List.nil_append]
  have e3 : beNat (List.replicate 48 0) = 0 := by decide +kernel
  have e4 : beNat (Fp.toBe 48 x.val) = x.val := by
    rw [← Fp.fromBe_eq, Fp.fromBe_toBe, Nat.mod_eq_of_lt (lt_trans (ZMod.val_lt x) (by decide +kernel))]
  rw [e1, e2, e3, e4, mul_zero, add_zero, ZMod.natCast_zmod_val] at h
  exact h

/-- C146: every base field element comes out for some bytes. -/
theorem C146_fp_onto (x : Fq) : ∃ bs, Bytes 96 bs ∧ Fp.Rep (Fp.random bs) x := ⟨_, bytesOf_bytes _, random_bytesOf x⟩

/-- C146: a random scalar is reduced, and is the number in the 64 bytes, lowest first, modulo `r`; every scalar
comes out for some bytes. -/
theorem C146_scalar : (∀ bs, Bytes 64 bs → Scalar.Rep (Scalar.random bs) (fromLe bs : Fr)) ∧
    ∀ x : Fr, ∃ bs, Bytes 64 bs ∧ Scalar.Rep (Scalar.random bs) x := by
  have h1 : ∀ bs, Bytes 64 bs → Scalar.Rep (Scalar.random bs) (fromLe bs : Fr) := fun bs h => C39_from_bytes_wide h.1 h.2
  refine ⟨h1, fun x => ⟨toLe 64 x.val, ⟨toLe_length _ _, toLe_bytes _ _⟩, ?_⟩⟩
  have := h1 _ ⟨toLe_length 64 x.val, toLe_bytes 64 x.val⟩
  rwa [fromLe_toLe, Nat.mod_eq_of_lt (lt_trans (ZMod.val_lt x) (by decide +kernel)), ZMod.natCast_zmod_val] at this

theorem FpW.random_bytesOf (x : FpW) : FpW.random (bytesOf (FpW.el x).val) = x := by
  have h := Props.random_bytesOf (FpW.el x)
  unfold FpW.random
  refine (dif_pos h.1).trans ?_
  exact FpW.el_inj (FpW.el_eq (s := ⟨_, h.1⟩) h)

/-- Multiplication by a number prime to `r` can be undone in the subgroup. -/
theorem torsion_preimage {G : Type} [AddCommGroup G] {P : G} (ht : frModulus • P = 0) {c : Int}
    (hc : (c : Fr) ≠ 0) : ∃ Q : G, frModulus • Q = 0 ∧ c • Q = P := by
  refine ⟨((c : Fr)⁻¹).val • P, by rw [smul_comm, ht, smul_zero], ?_⟩
  rw [← natCast_zsmul, smul_smul]
  have h : ((c * (((c : Fr)⁻¹).val : Int) : Int) : Fr) = ((1 : Int) : Fr) := by
    push_cast
    rw [ZMod.natCast_zmod_val, mul_inv_cancel₀ hc]
  rw [ZMod.intCast_eq_intCast_iff_dvd_sub] at h
  obtain ⟨k, hk⟩ := h
  rw [show c * (((c : Fr)⁻¹).val : Int) = 1 - frModulus * k by linarith, sub_smul, one_smul, mul_comm, mul_smul,
    natCast_zsmul, ht, smul_zero, sub_zero]

section
variable {K : Type} [Field K] [DecidableEq K] [LawfulCurve K]

theorem on_curve_point {x y : K} (h : y * y = x * x * x + b) :
    ∃ P : (curve (b (K := K))).Point, Affine.Is b ⟨x, y, false⟩ P ∧ P ≠ 0 := by
  have hn : (curve (b (K := K))).Nonsingular x y := nonsingular_iff.2 (by linear_combination h)
  exact ⟨.some x y hn, .finite hn, by intro h; cases h⟩

theorem curve_eq {x y : K} (h : (curve (b (K := K))).Nonsingular x y) : y * y = x * x * x + b := by
  have := nonsingular_iff.1 h
  linear_combination this

omit [LawfulCurve K] [DecidableEq K] in
theorem sign_sq (u : Nat) (s : K) : (if u % 2 != 0 then -s else s) * (if u % 2 != 0 then -s else s) = s * s := by
  split <;> ring

omit [LawfulCurve K] [DecidableEq K] in
theorem sign_onto {s y : K} (h : s * s = y * y) : ∃ u < 2, (if u % 2 != 0 then -s else s) = y := by
  rcases mul_self_eq_mul_self_iff.1 h with h | h
  · exact ⟨0, by omega, by simpa using h⟩
  · exact ⟨1, by omega, by simp [h]⟩

omit [LawfulCurve K] [DecidableEq K] in
theorem sign_pm {s y : K} (u : Nat) (h : s * s = y * y) :
    (if u % 2 != 0 then -s else s) = y ∨ (if u % 2 != 0 then -s else s) = -y := by
  rcases mul_self_eq_mul_self_iff.1 h with h | h <;> rw [h] <;> split <;> simp

end

/-- C146: a random point of the first group is a point of the curve, of order `r`, whatever the generator does. -/
theorem C146_g1 {draws : List (List Nat × Nat)} {p : G1.Proj} (h : G1.random draws = some p) :
    ∃ P : (E1).Point, Projective.Is b p P ∧ addOrderOf P = frModulus := by
  induction draws with
  | nil => cases h
  | cons d rest ih =>
    obtain ⟨bs, u⟩ := d
    rw [G1.random] at h
    cases hs : G1.randomStep bs u with
    | none => rw [hs] at h; exact ih h
    | some q =>
      rw [hs] at h
      obtain rfl := Option.some.inj h
      rw [G1.randomStep, Option.bind_eq_some_iff] at hs
      obtain ⟨y, hy, hs⟩ := hs
      have hy2 := FpW.sqrt_sound hy
      obtain ⟨P, hP, -⟩ := on_curve_point (x := FpW.random bs) (y := if u % 2 != 0 then -y else y)
        (by rw [sign_sq]; exact hy2)
      obtain ⟨h1, h2⟩ := C57_clear_cofactor (ofAffine_is hP)
      dsimp only at hs
      generalize (if u % 2 != 0 then -y else y) = y' at hs h1
      split at hs
      · rename_i hid
        obtain rfl := Option.some.inj hs
        refine ⟨_, h1, addOrderOf_eq_prime h2 fun h0 => ?_⟩
        rw [(isIdentity_iff h1).2 h0] at hid
        cases hid
      · cases hs

/-- C146: every element of order `r` of the first group comes out of one iteration for some bytes and sign. -/
theorem C146_g1_onto {P : (E1).Point} (ht : frModulus • P = 0) (h0 : P ≠ 0) :
    ∃ bs u p, Bytes 96 bs ∧ u < 2 ∧ G1.random [(bs, u)] = some p ∧ Projective.Is b p P := by
  obtain ⟨Q, hQ, hc⟩ := torsion_preimage ht (c := ((0xd201000000010001 : Nat) : Int)) (by
    intro h
    rw [ZMod.intCast_zmod_eq_zero_iff_dvd] at h
    revert h
    decide +kernel)
  rw [natCast_zsmul] at hc
  have hQ0 : Q ≠ 0 := fun e => h0 (by rw [← hc, e, nsmul_zero])
  cases Q with
  | zero => exact absurd rfl hQ0
  | some x y hn =>
    have hxy := curve_eq hn
    obtain ⟨s, hs⟩ := FpW.sqrt_complete (y := y)
    have hs2 := FpW.sqrt_sound hs
    obtain ⟨u, hu, hy⟩ := sign_onto hs2
    obtain ⟨h1, -⟩ := C57_clear_cofactor (ofAffine_is (Affine.Is.finite hn))
    rw [hc] at h1
    refine ⟨bytesOf (FpW.el x).val, u, _, bytesOf_bytes _, hu, ?_, h1⟩
    have hid : (G1.clearCofactor (Projective.ofAffine ⟨x, y, false⟩)).isIdentity = false := by
      rw [Bool.eq_false_iff, ne_eq, isIdentity_iff h1]
      exact h0
    rw [G1.random, G1.randomStep]
    rw [FpW.random_bytesOf, ← hxy, hs, Option.bind_some, hy]
    dsimp only
    generalize G1.clearCofactor _ = q at hid ⊢
    rw [hid]
    rfl

/-- C146: an iteration fails exactly when there is no point with this first coordinate or its order divides the cofactor factor
`0xd201000000010001`. -/
theorem C146_g1_again {bs : List Nat} {u : Nat} : G1.randomStep bs u = none ↔
    (∀ P : (E1).Point, ∀ y, Affine.Is b ⟨FpW.random bs, y, false⟩ P → 0xd201000000010001 • P = 0) := by
  rw [G1.randomStep]
  dsimp only
  generalize FpW.random bs = x
  constructor
  · intro h P y hP
    cases hP with
    | finite hn =>
      have hxy := curve_eq hn
      obtain ⟨s, hs⟩ := FpW.sqrt_complete (y := y)
      have hs2 := FpW.sqrt_sound hs
      rw [← hxy, hs, Option.bind_some] at h
      obtain ⟨P', hP', -⟩ := on_curve_point (x := x) (y := if u % 2 != 0 then -s else s)
        (by rw [sign_sq, hs2, hxy])
      obtain ⟨h1, -⟩ := C57_clear_cofactor (ofAffine_is hP')
      have h2 : 0xd201000000010001 • P' = 0 := by
        by_contra hne
        rw [if_pos] at h
        · cases h
        · rw [Bool.not_eq_true', Bool.eq_false_iff, ne_eq, isIdentity_iff h1]; exact hne
      rcases sign_pm u hs2 with e | e
      · rw [e] at hP'
        rw [affine_is_unique (.finite hn) hP']
        exact h2
      · rw [e] at hP'
        have := affine_is_unique (affine_neg_is (.finite hn)) hP'
        rw [← neg_eq_zero, ← neg_nsmul, this]
        exact h2
  · intro h
    rw [Option.bind_eq_none_iff]
    intro y hy
    have hy2 := FpW.sqrt_sound hy
    obtain ⟨P, hP, -⟩ := on_curve_point (x := x) (y := if u % 2 != 0 then -y else y)
      (by rw [sign_sq]; exact hy2)
    obtain ⟨h1, -⟩ := C57_clear_cofactor (ofAffine_is hP)
    have hid := (isIdentity_iff h1).2 (h P _ hP)
    generalize G1.clearCofactor _ = q at hid ⊢
    rw [hid]
    rfl

/-- C146: a random point of the second group is a point of the curve, of order `r`, whatever the generator does. -/
theorem C146_g2 {draws : List (List Nat × List Nat × Nat)} {p : G2.Proj} (h : G2.random draws = some p) :
    ∃ P : (E2).Point, Projective.Is b p P ∧ addOrderOf P = frModulus := by
  induction draws with
  | nil => cases h
  | cons d rest ih =>
    obtain ⟨bs, cs, u⟩ := d
    rw [G2.random] at h
    cases hs : G2.randomStep bs cs u with
    | none => rw [hs] at h; exact ih h
    | some q =>
      rw [hs] at h
      obtain rfl := Option.some.inj h
      rw [G2.randomStep, Option.bind_eq_some_iff] at hs
      obtain ⟨y, hy, hs⟩ := hs
      have hy2 := Fp2.sqrt_some hy
      rw [Fp2.square_eq] at hy2
      obtain ⟨P, hP, -⟩ := on_curve_point (x := Fp2.random bs cs) (y := if u % 2 != 0 then -y else y)
        (by rw [sign_sq]; exact hy2)
      obtain ⟨c, hc⟩ := C82_homomorphism
      have h1 := hc _ _ (ofAffine_is hP)
      have h2 := C82_clear_cofactor (ofAffine_is hP) h1
      dsimp only at hs
      generalize (if u % 2 != 0 then -y else y) = y' at hs h1
      split at hs
      · rename_i hid
        obtain rfl := Option.some.inj hs
        refine ⟨_, h1, addOrderOf_eq_prime h2 fun h0 => ?_⟩
        rw [(isIdentity_iff h1).2 h0] at hid
        cases hid
      · cases hs

/-- C146: every element of order `r` of the second group comes out of one iteration for some bytes and sign. -/
theorem C146_g2_onto {P : (E2).Point} (ht : frModulus • P = 0) (h0 : P ≠ 0) :
    ∃ bs cs u p, Bytes 96 bs ∧ Bytes 96 cs ∧ u < 2 ∧ G2.random [(bs, cs, u)] = some p ∧ Projective.Is b p P := by
  obtain ⟨Q, hQ, hc⟩ := torsion_preimage ht (c := 4 * 0xd201000000010000 ^ 2 + 2 * 0xd201000000010000 - 1) (by
    intro h
    rw [ZMod.intCast_zmod_eq_zero_iff_dvd] at h
    revert h
    decide +kernel)
  have hQ0 : Q ≠ 0 := fun e => h0 (by rw [← hc, e, zsmul_zero])
  cases Q with
  | zero => exact absurd rfl hQ0
  | some x y hn =>
    have hxy : y * y = x.square * x + b := by
      rw [Fp2.square_eq]
      exact curve_eq hn
    obtain ⟨s, hs⟩ := Option.isSome_iff_exists.1 (Fp2.sqrt_isSome y)
    have hs2 := Fp2.sqrt_some hs
    obtain ⟨u, hu, hy⟩ := sign_onto hs2
    have h1 := C82_subgroup (ofAffine_is (Affine.Is.finite hn)) hQ
    rw [hc] at h1
    refine ⟨bytesOf (FpW.el x.c0).val, bytesOf (FpW.el x.c1).val, u, _, bytesOf_bytes _, bytesOf_bytes _, hu, ?_, h1⟩
    have hid : (G2.clearCofactor (Projective.ofAffine ⟨x, y, false⟩)).isIdentity = false := by
      rw [Bool.eq_false_iff, ne_eq, isIdentity_iff h1]
      exact h0
    have hx : Fp2.random (bytesOf (FpW.el x.c0).val) (bytesOf (FpW.el x.c1).val) = x := by
      rw [Fp2.random, FpW.random_bytesOf, FpW.random_bytesOf]
    rw [G2.random, G2.randomStep]
    rw [hx, ← hxy, hs, Option.bind_some, hy]
    dsimp only
    generalize G2.clearCofactor _ = q at hid ⊢
    rw [hid]
    rfl

/-- The generator comes out for some bytes, in both groups. -/
example : (∃ bs u p, G1.random [(bs, u)] = some p ∧ Projective.Is b p G1.gen) ∧
    ∃ bs cs u p, G2.random [(bs, cs, u)] = some p ∧ Projective.Is b p G2.gen := by
  constructor
  · obtain ⟨bs, u, p, -, -, h, h'⟩ := C146_g1_onto (P := G1.gen)
      (by rw [← C56_generator.2.2]; exact addOrderOf_nsmul_eq_zero _)
      (by intro h; have := C56_generator.2.2; rw [h, addOrderOf_zero] at this; exact absurd this (by decide +kernel))
    exact ⟨bs, u, p, h, h'⟩
  · obtain ⟨bs, cs, u, p, -, -, -, h, h'⟩ := C146_g2_onto (P := G2.gen)
      (by rw [← C79_generator.2.2]; exact addOrderOf_nsmul_eq_zero _)
      (by intro h; have := C79_generator.2.2; rw [h, addOrderOf_zero] at this; exact absurd this (by decide +kernel))
    exact ⟨bs, cs, u, p, h, h'⟩

/-! ## C147: the constants and functions of the field traits -/

/-- C147: `is_odd` tells whether the canonical integer is odd. -/
theorem C147_is_odd {s : Scalar} {x : Fr} (hs : Scalar.Rep s x) : Scalar.isOdd s = true ↔ x.val % 2 = 1 := by
  obtain ⟨h1, h2, h3⟩ := Scalar.toBytes_spec hs
  rw [Scalar.isOdd, ← h3]
  cases e : Scalar.toBytes s with
  | nil => rw [e] at h1; cases h1
  | cons c rest =>
    rw [List.getD_cons_zero, fromLe, beq_iff_eq, Nat.and_one_is_mod]
    omega

/-- C147: `NUM_BITS` is the exact bit length of the modulus, and all integers of `CAPACITY` bits are below it, which is false for
one bit more. -/
theorem C147_bits : 2 ^ (Scalar.numBits - 1) ≤ frModulus ∧ frModulus < 2 ^ Scalar.numBits ∧
    (∀ k < 2 ^ Scalar.capacity, k < frModulus) ∧ ∃ k < 2 ^ (Scalar.capacity + 1), frModulus ≤ k := by
  have h : (2 : Nat) ^ 254 ≤ frModulus ∧ frModulus < 2 ^ 255 := by decide +kernel
  exact ⟨h.1, h.2, fun k hk => lt_of_lt_of_le hk h.1, frModulus, h.2, le_rfl⟩

/-- C147: `S` is the exact power of two in `r - 1`. -/
theorem C147_two_adicity : 2 ^ Scalar.twoAdicity ∣ frModulus - 1 ∧ ¬ 2 ^ (Scalar.twoAdicity + 1) ∣ frModulus - 1 := by
  decide +kernel

theorem order_seven : orderOf (7 : Fr) = frModulus - 1 := by
  have hlt := frModulus_lt
  have h7 : (7 : Fr) = ((7 : Nat) : Fr) := by rw [Nat.cast_ofNat]
  rw [h7]
  apply orderOf_eq_of_pow_and_pow_div_prime (by decide +kernel)
  · rw [zmod_pow_eq (fuel := 256) (by omega) lucas_check.1, Nat.cast_one]
  · intro q hq hd h1
    have hle : (frModulus - 1) / q ≤ frModulus - 1 := Nat.div_le_self _ _
    rw [zmod_pow_eq (fuel := 256) (by omega) rfl, ← Nat.cast_one (R := Fr), ZMod.natCast_eq_natCast_iff',
      Nat.mod_eq_of_lt (powMod_lt _ _ (by decide +kernel) _ _ _), Nat.mod_eq_of_lt (by decide +kernel)] at h1
    exact lucas_check.2 q (mem_frFactors hq hd) h1

/-- C147: `multiplicative_generator` is seven, and every nonzero element is one of its powers; it is no square. -/
theorem C147_generator : Scalar.Rep Scalar.generator 7 ∧ orderOf (7 : Fr) = frModulus - 1 ∧
    (∀ x : Fr, x ≠ 0 → ∃ k < frModulus - 1, 7 ^ k = x) ∧ ¬ IsSquare (7 : Fr) := by
  refine ⟨Scalar.generator_rep, order_seven, ?_, ?_⟩
  · intro x hx
    have h7 : IsPrimitiveRoot (7 : Fr) (frModulus - 1) := order_seven ▸ IsPrimitiveRoot.orderOf _
    have : NeZero (frModulus - 1) := ⟨by decide +kernel⟩
    obtain ⟨k, hk, e⟩ := h7.eq_pow_of_pow_eq_one (ZMod.pow_card_sub_one_eq_one hx)
    exact ⟨k, hk, e⟩
  · rintro ⟨y, hy⟩
    have hy0 : y ≠ 0 := by
      rintro rfl
      have := order_seven
      rw [hy, mul_zero, orderOf_zero] at this
      revert this
      decide +kernel
    have h := ZMod.pow_card_sub_one_eq_one hy0
    have : (7 : Fr) ^ ((frModulus - 1) / 2) = 1 := by
      rw [hy, ← pow_two, ← pow_mul, show 2 * ((frModulus - 1) / 2) = frModulus - 1 by decide +kernel, h]
    have := Nat.le_of_dvd (by decide +kernel) (orderOf_dvd_of_pow_eq_one this)
    rw [order_seven] at this
    revert this
    decide +kernel

/-- C147: `root_of_unity` is the generator to the power `(r - 1) / 2^S`, and its order is `2^S` exactly. -/
theorem C147_root : Scalar.Rep Scalar.rootOfUnity (7 ^ ((frModulus - 1) / 2 ^ Scalar.twoAdicity)) ∧
    orderOf ((7 : Fr) ^ ((frModulus - 1) / 2 ^ Scalar.twoAdicity)) = 2 ^ Scalar.twoAdicity := by
  constructor
  · have := zmod_pow_eq (m := frModulus) (fuel := 256) (a := 7) (n := (frModulus - 1) / 2 ^ 32) (c := Scalar.rootInt)
      (by decide +kernel) (by decide +kernel)
    have h := Scalar.rootOfUnity_rep
    rw [← this] at h
    rwa [Nat.cast_ofNat] at h
  · rw [orderOf_pow_of_dvd (by decide +kernel), order_seven]
    · decide +kernel
    · rw [order_seven]; exact Nat.div_dvd_of_dvd C147_two_adicity.1

theorem fold_add_rep {l : List Scalar} {xs : List Fr} (h : List.Forall₂ Scalar.Rep l xs) :
    ∀ {s : Scalar} {x : Fr}, Scalar.Rep s x → Scalar.Rep (l.foldl Scalar.add s) (x + xs.sum) := by
  induction h with
  | nil => intro s x hs; simpa using hs
  | cons hab _ ih =>
    intro s x hs
    rw [List.foldl_cons, List.sum_cons, ← add_assoc]
    exact ih (Scalar.add_rep hs hab)

/-- C147: sums of any number of scalars. -/
theorem C147_sum {l : List Scalar} {xs : List Fr} (h : List.Forall₂ Scalar.Rep l xs) :
    Scalar.Rep (Scalar.sum l) xs.sum := by
  have := fold_add_rep h Scalar.zero_rep
  rwa [zero_add] at this

example : Scalar.Rep (Scalar.sum [Scalar.generator, Scalar.rootOfUnity, Scalar.generator])
    (14 + 7 ^ ((frModulus - 1) / 2 ^ 32)) := by
  have := C147_sum (.cons C147_generator.1 (.cons C147_root.1 (.cons C147_generator.1 .nil)))
  convert this using 1
  rw [List.sum_cons, List.sum_cons, List.sum_cons, List.sum_nil, Scalar.twoAdicity]
  generalize (7 : Fr) ^ ((frModulus - 1) / 2 ^ 32) = z
  ring

end Kzg.Props
