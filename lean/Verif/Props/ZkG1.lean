import Verif.Proofs.Zk.G1Wrong
/-!
# Properties C54 to C59: the first group of zkcrypto

`gen` is the point of Mathlib's curve with the coordinates of the generator constant. `frModulus • P = 0` says
that `P` lies in the prime order subgroup. `chk` tells whether overflow checks are on (a debug build).
-/

namespace Kzg.Props
open Kzg Kzg.Zk Kzg.Zk.G1 CurveConsts

local notation "E" => curve (CurveConsts.b (K := FpW))

/-! ## C54: scalar multiplication -/

/-- The constant `V0` used to round `k / λ`: about `2^256 / λ`. -/
def glvMu : Nat := 0x17c6becf1e01faadd63f6e522f6cfee2f

/-- The addition of the rounding bit overflows a word: the low word of `⌊k·V0 / 2^256⌋` is all ones, and the bit
below it is set. -/
def RoundingOverflows (k : Nat) : Prop := k * glvMu / 2 ^ 256 % 2 ^ 64 = 2 ^ 64 - 1 ∧ k * glvMu / 2 ^ 255 % 2 = 1

theorem roundingOverflows_iff (k : Nat) : RoundingOverflows k ↔ ¬ Glv.NoCarry k := by
  unfold RoundingOverflows Glv.NoCarry
  rw [show glvMu = Glv.mu from rfl]
  omega

/-- The full claim: for every point of the curve and every scalar, the product is the multiple. -/
def MulRight (chk : Bool) : Prop := ∀ (p : Proj) (P : (E).Point) (s : Scalar) (x : Fr), Projective.Is b p P →
  Scalar.Rep s x → ∃ q, G1.mul chk p s = .ok q ∧ Projective.Is b q (x.val • P)

/-- C54, the part that holds: the product is the multiple for every point of the prime order subgroup and every
scalar except those for which the rounding overflows. -/
theorem C54_mul_partial (chk : Bool) {p : Proj} {P : (E).Point} {s : Scalar} {x : Fr} (hp : Projective.Is b p P)
    (ht : frModulus • P = 0) (hs : Scalar.Rep s x) (hx : ¬ RoundingOverflows x.val) :
    ∃ q, G1.mul chk p s = .ok q ∧ Projective.Is b q (x.val • P) := by
  obtain ⟨h1, h2, h3⟩ := Scalar.toBytes_spec hs
  have := multiply_torsion chk hp ht h1 h2 (by rw [h3]; exact (ZMod.val_lt x).le)
    (by rw [h3]; by_contra hc; exact hx ((roundingOverflows_iff _).2 hc))
  rwa [h3] at this

/-- C54: the same for the product of an affine point. -/
theorem C54_mul_affine_partial (chk : Bool) {a : Aff} {P : (E).Point} {s : Scalar} {x : Fr} (ha : Affine.Is b a P)
    (ht : frModulus • P = 0) (hs : Scalar.Rep s x) (hx : ¬ RoundingOverflows x.val) :
    ∃ q, G1.mulAffine chk a s = .ok q ∧ Projective.Is b q (x.val • P) :=
  C54_mul_partial chk (ofAffine_is ha) ht hs hx

/-- C54: scalars below `2^191` are always safe. -/
theorem C54_small_scalars {k : Nat} (h : k < 2 ^ 191) : ¬ RoundingOverflows k := by
  rintro ⟨h1, h2⟩
  have hX : k * glvMu / 2 ^ 256 < 2 ^ 64 - 1 := by
    rw [Nat.div_lt_iff_lt_mul (by norm_num)]
    exact lt_of_lt_of_le ((Nat.mul_lt_mul_right (by norm_num [glvMu])).2 h) (by norm_num [glvMu])
  generalize k * glvMu / 2 ^ 256 = X at *
  omega

/-- C54: with overflow checks, multiplication of a curve point panics exactly for the scalars whose rounding
overflows; the point does not matter. -/
theorem C54_debug_panics {p : Proj} {P : (E).Point} {s : Scalar} {x : Fr} (hp : Projective.Is b p P)
    (hs : Scalar.Rep s x) : G1.mul true p s = .panic ↔ RoundingOverflows x.val := by
  obtain ⟨h1, h2, h3⟩ := Scalar.toBytes_spec hs
  rw [roundingOverflows_iff, ← h3]
  constructor
  · intro h hc
    obtain ⟨q, e, -⟩ := Glv.multiply_is true beta_omega hp h1 h2 (by rw [h3]; exact (ZMod.val_lt x).le) hc
    rw [G1.mul, e] at h
    cases h
  · intro hc
    exact multiply_panic h1 h2 hc p

/-- The scalar `2^64·λ`. -/
theorem badNat_overflows : RoundingOverflows badNat := by
  unfold RoundingOverflows
  decide +kernel

theorem bad_scalar : ∃ s, Scalar.Rep s (badNat : Fr) ∧ Scalar.toBytes s = toLe 32 badNat ∧ (badNat : Fr).val = badNat := by
  obtain ⟨s, hs⟩ := Scalar.rep_exists (badNat : Fr)
  have hv : (badNat : Fr).val = badNat := ZMod.val_natCast_of_lt (by decide +kernel)
  obtain ⟨h1, h2, h3⟩ := Scalar.toBytes_spec hs
  refine ⟨s, hs, Scalar.fromLe_inj (by rw [h1, toLe_length]) h2 (toLe_bytes _ _) ?_, hv⟩
  rw [h3, hv]
  decide +kernel

/-- C54 fails in a debug build: multiplying the generator by `2^64·λ` panics. -/
theorem C54_refuted_debug : ¬ MulRight true := by
  intro h
  obtain ⟨s, hs, -, hv⟩ := bad_scalar
  obtain ⟨q, e, -⟩ := h _ _ s _ generatorProj_is hs
  rw [(C54_debug_panics generatorProj_is hs).2 (by rw [hv]; exact badNat_overflows)] at e
  cases e

/-- C54 fails in a release build, even for the generator: its product with `2^64·λ` is another point. -/
theorem C54_refuted_release : ∃ (s : Scalar) (x : Fr) (q : Proj) (Q : (E).Point), Scalar.Rep s x ∧
    G1.mul false generatorProj s = .ok q ∧ Projective.Is b q Q ∧ frModulus • gen = 0 ∧ Q ≠ x.val • gen := by
  obtain ⟨s, hs, hb, hv⟩ := bad_scalar
  obtain ⟨q, Q, e, hq, hne⟩ := multiply_wrong
  exact ⟨s, _, q, Q, hs, by rw [G1.mul, hb, e], hq, order_gen, by rwa [hv]⟩

/-- C54 fails outside the subgroup in either build: a point `P` of order three and a scalar divisible by three,
whose product is returned as `P`, not as the identity. -/
theorem C54_refuted_outside (chk : Bool) : ∃ (p : Proj) (P : (E).Point) (s : Scalar) (x : Fr) (q : Proj),
    Projective.Is b p P ∧ Scalar.Rep s x ∧ ¬ RoundingOverflows x.val ∧ x.val • P = 0 ∧ P ≠ 0 ∧
      G1.mul chk p s = .ok q ∧ Projective.Is b q P := by
  obtain ⟨p, P, q, hp, h0, hne, e, hq⟩ := three_wrong chk
  obtain ⟨s, hs⟩ := Scalar.rep_exists (Glv.lambda : Fr)
  have hv : (Glv.lambda : Fr).val = Glv.lambda := ZMod.val_natCast_of_lt (by decide +kernel)
  obtain ⟨h1, h2, h3⟩ := Scalar.toBytes_spec hs
  have hb : Scalar.toBytes s = toLe 32 Glv.lambda := by
    refine Scalar.fromLe_inj (by rw [h1, toLe_length]) h2 (toLe_bytes _ _) ?_
    rw [h3, hv]
    decide +kernel
  have h0' : (Glv.lambda : Fr).val • P = 0 := (congrArg (· • P) hv).trans h0
  have he : G1.mul chk p s = .ok q := (congrArg (Glv.multiply chk beta p) hb).trans e
  refine ⟨p, P, s, (Glv.lambda : Fr), q, hp, hs, ?_, h0', hne, he, hq⟩
  rw [hv]
  exact C54_small_scalars (by norm_num [Glv.lambda])

/-- The generator times seven, and times minus one. -/
example (chk : Bool) : ∃ s q, Scalar.Rep s 7 ∧ G1.mul chk generatorProj s = .ok q ∧ Projective.Is b q (7 • gen) := by
  obtain ⟨s, hs⟩ := Scalar.rep_exists 7
  have hv : (7 : Fr).val = 7 := ZMod.val_natCast_of_lt (a := 7) (by decide +kernel)
  obtain ⟨q, e, hq⟩ := C54_mul_partial chk generatorProj_is order_gen hs
    (by rw [hv]; exact C54_small_scalars (by norm_num))
  exact ⟨s, q, hs, e, by rwa [hv] at hq⟩

example : ¬ RoundingOverflows (frModulus - 1) := by
  unfold RoundingOverflows
  decide +kernel

/-! ## C55: the subgroup test -/

/-- C55: the subgroup test never panics on a point of the curve, and is true exactly for the points of the
prime order subgroup. -/
theorem C55_is_torsion_free (chk : Bool) {p : Aff} {P : (E).Point} (hp : Affine.Is b p P) :
    ∃ t, isTorsionFree chk p = .ok t ∧ (t = true ↔ frModulus • P = 0) := isTorsionFree_iff chk hp

/-- C55: in other words, it is true exactly for the multiples of the generator. -/
theorem C55_multiples (chk : Bool) {p : Aff} {P : (E).Point} (hp : Affine.Is b p P) :
    isTorsionFree chk p = .ok true ↔ ∃ n : Nat, P = n • gen := by
  obtain ⟨t, e, h⟩ := isTorsionFree_iff chk hp
  rw [e, Res.ok.injEq, h]
  constructor
  · exact torsion_cyclic
  · rintro ⟨n, rfl⟩
    rw [nsmul_left_comm, order_gen, nsmul_zero]

/-- The generator passes; the point `(0, 2)` of order three does not. -/
example (chk : Bool) : isTorsionFree chk generator = .ok true ∧ ∃ p P, Affine.Is b p P ∧ isTorsionFree chk p = .ok false := by
  refine ⟨(C55_multiples chk generator_is).2 ⟨1, (one_nsmul _).symm⟩, ?_⟩
  obtain ⟨P, hne, hp⟩ := npt_exists 0 2 (by decide +kernel)
  have h3 := eq_zero_of_z (nmul_is 2 3 (by norm_num) hp nzero_is) (by decide +kernel)
  rw [zero_add] at h3
  obtain ⟨p, hP⟩ := affine_is_exists P
  obtain ⟨t, e, h⟩ := C55_is_torsion_free chk hP
  refine ⟨p, P, hP, ?_⟩
  cases t with
  | false => exact e
  | true =>
    exfalso
    have hr := h.1 rfl
    apply hne
    rw [← one_nsmul P, show 1 = frModulus - 3 * (frModulus / 3) by decide +kernel,
      sub_nsmul P (by decide +kernel), hr, mul_nsmul, h3]
    simp

/-! ## C56: the order of the group -/

/-- C56: the generator is on the curve and has exactly the order of the scalar field. -/
theorem C56_generator : Affine.Is b generator gen ∧ Projective.Is b generatorProj gen ∧ addOrderOf gen = frModulus := by
  have : Fact (Nat.Prime frModulus) := inferInstance
  exact ⟨generator_is, generatorProj_is, addOrderOf_eq_prime order_gen gen_ne⟩

/-- C56: every point killed by the order is a multiple of the generator. -/
theorem C56_generates {P : (E).Point} (h : frModulus • P = 0) : ∃ n : Nat, P = n • gen := torsion_cyclic h

/-- C56: the number of points of the curve; the cofactor is `(z - 1)² / 3` for the curve parameter
`z = -0xd201000000010000`. -/
theorem C56_points : Nat.card (E).Point = 0xd201000000010001 ^ 2 / 3 * frModulus := by
  rw [card_points]
  decide +kernel

/-- C56: multiplication by `β` on the first coordinate is multiplication by `λ` on the subgroup. -/
theorem C56_endomorphism {P : (E).Point} (h : frModulus • P = 0) {x y z : FpW} (hp : Projective.Is b ⟨x, y, z⟩ P) :
    Projective.Is b ⟨beta * x, y, z⟩ (0xac45a4010001a40200000000ffffffff • P) := by
  have := phi_is beta_omega hp
  rwa [show phiFun beta_omega P = _ from phi_torsion h] at this

example : Projective.Is b ⟨beta * generatorX, generatorY, 1⟩ (0xac45a4010001a40200000000ffffffff • gen) :=
  C56_endomorphism order_gen generatorProj_is

/-! ## C57: clearing the cofactor -/

/-- C57: clearing the cofactor multiplies by `1 - z`, and the result is in the prime order subgroup for every
point of the curve. -/
theorem C57_clear_cofactor {p : Proj} {P : (E).Point} (hp : Projective.Is b p P) :
    Projective.Is b (clearCofactor p) (0xd201000000010001 • P) ∧ frModulus • (0xd201000000010001 • P) = 0 :=
  ⟨clearCofactor_is hp, clearCofactor_torsion P⟩

/-- C57: the subgroup test accepts every cleared point. -/
theorem C57_accepted (chk : Bool) {p : Proj} {P : (E).Point} (hp : Projective.Is b p P) :
    isTorsionFree chk (Affine.ofProjective (clearCofactor p)) = .ok true := by
  obtain ⟨h1, h2⟩ := C57_clear_cofactor hp
  obtain ⟨t, e, h⟩ := C55_is_torsion_free chk (ofProjective_is h1)
  rw [e, h.2 h2]

/-- C57: no point of the subgroup other than the identity is sent to the identity. -/
theorem C57_injective {P : (E).Point} (ht : frModulus • P = 0) (h : 0xd201000000010001 • P = 0) : P = 0 := by
  have h1 := addOrderOf_dvd_of_nsmul_eq_zero ht
  have h2 := addOrderOf_dvd_of_nsmul_eq_zero h
  have h3 := Nat.dvd_gcd h1 h2
  rw [show Nat.gcd frModulus 0xd201000000010001 = 1 by decide +kernel, Nat.dvd_one] at h3
  exact AddMonoid.addOrderOf_eq_one_iff.1 h3

/-- A point outside the subgroup is moved into it. -/
example : ∃ (p : Proj) (P : (E).Point), Projective.Is b p P ∧ frModulus • P ≠ 0 ∧
    isTorsionFree true (Affine.ofProjective (clearCofactor p)) = .ok true := by
  obtain ⟨P, hne, hp⟩ := npt_exists 0 2 (by decide +kernel)
  have h3 := eq_zero_of_z (nmul_is 2 3 (by norm_num) hp nzero_is) (by decide +kernel)
  rw [zero_add] at h3
  refine ⟨_, P, hp, fun hr => hne ?_, C57_accepted true hp⟩
  rw [← one_nsmul P, show 1 = frModulus - 3 * (frModulus / 3) by decide +kernel,
    sub_nsmul P (by decide +kernel), hr, mul_nsmul, h3]
  simp

end Kzg.Props
