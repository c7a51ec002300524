import Verif.Proofs.Zk.PairingVerify
/-!
# Properties C83 to C85: the pairing of zkcrypto

`G1.gen` and `G2.gen` are the points of Mathlib's curves with the coordinates of the generator constants,
`Gt.generator` is the constant of the target group. `frModulus • Q = 0` says that `Q` lies in the prime order subgroup.
-/

namespace Kzg.Props
open Kzg Kzg.Res Kzg.Zk Kzg.Zk.Pairing Kzg.Zk.Miller CurveConsts

local notation "r" => frModulus
local notation "E1" => curve (CurveConsts.b (K := FpW))
local notation "E2" => curve (CurveConsts.b (K := Fp2 FpW))

/-! ## C83: the pairing of two points -/

/-- C83: the pairing of multiples of the generators is the power of the generator constant of the target group by the
product of the factors. -/
theorem C83_pairing {a : G1.Aff} {q : G2.Aff} {m n : Nat} (ha : Affine.Is b a (m • G1.gen)) (hq : Affine.Is b q (n • G2.gen)) :
    pairing a q = .ok (Gt.generator ^ (m * n)) := by
  rw [pairing_spec ha hq (smul_torsion G2.order_gen n), e_mul]

/-- C83: the multiples of the generators are exactly the points that pass the subgroup tests, so the last theorem gives
the pairing of all points that the decoders accept. -/
theorem C83_all {a : G1.Aff} {P : (E1).Point} (ha : Affine.Is b a P) (hP : r • P = 0) {q : G2.Aff} {Q : (E2).Point}
    (hq : Affine.Is b q Q) (hQ : r • Q = 0) :
    ∃ m n : Nat, P = m • G1.gen ∧ Q = n • G2.gen ∧ pairing a q = .ok (Gt.generator ^ (m * n)) := by
  obtain ⟨m, rfl⟩ := G1.torsion_cyclic hP
  obtain ⟨n, rfl⟩ := G2.torsion_cyclic hQ
  exact ⟨m, n, rfl, rfl, C83_pairing ha hq⟩

/-- C83: linear in the first argument, for all points of the first curve. -/
theorem C83_add_left {a1 a2 a3 : G1.Aff} {P1 P2 : (E1).Point} (h1 : Affine.Is b a1 P1) (h2 : Affine.Is b a2 P2)
    (h3 : Affine.Is b a3 (P1 + P2)) {q : G2.Aff} {Q : (E2).Point} (hq : Affine.Is b q Q) (hQ : r • Q = 0) :
    ∃ x y, pairing a1 q = .ok x ∧ pairing a2 q = .ok y ∧ pairing a3 q = .ok (Gt.add x y) := by
  refine ⟨_, _, pairing_spec h1 hq hQ, pairing_spec h2 hq hQ, ?_⟩
  rw [pairing_spec h3 hq hQ, e_add_left _ _ hQ]
  rfl

/-- C83: linear in the second argument. -/
theorem C83_add_right {a : G1.Aff} {P : (E1).Point} (ha : Affine.Is b a P) (hP : r • P = 0) {q1 q2 q3 : G2.Aff}
    {Q1 Q2 : (E2).Point} (h1 : Affine.Is b q1 Q1) (hQ1 : r • Q1 = 0) (h2 : Affine.Is b q2 Q2) (hQ2 : r • Q2 = 0)
    (h3 : Affine.Is b q3 (Q1 + Q2)) :
    ∃ x y, pairing a q1 = .ok x ∧ pairing a q2 = .ok y ∧ pairing a q3 = .ok (Gt.add x y) := by
  refine ⟨_, _, pairing_spec ha h1 hQ1, pairing_spec ha h2 hQ2, ?_⟩
  rw [pairing_spec ha h3 (by rw [nsmul_add, hQ1, hQ2, add_zero]), e_add_right hP hQ1 hQ2]
  rfl

/-- C83: the value is the identity of the target group exactly if one of the points is the identity. -/
theorem C83_nondegenerate {a : G1.Aff} {P : (E1).Point} (ha : Affine.Is b a P) (hP : r • P = 0) {q : G2.Aff}
    {Q : (E2).Point} (hq : Affine.Is b q Q) (hQ : r • Q = 0) : pairing a q = .ok Gt.identity ↔ P = 0 ∨ Q = 0 := by
  constructor
  · obtain ⟨m, n, rfl, rfl, h⟩ := C83_all ha hP hq hQ
    intro h1
    rw [h, Res.ok.injEq] at h1
    have h2 : Gt.generator ^ (m * n) = Gt.generator ^ 0 := by rw [pow_zero, h1]; rfl
    rw [gen_pow_iff, Nat.cast_mul, Nat.cast_zero, mul_eq_zero] at h2
    rcases h2 with h2 | h2
    · rw [ZMod.natCast_eq_zero_iff] at h2
      obtain ⟨k, rfl⟩ := h2
      exact .inl (by rw [mul_nsmul, G1.order_gen, nsmul_zero])
    · rw [ZMod.natCast_eq_zero_iff] at h2
      obtain ⟨k, rfl⟩ := h2
      exact .inr (by rw [mul_nsmul, G2.order_gen, nsmul_zero])
  · intro h
    rw [pairing_spec ha hq hQ, ← (val_one h).eq, one_pow]
    rfl

/-- C83: a point of the first curve outside the subgroup does no harm: its value is still in the target group, and a
point whose order is prime to that of the subgroup gives the identity. -/
theorem C83_outside {a : G1.Aff} {P : (E1).Point} (ha : Affine.Is b a P) {q : G2.Aff} {Q : (E2).Point}
    (hq : Affine.Is b q Q) (hQ : r • Q = 0) :
    (∃ n : Nat, pairing a q = .ok (Gt.generator ^ n)) ∧
    ∀ k : Nat, k.Coprime r → k • P = 0 → pairing a q = .ok Gt.identity := by
  rw [pairing_spec ha hq hQ]
  constructor
  · have : NeZero r := ⟨by decide +kernel⟩
    obtain ⟨n, -, hn⟩ := N12.gen_primitive.eq_pow_of_pow_eq_one (e_mem P hQ)
    exact ⟨n, by rw [hn]⟩
  · intro k hk h0
    have h1 := e_pow P hQ k
    rw [h0, e_zero_left] at h1
    have h2 : orderOf (e P Q) ∣ 1 := by
      rw [← hk.gcd_eq_one]
      exact Nat.dvd_gcd (orderOf_dvd_of_pow_eq_one h1.symm) (orderOf_dvd_of_pow_eq_one (e_mem P hQ))
    rw [Nat.dvd_one, orderOf_eq_one_iff] at h2
    rw [h2]
    rfl

/-- The pairing of the two generator constants is the generator constant of the target group, and so is that of
`2 g1` and the point that doubles to `g2`. -/
example : pairing G1.generator G2.generator = .ok Gt.generator ∧
    ∃ a q, Affine.Is b a (2 • G1.gen) ∧ Affine.Is b q (((r + 1) / 2) • G2.gen) ∧ pairing a q = .ok Gt.generator := by
  refine ⟨?_, ?_⟩
  · rw [C83_pairing (m := 1) (n := 1) (by rw [one_nsmul]; exact G1.generator_is) (by rw [one_nsmul]; exact G2.generator_is),
      Nat.mul_one, pow_one]
  · obtain ⟨a, ha⟩ := affine_is_exists (2 • G1.gen)
    obtain ⟨q, hq⟩ := affine_is_exists (((r + 1) / 2) • G2.gen)
    refine ⟨a, q, ha, hq, ?_⟩
    rw [C83_pairing ha hq, gen_pow_mod, show 2 * ((r + 1) / 2) % r = 1 by decide +kernel, pow_one]

/-! ## C84: prepared points and products of pairings -/

/-- C84: preparing a point never panics and makes 68 coefficients, whatever the coordinates are, on the curve or not. -/
theorem C84_prepare (q : G2.Aff) : ∃ u, prepare q = .ok u ∧ u.coeffs.length = 68 ∧ (u.infinity = true ↔ q.isIdentity = true) := by
  obtain ⟨all, h, hl, -⟩ := prepare_spec q
  exact ⟨_, h, hl, Iff.rfl⟩

/-- C84: the loop over several terms followed by the final exponentiation is the sum of the pairings of the terms, for
any number of terms, with or without the identity among them. -/
theorem C84_product {ts : List (G1.Aff × G2.Aff)}
    (h : ∀ t ∈ ts, (∃ P, Affine.Is b t.1 P) ∧ ∃ Q, Affine.Is b t.2 Q ∧ r • Q = 0) :
    ∃ (terms : List (G1.Aff × Prepared)) (f : Fp12 FpW) (vs : List (Fp12 FpW)),
      List.Forall₂ (fun t u => u.1 = t.1 ∧ prepare t.2 = .ok u.2) ts terms ∧ multiMillerLoop terms = .ok f ∧
      List.Forall₂ (fun t v => pairing t.1 t.2 = .ok v) ts vs ∧ Gt.finalExponentiation f = .ok vs.prod := by
  have : ∃ Ps : List ((E1).Point × (E2).Point),
      List.Forall₂ (fun t P => Affine.Is b t.1 P.1 ∧ Affine.Is b t.2 P.2 ∧ r • P.2 = 0) ts Ps := by
    induction ts with
    | nil => exact ⟨[], .nil⟩
    | cons t ts ih =>
      obtain ⟨Ps, hPs⟩ := ih fun u hu => h u (List.mem_cons_of_mem _ hu)
      obtain ⟨⟨P, hP⟩, Q, hQ, hr⟩ := h t List.mem_cons_self
      exact ⟨(P, Q) :: Ps, .cons ⟨hP, hQ, hr⟩ hPs⟩
  obtain ⟨Ps, hPs⟩ := this
  obtain ⟨terms, hf, i, f, el, hn, hv⟩ := multi_spec hPs
  refine ⟨terms, f, Ps.map fun P => e P.1 P.2, hf, ?_, ?_, ?_⟩
  · rw [multiMillerLoop, el, bind_ok]
  · rw [List.forall₂_map_right_iff]
    exact hPs.imp fun t P h => pairing_spec h.1 h.2.1 h.2.2
  · rw [Gt.finalExponentiation_eq hn, ← hv]
    rfl

/-- `e(g1, g2) e(2 g1, g2) e(0, g2)` is the cube of the generator. -/
example : ∃ a terms f, Affine.Is b a (2 • G1.gen) ∧
    List.Forall₂ (fun t u => u.1 = t.1 ∧ prepare t.2 = .ok u.2)
      [(G1.generator, G2.generator), (a, G2.generator), (Affine.identity, G2.generator)] terms ∧
    multiMillerLoop terms = .ok f ∧ Gt.finalExponentiation f = .ok (Gt.generator ^ 3) := by
  obtain ⟨a, ha⟩ := affine_is_exists (2 • G1.gen)
  have hg : ∃ Q, Affine.Is b G2.generator Q ∧ r • Q = 0 := ⟨_, G2.generator_is, G2.order_gen⟩
  have h0 : Affine.Is b (Affine.identity : G1.Aff) 0 := affine_identity_is
  obtain ⟨terms, f, vs, h1, h2, h3, h4⟩ := C84_product (ts := [(G1.generator, G2.generator), (a, G2.generator),
    (Affine.identity, G2.generator)]) (by
      simp only [List.forall_mem_cons]
      exact ⟨⟨⟨_, G1.generator_is⟩, hg⟩, ⟨⟨_, ha⟩, hg⟩, ⟨⟨_, h0⟩, hg⟩, by simp⟩)
  refine ⟨a, terms, f, ha, h1, h2, ?_⟩
  rw [h4]
  cases h3 with
  | cons e1 h3 =>
  cases h3 with
  | cons e2 h3 =>
  cases h3 with
  | cons e3 h3 =>
  cases h3
  have g2 : Affine.Is b G2.generator (1 • G2.gen) := by rw [one_nsmul]; exact G2.generator_is
  rw [C83_pairing (m := 1) (by rw [one_nsmul]; exact G1.generator_is) g2, Res.ok.injEq] at e1
  rw [C83_pairing ha g2, Res.ok.injEq] at e2
  rw [C83_pairing (m := 0) (by rw [zero_nsmul]; exact h0) g2, Res.ok.injEq] at e3
  rw [← e1, ← e2, ← e3]
  simp only [List.prod_cons, List.prod_nil, ← pow_add, mul_one]

/-! ## C85: the comparison of two pairings -/

/-- C85: with points of the subgroup, the answer is whether the products of the logarithms agree in the scalar field. -/
theorem C85_pairings_verify {a1 b1 : G1.Proj} {a2 b2 : G2.Proj} {x y z w : Nat} (h1 : Projective.Is b a1 (x • G1.gen))
    (h2 : Projective.Is b a2 (y • G2.gen)) (h3 : Projective.Is b b1 (z • G1.gen)) (h4 : Projective.Is b b2 (w • G2.gen)) :
    pairingsVerify a1 a2 b1 b2 = .ok (decide ((x * y : Fr) = z * w)) := by
  rw [pairingsVerify_spec h1 h2 h3 h4 (smul_torsion G2.order_gen y) (smul_torsion G2.order_gen w), e_mul, e_mul]
  simp only [gen_pow_iff, Nat.cast_mul]

/-- C85: the answer is whether the two pairings agree, for any points of the first curve. -/
theorem C85_compare {a1 b1 : G1.Proj} {a2 b2 : G2.Proj} {P1 P2 : (E1).Point} {Q1 Q2 : (E2).Point}
    (h1 : Projective.Is b a1 P1) (h2 : Projective.Is b a2 Q1) (h3 : Projective.Is b b1 P2) (h4 : Projective.Is b b2 Q2)
    (hQ1 : r • Q1 = 0) (hQ2 : r • Q2 = 0) :
    ∃ ans, pairingsVerify a1 a2 b1 b2 = .ok ans ∧ (ans = true ↔
      pairing (Affine.ofProjective a1) (Affine.ofProjective a2) = pairing (Affine.ofProjective b1) (Affine.ofProjective b2)) := by
  refine ⟨_, pairingsVerify_spec h1 h2 h3 h4 hQ1 hQ2, ?_⟩
  rw [pairing_spec (ofProjective_is h1) (ofProjective_is h2) hQ1,
    pairing_spec (ofProjective_is h3) (ofProjective_is h4) hQ2, Res.ok.injEq, decide_eq_true_iff]

/-- `2 · 3 = 6 · 1`, and `2 · 3` is not `5`. -/
example : ∃ (a b5 b6 : G1.Proj) (q : G2.Proj), Projective.Is b a (2 • G1.gen) ∧ Projective.Is b b5 (5 • G1.gen) ∧
    Projective.Is b b6 (6 • G1.gen) ∧ Projective.Is b q (3 • G2.gen) ∧
    pairingsVerify a q b6 G2.generatorProj = .ok true ∧ pairingsVerify a q b5 G2.generatorProj = .ok false := by
  have h1 : ∀ n : Nat, ∃ a : G1.Proj, Projective.Is b a (n • G1.gen) := fun n => by
    obtain ⟨a, ha⟩ := affine_is_exists (n • G1.gen)
    exact ⟨_, ofAffine_is ha⟩
  obtain ⟨a, ha⟩ := h1 2
  obtain ⟨b5, h5⟩ := h1 5
  obtain ⟨b6, h6⟩ := h1 6
  obtain ⟨q, hq⟩ := affine_is_exists (3 • G2.gen)
  have hg : Projective.Is b G2.generatorProj (1 • G2.gen) := by rw [one_nsmul]; exact G2.generatorProj_is
  refine ⟨a, b5, b6, _, ha, h5, h6, ofAffine_is hq, ?_, ?_⟩
  · rw [C85_pairings_verify ha (ofAffine_is hq) h6 hg]
    decide +kernel
  · rw [C85_pairings_verify ha (ofAffine_is hq) h5 hg]
    decide +kernel

end Kzg.Props
