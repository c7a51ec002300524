import Verif.Model.Zk.Kzg
import Verif.Proofs.KZG
import Verif.Proofs.Zk.MsmRel
import Verif.Proofs.Zk.Poly
import Verif.Proofs.Zk.PairingVerify
import Verif.Proofs.Zk.G1Wrong
import Verif.Props.ZkG1
import Verif.Props.ZkG2
import Verif.Props.ZkPairing
/-!
# Commitments and proofs of zkcrypto: proofs

`At1 p x` says that the coordinates `p` stand for `x · g1`, `At2 p x` the same for the second group. Every point of
the two subgroups has exactly one such `x`.
-/

set_option linter.unusedSectionVars false

namespace Kzg.Zk.Top
open Kzg Kzg.Res Kzg.Zk CurveConsts Polynomial ScW Props

local notation "r" => frModulus

/-! ## Multiples of an element of prime order -/

section
variable {A : Type} [AddCommGroup A] {g : A}

theorem mod_nsmul (h : r • g = 0) (n : Nat) : (n % r) • g = n • g := by
  conv_rhs => rw [← Nat.mod_add_div n r, add_nsmul, mul_nsmul, h, nsmul_zero, add_zero]

theorem val_add_nsmul (h : r • g = 0) (a b : Fr) : (a + b).val • g = a.val • g + b.val • g := by
  rw [ZMod.val_add, mod_nsmul h, add_nsmul]

theorem val_mul_nsmul (h : r • g = 0) (a b : Fr) : (a * b).val • g = a.val • (b.val • g) := by
  rw [ZMod.val_mul, mod_nsmul h, Nat.mul_comm, mul_nsmul]

theorem val_zero_nsmul : (0 : Fr).val • g = 0 := by rw [ZMod.val_zero, zero_nsmul]

theorem val_neg_nsmul (h : r • g = 0) (a : Fr) : (-a).val • g = -(a.val • g) := by
  rw [eq_neg_iff_add_eq_zero, ← val_add_nsmul h, neg_add_cancel, val_zero_nsmul]

theorem val_sub_nsmul (h : r • g = 0) (a b : Fr) : (a - b).val • g = a.val • g - b.val • g := by
  rw [sub_eq_add_neg, val_add_nsmul h, val_neg_nsmul h, sub_eq_add_neg]

theorem val_nsmul_inj (h : r • g = 0) (hg : g ≠ 0) {a b : Fr} (e : a.val • g = b.val • g) : a = b := by
  have h1 : (a - b).val • g = 0 := by rw [val_sub_nsmul h, e, sub_self]
  have : Fact (Nat.Prime r) := inferInstance
  have h2 := addOrderOf_dvd_of_nsmul_eq_zero h1
  rw [addOrderOf_eq_prime h hg] at h2
  have h3 : (a - b).val = 0 := Nat.eq_zero_of_dvd_of_lt h2 (ZMod.val_lt _)
  exact sub_eq_zero.1 ((ZMod.val_eq_zero _).1 h3)

end

/-- The coordinates stand for `x · g1`. -/
def At1 (p : G1.Proj) (x : ScW) : Prop := Projective.Is b p ((el x).val • G1.gen)

/-- The coordinates stand for `x · g2`. -/
def At2 (p : G2.Proj) (x : ScW) : Prop := Projective.Is b p ((el x).val • G2.gen)

theorem at1_gen : At1 G1.generatorProj 1 := by
  unfold At1
  rw [el_one, Msm.val_one, one_nsmul]
  exact G1.generatorProj_is

theorem at2_gen : At2 G2.generatorProj 1 := by
  unfold At2
  rw [el_one, Msm.val_one, one_nsmul]
  exact G2.generatorProj_is

theorem at1_zero : At1 Projective.identity 0 := by
  unfold At1
  rw [el_zero, val_zero_nsmul]
  exact identity_is

theorem at1_add {p q : G1.Proj} {x y : ScW} (hp : At1 p x) (hq : At1 q y) : At1 (p.add q) (x + y) := by
  unfold At1
  rw [el_add, val_add_nsmul G1.order_gen]
  exact add_is hp hq

theorem at1_double {p : G1.Proj} {x : ScW} (hp : At1 p x) : At1 p.double (x + x) := by
  unfold At1
  rw [el_add, val_add_nsmul G1.order_gen]
  exact double_is hp

theorem at1_sub {p q : G1.Proj} {x y : ScW} (hp : At1 p x) (hq : At1 q y) : At1 (ptSub p q) (x - y) := by
  unfold At1
  rw [el_sub, val_sub_nsmul G1.order_gen]
  exact sub_is hp hq

theorem at2_add {p q : G2.Proj} {x y : ScW} (hp : At2 p x) (hq : At2 q y) : At2 (p.add q) (x + y) := by
  unfold At2
  rw [el_add, val_add_nsmul G2.order_gen]
  exact add_is hp hq

theorem at2_double {p : G2.Proj} {x : ScW} (hp : At2 p x) : At2 p.double (x + x) := by
  unfold At2
  rw [el_add, val_add_nsmul G2.order_gen]
  exact double_is hp

theorem at2_sub {p q : G2.Proj} {x y : ScW} (hp : At2 p x) (hq : At2 q y) : At2 (ptSub p q) (x - y) := by
  unfold At2
  rw [el_sub, val_sub_nsmul G2.order_gen]
  exact sub_is hp hq

/-- Equality of points is equality of the factors. -/
theorem at1_ctEq {p q : G1.Proj} {x y : ScW} (hp : At1 p x) (hq : At1 q y) : p.ctEq q = true ↔ x = y := by
  rw [ctEq_iff hp hq]
  exact ⟨fun h => el_inj (val_nsmul_inj G1.order_gen G1.gen_ne h), fun h => by rw [h]⟩

theorem at2_ctEq {p q : G2.Proj} {x y : ScW} (hp : At2 p x) (hq : At2 q y) : p.ctEq q = true ↔ x = y := by
  rw [ctEq_iff hp hq]
  exact ⟨fun h => el_inj (val_nsmul_inj G2.order_gen G2.gen_ne h), fun h => by rw [h]⟩

theorem at1_unique {p : G1.Proj} {x y : ScW} (hp : At1 p x) (hq : At1 p y) : x = y :=
  (at1_ctEq hp hq).1 ((ctEq_iff hp hp).2 rfl)

/-- Every point of the subgroup has a factor. -/
theorem at1_of_torsion {p : G1.Proj} {P : (curve (b (K := FpW))).Point} (hp : Projective.Is b p P) (ht : r • P = 0) :
    ∃ x, At1 p x := by
  obtain ⟨n, rfl⟩ := G1.torsion_cyclic ht
  obtain ⟨x, hx⟩ := el_surj (n : Fr)
  refine ⟨x, ?_⟩
  unfold At1
  rw [hx, ZMod.val_natCast, mod_nsmul G1.order_gen]
  exact hp

theorem at1_exists (x : ScW) : ∃ p, At1 p x := by
  obtain ⟨a, ha⟩ := affine_is_exists ((el x).val • G1.gen)
  exact ⟨_, ofAffine_is ha⟩

theorem at2_exists (x : ScW) : ∃ p, At2 p x := by
  obtain ⟨a, ha⟩ := affine_is_exists ((el x).val • G2.gen)
  exact ⟨_, ofAffine_is ha⟩

/-- The scalars for which the multiplication of the first group is right. -/
def Good (x : ScW) : Prop := ¬ RoundingOverflows (el x).val

theorem at1_mul (chk : Bool) {p : G1.Proj} {x s : ScW} (hp : At1 p x) (hs : Good s) :
    ∃ q, G1.mul chk p s.1 = .ok q ∧ At1 q (s * x) := by
  obtain ⟨q, e, h⟩ := C54_mul_partial chk hp (Miller.smul_torsion G1.order_gen _) (el_rep s) hs
  refine ⟨q, e, ?_⟩
  unfold At1
  rw [el_mul, val_mul_nsmul G1.order_gen]
  exact h

theorem at1_mul_panic {p : G1.Proj} {x s : ScW} (hp : At1 p x) (hs : ¬ Good s) : G1.mul true p s.1 = .panic :=
  (C54_debug_panics hp (el_rep s)).2 (not_not.1 hs)

theorem at2_mul {p : G2.Proj} {x s : ScW} (hp : At2 p x) : At2 (G2.mul p s.1) (s * x) := by
  unfold At2
  rw [el_mul, val_mul_nsmul G2.order_gen]
  exact C78_mul hp (el_rep s)

/-- `2^64·λ`, the scalar for which multiplication is wrong. -/
noncomputable def badScalar : ScW := (el_surj (G1.badNat : Fr)).choose

theorem badScalar_el : el badScalar = (G1.badNat : Fr) := (el_surj (G1.badNat : Fr)).choose_spec

/-- What multiplication by `badScalar` multiplies by. -/
noncomputable def wrongScalar : ScW := (el_surj ((Glv.digitSum G1.badDigits - 1 : Int) : Fr)).choose

theorem wrongScalar_el : el wrongScalar = ((Glv.digitSum G1.badDigits - 1 : Int) : Fr) :=
  (el_surj ((Glv.digitSum G1.badDigits - 1 : Int) : Fr)).choose_spec

theorem badNat_lt : G1.badNat < r := by decide +kernel

theorem badScalar_val : (el badScalar).val = G1.badNat := by rw [badScalar_el]; exact ZMod.val_natCast_of_lt badNat_lt

theorem badScalar_bad : ¬ Good badScalar := by
  unfold Good
  rw [not_not, badScalar_val]
  exact badNat_overflows

theorem badScalar_ne : badScalar ≠ 0 := by
  intro h
  have := badScalar_val
  rw [h, el_zero, ZMod.val_zero] at this
  exact absurd this (by decide +kernel)

theorem wrong_ne_bad : wrongScalar ≠ badScalar := by
  intro h
  have h1 := congrArg el h
  rw [wrongScalar_el, badScalar_el, ← Int.cast_natCast, ZMod.intCast_eq_intCast_iff_dvd_sub] at h1
  apply G1.bad_sum
  apply Int.emod_eq_zero_of_dvd
  have := (dvd_neg (a := (r : Int))).2 h1
  rwa [neg_sub] at this

theorem val_int_nsmul {A : Type} [AddCommGroup A] {g : A} (h : r • g = 0) (z : Int) : ((z : Fr)).val • g = z • g := by
  rw [← natCast_zsmul, ZMod.val_intCast]
  conv_rhs => rw [← Int.emod_add_mul_ediv z r, add_zsmul, mul_zsmul, natCast_zsmul, smul_comm, h, smul_zero, add_zero]

theorem at1_mul_bad {p : G1.Proj} {x : ScW} (hp : At1 p x) :
    ∃ q, G1.mul false p badScalar.1 = .ok q ∧ At1 q (wrongScalar * x) := by
  obtain ⟨h1, h2, h3⟩ := Scalar.toBytes_spec (el_rep badScalar)
  have hb : Scalar.toBytes badScalar.1 = toLe 32 G1.badNat := by
    refine Scalar.fromLe_inj (by rw [h1, toLe_length]) h2 (toLe_bytes _ _) ?_
    rw [h3, badScalar_val]
    decide +kernel
  obtain ⟨q, e, hq⟩ := G1.multiply_bad hp
  refine ⟨q, by rw [G1.mul, hb, e], ?_⟩
  unfold At1
  rw [el_mul, val_mul_nsmul G1.order_gen, wrongScalar_el, val_int_nsmul (Miller.smul_torsion G1.order_gen _)]
  exact hq

/-- The comparison of pairings decides equality of products. -/
theorem verify_at {a1 b1 : G1.Proj} {a2 b2 : G2.Proj} {x y z w : ScW} (h1 : At1 a1 x) (h2 : At2 a2 y) (h3 : At1 b1 z)
    (h4 : At2 b2 w) : Pairing.pairingsVerify a1 a2 b1 b2 = .ok (decide (x * y = z * w)) := by
  rw [C85_pairings_verify h1 h2 h3 h4]
  simp only [ZMod.natCast_zmod_val, ← el_mul]
  congr 1
  rw [decide_eq_decide]
  exact ⟨fun h => el_inj h, fun h => by rw [h]⟩

attribute [irreducible] At1 At2

/-! ## Settings -/

/-- Settings made from the secret `s` with `N` powers. -/
structure SetupOf (ks : Settings) (s : ScW) (N : Nat) : Prop where
  s1 : RelL At1 ks.secretG1 ((List.range N).map fun i => s ^ i)
  s2 : RelL At2 ks.secretG2 ((List.range N).map fun i => s ^ i)

theorem scalarOfBytes_spec {bs : List Nat} (hl : bs.length = 32) (hb : ∀ c ∈ bs, c < 256) :
    (fromLe bs < r → ∃ s, scalarOfBytes bs = some s ∧ el s = (fromLe bs : Fr)) ∧
    (r ≤ fromLe bs → scalarOfBytes bs = none) := by
  obtain ⟨h1, h2⟩ := Scalar.fromBytes_spec hl hb
  unfold scalarOfBytes
  generalize Scalar.fromBytes bs = o at *
  constructor
  · intro h
    obtain ⟨t, rfl, ht⟩ := h1 h
    refine ⟨⟨t, ht.1⟩, ?_, el_eq ht⟩
    rw [Option.bind_some, dif_pos ht.1]
  · intro h
    rw [h2 h, Option.bind_none]

section
variable {P Q : Type} {R1 : P → ScW → Prop} {R2 : Q → ScW → Prop} {f : ScW → Res P} {g : ScW → Q}

/-- The loop with its two multiplications abstracted. -/
def powLoop (f : ScW → Res P) (g : ScW → Q) (s : ScW) : (n : Nat) → ScW → List P → List Q → Res (List P × List Q)
  | 0, _, s1, s2 => .ok (s1, s2)
  | n + 1, sPow, s1, s2 => do
    let p ← f sPow
    let s1 := s1 ++ [p]
    let s2 := s2 ++ [g sPow]
    powLoop f g s n (sPow * s) s1 s2

theorem powLoop_ok (hf : ∀ x, Good x → ∃ p, f x = .ok p ∧ R1 p x) (hg : ∀ x, R2 (g x) x) (s : ScW) (n : Nat) :
    ∀ (k : Nat) (s1 : List P) (s2 : List Q),
    RelL R1 s1 ((List.range k).map fun i => s ^ i) → RelL R2 s2 ((List.range k).map fun i => s ^ i) →
    (∀ i, k ≤ i → i < k + n → Good (s ^ i)) → ∃ q, powLoop f g s n (s ^ k) s1 s2 = .ok q ∧
      RelL R1 q.1 ((List.range (k + n)).map fun i => s ^ i) ∧ RelL R2 q.2 ((List.range (k + n)).map fun i => s ^ i) := by
  induction n with
  | zero => intro k s1 s2 h1 h2 _; exact ⟨(s1, s2), rfl, h1, h2⟩
  | succ n ih =>
    intro k s1 s2 h1 h2 hG
    obtain ⟨p, e, hp⟩ := hf (s ^ k) (hG k (Nat.le_refl _) (by omega))
    rw [powLoop, e, bind_ok, ← pow_succ]
    dsimp only
    obtain ⟨q, eq, hq⟩ := ih (k + 1) (s1 ++ [p]) (s2 ++ [g (s ^ k)])
      (by rw [List.range_succ, List.map_append]; exact h1.snoc hp)
      (by rw [List.range_succ, List.map_append]; exact h2.snoc (hg _))
      (fun i a b => hG i (by omega) (by omega))
    rw [show k + 1 + n = k + (n + 1) by omega] at hq
    exact ⟨q, eq, hq⟩

theorem powLoop_panic (hf : ∀ x, ¬ Good x → f x = .panic) (hf' : ∀ x, Good x → ∃ p, f x = .ok p) (s : ScW) (n : Nat) :
    ∀ (k : Nat) (s1 : List P) (s2 : List Q), (∃ i, k ≤ i ∧ i < k + n ∧ ¬ Good (s ^ i)) →
    powLoop f g s n (s ^ k) s1 s2 = .panic := by
  induction n with
  | zero => intro k s1 s2 ⟨i, a, b, _⟩; omega
  | succ n ih =>
    intro k s1 s2 ⟨i, a, b, c⟩
    rw [powLoop, ← pow_succ]
    by_cases hg : Good (s ^ k)
    · obtain ⟨p, e⟩ := hf' _ hg
      rw [e, bind_ok]
      refine ih (k + 1) _ _ ⟨i, ?_, by omega, c⟩
      by_contra hi
      have : i = k := by omega
      exact c (this ▸ hg)
    · rw [hf _ hg, bind_panic]

end

theorem setupLoop_eq (chk : Bool) (s : ScW) (n : Nat) : ∀ (x : ScW) (s1 : List G1.Proj) (s2 : List G2.Proj),
    setupLoop chk s n x s1 s2 =
      powLoop (fun x => G1.mul chk G1.generatorProj x.1) (fun x => G2.mul G2.generatorProj x.1) s n x s1 s2 := by
  induction n with
  | zero => intros; rfl
  | succ n ih => intro x s1 s2; rw [setupLoop, powLoop]; simp only [ih]

/-- The loop returns the powers if none of them is bad. -/
theorem setupLoop_ok (chk : Bool) (s : ScW) (n : Nat) (hG : ∀ i < n, Good (s ^ i)) :
    ∃ q, setupLoop chk s n 1 [] [] = .ok q ∧
      RelL At1 q.1 ((List.range n).map fun i => s ^ i) ∧ RelL At2 q.2 ((List.range n).map fun i => s ^ i) := by
  have h1 : ∀ x, Good x → ∃ p, G1.mul chk G1.generatorProj x.1 = .ok p ∧ At1 p x := fun x hx => by
    obtain ⟨p, e, h⟩ := at1_mul chk at1_gen hx
    rw [mul_one] at h
    exact ⟨p, e, h⟩
  have h2 : ∀ x : ScW, At2 (G2.mul G2.generatorProj x.1) x := fun x => by
    have := at2_mul (s := x) at2_gen
    rwa [mul_one] at this
  have := powLoop_ok h1 h2 s n 0 [] [] RelL.nil RelL.nil (fun i _ hi => hG i (by omega))
  rw [pow_zero, Nat.zero_add] at this
  rw [setupLoop_eq]
  exact this

/-- With overflow checks the loop panics if one of the powers is bad. -/
theorem setupLoop_panic (s : ScW) (n : Nat) (hG : ∃ i < n, ¬ Good (s ^ i)) : setupLoop true s n 1 [] [] = .panic := by
  obtain ⟨i, hi, hg⟩ := hG
  have := powLoop_panic (f := fun x => G1.mul true G1.generatorProj x.1) (g := fun x => G2.mul G2.generatorProj x.1)
    (fun x hx => at1_mul_panic at1_gen hx)
    (fun x hx => by obtain ⟨p, e, -⟩ := at1_mul true at1_gen hx; exact ⟨p, e⟩) s n 0 [] [] ⟨i, by omega, by omega, hg⟩
  rw [pow_zero] at this
  rw [setupLoop_eq]
  exact this

/-! ## Commitments -/

theorem zipWith_val (p v : List ScW) : (List.zipWith (fun (x : Fr) q => x.val • q) (p.map el) v).sum =
    (List.zipWith (fun P c => c • P) v p).sum := by
  induction p generalizing v with
  | nil => rw [List.zipWith_nil_right]; rfl
  | cons a p ih =>
    cases v with
    | nil => rfl
    | cons b v =>
      rw [List.map_cons, List.zipWith_cons_cons, List.zipWith_cons_cons, List.sum_cons, List.sum_cons, ih]
      congr 1
      apply el_inj
      rw [nsmul_eq_mul, smul_eq_mul, el_mul, el_mul, el_natCast, ZMod.natCast_zmod_val]

theorem zipWith_take (v p : List ScW) : (List.zipWith (fun P c => c • P) v p).sum =
    (List.zipWith (fun P c => c • P) (v.take p.length) p).sum := by
  induction p generalizing v with
  | nil => rw [List.zipWith_nil_right, List.zipWith_nil_right]
  | cons a p ih =>
    cases v with
    | nil => rfl
    | cons b v =>
      rw [List.length_cons, List.take_succ_cons, List.zipWith_cons_cons, List.zipWith_cons_cons, List.sum_cons,
        List.sum_cons, ih]

theorem forall₂_rep (p : List ScW) : List.Forall₂ Scalar.Rep (p.map Subtype.val) (p.map el) := by
  induction p with
  | nil => exact .nil
  | cons a p ih => exact .cons (el_rep a) ih

theorem msm_at {pts : List G1.Proj} {v : List ScW} (h : RelL At1 pts v) (p : List ScW) :
    ∃ c, Msm.msmVariableBase Projective.double pts (p.map Subtype.val) = .ok c ∧
      At1 c (List.zipWith (fun P c => c • P) v p).sum := by
  have h1 := Msm.msmVariableBase_rel (lax := False) (dbl := Projective.double) (R := At1) at1_zero
    (fun h h' => at1_add h h') (fun h => at1_double h) h (p.map Subtype.val)
  rw [Msm.msmVariableBase_spec (forall₂_rep p) v, zipWith_val] at h1
  rcases h1.of_ok with h2 | ⟨hf, -⟩
  · exact h2
  · exact hf.elim

theorem SetupOf.length {ks : Settings} {s : ScW} {N : Nat} (h : SetupOf ks s N) : ks.secretG1.length = N := by
  rw [h.s1.length]; simp

theorem SetupOf.commit {ks : Settings} {s : ScW} {N : Nat} (h : SetupOf ks s N) (p : List ScW) (hp : p.length ≤ N) :
    ∃ c, polyCommit p ks = .ok c ∧ At1 c ((polyOf p).eval s) := by
  unfold polyCommit
  rw [if_neg (by rw [h.length]; omega)]
  by_cases hz : ZkP.isZero p = true
  · rw [if_pos hz, (ZkP.isZero_iff p).1 hz, eval_zero]
    exact ⟨_, rfl, at1_zero⟩
  · rw [if_neg hz]
    obtain ⟨c, e, hc⟩ := msm_at h.s1 p
    refine ⟨c, e, ?_⟩
    have h1 := zipWith_sum s (1 : ScW) p
    simp only [smul_eq_mul, mul_one] at h1
    rw [zipWith_take, ← List.map_take, List.take_range, Nat.min_eq_left hp] at hc
    rw [← h1]
    exact hc

theorem SetupOf.computeMulti {ks : Settings} {s : ScW} {N : Nat} (h : SetupOf ks s N) (p : List ScW) (x : ScW) {m : Nat}
    (hp0 : polyOf p ≠ 0) (hd : (polyOf p).natDegree < 2 ^ 30) (hN : (polyOf p).natDegree + 1 - 2 ^ m ≤ N) :
    ∃ c, computeProofMulti ks p x (2 ^ m) = .ok c ∧ At1 c ((polyOf p / (X ^ 2 ^ m - C (x ^ 2 ^ m))).eval s) := by
  obtain ⟨d, hd1, -, hdp, -⟩ := cosetDivisor_spec x (2 ^ m) (by positivity)
  have hdeg : (polyOf d).natDegree = 2 ^ m := by rw [hdp]; exact natDegree_X_pow_sub_C
  have hd0 : polyOf d ≠ 0 := by
    rw [hdp]; exact (monic_X_pow_sub_C _ (by positivity)).ne_zero
  obtain ⟨q, hq, hq1, hq2⟩ := ZkP.polyDiv_spec p d hp0 hd0 hd
  obtain ⟨c, hc, ha⟩ := h.commit q (by rw [hq2, hdeg]; exact hN)
  refine ⟨c, ?_, ?_⟩
  · rw [computeProofMulti, isPowerOfTwo_two_pow, if_neg (by simp), hd1, bind_ok, hq, unwrap_ok, bind_ok, hc, unwrap_ok]
  · rwa [hq1, hdp] at ha

theorem SetupOf.checkSingle (chk : Bool) {ks : Settings} {s : ScW} {N : Nat} (h : SetupOf ks s N) (hN : 2 ≤ N)
    {com proof : G1.Proj} {c p : ScW} (hc : At1 com c) (hp : At1 proof p) (x y : ScW) (hy : Good y) :
    checkProofSingle chk ks com proof x y = .ok (decide (c - y = p * (s - x))) := by
  obtain ⟨s2, e2, h2⟩ := h.s2.getElem? (i := 1) (b := s) (by
    rw [List.getElem?_map, List.getElem?_range (by omega), Option.map_some, pow_one])
  obtain ⟨q, eq, hq⟩ := at1_mul chk at1_gen hy
  have hx := at2_mul (s := x) at2_gen
  rw [mul_one] at hq hx
  rw [checkProofSingle, rd_of_getElem? e2, bind_ok, eq, bind_ok]
  rw [verify_at (at1_sub hc hq) at2_gen hp (at2_sub h2 hx), mul_one]

theorem SetupOf.checkMulti {ks : Settings} {s : ScW} {N K : Nat} (h : SetupOf ks s N) (hfs : ks.fs.WF K) {m : Nat}
    (hm : m ≤ K) (hN : 2 ^ m < N) {com proof : G1.Proj} {c p : ScW} (hc : At1 com c) (hp : At1 proof p) (x : ScW)
    (hx0 : x ≠ 0) (ys : List ScW) (hys : ys.length = 2 ^ m) :
    ∃ I : ScW[X], I.degree < (2 ^ m : Nat) ∧
      (∀ i < 2 ^ m, ys[i]? = some (I.eval (x * ks.fs.omega (2 ^ m) ^ i))) ∧
      checkProofMulti ks com proof x ys (2 ^ m) = .ok (decide (c - I.eval s = p * (s ^ 2 ^ m - x ^ 2 ^ m))) := by
  have hpos : 0 < 2 ^ m := by positivity
  obtain ⟨cf, hcf, hcl, _⟩ := hfs.fft_backward hm ys hys
  have hcv := hfs.fft_roundtrip' hm ys hys
  rw [hcf, bind_ok, hfs.fft_eval hm cf hcl] at hcv
  have hcs := cosetScale_spec cf x⁻¹ (2 ^ m) hcl hpos
  set cs := (List.range cf.length).map fun i => cf.getD i 0 * x⁻¹ ^ i with hcsdef
  have hcsl : cs.length = 2 ^ m := by rw [hcsdef]; simp [hcl]
  have hev : ∀ y, (polyOf cs).eval (x * y) = (polyOf cf).eval y := by
    intro y
    rw [hcsdef, eval_scaled, ← mul_assoc, inv_mul_cancel₀ hx0, one_mul]
  refine ⟨polyOf cs, by rw [← hcsl]; exact degree_polyOf_lt cs, ?_, ?_⟩
  · intro i hi
    rw [hev, ← Res.ok.inj hcv, List.getElem?_map, List.getElem?_range hi]; rfl
  · obtain ⟨s2, e2, h2⟩ := h.s2.getElem? (i := 2 ^ m) (b := s ^ 2 ^ m) (by
      rw [List.getElem?_map, List.getElem?_range hN, Option.map_some])
    obtain ⟨g, hg, ha⟩ := h.commit cs (by omega)
    have hx := at2_mul (s := (x⁻¹ ^ 2 ^ m)⁻¹) at2_gen
    rw [mul_one] at hx
    rw [checkProofMulti, isPowerOfTwo_two_pow, if_neg (by simp), show ks.fs.fftFr ys true = _ from hcf, bind_ok,
      ZkP.frInv, if_neg hx0, bind_ok, hcs, bind_ok]
    dsimp only
    rw [ZkP.frInv, if_neg (pow_ne_zero _ (inv_ne_zero hx0)), bind_ok, rd_of_getElem? e2, bind_ok, hg, unwrap_ok, bind_ok,
      verify_at (at1_sub hc ha) at2_gen hp (at2_sub h2 hx), mul_one, inv_pow, inv_inv]

end Kzg.Zk.Top
