import Verif.Props.LongProofs
import Verif.Props.Bench
/-!
# Property C168, continued: for which inputs the shared test of multi-point proofs passes

`C168_*_partial` in `Verif.Props.Bench` have the bound `2^30` on the coefficients. With the exact sizes of C196 the test passes or panics
for every input that fits the setup.
-/

set_option linter.unusedSectionVars false

namespace Kzg.Props
open Kzg Kzg.Res Kzg.Bench Polynomial

/-- Without a proof the test fails. -/
theorem proofMulti_no_proof {F P : Type} [Field F] [DecidableEq F] {A1 A2 : Api F P} {p : List F} {x : F} {n : Nat} {com : P}
    (h1 : A1.commit p = .ok com) (h2 : A2.multi p x n = .panic) (k : Nat) : proofMulti A1 A2 p x n k = .panic := by
  unfold proofMulti
  rw [h1, unwrap, bind_ok, h2]
  rfl

/-- Without the value at the first point the test fails. -/
theorem proofMulti_no_value {F P : Type} [Field F] [DecidableEq F] {A1 A2 : Api F P} {p : List F} {x r : F} {n : Nat} {com π : P}
    (h1 : A1.commit p = .ok com) (h2 : A2.multi p x n = .ok π) (hn : 0 < n) (hr : A2.rootAt 0 = .ok r)
    (he : A2.eval p (x * r) = .panic) (k : Nat) : proofMulti A1 A2 p x n k = .panic := by
  unfold proofMulti
  rw [h1, unwrap, bind_ok, h2, unwrap, bind_ok]
  have : tab n (fun i => do
      let r ← A2.rootAt i
      A2.eval p (x * r)) = .panic := by
    unfold tab
    rw [forRange_succ _ _ hn]
    simp only [hr, bind_ok, he, bind_panic]
  rw [this, bind_panic]

/-- Without an accepted proof the test fails. -/
theorem proofMulti_refused {F P : Type} [Field F] [DecidableEq F] {A1 A2 : Api F P} {p : List F} {x ω : F} {n : Nat} {com π : P}
    (h1 : A1.commit p = .ok com) (h2 : A2.multi p x n = .ok π) (hr : ∀ i < n, A2.rootAt i = .ok (ω ^ i))
    (he : ∀ y, A2.eval p y = .ok ((polyOf p).eval y))
    (hc : A2.checkMulti com π x ((List.range n).map fun i => (polyOf p).eval (x * ω ^ i)) n = .ok false) (k : Nat) :
    proofMulti A1 A2 p x n k = .panic := by
  unfold proofMulti
  rw [h1, unwrap, bind_ok, h2, unwrap, bind_ok, tab_ok (g := fun i => (polyOf p).eval (x * ω ^ i)) (fun i hi => by
    rw [hr i hi, bind_ok, he]), bind_ok, hc]
  rfl

section
variable {G1 G2 GT : Type} [AddCommGroup G1] [Module Fr G1] [AddCommGroup G2] [Module Fr G2] [CommGroup GT] [DecidableEq GT]

/-- C168 (blst-from-scratch): for polynomials that fit the setup the test passes if they do not have one coefficient and have a size for
which the proof can be computed, and panics otherwise. -/
theorem C168_blst_exact {B : Backend G1 G2 GT} {g1 : G1} {g2 : G2} (hB : B.Lawful g1 g2) {ks1 ks2 : KZGSettings Fr G1 G2}
    {N scale m : Nat} {s : Fr} (h1 : MadeFrom ks1 g1 g2 N scale s) (h2 : MadeFrom ks2 g1 g2 N m s) (hN : 2 ^ m < N)
    (p : List Fr) (hp : p.length ≤ N) (hp62 : p.length ≤ 2 ^ 62) (x : Fr) (hx0 : x ≠ 0)
    (hinf : s ≠ 0 ∨ B.MsmTotal) (hx : x ^ 2 ^ m ≠ s ^ 2 ^ m) (k : Nat) (hk : k < 2 ^ m) :
    (p.length ≠ 1 ∧ (2 ^ m < 127 ∨ p.length < 2 ^ m + 128 ∨ 2 * p.length ≤ 2 ^ 31 + 1 + 2 ^ m) →
      proofMulti (Bench.blst B g1 g2 ks1) (Bench.blst B g1 g2 ks2) p x (2 ^ m) k = .ok ()) ∧
    (¬ (p.length ≠ 1 ∧ (2 ^ m < 127 ∨ p.length < 2 ^ m + 128 ∨ 2 * p.length ≤ 2 ^ 31 + 1 + 2 ^ m)) →
      proofMulti (Bench.blst B g1 g2 ks1) (Bench.blst B g1 g2 ks2) p x (2 ^ m) k = .panic) := by
  have hi : ∀ n, s ≠ 0 ∨ n < 8 ∨ B.MsmTotal := fun n => hinf.imp id Or.inr
  constructor
  · rintro ⟨hp1, hlen⟩
    obtain ⟨com, π, e1, e2, e3⟩ := (C196_blst hB h2 (m := m) p hp x hinf hlen).2 le_rfl hN hx0 (Or.inl hx)
    have e1' : (Bench.blst B g1 g2 ks1).commit p = .ok com := by
      rw [← e1, C25_commit hB h2 p hp (hi _)]
      exact C25_commit hB h1 p hp (hi _)
    have hr : cosetRoot ks2 m m = ks2.fs.rootOfUnity := by rw [cosetRoot, Nat.sub_self, pow_zero, pow_one]
    rw [hr] at e3
    refine proofMulti_ok (blst_base B h2) rfl hk (blst_eval B g1 g2 ks2 hp1) e1' e2 e3 ?_
    refine bumped_rejected (A := Bench.blst B g1 g2 ks2) (s := s) (by positivity) (blst_base B h2).prim hx0 hk hx.symm
      (fun v => com - v • g1 = (s ^ 2 ^ m - x ^ 2 ^ m) • π) ?_ ?_ e3
    · intro a b ha hb
      rw [← hb, sub_right_inj, smul_inj' hB.ne] at ha
      exact ha
    · intro I ys hI hys hv
      exact C29_multi_accepts_iff hB h2 le_rfl hN com π x hx0 ys hys (hi _) (Or.inl hx) I hI (by rw [hr]; exact hv)
  · intro hc
    have e1 : (Bench.blst B g1 g2 ks1).commit p = .ok _ := C25_commit hB h1 p hp (hi _)
    by_cases hlen : 2 ^ m < 127 ∨ p.length < 2 ^ m + 128 ∨ 2 * p.length ≤ 2 ^ 31 + 1 + 2 ^ m
    · have hp1 : p.length = 1 := by
        by_contra h
        exact hc ⟨h, hlen⟩
      obtain ⟨c, rfl⟩ := List.length_eq_one_iff.1 hp1
      refine proofMulti_no_value e1 (C196_blst hB h2 (m := m) [c] hp x hinf hlen).1 (by positivity)
        ((blst_base B h2).root 0 (by positivity)) ?_ k
      rw [pow_zero, mul_one]
      exact polyEval_one_panic c x hx0
    · exact proofMulti_no_proof e1 (C196_blst_panics B ks2 p x hlen hp62) k

/-- C168 (Arkworks): for polynomials that fit the setup the test passes if they have a size for which the proof can be computed, and
panics otherwise. -/
theorem C168_ark_exact {P : Type} {B : Ark.Backend P G1 G2 GT} {g1 : G1} {g2 : G2} (hB : B.Lawful g1 g2)
    {ks1 ks2 : Ark.Settings P G1 G2} {L scale m : Nat} {s : Fr} (h1 : ArkMade B ks1 g1 g2 L scale s) (h2 : ArkMade B ks2 g1 g2 L m s)
    (hL : 2 ^ m ≤ L) (p : List Fr) (hp : p.length ≤ L) (hp62 : p.length ≤ 2 ^ 62) (x : Fr) (hx0 : x ≠ 0)
    (hx : x ^ 2 ^ m ≠ s ^ 2 ^ m) (k : Nat) (hk : k < 2 ^ m) (bad : Prop)
    (hbad : bad ↔ 127 ≤ 2 ^ m ∧ (2 ^ 30 + 2 ^ m < p.length ∨ (polyOf p = 0 ∧ 2 ^ m + 1 < p.length ∧ p.length < 2 ^ m + 128))) :
    (¬ bad → proofMulti (Bench.ark B ks1) (Bench.ark B ks2) p x (2 ^ m) k = .ok ()) ∧
    (bad → proofMulti (Bench.ark B ks1) (Bench.ark B ks2) p x (2 ^ m) k = .panic) := by
  have hL1 : 1 ≤ L := le_trans Nat.one_le_two_pow hL
  rw [hbad]
  constructor
  · intro hc
    obtain ⟨com, π, e1, e2, e3⟩ := (C196_arkworks hB h2 hL1 (n := 2 ^ m) (by positivity) p x
      (fun h0 => by by_contra h; push Not at h; exact hc ⟨h.1, .inr ⟨h0, by omega, by omega⟩⟩)
      (by by_contra h; push Not at h; exact hc ⟨h.1, .inl (by omega)⟩)).2 m rfl hp le_rfl hL hx0
    have e1' : (Bench.ark B ks1).commit p = .ok com := by
      rw [← e1, (C127_commit hB h2 p).1 hL1 hp]
      exact (C127_commit hB h1 p).1 hL1 hp
    have hr : domainRoot ks2.fs m m = ks2.fs.rootOfUnity := by rw [domainRoot, Nat.sub_self, pow_zero, pow_one]
    rw [hr] at e3
    refine proofMulti_ok (ark_base hB h2) rfl hk (ark_eval B ks2 p) e1' e2 e3 ?_
    refine bumped_rejected (A := Bench.ark B ks2) (s := s) (by positivity) (ark_base hB h2).prim hx0 hk hx.symm
      (fun v => com - v • g1 = (s ^ 2 ^ m - x ^ 2 ^ m) • π) ?_ ?_ e3
    · intro a b ha hb
      rw [← hb, sub_right_inj, smul_inj' hB.ne] at ha
      exact ha
    · intro I ys hI hys hv
      exact C128_multi_accepts_iff hB h2 le_rfl hL com π x hx0 ys hys I hI (by rw [hr]; exact hv)
  · rintro ⟨hn, hc⟩
    exact proofMulti_no_proof ((C127_commit hB h1 p).1 hL1 hp) (C196_arkworks_panics ks2 p x hn hc.symm hp62) k

/-- C168 (mcl-kzg): for up to `2^30` points and polynomials that fit the setup the test passes if the division is a long one or the
quotient has at most `2^29` coefficients. -/
theorem C168_mcl_sized [Mcl.Lib Fr] {B : Mcl.Backend G1 G2 GT} {g1 : G1} {g2 : G2} (hB : B.Lawful g1 g2)
    {ks1 ks2 : KZGSettings Fr G1 G2} {N scale m : Nat} {s : Fr} (h1 : MclMade ks1 g1 g2 N scale s) (h2 : MclMade ks2 g1 g2 N m s)
    (h30 : m ≤ 30) (hN : 2 ^ m < N) (p : List Fr) (hp : p.length ≤ N) (hp62 : p.length ≤ 2 ^ 62)
    (hlen : MclLong p (2 ^ m) ∨ p.length - 2 ^ m ≤ 2 ^ 29) (x : Fr) (hx0 : x ≠ 0)
    (hx : x ^ 2 ^ m ≠ s ^ 2 ^ m) (k : Nat) (hk : k < 2 ^ m) :
    proofMulti (Bench.mcl B g1 g2 ks1) (Bench.mcl B g1 g2 ks2) p x (2 ^ m) k = .ok () := by
  have e1 : (Bench.mcl B g1 g2 ks1).commit p = .ok _ := (C108_commit hB h1 p).1 hp
  have e2 := (C196_mcl hB h2 (m := m) p x _ rfl (le_trans (Nat.sub_le _ _) hp62) _ rfl).2.1 (le_trans (Nat.sub_le _ _) hp) hlen
  have hr : cosetRoot ks2 m m = ks2.fs.rootOfUnity := by rw [cosetRoot, Nat.sub_self, pow_zero, pow_one]
  have hprim := (mcl_base B h2).prim
  obtain ⟨hr1, hr2⟩ := remainder_spec (x := x) (n := 2 ^ m) (by positivity) hprim.pow_eq_one (polyOf p)
  have acc : ∀ (I : Fr[X]) (ys : List Fr), I.degree < (2 ^ m : Nat) → ys.length = 2 ^ m →
      (∀ i < 2 ^ m, ys[i]? = some (I.eval (x * ks2.fs.rootOfUnity ^ i))) → _ := fun I ys hI hys hv =>
    C109_multi_accepts_iff hB h2 le_rfl h30 hN ((polyOf p).eval s • g1)
      ((polyOf p / (X ^ 2 ^ m - C (x ^ 2 ^ m))).eval s • g1) x hx0 ys hys I hI (by rw [hr]; exact hv)
  have e3 := (acc _ ((List.range (2 ^ m)).map fun i => (polyOf p).eval (x * ks2.fs.rootOfUnity ^ i)) hr1 (by simp) (by
    intro i hi
    rw [List.getElem?_map, List.getElem?_range hi, Option.map_some, hr2])).2.2 (by
    rw [← sub_smul, quotient_eval, smul_smul])
  refine proofMulti_ok (mcl_base B h2) rfl hk (mcl_eval B g1 g2 ks2 p) e1 e2 e3 ?_
  refine bumped_rejected (A := Bench.mcl B g1 g2 ks2) (s := s) (by positivity) hprim hx0 hk hx.symm
    (fun v => (polyOf p).eval s • g1 - v • g1 =
      (s ^ 2 ^ m - x ^ 2 ^ m) • ((polyOf p / (X ^ 2 ^ m - C (x ^ 2 ^ m))).eval s • g1)) ?_ ?_ e3
  · intro a b ha hb
    rw [← hb, sub_right_inj, smul_inj' hB.ne] at ha
    exact ha
  · exact acc

/-- C168 (refuted for mcl-kzg): where proofs come out negated the test fails, unless the quotient vanishes at the secret; where they
cannot be computed it fails always. -/
theorem C168_mcl_fails [Mcl.Lib Fr] {B : Mcl.Backend G1 G2 GT} {g1 : G1} {g2 : G2} (hB : B.Lawful g1 g2)
    {ks1 ks2 : KZGSettings Fr G1 G2} {N scale m : Nat} {s : Fr} (h1 : MclMade ks1 g1 g2 N scale s) (h2 : MclMade ks2 g1 g2 N m s)
    (h30 : m ≤ 30) (hN : 2 ^ m < N) (p : List Fr) (hp : p.length ≤ N) (hp62 : p.length ≤ 2 ^ 62)
    (hc : ¬ MclLong p (2 ^ m)) (x : Fr) (hx0 : x ≠ 0) (hx : x ^ 2 ^ m ≠ s ^ 2 ^ m) (k : Nat) :
    (2 ^ 29 < p.length - 2 ^ m → p.length - 2 ^ m + (p.length - 2 ^ m) / 2 ≤ 2 ^ 30 →
      (polyOf p / (X ^ 2 ^ m - C (x ^ 2 ^ m))).eval s ≠ 0 →
      proofMulti (Bench.mcl B g1 g2 ks1) (Bench.mcl B g1 g2 ks2) p x (2 ^ m) k = .panic) ∧
    (2 ^ 30 < p.length - 2 ^ m → proofMulti (Bench.mcl B g1 g2 ks1) (Bench.mcl B g1 g2 ks2) p x (2 ^ m) k = .panic) := by
  have e1 : (Bench.mcl B g1 g2 ks1).commit p = .ok _ := (C108_commit hB h1 p).1 hp
  constructor
  · intro h3 h4 hq
    obtain ⟨com, π, b, c1, c2, c3, c4⟩ := C196_mcl_negated_refused hB h2 le_rfl h30 hN p hp x hx0 hc h3 h4
    have hb : b = false := by
      cases b with
      | false => rfl
      | true => exact ((c4.1 rfl).elim hq fun e => hx e.symm).elim
    have hr : cosetRoot ks2 m m = ks2.fs.rootOfUnity := by rw [cosetRoot, Nat.sub_self, pow_zero, pow_one]
    rw [hr, hb] at c3
    rw [(C108_commit hB h2 p).1 hp] at c1
    rw [← Res.ok.inj c1] at c3
    exact proofMulti_refused e1 c2 (fun i hi => (mcl_base B h2).root i hi.le) (mcl_eval B g1 g2 ks2 p) c3 k
  · intro h3
    exact proofMulti_no_proof e1 ((C196_mcl hB h2 (m := m) p x _ rfl (le_trans (Nat.sub_le _ _) hp62) _ rfl).2.2.2 hc h3) k

end

/-! ## zkcrypto -/

section
open Kzg.Zk ScW Kzg.Zk.Top

/-- C168 (zkcrypto): for polynomials that fit the setup the test passes if they are not zero, do not have one coefficient and have a
degree for which the proof can be computed, and panics otherwise. -/
theorem C168_zk_exact {chk : Bool} {ks1 ks2 : Zk.Top.Settings} {N scale m : Nat} {s : ScW} (h1 : ZkMadeFrom chk ks1 N scale s)
    (h2 : ZkMadeFrom chk ks2 N m s) (hN : 2 ^ m < N) (p : List ScW) (hp : p.length ≤ N) (hp62 : p.length ≤ 2 ^ 62)
    (x : ScW) (hx0 : x ≠ 0) (hx : x ^ 2 ^ m ≠ s ^ 2 ^ m) (k : Nat) (hk : k < 2 ^ m) {D : Nat} (hD : D = (polyOf p).natDegree + 1) :
    (polyOf p ≠ 0 ∧ p.length ≠ 1 ∧ (2 ^ m < 127 ∨ D < 2 ^ m + 128 ∨ 2 * D ≤ 2 ^ 31 + 1 + 2 ^ m) →
      proofMulti (Bench.zk chk ks1) (Bench.zk chk ks2) p x (2 ^ m) k = .ok ()) ∧
    (¬ (polyOf p ≠ 0 ∧ p.length ≠ 1 ∧ (2 ^ m < 127 ∨ D < 2 ^ m + 128 ∨ 2 * D ≤ 2 ^ 31 + 1 + 2 ^ m)) →
      proofMulti (Bench.zk chk ks1) (Bench.zk chk ks2) p x (2 ^ m) k = .panic) := by
  obtain ⟨com, e1, hc⟩ := C87_commit h1 p hp
  have hr : zkCosetRoot ks2 m m = ks2.fs.rootOfUnity := by rw [zkCosetRoot, Nat.sub_self, pow_zero, pow_one]
  rw [hD]
  constructor
  · rintro ⟨hp0, hp1, hlen⟩
    have hd := zk_natDegree_lt hp0
    obtain ⟨π, e2, hq⟩ := (C196_zkcrypto h2 p hp0 x hlen).1 (by omega)
    have acc : ∀ (I : ScW[X]) (ys : List ScW), I.degree < (2 ^ m : Nat) → ys.length = 2 ^ m →
        (∀ i < 2 ^ m, ys[i]? = some (I.eval (x * ks2.fs.rootOfUnity ^ i))) →
        (Bench.zk chk ks2).checkMulti com π x ys (2 ^ m) = .ok (decide ((polyOf p).eval s - I.eval s =
          (polyOf p / (X ^ 2 ^ m - C (x ^ 2 ^ m))).eval s * (s ^ 2 ^ m - x ^ 2 ^ m))) := fun I ys hI hys hv =>
      C89_accepts_iff h2 le_rfl hN hc hq x hx0 ys hys I hI (by rw [hr]; exact hv)
    have hprim := (zk_base chk h2).prim
    obtain ⟨hr1, hr2⟩ := zk_remainder (x := x) (n := 2 ^ m) (by positivity) hprim.pow_eq_one (polyOf p)
    have e3 := acc _ ((List.range (2 ^ m)).map fun i => (polyOf p).eval (x * ks2.fs.rootOfUnity ^ i)) hr1 (by simp) (by
      intro i hi
      rw [List.getElem?_map, List.getElem?_range hi, Option.map_some, hr2])
    rw [decide_eq_true (by
      have := congrArg (eval s) (EuclideanDomain.div_add_mod (polyOf p) (X ^ 2 ^ m - C (x ^ 2 ^ m)))
      rw [eval_add, eval_mul, eval_sub, eval_pow, eval_X, eval_C] at this
      linear_combination -this)] at e3
    refine proofMulti_ok (zk_base chk h2) rfl hk (zk_eval chk ks2 hp1) e1 e2 e3 ?_
    refine bumped_rejected (A := Bench.zk chk ks2) (s := s) (by positivity) hprim hx0 hk hx.symm
      (fun v => (polyOf p).eval s - v = (polyOf p / (X ^ 2 ^ m - C (x ^ 2 ^ m))).eval s * (s ^ 2 ^ m - x ^ 2 ^ m)) ?_ ?_ e3
    · intro a b ha hb
      rw [← hb] at ha
      exact sub_right_injective ha
    · intro I ys hI hys hv
      rw [acc I ys hI hys hv]
      refine ⟨?_, by simp⟩
      cases decide ((polyOf p).eval s - I.eval s = _) <;> simp
  · intro hbad
    by_cases hp0 : polyOf p = 0
    · exact proofMulti_no_proof e1 (C89_zero_poly_panics ks2 p x m hp0) k
    have hd := zk_natDegree_lt hp0
    by_cases hlen : 2 ^ m < 127 ∨ (polyOf p).natDegree + 1 < 2 ^ m + 128 ∨ 2 * ((polyOf p).natDegree + 1) ≤ 2 ^ 31 + 1 + 2 ^ m
    · have hp1 : p.length = 1 := by
        by_contra h
        exact hbad ⟨hp0, h, hlen⟩
      obtain ⟨c, rfl⟩ := List.length_eq_one_iff.1 hp1
      obtain ⟨π, e2, -⟩ := (C196_zkcrypto h2 [c] hp0 x hlen).1 (by omega)
      refine proofMulti_no_value e1 e2 (by positivity) ((zk_base chk h2).root 0 (by positivity)) ?_ k
      rw [pow_zero, mul_one]
      exact polyEval_one_panic c x hx0
    · exact proofMulti_no_proof e1 (C196_zkcrypto_panics ks2 p x hlen (by omega)) k

end

/-- Example of C168: with the setup of the test (17 points, the coset of eight from 5431) it passes for every polynomial of at most 17
coefficients but those of one. -/
example (p : List Fr) (hp : p.length ≤ 17) : ∃ ks1 ks2 : KZGSettings Fr Fr Fr,
    (proofMulti (Bench.blst toyBackend 1 1 ks1) (Bench.blst toyBackend 1 1 ks2) p 5431 8 4 = .ok () ↔ p.length ≠ 1) := by
  obtain ⟨ks1, h1⟩ := madeFrom_exists (G1 := Fr) (G2 := Fr) 1 1 4 17 (by norm_num) (by norm_num) benchSecret
  obtain ⟨ks2, h2⟩ := madeFrom_exists (G1 := Fr) (G2 := Fr) 1 1 3 17 (by norm_num) (by norm_num) benchSecret
  have h := C168_blst_exact toyBackend_lawful h1 h2 (by norm_num) p hp (by omega) 5431 (by decide +kernel)
    (Or.inr toyBackend_total.1) (by decide +kernel) 4 (by norm_num)
  refine ⟨ks1, ks2, fun e h1 => ?_, fun h1 => h.1 ⟨h1, by norm_num⟩⟩
  rw [show (8 : Nat) = 2 ^ 3 from rfl, h.2 (fun h => h.1 h1)] at e
  cases e

end Kzg.Props
