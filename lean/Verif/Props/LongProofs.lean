import Verif.Proofs.SizeMulti
import Verif.Props.ZkKzg
import Verif.Props.MclKzg
import Verif.Props.ArkKzg
/-!
# Property C196: for which sizes proofs for several points can be computed

`n = 2^m` points, a polynomial of any length. Below `n = 127` every backend uses long division and there is no bound; from 128 on the
division goes through the inverse of the reversed divisor, whose products need transforms of more than `2^31` points for long
polynomials.
-/

set_option linter.unusedSectionVars false

namespace Kzg.Props
open Kzg Kzg.Res Polynomial

/-! ## blst-from-scratch -/

section
variable {G1 G2 GT : Type} [AddCommGroup G1] [Module Fr G1] [AddCommGroup G2] [Module Fr G2]
  [CommGroup GT] [DecidableEq GT]

theorem quotient_eval (p : Fr[X]) (n : Nat) (x s : Fr) : p.eval s - (p % (X ^ n - C (x ^ n))).eval s =
    (s ^ n - x ^ n) * (p / (X ^ n - C (x ^ n))).eval s := by
  have := congrArg (eval s) (EuclideanDomain.div_add_mod p (X ^ n - C (x ^ n)))
  rw [eval_add, eval_mul, eval_sub, eval_pow, eval_X, eval_C] at this
  linear_combination -this

/-- C196 (blst-from-scratch): for polynomials that fit the setup and fulfil the size condition the proof is the commitment to the
quotient, and the check accepts it with the values on the coset. -/
theorem C196_blst {B : Backend G1 G2 GT} {g1 : G1} {g2 : G2} (hB : B.Lawful g1 g2)
    {ks : KZGSettings Fr G1 G2} {N scale : Nat} {s : Fr} (h : MadeFrom ks g1 g2 N scale s) {m : Nat}
    (p : List Fr) (hp : p.length ≤ N) (x : Fr) (hinf : s ≠ 0 ∨ B.MsmTotal)
    (hlen : 2 ^ m < 127 ∨ p.length < 2 ^ m + 128 ∨ 2 * p.length ≤ 2 ^ 31 + 1 + 2 ^ m) :
    ks.computeProofMulti B p x (2 ^ m) = .ok ((polyOf p / (X ^ 2 ^ m - C (x ^ 2 ^ m))).eval s • g1) ∧
    (m ≤ scale → 2 ^ m < N → x ≠ 0 → x ^ 2 ^ m ≠ s ^ 2 ^ m ∨ B.PairTotal → ∃ com proof, ks.commitToPoly B p = .ok com ∧
      ks.computeProofMulti B p x (2 ^ m) = .ok proof ∧ ks.checkProofMulti B g2 com proof x
        ((List.range (2 ^ m)).map fun i => (polyOf p).eval (x * cosetRoot ks scale m ^ i)) (2 ^ m) = .ok true) := by
  have hi : ∀ n, s ≠ 0 ∨ n < 8 ∨ B.MsmTotal := fun n => hinf.imp id Or.inr
  have hproof := h.wf.computeMulti_sized hB p hp (hi _) x hlen
  refine ⟨hproof, fun hm hN hx0 hx => ⟨_, _, C25_commit hB h p hp (hi _), hproof, ?_⟩⟩
  obtain ⟨hr1, hr2⟩ := remainder_spec (x := x) (n := 2 ^ m) (by positivity) (cosetRoot_prim h hm).pow_eq_one (polyOf p)
  refine (C29_multi_accepts_iff hB h hm hN _ _ x hx0 _ (by simp) (hi _) hx _ hr1 ?_).2.2 ?_
  · intro i hi
    rw [List.getElem?_map, List.getElem?_range hi, Option.map_some, hr2]
  · rw [← sub_smul, smul_smul, quotient_eval]

/-- C196 (blst-from-scratch, the other sizes): otherwise the computation panics, with any settings. -/
theorem C196_blst_panics (B : Backend G1 G2 GT) (ks : KZGSettings Fr G1 G2) {m : Nat} (p : List Fr) (x : Fr)
    (hlen : ¬ (2 ^ m < 127 ∨ p.length < 2 ^ m + 128 ∨ 2 * p.length ≤ 2 ^ 31 + 1 + 2 ^ m)) (hp : p.length ≤ 2 ^ 62) :
    ks.computeProofMulti B p x (2 ^ m) = .panic := by
  push Not at hlen
  exact computeMulti_beyond ks p x hlen.1 hlen.2.1 (by omega) hp

/-- C196 (single proofs): one point, any polynomial that fits the setup. -/
theorem C196_blst_single {B : Backend G1 G2 GT} {g1 : G1} {g2 : G2} (hB : B.Lawful g1 g2)
    {ks : KZGSettings Fr G1 G2} {N scale : Nat} {s : Fr} (h : MadeFrom ks g1 g2 N scale s)
    (p : List Fr) (hp : p.length ≤ N) (x : Fr) (hinf : s ≠ 0 ∨ B.MsmTotal) :
    ks.computeProofSingle B p x = .ok ((polyOf p / (X - C x)).eval s • g1) := by
  have := (C196_blst hB h (m := 0) p hp x hinf (.inl (by norm_num))).1
  rw [pow_zero, pow_one, pow_one] at this
  exact this

/-- C196 (why): `log2_pow2` looks at 32 bits and gives 0 for the larger powers of two, so the settings for the products get one point. -/
theorem C196_log2_pow2 (k : Nat) (h1 : 32 ≤ k) (h2 : k < 64) : log2Pow2 (2 ^ k) = 0 := log2Pow2_large k h2 h1

/-- Example of C196: with 128 points the largest lengths are `2^30 + 64`, and with `2^20` points `2^30 + 2^19`. -/
example (l : Nat) : ((l < 2 ^ 7 + 128 ∨ 2 * l ≤ 2 ^ 31 + 1 + 2 ^ 7) ↔ l ≤ 2 ^ 30 + 64) ∧
    ((l < 2 ^ 20 + 128 ∨ 2 * l ≤ 2 ^ 31 + 1 + 2 ^ 20) ↔ l ≤ 2 ^ 30 + 2 ^ 19) := by omega

end

/-! ## zkcrypto -/

section
open Kzg.Zk Kzg.Zk.Top CurveConsts ScW

/-- C196 (zkcrypto): as in blst-from-scratch, with the degree of the polynomial in the place of its length. -/
theorem C196_zkcrypto {chk : Bool} {ks : Settings} {N scale : Nat} {s : ScW} (h : ZkMadeFrom chk ks N scale s) {m : Nat}
    (p : List ScW) (hp0 : polyOf p ≠ 0) (x : ScW)
    (hlen : 2 ^ m < 127 ∨ (polyOf p).natDegree + 1 < 2 ^ m + 128 ∨ 2 * ((polyOf p).natDegree + 1) ≤ 2 ^ 31 + 1 + 2 ^ m) :
    ((polyOf p).natDegree + 1 ≤ N + 2 ^ m → ∃ proof, computeProofMulti ks p x (2 ^ m) = .ok proof ∧
      At1 proof ((polyOf p / (X ^ 2 ^ m - C (x ^ 2 ^ m))).eval s)) ∧
    (p.length ≤ N → m ≤ scale → 2 ^ m < N → x ≠ 0 → ∃ com proof, commitToPoly ks p = .ok com ∧
      computeProofMulti ks p x (2 ^ m) = .ok proof ∧ checkProofMulti ks com proof x
        ((List.range (2 ^ m)).map fun i => (polyOf p).eval (x * zkCosetRoot ks scale m ^ i)) (2 ^ m) = .ok true) := by
  have hproof := fun hN => h.setup.1.computeMulti_sized p x (m := m) hp0 hN (by omega)
  refine ⟨fun hN => hproof (by omega), fun hp hm hN hx0 => ?_⟩
  have hd := zk_natDegree_lt hp0
  obtain ⟨proof, e', hq⟩ := hproof (le_trans (Nat.sub_le _ _) (by omega))
  obtain ⟨com, e, hc⟩ := C87_commit h p hp
  obtain ⟨hr1, hr2⟩ := zk_remainder (x := x) (n := 2 ^ m) (by positivity) (zkCosetRoot_prim h hm).pow_eq_one (polyOf p)
  refine ⟨com, proof, e, e', ?_⟩
  rw [C89_accepts_iff h hm hN hc hq x hx0 _ (by simp) _ hr1 (by
    intro i hi
    rw [List.getElem?_map, List.getElem?_range hi, Option.map_some, hr2])]
  have := congrArg (eval s) (EuclideanDomain.div_add_mod (polyOf p) (X ^ 2 ^ m - C (x ^ 2 ^ m)))
  rw [eval_add, eval_mul, eval_sub, eval_pow, eval_X, eval_C] at this
  congr 1
  rw [decide_eq_true_iff]
  linear_combination -this

/-- C196 (zkcrypto, the other sizes): otherwise the computation panics, with any settings. -/
theorem C196_zkcrypto_panics (ks : Settings) {m : Nat} (p : List ScW) (x : ScW)
    (hlen : ¬ (2 ^ m < 127 ∨ (polyOf p).natDegree + 1 < 2 ^ m + 128 ∨ 2 * ((polyOf p).natDegree + 1) ≤ 2 ^ 31 + 1 + 2 ^ m))
    (hp : (polyOf p).natDegree < 2 ^ 62) : computeProofMulti ks p x (2 ^ m) = .panic := by
  push Not at hlen
  refine Top.computeMulti_beyond ks p x ?_ hlen.1 (by omega) (by omega) hp
  intro h0
  rw [h0] at hlen
  simp at hlen

/-- Example of C196: zeros on top count for nothing. -/
example : (polyOf [(1 : ScW), 0, 0]).natDegree + 1 = 1 := by
  have : polyOf [(1 : ScW), 0, 0] = 1 := by
    simp [polyOf, Finset.sum_range_succ]
  rw [this, natDegree_one]

end

/-! ## Arkworks -/

section
variable {P G1 G2 GT : Type} [AddCommGroup G1] [Module Fr G1] [AddCommGroup G2] [Module Fr G2]
  [CommGroup GT] [DecidableEq GT]

/-- C196 (Arkworks): any number of points; the bound is on the quotient. -/
theorem C196_arkworks {B : Ark.Backend P G1 G2 GT} {g1 : G1} {g2 : G2} (hB : B.Lawful g1 g2)
    {ks : Ark.Settings P G1 G2} {L scale : Nat} {s : Fr} (h : ArkMade B ks g1 g2 L scale s) (hL : 1 ≤ L) {n : Nat} (hn : 0 < n)
    (p : List Fr) (x : Fr) (hz : polyOf p = 0 → n < 127 ∨ p.length ≤ n + 1 ∨ n + 128 ≤ p.length)
    (hlen : n < 127 ∨ p.length ≤ 2 ^ 30 + n) :
    (p.length ≤ L + n → ks.computeMulti p x n = .ok ((polyOf p / (X ^ n - C (x ^ n))).eval s • g1)) ∧
    (∀ m, n = 2 ^ m → p.length ≤ L → m ≤ scale → n ≤ L → x ≠ 0 → ∃ com proof, ks.commit p = .ok com ∧
      ks.computeMulti p x n = .ok proof ∧ ks.checkMulti B com proof x
        ((List.range n).map fun i => (polyOf p).eval (x * domainRoot ks.fs scale m ^ i)) n = .ok true) := by
  have hz' : ¬ Ark.ZeroPanics p n := by
    rintro ⟨h0, h1, h2, h3⟩
    have := hz h0
    omega
  have hproof := fun hp => (h.wf hB).computeMulti_sized hL p x hn (by omega) hp hz'
  refine ⟨hproof, ?_⟩
  rintro m rfl hp hm hN hx0
  refine ⟨_, _, (C127_commit hB h p).1 (by omega) hp, hproof (by omega), ?_⟩
  obtain ⟨hr1, hr2⟩ := remainder_spec (x := x) (n := 2 ^ m) (by positivity) (ark_root_prim hB h hm).pow_eq_one (polyOf p)
  refine (C128_multi_accepts_iff hB h hm hN _ _ x hx0 _ (by simp) _ hr1 ?_).2.2 ?_
  · intro i hi
    rw [List.getElem?_map, List.getElem?_range hi, Option.map_some, hr2]
  · rw [← sub_smul, smul_smul, quotient_eval]

/-- C196 (Arkworks, the other inputs): otherwise the computation panics, with any settings. -/
theorem C196_arkworks_panics (ks : Ark.Settings P G1 G2) {n : Nat} (p : List Fr) (x : Fr) (h1 : 127 ≤ n)
    (hc : (polyOf p = 0 ∧ n + 1 < p.length ∧ p.length < n + 128) ∨ 2 ^ 30 + n < p.length) (hp : p.length ≤ 2 ^ 62) :
    ks.computeMulti p x n = .panic := by
  refine Ark.computeMulti_panics ks p x ?_
  rcases hc with ⟨h0, h2, h3⟩ | h2
  · exact .inl ⟨h0, h1, h2, h3⟩
  · exact .inr ⟨h1, h2, by omega⟩

/-- Example of C196: with 200 points the largest length is `2^30 + 200`. -/
example (l : Nat) : (200 < 127 ∨ l ≤ 2 ^ 30 + 200) ↔ l ≤ 1073742024 := by omega

end

/-! ## mcl-kzg -/

section
variable {G1 G2 GT : Type} [AddCommGroup G1] [Module Fr G1] [AddCommGroup G2] [Module Fr G2]
  [CommGroup GT] [DecidableEq GT]

/-- Long division is used for few points and polynomials that are short without their zeros. -/
def MclLong (p : List Fr) (n : Nat) : Prop := n < 127 ∨ polyOf p = 0 ∨ (polyOf p).natDegree ≤ n

/-- C196 (mcl-kzg): what the computation returns for all sizes, with `k` the length of the quotient: a panic if the setup has fewer than
`k` points; the right proof with long division, or up to `2^29`; its negative, the right one or one for other coefficients up to `2^30`;
a panic beyond. -/
theorem C196_mcl [Mcl.Lib Fr] {B : Mcl.Backend G1 G2 GT} {g1 : G1} {g2 : G2} (hB : B.Lawful g1 g2)
    {ks : KZGSettings Fr G1 G2} {N scale : Nat} {s : Fr} (h : MclMade ks g1 g2 N scale s) {m : Nat} (p : List Fr) (x : Fr)
    (k : Nat) (hk : k = p.length - 2 ^ m) (h62 : k ≤ 2 ^ 62) (q : Fr) (hq : q = (polyOf p / (X ^ 2 ^ m - C (x ^ 2 ^ m))).eval s) :
    (N < k → Mcl.computeProofMulti B ks p x (2 ^ m) = .panic) ∧
    (k ≤ N → MclLong p (2 ^ m) ∨ k ≤ 2 ^ 29 → Mcl.computeProofMulti B ks p x (2 ^ m) = .ok (q • g1)) ∧
    (k ≤ N → ¬ MclLong p (2 ^ m) → 2 ^ 29 < k → k ≤ 2 ^ 30 →
      (min k (2 ^ m + 1 + (k - 1) / 2) + (k - 1) / 2 ≤ 2 ^ 30 → Mcl.computeProofMulti B ks p x (2 ^ m) = .ok (-(q • g1))) ∧
      (2 ^ 30 < min k (2 ^ m + 1 + (k - 1) / 2) + (k - 1) / 2 → min (2 ^ m + 1) k + (k - 1) / 2 ≤ 2 ^ 30 →
        Mcl.computeProofMulti B ks p x (2 ^ m) = .ok (q • g1)) ∧
      (2 ^ 30 < min (2 ^ m + 1) k + (k - 1) / 2 → ∃ r : List Fr,
        Mcl.computeProofMulti B ks p x (2 ^ m) = .ok ((polyOf r).eval s • g1) ∧ r.length = k ∧
        ∀ i, i ≤ (k - 1) / 2 → (polyOf r).coeff (k - 1 - i) = 3 * (polyOf p / (X ^ 2 ^ m - C (x ^ 2 ^ m))).coeff (k - 1 - i))) ∧
    (¬ MclLong p (2 ^ m) → 2 ^ 30 < k → Mcl.computeProofMulti B ks p x (2 ^ m) = .panic) := by
  have hpos : 0 < 2 ^ m := by positivity
  obtain ⟨d, hdp, hok, hpan⟩ := h.wf.computeMulti_of hB p x (m := m)
  have hdeg : (polyOf d).natDegree = 2 ^ m := by rw [hdp]; exact natDegree_X_pow_sub_C
  have hd0 : polyOf d ≠ 0 := by rw [hdp]; exact X_pow_sub_C_ne_zero hpos _
  obtain ⟨b, hb, hbl, hlead, hch⟩ := C100_div_choice p d hd0
  rw [hdeg] at hbl hch
  have hbn : b ≠ [] := by rintro rfl; simp at hbl
  have hkb : k = p.length + 1 - b.length := by omega
  obtain ⟨ql, hl1, hl2, hl3, -⟩ := C100_long_division p b hbn hlead
  rw [← hkb] at hl2
  rw [hb, hdp] at hl3
  have hqe : (polyOf ql).eval s = q := by rw [hl3, hq]
  -- the cases of the division
  have hlong : MclLong p (2 ^ m) ∨ k ≤ 2 ^ 29 → Mcl.polyDiv p d = .ok ql := by
    intro hc
    rw [hch]
    split
    · exact hl1
    · next hn =>
      rw [C100_fast_div_partial p b hbn hlead (.inr ?_), hl1]
      rcases hc with (hc | hc | hc) | hc
      · exact absurd (Or.inl (by omega)) hn
      · exact absurd (Or.inr (Or.inl hc)) hn
      · exact absurd (Or.inr (Or.inr hc)) hn
      · omega
  have hfast : ¬ MclLong p (2 ^ m) → Mcl.polyDiv p d = Mcl.fastDiv p b := by
    intro hc
    rw [hch, if_neg]
    rintro (h1 | h1 | h1)
    · exact hc (.inl (by omega))
    · exact hc (.inr (.inl h1))
    · exact hc (.inr (.inr h1))
  have hpanic : ¬ MclLong p (2 ^ m) → 2 ^ 30 < k → Mcl.computeProofMulti B ks p x (2 ^ m) = .panic := by
    intro hc h30
    refine hpan ?_
    rw [hfast hc, C100_fast_div_panics p b (by omega) hlead (by omega) (by omega)]
  refine ⟨fun hN => ?_, fun hN hc => ?_, fun hN hc h1 h2 => ?_, hpanic⟩
  · by_cases hc : MclLong p (2 ^ m) ∨ k ≤ 2 ^ 29
    · rw [hok _ (hlong hc), if_neg (by omega)]
    · push Not at hc
      by_cases h30 : k ≤ 2 ^ 30
      · obtain ⟨_, r, _, _, hr, hrl, _⟩ := C100_fast_div_long p b (by omega) hlead k hkb hc.2 h30
        rw [hok r (by rw [hfast hc.1, hr]), if_neg (by omega)]
      · exact hpanic hc.1 (by omega)
  · rw [hok _ (hlong hc), if_pos (by omega), hqe]
  · obtain ⟨q', r, hq', _, hr, hrl, c1, c2, c3⟩ := C100_fast_div_long p b (by omega) hlead k hkb h1 h2
    have : q' = ql := by rw [hl1] at hq'; exact (Res.ok.inj hq').symm
    subst this
    rw [hok r (by rw [hfast hc, hr]), if_pos (by omega)]
    rw [hbl] at c1 c2 c3
    have hn : 127 ≤ 2 ^ m := not_lt.1 fun h => hc (.inl h)
    refine ⟨fun e => ?_, fun e e' => ?_, fun e => ⟨r, rfl, hrl, fun i hi => ?_⟩⟩
    · rw [c1 e, Mcl.polyOf_map_neg, eval_neg, hqe, neg_smul]
    · rw [c2 e (.inr e'), hqe]
    · rw [← hl3, coeff_polyOf, coeff_polyOf]
      exact c3 (by omega) e i hi

/-- C196 (mcl-kzg, negated proofs): for the sizes in which the proof is negated, the check refuses it for the values of the polynomial,
unless it is the zero of the group or the point belongs to the coset of the secret. -/
theorem C196_mcl_negated_refused [Mcl.Lib Fr] {B : Mcl.Backend G1 G2 GT} {g1 : G1} {g2 : G2} (hB : B.Lawful g1 g2)
    {ks : KZGSettings Fr G1 G2} {N scale : Nat} {s : Fr} (h : MclMade ks g1 g2 N scale s) {m : Nat} (hm : m ≤ scale) (h30 : m ≤ 30)
    (hN : 2 ^ m < N) (p : List Fr) (hp : p.length ≤ N) (x : Fr) (hx0 : x ≠ 0) (hc : ¬ MclLong p (2 ^ m))
    (h1 : 2 ^ 29 < p.length - 2 ^ m)
    (h2 : p.length - 2 ^ m + (p.length - 2 ^ m) / 2 ≤ 2 ^ 30) :
    ∃ com proof b, Mcl.commit B ks.secretG1 p = .ok com ∧ Mcl.computeProofMulti B ks p x (2 ^ m) = .ok proof ∧
      Mcl.checkProofMulti B g2 ks com proof x
        ((List.range (2 ^ m)).map fun i => (polyOf p).eval (x * cosetRoot ks scale m ^ i)) (2 ^ m) = .ok b ∧
      (b = true ↔ (polyOf p / (X ^ 2 ^ m - C (x ^ 2 ^ m))).eval s = 0 ∨ s ^ 2 ^ m = x ^ 2 ^ m) := by
  have hpr := ((C196_mcl hB h (m := m) p x _ rfl (by omega) _ rfl).2.2.1 (le_trans (Nat.sub_le _ _) hp) hc h1
    (by omega)).1 (le_trans (Nat.add_le_add_right (min_le_left _ _) _) (by omega))
  obtain ⟨hr1, hr2⟩ := remainder_spec (x := x) (n := 2 ^ m) (by positivity) (mcl_root_prim h hm).pow_eq_one (polyOf p)
  have hacc := C109_multi_accepts_iff hB h hm h30 hN ((polyOf p).eval s • g1)
    (-((polyOf p / (X ^ 2 ^ m - C (x ^ 2 ^ m))).eval s • g1)) x hx0
    ((List.range (2 ^ m)).map fun i => (polyOf p).eval (x * cosetRoot ks scale m ^ i)) (by simp) _ hr1 (by
      intro i hi
      rw [List.getElem?_map, List.getElem?_range hi, Option.map_some, hr2])
  have hiff : (polyOf p).eval s • g1 - (polyOf p % (X ^ 2 ^ m - C (x ^ 2 ^ m))).eval s • g1 =
      (s ^ 2 ^ m - x ^ 2 ^ m) • -((polyOf p / (X ^ 2 ^ m - C (x ^ 2 ^ m))).eval s • g1) ↔
      (polyOf p / (X ^ 2 ^ m - C (x ^ 2 ^ m))).eval s = 0 ∨ s ^ 2 ^ m = x ^ 2 ^ m := by
    rw [← sub_smul, quotient_eval, ← neg_smul, smul_smul, smul_inj' hB.ne]
    have h2 : (2 : Fr) ≠ 0 := two_ne_zero_fr
    constructor
    · intro e
      have : 2 * ((s ^ 2 ^ m - x ^ 2 ^ m) * (polyOf p / (X ^ 2 ^ m - C (x ^ 2 ^ m))).eval s) = 0 := by linear_combination e
      rcases mul_eq_zero.1 this with e | e
      · exact absurd e h2
      · rcases mul_eq_zero.1 e with e | e
        · exact .inr (sub_eq_zero.1 e)
        · exact .inl e
    · rintro (e | e)
      · rw [e]; ring
      · rw [e]; ring
  rw [hiff] at hacc
  rcases hacc with ⟨e | e, e'⟩
  · exact ⟨_, _, true, (C108_commit hB h p).1 hp, hpr, e, ⟨fun _ => e'.1 e, fun _ => rfl⟩⟩
  · refine ⟨_, _, false, (C108_commit hB h p).1 hp, hpr, e, ?_⟩
    rw [e] at e'
    simp only [Res.ok.injEq] at e'
    exact e'

/-- Example of C196: with 128 points the proofs are negated from a quotient of `2^29 + 1` to one of `2^30 - 128` coefficients. -/
example (k : Nat) (h1 : 2 ^ 29 < k) (h2 : k ≤ 2 ^ 30) :
    min k (2 ^ 7 + 1 + (k - 1) / 2) + (k - 1) / 2 ≤ 2 ^ 30 ↔ k ≤ 2 ^ 30 - 128 := by omega

end
end Kzg.Props
