import Verif.Proofs.SizeDiv
import Verif.Proofs.KZG
import Verif.Proofs.Zk.Kzg
import Verif.Proofs.Ark.Kzg
import Verif.Proofs.Mcl.Kzg
import Verif.Props.MclInverse
/-!
# Proofs for several points without a bound on the polynomial
-/

set_option linter.unusedSectionVars false

namespace Kzg
open Res Polynomial
variable {G1 G2 GT : Type} [AddCommGroup G1] [Module Fr G1] [AddCommGroup G2] [Module Fr G2]
  [CommGroup GT] [DecidableEq GT]

theorem KZGSettings.WF.computeMulti_sized {B : Backend G1 G2 GT} {g1 : G1} {g2 : G2} (hB : B.Lawful g1 g2)
    {ks : KZGSettings Fr G1 G2} {s : Fr} {N K : Nat} (h : ks.WF g1 g2 s N K) (p : List Fr)
    (hp : p.length ≤ N) (hm : MsmOk B s p.length) (x : Fr) {m : Nat}
    (hlen : 2 ^ m < 127 ∨ p.length < 2 ^ m + 128 ∨ 2 * p.length ≤ 2 ^ 31 + 1 + 2 ^ m) :
    ks.computeProofMulti B p x (2 ^ m) =
      .ok ((polyOf p / (X ^ 2 ^ m - C (x ^ 2 ^ m))).eval s • g1) := by
  obtain ⟨d, hd, hdl, hdp, hlead⟩ := cosetDivisor_spec x (2 ^ m) (by positivity)
  have hdne : d ≠ [] := by intro h'; rw [h'] at hdl; simp at hdl
  have hl0 : d.getD (d.length - 1) 0 ≠ 0 := by rw [hlead]; exact one_ne_zero
  have hdiv : polyDiv p d = longDiv p d := (polyDiv_sized p d hl0).1 (by omega)
  obtain ⟨q, hq, hql, hqd⟩ := longDiv_spec p d hdne hl0
  obtain ⟨hnd, hd0⟩ := natDegree_of_lead hdne hl0
  have hqeq := quotient_unique hd0 (p := polyOf p) (q := polyOf q)
    (by rw [degree_eq_natDegree hd0, hnd]; exact hqd)
  have hd1 : 1 ≤ d.length := by rw [hdl]; exact Nat.le_add_left _ _
  have hql' : q.length ≤ p.length := by
    clear hlen hm
    omega
  unfold KZGSettings.computeProofMulti
  rw [isPowerOfTwo_two_pow, if_neg (by simp), hd, bind_ok, hdiv, hq, unwrap_ok, bind_ok,
    h.commit hB q (hql'.trans hp) (hm.mono hql'), unwrap_ok, hqeq, hdp]

theorem computeMulti_beyond {B : Backend G1 G2 GT} (ks : KZGSettings Fr G1 G2) (p : List Fr) (x : Fr) {m : Nat}
    (h1 : 127 ≤ 2 ^ m) (h2 : 2 ^ m + 128 ≤ p.length) (h3 : 2 ^ 31 + 1 + 2 ^ m < 2 * p.length) (h4 : p.length ≤ 2 ^ 62) :
    ks.computeProofMulti B p x (2 ^ m) = .panic := by
  obtain ⟨d, hd, hdl, hdp, hlead⟩ := cosetDivisor_spec x (2 ^ m) (by positivity)
  have hl0 : d.getD (d.length - 1) 0 ≠ 0 := by rw [hlead]; exact one_ne_zero
  unfold KZGSettings.computeProofMulti
  rw [isPowerOfTwo_two_pow, if_neg (by simp), hd, bind_ok, (polyDiv_sized p d hl0).2 (by omega) (by omega) (by omega) h4]
  rfl

end Kzg

namespace Kzg.Zk.Top
open Kzg Kzg.Res CurveConsts Polynomial ScW

theorem SetupOf.computeMulti_sized {ks : Settings} {s : ScW} {N : Nat} (h : SetupOf ks s N) (p : List ScW) (x : ScW) {m : Nat}
    (hp0 : polyOf p ≠ 0) (hN : (polyOf p).natDegree + 1 - 2 ^ m ≤ N)
    (hd : 2 ^ m < 127 ∨ (polyOf p).natDegree < 2 ^ m + 127 ∨ 2 * (polyOf p).natDegree + 1 ≤ 2 ^ 31 + 2 ^ m) :
    ∃ c, computeProofMulti ks p x (2 ^ m) = .ok c ∧ At1 c ((polyOf p / (X ^ 2 ^ m - C (x ^ 2 ^ m))).eval s) := by
  obtain ⟨d, hd1, -, hdp, -⟩ := cosetDivisor_spec x (2 ^ m) (by positivity)
  have hdeg : (polyOf d).natDegree = 2 ^ m := by rw [hdp]; exact natDegree_X_pow_sub_C
  have hd0 : polyOf d ≠ 0 := by
    rw [hdp]; exact (monic_X_pow_sub_C _ (by positivity)).ne_zero
  obtain ⟨q, hq, hq1, hq2⟩ : ∃ q, ZkP.polyDiv p d = .ok q ∧ polyOf q = polyOf p / polyOf d ∧
      q.length = (polyOf p).natDegree + 1 - (polyOf d).natDegree := by
    rw [(ZkP.polyDiv_sized p d hp0 hd0 rfl hdeg).1 hd]
    have hbn : polyNorm d ≠ [] := fun e => hd0 ((ZkP.polyNorm_nil_iff d).1 e)
    obtain ⟨q, e, e1, e2⟩ := longDiv_div (polyNorm p) (polyNorm d) hbn (ZkP.polyNorm_lead d hbn)
    refine ⟨q, e, ?_, ?_⟩
    · rw [e2, ZkP.polyOf_polyNorm, ZkP.polyOf_polyNorm]
    · rw [e1, ZkP.polyNorm_natDegree p hp0, ZkP.polyNorm_natDegree d hd0]; omega
  obtain ⟨c, hc, ha⟩ := h.commit q (by rw [hq2, hdeg]; exact hN)
  refine ⟨c, ?_, ?_⟩
  · rw [computeProofMulti, isPowerOfTwo_two_pow, if_neg (by simp), hd1, bind_ok, hq, unwrap_ok, bind_ok, hc, unwrap_ok]
  · rwa [hq1, hdp] at ha

theorem computeMulti_beyond (ks : Settings) (p : List ScW) (x : ScW) {m : Nat} (hp0 : polyOf p ≠ 0)
    (h1 : 127 ≤ 2 ^ m) (h2 : 2 ^ m + 127 ≤ (polyOf p).natDegree) (h3 : 2 ^ 31 + 2 ^ m < 2 * (polyOf p).natDegree + 1)
    (h4 : (polyOf p).natDegree < 2 ^ 62) : computeProofMulti ks p x (2 ^ m) = .panic := by
  obtain ⟨d, hd1, -, hdp, -⟩ := cosetDivisor_spec x (2 ^ m) (by positivity)
  have hdeg : (polyOf d).natDegree = 2 ^ m := by rw [hdp]; exact natDegree_X_pow_sub_C
  have hd0 : polyOf d ≠ 0 := by
    rw [hdp]; exact (monic_X_pow_sub_C _ (by positivity)).ne_zero
  rw [computeProofMulti, isPowerOfTwo_two_pow, if_neg (by simp), hd1, bind_ok,
    (ZkP.polyDiv_sized p d hp0 hd0 rfl hdeg).2 h1 h2 h3 h4]
  rfl

end Kzg.Zk.Top

namespace Kzg.Ark
open Kzg Kzg.Res Polynomial

/-- Fast division of a long quotient. -/
theorem fastDiv_long (a b : List Fr) (hb : 2 ≤ b.length) (hlead : b.getD (b.length - 1) 0 ≠ 0)
    (hlen : 2 ^ 30 < a.length + 1 - b.length) (h62 : a.length + 1 - b.length ≤ 2 ^ 62) : fastDiv a b = .panic := by
  have hbn : b ≠ [] := by rintro rfl; simp at hb
  have hb0 : b.reverse.getD 0 0 ≠ 0 := by
    rw [List.getD_eq_getElem _ _ (by simp; omega), List.getElem_reverse]
    rw [List.getD_eq_getElem _ _ (by omega)] at hlead
    simpa using hlead
  rw [fastDiv, if_neg (by simpa using hbn), subU_of_le (by omega), bind_ok, rd_getD 0 (by omega), bind_ok, if_neg hlead,
    subU_of_le (by omega), bind_ok, bind_ok, if_neg (by omega), if_neg (by omega), polyFlip_eq,
    unwrap_ok, bind_ok, polyFlip_eq, unwrap_ok, bind_ok, show a.length - 1 - (b.length - 1) + 1 = a.length + 1 - b.length by omega,
    polyInverse_long _ _ (by simpa using hb) hb0 hlen h62]
  rfl

theorem polyDiv_monic_sized (p d : List Fr) {n : Nat} (hl : d.length = n + 1) (hlead : d.getD n 0 = 1) :
    ((n < 127 ∨ p.length ≤ n + 1 ∨ p.length ≤ 2 ^ 30 + n) → ¬ ZeroPanics p n →
      ∃ q, polyDiv p d = .ok q ∧ polyOf q = polyOf p / polyOf d ∧ q.length ≤ p.length - n) ∧
    (ZeroPanics p n → polyDiv p d = .panic) ∧
    (127 ≤ n → 2 ^ 30 + n < p.length → p.length ≤ 2 ^ 62 + n → polyDiv p d = .panic) := by
  have hdn : d ≠ [] := by rintro rfl; simp at hl
  have hlead' : d.getD (d.length - 1) 0 ≠ 0 := by
    rw [hl, Nat.add_sub_cancel, hlead]; exact one_ne_zero
  have hd0 : polyOf d ≠ 0 := (natDegree_of_lead hdn hlead').2
  refine ⟨fun hlen hz => ?_, ?_, fun h1 h2 h3 => ?_⟩
  · unfold polyDiv
    split
    · obtain ⟨q, hq, hqd, hqn⟩ := longDiv_spec p d hd0
      refine ⟨q, hq, hqd, ?_⟩
      obtain ⟨q', _, hql', hqd'⟩ := longDiv_div p d hdn hlead'
      rw [eq_polyNorm (hqd.trans hqd'.symm) hqn]
      have := polyNorm_le q'
      omega
    · next hc =>
      push Not at hc
      have hpn : p ≠ [] := by rintro rfl; simp at hc
      rw [fastDiv_eq p d hpn hdn hlead' (.inr (by omega)) (by
        by_cases h0 : polyOf p = 0
        · refine .inr (.inr (.inr ?_))
          by_contra hcc
          exact hz ⟨h0, by omega, by omega, by omega⟩
        · exact .inr (.inr (.inl h0)))]
      obtain ⟨q, hq, hql, hqd⟩ := longDiv_div p d hdn hlead'
      exact ⟨q, hq, hqd, by omega⟩
  · rintro ⟨h0, h1, h2, h3⟩
    rw [polyDiv, if_neg (by omega), fastDiv_zero p d (by omega) hlead' (by omega) h0 (by omega)]
  · rw [polyDiv, if_neg (by omega), fastDiv_long p d (by omega) hlead' (by omega) (by omega)]

variable {P G1 G2 GT : Type} [AddCommGroup G1] [Module Fr G1] [AddCommGroup G2] [Module Fr G2]
  [CommGroup GT] [DecidableEq GT]

theorem KWF.computeMulti_sized {B : Backend P G1 G2 GT} {ks : Settings P G1 G2} {g1 : G1} {g2 : G2} {s : Fr} {L K : Nat}
    (h : KWF B ks g1 g2 s L K) (hL : 1 ≤ L) (p : List Fr) (x : Fr) {n : Nat} (hn : 0 < n)
    (hlen : n < 127 ∨ p.length ≤ n + 1 ∨ p.length ≤ 2 ^ 30 + n) (hp : p.length ≤ L + n) (hz : ¬ ZeroPanics p n) :
    ks.computeMulti p x n = .ok ((polyOf p / (X ^ n - C (x ^ n))).eval s • g1) := by
  obtain ⟨d, hd, hdl, hdp, hdn⟩ := divisorPoly_spec x n hn
  obtain ⟨q, hq, hqd, hql⟩ := (polyDiv_monic_sized p d hdl hdn).1 hlen hz
  unfold Settings.computeMulti
  rw [hd, bind_ok, hq, unwrap_ok, bind_ok, h.commit_ok hL q (by omega), unwrap_ok, hqd, hdp]

theorem computeMulti_panics (ks : Settings P G1 G2) (p : List Fr) (x : Fr) {n : Nat}
    (hc : ZeroPanics p n ∨ 127 ≤ n ∧ 2 ^ 30 + n < p.length ∧ p.length ≤ 2 ^ 62 + n) : ks.computeMulti p x n = .panic := by
  have hn : 0 < n := by
    rcases hc with ⟨-, h, -⟩ | ⟨h, -⟩ <;> omega
  obtain ⟨d, hd, hdl, hdp, hdn⟩ := divisorPoly_spec x n hn
  have hs := polyDiv_monic_sized p d hdl hdn
  have : polyDiv p d = .panic := by
    rcases hc with h | ⟨h1, h2, h3⟩
    · exact hs.2.1 h
    · exact hs.2.2 h1 h2 h3
  unfold Settings.computeMulti
  rw [hd, bind_ok, this]
  rfl

end Kzg.Ark

namespace Kzg.Mcl
open Kzg Kzg.Res Polynomial Kzg.Props

variable {G1 G2 GT : Type} [AddCommGroup G1] [Module Fr G1] [AddCommGroup G2] [Module Fr G2]
  [CommGroup GT] [DecidableEq GT]

/-- What `computeProofMulti` does with the quotient. -/
theorem WF.computeMulti_of [Lib Fr] {B : Backend G1 G2 GT} {g1 : G1} {g2 : G2} (hB : B.Lawful g1 g2)
    {ks : KZGSettings Fr G1 G2} {s : Fr} {N K : Nat} (h : WF ks g1 g2 s N K) (p : List Fr) (x : Fr) {m : Nat} :
    ∃ d : List Fr, polyOf d = X ^ 2 ^ m - C (x ^ 2 ^ m) ∧
      (∀ q, polyDiv p d = .ok q → computeProofMulti B ks p x (2 ^ m) =
        if q.length ≤ N then .ok ((polyOf q).eval s • g1) else .panic) ∧
      (polyDiv p d = .panic → computeProofMulti B ks p x (2 ^ m) = .panic) := by
  have hpos : 0 < 2 ^ m := by positivity
  obtain ⟨d, d', hd, hd', hdl, hdp⟩ := divisor_spec x (2 ^ m) hpos
  refine ⟨d', hdp, fun q hq => ?_, fun hq => ?_⟩
  · unfold computeProofMulti
    rw [isPowerOf2_eq (by omega), bind_ok, isPowerOfTwo_two_pow]
    simp only [Bool.not_true, Bool.false_eq_true, if_false]
    rw [frPow_eq x _ hpos, bind_ok, hd, bind_ok, ← hd', hq, unwrap_ok, bind_ok]
    split
    · rw [h.commit hB q (by omega), unwrap_ok]
    · rw [h.commit_err q (by omega)]; rfl
  · unfold computeProofMulti
    rw [isPowerOf2_eq (by omega), bind_ok, isPowerOfTwo_two_pow]
    simp only [Bool.not_true, Bool.false_eq_true, if_false]
    rw [frPow_eq x _ hpos, bind_ok, hd, bind_ok, ← hd', hq]
    rfl

theorem polyOf_map_neg (q : List Fr) : polyOf (q.map fun x => -x) = - polyOf q := by
  ext i
  rw [coeff_neg, coeff_polyOf, coeff_polyOf, List.getD_eq_getElem?_getD, List.getD_eq_getElem?_getD, List.getElem?_map]
  cases q[i]? <;> simp

end Kzg.Mcl
