import Mathlib.Data.List.TakeWhile
import Verif.Model.Ark.Kzg
import Verif.Proofs.Ark.Poly
import Verif.Proofs.KZG
import Verif.Proofs.FK20
/-!
# Setup, settings, commitments and proofs of the Arkworks backend: proofs
-/

set_option linter.unusedSectionVars false

namespace Kzg.Ark
open Kzg Kzg.Res Polynomial Finset

variable {P G1 G2 GT : Type} [AddCommGroup G1] [Module Fr G1] [AddCommGroup G2] [Module Fr G2]
  [CommGroup GT] [DecidableEq GT]

/-- What is assumed of the groups and the library: G1 is generated by `g1 ≠ 0`; a multiple of the generator has its
value, all multiples of the point at infinity are stored alike and have value zero; a coordinate has six words; the
pairing is bilinear and non-degenerate on the generated groups (`E` is its exponential). -/
structure Backend.Lawful (B : Backend P G1 G2 GT) (g1 : G1) (g2 : G2) : Prop where
  ne : g1 ≠ 0
  gen : ∀ Q : G1, ∃ a : Fr, Q = a • g1
  mulGen : ∀ c, B.val (B.mulGen c) = c • g1
  mulInf : ∀ c, B.mulInf c = B.mulInf 0
  inf : B.val (B.mulInf 0) = 0
  limbs : ∀ p, (B.xLimbs p).length = 6
  pair : ∃ E : Fr → GT, (∀ a b, E (a + b) = E a * E b) ∧ (∀ a, E a = 1 ↔ a = 0) ∧
    ∀ a b, B.pairing (a • g1) (b • g2) = E (a * b)

/-! ### Setup -/

theorem copyLoop_ok {α β : Type} (f : α → β) (v : List α) {n : Nat} (h : n ≤ v.length) :
    copyLoop f v n = .ok ((v.take n).map f) := by
  obtain ⟨r, hr, hi⟩ := forRange_inv (lo := 0) (hi := n) (s := ([] : List β))
    (body := fun i acc => do
      let x ← rd v i
      .ok (acc ++ [f x]))
    (fun i acc => acc = (v.take i).map f) (Nat.zero_le _) (by simp) (by
      intro i s _ hi hs
      rw [rd_of_lt (by omega), bind_ok]
      refine Sat.ok ?_
      rw [hs, ← List.take_append_getElem (by omega : i < v.length), List.map_append]
      rfl)
  unfold copyLoop
  rw [hr, hi]

theorem setupTest_eq (B : Backend P G1 G2 GT) (g2 : G2) (n : Nat) (s : Fr) :
    generateTrustedSetupTest B g2 n s =
      .ok ((List.range n).map fun i => B.mulGen (s ^ i), (List.range n).map fun i => s ^ i • g2) := by
  obtain ⟨r, hr, h⟩ := forRange_inv (lo := 0) (hi := n) (s := (([] : List P), ([] : List G2), (1 : Fr)))
    (body := fun _ st => .ok (st.1 ++ [B.mulGen st.2.2], st.2.1 ++ [st.2.2 • g2], st.2.2 * s))
    (fun i st => st = ((List.range i).map fun i => B.mulGen (s ^ i), (List.range i).map fun i => s ^ i • g2, s ^ i))
    (Nat.zero_le _) (by simp) (by
      intro i st _ _ hs
      refine Sat.ok ?_
      rw [hs]
      simp only [List.range_succ, List.map_append, List.map_singleton, pow_succ])
  unfold generateTrustedSetupTest
  rw [hr, bind_ok, h]

theorem trustedSetup_eq {B : Backend P G1 G2 GT} {g1 : G1} {g2 : G2} (hB : B.Lawful g1 g2) (n : Nat)
    (secret : List Nat) : generateTrustedSetup B n secret = (do
      let _ ← secretScalar secret
      .ok (List.replicate n (B.mulInf 0), List.replicate n (0 : G2))) := by
  unfold generateTrustedSetup
  congr 1
  funext s
  obtain ⟨r, hr, h1, h2⟩ := forRange_inv (lo := 0) (hi := n) (s := (([] : List P), ([] : List G2), (1 : Fr)))
    (body := fun _ st => .ok (st.1 ++ [B.mulInf st.2.2], st.2.1 ++ [st.2.2 • (0 : G2)], st.2.2 * s))
    (fun i st => st.1 = List.replicate i (B.mulInf 0) ∧ st.2.1 = List.replicate i 0)
    (Nat.zero_le _) (by simp) (by
      rintro i ⟨a, b, w⟩ _ _ ⟨ha, hb⟩
      simp only at ha hb
      refine Sat.ok ⟨?_, ?_⟩
      · simp only; rw [ha, hB.mulInf w, List.replicate_succ']
      · simp only; rw [hb, smul_zero, List.replicate_succ'])
  rw [hr, bind_ok, ← h1, ← h2]

theorem setup_eq (B : Backend P G1 G2 GT) (g1 : G1) (g2 : G2) {n : Nat} (hn : 1 ≤ n) (r : Fr × G1) :
    setup B g1 g2 n r = .ok (⟨(List.range (n + 1)).map fun i => r.1 ^ i • g1,
      ((List.range (n + 1)).map fun i => r.1 ^ i • r.2) ++ [(r.1 * ((2 ^ 256 : Nat) : Fr)) • r.1 ^ n • r.2],
      g2, r.1 • g2⟩, (List.range n).map fun i => B.mulGen (r.1 ^ i), (List.range n).map fun i => r.1 ^ i • g2) := by
  obtain ⟨q, hq, h⟩ := forRange_inv (lo := 0) (hi := n) (s := ([(1 : Fr)], r.1))
    (body := fun _ s => .ok (s.1 ++ [s.2], s.2 * r.1))
    (fun i st => st = ((List.range (i + 1)).map fun i => r.1 ^ i, r.1 ^ (i + 1)))
    (Nat.zero_le _) (by simp) (by
      intro i st _ _ hs
      refine Sat.ok ?_
      rw [hs]
      simp only [List.range_succ (n := i + 1), List.map_append, List.map_singleton, pow_succ])
  unfold setup
  rw [if_neg (by omega)]
  simp only
  rw [hq, bind_ok, h]
  simp only [List.length_map, List.length_range, List.map_map]
  rw [subU_of_le (by omega), bind_ok, rd_getD 0 (by simp), bind_ok, setupTest_eq, bind_ok]
  simp only [Nat.add_sub_cancel]
  rw [show (fun x => x • r.2) ∘ (fun i => r.1 ^ i) = fun i => r.1 ^ i • r.2 from rfl, getD_range_map,
    if_pos (by omega)]
  rfl

theorem rngSeed_eq {B : Backend P G1 G2 GT} {g1 : G1} {g2 : G2} (hB : B.Lawful g1 g2) {v : List P} (hv : v ≠ []) :
    rngSeed B v = .ok (((B.xLimbs (v.getLast hv)).flatMap toBe64).take 32) := by
  have hl : 0 < v.length := List.length_pos_iff.mpr hv
  have h6 := hB.limbs (v.getLast hv)
  unfold rngSeed
  rw [subU_of_le (by omega), bind_ok, rd_of_lt (by omega), bind_ok, ← List.getLast_eq_getElem hv]
  simp only
  rw [sliceTo, if_pos]
  have : ∀ l : List Nat, (l.flatMap toBe64).length = 8 * l.length := by
    intro l
    induction l with
    | nil => rfl
    | cons a l ih =>
      rw [List.flatMap_cons, List.length_append, ih, List.length_cons]
      simp [toBe64]; omega
  rw [this, h6]; omega

theorem rngSeed_nil (B : Backend P G1 G2 GT) : rngSeed B [] = .panic := rfl

/-- The draw that the settings are made from. -/
def drawn (B : Backend P G1 G2 GT) (last : P) : Fr × G1 := B.rng (((B.xLimbs last).flatMap toBe64).take 32)

theorem new_eq {B : Backend P G1 G2 GT} {g1 : G1} {g2 : G2} (hB : B.Lawful g1 g2) {v : List P} (hv : v ≠ [])
    (w : List G2) (L : Nat) (fs : FFTSettings Fr) :
    newSettings B g1 g2 v w L fs = .ok
      { fs := fs
        secretG1 := (List.range (L + 1)).map fun i => B.mulGen ((drawn B (v.getLast hv)).1 ^ i)
        secretG2 := (List.range (L + 1)).map fun i => (drawn B (v.getLast hv)).1 ^ i • g2
        length := L + 1
        params := ⟨(List.range (L + 1)).map fun i => (drawn B (v.getLast hv)).1 ^ i • g1,
          ((List.range (L + 2)).map fun i => (drawn B (v.getLast hv)).1 ^ i • (drawn B (v.getLast hv)).2) ++
            [((drawn B (v.getLast hv)).1 * ((2 ^ 256 : Nat) : Fr)) •
              (drawn B (v.getLast hv)).1 ^ (L + 1) • (drawn B (v.getLast hv)).2], g2,
          (drawn B (v.getLast hv)).1 • g2⟩ } := by
  unfold newSettings
  simp only
  rw [rngSeed_eq hB hv, bind_ok, ← drawn, setup_eq B g1 g2 (by omega), unwrap_ok, bind_ok]
  simp only
  rw [copyLoop_ok _ _ (by simp), bind_ok, copyLoop_ok _ _ (by simp), bind_ok, copyLoop_ok _ _ (by simp), bind_ok,
    settingsClone_eq, bind_ok]
  have e : ∀ {α : Type} (f : Nat → α) (n : Nat), ((List.range n).map f).take n = (List.range n).map f :=
    fun f n => List.take_of_length_le (by simp)
  rw [e, e, List.map_id, List.map_id, List.map_map]
  have : B.val ∘ (fun i => B.mulGen ((drawn B (v.getLast hv)).1 ^ i)) =
      fun i => (drawn B (v.getLast hv)).1 ^ i • g1 := by
    funext i; exact hB.mulGen _
  rw [this]

theorem new_nil (B : Backend P G1 G2 GT) (g1 : G1) (g2 : G2) (w : List G2) (L : Nat) (fs : FFTSettings Fr) :
    newSettings B g1 g2 [] w L fs = .panic := by
  unfold newSettings
  simp only
  rw [rngSeed_nil, bind_panic]

/-- Settings made with length `L`, the drawn scalar being `s`. -/
structure KWF (B : Backend P G1 G2 GT) (ks : Settings P G1 G2) (g1 : G1) (g2 : G2) (s : Fr) (L K : Nat) : Prop where
  fs : Made ks.fs K
  s1 : ks.secretG1 = (List.range (L + 1)).map fun i => B.mulGen (s ^ i)
  s2 : ks.secretG2 = (List.range (L + 1)).map fun i => s ^ i • g2
  len : ks.length = L + 1
  pw : ks.params.powersOfG = (List.range (L + 1)).map fun i => s ^ i • g1
  gam : ks.params.powersOfGammaG.length = L + 3
  h : ks.params.h = g2
  bh : ks.params.betaH = s • g2

theorem kwf_of_new {B : Backend P G1 G2 GT} {g1 : G1} {g2 : G2} (hB : B.Lawful g1 g2) {v : List P} (hv : v ≠ [])
    (w : List G2) {L K : Nat} {fs : FFTSettings Fr} (hfs : Made fs K) {ks : Settings P G1 G2}
    (h : newSettings B g1 g2 v w L fs = .ok ks) : KWF B ks g1 g2 (drawn B (v.getLast hv)).1 L K := by
  rw [new_eq hB hv] at h
  obtain rfl := Res.ok.inj h
  exact ⟨hfs, rfl, rfl, rfl, rfl, by simp, rfl, rfl⟩

/-! ### Commitments and single proofs -/

/-- The number of powers kept by `trim`. -/
def kept (L : Nat) : Nat := if L = 2 then 3 else L

theorem le_kept (L : Nat) : L ≤ kept L := by unfold kept; split <;> omega
theorem kept_le {L : Nat} : kept L ≤ L + 1 := by unfold kept; split <;> omega

section
variable {B : Backend P G1 G2 GT} {ks : Settings P G1 G2} {g1 : G1} {g2 : G2} {s : Fr} {L K : Nat}

theorem KWF.trimmed (h : KWF B ks g1 g2 s L K) (hL : 1 ≤ L) :
    ∃ gam γ, ks.trimmed = .ok ((List.range (kept L)).map fun i => s ^ i • g1, gam, ⟨g1, γ, g2, s • g2⟩) := by
  unfold Settings.trimmed
  rw [h.pw, List.length_map, List.length_range, subU_of_le (by omega), bind_ok, subU_of_le (by omega), bind_ok]
  have hk : (if L + 1 - 1 - 1 = 1 then L + 1 - 1 - 1 + 1 else L + 1 - 1 - 1) + 1 = kept L := by
    unfold kept; split <;> split <;> omega
  have hkl : kept L ≤ L + 1 := kept_le
  unfold trim
  simp only
  rw [hk, h.pw, sliceTo, if_pos (by simpa using hkl), bind_ok, copyLoop_ok _ _ (by rw [h.gam]; omega), bind_ok,
    rd_getD 0 (by simp), bind_ok, rd_getD 0 (by rw [h.gam]; omega), bind_ok, unwrap_ok, getD_range_map,
    if_pos (by omega), pow_zero, one_smul, ← List.map_take, List.take_range, min_eq_left hkl, h.h, h.bh]
  exact ⟨_, _, rfl⟩

theorem KWF.trimmed_zero (h : KWF B ks g1 g2 s 0 K) : ks.trimmed = .panic := by
  unfold Settings.trimmed
  rw [h.pw]
  rfl

theorem polyNorm_le (p : List Fr) : (polyNorm p).length ≤ p.length := by
  rw [ZkP.polyNorm_length]; exact ZkP.polyNormLen_le p _

theorem msmPowers_spec (s : Fr) (g : G1) (T : Nat) (p : List Fr) (hp : p.length ≤ T) :
    msmPowers ((List.range T).map fun i => s ^ i • g) p = .ok ((polyOf p).eval s • g) := by
  set k := (p.takeWhile fun c => decide (c = 0)).length with hk
  have hkl : k ≤ p.length := (List.takeWhile_prefix _).length_le
  have htake : p.take k = List.replicate k 0 := by
    rw [List.eq_replicate_iff]
    refine ⟨by simp; omega, fun b hb => ?_⟩
    have e : p.take k = p.takeWhile fun c => decide (c = 0) := by
      rw [hk]; exact (List.prefix_iff_eq_take.mp (List.takeWhile_prefix _)).symm
    rw [e] at hb
    simpa using List.mem_takeWhile_imp hb
  unfold msmPowers skipLeadingZeros
  simp only
  rw [← hk, sliceFrom, if_pos (by simp; omega), bind_ok]
  congr 1
  rw [← zipWith_sum]
  have e1 : List.zipWith (fun Q (c : Fr) => c • Q) ((List.range p.length).map fun i => s ^ i • g) p =
      List.zipWith (fun Q c => c • Q) ((List.range T).map fun i => s ^ i • g) p := by
    apply List.ext_getElem?
    intro i
    rw [List.getElem?_zipWith, List.getElem?_zipWith]
    by_cases hi : i < p.length
    · rw [List.getElem?_map, List.getElem?_map, List.getElem?_range hi, List.getElem?_range (by omega)]
    · rw [List.getElem?_eq_none (l := p) (by omega)]
      split <;> split <;> simp_all
  rw [e1]
  generalize (List.range T).map (fun i => s ^ i • g) = v
  have e2 : List.zipWith (fun Q (c : Fr) => c • Q) v p =
      List.zipWith (fun Q c => c • Q) (v.take k) (p.take k) ++ List.zipWith (fun Q c => c • Q) (v.drop k) (p.drop k) := by
    rw [← List.take_zipWith, ← List.drop_zipWith, List.take_append_drop]
  rw [e2, List.sum_append, htake]
  have : ∀ (l : List G1) (n : Nat), (List.zipWith (fun Q (c : Fr) => c • Q) l (List.replicate n 0)).sum = 0 := by
    intro l
    induction l with
    | nil => intro n; rfl
    | cons a l ih =>
      intro n
      cases n with
      | zero => rfl
      | succ n => rw [List.replicate_succ, List.zipWith_cons_cons, List.sum_cons, ih, zero_smul, add_zero]
  rw [this, zero_add]

theorem checkDegree_ok {p : List Fr} {T : Nat} (hT : 1 ≤ T) (h : p.length ≤ T) : checkDegree (degree p) T = .ok () := by
  unfold checkDegree degree
  rw [if_neg]
  split
  · omega
  · next hp => have := List.length_pos_iff.mpr hp; omega

theorem checkDegree_err {p : List Fr} {T : Nat} (h : T < p.length) :
    checkDegree (degree p) T = .err "TooManyCoefficients" := by
  unfold checkDegree degree
  rw [if_pos]
  rw [if_neg (by rintro rfl; simp at h)]
  omega

/-- Exact outcome of a commitment. -/
theorem KWF.commitToPoly (h : KWF B ks g1 g2 s L K) (p : List Fr) (hp : p.length ≤ L + 1) :
    Ark.commitToPoly ks p =
      if polyOf p = 0 then .ok 0
      else if L = 0 ∨ kept L < (polyNorm p).length then .panic
      else .ok ((polyOf p).eval s • g1) := by
  unfold Ark.commitToPoly
  rw [h.len, if_neg (by omega)]
  by_cases h0 : polyOf p = 0
  · rw [if_pos ((ZkP.polyNorm_nil_iff p).mpr h0), if_pos h0]
  rw [if_neg (polyNorm_ne h0), if_neg h0]
  by_cases hL : L = 0
  · subst hL
    rw [h.trimmed_zero, if_pos (.inl rfl), bind_panic]
  obtain ⟨gam, γ, ht⟩ := h.trimmed (by omega)
  have hk := le_kept L
  rw [ht, bind_ok]
  simp only
  unfold libCommit
  by_cases hlen : kept L < (polyNorm p).length
  · rw [if_pos (.inr hlen), List.length_map, List.length_range, checkDegree_err hlen]; rfl
  · rw [if_neg (by omega), List.length_map, List.length_range, checkDegree_ok (by omega) (by omega), bind_ok,
      msmPowers_spec s g1 _ _ (by omega), unwrap_ok, ZkP.polyOf_polyNorm]

theorem KWF.commit_ok (h : KWF B ks g1 g2 s L K) (hL : 1 ≤ L) (p : List Fr) (hp : p.length ≤ L) :
    Ark.commitToPoly ks p = .ok ((polyOf p).eval s • g1) := by
  rw [h.commitToPoly p (by omega)]
  split
  · next h0 => rw [h0, eval_zero, zero_smul]
  · rw [if_neg]
    have := le_kept L
    have := polyNorm_le p
    omega

theorem KWF.commit_err (h : KWF B ks g1 g2 s L K) (p : List Fr) (hp : L + 1 < p.length) :
    Ark.commitToPoly ks p = .err "Poly given is too long" := by
  unfold Ark.commitToPoly
  rw [h.len, if_pos hp]

theorem polyOf_linear (x : Fr) : polyOf [-x, 1] = X - C x := by
  ext i
  rw [coeff_polyOf, coeff_sub, coeff_X, coeff_C]
  rcases i with _ | _ | i <;> simp

/-- The library's quotient by `X - x`. -/
theorem libQuot_linear (p : List Fr) (x : Fr) :
    ∃ q, libQuot (polyNorm p) [-x, 1] = .ok q ∧ polyOf q = polyOf p / (X - C x) ∧
      q.length ≤ (polyNorm p).length - 1 := by
  unfold libQuot
  by_cases h0 : polyNorm p = []
  · rw [if_pos h0]
    refine ⟨[], rfl, ?_, by simp⟩
    rw [(ZkP.polyNorm_nil_iff p).mp h0, polyOf_nil, EuclideanDomain.zero_div]
  rw [if_neg h0, if_neg (by simp)]
  obtain ⟨q, hq, hql, hqd⟩ := longDiv_div (polyNorm p) [-x, 1] (by simp) (one_ne_zero (α := Fr))
  rw [polyOf_linear, ZkP.polyOf_polyNorm] at hqd
  simp only [List.length_cons, List.length_nil] at hql
  split
  · next hlt =>
    have : q = [] := List.length_eq_zero_iff.mp (by simp only [List.length_cons, List.length_nil] at hlt; omega)
    subst this
    exact ⟨[], rfl, hqd, by simp⟩
  · rw [hq, bind_ok]
    refine ⟨_, rfl, by rw [ZkP.polyOf_polyNorm, hqd], ?_⟩
    have := polyNorm_le q
    omega

theorem KWF.computeSingle (h : KWF B ks g1 g2 s L K) (hL : 1 ≤ L) (p : List Fr) (x : Fr) :
    ks.computeSingle p x = if kept L < (polyNorm p).length then .panic
      else .ok ((polyOf p / (X - C x)).eval s • g1) := by
  obtain ⟨gam, γ, ht⟩ := h.trimmed hL
  obtain ⟨q, hq, hqp, hql⟩ := libQuot_linear p x
  have hk := le_kept L
  unfold Settings.computeSingle
  rw [ht, bind_ok]
  simp only
  unfold openAt
  rw [List.length_map, List.length_range]
  split
  · next hlt => rw [checkDegree_err hlt]; rfl
  · rw [checkDegree_ok (by omega) (by omega), bind_ok, hq, bind_ok, checkDegree_ok (by omega) (by omega), bind_ok,
      msmPowers_spec s g1 _ _ (by omega), unwrap_ok, hqp]

theorem KWF.computeSingle_zero (h : KWF B ks g1 g2 s 0 K) (p : List Fr) (x : Fr) : ks.computeSingle p x = .panic := by
  unfold Settings.computeSingle
  rw [h.trimmed_zero, bind_panic]

theorem exp_inj {E : Fr → GT} (h1 : ∀ a b, E (a + b) = E a * E b) (h2 : ∀ a, E a = 1 ↔ a = 0) (a b : Fr) :
    E a = E b ↔ a = b := by
  have h3 : E a = E (a - b) * E b := by rw [← h1, sub_add_cancel]
  rw [h3, mul_eq_right, h2, sub_eq_zero]

theorem libCheck_spec (hB : B.Lawful g1 g2) (γ com proof : G1) (x y : Fr) :
    (libCheck B ⟨g1, γ, g2, s • g2⟩ com x y proof = true ↔ com - y • g1 = (s - x) • proof) := by
  obtain ⟨E, hE1, hE2, hE3⟩ := hB.pair
  obtain ⟨c, rfl⟩ := hB.gen com
  obtain ⟨d, rfl⟩ := hB.gen proof
  have h1 := hE3 (c - y) 1
  rw [one_smul, mul_one] at h1
  unfold libCheck
  simp only
  rw [decide_eq_true_iff, ← sub_smul, ← sub_smul, h1, hE3, exp_inj hE1 hE2, smul_smul, smul_inj' hB.ne, mul_comm]

theorem KWF.checkSingle (hB : B.Lawful g1 g2) (h : KWF B ks g1 g2 s L K) (hL : 1 ≤ L) (com proof : G1) (x y : Fr) :
    ∃ b, ks.checkSingle B com proof x y = .ok b ∧ (b = true ↔ com - y • g1 = (s - x) • proof) := by
  obtain ⟨gam, γ, ht⟩ := h.trimmed hL
  exact ⟨_, by rw [Settings.checkSingle, ht, bind_ok], libCheck_spec hB γ com proof x y⟩

theorem pairingsVerify_spec (hB : B.Lawful g1 g2) (a c : G1) (b : Fr) :
    (pairingsVerify B a g2 c (b • g2) = true ↔ a = b • c) := by
  obtain ⟨E, hE1, hE2, hE3⟩ := hB.pair
  obtain ⟨x, rfl⟩ := hB.gen a
  obtain ⟨y, rfl⟩ := hB.gen c
  have h1 := hE3 (-x) 1
  rw [one_smul, mul_one, neg_smul] at h1
  unfold pairingsVerify
  rw [decide_eq_true_iff, h1, hE3, ← hE1, hE2, smul_smul, smul_inj' hB.ne]
  constructor
  · intro h; linear_combination -h
  · rintro rfl; ring

/-! ### Proofs for several points -/

theorem divisorPoly_spec (x : Fr) (n : Nat) (hn : 0 < n) :
    ∃ d, divisorPoly x n = .ok d ∧ d.length = n + 1 ∧ polyOf d = X ^ n - C (x ^ n) ∧ d.getD n 0 = 1 := by
  obtain ⟨r, hr, h1, h2⟩ := forRange_inv (lo := 1) (hi := n)
    (s := (List.replicate (n + 1) (0 : Fr)).set 0 (-(x ^ n))) (body := fun i d => wr d i 0)
    (fun _ d => d.length = n + 1 ∧ ∀ j < n + 1, d[j]? = some (if j = 0 then -(x ^ n) else 0)) hn
    ⟨by simp, by
      intro j hj
      by_cases h0 : j = 0
      · subst h0; rw [List.getElem?_set_self (by simp), if_pos rfl]
      · rw [List.getElem?_set_ne (by omega), List.getElem?_replicate, if_pos hj, if_neg h0]⟩ (by
      rintro i d h1 _ ⟨hl, hd⟩
      rw [wr_of_lt (by omega)]
      refine Sat.ok ⟨by simpa using hl, ?_⟩
      intro j hj
      by_cases hji : j = i
      · subst hji; rw [List.getElem?_set_self (by omega), if_neg (by omega)]
      · rw [List.getElem?_set_ne (by omega), hd j hj])
  unfold divisorPoly
  simp only
  rw [wr_of_lt (by simp), bind_ok, hr, bind_ok, wr_of_lt (by omega)]
  have hget : ∀ j, (r.set n 1).getD j 0 = if j = n then 1 else if j = 0 then -(x ^ n) else 0 := by
    intro j
    rw [List.getD_eq_getElem?_getD]
    by_cases hj : j = n
    · subst hj; rw [List.getElem?_set_self (by omega), if_pos rfl]; rfl
    · rw [List.getElem?_set_ne (by omega), if_neg hj]
      by_cases hlt : j < n + 1
      · rw [h2 j hlt]; rfl
      · rw [List.getElem?_eq_none (by omega), if_neg (by omega)]; rfl
  refine ⟨_, rfl, by simpa using h1, ?_, by rw [hget, if_pos rfl]⟩
  ext j
  rw [coeff_polyOf, hget, coeff_sub, coeff_X_pow, coeff_C]
  by_cases hj : j = n
  · rw [if_pos hj, if_pos hj, if_neg (by omega), sub_zero]
  · rw [if_neg hj, if_neg hj]
    by_cases h0 : j = 0
    · rw [if_pos h0, if_pos h0, zero_sub]
    · rw [if_neg h0, if_neg h0, sub_zero]

theorem divisorPoly_zero (x : Fr) : divisorPoly x 0 = .ok [1] := rfl

/-- The zero polynomials whose fast division panics. -/
def ZeroPanics (p : List Fr) (n : Nat) : Prop := polyOf p = 0 ∧ 127 ≤ n ∧ n + 1 < p.length ∧ p.length < n + 128

theorem polyDiv_monic (p d : List Fr) {n : Nat} (hl : d.length = n + 1) (hlead : d.getD n 0 = 1)
    (hlen : p.length ≤ 2 ^ 30) :
    (ZeroPanics p n → polyDiv p d = .panic) ∧
    (¬ ZeroPanics p n → ∃ q, polyDiv p d = .ok q ∧ polyOf q = polyOf p / polyOf d ∧ q.length ≤ p.length - n) := by
  have hdn : d ≠ [] := by rintro rfl; simp at hl
  have hlead' : d.getD (d.length - 1) 0 ≠ 0 := by
    rw [hl, Nat.add_sub_cancel, hlead]; exact one_ne_zero
  have hd0 : polyOf d ≠ 0 := (natDegree_of_lead hdn hlead').2
  constructor
  · rintro ⟨h0, h1, h2, h3⟩
    rw [polyDiv, if_neg (by omega), fastDiv_zero p d (by omega) hlead' (by omega) h0 (by omega)]
  · intro hz
    unfold polyDiv
    split
    · obtain ⟨q, hq, hqd, hqn⟩ := longDiv_spec p d hd0
      refine ⟨q, hq, hqd, ?_⟩
      obtain ⟨q', _, hql', hqd'⟩ := longDiv_div p d hdn hlead'
      rw [eq_polyNorm (hqd.trans hqd'.symm) hqn]
      have := polyNorm_le q'
      omega
    · next hc =>
      push Not at hc
      have hpn : p ≠ [] := by rintro rfl; simp at hc
      rw [fastDiv_eq p d hpn hdn hlead' (.inr (by omega)) (by
        by_cases h0 : polyOf p = 0
        · refine .inr (.inr (.inr ?_))
          by_contra hcc
          exact hz ⟨h0, by omega, by omega, by omega⟩
        · exact .inr (.inr (.inl h0)))]
      obtain ⟨q, hq, hql, hqd⟩ := longDiv_div p d hdn hlead'
      exact ⟨q, hq, hqd, by omega⟩

theorem KWF.computeMulti (h : KWF B ks g1 g2 s L K) (hL : 1 ≤ L) (p : List Fr) (x : Fr) {n : Nat} (hn : 0 < n)
    (hlen : p.length ≤ 2 ^ 30) (hp : p.length ≤ L + n) (hz : ¬ ZeroPanics p n) :
    ks.computeMulti p x n = .ok ((polyOf p / (X ^ n - C (x ^ n))).eval s • g1) := by
  obtain ⟨d, hd, hdl, hdp, hdn⟩ := divisorPoly_spec x n hn
  obtain ⟨q, hq, hqd, hql⟩ := (polyDiv_monic p d hdl hdn hlen).2 hz
  unfold Settings.computeMulti
  rw [hd, bind_ok, hq, unwrap_ok, bind_ok, h.commit_ok hL q (by omega), unwrap_ok, hqd, hdp]

theorem computeMulti_zero_panics (ks : Settings P G1 G2) (p : List Fr) (x : Fr) {n : Nat}
    (hlen : p.length ≤ 2 ^ 30) (hz : ZeroPanics p n) : ks.computeMulti p x n = .panic := by
  have hn : 0 < n := by have := hz.2.1; omega
  obtain ⟨d, hd, hdl, hdp, hdn⟩ := divisorPoly_spec x n hn
  unfold Settings.computeMulti
  rw [hd, bind_ok, (polyDiv_monic p d hdl hdn hlen).1 hz]
  rfl

/-- What the check does with values: `I` is the interpolant on the coset. -/
theorem KWF.checkMulti (hB : B.Lawful g1 g2) (h : KWF B ks g1 g2 s L K) {m : Nat} (hm : m ≤ K)
    (hL : 2 ^ m ≤ L) (com proof : G1) (x : Fr) (hx0 : x ≠ 0) (ys : List Fr) (hys : ys.length = 2 ^ m) :
    ∃ I : Fr[X], I.degree < (2 ^ m : Nat) ∧
      (∀ i < 2 ^ m, ys[i]? = some (I.eval (x * ks.fs.omega (2 ^ m) ^ i))) ∧
    ∃ b, ks.checkMulti B com proof x ys (2 ^ m) = .ok b ∧
      (b = true ↔ com - I.eval s • g1 = (s ^ 2 ^ m - x ^ 2 ^ m) • proof) := by
  have hpos : 0 < 2 ^ m := by positivity
  obtain ⟨c, hc, hcl, _⟩ := h.fs.toWF.fft_backward hm ys hys
  have hcv := h.fs.toWF.fft_roundtrip' hm ys hys
  rw [hc, bind_ok, h.fs.toWF.fft_eval hm c hcl] at hcv
  have hcs := cosetScale_spec c x⁻¹ (2 ^ m) hcl hpos
  set cs := (List.range c.length).map fun i => c.getD i 0 * x⁻¹ ^ i with hcsdef
  have hcsl : cs.length = 2 ^ m := by rw [hcsdef]; simp [hcl]
  have hev : ∀ y, (polyOf cs).eval (x * y) = (polyOf c).eval y := by
    intro y
    rw [hcsdef, eval_scaled, ← mul_assoc, inv_mul_cancel₀ hx0, one_mul]
  refine ⟨polyOf cs, by rw [← hcsl]; exact degree_polyOf_lt cs, ?_, ?_⟩
  · intro i hi
    rw [hev, ← Res.ok.inj hcv, List.getElem?_map, List.getElem?_range hi]; rfl
  · have hs : ks.secretG2[2 ^ m]? = some (s ^ 2 ^ m • g2) := by
      rw [h.s2, List.getElem?_map, List.getElem?_range (by omega)]; rfl
    refine ⟨_, by
      rw [Settings.checkMulti, fftFr_eq h.fs hm ys hys true, hc, unwrap_ok, bind_ok, frInv_eq hx0, bind_ok, hcs, bind_ok]
      simp only
      rw [frInv_eq (pow_ne_zero _ (inv_ne_zero hx0)), bind_ok, rd_of_getElem? hs, bind_ok,
        h.commit_ok (by omega) cs (by omega), unwrap_ok, bind_ok], ?_⟩
    rw [inv_pow, inv_inv, h.h, ← sub_smul]
    exact pairingsVerify_spec hB _ _ _

theorem KWF.checkMulti_panic (h : KWF B ks g1 g2 s L K) {m : Nat} (hm : m ≤ K)
    (hL : L < 2 ^ m) (com proof : G1) (x : Fr) (hx0 : x ≠ 0) (ys : List Fr) (hys : ys.length = 2 ^ m) :
    ks.checkMulti B com proof x ys (2 ^ m) = .panic := by
  have hpos : 0 < 2 ^ m := by positivity
  obtain ⟨c, hc, hcl, _⟩ := h.fs.toWF.fft_backward hm ys hys
  rw [Settings.checkMulti, fftFr_eq h.fs hm ys hys true, hc, unwrap_ok, bind_ok, frInv_eq hx0, bind_ok,
    cosetScale_spec c x⁻¹ (2 ^ m) hcl hpos, bind_ok]
  simp only
  rw [frInv_eq (pow_ne_zero _ (inv_ne_zero hx0)), bind_ok, rd_of_ge (by rw [h.s2]; simpa using hL), bind_panic]

theorem KWF.checkMulti_zero (h : KWF B ks g1 g2 s L K) {m : Nat} (hm : m ≤ K) (com proof : G1) (ys : List Fr)
    (hys : ys.length = 2 ^ m) (n : Nat) : ks.checkMulti B com proof 0 ys n = .panic := by
  obtain ⟨c, hc, hcl, _⟩ := h.fs.toWF.fft_backward hm ys hys
  rw [Settings.checkMulti, fftFr_eq h.fs hm ys hys true, hc, unwrap_ok, bind_ok, frInv_zero, bind_panic]

/-- A number of values that is not a power of two within the width panics, whatever else is given. -/
theorem KWF.checkMulti_count (h : KWF B ks g1 g2 s L K) (com proof : G1) (x : Fr) (ys : List Fr)
    (hys : ∀ m, m ≤ K → ys.length ≠ 2 ^ m) (n : Nat) : ks.checkMulti B com proof x ys n = .panic := by
  unfold Settings.checkMulti
  by_cases hlt : ks.fs.maxWidth < ys.length
  · rw [fftFr_err_len hlt]; rfl
  · have hw := h.fs.toWF.width
    rw [fftFr_err_pow (by omega) (by
      rintro ⟨m, hm⟩
      refine hys m ?_ hm
      rw [hw, hm] at hlt
      exact (Nat.pow_le_pow_iff_right (by norm_num)).mp (not_lt.mp hlt))]
    rfl

end
end Kzg.Ark
