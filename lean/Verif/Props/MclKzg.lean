import Verif.Props.MclRecover
import Verif.Props.KZG
import Verif.Proofs.Mcl.Kzg
import Verif.Spec.ZkFp
/-!
# Properties C107–C109: trusted setup, commitments and proofs of mcl-kzg

`G1`, `G2`, `GT` are the groups, `B` the library functions, `g1`, `g2` the generators; `Mcl.Backend.Lawful` is what is
assumed of them (see `Verif.Proofs.Mcl.Kzg`).
-/

set_option linter.unusedSectionVars false

namespace Kzg.Props
open Kzg Kzg.Mcl Polynomial

variable {G1 G2 GT : Type} [AddCommGroup G1] [Module Fr G1] [AddCommGroup G2] [Module Fr G2]
  [CommGroup GT] [DecidableEq GT]

/-! ## C107: the setup and the settings -/

/-- The number that 32 secret bytes stand for: four words of eight bytes, the first word the lowest, in each word the
first byte the highest. -/
def mclSecretNumber (secret : List Nat) : Nat :=
  ∑ i ∈ Finset.range 32, secret.getD i 0 * 256 ^ (8 * (i / 8) + (7 - i % 8))

/-- C107 (secret): the secret is the number above; from the group order on the call panics. -/
theorem C107_secret (secret : List Nat) (hl : secret.length = 32) :
    (mclSecretNumber secret < frModulus → Mcl.frFromScalar secret = .ok ((mclSecretNumber secret : Nat) : Fr)) ∧
    (frModulus ≤ mclSecretNumber secret → Mcl.frFromScalar secret = .panic) := by
  have e : Mcl.frFromScalar secret =
      if mclSecretNumber secret < frModulus then .ok ((mclSecretNumber secret : Nat) : Fr) else .panic := by
    obtain ⟨b0, secret, rfl⟩ := List.exists_cons_of_length_pos (by omega : 0 < secret.length)
    iterate 31
      obtain ⟨_, secret, rfl⟩ := List.exists_cons_of_length_pos (l := secret) (by
        simp only [List.length_cons] at hl; omega)
    have hs : secret = [] := List.length_eq_zero_iff.mp (by simp only [List.length_cons] at hl; omega)
    subst hs
    unfold Mcl.frFromScalar frFromU64Arr mclSecretNumber
    simp only [be64, List.take_succ_cons, List.drop_succ_cons, List.take_zero, List.drop_zero, List.foldl_cons,
      List.foldl_nil, Finset.sum_range_succ, Finset.sum_range_zero, List.getD_cons_zero, List.getD_cons_succ]
    congr 1
    · congr 1; ring
    · congr 2; ring
  rw [e]
  exact ⟨fun h => if_pos h, fun h => if_neg (by omega)⟩

/-- C107 (setup): the powers of the secret times the generators, in both groups; both ways to make them agree. -/
theorem C107_setup (g1 : G1) (g2 : G2) (n : Nat) (secret : List Nat) (hl : secret.length = 32)
    (hs : mclSecretNumber secret < frModulus) :
    Mcl.generateTrustedSetup g1 g2 n secret =
      .ok ((List.range n).map fun i => ((mclSecretNumber secret : Nat) : Fr) ^ i • g1,
        (List.range n).map fun i => ((mclSecretNumber secret : Nat) : Fr) ^ i • g2) ∧
    Mcl.curveNew g1 g2 ((mclSecretNumber secret : Nat) : Fr) n = Mcl.generateTrustedSetup g1 g2 n secret := by
  have e : Mcl.generateTrustedSetup g1 g2 n secret = powersLoop g1 g2 ((mclSecretNumber secret : Nat) : Fr) n := by
    rw [Mcl.generateTrustedSetup, (C107_secret secret hl).1 hs, Res.bind_ok]
  exact ⟨by rw [e, powersLoop_eq], by rw [e, curveNew]⟩

/-- C107 (large secret): a secret that is not below the group order panics. -/
theorem C107_setup_large (g1 : G1) (g2 : G2) (n : Nat) (secret : List Nat) (hl : secret.length = 32)
    (hs : frModulus ≤ mclSecretNumber secret) : Mcl.generateTrustedSetup g1 g2 n secret = .panic := by
  rw [Mcl.generateTrustedSetup, (C107_secret secret hl).2 hs, Res.bind_panic]

/-- C107 (settings): the constructor returns an error exactly for a setup or length below the width, panics (index
out of bounds) if the length exceeds a long enough setup, and otherwise keeps the first `length` points. -/
theorem C107_settings_new (a : List G1) (b : List G2) (length : Nat) (fs : FFTSettings Fr) :
    (a.length < fs.maxWidth ∨ b.length < fs.maxWidth ∨ length < fs.maxWidth →
      ∃ msg, Mcl.KZGSettings.new a b length fs = .err msg) ∧
    (fs.maxWidth ≤ a.length → fs.maxWidth ≤ b.length → fs.maxWidth ≤ length →
      (length ≤ a.length → length ≤ b.length →
        Mcl.KZGSettings.new a b length fs = .ok ⟨fs, a.take length, b.take length⟩) ∧
      (a.length < length ∨ b.length < length → Mcl.KZGSettings.new a b length fs = .panic)) := by
  constructor
  · intro h
    unfold Mcl.KZGSettings.new
    by_cases h1 : length < fs.maxWidth
    · rw [if_pos h1]; exact ⟨_, rfl⟩
    rw [if_neg h1]
    by_cases h2 : a.length < fs.maxWidth
    · rw [if_pos h2]; exact ⟨_, rfl⟩
    rw [if_neg h2, if_pos (by omega)]
    exact ⟨_, rfl⟩
  · intro h1 h2 h3
    refine ⟨fun ha hb => new_ok ha hb h3, fun h => ?_⟩
    unfold Mcl.KZGSettings.new
    rw [if_neg (by omega), if_neg (by omega), if_neg (by omega), copyPoints_panic h, Res.bind_panic]

/-- Settings with `N` points of the secret `s`, made from a trusted setup or from a `Curve`, over FFT settings of the
given scale. -/
def MclMade (ks : KZGSettings Fr G1 G2) (g1 : G1) (g2 : G2) (N scale : Nat) (s : Fr) : Prop :=
  ∃ fs, MadeSettings fs scale ∧
    ((∃ secret pts, secret.length = 32 ∧ mclSecretNumber secret < frModulus ∧ s = ((mclSecretNumber secret : Nat) : Fr) ∧
        Mcl.generateTrustedSetup g1 g2 N secret = .ok pts ∧ Mcl.KZGSettings.new pts.1 pts.2 N fs = .ok ks) ∨
      ∃ curve, Mcl.curveNew g1 g2 s N = .ok curve ∧ ks = Mcl.KZGSettings.fromCurve curve fs)

theorem MclMade.wf {ks : KZGSettings Fr G1 G2} {g1 : G1} {g2 : G2} {N scale : Nat} {s : Fr}
    (h : MclMade ks g1 g2 N scale s) : Mcl.WF ks g1 g2 s N scale := by
  obtain ⟨fs, hfs, ⟨secret, pts, hl, hs, e, hp, hk⟩ | ⟨curve, hc, rfl⟩⟩ := h
  · rw [(C107_setup g1 g2 N secret hl hs).1, ← e] at hp
    clear e hs
    obtain rfl := Res.ok.inj hp
    by_cases hN : fs.maxWidth ≤ N
    · rw [new_ok (by simp) (by simp) hN] at hk
      cases hk
      refine ⟨hfs.wf, ?_, ?_⟩ <;> simp only <;> rw [List.take_of_length_le (by simp)]
    · unfold Mcl.KZGSettings.new at hk
      rw [if_pos (by omega)] at hk
      cases hk
  · rw [curveNew, powersLoop_eq] at hc
    cases hc
    exact ⟨hfs.wf, rfl, rfl⟩

/-- Every secret, scale below 32 and number of points can be used. -/
theorem mclMade_exists (g1 : G1) (g2 : G2) (scale N : Nat) (hs : scale < 32) (s : Fr) :
    ∃ ks : KZGSettings Fr G1 G2, MclMade ks g1 g2 N scale s := by
  obtain ⟨fs, h, _, _⟩ := newTrait_spec (F := Fr) Globals.start (k := scale) (by omega)
  exact ⟨_, fs, ⟨hs, Or.inr h⟩, Or.inr ⟨_, powersLoop_eq g1 g2 s N, rfl⟩⟩

/-- C107 (other backends): the bytes are read differently than in blst-from-scratch: with the first byte 1 and the
others 0 the secret there is 1, here it is `2^56`. -/
theorem C107_reading_differs :
    Kzg.frFromScalar (1 :: List.replicate 31 0) = 1 ∧
    Mcl.frFromScalar (1 :: List.replicate 31 0) = .ok (((2 ^ 56 : Nat) : Fr)) ∧ (1 : Fr) ≠ ((2 ^ 56 : Nat) : Fr) := by
  refine ⟨?_, ?_, ?_⟩
  · simp [Kzg.frFromScalar, bytesVal, List.replicate]
  · have e : mclSecretNumber (1 :: List.replicate 31 0) = 2 ^ 56 := by decide +kernel
    have := (C107_secret (1 :: List.replicate 31 0) (by simp)).1 (by rw [e]; decide +kernel)
    rw [this, e]
  · intro h
    have := fr_natCast_inj (a := 1) (b := 2 ^ 56) (by decide +kernel) (by decide +kernel) (by rw [← h]; norm_num)
    norm_num at this

/-- A setup of three points with the secret 5 (last byte of the first word). -/
example : Mcl.generateTrustedSetup (1 : Fr) (1 : Fr) 3 ([0, 0, 0, 0, 0, 0, 0, 5] ++ List.replicate 24 0) =
    .ok ([1, 5, 25], [1, 5, 25]) := by
  have e : mclSecretNumber ([0, 0, 0, 0, 0, 0, 0, 5] ++ List.replicate 24 0) = 5 := by decide +kernel
  rw [(C107_setup _ _ _ _ (by simp) (by rw [e]; decide +kernel)).1, e]
  simp [List.range_succ]
  norm_num

/-! ## C108: commitments and single proofs -/

/-- A model of the assumptions: the exponents themselves, with squaring for the final exponentiation. -/
def mclToy : Mcl.Backend Fr Fr (Multiplicative Fr) where
  mulVec pts scalars := (List.zipWith (fun P c => c • P) pts scalars).sum
  pairing P Q := Multiplicative.ofAdd (P * Q)
  finalExp x := x * x

theorem two_ne_zero_fr : (2 : Fr) ≠ 0 := by
  intro h
  have := fr_natCast_inj (a := 2) (b := 0) (by decide +kernel) frModulus_pos (by exact_mod_cast h)
  norm_num at this

theorem mclToy_lawful : mclToy.Lawful 1 1 where
  ne := one_ne_zero
  gen P := ⟨P, by simp⟩
  mulVec _ _ _ := rfl
  pair := ⟨Multiplicative.ofAdd, 2, two_ne_zero_fr, fun _ _ => rfl, fun a => by simp, fun a b => by simp [mclToy],
    fun a => by simp only [mclToy]; rw [two_mul]; rfl⟩

/-- C108 (commitment): `p(s)` times the generator for every polynomial no longer than the setup, an error for every
longer one. -/
theorem C108_commit {B : Mcl.Backend G1 G2 GT} {g1 : G1} {g2 : G2} (hB : B.Lawful g1 g2)
    {ks : KZGSettings Fr G1 G2} {N scale : Nat} {s : Fr} (h : MclMade ks g1 g2 N scale s) (p : List Fr) :
    (p.length ≤ N → Mcl.commit B ks.secretG1 p = .ok ((polyOf p).eval s • g1)) ∧
    (N < p.length → ∃ msg, Mcl.commit B ks.secretG1 p = .err msg) :=
  ⟨h.wf.commit hB p, fun hp => ⟨_, h.wf.commit_err p hp⟩⟩

theorem eval_div_linear (p : List Fr) (x s : Fr) :
    (polyOf p).eval s - (polyOf p).eval x = (s - x) * (polyOf p / (X - C x)).eval s := by
  have h := congrArg (eval s) (EuclideanDomain.div_add_mod (polyOf p) (X - C x))
  rw [mod_X_sub_C_eq_C_eval, eval_add, eval_mul, eval_sub, eval_X, eval_C, eval_C] at h
  linear_combination -h

section
variable [Lib Fr]

/-- C108 (single proof): for every polynomial that is at most one longer than the setup, the commitment to the
quotient by `X - x`. -/
theorem C108_single_proof_partial {B : Mcl.Backend G1 G2 GT} {g1 : G1} {g2 : G2} (hB : B.Lawful g1 g2)
    {ks : KZGSettings Fr G1 G2} {N scale : Nat} {s : Fr} (h : MclMade ks g1 g2 N scale s) (p : List Fr)
    (hp : p.length ≤ N + 1) (x : Fr) :
    Mcl.genProofAt B ks.secretG1 p x = .ok ((polyOf p / (X - C x)).eval s • g1) := by
  obtain ⟨q, hql, hqp, hq⟩ := h.wf.genProof hB p x
  rw [hq, List.take_of_length_le (by omega), hqp]

/-- C108 (single proofs verify): for every polynomial that fits the setup and every point the proof is accepted with
the value of the polynomial, and with no other value. -/
theorem C108_single_complete {B : Mcl.Backend G1 G2 GT} {g1 : G1} {g2 : G2} (hB : B.Lawful g1 g2)
    {ks : KZGSettings Fr G1 G2} {N scale : Nat} {s : Fr} (h : MclMade ks g1 g2 N scale s) (hN : 2 ≤ N)
    (p : List Fr) (hp : p.length ≤ N) (x : Fr) :
    ∃ com proof, Mcl.commit B ks.secretG1 p = .ok com ∧ Mcl.genProofAt B ks.secretG1 p x = .ok proof ∧
      ∀ y, ∃ b, Mcl.checkProofSingle B g1 g2 ks com proof x y = .ok b ∧ (b = true ↔ y = (polyOf p).eval x) := by
  refine ⟨_, _, (C108_commit hB h p).1 hp, C108_single_proof_partial hB h p (by omega) x, fun y => ?_⟩
  obtain ⟨b, hb, hiff⟩ := h.wf.checkSingle hB hN ((polyOf p).eval s • g1) ((polyOf p / (X - C x)).eval s • g1) x y
  refine ⟨b, hb, ?_⟩
  rw [hiff, smul_smul, ← eval_div_linear, ← sub_smul, smul_inj' hB.ne]
  constructor
  · intro h; linear_combination -h
  · rintro rfl; rfl

/-- C108 (acceptance): exact condition for arbitrary commitment, proof, point and value. -/
theorem C108_single_accepts_iff {B : Mcl.Backend G1 G2 GT} {g1 : G1} {g2 : G2} (hB : B.Lawful g1 g2)
    {ks : KZGSettings Fr G1 G2} {N scale : Nat} {s : Fr} (h : MclMade ks g1 g2 N scale s) (hN : 2 ≤ N)
    (com proof : G1) (x y : Fr) :
    (Mcl.checkProofSingle B g1 g2 ks com proof x y = .ok true ∨
      Mcl.checkProofSingle B g1 g2 ks com proof x y = .ok false) ∧
    (Mcl.checkProofSingle B g1 g2 ks com proof x y = .ok true ↔ com - y • g1 = (s - x) • proof) := by
  obtain ⟨b, hb, hiff⟩ := h.wf.checkSingle hB hN com proof x y
  rw [hb, ← hiff]
  cases b <;> simp

/-- C108 (unique proof): away from the secret exactly one proof is accepted for each claimed value. -/
theorem C108_single_unique {B : Mcl.Backend G1 G2 GT} {g1 : G1} {g2 : G2} (hB : B.Lawful g1 g2)
    {ks : KZGSettings Fr G1 G2} {N scale : Nat} {s : Fr} (h : MclMade ks g1 g2 N scale s) (hN : 2 ≤ N)
    (com : G1) (x y : Fr) (hx : x ≠ s) :
    ∃! proof, Mcl.checkProofSingle B g1 g2 ks com proof x y = .ok true := by
  have hsx : s - x ≠ 0 := sub_ne_zero.mpr hx.symm
  refine ⟨(s - x)⁻¹ • (com - y • g1), ?_, ?_⟩
  · simp only
    rw [(C108_single_accepts_iff hB h hN com _ x y).2, smul_smul, mul_inv_cancel₀ hsx, one_smul]
  · intro π hπ
    rw [(C108_single_accepts_iff hB h hN com π x y).2] at hπ
    rw [hπ, smul_smul, inv_mul_cancel₀ hsx, one_smul]

/-- C108 (tiny setup): with fewer than two points every check panics. -/
theorem C108_single_tiny_setup {B : Mcl.Backend G1 G2 GT} {g1 : G1} {g2 : G2}
    {ks : KZGSettings Fr G1 G2} {N scale : Nat} {s : Fr} (h : MclMade ks g1 g2 N scale s) (hN : N < 2)
    (com proof : G1) (x y : Fr) : Mcl.checkProofSingle B g1 g2 ks com proof x y = .panic := by
  unfold Mcl.checkProofSingle
  rw [rd_of_ge (by rw [h.wf.s2]; simp; omega), Res.bind_panic]

/-- C108 (refuted for long polynomials): for a polynomial of two coefficients more than the setup has points, with
nonzero top coefficient, a proof is returned without an error that is not the commitment to the quotient; with a point
other than the secret no check accepts it with the true commitment and value. -/
theorem C108_long_proof_wrong {B : Mcl.Backend G1 G2 GT} {g1 : G1} {g2 : G2} (hB : B.Lawful g1 g2)
    {ks : KZGSettings Fr G1 G2} {N scale : Nat} {s : Fr} (h : MclMade ks g1 g2 N scale s) (hN : 2 ≤ N) (hs : s ≠ 0)
    (p : List Fr) (hp : p.length = N + 2) (htop : p.getD (N + 1) 0 ≠ 0) (x : Fr) :
    ∃ proof, Mcl.genProofAt B ks.secretG1 p x = .ok proof ∧ proof ≠ (polyOf p / (X - C x)).eval s • g1 ∧
      (x ≠ s → Mcl.checkProofSingle B g1 g2 ks ((polyOf p).eval s • g1) proof x ((polyOf p).eval x) = .ok false) := by
  obtain ⟨q, hql, hqp, hq⟩ := h.wf.genProof hB p x
  have hql' : q.length = N + 1 := by omega
  -- the top coefficient of the quotient is that of the polynomial
  have hdm := EuclideanDomain.div_add_mod (polyOf p) (X - C x)
  rw [mod_X_sub_C_eq_C_eval] at hdm
  have hc := congrArg (fun r => coeff r (N + 1)) hdm
  simp only [coeff_add, sub_mul, coeff_sub, coeff_X_mul, coeff_C_mul, coeff_C_succ, add_zero] at hc
  rw [← hqp, coeff_polyOf, coeff_polyOf, coeff_polyOf, List.getD_eq_default (l := q) (n := N + 1) 0 (by omega), mul_zero, sub_zero] at hc
  have hqt : q.getD N 0 ≠ 0 := by rw [hc]; exact htop
  have hsplit : (polyOf q).eval s = (polyOf (q.take N)).eval s + q.getD N 0 * s ^ N := by
    rw [eval_polyOf, eval_polyOf, hql', Finset.sum_range_succ, List.length_take, min_eq_left (by omega)]
    congr 1
    refine Finset.sum_congr rfl fun i hi => ?_
    rw [List.getD_eq_getElem?_getD, List.getD_eq_getElem?_getD, List.getElem?_take, if_pos (Finset.mem_range.mp hi)]
  have hne : (polyOf (q.take N)).eval s ≠ (polyOf q).eval s := by
    rw [hsplit]
    intro e
    exact mul_ne_zero hqt (pow_ne_zero N hs) (left_eq_add.mp e)
  refine ⟨_, hq, ?_, fun hx => ?_⟩
  · rw [← hqp]
    intro e
    exact hne ((smul_inj' hB.ne).mp e)
  · obtain ⟨b, hb, hiff⟩ := h.wf.checkSingle hB hN ((polyOf p).eval s • g1) ((polyOf (q.take N)).eval s • g1) x
      ((polyOf p).eval x)
    rw [hb]
    congr 1
    rw [← Bool.not_eq_true, hiff, ← sub_smul, smul_smul, smul_inj' hB.ne, eval_div_linear, ← hqp]
    intro e
    exact hne (mul_left_cancel₀ (sub_ne_zero.mpr hx.symm) e).symm

omit [Lib Fr] in
/-- C108: the exponent of the final exponentiation of the curve is not divisible by the group order, as assumed in
`Mcl.Backend.Lawful`. -/
theorem C108_final_exponent : (((Zk.fpModulus ^ 12 - 1) / frModulus : Nat) : Fr) ≠ 0 := by
  intro h
  rw [ZMod.natCast_eq_zero_iff] at h
  exact absurd (Nat.mod_eq_zero_of_dvd h) (by decide +kernel)

/-- A setup of four points with secret 5: commitment, proof at 7, value 162; 163 is refused. -/
example : ∃ (ks : KZGSettings Fr Fr Fr) (proof : Fr), MclMade ks 1 1 4 2 5 ∧
    Mcl.commit mclToy ks.secretG1 [1, 2, 3] = .ok 86 ∧
    Mcl.genProofAt mclToy ks.secretG1 [1, 2, 3] 7 = .ok proof ∧
    Mcl.checkProofSingle mclToy 1 1 ks 86 proof 7 162 = .ok true ∧
    Mcl.checkProofSingle mclToy 1 1 ks 86 proof 7 163 = .ok false := by
  obtain ⟨ks, h⟩ := mclMade_exists (G1 := Fr) (G2 := Fr) 1 1 2 4 (by norm_num) 5
  obtain ⟨com, proof, h1, h2, h3⟩ := C108_single_complete mclToy_lawful h (by norm_num) [1, 2, 3] (by norm_num) 7
  have e : (polyOf [(1 : Fr), 2, 3]).eval 7 = 162 := by
    rw [eval_polyOf]; simp [Finset.sum_range_succ]; norm_num
  have e' : (polyOf [(1 : Fr), 2, 3]).eval 5 = 86 := by
    rw [eval_polyOf]; simp [Finset.sum_range_succ]; norm_num
  rw [(C108_commit mclToy_lawful h [1, 2, 3]).1 (by norm_num), e'] at h1
  have hc : com = 86 := by
    have := (Res.ok.inj h1).symm
    rw [this]; simp
  subst hc
  refine ⟨ks, proof, h, ?_, h2, ?_, ?_⟩
  · rw [(C108_commit mclToy_lawful h [1, 2, 3]).1 (by norm_num), e']; simp
  · obtain ⟨b, hb, hiff⟩ := h3 162
    rw [hb, hiff.mpr e.symm]
  · obtain ⟨b, hb, hiff⟩ := h3 163
    rw [hb]
    congr 1
    rw [← Bool.not_eq_true, hiff, e]
    intro h
    have := fr_natCast_inj (a := 163) (b := 162) (by decide +kernel) (by decide +kernel) (by exact_mod_cast h)
    norm_num at this

/-! ## C109: proofs for several points -/

theorem mcl_omega {ks : KZGSettings Fr G1 G2} {g1 : G1} {g2 : G2} {N scale : Nat} {s : Fr}
    (h : MclMade ks g1 g2 N scale s) {m : Nat} (hm : m ≤ scale) :
    ks.fs.omega (2 ^ m) = cosetRoot ks scale m := omega_of_wf h.wf.fs hm

theorem mcl_root_prim {ks : KZGSettings Fr G1 G2} {g1 : G1} {g2 : G2} {N scale : Nat} {s : Fr}
    (h : MclMade ks g1 g2 N scale s) {m : Nat} (hm : m ≤ scale) :
    IsPrimitiveRoot (cosetRoot ks scale m) (2 ^ m) := by
  rw [← mcl_omega h hm]; exact h.wf.fs.omega_prim hm

/-- C109 (proof): the commitment to the quotient by `X^n - x^n` for polynomials up to `2^29` coefficients; a
polynomial longer than setup and `n` together panics. -/
theorem C109_multi_proof {B : Mcl.Backend G1 G2 GT} {g1 : G1} {g2 : G2} (hB : B.Lawful g1 g2)
    {ks : KZGSettings Fr G1 G2} {N scale : Nat} {s : Fr} (h : MclMade ks g1 g2 N scale s) (m : Nat) (p : List Fr)
    (hp' : p.length ≤ 2 ^ 29) (x : Fr) :
    (p.length ≤ N + 2 ^ m →
      Mcl.computeProofMulti B ks p x (2 ^ m) = .ok ((polyOf p / (X ^ 2 ^ m - C (x ^ 2 ^ m))).eval s • g1)) ∧
    (N + 2 ^ m < p.length → Mcl.computeProofMulti B ks p x (2 ^ m) = .panic) := by
  rw [h.wf.computeMulti hB p hp' x]
  exact ⟨fun hl => if_pos hl, fun hl => if_neg (by omega)⟩

/-- C109 (partial): for every polynomial that fits the setup and has at most `2^29` coefficients, nonzero point and
power of two `n ≤ 2^30` within the width and below the setup length, the multi proof is accepted with the values on the
coset. Missing from the full statement: `n` from the setup length on, where the check panics
(`C109_multi_full_width_panics`), and the larger sizes. -/
theorem C109_multi_complete_partial {B : Mcl.Backend G1 G2 GT} {g1 : G1} {g2 : G2} (hB : B.Lawful g1 g2)
    {ks : KZGSettings Fr G1 G2} {N scale : Nat} {s : Fr} (h : MclMade ks g1 g2 N scale s) {m : Nat}
    (hm : m ≤ scale) (h30 : m ≤ 30) (hN : 2 ^ m < N) (p : List Fr) (hp : p.length ≤ N) (hp' : p.length ≤ 2 ^ 29)
    (x : Fr) (hx0 : x ≠ 0) :
    ∃ com proof, Mcl.commit B ks.secretG1 p = .ok com ∧ Mcl.computeProofMulti B ks p x (2 ^ m) = .ok proof ∧
      Mcl.checkProofMulti B g2 ks com proof x
        ((List.range (2 ^ m)).map fun i => (polyOf p).eval (x * cosetRoot ks scale m ^ i)) (2 ^ m) = .ok true := by
  have hpos : 0 < 2 ^ m := by positivity
  refine ⟨_, _, (C108_commit hB h p).1 hp, (C109_multi_proof hB h m p hp' x).1 (by omega), ?_⟩
  obtain ⟨I, hI, hv, b, hb, hiff⟩ := h.wf.checkMulti hB hm h30 hN ((polyOf p).eval s • g1)
    ((polyOf p / (X ^ 2 ^ m - C (x ^ 2 ^ m))).eval s • g1) x hx0
    ((List.range (2 ^ m)).map fun i => (polyOf p).eval (x * cosetRoot ks scale m ^ i)) (by simp)
  have hprim := mcl_root_prim h hm
  rw [mcl_omega h hm] at hv
  obtain ⟨hr1, hr2⟩ := remainder_spec (x := x) hpos hprim.pow_eq_one (polyOf p)
  have hIr : I = polyOf p % (X ^ 2 ^ m - C (x ^ 2 ^ m)) := by
    refine coset_unique hprim hx0 hI hr1 ?_
    intro i hi
    have := hv i hi
    rw [List.getElem?_map, List.getElem?_range hi, Option.map_some, Option.some_inj] at this
    rw [hr2, this]
  rw [hb]
  congr 1
  rw [hiff, ← sub_smul, smul_smul, hIr]
  congr 1
  have := congrArg (eval s) (EuclideanDomain.div_add_mod (polyOf p) (X ^ 2 ^ m - C (x ^ 2 ^ m)))
  rw [eval_add, eval_mul, eval_sub, eval_pow, eval_X, eval_C] at this
  linear_combination -this

/-- C109 (acceptance): exact condition for arbitrary commitment, proof, nonzero point and values; `I` is the
polynomial of degree below `n` through the values on the coset. -/
theorem C109_multi_accepts_iff {B : Mcl.Backend G1 G2 GT} {g1 : G1} {g2 : G2} (hB : B.Lawful g1 g2)
    {ks : KZGSettings Fr G1 G2} {N scale : Nat} {s : Fr} (h : MclMade ks g1 g2 N scale s) {m : Nat}
    (hm : m ≤ scale) (h30 : m ≤ 30) (hN : 2 ^ m < N) (com proof : G1) (x : Fr) (hx0 : x ≠ 0) (ys : List Fr)
    (hys : ys.length = 2 ^ m) (I : Fr[X]) (hI : I.degree < (2 ^ m : Nat))
    (hIv : ∀ i < 2 ^ m, ys[i]? = some (I.eval (x * cosetRoot ks scale m ^ i))) :
    (Mcl.checkProofMulti B g2 ks com proof x ys (2 ^ m) = .ok true ∨
      Mcl.checkProofMulti B g2 ks com proof x ys (2 ^ m) = .ok false) ∧
    (Mcl.checkProofMulti B g2 ks com proof x ys (2 ^ m) = .ok true ↔
      com - I.eval s • g1 = (s ^ 2 ^ m - x ^ 2 ^ m) • proof) := by
  obtain ⟨J, hJ, hJv, b, hb, hiff⟩ := h.wf.checkMulti hB hm h30 hN com proof x hx0 ys hys
  rw [mcl_omega h hm] at hJv
  have hIJ : I = J := by
    refine coset_unique (mcl_root_prim h hm) hx0 hI hJ ?_
    intro i hi
    exact Option.some_inj.mp ((hIv i hi).symm.trans (hJv i hi))
  rw [hb, hIJ, ← hiff]
  cases b <;> simp

/-- C109 (full width): with `n` values and at most `n` points the check panics. -/
theorem C109_multi_full_width_panics {B : Mcl.Backend G1 G2 GT} {g1 : G1} {g2 : G2}
    {ks : KZGSettings Fr G1 G2} {N scale : Nat} {s : Fr} (h : MclMade ks g1 g2 N scale s) {m : Nat} (hm : m ≤ scale)
    (h30 : m ≤ 30) (hN : N ≤ 2 ^ m) (com proof : G1) (x : Fr) (hx0 : x ≠ 0) (ys : List Fr)
    (hys : ys.length = 2 ^ m) : Mcl.checkProofMulti B g2 ks com proof x ys (2 ^ m) = .panic :=
  h.wf.checkMulti_panic hm h30 hN com proof x hx0 ys hys

/-- C109 (other sizes): a number of points that is not a power of two is an error, and zero points panic, in both
functions. -/
theorem C109_multi_sizes (B : Mcl.Backend G1 G2 GT) (g2 : G2) (ks : KZGSettings Fr G1 G2) (p : List Fr)
    (com proof : G1) (x : Fr) (ys : List Fr) (n : Nat) :
    (n ≠ 0 → (∀ m, n ≠ 2 ^ m) → (∃ msg, Mcl.computeProofMulti B ks p x n = .err msg) ∧
      ∃ msg, Mcl.checkProofMulti B g2 ks com proof x ys n = .err msg) ∧
    Mcl.computeProofMulti B ks p x 0 = .panic ∧ Mcl.checkProofMulti B g2 ks com proof x ys 0 = .panic := by
  refine ⟨fun h0 hn => ?_, ?_, ?_⟩
  · have : isPowerOfTwo n = false := by
      by_contra hc
      obtain ⟨m, hm⟩ := exists_of_isPowerOfTwo (by simpa using hc)
      exact hn m hm
    constructor
    · unfold Mcl.computeProofMulti
      rw [isPowerOf2_eq h0, Res.bind_ok, this]
      exact ⟨_, rfl⟩
    · unfold Mcl.checkProofMulti
      rw [isPowerOf2_eq h0, Res.bind_ok, this]
      exact ⟨_, rfl⟩
  · unfold Mcl.computeProofMulti
    rw [isPowerOf2_zero, Res.bind_panic]
  · unfold Mcl.checkProofMulti
    rw [isPowerOf2_zero, Res.bind_panic]

/-- C109 (missing values): a list that is shorter than `n` but longer than half of it is not refused; the missing
values count as zero. -/
theorem C109_missing_values_are_zero {B : Mcl.Backend G1 G2 GT} {g1 : G1} {g2 : G2}
    {ks : KZGSettings Fr G1 G2} {N scale : Nat} {s : Fr} (h : MclMade ks g1 g2 N scale s) {m : Nat} (hm : m + 1 ≤ scale)
    (h30 : m + 1 ≤ 30) (com proof : G1) (x : Fr) (ys : List Fr) (h1 : 2 ^ m < ys.length)
    (h2 : ys.length ≤ 2 ^ (m + 1)) :
    Mcl.checkProofMulti B g2 ks com proof x ys (2 ^ (m + 1)) =
      Mcl.checkProofMulti B g2 ks com proof x (ys ++ List.replicate (2 ^ (m + 1) - ys.length) 0) (2 ^ (m + 1)) := by
  have hle : ys.length ≤ 2 ^ scale := h2.trans (Nat.pow_le_pow_right (by omega) hm)
  have hle' : ys.length ≤ 2 ^ 30 := h2.trans (Nat.pow_le_pow_right (by omega) h30)
  rw [h.wf.checkMulti_padded com proof x ys hle hle']
  have : bitLen (ys.length - 1) = m + 1 := by
    refine le_antisymm (bitLen_le_of_le h2) ?_
    by_contra hc
    have h3 := le_two_pow_bitLen_pred (v := ys.length)
    have : 2 ^ bitLen (ys.length - 1) ≤ 2 ^ m := Nat.pow_le_pow_right (by omega) (by omega)
    omega
  rw [padded, this]

example : ∃ (ks : KZGSettings Fr Fr Fr) (com proof : Fr), MclMade ks 1 1 8 2 5 ∧
    Mcl.commit mclToy ks.secretG1 [1, 2, 3, 4, 5] = .ok com ∧
    Mcl.computeProofMulti mclToy ks [1, 2, 3, 4, 5] 9 4 = .ok proof ∧
    Mcl.checkProofMulti mclToy 1 ks com proof 9
      ((List.range 4).map fun i => (polyOf [1, 2, 3, 4, 5]).eval (9 * cosetRoot ks 2 2 ^ i)) 4 = .ok true := by
  obtain ⟨ks, h⟩ := mclMade_exists (G1 := Fr) (G2 := Fr) 1 1 2 8 (by norm_num) 5
  have h9 : (9 : Fr) ≠ 0 := by
    have := fr_natCast_inj (a := 9) (b := 0) (by decide +kernel) frModulus_pos
    intro h; exact absurd (this (by exact_mod_cast h)) (by norm_num)
  obtain ⟨com, proof, h1, h2, h3⟩ := C109_multi_complete_partial mclToy_lawful h (m := 2) le_rfl (by norm_num)
    (by norm_num) [1, 2, 3, 4, 5] (by norm_num) (by norm_num) 9 h9
  exact ⟨ks, com, proof, h, h1, h2, h3⟩

end
end Kzg.Props
