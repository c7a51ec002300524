import Verif.Props.ArkRecover
import Verif.Props.MclKzg
import Verif.Proofs.Ark.Kzg
/-!
# Properties C125–C128: trusted setup, settings, commitments and proofs of the Arkworks backend

`P` are the stored coordinates of points, `G1`, `G2`, `GT` the groups, `B` the library functions, `g1`, `g2` the
generators; `Ark.Backend.Lawful` is what is assumed of them (see `Verif.Proofs.Ark.Kzg`).
-/

set_option linter.unusedSectionVars false

namespace Kzg.Props
open Kzg Kzg.Ark Polynomial

variable {P G1 G2 GT : Type} [AddCommGroup G1] [Module Fr G1] [AddCommGroup G2] [Module Fr G2]
  [CommGroup GT] [DecidableEq GT]

/-! ## C125: the trusted setup -/

/-- A model of the assumptions: coordinates are a scalar `Sum.inr c` (that many times the generator) or `Sum.inl ()`
(infinity); the generator of random numbers returns the first byte of the seed plus three. -/
def arkToy : Ark.Backend (Unit ⊕ Fr) Fr Fr (Multiplicative Fr) where
  val := Sum.elim (fun _ => 0) id
  mulGen c := Sum.inr c
  mulInf _ := Sum.inl ()
  xLimbs := Sum.elim (fun _ => [2 ^ 57, 0, 0, 0, 0, 0]) fun c => [c.val % 2 ^ 64, 0, 0, 0, 0, 0]
  rng seed := ((((seed.getD 0 0) + 3 : Nat) : Fr), 7)
  testParams := ⟨[1, 1], [1, 1, 1], 1, 1⟩
  pairing P Q := Multiplicative.ofAdd (P * Q)

theorem arkToy_lawful : arkToy.Lawful 1 1 where
  ne := one_ne_zero
  gen Q := ⟨Q, by simp⟩
  mulGen c := by simp [arkToy]
  mulInf _ := rfl
  inf := rfl
  limbs p := by cases p <;> rfl
  pair := ⟨Multiplicative.ofAdd, fun _ _ => rfl, fun a => by simp, fun a b => by simp [arkToy]⟩

/-- C125 (partial; the reading of the secret): the 32 bytes are read as in mcl-kzg, and from the group order on the
call panics. Missing: the points, which do not depend on the secret (`C125_identity`). -/
theorem C125_secret_partial (secret : List Nat) (hl : secret.length = 32) :
    (mclSecretNumber secret < frModulus → Ark.secretScalar secret = .ok ((mclSecretNumber secret : Nat) : Fr)) ∧
    (frModulus ≤ mclSecretNumber secret → Ark.secretScalar secret = .panic) := by
  have e : Ark.secretScalar secret =
      if mclSecretNumber secret < frModulus then .ok ((mclSecretNumber secret : Nat) : Fr) else .panic := by
    obtain ⟨b0, secret, rfl⟩ := List.exists_cons_of_length_pos (by omega : 0 < secret.length)
    iterate 31
      obtain ⟨_, secret, rfl⟩ := List.exists_cons_of_length_pos (l := secret) (by
        simp only [List.length_cons] at hl; omega)
    have hs : secret = [] := List.length_eq_zero_iff.mp (by simp only [List.length_cons] at hl; omega)
    subst hs
    unfold Ark.secretScalar mclSecretNumber
    simp only [Mcl.be64, wordsVal, List.foldr_cons, List.foldr_nil, List.take_succ_cons, List.drop_succ_cons, List.take_zero, List.drop_zero, List.foldl_cons,
      List.foldl_nil, Finset.sum_range_succ, Finset.sum_range_zero, List.getD_cons_zero, List.getD_cons_succ]
    congr 1
    · congr 1; ring
    · congr 2; ring
  rw [e]
  exact ⟨fun h => if_pos h, fun h => if_neg (by omega)⟩

/-- C125 (refuted): for every secret below the group order and every length the setup consists of identity points. -/
theorem C125_identity {B : Ark.Backend P G1 G2 GT} {g1 : G1} {g2 : G2} (hB : B.Lawful g1 g2) (n : Nat)
    (secret : List Nat) (hl : secret.length = 32) (hs : mclSecretNumber secret < frModulus) :
    ∃ s1 s2, Ark.generateTrustedSetup B n secret = .ok (s1, s2) ∧ s1.length = n ∧ s2.length = n ∧
      (∀ p ∈ s1, B.val p = 0) ∧ ∀ q ∈ s2, q = 0 := by
  refine ⟨_, _, by rw [trustedSetup_eq hB, (C125_secret_partial secret hl).1 hs, Res.bind_ok], by simp, by simp, ?_, ?_⟩
  · intro p hp; rw [List.eq_of_mem_replicate hp]; exact hB.inf
  · intro q hq; exact List.eq_of_mem_replicate hq

/-- C125 (refuted): any two secrets give the same setup. -/
theorem C125_same_for_all_secrets {B : Ark.Backend P G1 G2 GT} {g1 : G1} {g2 : G2} (hB : B.Lawful g1 g2) (n : Nat)
    (a b : List Nat) (ha : a.length = 32) (hb : b.length = 32) (hsa : mclSecretNumber a < frModulus)
    (hsb : mclSecretNumber b < frModulus) :
    Ark.generateTrustedSetup B n a = Ark.generateTrustedSetup B n b := by
  rw [trustedSetup_eq hB, trustedSetup_eq hB, (C125_secret_partial a ha).1 hsa, (C125_secret_partial b hb).1 hsb,
    Res.bind_ok, Res.bind_ok]

/-- C125 (large secret): panics. -/
theorem C125_large {B : Ark.Backend P G1 G2 GT} {g1 : G1} {g2 : G2} (hB : B.Lawful g1 g2) (n : Nat)
    (secret : List Nat) (hl : secret.length = 32) (hs : frModulus ≤ mclSecretNumber secret) :
    Ark.generateTrustedSetup B n secret = .panic := by
  rw [trustedSetup_eq hB, (C125_secret_partial secret hl).2 hs, Res.bind_panic]

/-- C125 (the function for tests): the powers of the secret times the generators in both groups. -/
theorem C125_setup_test {B : Ark.Backend P G1 G2 GT} {g1 : G1} {g2 : G2} (hB : B.Lawful g1 g2) (n : Nat) (s : Fr) :
    ∃ s1 s2, Ark.generateTrustedSetupTest B g2 n s = .ok (s1, s2) ∧ s1.length = n ∧ s2.length = n ∧
      ∀ i < n, (∃ p, s1[i]? = some p ∧ B.val p = s ^ i • g1) ∧ s2[i]? = some (s ^ i • g2) := by
  refine ⟨_, _, setupTest_eq B g2 n s, by simp, by simp, fun i hi => ⟨⟨_, ?_, hB.mulGen _⟩, ?_⟩⟩
  · rw [List.getElem?_map, List.getElem?_range hi]; rfl
  · rw [List.getElem?_map, List.getElem?_range hi]; rfl

/-- C125 (negation): not every setup has the generator first. -/
theorem C125_full_statement_false :
    ¬ ∀ (secret : List Nat) (s1 : List (Unit ⊕ Fr)) (s2 : List Fr), secret.length = 32 →
      Ark.generateTrustedSetup arkToy 1 secret = .ok (s1, s2) → s2 = [1] := by
  intro hall
  have e : mclSecretNumber ([0, 0, 0, 0, 0, 0, 0, 5] ++ List.replicate 24 0) = 5 := by decide +kernel
  obtain ⟨s1, s2, h, -, -, -, h2⟩ := C125_identity arkToy_lawful 1 ([0, 0, 0, 0, 0, 0, 0, 5] ++ List.replicate 24 0)
    (by simp) (by rw [e]; decide +kernel)
  have := hall _ s1 s2 (by simp) h
  subst this
  have := h2 1 (by simp)
  exact one_ne_zero this

/-- The secret 5: three times the point at infinity; the function for tests gives the powers of 5. -/
example : Ark.generateTrustedSetup arkToy 3 ([0, 0, 0, 0, 0, 0, 0, 5] ++ List.replicate 24 0) =
      .ok ([Sum.inl (), Sum.inl (), Sum.inl ()], [0, 0, 0]) ∧
    Ark.generateTrustedSetupTest arkToy 1 3 5 = .ok ([Sum.inr 1, Sum.inr 5, Sum.inr 25], [1, 5, 25]) := by
  have e : mclSecretNumber ([0, 0, 0, 0, 0, 0, 0, 5] ++ List.replicate 24 0) = 5 := by decide +kernel
  constructor
  · rw [trustedSetup_eq arkToy_lawful, (C125_secret_partial _ (by simp)).1 (by rw [e]; decide +kernel), Res.bind_ok]
    rfl
  · rw [setupTest_eq]
    simp [List.range_succ, arkToy]
    norm_num

/-! ## C126: the settings -/

/-- Settings with the secret `s`, made from some lists of points with the length `L` over FFT settings of the given
scale. -/
def ArkMade (B : Ark.Backend P G1 G2 GT) (ks : Ark.Settings P G1 G2) (g1 : G1) (g2 : G2) (L scale : Nat) (s : Fr) :
    Prop :=
  ∃ fs v w, settingsNew scale = .ok fs ∧ Ark.newSettings B g1 g2 v w L fs = .ok ks ∧
    ∃ last, v.getLast? = some last ∧ s = (drawn B last).1

theorem ArkMade.wf {B : Ark.Backend P G1 G2 GT} {ks : Ark.Settings P G1 G2} {g1 : G1} {g2 : G2} {L scale : Nat} {s : Fr}
    (h : ArkMade B ks g1 g2 L scale s) (hB : B.Lawful g1 g2) : KWF B ks g1 g2 s L scale := by
  obtain ⟨fs, v, w, hfs, hks, last, hl, rfl⟩ := h
  have hv : v ≠ [] := by rintro rfl; simp at hl
  have := kwf_of_new hB hv w (made_of_new hfs) hks
  rw [List.getLast?_eq_some_getLast hv] at hl
  cases hl
  exact this

/-- C126 (partial): the settings consist of consistent powers of one scalar, which is the one drawn from the generator
seeded with the last point; `L + 1` points are kept and the FFT settings are those given. Missing: that they are the
given points (`C126_secret_ignored`). -/
theorem C126_settings_partial {B : Ark.Backend P G1 G2 GT} {g1 : G1} {g2 : G2} (hB : B.Lawful g1 g2) (v : List P)
    (w : List G2) (L : Nat) (fs : FFTSettings Fr) (last : P) (hv : v.getLast? = some last) :
    ∃ ks, Ark.newSettings B g1 g2 v w L fs = .ok ks ∧ ks.fs = fs ∧ ks.length = L + 1 ∧
      ks.secretG1.length = L + 1 ∧ ks.secretG2.length = L + 1 ∧
      ∀ i ≤ L, (∃ p, ks.secretG1[i]? = some p ∧ B.val p = (drawn B last).1 ^ i • g1) ∧
        ks.secretG2[i]? = some ((drawn B last).1 ^ i • g2) := by
  have hv' : v ≠ [] := by rintro rfl; simp at hv
  rw [List.getLast?_eq_some_getLast hv'] at hv
  cases hv
  refine ⟨_, new_eq hB hv' w L fs, rfl, rfl, by simp, by simp, fun i hi => ⟨⟨_, ?_, hB.mulGen _⟩, ?_⟩⟩
  · simp only; rw [List.getElem?_map, List.getElem?_range (by omega)]; rfl
  · simp only; rw [List.getElem?_map, List.getElem?_range (by omega)]; rfl

/-- C126 (refuted): only the last point of the first list is used, and only the first 32 bytes of its `x`: any two
setups that agree in them give the same settings. -/
theorem C126_secret_ignored {B : Ark.Backend P G1 G2 GT} {g1 : G1} {g2 : G2} (hB : B.Lawful g1 g2) (v v' : List P)
    (w w' : List G2) (L : Nat) (fs : FFTSettings Fr) (last last' : P) (hv : v.getLast? = some last)
    (hv' : v'.getLast? = some last') (hx : (B.xLimbs last).take 4 = (B.xLimbs last').take 4) :
    Ark.newSettings B g1 g2 v w L fs = Ark.newSettings B g1 g2 v' w' L fs := by
  have h1 : v ≠ [] := by rintro rfl; simp at hv
  have h2 : v' ≠ [] := by rintro rfl; simp at hv'
  rw [List.getLast?_eq_some_getLast h1] at hv
  rw [List.getLast?_eq_some_getLast h2] at hv'
  cases hv; cases hv'
  have key : ∀ l : List Nat, l.length = 6 → (l.flatMap toBe64).take 32 = (l.take 4).flatMap toBe64 := by
    intro l hl
    match l, hl with
    | [a, b, c, d, e, f], _ =>
      simp [toBe64, List.range_succ]
  have hd : drawn B (v.getLast h1) = drawn B (v'.getLast h2) := by
    unfold drawn
    rw [key _ (hB.limbs _), key _ (hB.limbs _), hx]
  rw [new_eq hB h1, new_eq hB h2, hd]

/-- C126 (refuted, whole chain): made from `generate_trusted_setup`, the settings are the same for all secrets. -/
theorem C126_same_for_all_secrets {B : Ark.Backend P G1 G2 GT} {g1 : G1} {g2 : G2} (hB : B.Lawful g1 g2) (n L : Nat)
    (hn : 0 < n) (fs : FFTSettings Fr) (a : List Nat) (ha : a.length = 32) (hsa : mclSecretNumber a < frModulus) :
    ∃ s1 s2 ks, Ark.generateTrustedSetup B n a = .ok (s1, s2) ∧ Ark.newSettings B g1 g2 s1 s2 L fs = .ok ks ∧
      ks.params.betaH = (drawn B (B.mulInf 0)).1 • g2 := by
  have hne : List.replicate n (B.mulInf 0) ≠ [] := by
    intro h; have := congrArg List.length h; simp at this; omega
  refine ⟨_, _, _, by rw [trustedSetup_eq hB, (C125_secret_partial a ha).1 hsa, Res.bind_ok], new_eq hB hne _ L fs, ?_⟩
  simp

/-- C126 (empty): without points in G1 the constructor panics. -/
theorem C126_empty_panics (B : Ark.Backend P G1 G2 GT) (g1 : G1) (g2 : G2) (w : List G2) (L : Nat)
    (fs : FFTSettings Fr) : Ark.newSettings B g1 g2 [] w L fs = .panic := new_nil B g1 g2 w L fs

/-- C126 (clone): cloning succeeds, but returns settings that are one longer and belong to another scalar, drawn from
the last point of the original. -/
theorem C126_clone {B : Ark.Backend P G1 G2 GT} {g1 : G1} {g2 : G2} (hB : B.Lawful g1 g2) {ks : Ark.Settings P G1 G2}
    {L scale : Nat} {s : Fr} (h : ArkMade B ks g1 g2 L scale s) :
    ∃ ks', ks.clone B g1 g2 = .ok ks' ∧ ArkMade B ks' g1 g2 (L + 1) scale (drawn B (B.mulGen (s ^ L))).1 ∧
      ks.length = L + 1 ∧ ks'.length = L + 2 ∧ ks'.fs = ks.fs ∧ ks' ≠ ks := by
  have hw := h.wf hB
  obtain ⟨fs, v, w, hfs, hks, last, hl, hs⟩ := h
  have hfs' : ks.fs = fs := by
    have hv : v ≠ [] := by rintro rfl; simp at hl
    rw [new_eq hB hv] at hks
    cases hks; rfl
  have hlast : ks.secretG1.getLast? = some (B.mulGen (s ^ L)) := by
    rw [hw.s1, List.getLast?_eq_getElem?, List.length_map, List.length_range, Nat.add_sub_cancel, List.getElem?_map,
      List.getElem?_range (by omega)]; rfl
  obtain ⟨ks', hk, hkf, hkl, -⟩ := C126_settings_partial hB ks.secretG1 ks.secretG2 ks.length ks.fs _ hlast
  rw [hw.len] at hkl
  refine ⟨ks', ?_, ⟨fs, ks.secretG1, ks.secretG2, hfs, ?_, _, hlast, rfl⟩, hw.len, hkl, hkf, ?_⟩
  · unfold Ark.Settings.clone
    rw [settingsClone_eq, Res.bind_ok, hk, Res.unwrap_ok]
  · rw [← hfs', ← hk, hw.len]
  · rintro rfl
    have := hw.len
    omega

/-- C126 (default): default settings have no points and cannot be cloned. -/
theorem C126_default (B : Ark.Backend P G1 G2 GT) (g1 : G1) (g2 : G2) :
    (Ark.defaultSettings B).secretG1 = [] ∧ (Ark.defaultSettings B).secretG2 = [] ∧
      (Ark.defaultSettings B).length = 0 ∧ (Ark.defaultSettings B).clone B g1 g2 = .panic := by
  refine ⟨rfl, rfl, rfl, ?_⟩
  unfold Ark.Settings.clone
  rw [settingsClone_eq, Res.bind_ok]
  show (Ark.newSettings B g1 g2 [] _ _ _).unwrap = .panic
  rw [new_nil]; rfl

/-- Settings exist for every nonempty list of points, length and scale below 32. -/
theorem arkMade_exists {B : Ark.Backend P G1 G2 GT} {g1 : G1} {g2 : G2} (hB : B.Lawful g1 g2) (last : P)
    (scale L : Nat) (hs : scale < 32) : ∃ ks, ArkMade B ks g1 g2 L scale (drawn B last).1 := by
  obtain ⟨fs, hfs, _⟩ := Ark.settingsNew_spec (F := Fr) hs
  exact ⟨_, fs, [last], [], hfs, new_eq hB (by simp) [] L fs, last, rfl, rfl⟩

/-- The toy generator seeded with the point at infinity gives 5; the clone is seeded with the scalar `5^4`. -/
example : ∃ ks ks', ArkMade arkToy ks 1 1 4 3 5 ∧ ks.clone arkToy 1 1 = .ok ks' ∧ ks.length = 5 ∧ ks'.length = 6 ∧
    ArkMade arkToy ks' 1 1 5 3 3 := by
  obtain ⟨ks, h⟩ := arkMade_exists arkToy_lawful (Sum.inl ()) 3 4 (by norm_num)
  have e : (drawn arkToy (Sum.inl ())).1 = 5 := by
    simp [drawn, arkToy, toBe64, List.range_succ]
    norm_num
  rw [e] at h
  obtain ⟨ks', h1, h2, h3, h4, -⟩ := C126_clone arkToy_lawful h
  refine ⟨ks, ks', h, h1, h3, h4, ?_⟩
  have hv : ((5 : Fr) ^ 4).val = 625 := by decide +kernel
  have : (drawn arkToy (arkToy.mulGen (5 ^ 4))).1 = 3 := by
    simp [drawn, arkToy, toBe64, List.range_succ, hv]
  rwa [this] at h2

/-! ## C127: commitments and single proofs -/

/-- C127 (commitment): `p(s)` times the generator for every polynomial no longer than the length `L ≥ 1` the settings
were made with; the zero polynomial of up to `L + 1` coefficients has the identity; more than `L + 1` coefficients
panic. -/
theorem C127_commit {B : Ark.Backend P G1 G2 GT} {g1 : G1} {g2 : G2} (hB : B.Lawful g1 g2) {ks : Ark.Settings P G1 G2}
    {L scale : Nat} {s : Fr} (h : ArkMade B ks g1 g2 L scale s) (p : List Fr) :
    (1 ≤ L → p.length ≤ L → ks.commit p = .ok ((polyOf p).eval s • g1)) ∧
    (polyOf p = 0 → p.length ≤ L + 1 → ks.commit p = .ok 0) ∧
    (L + 1 < p.length → ks.commit p = .panic) := by
  have hw := h.wf hB
  unfold Ark.Settings.commit
  refine ⟨fun hL hp => by rw [hw.commit_ok hL p hp]; rfl, fun h0 hp => ?_, fun hp => by rw [hw.commit_err p hp]; rfl⟩
  rw [hw.commitToPoly p hp, if_pos h0]; rfl

/-- C127 (one more coefficient): the settings hold `L + 1` points, but polynomials with `L + 1` coefficients and a
nonzero last one panic, except for `L = 2`; and with `L = 0` everything but the zero polynomial panics. -/
theorem C127_last_point_unused {B : Ark.Backend P G1 G2 GT} {g1 : G1} {g2 : G2} (hB : B.Lawful g1 g2)
    {ks : Ark.Settings P G1 G2} {L scale : Nat} {s : Fr} (h : ArkMade B ks g1 g2 L scale s) (p : List Fr)
    (hp : p.length = L + 1) (htop : p.getD L 0 ≠ 0) :
    (L ≠ 2 → ks.commit p = .panic) ∧ (L = 2 → ks.commit p = .ok ((polyOf p).eval s • g1)) := by
  have hw := h.wf hB
  have h0 : polyOf p ≠ 0 := by
    intro e
    have := congrArg (fun q => coeff q L) e
    simp only [coeff_polyOf, coeff_zero] at this
    exact htop this
  have hn : (polyNorm p).length = L + 1 := by
    refine le_antisymm (hp ▸ polyNorm_le p) ?_
    by_contra hc
    have h1 := congrArg (fun q => coeff q L) (ZkP.polyOf_polyNorm p)
    simp only [coeff_polyOf] at h1
    rw [List.getD_eq_default _ _ (by omega)] at h1
    exact htop h1.symm
  unfold Ark.Settings.commit
  rw [hw.commitToPoly p (by omega), if_neg h0, hn]
  constructor
  · intro h2
    rw [if_pos (by unfold kept; rw [if_neg h2]; omega)]; rfl
  · rintro rfl
    rw [if_neg (by unfold kept; simp)]; rfl

/-- C127 (single proof): the commitment to the quotient by `X - x`, for every polynomial that fits. -/
theorem C127_single_proof {B : Ark.Backend P G1 G2 GT} {g1 : G1} {g2 : G2} (hB : B.Lawful g1 g2)
    {ks : Ark.Settings P G1 G2} {L scale : Nat} {s : Fr} (h : ArkMade B ks g1 g2 L scale s) (hL : 1 ≤ L) (p : List Fr)
    (hp : p.length ≤ L) (x : Fr) : ks.computeSingle p x = .ok ((polyOf p / (X - C x)).eval s • g1) := by
  rw [(h.wf hB).computeSingle hL]
  exact if_neg (by have := polyNorm_le p; have := le_kept L; omega)

/-- C127 (single proofs verify): for every polynomial that fits and every point the proof is accepted with the value
of the polynomial, and with no other value. -/
theorem C127_single_complete {B : Ark.Backend P G1 G2 GT} {g1 : G1} {g2 : G2} (hB : B.Lawful g1 g2)
    {ks : Ark.Settings P G1 G2} {L scale : Nat} {s : Fr} (h : ArkMade B ks g1 g2 L scale s) (hL : 1 ≤ L) (p : List Fr)
    (hp : p.length ≤ L) (x : Fr) :
    ∃ com proof, ks.commit p = .ok com ∧ ks.computeSingle p x = .ok proof ∧
      ∀ y, ∃ b, ks.checkSingle B com proof x y = .ok b ∧ (b = true ↔ y = (polyOf p).eval x) := by
  refine ⟨_, _, (C127_commit hB h p).1 hL hp, C127_single_proof hB h hL p hp x, fun y => ?_⟩
  obtain ⟨b, hb, hiff⟩ := (h.wf hB).checkSingle hB hL ((polyOf p).eval s • g1)
    ((polyOf p / (X - C x)).eval s • g1) x y
  refine ⟨b, hb, ?_⟩
  rw [hiff, smul_smul, ← eval_div_linear, ← sub_smul, smul_inj' hB.ne]
  constructor
  · intro h; linear_combination -h
  · rintro rfl; rfl

/-- C127 (acceptance): exact condition for arbitrary commitment, proof, point and value. -/
theorem C127_single_accepts_iff {B : Ark.Backend P G1 G2 GT} {g1 : G1} {g2 : G2} (hB : B.Lawful g1 g2)
    {ks : Ark.Settings P G1 G2} {L scale : Nat} {s : Fr} (h : ArkMade B ks g1 g2 L scale s) (hL : 1 ≤ L)
    (com proof : G1) (x y : Fr) :
    (ks.checkSingle B com proof x y = .ok true ∨ ks.checkSingle B com proof x y = .ok false) ∧
    (ks.checkSingle B com proof x y = .ok true ↔ com - y • g1 = (s - x) • proof) := by
  obtain ⟨b, hb, hiff⟩ := (h.wf hB).checkSingle hB hL com proof x y
  rw [hb, ← hiff]
  cases b <;> simp

/-- C127 (unique proof): away from the secret exactly one proof is accepted for each claimed value. -/
theorem C127_single_unique {B : Ark.Backend P G1 G2 GT} {g1 : G1} {g2 : G2} (hB : B.Lawful g1 g2)
    {ks : Ark.Settings P G1 G2} {L scale : Nat} {s : Fr} (h : ArkMade B ks g1 g2 L scale s) (hL : 1 ≤ L)
    (com : G1) (x y : Fr) (hx : x ≠ s) : ∃! proof, ks.checkSingle B com proof x y = .ok true := by
  have hsx : s - x ≠ 0 := sub_ne_zero.mpr hx.symm
  refine ⟨(s - x)⁻¹ • (com - y • g1), ?_, ?_⟩
  · simp only
    rw [(C127_single_accepts_iff hB h hL com _ x y).2, smul_smul, mul_inv_cancel₀ hsx, one_smul]
  · intro π hπ
    rw [(C127_single_accepts_iff hB h hL com π x y).2] at hπ
    rw [hπ, smul_smul, inv_mul_cancel₀ hsx, one_smul]

/-- C127 (length 0): settings made with length 0 panic in every single proof and every check. -/
theorem C127_length_zero {B : Ark.Backend P G1 G2 GT} {g1 : G1} {g2 : G2} (hB : B.Lawful g1 g2)
    {ks : Ark.Settings P G1 G2} {scale : Nat} {s : Fr} (h : ArkMade B ks g1 g2 0 scale s) (p : List Fr)
    (com proof : G1) (x y : Fr) : ks.computeSingle p x = .panic ∧ ks.checkSingle B com proof x y = .panic := by
  refine ⟨(h.wf hB).computeSingle_zero p x, ?_⟩
  unfold Ark.Settings.checkSingle
  rw [(h.wf hB).trimmed_zero, Res.bind_panic]

/-- Settings of length 4 with the secret 5: commitment, proof at 7, value 162; 163 is refused. -/
example : ∃ (ks : Ark.Settings (Unit ⊕ Fr) Fr Fr) (proof : Fr), ArkMade arkToy ks 1 1 4 3 5 ∧
    ks.commit [1, 2, 3] = .ok 86 ∧ ks.computeSingle [1, 2, 3] 7 = .ok proof ∧
    ks.checkSingle arkToy 86 proof 7 162 = .ok true ∧ ks.checkSingle arkToy 86 proof 7 163 = .ok false := by
  obtain ⟨ks, h⟩ := arkMade_exists arkToy_lawful (Sum.inl ()) 3 4 (by norm_num)
  have e0 : (drawn arkToy (Sum.inl ())).1 = 5 := by
    simp [drawn, arkToy, toBe64, List.range_succ]
    norm_num
  rw [e0] at h
  obtain ⟨com, proof, h1, h2, h3⟩ := C127_single_complete arkToy_lawful h (by norm_num) [1, 2, 3] (by norm_num) 7
  have e : (polyOf [(1 : Fr), 2, 3]).eval 7 = 162 := by
    rw [eval_polyOf]; simp [Finset.sum_range_succ]; norm_num
  have e' : (polyOf [(1 : Fr), 2, 3]).eval 5 = 86 := by
    rw [eval_polyOf]; simp [Finset.sum_range_succ]; norm_num
  have hc := (C127_commit arkToy_lawful h [1, 2, 3]).1 (by norm_num) (by norm_num)
  rw [e', smul_eq_mul, mul_one] at hc
  rw [hc] at h1
  cases h1
  refine ⟨ks, proof, h, hc, h2, ?_, ?_⟩
  · obtain ⟨b, hb, hiff⟩ := h3 162
    rw [hb, hiff.mpr e.symm]
  · obtain ⟨b, hb, hiff⟩ := h3 163
    rw [hb]
    congr 1
    rw [← Bool.not_eq_true, hiff, e]
    intro h
    have := fr_natCast_inj (a := 163) (b := 162) (by decide +kernel) (by decide +kernel) (by exact_mod_cast h)
    norm_num at this

/-! ## C128: proofs for several points -/

theorem ark_root_prim {B : Ark.Backend P G1 G2 GT} {g1 : G1} {g2 : G2} (hB : B.Lawful g1 g2)
    {ks : Ark.Settings P G1 G2} {L scale : Nat} {s : Fr} (h : ArkMade B ks g1 g2 L scale s) {m : Nat} (hm : m ≤ scale) :
    IsPrimitiveRoot (domainRoot ks.fs scale m) (2 ^ m) := by
  have hw := (h.wf hB).fs.toWF
  rw [← omega_of_wf hw hm]; exact hw.omega_prim hm

/-- C128 (proof): the commitment to the quotient by `X^n - x^n`, for every number of points `n ≥ 1` (a power of two or
not), up to `2^30` coefficients and except for the zero polynomials of `C128_zero_polynomial_panics`. -/
theorem C128_multi_proof {B : Ark.Backend P G1 G2 GT} {g1 : G1} {g2 : G2} (hB : B.Lawful g1 g2)
    {ks : Ark.Settings P G1 G2} {L scale : Nat} {s : Fr} (h : ArkMade B ks g1 g2 L scale s) (hL : 1 ≤ L) {n : Nat}
    (hn : 0 < n) (p : List Fr) (hp : p.length ≤ L + n) (hp' : p.length ≤ 2 ^ 30) (x : Fr)
    (hz : polyOf p = 0 → n < 127 ∨ p.length ≤ n + 1 ∨ n + 128 ≤ p.length) :
    ks.computeMulti p x n = .ok ((polyOf p / (X ^ n - C (x ^ n))).eval s • g1) := by
  refine (h.wf hB).computeMulti hL p x hn hp' hp ?_
  rintro ⟨h0, h1, h2, h3⟩
  have := hz h0
  omega

/-- C128 (partial): for every polynomial that fits the settings, of at most `2^30` coefficients, nonzero point and
power of two `n` within the width and not above the length, the multi proof is accepted with the values on the coset.
Missing from the full statement: the zero polynomials of `C128_zero_polynomial_panics`, larger polynomials, and `n`
above the length, where the check panics (`C128_multi_long_panics`). -/
theorem C128_multi_complete_partial {B : Ark.Backend P G1 G2 GT} {g1 : G1} {g2 : G2} (hB : B.Lawful g1 g2)
    {ks : Ark.Settings P G1 G2} {L scale : Nat} {s : Fr} (h : ArkMade B ks g1 g2 L scale s) {m : Nat} (hm : m ≤ scale)
    (hL : 2 ^ m ≤ L) (p : List Fr) (hp : p.length ≤ L) (hp' : p.length ≤ 2 ^ 30) (x : Fr) (hx0 : x ≠ 0)
    (hz : polyOf p = 0 → 2 ^ m < 127 ∨ p.length ≤ 2 ^ m + 1 ∨ 2 ^ m + 128 ≤ p.length) :
    ∃ com proof, ks.commit p = .ok com ∧ ks.computeMulti p x (2 ^ m) = .ok proof ∧
      ks.checkMulti B com proof x
        ((List.range (2 ^ m)).map fun i => (polyOf p).eval (x * domainRoot ks.fs scale m ^ i)) (2 ^ m) = .ok true := by
  have hpos : 0 < 2 ^ m := by positivity
  refine ⟨_, _, (C127_commit hB h p).1 (by omega) hp,
    C128_multi_proof hB h (by omega) hpos p (by omega) hp' x hz, ?_⟩
  obtain ⟨I, hI, hv, b, hb, hiff⟩ := (h.wf hB).checkMulti hB hm hL ((polyOf p).eval s • g1)
    ((polyOf p / (X ^ 2 ^ m - C (x ^ 2 ^ m))).eval s • g1) x hx0
    ((List.range (2 ^ m)).map fun i => (polyOf p).eval (x * domainRoot ks.fs scale m ^ i)) (by simp)
  have hprim := ark_root_prim hB h hm
  rw [omega_of_wf (h.wf hB).fs.toWF hm] at hv
  obtain ⟨hr1, hr2⟩ := remainder_spec (x := x) hpos hprim.pow_eq_one (polyOf p)
  have hIr : I = polyOf p % (X ^ 2 ^ m - C (x ^ 2 ^ m)) := by
    refine coset_unique hprim hx0 hI hr1 ?_
    intro i hi
    have := hv i hi
    rw [List.getElem?_map, List.getElem?_range hi, Option.map_some, Option.some_inj] at this
    rw [hr2, this]
  rw [hb]
  congr 1
  rw [hiff, ← sub_smul, smul_smul, hIr]
  congr 1
  have := congrArg (eval s) (EuclideanDomain.div_add_mod (polyOf p) (X ^ 2 ^ m - C (x ^ 2 ^ m)))
  rw [eval_add, eval_mul, eval_sub, eval_pow, eval_X, eval_C] at this
  linear_combination -this

/-- C128 (acceptance): exact condition for arbitrary commitment, proof, nonzero point and values; `I` is the
polynomial of degree below `n` through the values on the coset. -/
theorem C128_multi_accepts_iff {B : Ark.Backend P G1 G2 GT} {g1 : G1} {g2 : G2} (hB : B.Lawful g1 g2)
    {ks : Ark.Settings P G1 G2} {L scale : Nat} {s : Fr} (h : ArkMade B ks g1 g2 L scale s) {m : Nat} (hm : m ≤ scale)
    (hL : 2 ^ m ≤ L) (com proof : G1) (x : Fr) (hx0 : x ≠ 0) (ys : List Fr)
    (hys : ys.length = 2 ^ m) (I : Fr[X]) (hI : I.degree < (2 ^ m : Nat))
    (hIv : ∀ i < 2 ^ m, ys[i]? = some (I.eval (x * domainRoot ks.fs scale m ^ i))) :
    (ks.checkMulti B com proof x ys (2 ^ m) = .ok true ∨ ks.checkMulti B com proof x ys (2 ^ m) = .ok false) ∧
    (ks.checkMulti B com proof x ys (2 ^ m) = .ok true ↔
      com - I.eval s • g1 = (s ^ 2 ^ m - x ^ 2 ^ m) • proof) := by
  obtain ⟨J, hJ, hJv, b, hb, hiff⟩ := (h.wf hB).checkMulti hB hm hL com proof x hx0 ys hys
  rw [omega_of_wf (h.wf hB).fs.toWF hm] at hJv
  have hIJ : I = J := by
    refine coset_unique (ark_root_prim hB h hm) hx0 hI hJ ?_
    intro i hi
    exact Option.some_inj.mp ((hIv i hi).symm.trans (hJv i hi))
  rw [hb, hIJ, ← hiff]
  cases b <;> simp

/-- C128 (refused inputs): more values than the length of the settings, the point zero, and a number of values that is
not a power of two within the width panic. -/
theorem C128_multi_long_panics {B : Ark.Backend P G1 G2 GT} {g1 : G1} {g2 : G2} (hB : B.Lawful g1 g2)
    {ks : Ark.Settings P G1 G2} {L scale : Nat} {s : Fr} (h : ArkMade B ks g1 g2 L scale s) (com proof : G1) (x : Fr)
    (ys : List Fr) (n : Nat) :
    (∀ m, m ≤ scale → ys.length = 2 ^ m → n = 2 ^ m → L < 2 ^ m → x ≠ 0 → ks.checkMulti B com proof x ys n = .panic) ∧
    (∀ m, m ≤ scale → ys.length = 2 ^ m → x = 0 → ks.checkMulti B com proof x ys n = .panic) ∧
    ((∀ m, m ≤ scale → ys.length ≠ 2 ^ m) → ks.checkMulti B com proof x ys n = .panic) := by
  have hw := h.wf hB
  refine ⟨?_, ?_, fun hys => hw.checkMulti_count com proof x ys hys n⟩
  · rintro m hm hys rfl hL hx; exact hw.checkMulti_panic hm hL com proof x hx ys hys
  · rintro m hm hys rfl; exact hw.checkMulti_zero hm com proof ys hys n

/-- C128 (zero polynomial): a polynomial of zeros, from 127 points on and of length between `n + 2` and `n + 127`,
panics instead of giving the identity. -/
theorem C128_zero_polynomial_panics (ks : Ark.Settings P G1 G2) (p : List Fr) (x : Fr) {n : Nat}
    (h0 : polyOf p = 0) (hn : 127 ≤ n) (h1 : n + 1 < p.length) (h2 : p.length < n + 128) (hlen : p.length ≤ 2 ^ 30) :
    ks.computeMulti p x n = .panic := computeMulti_zero_panics ks p x hlen ⟨h0, hn, h1, h2⟩

/-- C128 (no points): with `n = 0` the proof is the commitment to the polynomial itself (no refusal). -/
theorem C128_zero_points {B : Ark.Backend P G1 G2 GT} {g1 : G1} {g2 : G2} (hB : B.Lawful g1 g2)
    {ks : Ark.Settings P G1 G2} {L scale : Nat} {s : Fr} (h : ArkMade B ks g1 g2 L scale s) (hL : 1 ≤ L) (p : List Fr)
    (hp : p.length ≤ L) (hp' : p.length ≤ 2 ^ 30) (x : Fr) : ks.computeMulti p x 0 = .ok ((polyOf p).eval s • g1) := by
  obtain ⟨q, h1, h2, h3⟩ := (polyDiv_monic p [1] (n := 0) rfl rfl hp').2 (by rintro ⟨-, h, -⟩; omega)
  unfold Ark.Settings.computeMulti
  rw [divisorPoly_zero, Res.bind_ok, h1, Res.unwrap_ok, Res.bind_ok, (h.wf hB).commit_ok hL q (by omega), h2]
  have : polyOf [(1 : Fr)] = 1 := by simp [polyOf]
  rw [this, EuclideanDomain.div_one]
  rfl

/-- C128 (negation of the full statement): with settings of length 256, the zero polynomial of 200 coefficients has no
proof for 128 points. -/
theorem C128_full_statement_false :
    ¬ ∀ (ks : Ark.Settings (Unit ⊕ Fr) Fr Fr) (L scale m : Nat) (s : Fr) (p : List Fr) (x : Fr),
      ArkMade arkToy ks 1 1 L scale s → m ≤ scale → 2 ^ m ≤ L → p.length ≤ L → x ≠ 0 →
      ∃ proof, ks.computeMulti p x (2 ^ m) = .ok proof := by
  intro hall
  obtain ⟨ks, h⟩ := arkMade_exists arkToy_lawful (Sum.inl ()) 8 256 (by norm_num)
  obtain ⟨proof, hp⟩ := hall ks 256 8 7 _ (List.replicate 200 0) 1 h (by norm_num) (by norm_num)
    (by rw [List.length_replicate]; norm_num) one_ne_zero
  rw [C128_zero_polynomial_panics ks _ 1 (n := 2 ^ 7) (by
    ext i; rw [coeff_polyOf, coeff_zero, List.getD_eq_getElem?_getD, List.getElem?_replicate]; split <;> rfl)
    (by norm_num) (by rw [List.length_replicate]; norm_num) (by rw [List.length_replicate]; norm_num)
    (by rw [List.length_replicate]; norm_num)] at hp
  cases hp

/-- Settings of length 8 with the secret 5: five coefficients, the proof for four points is accepted. -/
example : ∃ (ks : Ark.Settings (Unit ⊕ Fr) Fr Fr) (com proof : Fr), ArkMade arkToy ks 1 1 8 2 5 ∧
    ks.commit [1, 2, 3, 4, 5] = .ok com ∧ ks.computeMulti [1, 2, 3, 4, 5] 9 4 = .ok proof ∧
    ks.checkMulti arkToy com proof 9
      ((List.range 4).map fun i => (polyOf [1, 2, 3, 4, 5]).eval (9 * domainRoot ks.fs 2 2 ^ i)) 4 = .ok true := by
  obtain ⟨ks, h⟩ := arkMade_exists arkToy_lawful (Sum.inl ()) 2 8 (by norm_num)
  have e0 : (drawn arkToy (Sum.inl ())).1 = 5 := by
    simp [drawn, arkToy, toBe64, List.range_succ]
    norm_num
  rw [e0] at h
  have h9 : (9 : Fr) ≠ 0 := by
    have := fr_natCast_inj (a := 9) (b := 0) (by decide +kernel) frModulus_pos
    intro h; exact absurd (this (by exact_mod_cast h)) (by norm_num)
  obtain ⟨com, proof, h1, h2, h3⟩ := C128_multi_complete_partial arkToy_lawful h (m := 2) le_rfl
    (by norm_num) [1, 2, 3, 4, 5] (by norm_num) (by norm_num) 9 h9 (fun _ => Or.inl (by norm_num))
  exact ⟨ks, com, proof, h, h1, h2, h3⟩

end Kzg.Props
