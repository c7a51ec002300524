import Verif.Proofs.Zk.KzgFK20
import Verif.Props.ZkPoly
import Verif.Props.KZG
/-!
# Properties C86–C89: commitments and proofs of zkcrypto

Scalars are the word vectors `ScW`, points are coordinate triples. `Top.At1 p x` says that the coordinates `p` stand
for `x · g1`, `Top.At2 p x` the same in the second group. `chk` says whether the build has overflow checks; where it
does not appear the build does not matter.
-/

set_option linter.unusedSectionVars false

namespace Kzg.Props
open Kzg Kzg.Res Kzg.Zk Kzg.Zk.Top CurveConsts Polynomial ScW

/-! ## C86: the trusted setup -/

/-- The list holds coordinates of `k^i · g` for `i < N`. -/
def HoldsPowers {K : Type} [Field K] [DecidableEq K] [CurveConsts K] [DecidableEq (curve (b (K := K))).Point]
    (l : List (Projective K)) (g : (curve (b (K := K))).Point) (k N : Nat) : Prop :=
  l.length = N ∧ ∀ i < N, ∃ p, l[i]? = some p ∧ Projective.Is b p ((k ^ i) • g)

/-- The full statement of C86: a secret below the group order gives its powers times the generators. -/
def SetupRight (chk : Bool) : Prop :=
  ∀ (N : Nat) (secret : List Nat), secret.length = 32 → (∀ c ∈ secret, c < 256) → fromLe secret < frModulus →
    ∃ s1 s2, Top.generateTrustedSetup chk N secret = .ok (s1, s2) ∧ HoldsPowers s1 G1.gen (fromLe secret) N ∧
      HoldsPowers s2 G2.gen (fromLe secret) N

theorem el_natPow {s : ScW} {k : Nat} (h : el s = (k : Fr)) (i : Nat) : el (s ^ i) = ((k ^ i : Nat) : Fr) := by
  rw [el_pow, h, Nat.cast_pow]

theorem good_pow {s : ScW} {k : Nat} (h : el s = (k : Fr)) (i : Nat) :
    Good (s ^ i) ↔ ¬ RoundingOverflows (k ^ i % frModulus) := by
  unfold Good
  rw [el_natPow h, ZMod.val_natCast]

theorem holdsPowers1 {l : List G1.Proj} {s : ScW} {k N : Nat} (h : el s = (k : Fr))
    (hl : RelL At1 l ((List.range N).map fun i => s ^ i)) : HoldsPowers l G1.gen k N := by
  refine ⟨by rw [hl.length]; simp, fun i hi => ?_⟩
  obtain ⟨p, e, hp⟩ := hl.getElem? (i := i) (b := s ^ i) (by
    rw [List.getElem?_map, List.getElem?_range hi, Option.map_some])
  refine ⟨p, e, ?_⟩
  unfold At1 at hp
  rw [el_natPow h, ZMod.val_natCast, mod_nsmul G1.order_gen] at hp
  exact hp

theorem holdsPowers2 {l : List G2.Proj} {s : ScW} {k N : Nat} (h : el s = (k : Fr))
    (hl : RelL At2 l ((List.range N).map fun i => s ^ i)) : HoldsPowers l G2.gen k N := by
  refine ⟨by rw [hl.length]; simp, fun i hi => ?_⟩
  obtain ⟨p, e, hp⟩ := hl.getElem? (i := i) (b := s ^ i) (by
    rw [List.getElem?_map, List.getElem?_range hi, Option.map_some])
  refine ⟨p, e, ?_⟩
  unfold At2 at hp
  rw [el_natPow h, ZMod.val_natCast, mod_nsmul G2.order_gen] at hp
  exact hp

/-- C86 (partial): in either build the setup holds the powers of the secret in both groups if the rounding of the
scalar multiplication overflows for none of them. Missing from the full statement `SetupRight`: the other secrets, for
which it is false (`C86_refuted_debug`, `C86_refuted_release`). -/
theorem C86_setup_partial (chk : Bool) (N : Nat) {secret : List Nat} (hl : secret.length = 32)
    (hb : ∀ c ∈ secret, c < 256) (hlt : fromLe secret < frModulus)
    (hG : ∀ i < N, ¬ RoundingOverflows (fromLe secret ^ i % frModulus)) :
    ∃ s1 s2, Top.generateTrustedSetup chk N secret = .ok (s1, s2) ∧ HoldsPowers s1 G1.gen (fromLe secret) N ∧
      HoldsPowers s2 G2.gen (fromLe secret) N := by
  obtain ⟨s, es, hs⟩ := (scalarOfBytes_spec hl hb).1 hlt
  obtain ⟨q, e, h1, h2⟩ := setupLoop_ok chk s N fun i hi => (good_pow hs i).2 (hG i hi)
  refine ⟨q.1, q.2, ?_, holdsPowers1 hs h1, holdsPowers2 hs h2⟩
  rw [Top.generateTrustedSetup, es, Option.elim_some, bind_ok, e]

/-- C86: with overflow checks the setup panics if the rounding overflows for one of the powers. -/
theorem C86_debug_panics (N : Nat) {secret : List Nat} (hl : secret.length = 32) (hb : ∀ c ∈ secret, c < 256)
    (hlt : fromLe secret < frModulus) :
    Top.generateTrustedSetup true N secret = .panic ↔ ∃ i < N, RoundingOverflows (fromLe secret ^ i % frModulus) := by
  constructor
  · intro h
    by_contra hn
    push Not at hn
    obtain ⟨s1, s2, e, -⟩ := C86_setup_partial true N hl hb hlt hn
    rw [e] at h
    cases h
  · rintro ⟨i, hi, ho⟩
    obtain ⟨s, es, hs⟩ := (scalarOfBytes_spec hl hb).1 hlt
    rw [Top.generateTrustedSetup, es, Option.elim_some, bind_ok]
    exact setupLoop_panic s N ⟨i, hi, fun hg => (good_pow hs i).1 hg ho⟩

/-- C86: secrets from the group order on panic in either build, while blst-from-scratch reduces them. -/
theorem C86_large_secret_panics (chk : Bool) (N : Nat) {secret : List Nat} (hl : secret.length = 32)
    (hb : ∀ c ∈ secret, c < 256) (hlt : frModulus ≤ fromLe secret) : Top.generateTrustedSetup chk N secret = .panic := by
  rw [Top.generateTrustedSetup, (scalarOfBytes_spec hl hb).2 hlt, Option.elim_none, bind_panic]

/-- The bytes of `2^64·λ` as a secret. -/
def badSecret : List Nat := toLe 32 G1.badNat

theorem badSecret_spec : badSecret.length = 32 ∧ (∀ c ∈ badSecret, c < 256) ∧ fromLe badSecret = G1.badNat ∧
    G1.badNat < frModulus := by
  refine ⟨toLe_length .., toLe_bytes _ _, ?_, ?_⟩ <;> decide +kernel

/-- C86 fails in a debug build: the secret `2^64·λ` panics from two points on. -/
theorem C86_refuted_debug : ¬ SetupRight true := by
  obtain ⟨hl, hb, hv, hlt⟩ := badSecret_spec
  intro h
  obtain ⟨s1, s2, e, -⟩ := h 2 badSecret hl hb (by rw [hv]; exact hlt)
  rw [(C86_debug_panics 2 hl hb (by rw [hv]; exact hlt)).2 ⟨1, by norm_num, by
    rw [hv, pow_one, Nat.mod_eq_of_lt hlt]; exact badNat_overflows⟩] at e
  cases e

/-- C86 fails in a release build: with the secret `2^64·λ` the second point of the first group is not the secret
times the generator. -/
theorem C86_refuted_release : ¬ SetupRight false := by
  obtain ⟨hl, hb, hv, hlt⟩ := badSecret_spec
  intro h
  obtain ⟨s1, s2, e, h1, -⟩ := h 2 badSecret hl hb (by rw [hv]; exact hlt)
  obtain ⟨s, es, hs⟩ := (scalarOfBytes_spec hl hb).1 (by rw [hv]; exact hlt)
  rw [hv] at hs
  have hsb : s = badScalar := el_inj (hs.trans badScalar_el.symm)
  obtain ⟨q, eq, hz⟩ := at1_mul_bad at1_gen
  rw [mul_one] at hz
  rw [← hsb] at eq
  obtain ⟨p, ep, -⟩ := at1_mul false at1_gen (s := 1) (by
    unfold Good; rw [el_one, Msm.val_one]; exact C54_small_scalars (by norm_num))
  rw [Top.generateTrustedSetup, es, Option.elim_some, bind_ok, Top.setupLoop, ep, bind_ok] at e
  dsimp only at e
  rw [Top.setupLoop, one_mul, eq, bind_ok, Top.setupLoop] at e
  have e1 : [p, q] = s1 := congrArg Prod.fst (Res.ok.inj e)
  obtain ⟨p', e', hp⟩ := h1.2 1 (by norm_num)
  rw [← e1] at e'
  have : p' = q := (Option.some.inj e').symm
  rw [hv, pow_one, this] at hp
  apply wrong_ne_bad
  refine (at1_unique hz ?_).trans hsb
  unfold At1
  rw [hs, ZMod.val_natCast, mod_nsmul G1.order_gen]
  exact hp

/-- The secret of the tests and benchmarks, kzg-bench/src/tests/kzg_proofs.rs:3-6. -/
def testSecret : List Nat := toLe 32 0x1853cc084deab6c828953173a4

theorem test_powers : powersOk 0x1853cc084deab6c828953173a4 16385 1 = true := by decide +kernel

theorem test_ok {i : Nat} (hi : i < 16385) :
    ¬ RoundingOverflows (0x1853cc084deab6c828953173a4 ^ i % frModulus) := by
  have h1 : 0x1853cc084deab6c828953173a4 ^ 0 % frModulus = 1 := by
    rw [pow_zero]; exact Nat.mod_eq_of_lt (by decide +kernel)
  have := powersOk_spec 0x1853cc084deab6c828953173a4 16385 0 (h1 ▸ test_powers) i hi
  rwa [Nat.zero_add] at this

theorem testSecret_val : fromLe testSecret = 0x1853cc084deab6c828953173a4 := by decide +kernel

/-- C86 (the tests): the secret of the tests gives a right setup of every length up to 16385 in either build. -/
theorem C86_test_secret (chk : Bool) {N : Nat} (hN : N ≤ 16385) :
    ∃ s1 s2, Top.generateTrustedSetup chk N testSecret = .ok (s1, s2) ∧
      HoldsPowers s1 G1.gen 0x1853cc084deab6c828953173a4 N ∧ HoldsPowers s2 G2.gen 0x1853cc084deab6c828953173a4 N := by
  have hlt : fromLe testSecret < frModulus := by rw [testSecret_val]; decide +kernel
  have := C86_setup_partial chk N (secret := testSecret) (toLe_length ..) (toLe_bytes _ _) hlt
    (fun i hi => by rw [testSecret_val]; exact test_ok (by omega))
  rwa [testSecret_val] at this

/-- Three points with the secret 5: `g`, `5g`, `25g`. -/
example (chk : Bool) : ∃ s1 s2 p, Top.generateTrustedSetup chk 3 (toLe 32 5) = .ok (s1, s2) ∧ s1[2]? = some p ∧
    Projective.Is b p (25 • G1.gen) := by
  have hv : fromLe (toLe 32 5) = 5 := by decide +kernel
  obtain ⟨s1, s2, e, h, -⟩ := C86_setup_partial chk 3 (secret := toLe 32 5) (toLe_length ..) (toLe_bytes _ _)
    (by rw [hv]; decide +kernel) (fun i hi => by
      rw [hv]
      exact C54_small_scalars (lt_of_le_of_lt (Nat.mod_le _ _)
        (lt_of_le_of_lt (Nat.pow_le_pow_right (by norm_num) hi.le) (by norm_num))))
  rw [hv] at h
  obtain ⟨p, e', hp⟩ := h.2 2 (by norm_num)
  exact ⟨s1, s2, p, e, e', hp⟩

/-! ## C87: commitments -/

/-- `ks` was made by `generate_trusted_setup` of length `N` and `KZGSettings::new` over FFT settings of the given
scale, with a secret that C86 covers; `s` is the secret. -/
def ZkMadeFrom (chk : Bool) (ks : Settings) (N scale : Nat) (s : ScW) : Prop :=
  ∃ (fs : FFTSettings ScW) (secret : List Nat) (s1 : List G1.Proj) (s2 : List G2.Proj),
    secret.length = 32 ∧ (∀ c ∈ secret, c < 256) ∧ el s = (fromLe secret : Fr) ∧
    (chk = true ∨ ∀ i < N, ¬ RoundingOverflows (fromLe secret ^ i % frModulus)) ∧
    FFTSettings.new scale = .ok fs ∧ Top.generateTrustedSetup chk N secret = .ok (s1, s2) ∧ Top.new s1 s2 N fs = .ok ks

theorem ZkMadeFrom.setup {chk : Bool} {ks : Settings} {N scale : Nat} {s : ScW} (h : ZkMadeFrom chk ks N scale s) :
    SetupOf ks s N ∧ ks.fs.WF scale := by
  obtain ⟨fs, secret, s1, s2, hl, hb, hs, hc, hfs, hg, hk⟩ := h
  have hks := Res.ok.inj hk
  have hlt : fromLe secret < frModulus := by
    by_contra hn
    rw [C86_large_secret_panics chk N hl hb (by omega)] at hg
    cases hg
  have hG : ∀ i < N, ¬ RoundingOverflows (fromLe secret ^ i % frModulus) := by
    rcases hc with rfl | hc
    · intro i hi ho
      rw [(C86_debug_panics N hl hb hlt).2 ⟨i, hi, ho⟩] at hg
      cases hg
    · exact hc
  obtain ⟨t, et, ht⟩ := (scalarOfBytes_spec hl hb).1 hlt
  have hts : t = s := el_inj (ht.trans hs.symm)
  subst hts
  obtain ⟨q, e, h1, h2⟩ := setupLoop_ok chk t N fun i hi => (good_pow hs i).2 (hG i hi)
  rw [Top.generateTrustedSetup, et, Option.elim_some, bind_ok, e] at hg
  have hq := Res.ok.inj hg
  subst hks
  rw [hq] at h1 h2
  exact ⟨⟨h1, h2⟩, wf_of_new hfs⟩

/-- Settings with the secret of the tests exist for every length up to 16385 and scale below 32. -/
theorem zkMadeFrom_exists (chk : Bool) {N scale : Nat} (hN : N ≤ 16385) (hs : scale < 32) :
    ∃ ks s, ZkMadeFrom chk ks N scale s ∧ el s = (0x1853cc084deab6c828953173a4 : Nat) := by
  obtain ⟨s1, s2, e, -⟩ := C86_test_secret chk hN
  obtain ⟨fs, hfs, -⟩ := new_spec (F := ScW) hs
  obtain ⟨s, hs⟩ := el_surj ((fromLe testSecret : Nat) : Fr)
  refine ⟨⟨fs, s1, s2⟩, s, ⟨fs, testSecret, s1, s2, toLe_length .., toLe_bytes _ _, hs, Or.inr fun i hi => ?_, hfs, e,
    rfl⟩, by rw [hs, testSecret_val]⟩
  rw [testSecret_val]
  exact test_ok (by omega)

/-- C87 (value): the commitment to every polynomial no longer than the setup is `p(s) · g1`, in either build and with
no exception for the identity (unlike C25). -/
theorem C87_commit {chk : Bool} {ks : Settings} {N scale : Nat} {s : ScW} (h : ZkMadeFrom chk ks N scale s)
    (p : List ScW) (hp : p.length ≤ N) : ∃ c, commitToPoly ks p = .ok c ∧ At1 c ((polyOf p).eval s) := by
  obtain ⟨c, e, hc⟩ := h.setup.1.commit p hp
  exact ⟨c, by rw [commitToPoly, e, unwrap_ok], hc⟩

/-- C87 (equality): two commitments compare equal exactly if the polynomials agree at the secret. -/
theorem C87_commit_eq {chk : Bool} {ks : Settings} {N scale : Nat} {s : ScW} (h : ZkMadeFrom chk ks N scale s)
    (p q : List ScW) (hp : p.length ≤ N) (hq : q.length ≤ N) :
    ∃ c d, commitToPoly ks p = .ok c ∧ commitToPoly ks q = .ok d ∧
      (c.ctEq d = true ↔ (polyOf p).eval s = (polyOf q).eval s) := by
  obtain ⟨c, e, hc⟩ := C87_commit h p hp
  obtain ⟨d, f, hd⟩ := C87_commit h q hq
  exact ⟨c, d, e, f, at1_ctEq hc hd⟩

/-- C87 (linearity): commitments add, and the group operation of the library on them is the one of polynomials. -/
theorem C87_commit_add {chk : Bool} {ks : Settings} {N scale : Nat} {s : ScW} (h : ZkMadeFrom chk ks N scale s)
    (p q t : List ScW) (hp : p.length ≤ N) (hq : q.length ≤ N) (ht : t.length ≤ N) (hpq : polyOf t = polyOf p + polyOf q) :
    ∃ c d e, commitToPoly ks p = .ok c ∧ commitToPoly ks q = .ok d ∧ commitToPoly ks t = .ok e ∧
      (Projective.add c d).ctEq e = true := by
  obtain ⟨c, ec, hc⟩ := C87_commit h p hp
  obtain ⟨d, ed, hd⟩ := C87_commit h q hq
  obtain ⟨e, ee, he⟩ := C87_commit h t ht
  refine ⟨c, d, e, ec, ed, ee, (at1_ctEq (at1_add hc hd) he).2 ?_⟩
  rw [hpq, eval_add]

/-- C87 (rejection fails): a polynomial longer than the setup is not an error, as in blst-from-scratch (C25), but a
panic: the trait function unwraps the error. -/
theorem C87_too_long_panics (ks : Settings) (p : List ScW) (hp : ks.secretG1.length < p.length) :
    (∃ msg, polyCommit p ks = .err msg) ∧ commitToPoly ks p = .panic := by
  have e : polyCommit p ks = .err "Poly given is too long" := by rw [polyCommit, if_pos hp]
  exact ⟨⟨_, e⟩, by rw [commitToPoly, e]; rfl⟩

/-- C87 (settings): `KZGSettings::new` accepts everything, also setups shorter than the width and a length that does
not match (the counterpart of C25 for settings is false). -/
theorem C87_new_accepts (s1 : List G1.Proj) (s2 : List G2.Proj) (length : Nat) (fs : FFTSettings ScW) :
    Top.new s1 s2 length fs = .ok ⟨fs, s1, s2⟩ := rfl

/-- The commitment to `1 + 2x + 3x²` with the secret of the tests. -/
example : ∃ ks s c, ZkMadeFrom false ks 17 4 s ∧ commitToPoly ks [1, 2, 3] = .ok c ∧ At1 c (1 + 2 * s + 3 * s ^ 2) := by
  obtain ⟨ks, s, h, -⟩ := zkMadeFrom_exists false (N := 17) (scale := 4) (by norm_num) (by norm_num)
  obtain ⟨c, e, hc⟩ := C87_commit h [1, 2, 3] (by norm_num)
  refine ⟨ks, s, c, h, e, ?_⟩
  rw [eval_polyOf] at hc
  simp [Finset.sum_range_succ] at hc
  exact hc

/-! ## C88: proofs for one point -/

theorem zk_linear_div (p : List ScW) (x : ScW) :
    polyOf p = polyOf p / (X ^ 2 ^ 0 - C (x ^ 2 ^ 0)) * (X - C x) + C ((polyOf p).eval x) := by
  rw [pow_zero, pow_one, pow_one]
  have h := EuclideanDomain.div_add_mod (polyOf p) (X - C x)
  rw [mod_X_sub_C_eq_C_eval] at h
  rw [mul_comm, h]

/-- The full statement of C88: for every polynomial that fits the setup and every point, the single proof exists and
verifies against the commitment with the value of the polynomial. -/
def SingleComplete (chk : Bool) : Prop :=
  ∀ (ks : Settings) (N scale : Nat) (s : ScW), ZkMadeFrom chk ks N scale s → 2 ≤ N → ∀ p : List ScW, p.length ≤ N →
    p.length ≤ 2 ^ 30 → ∀ x, ∃ com proof, commitToPoly ks p = .ok com ∧ computeProofSingle ks p x = .ok proof ∧
      checkProofSingle chk ks com proof x ((polyOf p).eval x) = .ok true

theorem zk_natDegree_lt {p : List ScW} (hp0 : polyOf p ≠ 0) : (polyOf p).natDegree < p.length :=
  (natDegree_lt_iff_degree_lt hp0).2 (degree_polyOf_lt p)

/-- C88 (acceptance): for arbitrary commitment and proof in the group and arbitrary point, and every value for which
the multiplication does not overflow, the check accepts exactly if `com − y·g1 = (s − x)·proof`, and never fails. -/
theorem C88_accepts_iff {chk : Bool} {ks : Settings} {N scale : Nat} {s : ScW} (h : ZkMadeFrom chk ks N scale s)
    (hN : 2 ≤ N) {com proof : G1.Proj} {c π : ScW} (hc : At1 com c) (hp : At1 proof π) (x y : ScW)
    (hy : ¬ RoundingOverflows (el y).val) :
    checkProofSingle chk ks com proof x y = .ok (decide (c - y = π * (s - x))) :=
  h.setup.1.checkSingle chk hN hc hp x y hy

/-- C88 (partial): for every nonzero polynomial that fits the setup and every point, the single proof verifies with the
value of the polynomial, unless the multiplication by that value overflows. Missing from the full statement
`SingleComplete`: the zero polynomial (`C88_refuted_zero`) and the values that overflow (`C88_refuted_release`), where it
is false. -/
theorem C88_complete_partial {chk : Bool} {ks : Settings} {N scale : Nat} {s : ScW} (h : ZkMadeFrom chk ks N scale s)
    (hN : 2 ≤ N) (p : List ScW) (hp : p.length ≤ N) (hp' : p.length ≤ 2 ^ 30) (hp0 : polyOf p ≠ 0) (x : ScW)
    (hy : ¬ RoundingOverflows (el ((polyOf p).eval x)).val) :
    ∃ com proof, commitToPoly ks p = .ok com ∧ computeProofSingle ks p x = .ok proof ∧
      checkProofSingle chk ks com proof x ((polyOf p).eval x) = .ok true := by
  obtain ⟨com, e, hc⟩ := C87_commit h p hp
  have hd := zk_natDegree_lt hp0
  obtain ⟨proof, e', hq⟩ := h.setup.1.computeMulti p x (m := 0) hp0 (by omega) (by omega)
  rw [pow_zero] at e'
  refine ⟨com, proof, e, e', ?_⟩
  rw [C88_accepts_iff h hN hc hq x _ hy, decide_eq_true]
  have := congrArg (eval s) (zk_linear_div p x)
  rw [eval_add, eval_mul, eval_sub, eval_X, eval_C, eval_C] at this
  linear_combination this

/-- C88 (binding): the computed proof is accepted for `y` exactly if `y` is the value of the polynomial. -/
theorem C88_binding {chk : Bool} {ks : Settings} {N scale : Nat} {s : ScW} (h : ZkMadeFrom chk ks N scale s)
    (hN : 2 ≤ N) (p : List ScW) (hp : p.length ≤ N) (hp' : p.length ≤ 2 ^ 30) (hp0 : polyOf p ≠ 0) (x y : ScW)
    (hy : ¬ RoundingOverflows (el y).val) :
    ∃ com proof, commitToPoly ks p = .ok com ∧ computeProofSingle ks p x = .ok proof ∧
      checkProofSingle chk ks com proof x y = .ok (decide (y = (polyOf p).eval x)) := by
  obtain ⟨com, e, hc⟩ := C87_commit h p hp
  have hd := zk_natDegree_lt hp0
  obtain ⟨proof, e', hq⟩ := h.setup.1.computeMulti p x (m := 0) hp0 (by omega) (by omega)
  rw [pow_zero] at e'
  refine ⟨com, proof, e, e', ?_⟩
  rw [C88_accepts_iff h hN hc hq x _ hy]
  congr 1
  rw [decide_eq_decide]
  have := congrArg (eval s) (zk_linear_div p x)
  rw [eval_add, eval_mul, eval_sub, eval_X, eval_C, eval_C] at this
  constructor
  · intro h1
    linear_combination this - h1
  · rintro rfl
    linear_combination this

/-- C88 (one proof per value): away from the secret, of the proofs in the group exactly one is accepted for each
claimed value. -/
theorem C88_unique_proof {chk : Bool} {ks : Settings} {N scale : Nat} {s : ScW} (h : ZkMadeFrom chk ks N scale s)
    (hN : 2 ≤ N) {com : G1.Proj} {c : ScW} (hc : At1 com c) (x y : ScW) (hx : x ≠ s)
    (hy : ¬ RoundingOverflows (el y).val) :
    (∃ proof π, At1 proof π ∧ checkProofSingle chk ks com proof x y = .ok true) ∧
    ∀ p q π π', At1 p π → At1 q π' → checkProofSingle chk ks com p x y = .ok true →
      checkProofSingle chk ks com q x y = .ok true → p.ctEq q = true := by
  have hsx : s - x ≠ 0 := sub_ne_zero.mpr hx.symm
  constructor
  · obtain ⟨p, hp⟩ := at1_exists ((c - y) / (s - x))
    refine ⟨p, _, hp, ?_⟩
    rw [C88_accepts_iff h hN hc hp x y hy, decide_eq_true (div_mul_cancel₀ _ hsx).symm]
  · intro p q π π' hp hq e e'
    rw [C88_accepts_iff h hN hc hp x y hy] at e
    rw [C88_accepts_iff h hN hc hq x y hy] at e'
    rw [at1_ctEq hp hq]
    exact mul_right_cancel₀ hsx ((of_decide_eq_true (Res.ok.inj e)).symm.trans (of_decide_eq_true (Res.ok.inj e')))

/-- C88 (small setups): a setup of fewer than two points has no second point in the second group; every check
panics. -/
theorem C88_tiny_setup {chk : Bool} {ks : Settings} {N scale : Nat} {s : ScW} (h : ZkMadeFrom chk ks N scale s)
    (hN : N < 2) (com proof : G1.Proj) (x y : ScW) : checkProofSingle chk ks com proof x y = .panic := by
  rw [checkProofSingle, rd_of_ge (by rw [h.setup.1.s2.length]; simp; omega), bind_panic]

/-- C88 (zero polynomial): computing a proof for a polynomial without nonzero coefficient panics, with any settings. -/
theorem C88_zero_panics (ks : Settings) (p : List ScW) (x : ScW) (hp : polyOf p = 0) :
    computeProofSingle ks p x = .panic := by
  obtain ⟨d, hd1, -, hdp, -⟩ := cosetDivisor_spec x 1 (by norm_num)
  have hd0 : polyOf d ≠ 0 := by rw [hdp]; exact (monic_X_pow_sub_C _ (by norm_num)).ne_zero
  rw [computeProofSingle, computeProofMulti, if_neg (by decide), hd1, bind_ok, ZkP.polyDiv_of_zero p d hp hd0]
  rfl

/-- C88 fails for the zero polynomial in either build. -/
theorem C88_refuted_zero (chk : Bool) : ¬ SingleComplete chk := by
  intro hall
  obtain ⟨ks, s, h, -⟩ := zkMadeFrom_exists chk (N := 4) (scale := 2) (by norm_num) (by norm_num)
  obtain ⟨com, proof, -, e, -⟩ := hall ks 4 2 s h (by norm_num) [] (by norm_num) (by norm_num) 1
  rw [C88_zero_panics ks [] 1 (by rw [polyOf_nil])] at e
  cases e

/-- C88 (debug): with overflow checks the check panics for every value for which the rounding overflows. -/
theorem C88_debug_panics {ks : Settings} {N scale : Nat} {s : ScW} {chk : Bool} (h : ZkMadeFrom chk ks N scale s)
    (hN : 2 ≤ N) (com proof : G1.Proj) (x y : ScW) (hy : RoundingOverflows (el y).val) :
    checkProofSingle true ks com proof x y = .panic := by
  obtain ⟨s2, e2, -⟩ := h.setup.1.s2.getElem? (i := 1) (b := s) (by
    rw [List.getElem?_map, List.getElem?_range (by omega), Option.map_some, pow_one])
  rw [checkProofSingle, rd_of_getElem? e2, bind_ok, at1_mul_panic at1_gen (s := y) (not_not.2 hy), bind_panic]

/-- C88 fails in a release build also for nonzero polynomials: for the constant `2^64·λ` the commitment and the proof
are right, and the check rejects. -/
theorem C88_refuted_release {ks : Settings} {N scale : Nat} {s : ScW} {chk : Bool} (h : ZkMadeFrom chk ks N scale s)
    (hN : 2 ≤ N) (x : ScW) : ∃ y com proof, polyOf [y] ≠ 0 ∧ commitToPoly ks [y] = .ok com ∧ At1 com y ∧
      computeProofSingle ks [y] x = .ok proof ∧ At1 proof 0 ∧ checkProofSingle false ks com proof x y = .ok false := by
  obtain ⟨y, hy⟩ : ∃ y, y = badScalar := ⟨_, rfl⟩
  have hpoly : polyOf [y] = C y := by
    ext i
    rw [coeff_polyOf, coeff_C]
    cases i <;> simp
  have hp0 : polyOf [y] ≠ 0 := by rw [hpoly]; exact C_ne_zero.mpr (hy ▸ badScalar_ne)
  obtain ⟨com, e, hc⟩ := C87_commit h [y] (by simp; omega)
  have hd := zk_natDegree_lt hp0
  simp only [List.length_singleton] at hd
  obtain ⟨proof, e', hq⟩ := h.setup.1.computeMulti [y] x (m := 0) hp0 (by omega) (by omega)
  have hdiv : (polyOf [y] / (X ^ 2 ^ 0 - C (x ^ 2 ^ 0))).eval s = 0 := by
    rw [pow_zero, pow_one, pow_one, hpoly, Polynomial.div_eq_zero_iff (X_sub_C_ne_zero x) |>.2, eval_zero]
    rw [degree_X_sub_C]
    exact lt_of_le_of_lt degree_C_le (by norm_num)
  rw [hdiv] at hq
  rw [hpoly, eval_C] at hc
  refine ⟨y, com, proof, hp0, e, hc, by rw [pow_zero] at e'; exact e', hq, ?_⟩
  obtain ⟨q, eq, hz⟩ := at1_mul_bad at1_gen
  rw [mul_one] at hz
  rw [← hy] at eq
  obtain ⟨s2, e2, h2⟩ := h.setup.1.s2.getElem? (i := 1) (b := s) (by
    rw [List.getElem?_map, List.getElem?_range (by omega), Option.map_some, pow_one])
  have hx := at2_mul (s := x) at2_gen
  rw [mul_one] at hx
  rw [checkProofSingle, rd_of_getElem? e2, bind_ok, eq, bind_ok,
    verify_at (at1_sub hc hz) at2_gen hq (at2_sub h2 hx), mul_one, zero_mul]
  congr 1
  rw [decide_eq_false_iff_not]
  exact fun h0 => wrong_ne_bad ((sub_eq_zero.1 h0).symm.trans hy)

/-- The test of kzg-bench/src/tests/kzg_proofs.rs:8-51 with three coefficients: the proof for `1 + 2x + 3x²` at 25 is
accepted with the value 1926 and rejected with 1927. -/
example (chk : Bool) : ∃ ks s com proof, ZkMadeFrom chk ks 17 4 s ∧ commitToPoly ks [1, 2, 3] = .ok com ∧
    computeProofSingle ks [1, 2, 3] 25 = .ok proof ∧ checkProofSingle chk ks com proof 25 1926 = .ok true ∧
    checkProofSingle chk ks com proof 25 1927 = .ok false := by
  obtain ⟨ks, s, h, -⟩ := zkMadeFrom_exists chk (N := 17) (scale := 4) (by norm_num) (by norm_num)
  have hsmall : ∀ n : Nat, n < 2 ^ 191 → ¬ RoundingOverflows (el ((n : Nat) : ScW)).val := fun n hn => by
    rw [el_natCast, ZMod.val_natCast]
    exact C54_small_scalars (lt_of_le_of_lt (Nat.mod_le _ _) hn)
  have hev : (polyOf [(1 : ScW), 2, 3]).eval 25 = 1926 := by
    rw [eval_polyOf]
    simp [Finset.sum_range_succ]
    norm_num
  have hp0 : polyOf [(1 : ScW), 2, 3] ≠ 0 := by
    intro h0
    have := congrArg (fun q => coeff q 0) h0
    simp [coeff_polyOf] at this
  obtain ⟨com, proof, e, e', hc⟩ := C88_binding h (by norm_num) [1, 2, 3] (by norm_num) (by norm_num) hp0 25 1926
    (hsmall 1926 (by norm_num))
  obtain ⟨com', proof', f, f', hc'⟩ := C88_binding h (by norm_num) [1, 2, 3] (by norm_num) (by norm_num) hp0 25 1927
    (hsmall 1927 (by norm_num))
  rw [e] at f
  rw [e'] at f'
  cases f
  cases f'
  refine ⟨ks, s, com, proof, h, e, e', ?_, ?_⟩
  · rw [hc, hev]; simp only [decide_true]
  · have hne : (1927 : ScW) ≠ 1926 := fun h0 => one_ne_zero (α := ScW) (by linear_combination h0)
    rw [hc', hev, decide_eq_false hne]

/-! ## C89: proofs for many points -/

/-- The `2^m`-th root of unity of settings of the given scale. -/
def zkCosetRoot (ks : Settings) (scale m : Nat) : ScW := ks.fs.rootOfUnity ^ 2 ^ (scale - m)

theorem zkCosetRoot_eq {chk : Bool} {ks : Settings} {N scale : Nat} {s : ScW} (h : ZkMadeFrom chk ks N scale s)
    {m : Nat} (hm : m ≤ scale) : ks.fs.omega (2 ^ m) = zkCosetRoot ks scale m := by
  rw [FFTSettings.omega, h.setup.2.width, Nat.pow_div hm (by omega)]; rfl

theorem zkCosetRoot_prim {chk : Bool} {ks : Settings} {N scale : Nat} {s : ScW} (h : ZkMadeFrom chk ks N scale s)
    {m : Nat} (hm : m ≤ scale) : IsPrimitiveRoot (zkCosetRoot ks scale m) (2 ^ m) := by
  rw [← zkCosetRoot_eq h hm]; exact h.setup.2.omega_prim hm

theorem zk_coset_unique {ω x : ScW} {n : Nat} (hω : IsPrimitiveRoot ω n) (hx : x ≠ 0) {p q : ScW[X]}
    (hp : p.degree < n) (hq : q.degree < n) (h : ∀ i < n, p.eval (x * ω ^ i) = q.eval (x * ω ^ i)) : p = q := by
  rw [← sub_eq_zero]
  refine eq_zero_of_degree_lt_of_eval_finset_eq_zero ((Finset.range n).image fun i => x * ω ^ i) ?_ ?_
  · rw [Finset.card_image_of_injOn]
    · rw [Finset.card_range]; exact lt_of_le_of_lt (degree_sub_le p q) (max_lt hp hq)
    · intro i hi j hj hij
      simp only [Finset.coe_range, Set.mem_Iio] at hi hj
      exact hω.pow_inj hi hj (mul_left_cancel₀ hx hij)
  · intro y hy
    obtain ⟨i, hi, rfl⟩ := Finset.mem_image.mp hy
    rw [eval_sub, h i (Finset.mem_range.mp hi), sub_self]

theorem zk_remainder {ω x : ScW} {n : Nat} (hn : 0 < n) (hω : ω ^ n = 1) (p : ScW[X]) :
    (p % (X ^ n - C (x ^ n))).degree < (n : WithBot Nat) ∧
      ∀ i, (p % (X ^ n - C (x ^ n))).eval (x * ω ^ i) = p.eval (x * ω ^ i) := by
  constructor
  · rw [← degree_X_pow_sub_C hn (x ^ n)]
    exact degree_mod_lt _ (X_pow_sub_C_ne_zero hn _)
  · intro i
    have h := congrArg (eval (x * ω ^ i)) (EuclideanDomain.div_add_mod p (X ^ n - C (x ^ n)))
    rw [eval_add, eval_mul, eval_sub, eval_pow, eval_X, eval_C, mul_pow, ← pow_mul, mul_comm i, pow_mul, hω, one_pow,
      mul_one, sub_self, zero_mul, zero_add] at h
    exact h

/-- The full statement of C89: for every polynomial that fits the setup, every point and every power of two within
the width, the multi proof exists and verifies with the values on the coset. -/
def MultiComplete : Prop :=
  ∀ (chk : Bool) (ks : Settings) (N scale : Nat) (s : ScW), ZkMadeFrom chk ks N scale s → ∀ m ≤ scale, 2 ^ m < N →
    ∀ p : List ScW, p.length ≤ N → p.length ≤ 2 ^ 30 → ∀ x, ∃ com proof, commitToPoly ks p = .ok com ∧
      computeProofMulti ks p x (2 ^ m) = .ok proof ∧ checkProofMulti ks com proof x
        ((List.range (2 ^ m)).map fun i => (polyOf p).eval (x * zkCosetRoot ks scale m ^ i)) (2 ^ m) = .ok true

/-- C89 (acceptance): for arbitrary commitment and proof in the group, nonzero point and values, the check accepts
exactly if `com − I(s)·g1 = (s^n − x^n)·proof`, where `I` is the polynomial of degree below `n` through the values on the
coset, and never fails. -/
theorem C89_accepts_iff {chk : Bool} {ks : Settings} {N scale : Nat} {s : ScW} (h : ZkMadeFrom chk ks N scale s)
    {m : Nat} (hm : m ≤ scale) (hN : 2 ^ m < N) {com proof : G1.Proj} {c π : ScW} (hc : At1 com c) (hp : At1 proof π)
    (x : ScW) (hx0 : x ≠ 0) (ys : List ScW) (hys : ys.length = 2 ^ m) (I : ScW[X]) (hI : I.degree < (2 ^ m : Nat))
    (hIv : ∀ i < 2 ^ m, ys[i]? = some (I.eval (x * zkCosetRoot ks scale m ^ i))) :
    checkProofMulti ks com proof x ys (2 ^ m) = .ok (decide (c - I.eval s = π * (s ^ 2 ^ m - x ^ 2 ^ m))) := by
  obtain ⟨J, hJ, hJv, e⟩ := h.setup.1.checkMulti h.setup.2 hm hN hc hp x hx0 ys hys
  rw [zkCosetRoot_eq h hm] at hJv
  have hIJ : I = J := by
    refine zk_coset_unique (zkCosetRoot_prim h hm) hx0 hI hJ ?_
    intro i hi
    exact Option.some_inj.mp ((hIv i hi).symm.trans (hJv i hi))
  rw [e, hIJ]

/-- The computed proof, and the acceptance condition for it with arbitrary claimed values. -/
theorem multi_accepts {chk : Bool} {ks : Settings} {N scale : Nat} {s : ScW} (h : ZkMadeFrom chk ks N scale s)
    {m : Nat} (hm : m ≤ scale) (hN : 2 ^ m < N) (p : List ScW) (hp : p.length ≤ N) (hp' : p.length ≤ 2 ^ 30)
    (hp0 : polyOf p ≠ 0) (x : ScW) (hx0 : x ≠ 0) (J : ScW[X]) (hJ : J.degree < (2 ^ m : Nat)) :
    ∃ com proof, commitToPoly ks p = .ok com ∧ computeProofMulti ks p x (2 ^ m) = .ok proof ∧
      checkProofMulti ks com proof x ((List.range (2 ^ m)).map fun i => J.eval (x * zkCosetRoot ks scale m ^ i)) (2 ^ m) =
        .ok (decide (J.eval s = (polyOf p % (X ^ 2 ^ m - C (x ^ 2 ^ m))).eval s)) := by
  obtain ⟨com, e, hc⟩ := C87_commit h p hp
  have hd := zk_natDegree_lt hp0
  obtain ⟨proof, e', hq⟩ := h.setup.1.computeMulti p x (m := m) hp0 (by omega)
    (le_trans (Nat.sub_le _ _) (by omega))
  refine ⟨com, proof, e, e', ?_⟩
  rw [C89_accepts_iff h hm hN hc hq x hx0 _ (by simp) J hJ (by
    intro i hi
    rw [List.getElem?_map, List.getElem?_range hi, Option.map_some])]
  have := congrArg (eval s) (EuclideanDomain.div_add_mod (polyOf p) (X ^ 2 ^ m - C (x ^ 2 ^ m)))
  rw [eval_add, eval_mul, eval_sub, eval_pow, eval_X, eval_C] at this
  congr 1
  rw [decide_eq_decide]
  constructor
  · intro h1
    linear_combination -h1 - this
  · intro h1
    linear_combination -h1 - this

/-- C89 (partial): for every nonzero polynomial that fits the setup, nonzero point and power of two `n` within the width
and below the setup length, the multi proof verifies with the values on the coset, in either build and for all values.
Missing from the full statement `MultiComplete`: the zero polynomial and the point zero, for which it is false
(`C89_refuted`); setups of exactly `n` points, as in blst-from-scratch (`C89_full_width_panics`). -/
theorem C89_complete_partial {chk : Bool} {ks : Settings} {N scale : Nat} {s : ScW} (h : ZkMadeFrom chk ks N scale s)
    {m : Nat} (hm : m ≤ scale) (hN : 2 ^ m < N) (p : List ScW) (hp : p.length ≤ N) (hp' : p.length ≤ 2 ^ 30)
    (hp0 : polyOf p ≠ 0) (x : ScW) (hx0 : x ≠ 0) :
    ∃ com proof, commitToPoly ks p = .ok com ∧ computeProofMulti ks p x (2 ^ m) = .ok proof ∧
      checkProofMulti ks com proof x
        ((List.range (2 ^ m)).map fun i => (polyOf p).eval (x * zkCosetRoot ks scale m ^ i)) (2 ^ m) = .ok true := by
  obtain ⟨hr1, hr2⟩ := zk_remainder (x := x) (n := 2 ^ m) (by positivity) (zkCosetRoot_prim h hm).pow_eq_one (polyOf p)
  obtain ⟨com, proof, e, e', hc⟩ := multi_accepts h hm hN p hp hp' hp0 x hx0 _ hr1
  refine ⟨com, proof, e, e', ?_⟩
  simp only [hr2, decide_true] at hc
  exact hc

/-- C89 (binding): the computed proof is accepted for the values of a polynomial `J` of degree below `n` exactly if `J` and
the remainder of `p` agree at the secret; an accepted list with a wrong value thus gives a nonzero polynomial of degree below
`n` with the secret as root. -/
theorem C89_binding {chk : Bool} {ks : Settings} {N scale : Nat} {s : ScW} (h : ZkMadeFrom chk ks N scale s)
    {m : Nat} (hm : m ≤ scale) (hN : 2 ^ m < N) (p : List ScW) (hp : p.length ≤ N) (hp' : p.length ≤ 2 ^ 30)
    (hp0 : polyOf p ≠ 0) (x : ScW) (hx0 : x ≠ 0) (J : ScW[X]) (hJ : J.degree < (2 ^ m : Nat)) :
    ∃ (I : ScW[X]) (com proof : G1.Proj), I.degree < (2 ^ m : Nat) ∧
      (∀ i < 2 ^ m, I.eval (x * zkCosetRoot ks scale m ^ i) = (polyOf p).eval (x * zkCosetRoot ks scale m ^ i)) ∧
      commitToPoly ks p = .ok com ∧ computeProofMulti ks p x (2 ^ m) = .ok proof ∧
      checkProofMulti ks com proof x ((List.range (2 ^ m)).map fun i => J.eval (x * zkCosetRoot ks scale m ^ i)) (2 ^ m) =
        .ok (decide ((J - I).eval s = 0)) := by
  obtain ⟨hr1, hr2⟩ := zk_remainder (x := x) (n := 2 ^ m) (by positivity) (zkCosetRoot_prim h hm).pow_eq_one (polyOf p)
  obtain ⟨com, proof, e, e', hc⟩ := multi_accepts h hm hN p hp hp' hp0 x hx0 J hJ
  refine ⟨_, com, proof, hr1, fun i _ => hr2 i, e, e', ?_⟩
  rw [hc]
  congr 1
  rw [decide_eq_decide, eval_sub, sub_eq_zero]

/-- C89 (point zero): with settings made as above the check at zero panics: zero has no inverse (C59), while in
blst-from-scratch it goes on with zero as the inverse. -/
theorem C89_zero_point_panics {chk : Bool} {ks : Settings} {N scale : Nat} {s : ScW} (h : ZkMadeFrom chk ks N scale s)
    {m : Nat} (hm : m ≤ scale) (com proof : G1.Proj) (ys : List ScW) (hys : ys.length = 2 ^ m) (n : Nat)
    (hn : isPowerOfTwo n = true) : checkProofMulti ks com proof 0 ys n = .panic := by
  obtain ⟨cf, hcf, -⟩ := h.setup.2.fft_backward hm ys hys
  rw [checkProofMulti, hn, if_neg (by simp), show ks.fs.fftFr ys true = _ from hcf, bind_ok, ZkP.frInv, if_pos rfl,
    bind_panic]

/-- C89 (zero polynomial): computing a multi proof of the zero polynomial panics. -/
theorem C89_zero_poly_panics (ks : Settings) (p : List ScW) (x : ScW) (m : Nat) (hp : polyOf p = 0) :
    computeProofMulti ks p x (2 ^ m) = .panic := by
  obtain ⟨d, hd1, -, hdp, -⟩ := cosetDivisor_spec x (2 ^ m) (by positivity)
  have hd0 : polyOf d ≠ 0 := by rw [hdp]; exact (monic_X_pow_sub_C _ (by positivity)).ne_zero
  rw [computeProofMulti, isPowerOfTwo_two_pow, if_neg (by simp), hd1, bind_ok, ZkP.polyDiv_of_zero p d hp hd0]
  rfl

/-- C89 fails: at the point zero for every polynomial, and for the zero polynomial at every point. -/
theorem C89_refuted : ¬ MultiComplete := by
  intro hall
  obtain ⟨ks, s, h, -⟩ := zkMadeFrom_exists false (N := 8) (scale := 2) (by norm_num) (by norm_num)
  obtain ⟨com, proof, -, -, e⟩ := hall false ks 8 2 s h 1 (by norm_num) (by norm_num) [1] (by norm_num) (by norm_num) 0
  rw [C89_zero_point_panics h (m := 1) (by norm_num) _ _ _ (by simp) _ (by decide)] at e
  cases e

/-- C89 (full width): with a setup of exactly `n` points the check for `n` values panics. -/
theorem C89_full_width_panics {chk : Bool} {ks : Settings} {scale : Nat} {s : ScW}
    (h : ZkMadeFrom chk ks (2 ^ scale) scale s) (com proof : G1.Proj) (x : ScW) (ys : List ScW)
    (hys : ys.length = 2 ^ scale) : checkProofMulti ks com proof x ys (2 ^ scale) = .panic := by
  obtain ⟨c, hc, hcl, _⟩ := h.setup.2.fft_backward le_rfl ys hys
  by_cases hx0 : x = 0
  · rw [hx0]; exact C89_zero_point_panics h le_rfl com proof ys hys _ (isPowerOfTwo_two_pow _)
  rw [checkProofMulti, isPowerOfTwo_two_pow, if_neg (by simp), show ks.fs.fftFr ys true = _ from hc, bind_ok,
    ZkP.frInv, if_neg hx0, bind_ok, cosetScale_spec c x⁻¹ (2 ^ scale) hcl (by positivity), bind_ok]
  dsimp only
  rw [ZkP.frInv, if_neg (pow_ne_zero _ (inv_ne_zero hx0)), bind_ok, rd_of_ge (by rw [h.setup.1.s2.length]; simp), bind_panic]

/-- C89 (sizes): a number of points that is not a power of two is an error in both functions, and so is a list of values
whose length is not a power of two or exceeds the width. -/
theorem C89_sizes (ks : Settings) (com proof : G1.Proj) (p ys : List ScW) (x : ScW) (n : Nat) :
    (isPowerOfTwo n = false → (∃ msg, computeProofMulti ks p x n = .err msg) ∧
      ∃ msg, checkProofMulti ks com proof x ys n = .err msg) ∧
    (ys.length > ks.fs.maxWidth ∨ isPowerOfTwo ys.length = false →
      ∃ msg, checkProofMulti ks com proof x ys n = .err msg) := by
  constructor
  · intro h
    rw [computeProofMulti, checkProofMulti, h]
    exact ⟨⟨_, rfl⟩, ⟨_, rfl⟩⟩
  · intro h
    rw [checkProofMulti]
    by_cases hn : isPowerOfTwo n = true
    · rw [hn, if_neg (by simp)]
      have : ∃ msg, ks.fs.fftFr ys true = .err msg := by
        unfold FFTSettings.fftFr FFTSettings.fft
        by_cases h1 : ys.length > ks.fs.maxWidth
        · rw [if_pos h1]; exact ⟨_, rfl⟩
        · rw [if_neg h1, h.resolve_left h1]; exact ⟨_, rfl⟩
      obtain ⟨msg, e⟩ := this
      rw [e]
      exact ⟨_, rfl⟩
    · rw [Bool.not_eq_true] at hn
      rw [hn]
      exact ⟨_, rfl⟩

/-- Four values of `1 + 2x + 3x² + 4x³ + 5x⁴` on the coset of 9. -/
example (chk : Bool) : ∃ ks s com proof, ZkMadeFrom chk ks 17 4 s ∧ commitToPoly ks [1, 2, 3, 4, 5] = .ok com ∧
    computeProofMulti ks [1, 2, 3, 4, 5] 9 4 = .ok proof ∧ checkProofMulti ks com proof 9
      ((List.range 4).map fun i => (polyOf [1, 2, 3, 4, 5]).eval (9 * zkCosetRoot ks 4 2 ^ i)) 4 = .ok true := by
  obtain ⟨ks, s, h, -⟩ := zkMadeFrom_exists chk (N := 17) (scale := 4) (by norm_num) (by norm_num)
  have hp0 : polyOf [(1 : ScW), 2, 3, 4, 5] ≠ 0 := by
    intro h0
    have := congrArg (fun q => coeff q 0) h0
    simp [coeff_polyOf] at this
  have h9 : (9 : ScW) ≠ 0 := by
    intro h0
    have h1 := congrArg el h0
    rw [show (9 : ScW) = ((9 : Nat) : ScW) by norm_num, el_natCast, el_zero] at h1
    have h2 := congrArg ZMod.val h1
    rw [ZMod.val_natCast_of_lt (by decide +kernel), ZMod.val_zero] at h2
    exact absurd h2 (by norm_num)
  obtain ⟨com, proof, e, e', hc⟩ := C89_complete_partial h (m := 2) (by norm_num) (by norm_num) [1, 2, 3, 4, 5]
    (by norm_num) (by norm_num) hp0 9 h9
  exact ⟨ks, s, com, proof, h, e, e', hc⟩

end Kzg.Props
