import Verif.Props.ArkPoly
import Verif.Props.Recovery
import Verif.Props.ZeroPoly
import Verif.Props.MclRecover
import Verif.Props.ZkRecover
import Verif.Proofs.Ark.Recover
/-!
# Properties C119–C123: zero polynomials and recovery of the Arkworks backend
-/

namespace Kzg.Props
open Kzg Kzg.Ark Polynomial

/-! ## C119 -/

/-- C119 (one list): the partial zero polynomial is the product of the `x - root[idx·stride]`; the empty list is an
error. -/
theorem C119_product {scale : Nat} {fs : FFTSettings Fr} (hfs : settingsNew scale = .ok fs)
    (idxs : List Nat) (stride : Nat) :
    (idxs ≠ [] → (∀ i ∈ idxs, i * stride ≤ 2 ^ scale) →
      ∃ out, Ark.zeroPolyPartial fs idxs stride = .ok out ∧ out.length = idxs.length + 1 ∧
        polyOf out = (idxs.map fun i => X - C (fs.rootOfUnity ^ (i * stride))).prod ∧
        out.getLast? = some 1) ∧
    ∃ msg, Ark.zeroPolyPartial fs [] stride = .err msg := by
  refine ⟨fun hne hin => ?_, _, rfl⟩
  have hwf := (made_of_new hfs).toWF
  have h := Kzg.zeroPolyPartial_spec fs idxs stride (fun i => fs.rootOfUnity ^ (i * stride)) hne
    (fun i hi => hwf.exp _ (hin i hi))
  obtain ⟨out, h1, h2, _⟩ := (Ark.zeroPolyPartial_sim fs idxs stride).ok _ h
  have hd := linProd_natDegree (fun i => fs.rootOfUnity ^ (i * stride)) idxs
  have hm := linProd_monic (fun i => fs.rootOfUnity ^ (i * stride)) idxs
  refine ⟨out, h1, by rw [h2]; simp, ?_, ?_⟩
  · rw [h2]
    refine polyOf_map_coeff ?_
    rw [degree_eq_natDegree hm.ne_zero, hd]
    exact_mod_cast Nat.lt_succ_self _
  · rw [h2, List.getLast?_eq_getElem?, List.length_map, List.length_range, Nat.add_sub_cancel,
      List.getElem?_map, List.getElem?_range (by omega), Option.map_some, ← hd, hm.coeff_natDegree]

/-- C119 (reduction): the product of nonempty coefficient lists, if it fits a power of two within the width. -/
theorem C119_reduce {scale : Nat} {fs : FFTSettings Fr} (hfs : settingsNew scale = .ok fs)
    {m : Nat} (hm : m ≤ scale) (ps : List (List Fr)) (hne : ps ≠ []) (hp : ∀ p ∈ ps, p ≠ [])
    (hfit : (ps.map fun p => p.length - 1).sum + 1 ≤ 2 ^ m) :
    ∃ out, Ark.reducePartials fs (2 ^ m) ps = .ok out ∧
      out.length = (ps.map fun p => p.length - 1).sum + 1 ∧ polyOf out = (ps.map polyOf).prod := by
  have hmade := made_of_new hfs
  obtain ⟨out, h1, h2, _⟩ := (Ark.reducePartials_sim hmade (2 ^ m) (.inr (isPowerOfTwo_two_pow m)) ps hp).ok _
    (hmade.toWF.reducePartials_spec hm ps hne hp hfit)
  refine ⟨out, h1, by rw [h2]; simp [degSum], ?_⟩
  rw [h2]
  exact polyOf_map_coeff (listProd_degree ps hp)

/-- C119 (partial): for every power-of-two domain `D` within the width and every list of positions below `D`,
nonempty, shorter than `D`, and of length at most `63·(D/64 + 1)`, the call succeeds with `D` coefficients of
the product of the `x - ω^i` and its `D` evaluations; evaluation `j` is zero exactly if `j` is missing.
Missing from the full statement: longer lists (from `D = 8192` on), an error (`C119_dense_error`). -/
theorem C119_zero_poly_partial {scale : Nat} {fs : FFTSettings Fr}
    (hfs : settingsNew scale = .ok fs) {n : Nat} (hn : n ≤ scale) (missing : List Nat)
    (hidx : ∀ i ∈ missing, i < 2 ^ n) (hne : missing ≠ []) (hlt : missing.length < 2 ^ n)
    (hsafe : missing.length ≤ 63 * (2 ^ n / 64 + 1)) :
    ∃ ev coeffs : List Fr, IsPrimitiveRoot (domainRoot fs scale n) (2 ^ n) ∧
      Ark.zeroPolyViaMultiplication fs (2 ^ n) missing = .ok (ev, coeffs) ∧
      ev.length = 2 ^ n ∧ coeffs.length = 2 ^ n ∧
      polyOf coeffs = (missing.map fun i => X - C (domainRoot fs scale n ^ i)).prod ∧
      ∀ j < 2 ^ n, ∃ y, ev[j]? = some y ∧ y = (polyOf coeffs).eval (domainRoot fs scale n ^ j) ∧
        (y = 0 ↔ j ∈ missing) := by
  have hmade := made_of_new hfs
  have hwf := hmade.toWF
  have hprim := hwf.omega_prim hn
  have h := Ark.zeroPoly_of_ok hmade (hwf.zeroPoly_spec hn (fun i hi => (hidx i hi).le) hne hlt hsafe)
  rw [omega_of_wf hwf hn] at h hprim
  set r : Nat → Fr := fun i => domainRoot fs scale n ^ i with hr
  have hpoly : polyOf ((List.range (2 ^ n)).map (linProd r missing).coeff) = linProd r missing := by
    refine polyOf_map_coeff ?_
    rw [degree_eq_natDegree (linProd_monic r missing).ne_zero, linProd_natDegree]
    exact_mod_cast hlt
  refine ⟨_, _, hprim, h, by simp, by simp, hpoly, ?_⟩
  intro j hj
  refine ⟨(linProd r missing).eval (domainRoot fs scale n ^ j), ?_, by rw [hpoly], ?_⟩
  · rw [List.getElem?_map, List.getElem?_range hj]; rfl
  · rw [linProd_eval]
    constructor
    · rintro ⟨i, hi, he⟩
      have := hprim.pow_inj hj (hidx i hi) he
      rw [this]; exact hi
    · intro hj'
      exact ⟨j, hj', rfl⟩

/-- C119 (dense sets): beyond the bound the call is an error for every such list. -/
theorem C119_dense_error {scale : Nat} {fs : FFTSettings Fr} (hfs : settingsNew scale = .ok fs) {n : Nat}
    (hn : n ≤ scale) (missing : List Nat) (hidx : ∀ i ∈ missing, i < 2 ^ n) (hlt : missing.length < 2 ^ n)
    (hdense : 63 * (2 ^ n / 64 + 1) < missing.length) :
    ∃ msg, Ark.zeroPolyViaMultiplication fs (2 ^ n) missing = .err msg :=
  Ark.zeroPoly_of_err (made_of_new hfs)
    ((made_of_new hfs).toWF.zeroPoly_err hn (fun i hi => (hidx i hi).le) hlt hdense)

/-- C119 (outside of the supported inputs): nothing missing gives two empty vectors; everything missing, a
domain above the width, and a size that is no power of two are errors. -/
theorem C119_zero_poly_edges {scale : Nat} {fs : FFTSettings Fr}
    (hfs : settingsNew scale = .ok fs) (D : Nat) (missing : List Nat) :
    Ark.zeroPolyViaMultiplication fs D [] = .ok ([], []) ∧
    (missing ≠ [] → D ≤ missing.length ∨ 2 ^ scale < D ∨ (¬ ∃ n, D = 2 ^ n) →
      ∃ msg, Ark.zeroPolyViaMultiplication fs D missing = .err msg) := by
  have hwf := (made_of_new hfs).toWF
  refine ⟨rfl, ?_⟩
  intro hne h
  unfold Ark.zeroPolyViaMultiplication
  rw [if_neg (by simpa using hne)]
  by_cases h1 : D ≤ missing.length
  · rw [if_pos h1]; exact ⟨_, rfl⟩
  rw [if_neg h1]
  by_cases h2 : 2 ^ scale < D
  · rw [if_pos (by rw [hwf.width]; exact h2)]; exact ⟨_, rfl⟩
  rw [if_neg (by rw [hwf.width]; exact h2)]
  have h3 := (h.resolve_left h1).resolve_left h2
  rw [if_pos (by simpa [← isPowerOfTwo_iff] using h3)]
  exact ⟨_, rfl⟩

/-- C119 (negation): the full statement is false. -/
theorem C119_full_statement_false :
    ¬ ∀ (scale : Nat) (fs : FFTSettings Fr), settingsNew scale = .ok fs → ∀ n ≤ scale,
      ∀ missing : List Nat, missing.Pairwise (· < ·) → (∀ i ∈ missing, i < 2 ^ n) → missing ≠ [] →
        missing.length < 2 ^ n → ∃ r, Ark.zeroPolyViaMultiplication fs (2 ^ n) missing = .ok r := by
  intro hall
  obtain ⟨fs, h, _⟩ := (C113_new 13).1 (by norm_num)
  have hl : (List.range 8190).length = 8190 := List.length_range
  obtain ⟨r, hr⟩ := hall 13 fs h 13 le_rfl (List.range 8190) List.pairwise_lt_range
    (fun i hi => by have := List.mem_range.mp hi; norm_num; omega)
    (List.ne_nil_of_length_pos (by omega)) (by rw [hl]; norm_num)
  obtain ⟨msg, he⟩ := C119_dense_error h (n := 13) le_rfl (List.range 8190)
    (fun i hi => by have := List.mem_range.mp hi; norm_num; omega)
    (by rw [hl]; norm_num) (by rw [hl]; norm_num)
  rw [he] at hr
  cases hr

example : ∃ fs : FFTSettings Fr, settingsNew 10 = .ok fs ∧
    ∃ r, Ark.zeroPolyViaMultiplication fs 1024 (List.range 1000) = .ok r := by
  obtain ⟨fs, h, _⟩ := (C113_new 10).1 (by norm_num)
  obtain ⟨ev, co, _, h1, _⟩ := C119_zero_poly_partial h (n := 10) le_rfl (List.range 1000)
    (fun i hi => by have := List.mem_range.mp hi; norm_num; omega)
    (List.ne_nil_of_length_pos (by rw [List.length_range]; norm_num))
    (by rw [List.length_range]; norm_num) (by rw [List.length_range]; norm_num)
  exact ⟨fs, h, _, h1⟩

/-! ## C120 -/

/-- C120 (general form): any number `m` of erasures with `degree + m` below the domain size `D`, `1 ≤ m < D`,
and `m ≤ 63·(D/64 + 1)`. -/
theorem C120_recovery_general {scale : Nat} {fs : FFTSettings Fr}
    (hfs : settingsNew scale = .ok fs) {n : Nat} (hn : n ≤ scale) (p : Fr[X]) (samples : List (Option Fr))
    (hs : Erasure (codeword (domainRoot fs scale n) (2 ^ n) p) samples)
    (h1 : 1 ≤ erased samples) (h2 : erased samples < 2 ^ n)
    (hp : p = 0 ∨ p.natDegree + erased samples < 2 ^ n)
    (hsafe : erased samples ≤ 63 * (2 ^ n / 64 + 1)) :
    Ark.recover fs samples = .ok (codeword (domainRoot fs scale n) (2 ^ n) p) := by
  have hmade := made_of_new hfs
  have hom := omega_of_wf hmade.toWF hn
  have hl : samples.length = 2 ^ n := by rw [hs.1]; simp [codeword]
  have hm := missingIdxs_length samples
  unfold erased at *
  rw [(Ark.recover_outcome hmade samples hl ⟨hn, by omega, by omega, by omega⟩ p
    (by rw [hm]; exact degree_add_lt hp) ((erasure_iff hom hl p).2 hs) 0 0).1, hom]
  rfl

/-- C120: for every power-of-two domain within the width, every polynomial of degree below half of the domain
and every erasure of at least one and at most half of the evaluations, recovery returns all original
evaluations. -/
theorem C120_recovery {scale : Nat} {fs : FFTSettings Fr}
    (hfs : settingsNew scale = .ok fs) {n : Nat} (hn : n ≤ scale) (p : Fr[X])
    (hp : p = 0 ∨ 2 * p.natDegree < 2 ^ n) (samples : List (Option Fr))
    (hs : Erasure (codeword (domainRoot fs scale n) (2 ^ n) p) samples)
    (h1 : 1 ≤ erased samples) (h2 : 2 * erased samples ≤ 2 ^ n) :
    Ark.recover fs samples = .ok (codeword (domainRoot fs scale n) (2 ^ n) p) := by
  refine C120_recovery_general hfs hn p samples hs h1 (by omega) ?_ (by omega)
  rcases hp with h | h
  · exact Or.inl h
  · right; omega

/-- A domain of 131072, on which blst-from-scratch gives up. -/
example : ∃ fs : FFTSettings Fr, settingsNew 17 = .ok fs ∧
    Ark.recover fs (none :: List.replicate (2 ^ 17 - 1) (some 0)) = .ok (codeword (domainRoot fs 17 17) (2 ^ 17) 0) := by
  obtain ⟨fs, h, _⟩ := (C113_new 17).1 (by norm_num)
  have hlen : (none :: List.replicate (2 ^ 17 - 1) (some (0 : Fr))).length = 2 ^ 17 := by
    rw [List.length_cons, List.length_replicate]; norm_num
  have hcount : erased (none :: List.replicate (2 ^ 17 - 1) (some (0 : Fr))) = 1 := by
    rw [erased, List.countP_cons, List.countP_replicate]; norm_num
  refine ⟨fs, h, C120_recovery h le_rfl 0 (Or.inl rfl) _
    ⟨by rw [hlen, codeword, List.length_map, List.length_range], ?_⟩ hcount.ge (by rw [hcount]; norm_num)⟩
  intro i v hv
  have hi : i < 2 ^ 17 := by rw [← hlen]; exact (List.getElem?_eq_some_iff.mp hv).1
  rw [codeword, List.getElem?_map, List.getElem?_range hi, Option.map_some, eval_zero]
  cases i with
  | zero => cases hv
  | succ i =>
    rw [List.getElem?_cons_succ, List.getElem?_replicate] at hv
    split at hv
    · exact Option.some_inj.mp hv
    · cases hv

/-! ## C121 -/

/-- What recovery and its parallel variant do, for all samples. -/
theorem ark_recover_cases {scale : Nat} {fs : FFTSettings Fr} (hfs : settingsNew scale = .ok fs)
    (samples : List (Option Fr)) :
    (∃ n, samples.length = 2 ^ n ∧ ZkP.Recoverable scale n (erased samples) ∧
      ∃ p : Fr[X], p.degree + (erased samples : WithBot Nat) < ((2 ^ n : Nat) : WithBot Nat) ∧
        Erasure (codeword (domainRoot fs scale n) (2 ^ n) p) samples ∧
        Ark.recover fs samples = .ok (codeword (domainRoot fs scale n) (2 ^ n) p) ∧
        ∀ ki kp, ∃ ki' kp', Ark.recoverPar fs (ZkP.powers (5 : Fr)⁻¹ ki, ZkP.powers (5 : Fr) kp) samples =
          .ok ((ZkP.powers (5 : Fr)⁻¹ ki', ZkP.powers (5 : Fr) kp'), codeword (domainRoot fs scale n) (2 ^ n) p)) ∨
    ((∃ n, samples.length = 2 ^ n ∧ ¬ ZkP.Recoverable scale n (erased samples)) ∧
      Ark.recover fs samples = .panic ∧ ∀ t, Ark.recoverPar fs t samples = .panic) ∨
    ((¬ ∃ n, samples.length = 2 ^ n) ∧ ∃ msg, Ark.recover fs samples = .err msg ∧
      ∀ t, Ark.recoverPar fs t samples = .err msg) := by
  have hmade := made_of_new hfs
  have hm : (missingIdxs samples).length = erased samples := missingIdxs_length samples
  by_cases hl : ∃ n, samples.length = 2 ^ n
  · obtain ⟨n, hl⟩ := hl
    by_cases hrec : ZkP.Recoverable scale n (erased samples)
    · left
      have hom := omega_of_wf hmade.toWF hrec.width
      have hprim := hmade.toWF.omega_prim hrec.width
      obtain ⟨p, hp, he⟩ := consistent_exists (hom ▸ hprim) samples hl
      have key := fun ki kp => Ark.recover_outcome hmade samples hl (hm ▸ hrec) p (by rw [hm]; exact hp)
        ((erasure_iff hom hl p).2 he) ki kp
      simp only [hom] at key
      exact ⟨n, hl, hrec, p, hp, he, (key 0 0).1, fun ki kp => (key ki kp).2⟩
    · right; left
      exact ⟨⟨n, hl, hrec⟩, (Ark.recover_panic hmade samples ([], []) hl (hm ▸ hrec)).1,
        fun t => (Ark.recover_panic hmade samples t hl (hm ▸ hrec)).2⟩
  · right; right
    exact ⟨hl, _, (Ark.recover_err fs samples ([], []) hl).1, fun t => (Ark.recover_err fs samples t hl).2⟩

/-- C121: for arbitrary samples, whenever recovery returns data, the data agrees with every present sample, is
the evaluation list of a polynomial whose degree plus the number of erasures is below the domain size, and
that polynomial is the only consistent one. -/
theorem C121_recovery_sound {scale : Nat} {fs : FFTSettings Fr} (hfs : settingsNew scale = .ok fs)
    (samples : List (Option Fr)) (data : List Fr) (h : Ark.recover fs samples = .ok data) :
    data.length = samples.length ∧
    (∀ (i : Nat) (v : Fr), samples[i]? = some (some v) → data[i]? = some v) ∧
    ∃ n ≤ scale, samples.length = 2 ^ n ∧
      ∃ p : Fr[X], p.degree + (erased samples : WithBot Nat) < ((2 ^ n : Nat) : WithBot Nat) ∧
        data = codeword (domainRoot fs scale n) (2 ^ n) p ∧
        ∀ q : Fr[X], q.degree + (erased samples : WithBot Nat) < ((2 ^ n : Nat) : WithBot Nat) →
          Erasure (codeword (domainRoot fs scale n) (2 ^ n) q) samples → q = p := by
  rcases ark_recover_cases hfs samples with ⟨n, hl, hrec, p, hp, he, h', _⟩ | ⟨_, h', _⟩ | ⟨_, _, h', _⟩
  · rw [h] at h'
    cases h'
    have hwf := (made_of_new hfs).toWF
    refine ⟨by rw [hl]; simp [codeword], he.2, n, hrec.width, hl, p, hp, rfl, ?_⟩
    intro q hq hqe
    exact codeword_unique (omega_of_wf hwf hrec.width ▸ hwf.omega_prim hrec.width) hl hq hp hqe he
  · rw [h] at h'; cases h'
  · rw [h] at h'; cases h'

/-- C121 (outcome): the call returns data exactly for lengths `2^n` within the width with at least one sample
missing, at least one present and at most `63·(2^n/64 + 1)` missing, whatever the values present (they can be
interpolated); a length that is no power of two is an error; in every other case it panics. -/
theorem C121_recovery_outcome {scale : Nat} {fs : FFTSettings Fr} (hfs : settingsNew scale = .ok fs)
    (samples : List (Option Fr)) :
    ((∃ data, Ark.recover fs samples = .ok data) ↔ ∃ n ≤ scale, samples.length = 2 ^ n ∧ 1 ≤ erased samples ∧
      erased samples < 2 ^ n ∧ erased samples ≤ 63 * (2 ^ n / 64 + 1)) ∧
    ((∃ msg, Ark.recover fs samples = .err msg) ↔ ¬ ∃ n, samples.length = 2 ^ n) := by
  have hinj : ∀ {a b : Nat}, samples.length = 2 ^ a → samples.length = 2 ^ b → a = b := by
    intro a b ha hb
    exact Nat.pow_right_injective (le_refl 2) (ha.symm.trans hb)
  rcases ark_recover_cases hfs samples with ⟨n, hl, hrec, p, _, _, h', _⟩ | ⟨⟨n, hl, hn⟩, h', _⟩ | ⟨hl, msg, h', _⟩
  · rw [h']
    exact ⟨⟨fun _ => ⟨n, hrec.width, hl, hrec.pos, hrec.lt, hrec.safe⟩, fun _ => ⟨_, rfl⟩⟩,
      ⟨fun ⟨_, e⟩ => (by cases e), fun h => absurd ⟨n, hl⟩ h⟩⟩
  · rw [h']
    refine ⟨⟨fun ⟨_, e⟩ => (by cases e), ?_⟩, ⟨fun ⟨_, e⟩ => (by cases e), fun h => absurd ⟨n, hl⟩ h⟩⟩
    rintro ⟨n', h1, h2, h3, h4, h5⟩
    cases hinj h2 hl
    exact absurd ⟨h1, h3, h4, h5⟩ hn
  · rw [h']
    exact ⟨⟨fun ⟨_, e⟩ => (by cases e), fun ⟨n, _, h, _⟩ => absurd ⟨n, h⟩ hl⟩, ⟨fun _ => hl, fun _ => ⟨_, rfl⟩⟩⟩

example (fs : FFTSettings Fr) (hfs : settingsNew 2 = .ok fs) :
    (∃ data, Ark.recover fs [some 1, none, some 5, some 9] = .ok data ∧ data[3]? = some 9) ∧
      ∃ msg, Ark.recover fs [some 1, none, some 5] = .err msg := by
  refine ⟨?_, (C121_recovery_outcome hfs _).2.mpr ?_⟩
  · obtain ⟨data, h⟩ := (C121_recovery_outcome hfs [some 1, none, some 5, some 9]).1.mpr
      ⟨2, le_rfl, rfl, by simp [erased], by simp [erased], by simp [erased]⟩
    exact ⟨data, h, (C121_recovery_sound hfs _ data h).2.1 3 9 rfl⟩
  · rintro ⟨n, h⟩
    rcases n with _ | _ | n
    · simp at h
    · simp at h
    · simp [pow_succ] at h; omega

/-! ## C122 -/

/-- The contents the two shared tables of the parallel feature can have after any sequence of completed
calls: both start empty, and every call of the scaling or unscaling function, on any polynomial, replaces
its table. -/
inductive ArkReachable : List Fr × List Fr → Prop
  | init : ArkReachable ([], [])
  | scale {inv pow inv' : List Fr} {p p' : List Fr} (h : ArkReachable (inv, pow))
      (hc : Ark.scalePolyPar inv p = .ok (inv', p')) : ArkReachable (inv', pow)
  | unscale {inv pow pow' : List Fr} {p p' : List Fr} (h : ArkReachable (inv, pow))
      (hc : Ark.unscalePolyPar pow p = .ok (pow', p')) : ArkReachable (inv, pow')

theorem ArkReachable.powers {t : List Fr × List Fr} (h : ArkReachable t) :
    ∃ ki kp, t = (ZkP.powers (5 : Fr)⁻¹ ki, ZkP.powers (5 : Fr) kp) := by
  induction h with
  | init => exact ⟨0, 0, rfl⟩
  | scale _ hc ih =>
    obtain ⟨ki, kp, h⟩ := ih
    cases h
    obtain ⟨k', rfl⟩ := Ark.scalePolyPar_powers (LawfulFr.five_ne (F := Fr)) hc
    exact ⟨k', kp, rfl⟩
  | @unscale inv pow pow' p p' _ hc ih =>
    obtain ⟨ki, kp, h⟩ := ih
    cases h
    rw [Ark.unscalePolyPar_spec] at hc
    cases hc
    exact ⟨ki, _, rfl⟩

/-- C122: with the parallel feature, whatever calls ran before (one at a time), recovery returns what it
returns without the feature, errors and panics included. -/
theorem C122_history_independent {scale : Nat} {fs : FFTSettings Fr} (hfs : settingsNew scale = .ok fs)
    (samples : List (Option Fr)) {tables : List Fr × List Fr} (ht : ArkReachable tables) :
    (∀ out, Ark.recover fs samples = .ok out ↔ ∃ tables', Ark.recoverPar fs tables samples = .ok (tables', out)) ∧
      (∀ msg, Ark.recover fs samples = .err msg ↔ Ark.recoverPar fs tables samples = .err msg) ∧
      (Ark.recover fs samples = .panic ↔ Ark.recoverPar fs tables samples = .panic) := by
  obtain ⟨ki, kp, rfl⟩ := ht.powers
  rcases ark_recover_cases hfs samples with ⟨n, _, _, p, _, _, h1, h2⟩ | ⟨_, h1, h2⟩ | ⟨_, msg, h1, h2⟩
  · obtain ⟨ki', kp', h2⟩ := h2 ki kp
    rw [h1, h2]
    exact ⟨fun o => ⟨fun e => ⟨_, by cases e; rfl⟩, fun ⟨_, e⟩ => by cases e; rfl⟩,
      fun m => ⟨fun e => (by cases e), fun e => (by cases e)⟩, ⟨fun e => (by cases e), fun e => (by cases e)⟩⟩
  · rw [h1, h2]
    exact ⟨fun o => ⟨fun e => (by cases e), fun ⟨_, e⟩ => (by cases e)⟩,
      fun m => ⟨fun e => (by cases e), fun e => (by cases e)⟩, ⟨fun _ => rfl, fun _ => rfl⟩⟩
  · rw [h1, h2]
    exact ⟨fun o => ⟨fun e => (by cases e), fun ⟨_, e⟩ => (by cases e)⟩,
      fun m => ⟨fun e => (by cases e; rfl), fun e => (by cases e; rfl)⟩,
      ⟨fun e => (by cases e), fun e => (by cases e)⟩⟩

/-- C122: the two scaling functions on their own: coefficient `i` is divided (multiplied) by `5^i`, whatever
ran before; without the feature as well. -/
theorem C122_scaling {inv pow : List Fr} (ht : ArkReachable (inv, pow)) (p : List Fr) (hp : p.length ≤ 2 ^ 63) :
    (p ≠ [] → ∃ inv', Ark.scalePolyPar inv p = .ok (inv', (List.range p.length).map fun i => p.getD i 0 / 5 ^ i)) ∧
    (∃ pow', Ark.unscalePolyPar pow p = .ok (pow', (List.range p.length).map fun i => p.getD i 0 * 5 ^ i)) ∧
    Ark.scalePoly p = .ok ((List.range p.length).map fun i => p.getD i 0 / 5 ^ i) ∧
    Ark.unscalePoly p = .ok ((List.range p.length).map fun i => p.getD i 0 * 5 ^ i) := by
  have h5 : (5 : Fr) ≠ 0 := LawfulFr.five_ne
  obtain ⟨ki, kp, h⟩ := ht.powers
  cases h
  refine ⟨fun hne => ?_, ⟨_, Ark.unscalePolyPar_spec kp p⟩, ?_, ?_⟩
  · obtain ⟨k', h⟩ := Ark.scalePolyPar_spec h5 ki p (List.length_pos_iff.mpr hne) hp
    refine ⟨ZkP.powers (5 : Fr)⁻¹ k', ?_⟩
    simp only [h, ZkP.scaled, inv_pow, div_eq_mul_inv]
  · rw [Ark.scalePoly_eq h5]
    simp only [ZkP.scaled, inv_pow, div_eq_mul_inv]
  · rw [Ark.unscalePoly_eq]; rfl

/-- C122 (refuted for the empty polynomial): scaling it panics with the feature only. -/
theorem C122_scaling_empty (inv : List Fr) : Ark.scalePolyPar inv [] = .panic ∧ Ark.scalePoly ([] : List Fr) = .ok [] := by
  have h5 : (5 : Fr) ≠ 0 := LawfulFr.five_ne
  refine ⟨?_, ?_⟩
  · rw [Ark.scalePolyPar, Ark.frInv_eq h5, Res.bind_ok]
    rfl
  · rw [Ark.scalePoly_eq h5]; rfl

example : ∃ t : List Fr × List Fr, ArkReachable t ∧ t.2.length = 3 :=
  ⟨_, .unscale .init (Ark.unscalePolyPar_spec 0 [1, 1, 1]), by simp [ZkP.powers_length]⟩

/-! ## C123 -/

/-- C123 (partial): any number of threads, any schedule of their steps: if the shared table is a reachable one
that is at least as long as every polynomial, then no thread panics, the table stays as it is, and every
thread that has finished has scaled its polynomial. Missing from the full statement: tables that have to grow
while two threads use them (`C123_race`). -/
theorem C123_threads_partial (factor : Fr) (k : Nat) (ps : List (List Fr)) (hk : ∀ p ∈ ps, p.length ≤ k)
    (schedule : List Nat) (hs : ∀ i ∈ schedule, i < ps.length) :
    ∃ ts, ZkP.runThreads factor schedule ((List.range k).map (factor ^ ·)) (ps.map fun p => ⟨.start, p⟩) =
        .ok ((List.range k).map (factor ^ ·), ts) ∧ ts.length = ps.length ∧
      ∀ (i : Nat) (t : ZkP.Thread Fr) (p : List Fr), ts[i]? = some t → ps[i]? = some p → t.pc = .done →
        t.p = (List.range p.length).map fun i => p.getD i 0 * factor ^ i := by
  obtain ⟨ts, h1, h2⟩ := ZkP.runThreads_inv factor k ps hk schedule _ (ZkP.threadInv_start factor ps) hs
  refine ⟨ts, h1, h2.length_eq.symm, ?_⟩
  intro i t p hti hpi hdone
  obtain ⟨hi, rfl⟩ := List.getElem?_eq_some_iff.mp hti
  obtain ⟨hi', rfl⟩ := List.getElem?_eq_some_iff.mp hpi
  have := (List.forall₂_iff_get.1 h2).2 i hi' hi
  simp only [List.get_eq_getElem] at this
  obtain ⟨_, h3⟩ := this
  rw [hdone] at h3
  exact h3

theorem fr_five_ne_one : (5 : Fr) ≠ 1 := by
  intro h
  have := LawfulFr.five_pow (F := Fr)
  rw [h, one_pow] at this
  exact this rfl

/-- C123 (negation): two threads unscale `X` (as `[0, 1]`) at the same time, on the initial empty table. Under
this schedule both return `X` instead of `5·X`, and the table stays wrong: a later call, alone, is wrong
too. -/
theorem C123_race :
    ∃ schedule table,
      ZkP.runThreads (5 : Fr) schedule [] [⟨.start, [0, 1]⟩, ⟨.start, [0, 1]⟩] =
        .ok (table, [⟨.done, [0, 1]⟩, ⟨.done, [0, 1]⟩]) ∧
      Ark.unscalePolyPar table [0, 1] = .ok (table, [0, 1]) ∧
      Ark.unscalePolyPar [] [(0 : Fr), 1] = .ok ([1, 5], [0, 5]) ∧ ([0, 1] : List Fr) ≠ [0, 5] := by
  refine ⟨_, _, ZkP.race 5 0 1 0 1, ZkP.unscale_after_race 0 1, ?_, ?_⟩
  · simp [Ark.unscalePolyPar, ZkP.growTable, ZkP.scaleByTable, forRange, forLoop, rd, wr, subU]
  · intro h
    simp only [List.cons.injEq, true_and, and_true] at h
    exact fr_five_ne_one h.symm

theorem C123_full_statement_false :
    ¬ ∀ (ps : List (List Fr)) (schedule : List Nat) (table : List Fr) (ts : List (ZkP.Thread Fr)),
      ZkP.runThreads (5 : Fr) schedule [] (ps.map fun p => ⟨.start, p⟩) = .ok (table, ts) →
      ∀ (i : Nat) (t : ZkP.Thread Fr) (p : List Fr), ts[i]? = some t → ps[i]? = some p → t.pc = .done →
        t.p = (List.range p.length).map fun i => p.getD i 0 * 5 ^ i := by
  intro h
  obtain ⟨schedule, table, h1, _⟩ := C123_race
  have := h [[0, 1], [0, 1]] schedule table _ h1 0 _ [0, 1] rfl rfl rfl
  simp [List.range_succ] at this
  exact fr_five_ne_one this.symm

example : ∃ ts, ZkP.runThreads (5 : Fr) [0, 1, 1, 0] [5 ^ 0, 5 ^ 1] [⟨.start, [0, 1]⟩, ⟨.start, [3, 1]⟩] =
    .ok ([5 ^ 0, 5 ^ 1], ts) := by
  obtain ⟨ts, h, _⟩ := C123_threads_partial 5 2 [[0, 1], [3, 1]] (by simp) [0, 1, 1, 0] (by simp)
  exact ⟨ts, h⟩

end Kzg.Props
