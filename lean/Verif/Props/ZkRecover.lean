import Verif.Proofs.Zk.Recover
import Verif.Proofs.Zk.ScalarWords
import Verif.Props.Recovery
import Verif.Props.ZeroPoly
/-!
# Properties C65–C69: zero polynomials and recovery of zkcrypto

Field elements are the values of the Rust type `Scalar` (`ScW`). `codeword ω D p` is the list of the
evaluations of `p` at the first `D` powers of `ω`, `Erasure` and `erased` describe sample lists
(`Verif.Props.Recovery`).
-/

namespace Kzg.Props
open Kzg Kzg.Zk Polynomial

/-! ## C65 -/

/-- C65 (one list): the partial zero polynomial is the product of the `x - root[idx·stride]`; the empty list is an
error. -/
theorem C65_product {scale : Nat} {fs : FFTSettings ScW} (hfs : FFTSettings.new scale = .ok fs)
    (idxs : List Nat) (stride : Nat) :
    (idxs ≠ [] → (∀ i ∈ idxs, i * stride ≤ 2 ^ scale) →
      ∃ out, ZkP.zeroPolyPartial fs idxs stride = .ok out ∧ out.length = idxs.length + 1 ∧
        polyOf out = (idxs.map fun i => X - C (fs.rootOfUnity ^ (i * stride))).prod ∧
        out.getLast? = some 1) ∧
    ∃ msg, ZkP.zeroPolyPartial fs [] stride = .err msg := by
  refine ⟨fun hne hin => ?_, _, rfl⟩
  have hwf := wf_of_new hfs
  have h := Kzg.zeroPolyPartial_spec fs idxs stride (fun i => fs.rootOfUnity ^ (i * stride)) hne
    (fun i hi => hwf.exp _ (hin i hi))
  have hd := linProd_natDegree (fun i => fs.rootOfUnity ^ (i * stride)) idxs
  have hm := linProd_monic (fun i => fs.rootOfUnity ^ (i * stride)) idxs
  refine ⟨_, ((ZkP.zeroPolyPartial_sim fs idxs stride).ok _ h).1, by simp, ?_, ?_⟩
  · refine polyOf_map_coeff ?_
    rw [degree_eq_natDegree hm.ne_zero, hd]
    exact_mod_cast Nat.lt_succ_self _
  · rw [List.getLast?_eq_getElem?, List.length_map, List.length_range, Nat.add_sub_cancel,
      List.getElem?_map, List.getElem?_range (by omega), Option.map_some, ← hd, hm.coeff_natDegree]

/-- C65 (reduction): the product of nonempty coefficient lists, if it fits a power of two within the width; otherwise, for a domain that
is no power of two or smaller than the product, an error. -/
theorem C65_reduce {scale : Nat} {fs : FFTSettings ScW} (hfs : FFTSettings.new scale = .ok fs)
    (ps : List (List ScW)) (hne : ps ≠ []) (hp : ∀ p ∈ ps, p ≠ []) :
    (∀ m ≤ scale, (ps.map fun p => p.length - 1).sum + 1 ≤ 2 ^ m →
      ∃ out, ZkP.reducePartials fs (2 ^ m) ps = .ok out ∧
        out.length = (ps.map fun p => p.length - 1).sum + 1 ∧ polyOf out = (ps.map polyOf).prod) ∧
    ∀ n, (¬ ∃ m, n = 2 ^ m) ∨ n < (ps.map fun p => p.length - 1).sum + 1 → ∃ msg, ZkP.reducePartials fs n ps = .err msg := by
  refine ⟨fun m hm hfit => ?_, fun n hn => ?_⟩
  · refine ⟨_, ((ZkP.reducePartials_sim fs (2 ^ m) ps hp).ok _ ((wf_of_new hfs).reducePartials_spec hm ps hne hp hfit)).1,
      by simp [degSum], ?_⟩
    exact polyOf_map_coeff (listProd_degree ps hp)
  · unfold ZkP.reducePartials
    rw [outDegree_spec ps hp, Res.bind_ok]
    by_cases h1 : isPowerOfTwo n = true
    · have h2 : n < (ps.map fun p => p.length - 1).sum + 1 := hn.resolve_left fun h => h (isPowerOfTwo_iff.1 h1)
      rw [if_neg (by simpa using h1), if_pos (by simpa [degSum] using h2)]
      exact ⟨_, rfl⟩
    · rw [if_pos (by simpa using h1)]
      exact ⟨_, rfl⟩

/-- Example for C65: three partial polynomials of settings of scale 4, and two domains that are refused. -/
example (fs : FFTSettings ScW) (h : FFTSettings.new 4 = .ok fs) (a b c : List ScW) (ha : a.length = 2) (hb : b.length = 3) (hc : c.length = 2) :
    (∃ out, ZkP.reducePartials fs 8 [a, b, c] = .ok out ∧ out.length = 5) ∧
      (∃ msg, ZkP.reducePartials fs 4 [a, b, c] = .err msg) ∧ ∃ msg, ZkP.reducePartials fs 6 [a, b, c] = .err msg := by
  have hn : ∀ p ∈ [a, b, c], p ≠ [] := by
    simp only [List.mem_cons, List.not_mem_nil, or_false]
    rintro p (rfl | rfl | rfl) <;> rw [← List.length_pos_iff] <;> omega
  obtain ⟨h1, h2⟩ := C65_reduce h [a, b, c] (by simp) hn
  obtain ⟨out, e1, e2, -⟩ := h1 3 (by norm_num) (by simp [ha, hb, hc])
  refine ⟨⟨out, e1, by rw [e2]; simp [ha, hb, hc]⟩, h2 4 (Or.inr (by simp [ha, hb, hc])), h2 6 (Or.inl ?_)⟩
  rw [← isPowerOfTwo_iff]
  decide

/-- C65 (partial): for every power-of-two domain `D` within the width and every list of positions below `D`,
nonempty, shorter than `D`, and of length at most `63·(D/64 + 1)`, the call succeeds with `D` coefficients of
the product of the `x - ω^i` and its `D` evaluations; evaluation `j` is zero exactly if `j` is missing.
Missing from the full statement: longer lists (from `D = 8192` on), an error (`C65_dense_error`). -/
theorem C65_zero_poly_partial {scale : Nat} {fs : FFTSettings ScW}
    (hfs : FFTSettings.new scale = .ok fs) {n : Nat} (hn : n ≤ scale) (missing : List Nat)
    (hidx : ∀ i ∈ missing, i < 2 ^ n) (hne : missing ≠ []) (hlt : missing.length < 2 ^ n)
    (hsafe : missing.length ≤ 63 * (2 ^ n / 64 + 1)) :
    ∃ ev coeffs : List ScW, IsPrimitiveRoot (domainRoot fs scale n) (2 ^ n) ∧
      ZkP.zeroPolyViaMultiplication fs (2 ^ n) missing = .ok (ev, coeffs) ∧
      ev.length = 2 ^ n ∧ coeffs.length = 2 ^ n ∧
      polyOf coeffs = (missing.map fun i => X - C (domainRoot fs scale n ^ i)).prod ∧
      ∀ j < 2 ^ n, ∃ y, ev[j]? = some y ∧ y = (polyOf coeffs).eval (domainRoot fs scale n ^ j) ∧
        (y = 0 ↔ j ∈ missing) := by
  have hwf := wf_of_new hfs
  have hprim := hwf.omega_prim hn
  have h := ZkP.zeroPoly_of_ok (hwf.zeroPoly_spec hn (fun i hi => (hidx i hi).le) hne hlt hsafe)
  rw [omega_eq hfs hn] at h hprim
  set r : Nat → ScW := fun i => domainRoot fs scale n ^ i with hr
  have hpoly : polyOf ((List.range (2 ^ n)).map (linProd r missing).coeff) = linProd r missing := by
    refine polyOf_map_coeff ?_
    rw [degree_eq_natDegree (linProd_monic r missing).ne_zero, linProd_natDegree]
    exact_mod_cast hlt
  refine ⟨_, _, hprim, h, by simp, by simp, hpoly, ?_⟩
  intro j hj
  refine ⟨(linProd r missing).eval (domainRoot fs scale n ^ j), ?_, by rw [hpoly], ?_⟩
  · rw [List.getElem?_map, List.getElem?_range hj]; rfl
  · rw [linProd_eval]
    constructor
    · rintro ⟨i, hi, he⟩
      have := hprim.pow_inj hj (hidx i hi) he
      rw [this]; exact hi
    · intro hj'
      exact ⟨j, hj', rfl⟩

/-- C65 (dense sets): beyond the bound the call is an error for every such list. -/
theorem C65_dense_error {scale : Nat} {fs : FFTSettings ScW} (hfs : FFTSettings.new scale = .ok fs) {n : Nat}
    (hn : n ≤ scale) (missing : List Nat) (hidx : ∀ i ∈ missing, i < 2 ^ n) (hlt : missing.length < 2 ^ n)
    (hdense : 63 * (2 ^ n / 64 + 1) < missing.length) :
    ∃ msg, ZkP.zeroPolyViaMultiplication fs (2 ^ n) missing = .err msg :=
  ZkP.zeroPoly_of_err ((wf_of_new hfs).zeroPoly_err hn (fun i hi => (hidx i hi).le) hlt hdense)

/-- C65 (outside of the supported inputs): nothing missing gives two empty vectors; everything missing, a
domain above the width, and a size that is no power of two are errors. -/
theorem C65_zero_poly_edges {scale : Nat} {fs : FFTSettings ScW}
    (hfs : FFTSettings.new scale = .ok fs) (D : Nat) (missing : List Nat) :
    ZkP.zeroPolyViaMultiplication fs D [] = .ok ([], []) ∧
    (missing ≠ [] → D ≤ missing.length ∨ 2 ^ scale < D ∨ (¬ ∃ n, D = 2 ^ n) →
      ∃ msg, ZkP.zeroPolyViaMultiplication fs D missing = .err msg) := by
  have hwf := wf_of_new hfs
  refine ⟨rfl, ?_⟩
  intro hne h
  unfold ZkP.zeroPolyViaMultiplication
  rw [if_neg (by simpa using hne)]
  by_cases h1 : D ≤ missing.length
  · rw [if_pos h1]; exact ⟨_, rfl⟩
  rw [if_neg h1]
  by_cases h2 : 2 ^ scale < D
  · rw [if_pos (by rw [hwf.width]; exact h2)]; exact ⟨_, rfl⟩
  rw [if_neg (by rw [hwf.width]; exact h2)]
  have h3 := (h.resolve_left h1).resolve_left h2
  rw [if_pos (by simpa [← isPowerOfTwo_iff] using h3)]
  exact ⟨_, rfl⟩

/-- C65 (negation): the full statement is false. -/
theorem C65_full_statement_false :
    ¬ ∀ (scale : Nat) (fs : FFTSettings ScW), FFTSettings.new scale = .ok fs → ∀ n ≤ scale,
      ∀ missing : List Nat, missing.Pairwise (· < ·) → (∀ i ∈ missing, i < 2 ^ n) → missing ≠ [] →
        missing.length < 2 ^ n → ∃ r, ZkP.zeroPolyViaMultiplication fs (2 ^ n) missing = .ok r := by
  intro hall
  obtain ⟨fs, h, _⟩ := new_spec (F := ScW) (k := 13) (by norm_num)
  have hl : (List.range 8190).length = 8190 := List.length_range
  obtain ⟨r, hr⟩ := hall 13 fs h 13 le_rfl (List.range 8190) List.pairwise_lt_range
    (fun i hi => by have := List.mem_range.mp hi; norm_num; omega)
    (List.ne_nil_of_length_pos (by omega)) (by rw [hl]; norm_num)
  obtain ⟨msg, he⟩ := C65_dense_error h (n := 13) le_rfl (List.range 8190)
    (fun i hi => by have := List.mem_range.mp hi; norm_num; omega)
    (by rw [hl]; norm_num) (by rw [hl]; norm_num)
  rw [he] at hr
  cases hr

example : ∃ fs : FFTSettings ScW, FFTSettings.new 10 = .ok fs ∧
    ∃ r, ZkP.zeroPolyViaMultiplication fs 1024 (List.range 1000) = .ok r := by
  obtain ⟨fs, h, _⟩ := new_spec (F := ScW) (k := 10) (by norm_num)
  obtain ⟨ev, co, _, h1, _⟩ := C65_zero_poly_partial h (n := 10) le_rfl (List.range 1000)
    (fun i hi => by have := List.mem_range.mp hi; norm_num; omega)
    (List.ne_nil_of_length_pos (by rw [List.length_range]; norm_num))
    (by rw [List.length_range]; norm_num) (by rw [List.length_range]; norm_num)
  exact ⟨fs, h, _, h1⟩

/-! ## C66 -/

/-- C66 (general form): any number `m` of erasures with `degree + m` below the domain size `D`, `1 ≤ m < D`,
and `m ≤ 63·(D/64 + 1)`. -/
theorem C66_recovery_general {scale : Nat} {fs : FFTSettings ScW}
    (hfs : FFTSettings.new scale = .ok fs) {n : Nat} (hn : n ≤ scale) (p : ScW[X]) (samples : List (Option ScW))
    (hs : Erasure (codeword (domainRoot fs scale n) (2 ^ n) p) samples)
    (h1 : 1 ≤ erased samples) (h2 : erased samples < 2 ^ n)
    (hp : p = 0 ∨ p.natDegree + erased samples < 2 ^ n)
    (hsafe : erased samples ≤ 63 * (2 ^ n / 64 + 1)) :
    ZkP.recover fs samples = .ok (codeword (domainRoot fs scale n) (2 ^ n) p) := by
  have hwf := wf_of_new hfs
  have hl : samples.length = 2 ^ n := by rw [hs.1]; simp [codeword]
  have hm := missingIdxs_length samples
  unfold erased at *
  rw [(ZkP.recover_outcome hwf samples hl ⟨hn, by omega, by omega, by omega⟩).1 p
    (by rw [hm]; exact degree_add_lt hp) ((erasure_iff (omega_eq hfs hn) hl p).2 hs), omega_eq hfs hn]
  rfl

/-- C66: for every power-of-two domain within the width, every polynomial of degree below half of the domain
and every erasure of at least one and at most half of the evaluations, recovery returns all original
evaluations. -/
theorem C66_recovery {scale : Nat} {fs : FFTSettings ScW}
    (hfs : FFTSettings.new scale = .ok fs) {n : Nat} (hn : n ≤ scale) (p : ScW[X])
    (hp : p = 0 ∨ 2 * p.natDegree < 2 ^ n) (samples : List (Option ScW))
    (hs : Erasure (codeword (domainRoot fs scale n) (2 ^ n) p) samples)
    (h1 : 1 ≤ erased samples) (h2 : 2 * erased samples ≤ 2 ^ n) :
    ZkP.recover fs samples = .ok (codeword (domainRoot fs scale n) (2 ^ n) p) := by
  refine C66_recovery_general hfs hn p samples hs h1 (by omega) ?_ (by omega)
  rcases hp with h | h
  · exact Or.inl h
  · right; omega

/-- A domain of 131072, on which the other backend gives up. -/
example : ∃ fs : FFTSettings ScW, FFTSettings.new 17 = .ok fs ∧
    ZkP.recover fs (none :: List.replicate (2 ^ 17 - 1) (some 0)) = .ok (codeword (domainRoot fs 17 17) (2 ^ 17) 0) := by
  obtain ⟨fs, h, _⟩ := new_spec (F := ScW) (k := 17) (by norm_num)
  have hlen : (none :: List.replicate (2 ^ 17 - 1) (some (0 : ScW))).length = 2 ^ 17 := by
    rw [List.length_cons, List.length_replicate]; norm_num
  have hcount : erased (none :: List.replicate (2 ^ 17 - 1) (some (0 : ScW))) = 1 := by
    rw [erased, List.countP_cons, List.countP_replicate]; norm_num
  refine ⟨fs, h, C66_recovery h le_rfl 0 (Or.inl rfl) _
    ⟨by rw [hlen, codeword, List.length_map, List.length_range], ?_⟩ hcount.ge (by rw [hcount]; norm_num)⟩
  intro i v hv
  have hi : i < 2 ^ 17 := by rw [← hlen]; exact (List.getElem?_eq_some_iff.mp hv).1
  rw [codeword, List.getElem?_map, List.getElem?_range hi, Option.map_some, eval_zero]
  cases i with
  | zero => cases hv
  | succ i =>
    rw [List.getElem?_cons_succ, List.getElem?_replicate] at hv
    split at hv
    · exact Option.some_inj.mp hv
    · cases hv

/-! ## C67 -/

/-- C67: for arbitrary samples, whenever recovery returns data, the data agrees with every present sample, is
the evaluation list of a polynomial whose degree plus the number of erasures is below the domain size, and
that polynomial is the only consistent one. -/
theorem C67_recovery_sound {scale : Nat} {fs : FFTSettings ScW} (hfs : FFTSettings.new scale = .ok fs)
    (samples : List (Option ScW)) (data : List ScW) (h : ZkP.recover fs samples = .ok data) :
    data.length = samples.length ∧
    (∀ (i : Nat) (v : ScW), samples[i]? = some (some v) → data[i]? = some v) ∧
    ∃ n ≤ scale, samples.length = 2 ^ n ∧
      ∃ p : ScW[X], p.degree + (erased samples : WithBot Nat) < ((2 ^ n : Nat) : WithBot Nat) ∧
        data = codeword (domainRoot fs scale n) (2 ^ n) p ∧
        ∀ q : ScW[X], q.degree + (erased samples : WithBot Nat) < ((2 ^ n : Nat) : WithBot Nat) →
          Erasure (codeword (domainRoot fs scale n) (2 ^ n) q) samples → q = p := by
  have hwf := wf_of_new hfs
  by_cases hrec : ∃ n, samples.length = 2 ^ n ∧ ZkP.Recoverable scale n (missingIdxs samples).length
  swap
  · rw [ZkP.recover_panic hwf samples hrec] at h; cases h
  obtain ⟨n, hl, hrec⟩ := hrec
  have hn := hrec.width
  have hom := omega_eq hfs hn
  obtain ⟨o1, o2⟩ := ZkP.recover_outcome hwf samples hl hrec
  by_cases hex : ∃ p : ScW[X], p.degree + (missingIdxs samples).length < (2 ^ n : Nat) ∧
      ∀ (i : Nat) (v : ScW), samples[i]? = some (some v) → v = p.eval (fs.omega (2 ^ n) ^ i)
  swap
  · rw [o2 hex] at h; cases h
  obtain ⟨p, hp, hs⟩ := hex
  rw [o1 p hp hs] at h
  have hdata := (Res.ok.inj h).symm
  have hera := (erasure_iff hom hl p).mp hs
  rw [hom] at hdata
  rw [missingIdxs_length] at hp
  refine ⟨by rw [hdata, hl]; simp, ?_, n, hn, hl, p, hp, hdata, ?_⟩
  · rw [hdata]; exact hera.2
  · intro q hq hqe
    exact codeword_unique (hom ▸ hwf.omega_prim hn) hl hq hp hqe hera

/-- C67 (outcome): the call returns data exactly for lengths `2^n` within the width with at least one sample
missing, at least one present and at most `63·(2^n/64 + 1)` missing, whatever the values present (they can be
interpolated); in every other case it panics. Errors are never returned. -/
theorem C67_recovery_outcome {scale : Nat} {fs : FFTSettings ScW} (hfs : FFTSettings.new scale = .ok fs)
    (samples : List (Option ScW)) :
    ((∃ data, ZkP.recover fs samples = .ok data) ↔ ∃ n ≤ scale, samples.length = 2 ^ n ∧ 1 ≤ erased samples ∧
      erased samples < 2 ^ n ∧ erased samples ≤ 63 * (2 ^ n / 64 + 1)) ∧
    ((¬ ∃ data, ZkP.recover fs samples = .ok data) → ZkP.recover fs samples = .panic) := by
  have hwf := wf_of_new hfs
  have hm : (missingIdxs samples).length = erased samples := missingIdxs_length samples
  by_cases hrec : ∃ n, samples.length = 2 ^ n ∧ ZkP.Recoverable scale n (missingIdxs samples).length
  · obtain ⟨n, hl, hrec⟩ := hrec
    have hprim := hwf.omega_prim hrec.width
    obtain ⟨p, hp, he⟩ := consistent_exists hprim samples hl
    have hok := (ZkP.recover_outcome hwf samples hl hrec).1 p (by rw [hm]; exact hp) ((erasure_iff rfl hl p).2 he)
    exact ⟨⟨fun _ => ⟨n, hrec.width, hl, hm ▸ hrec.pos, hm ▸ hrec.lt, hm ▸ hrec.safe⟩, fun _ => ⟨_, hok⟩⟩,
      fun h => absurd ⟨_, hok⟩ h⟩
  · have hpan := ZkP.recover_panic hwf samples hrec
    refine ⟨⟨fun ⟨data, h⟩ => (by rw [hpan] at h; cases h), ?_⟩, fun _ => hpan⟩
    rintro ⟨n, hn, hl, h1, h2, h3⟩
    exact absurd ⟨n, hl, ⟨hn, by omega, by omega, by omega⟩⟩ hrec

example (fs : FFTSettings ScW) (hfs : FFTSettings.new 2 = .ok fs) :
    (∃ data, ZkP.recover fs [some 1, none, some 5, some 9] = .ok data ∧ data[3]? = some 9) ∧
      ZkP.recover fs [some 1, some 2, some 5, some 9] = .panic ∧ ZkP.recover fs [some 1, none, some 5] = .panic := by
  refine ⟨?_, (C67_recovery_outcome hfs _).2 ?_, (C67_recovery_outcome hfs _).2 ?_⟩
  · obtain ⟨data, h⟩ := (C67_recovery_outcome hfs [some 1, none, some 5, some 9]).1.mpr
      ⟨2, le_rfl, rfl, by simp [erased], by simp [erased], by simp [erased]⟩
    exact ⟨data, h, (C67_recovery_sound hfs _ data h).2.1 3 9 rfl⟩
  · rw [(C67_recovery_outcome hfs _).1]
    rintro ⟨n, _, _, h, _⟩
    simp [erased] at h
  · rw [(C67_recovery_outcome hfs _).1]
    rintro ⟨n, hn, h, _⟩
    interval_cases n <;> simp at h

/-! ## C68 -/

/-- The contents the two shared tables of the parallel feature can have after any sequence of completed
calls: both start empty, and every call of the scaling or unscaling function, on any polynomial, replaces
its table. -/
inductive Reachable : List ScW × List ScW → Prop
  | init : Reachable ([], [])
  | scale {inv pow inv' : List ScW} {p p' : List ScW} (h : Reachable (inv, pow))
      (hc : ZkP.scalePolyPar inv p = .ok (inv', p')) : Reachable (inv', pow)
  | unscale {inv pow pow' : List ScW} {p p' : List ScW} (h : Reachable (inv, pow))
      (hc : ZkP.unscalePolyPar pow p = .ok (pow', p')) : Reachable (inv, pow')

theorem scalePolyPar_powers {k : Nat} {p t' p' : List ScW}
    (h : ZkP.scalePolyPar (ZkP.powers (5 : ScW)⁻¹ k) p = .ok (t', p')) : ∃ k', t' = ZkP.powers (5 : ScW)⁻¹ k' := by
  have h5 : (5 : ScW) ≠ 0 := LawfulFr.five_ne
  by_cases h0 : 0 < p.length
  · by_cases h1 : p.length - 1 ≤ 2 ^ 63
    · unfold ZkP.scalePolyPar at h
      rw [ZkP.frInv_of_ne h5, Res.bind_ok, subU_of_le h0, Res.bind_ok, ZkP.stdNextPowerOfTwo, if_pos h1,
        Res.bind_ok] at h
      split at h
      · rw [ZkP.growTable_powers, Res.bind_ok, ZkP.scaleByTable_spec (5 : ScW)⁻¹ _ _
          (fun i hi => ZkP.powers_getElem? _ (by omega)), Res.bind_ok] at h
        cases h; exact ⟨_, rfl⟩
      · rw [ZkP.scaleSeq_spec, Res.bind_ok] at h
        cases h; exact ⟨_, rfl⟩
    · unfold ZkP.scalePolyPar at h
      rw [ZkP.frInv_of_ne h5, Res.bind_ok, subU_of_le h0, Res.bind_ok, ZkP.stdNextPowerOfTwo, if_neg h1] at h
      cases h
  · unfold ZkP.scalePolyPar at h
    rw [ZkP.frInv_of_ne h5, Res.bind_ok, subU, if_neg (by omega)] at h
    cases h

theorem Reachable.powers {t : List ScW × List ScW} (h : Reachable t) :
    ∃ ki kp, t = (ZkP.powers (5 : ScW)⁻¹ ki, ZkP.powers (5 : ScW) kp) := by
  induction h with
  | init => exact ⟨0, 0, rfl⟩
  | scale _ hc ih =>
    obtain ⟨ki, kp, h⟩ := ih
    cases h
    obtain ⟨k', rfl⟩ := scalePolyPar_powers hc
    exact ⟨k', kp, rfl⟩
  | @unscale inv pow pow' p p' _ hc ih =>
    obtain ⟨ki, kp, h⟩ := ih
    cases h
    rw [ZkP.unscalePolyPar_spec] at hc
    cases hc
    exact ⟨ki, _, rfl⟩

/-- C68: with the parallel feature, whatever calls ran before (one at a time), recovery returns what it
returns without the feature, and panics exactly when that panics. -/
theorem C68_history_independent {scale : Nat} {fs : FFTSettings ScW} (hfs : FFTSettings.new scale = .ok fs)
    (samples : List (Option ScW)) {tables : List ScW × List ScW} (ht : Reachable tables) :
    (∀ out, ZkP.recover fs samples = .ok out ↔ ∃ tables', ZkP.recoverPar fs tables samples = .ok (tables', out)) ∧
      (ZkP.recover fs samples = .panic ↔ ZkP.recoverPar fs tables samples = .panic) := by
  obtain ⟨ki, kp, rfl⟩ := ht.powers
  have h := ZkP.recoverPar_spec (wf_of_new hfs) ki kp samples
  cases hr : ZkP.recover fs samples with
  | ok out =>
    rw [hr] at h
    obtain ⟨ki', kp', h⟩ := h
    rw [h]
    refine ⟨fun o => ⟨fun e => ⟨_, by cases e; rfl⟩, fun ⟨_, e⟩ => by cases e; rfl⟩, by simp⟩
  | err e => rw [hr] at h; exact h.elim
  | panic =>
    rw [hr] at h
    simp only at h
    rw [h]
    simp

/-- C68: the two scaling functions on their own: coefficient `i` is divided (multiplied) by `5^i`, whatever
ran before. -/
theorem C68_scaling {inv pow : List ScW} (ht : Reachable (inv, pow)) (p : List ScW) (hp : p.length ≤ 2 ^ 63) :
    (p ≠ [] → ∃ inv', ZkP.scalePolyPar inv p = .ok (inv', (List.range p.length).map fun i => p.getD i 0 / 5 ^ i)) ∧
    ∃ pow', ZkP.unscalePolyPar pow p = .ok (pow', (List.range p.length).map fun i => p.getD i 0 * 5 ^ i) := by
  obtain ⟨ki, kp, h⟩ := ht.powers
  cases h
  refine ⟨fun hne => ?_, _, ZkP.unscalePolyPar_spec kp p⟩
  obtain ⟨k', h⟩ := ZkP.scalePolyPar_spec (LawfulFr.five_ne (F := ScW)) ki p (List.length_pos_iff.mpr hne) hp
  refine ⟨ZkP.powers (5 : ScW)⁻¹ k', ?_⟩
  simp only [h, ZkP.scaled, inv_pow, div_eq_mul_inv]

example : ∃ t : List ScW × List ScW, Reachable t ∧ t.2.length = 3 :=
  ⟨_, .unscale .init (ZkP.unscalePolyPar_spec 0 [1, 1, 1]), by simp [ZkP.powers_length]⟩

/-! ## C69 -/

/-- C69 (partial): any number of threads, any schedule of their steps: if the shared table is a reachable one
that is at least as long as every polynomial, then no thread panics, the table stays as it is, and every
thread that has finished has scaled its polynomial. Missing from the full statement: tables that have to grow
while two threads use them (`C69_race`). -/
theorem C69_threads_partial (factor : ScW) (k : Nat) (ps : List (List ScW)) (hk : ∀ p ∈ ps, p.length ≤ k)
    (schedule : List Nat) (hs : ∀ i ∈ schedule, i < ps.length) :
    ∃ ts, ZkP.runThreads factor schedule ((List.range k).map (factor ^ ·)) (ps.map fun p => ⟨.start, p⟩) =
        .ok ((List.range k).map (factor ^ ·), ts) ∧ ts.length = ps.length ∧
      ∀ (i : Nat) (t : ZkP.Thread ScW) (p : List ScW), ts[i]? = some t → ps[i]? = some p → t.pc = .done →
        t.p = (List.range p.length).map fun i => p.getD i 0 * factor ^ i := by
  obtain ⟨ts, h1, h2⟩ := ZkP.runThreads_inv factor k ps hk schedule _ (ZkP.threadInv_start factor ps) hs
  refine ⟨ts, h1, h2.length_eq.symm, ?_⟩
  intro i t p hti hpi hdone
  obtain ⟨hi, rfl⟩ := List.getElem?_eq_some_iff.mp hti
  obtain ⟨hi', rfl⟩ := List.getElem?_eq_some_iff.mp hpi
  have := (List.forall₂_iff_get.1 h2).2 i hi' hi
  simp only [List.get_eq_getElem] at this
  obtain ⟨_, h3⟩ := this
  rw [hdone] at h3
  exact h3

theorem five_ne_one : (5 : ScW) ≠ 1 := by
  intro h
  have := LawfulFr.five_pow (F := ScW)
  rw [h, one_pow] at this
  exact this rfl

/-- C69 (negation): two threads unscale `X` (as `[0, 1]`) at the same time, on the initial empty table. Under
this schedule both return `X` instead of `5·X`, and the table stays wrong: a later call, alone, is wrong
too. -/
theorem C69_race :
    ∃ schedule table,
      ZkP.runThreads (5 : ScW) schedule [] [⟨.start, [0, 1]⟩, ⟨.start, [0, 1]⟩] =
        .ok (table, [⟨.done, [0, 1]⟩, ⟨.done, [0, 1]⟩]) ∧
      ZkP.unscalePolyPar table [0, 1] = .ok (table, [0, 1]) ∧
      ZkP.unscalePolyPar [] [(0 : ScW), 1] = .ok ([1, 5], [0, 5]) ∧ ([0, 1] : List ScW) ≠ [0, 5] := by
  refine ⟨_, _, ZkP.race 5 0 1 0 1, ZkP.unscale_after_race 0 1, ?_, ?_⟩
  · simp [ZkP.unscalePolyPar, ZkP.growTable, ZkP.scaleByTable, forRange, forLoop, rd, wr, subU]
  · intro h
    simp only [List.cons.injEq, true_and, and_true] at h
    exact five_ne_one h.symm

theorem C69_full_statement_false :
    ¬ ∀ (ps : List (List ScW)) (schedule : List Nat) (table : List ScW) (ts : List (ZkP.Thread ScW)),
      ZkP.runThreads (5 : ScW) schedule [] (ps.map fun p => ⟨.start, p⟩) = .ok (table, ts) →
      ∀ (i : Nat) (t : ZkP.Thread ScW) (p : List ScW), ts[i]? = some t → ps[i]? = some p → t.pc = .done →
        t.p = (List.range p.length).map fun i => p.getD i 0 * 5 ^ i := by
  intro h
  obtain ⟨schedule, table, h1, _⟩ := C69_race
  have := h [[0, 1], [0, 1]] schedule table _ h1 0 _ [0, 1] rfl rfl rfl
  simp [List.range_succ] at this
  exact five_ne_one this.symm

example : ∃ ts, ZkP.runThreads (5 : ScW) [0, 1, 1, 0] [5 ^ 0, 5 ^ 1] [⟨.start, [0, 1]⟩, ⟨.start, [3, 1]⟩] =
    .ok ([5 ^ 0, 5 ^ 1], ts) := by
  obtain ⟨ts, h, _⟩ := C69_threads_partial 5 2 [[0, 1], [3, 1]] (by simp) [0, 1, 1, 0] (by simp)
  exact ⟨ts, h⟩

end Kzg.Props
