import Verif.Props.MclPoly
import Verif.Props.Recovery
import Verif.Props.ZeroPoly
import Verif.Proofs.Mcl.Recover
/-!
# Properties C103–C106: zero polynomials and recovery of mcl-kzg
-/

namespace Kzg.Props
open Kzg Kzg.Mcl Polynomial

theorem omega_of_wf {F : Type} [Field F] [DecidableEq F] [FrTable F] [LawfulFr F] {fs : FFTSettings F} {scale n : Nat}
    (hwf : fs.WF scale) (hn : n ≤ scale) : fs.omega (2 ^ n) = domainRoot fs scale n := by
  rw [FFTSettings.omega, hwf.width, Nat.pow_div hn (by omega)]; rfl

section
variable [Lib Fr]

/-! ## C103: zero polynomials -/

/-- C103 (one list): the partial zero polynomial is the product of the `x - root[idx·stride]`; the empty list is an
error. -/
theorem C103_product {scale : Nat} {fs : FFTSettings Fr} (hfs : MadeSettings fs scale)
    (idxs : List Nat) (stride : Nat) :
    (idxs ≠ [] → (∀ i ∈ idxs, i * stride ≤ 2 ^ scale) →
      ∃ out, Mcl.zeroPolyPartial fs idxs stride = .ok out ∧ out.length = idxs.length + 1 ∧
        polyOf out = (idxs.map fun i => X - C (fs.rootOfUnity ^ (i * stride))).prod ∧
        out.getLast? = some 1) ∧
    ∃ msg, Mcl.zeroPolyPartial fs [] stride = .err msg := by
  refine ⟨fun hne hin => ?_, _, rfl⟩
  have hwf := hfs.wf
  have h := Kzg.zeroPolyPartial_spec fs idxs stride (fun i => fs.rootOfUnity ^ (i * stride)) hne
    (fun i hi => hwf.exp _ (hin i hi))
  have hd := linProd_natDegree (fun i => fs.rootOfUnity ^ (i * stride)) idxs
  have hm := linProd_monic (fun i => fs.rootOfUnity ^ (i * stride)) idxs
  refine ⟨_, (Mcl.zeroPolyPartial_eq fs idxs stride hne).trans h, by simp, ?_, ?_⟩
  · refine polyOf_map_coeff ?_
    rw [degree_eq_natDegree hm.ne_zero, hd]
    exact_mod_cast Nat.lt_succ_self _
  · rw [List.getLast?_eq_getElem?, List.length_map, List.length_range, Nat.add_sub_cancel,
      List.getElem?_map, List.getElem?_range (by omega), Option.map_some, ← hd, hm.coeff_natDegree]

/-- C103 (reduction): the product of nonempty coefficient lists, if it fits a power of two up to `2^30` within the
width. -/
theorem C103_reduce {scale : Nat} {fs : FFTSettings Fr} (hfs : MadeSettings fs scale)
    {m : Nat} (hm : m ≤ scale) (h30 : m ≤ 30) (ps : List (List Fr)) (hne : ps ≠ []) (hp : ∀ p ∈ ps, p ≠ [])
    (hfit : (ps.map fun p => p.length - 1).sum + 1 ≤ 2 ^ m) :
    ∃ out, Mcl.reducePartials fs (2 ^ m) ps = .ok out ∧
      out.length = (ps.map fun p => p.length - 1).sum + 1 ∧ polyOf out = (ps.map polyOf).prod := by
  refine ⟨_, Mcl.reducePartials_spec hfs.wf hm h30 ps hne hp hfit, by simp [degSum], ?_⟩
  exact polyOf_map_coeff (listProd_degree ps hp)

/-- C103 (reduction, rejection): a product that does not fit is an error. -/
theorem C103_reduce_long (fs : FFTSettings Fr) (n : Nat) (hn : 0 < n) (ps : List (List Fr)) (hp : ∀ p ∈ ps, p ≠ [])
    (h : n < (ps.map fun p => p.length - 1).sum + 1) : ∃ msg, Mcl.reducePartials fs n ps = .err msg :=
  Mcl.reducePartials_long fs ps hp (by omega) h

/-- C103 (every domain): for every power-of-two domain `D` within the width and every list of positions below `D`,
nonempty, shorter than `D`, and of length `m` at most `63·(D/64 + 1)`, the call succeeds with `D` coefficients and `D`
evaluations of the product of the `x - ω^i`, both multiplied by a sign: `-1` if `D = 2^31` and more than `2^30` work
values are needed (`64·⌈m/63⌉ > 2^30`), and `1` otherwise. Evaluation `j` is zero exactly if `j` is missing. -/
theorem C103_zero_poly_signed {scale : Nat} {fs : FFTSettings Fr} (hfs : MadeSettings fs scale) {n : Nat}
    (hn : n ≤ scale) (missing : List Nat)
    (hidx : ∀ i ∈ missing, i < 2 ^ n) (hne : missing ≠ []) (hlt : missing.length < 2 ^ n)
    (hsafe : missing.length ≤ 63 * (2 ^ n / 64 + 1)) :
    ∃ (ev coeffs : List Fr) (e : Fr), IsPrimitiveRoot (domainRoot fs scale n) (2 ^ n) ∧
      e = (if n = 31 ∧ 2 ^ 30 < (1 + (missing.length - 1) / 63) * 64 then -1 else 1) ∧
      Mcl.zeroPolyViaMultiplication fs (2 ^ n) missing = .ok (ev, coeffs) ∧
      ev.length = 2 ^ n ∧ coeffs.length = 2 ^ n ∧
      polyOf coeffs = C e * (missing.map fun i => X - C (domainRoot fs scale n ^ i)).prod ∧
      ∀ j < 2 ^ n, ∃ y, ev[j]? = some y ∧ y = (polyOf coeffs).eval (domainRoot fs scale n ^ j) ∧
        (y = 0 ↔ j ∈ missing) := by
  have hwf := hfs.wf
  have hprim := hwf.omega_prim hn
  have h := zeroPoly_signed hwf hn (fun i hi => (hidx i hi).le) hne hlt hsafe
  rw [omega_of_wf hwf hn] at h hprim
  set r : Nat → Fr := fun i => domainRoot fs scale n ^ i with hr
  set e : Fr := zsgn n missing.length with he
  have hpoly : polyOf ((List.range (2 ^ n)).map fun j => e * (linProd r missing).coeff j) = C e * linProd r missing := by
    have hfun : (fun j => e * (linProd r missing).coeff j) = (C e * linProd r missing).coeff := by
      funext j; rw [coeff_C_mul]
    rw [hfun]
    refine polyOf_map_coeff ?_
    rw [degree_C_mul (zsgn_ne _ _)]
    rw [degree_eq_natDegree (linProd_monic r missing).ne_zero, linProd_natDegree]
    exact_mod_cast hlt
  refine ⟨_, _, e, hprim, rfl, h, by simp, by simp, hpoly, ?_⟩
  intro j hj
  refine ⟨e * (linProd r missing).eval (domainRoot fs scale n ^ j), ?_, by rw [hpoly, eval_mul, eval_C], ?_⟩
  · rw [List.getElem?_map, List.getElem?_range hj]; rfl
  · rw [mul_eq_zero, or_iff_right (zsgn_ne _ _), linProd_eval]
    constructor
    · rintro ⟨i, hi, he⟩
      have := hprim.pow_inj hj (hidx i hi) he
      rw [this]; exact hi
    · intro hj'
      exact ⟨j, hj', rfl⟩

/-- C103 (partial): for every power-of-two domain `D` within the width and every list of positions
below `D`, nonempty, shorter than `D`, and of length `m` at most `63·(D/64 + 1)`, the call succeeds with `D`
coefficients of the product of the `x - ω^i` and its `D` evaluations; evaluation `j` is zero exactly if `j` is missing.
On `D = 2^31` this needs `64·⌈m/63⌉ ≤ 2^30`. Missing from the full statement: longer lists (from `D = 8192` on), on which
it panics (`C103_dense_panics`), and more positions on `D = 2^31`, on which the result is negated
(`C103_negated_31`). -/
theorem C103_zero_poly_partial {scale : Nat} {fs : FFTSettings Fr} (hfs : MadeSettings fs scale) {n : Nat}
    (hn : n ≤ scale) (missing : List Nat)
    (h31 : n ≤ 30 ∨ (1 + (missing.length - 1) / 63) * 64 ≤ 2 ^ 30)
    (hidx : ∀ i ∈ missing, i < 2 ^ n) (hne : missing ≠ []) (hlt : missing.length < 2 ^ n)
    (hsafe : missing.length ≤ 63 * (2 ^ n / 64 + 1)) :
    ∃ ev coeffs : List Fr, IsPrimitiveRoot (domainRoot fs scale n) (2 ^ n) ∧
      Mcl.zeroPolyViaMultiplication fs (2 ^ n) missing = .ok (ev, coeffs) ∧
      ev.length = 2 ^ n ∧ coeffs.length = 2 ^ n ∧
      polyOf coeffs = (missing.map fun i => X - C (domainRoot fs scale n ^ i)).prod ∧
      ∀ j < 2 ^ n, ∃ y, ev[j]? = some y ∧ y = (polyOf coeffs).eval (domainRoot fs scale n ^ j) ∧
        (y = 0 ↔ j ∈ missing) := by
  obtain ⟨ev, co, e, h1, he, h2, h3, h4, h5, h6⟩ := C103_zero_poly_signed hfs hn missing hidx hne hlt hsafe
  have he1 : e = 1 := he.trans (if_neg (by rintro ⟨_, _⟩; omega))
  rw [he1, C_1, one_mul] at h5
  exact ⟨ev, co, h1, h2, h3, h4, h5, h6⟩

/-- C103 (refuted for many positions in the domain `2^31`): the polynomial is the negative of the product of the
`x - ω^i`. -/
theorem C103_negated_31 {fs : FFTSettings Fr} (hfs : MadeSettings fs 31) (missing : List Nat)
    (hidx : ∀ i ∈ missing, i < 2 ^ 31) (hmany : 2 ^ 30 < (1 + (missing.length - 1) / 63) * 64)
    (hlt : missing.length < 2 ^ 31) (hsafe : missing.length ≤ 63 * (2 ^ 31 / 64 + 1)) :
    ∃ ev coeffs : List Fr, Mcl.zeroPolyViaMultiplication fs (2 ^ 31) missing = .ok (ev, coeffs) ∧
      polyOf coeffs = -(missing.map fun i => X - C (domainRoot fs 31 31 ^ i)).prod := by
  obtain ⟨ev, co, e, h1, he, h2, h3, h4, h5, h6⟩ := C103_zero_poly_signed hfs (n := 31) le_rfl missing hidx
    (by rintro rfl; norm_num at hmany) hlt hsafe
  have he1 : e = -1 := he.trans (if_pos ⟨rfl, hmany⟩)
  rw [he1, C_neg, C_1, neg_one_mul] at h5
  exact ⟨ev, co, h2, h5⟩

/-- C103 (refuted for dense sets): beyond the bound the call panics for every such list. -/
theorem C103_dense_panics {scale : Nat} {fs : FFTSettings Fr} (hfs : MadeSettings fs scale) {n : Nat}
    (hn : n ≤ scale) (missing : List Nat) (hidx : ∀ i ∈ missing, i < 2 ^ n)
    (hlt : missing.length < 2 ^ n) (hdense : 63 * (2 ^ n / 64 + 1) < missing.length) :
    Mcl.zeroPolyViaMultiplication fs (2 ^ n) missing = .panic :=
  zeroPoly_panic hfs.wf hn missing hidx hlt hdense

/-- C103 (outside of the supported inputs): nothing missing gives two vectors of zeros, whose polynomial vanishes
everywhere instead of nowhere; everything missing, a domain above the width, and a size that is no power of two are
errors. -/
theorem C103_zero_poly_edges {scale : Nat} {fs : FFTSettings Fr} (hfs : MadeSettings fs scale) (D : Nat)
    (missing : List Nat) :
    Mcl.zeroPolyViaMultiplication fs D [] = .ok (List.replicate D 0, List.replicate D 0) ∧
    (missing ≠ [] → D ≤ missing.length ∨ 2 ^ scale < D ∨ (¬ ∃ n, D = 2 ^ n) →
      ∃ msg, Mcl.zeroPolyViaMultiplication fs D missing = .err msg) := by
  have hwf := hfs.wf
  refine ⟨rfl, ?_⟩
  intro hne h
  unfold Mcl.zeroPolyViaMultiplication
  rw [if_neg (by simpa using hne)]
  by_cases h1 : D ≤ missing.length
  · rw [if_pos h1]; exact ⟨_, rfl⟩
  rw [if_neg h1]
  by_cases h2 : 2 ^ scale < D
  · rw [if_pos (by rw [hwf.width]; exact h2)]; exact ⟨_, rfl⟩
  rw [if_neg (by rw [hwf.width]; exact h2)]
  have h3 := (h.resolve_left h1).resolve_left h2
  rw [isPowerOf2_eq (by omega), Res.bind_ok, if_pos (by simpa [← isPowerOfTwo_iff] using h3)]
  exact ⟨_, rfl⟩

/-- C103 (negation): the full statement is false. -/
theorem C103_full_statement_false :
    ¬ ∀ (scale : Nat) (fs : FFTSettings Fr), MadeSettings fs scale → ∀ n ≤ scale,
      ∀ missing : List Nat, missing.Pairwise (· < ·) → (∀ i ∈ missing, i < 2 ^ n) → missing ≠ [] →
        missing.length < 2 ^ n → ∃ r, Mcl.zeroPolyViaMultiplication fs (2 ^ n) missing = .ok r := by
  intro hall
  obtain ⟨fs, h, _, _⟩ := newTrait_spec (F := Fr) Globals.start (k := 13) (by norm_num)
  have hm : MadeSettings fs 13 := ⟨by norm_num, Or.inr h⟩
  have hl : (List.range 8190).length = 8190 := List.length_range
  obtain ⟨r, hr⟩ := hall 13 fs hm 13 le_rfl (List.range 8190) List.pairwise_lt_range
    (fun i hi => by have := List.mem_range.mp hi; norm_num; omega)
    (List.ne_nil_of_length_pos (by omega)) (by rw [hl]; norm_num)
  have he := C103_dense_panics hm (n := 13) le_rfl (List.range 8190)
    (fun i hi => by have := List.mem_range.mp hi; norm_num; omega)
    (by rw [hl]; norm_num) (by rw [hl]; norm_num)
  rw [he] at hr
  cases hr

example : ∃ fs : FFTSettings Fr, MadeSettings fs 10 ∧
    ∃ r, Mcl.zeroPolyViaMultiplication fs 1024 (List.range 1000) = .ok r := by
  obtain ⟨fs, h, _, _⟩ := newTrait_spec (F := Fr) Globals.start (k := 10) (by norm_num)
  have hm : MadeSettings fs 10 := ⟨by norm_num, Or.inr h⟩
  obtain ⟨ev, co, _, h1, _⟩ := C103_zero_poly_partial hm (n := 10) le_rfl (List.range 1000) (Or.inl (by norm_num))
    (fun i hi => by have := List.mem_range.mp hi; norm_num; omega)
    (List.ne_nil_of_length_pos (by rw [List.length_range]; norm_num))
    (by rw [List.length_range]; norm_num) (by rw [List.length_range]; norm_num)
  exact ⟨fs, hm, _, h1⟩

/-! ## C104: recovery -/

/-- C104 (general form): any number `m` of erasures with `degree + m` below the domain size `D`, `1 ≤ m < D`,
and `m ≤ 63·(D/64 + 1)`. -/
theorem C104_recovery_general {scale : Nat} {fs : FFTSettings Fr} (hfs : MadeSettings fs scale) {n : Nat}
    (hn : n ≤ scale) (p : Fr[X]) (samples : List (Option Fr))
    (hs : Erasure (codeword (domainRoot fs scale n) (2 ^ n) p) samples)
    (h1 : 1 ≤ erased samples) (h2 : erased samples < 2 ^ n)
    (hp : p = 0 ∨ p.natDegree + erased samples < 2 ^ n)
    (hsafe : erased samples ≤ 63 * (2 ^ n / 64 + 1)) :
    Mcl.recover fs samples = .ok (codeword (domainRoot fs scale n) (2 ^ n) p) := by
  have hwf := hfs.wf
  have hl : samples.length = 2 ^ n := by rw [hs.1]; simp [codeword]
  have hm := missingIdxs_length samples
  unfold erased at *
  unfold Mcl.recover
  rw [(recover_outcome hwf samples hl ⟨hn, by omega, by omega, by omega⟩ (shiftOk_seq n)).1 p
    (by rw [hm]; exact degree_add_lt hp) ((erasure_iff (omega_of_wf hwf hn) hl p).2 hs), omega_of_wf hwf hn]
  rfl

/-- C104 (`unwrap_default`): keeps every sample that is there and puts zero in place of the others. -/
theorem C104_unwrap_default (samples : List (Option Fr)) :
    (Mcl.unwrapDefault samples).length = samples.length ∧
    (∀ (i : Nat) (x : Fr), samples[i]? = some (some x) → (Mcl.unwrapDefault samples)[i]? = some x) ∧
    (∀ i : Nat, samples[i]? = some none → (Mcl.unwrapDefault samples)[i]? = some 0) := by
  refine ⟨by simp [Mcl.unwrapDefault], fun i x h => ?_, fun i h => ?_⟩ <;> simp [Mcl.unwrapDefault, h]

/-- C104: for every power-of-two domain within the width, every polynomial of degree
below half of the domain and every erasure of at least one and at most half of the evaluations, recovery returns all
original evaluations. (On the domain `2^31` the inverse transform negates, and so may the zero polynomial; the signs
cancel.) -/
theorem C104_recovery {scale : Nat} {fs : FFTSettings Fr} (hfs : MadeSettings fs scale) {n : Nat}
    (hn : n ≤ scale) (p : Fr[X])
    (hp : p = 0 ∨ 2 * p.natDegree < 2 ^ n) (samples : List (Option Fr))
    (hs : Erasure (codeword (domainRoot fs scale n) (2 ^ n) p) samples)
    (h1 : 1 ≤ erased samples) (h2 : 2 * erased samples ≤ 2 ^ n) :
    Mcl.recover fs samples = .ok (codeword (domainRoot fs scale n) (2 ^ n) p) := by
  refine C104_recovery_general hfs hn p samples hs h1 (by omega) ?_ (by omega)
  rcases hp with h | h
  · exact Or.inl h
  · right; omega

/-- Three samples of `2 + 3x` on the domain of four. -/
example : ∃ fs : FFTSettings Fr, MadeSettings fs 2 ∧
    Mcl.recover fs (((codeword (domainRoot fs 2 2) 4 (C 3 * X + C 2)).map some).set 1 none) =
      .ok (codeword (domainRoot fs 2 2) 4 (C 3 * X + C 2)) := by
  obtain ⟨fs, h, _, _⟩ := newTrait_spec (F := Fr) Globals.start (k := 2) (by norm_num)
  have hm : MadeSettings fs 2 := ⟨by norm_num, Or.inr h⟩
  have hd : (C (3 : Fr) * X + C 2).natDegree ≤ 1 := natDegree_linear_le
  refine ⟨fs, hm, C104_recovery hm (n := 2) le_rfl _ (Or.inr (by omega)) _
    ⟨by simp [codeword], ?_⟩ (by simp [codeword, erased, List.range_succ]) (by simp [codeword, erased, List.range_succ])⟩
  intro i v hv
  rw [List.getElem?_set] at hv
  split at hv
  · split at hv <;> cases hv
  · rw [List.getElem?_map] at hv
    obtain ⟨w, hw, e⟩ := Option.map_eq_some_iff.mp hv
    cases e
    exact hw

/-! ## C105: agreement with the samples -/

/-- C105 (partial): the code has no final comparison, and needs none: on every supported input, whatever the values,
it returns data that agrees with every sample and is the evaluation list of a polynomial whose degree plus the number
of erasures is below the domain size; that polynomial is the only consistent one. Missing from the full statement:
complete sample lists (`C105_complete_ignored`). -/
theorem C105_agrees_partial {scale : Nat} {fs : FFTSettings Fr} (hfs : MadeSettings fs scale) {n : Nat}
    (hn : n ≤ scale) (samples : List (Option Fr)) (hl : samples.length = 2 ^ n)
    (h1 : 1 ≤ erased samples) (h2 : erased samples < 2 ^ n) (hsafe : erased samples ≤ 63 * (2 ^ n / 64 + 1)) :
    ∃ p : Fr[X], p.degree + (erased samples : WithBot Nat) < ((2 ^ n : Nat) : WithBot Nat) ∧
      Mcl.recover fs samples = .ok (codeword (domainRoot fs scale n) (2 ^ n) p) ∧
      (∀ (i : Nat) (v : Fr), samples[i]? = some (some v) →
        (codeword (domainRoot fs scale n) (2 ^ n) p)[i]? = some v) ∧
      ∀ q : Fr[X], q.degree + (erased samples : WithBot Nat) < ((2 ^ n : Nat) : WithBot Nat) →
        Erasure (codeword (domainRoot fs scale n) (2 ^ n) q) samples → q = p := by
  have hwf := hfs.wf
  have hprim := hwf.omega_prim hn
  rw [omega_of_wf hwf hn] at hprim
  obtain ⟨p, hp, he⟩ := consistent_exists hprim samples hl
  have hp' : p = 0 ∨ p.natDegree + erased samples < 2 ^ n := by
    by_cases h0 : p = 0
    · exact Or.inl h0
    · rw [degree_eq_natDegree h0] at hp
      exact Or.inr (by exact_mod_cast hp)
  exact ⟨p, hp, C104_recovery_general hfs hn p samples he h1 h2 hp' hsafe, he.2,
    fun q hq hqe => codeword_unique hprim hl hq hp hqe he⟩

/-- C105 (refuted for complete samples): with nothing missing the samples are multiplied by zero; the outcome depends
on their number alone. -/
theorem C105_complete_ignored (fs : FFTSettings Fr) (data data' : List Fr) (h : data.length = data'.length) :
    Mcl.recover fs (data.map some) = Mcl.recover fs (data'.map some) ∧
    Mcl.recoverPar fs (data.map some) = Mcl.recoverPar fs (data'.map some) := by
  have hz : ∀ d : List Fr, missingIdxs (d.map some) = [] := by
    intro d
    rw [← List.length_eq_zero_iff, missingIdxs_length, List.countP_map]
    simp [Function.comp_def]
  exact ⟨recover_full _ _ _ fs _ _ (by simpa using h) (hz _) (hz _),
    recover_full _ _ _ fs _ _ (by simpa using h) (hz _) (hz _)⟩

/-- C105 (refuted for complete samples): for no number of samples are all complete lists returned. -/
theorem C105_complete_wrong (fs : FFTSettings Fr) (n : Nat) (hn : 0 < n) :
    ∃ data : List Fr, data.length = n ∧ Mcl.recover fs (data.map some) ≠ .ok data := by
  by_contra hall
  push Not at hall
  have h1 := hall (List.replicate n 0) (by simp)
  have h2 := hall (List.replicate n 1) (by simp)
  rw [(C105_complete_ignored fs (List.replicate n 0) (List.replicate n 1) (by simp)).1, h2] at h1
  have := congrArg (fun r => match r with | Res.ok l => l[0]? | _ => none) h1
  simp [hn] at this

/-- C105 (rejection): a length that is no power of two is an error; the empty list, samples that are all missing,
domains above the width, and too many missing samples are panics. -/
theorem C105_rejects {scale : Nat} {fs : FFTSettings Fr} (hfs : MadeSettings fs scale) (samples : List (Option Fr)) :
    (samples = [] → Mcl.recover fs samples = .panic) ∧
    (samples ≠ [] → (∀ n, samples.length ≠ 2 ^ n) → ∃ msg, Mcl.recover fs samples = .err msg) ∧
    (∀ n, samples.length = 2 ^ n → 1 ≤ erased samples →
      erased samples = 2 ^ n ∨ scale < n ∨ 63 * (2 ^ n / 64 + 1) < erased samples →
      Mcl.recover fs samples = .panic) := by
  refine ⟨fun h => by subst h; rfl, fun h0 h => ?_, fun n hl h1 h => ?_⟩
  · unfold Mcl.recover recoverWith
    have h0' : samples.length ≠ 0 := by simpa using h0
    have : isPowerOfTwo samples.length = false := by
      rw [← Bool.not_eq_true, isPowerOfTwo_iff]; rintro ⟨n, hn⟩; exact h n hn
    rw [isPowerOf2_eq h0', Res.bind_ok, this]
    exact ⟨_, rfl⟩
  · have hm : (missingIdxs samples).length = erased samples := missingIdxs_length samples
    exact recover_panic hfs.wf samples hl (by omega) (by rcases h with h | h | h <;> omega)

/-! ## C106: the parallel feature -/

/-- C106 (partial): on domains of at most 65536 recovery with the parallel feature does what it does without, on all
supported inputs. Missing from the full statement: larger domains (`C106_large_panics`). -/
theorem C106_parallel_partial {scale : Nat} {fs : FFTSettings Fr} (hfs : MadeSettings fs scale) {n : Nat}
    (hn : n ≤ scale) (h16 : n ≤ 16) (samples : List (Option Fr)) (hl : samples.length = 2 ^ n)
    (h1 : 1 ≤ erased samples) (h2 : erased samples < 2 ^ n) (hsafe : erased samples ≤ 63 * (2 ^ n / 64 + 1)) :
    Mcl.recoverPar fs samples = Mcl.recover fs samples := by
  have hwf := hfs.wf
  have hprim := hwf.omega_prim hn
  have hm : (missingIdxs samples).length = erased samples := missingIdxs_length samples
  have hsup : Supported scale n (missingIdxs samples).length := ⟨hn, by omega, by omega, by omega⟩
  obtain ⟨p, hp, he⟩ := consistent_exists hprim samples hl
  rw [← hm] at hp
  have he' := (erasure_iff rfl hl p).2 he
  unfold Mcl.recoverPar Mcl.recover
  rw [(recover_outcome hwf samples hl hsup (shiftOk_seq n)).1 p hp he',
    (recover_outcome hwf samples hl hsup (shiftOk_par h16)).1 p hp he']

/-- C106 (refuted above 65536): with the parallel feature the call panics where it succeeds without. -/
theorem C106_large_panics {scale : Nat} {fs : FFTSettings Fr} (hfs : MadeSettings fs scale) {n : Nat}
    (hn : n ≤ scale) (h16 : 16 < n) (samples : List (Option Fr)) (hl : samples.length = 2 ^ n)
    (h1 : 1 ≤ erased samples) (h2 : erased samples < 2 ^ n) (hsafe : erased samples ≤ 63 * (2 ^ n / 64 + 1)) :
    Mcl.recoverPar fs samples = .panic ∧ ∃ data, Mcl.recover fs samples = .ok data := by
  have hm : (missingIdxs samples).length = erased samples := missingIdxs_length samples
  obtain ⟨p, _, h, _⟩ := C105_agrees_partial hfs hn samples hl h1 h2 hsafe
  exact ⟨recoverPar_large hfs.wf samples hl ⟨hn, by omega, by omega, by omega⟩ h16, _, h⟩

example : ∃ fs : FFTSettings Fr, MadeSettings fs 2 ∧
    (∃ data, Mcl.recover fs [some 1, none, some 5, some 9] = .ok data ∧ data[3]? = some 9) ∧
    Mcl.recoverPar fs [some 1, none, some 5, some 9] = Mcl.recover fs [some 1, none, some 5, some 9] ∧
    ∃ msg, Mcl.recover fs [some 1, none, some 5] = .err msg := by
  obtain ⟨fs, h, _, _⟩ := newTrait_spec (F := Fr) Globals.start (k := 2) (by norm_num)
  have hm : MadeSettings fs 2 := ⟨by norm_num, Or.inr h⟩
  obtain ⟨p, _, h1, h2, _⟩ := C105_agrees_partial hm (n := 2) le_rfl [some 1, none, some 5, some 9] rfl
    (by simp [erased]) (by simp [erased]) (by simp [erased])
  refine ⟨fs, hm, ⟨_, h1, h2 3 9 rfl⟩, C106_parallel_partial hm (n := 2) le_rfl (by norm_num) _ rfl
    (by simp [erased]) (by simp [erased]) (by simp [erased]), (C105_rejects hm _).2.1 (by simp) ?_⟩
  intro n e
  have e' : 3 = 2 ^ n := e
  rcases Nat.lt_or_ge n 2 with h | h
  · interval_cases n <;> simp at e'
  · have : 2 ^ 2 ≤ 2 ^ n := Nat.pow_le_pow_right (by omega) h
    omega

end
end Kzg.Props
