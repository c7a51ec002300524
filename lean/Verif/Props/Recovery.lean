import Verif.Proofs.Recovery
import Verif.Proofs.FrLawful
/-!
# Properties C21–C24: recovery from samples
-/

namespace Kzg.Props
open Kzg Polynomial

/-- The evaluations of `p` over the powers of `ω`. -/
def codeword {F : Type} [Field F] (ω : F) (D : Nat) (p : F[X]) : List F := (List.range D).map fun i => p.eval (ω ^ i)

/-- The `2^n`-th root of unity of settings of the given scale. -/
def domainRoot {F : Type} [Field F] (fs : FFTSettings F) (scale n : Nat) : F := fs.rootOfUnity ^ 2 ^ (scale - n)

/-- `samples` is `data` with some positions erased. -/
def Erasure {F : Type} (data : List F) (samples : List (Option F)) : Prop :=
  samples.length = data.length ∧
    ∀ (i : Nat) (v : F), samples[i]? = some (some v) → data[i]? = some v

/-- Number of erased positions. -/
def erased {F : Type} (samples : List (Option F)) : Nat := samples.countP Option.isNone

/-- `raw` is `data` with some positions overwritten by the null element. -/
def NullErasure (data raw : List Fr) : Prop :=
  raw.length = data.length ∧
    ∀ (i : Nat) (v : Fr), raw[i]? = some v → v ≠ frNull → data[i]? = some v

theorem omega_eq {F : Type} [Field F] [DecidableEq F] [FrTable F] [LawfulFr F] {scale : Nat} {fs : FFTSettings F} (hfs : FFTSettings.new scale = .ok fs) {n : Nat}
    (hn : n ≤ scale) : fs.omega (2 ^ n) = domainRoot fs scale n := by
  rw [FFTSettings.omega, (wf_of_new hfs).width, Nat.pow_div hn (by omega)]; rfl

theorem recoverNull_pre {n : Nat} (h0 : n ≠ 0) (h : n ≤ 31) (l : List Fr) (hl : l.length = 2 ^ n) :
    (do let k ← subU l.length 1; let _ ← nextPowerOfTwo k; Res.ok ()) = .ok () := by
  have h2 : 2 ≤ 2 ^ n := by
    calc 2 = 2 ^ 1 := rfl
      _ ≤ 2 ^ n := Nat.pow_le_pow_right (by omega) (by omega)
  have h3 : 2 ^ n ≤ 2 ^ 63 := Nat.pow_le_pow_right (by omega) (by omega)
  rw [hl, subU_of_le (show 1 ≤ 2 ^ n by omega), Res.bind_ok,
    nextPowerOfTwo_eq (show 1 ≤ 2 ^ n - 1 by omega) (by omega), Res.bind_ok]

theorem toOption_some {raw : List Fr} {i : Nat} {v : Fr} :
    (raw.map (toOption frNull))[i]? = some (some v) ↔ raw[i]? = some v ∧ v ≠ frNull := by
  rw [List.getElem?_map]
  cases h : raw[i]? with
  | none => simp
  | some x =>
    simp only [Option.map_some, Option.some_inj, toOption]
    by_cases hx : x = frNull
    · rw [if_pos hx]
      constructor
      · intro h; cases h
      · rintro ⟨rfl, h⟩; exact absurd hx h
    · rw [if_neg hx, Option.some_inj]
      constructor
      · rintro rfl; exact ⟨rfl, hx⟩
      · exact fun h => h.1

theorem toOption_countP (raw : List Fr) :
    (raw.map (toOption frNull)).countP Option.isNone = raw.count frNull := by
  rw [List.countP_map, List.count]
  apply List.countP_congr
  intro x _
  simp only [Function.comp, toOption]
  by_cases hx : x = frNull
  · simp [hx]
  · simp [hx]

/-! ## C21 -/

theorem degree_add_lt {F : Type} [Field F] {p : F[X]} {m D : Nat} (hp : p = 0 ∨ p.natDegree + m < D) :
    p.degree + (m : WithBot Nat) < (D : WithBot Nat) := by
  by_cases h0 : p = 0
  · subst h0; rw [degree_zero, WithBot.bot_add]; exact WithBot.bot_lt_coe D
  · rw [degree_eq_natDegree h0]
    exact_mod_cast hp.resolve_left h0

/-- C21 (general form, partial): any number `m` of erasures with `degree + m` below the domain size
`D`, `1 ≤ m < D`, and `m ≤ 63·(D/64 + 1)` (always true for `D ≤ 4096` and for `2m ≤ D`). Missing:
domains above 65536 (the code panics) and erasure counts beyond the last bound (the code panics). -/
theorem C21_recovery_general_partial {scale : Nat} {fs : FFTSettings Fr}
    (hfs : FFTSettings.new scale = .ok fs) {n : Nat} (hn : n ≤ scale) (h16 : n ≤ 16) (p : Fr[X])
    (samples : List (Option Fr))
    (hs : Erasure (codeword (domainRoot fs scale n) (2 ^ n) p) samples)
    (h1 : 1 ≤ erased samples) (h2 : erased samples < 2 ^ n)
    (hp : p = 0 ∨ p.natDegree + erased samples < 2 ^ n)
    (hsafe : erased samples ≤ 63 * (2 ^ n / 64 + 1)) :
    fs.recoverOption samples = .ok (codeword (domainRoot fs scale n) (2 ^ n) p) := by
  have hwf := wf_of_new hfs
  have hl : samples.length = 2 ^ n := by rw [hs.1]; simp [codeword]
  have hm := missingIdxs_length samples
  unfold erased at *
  rw [recoverOption_tail fs samples hl]
  rw [(hwf.recoverTail_outcome .panic .panic (fun u => nofun) _ samples hl (fun _ _ _ _ => rfl)
    ⟨hn, h16, by omega, by omega, by omega⟩).1 p (by rw [hm]; exact degree_add_lt hp) ?_, omega_eq hfs hn]
  · rfl
  · intro i v hv
    have hi : i < 2 ^ n := by rw [← hl]; exact (List.getElem?_eq_some_iff.mp hv).1
    have := hs.2 i v hv
    rw [codeword, List.getElem?_map, List.getElem?_range hi, Option.map_some, Option.some_inj] at this
    rw [omega_eq hfs hn, this]

/-- C21 (partial): for every domain of at most 65536 within the width, every polynomial of degree
below half of the domain and every erasure of at least one and at most half of the evaluations,
recovery returns all original evaluations. Missing from the full statement: domains above 65536, on
which the code panics (`C21_large_domain_panics`). -/
theorem C21_recovery_partial {scale : Nat} {fs : FFTSettings Fr}
    (hfs : FFTSettings.new scale = .ok fs) {n : Nat} (hn : n ≤ scale) (h16 : 2 ^ n ≤ 65536) (p : Fr[X])
    (hp : p = 0 ∨ 2 * p.natDegree < 2 ^ n) (samples : List (Option Fr))
    (hs : Erasure (codeword (domainRoot fs scale n) (2 ^ n) p) samples)
    (h1 : 1 ≤ erased samples) (h2 : 2 * erased samples ≤ 2 ^ n) :
    fs.recoverOption samples = .ok (codeword (domainRoot fs scale n) (2 ^ n) p) := by
  have hn16 : n ≤ 16 := by
    by_contra h
    have : 2 ^ 16 < 2 ^ n := Nat.pow_lt_pow_right (by omega) (by omega)
    omega
  refine C21_recovery_general_partial hfs hn hn16 p samples hs h1 (by omega) ?_ (by omega)
  rcases hp with h | h
  · exact Or.inl h
  · right; omega

/-- C21 (null marker, partial): the same for the variant that marks erasures by the null element;
`m` counts the positions holding that element, whether erased or original. Missing: as above. -/
theorem C21_recovery_null_partial {scale : Nat} {fs : FFTSettings Fr}
    (hfs : FFTSettings.new scale = .ok fs) {n : Nat} (hn : n ≤ scale) (h16 : n ≤ 16) (p : Fr[X])
    (raw : List Fr) (hs : NullErasure (codeword (domainRoot fs scale n) (2 ^ n) p) raw)
    (h1 : 1 ≤ raw.count frNull) (h2 : raw.count frNull < 2 ^ n)
    (hp : p = 0 ∨ p.natDegree + raw.count frNull < 2 ^ n)
    (hsafe : raw.count frNull ≤ 63 * (2 ^ n / 64 + 1)) :
    fs.recoverNull frNull raw (2 ^ n) = .ok (codeword (domainRoot fs scale n) (2 ^ n) p) := by
  have hwf := wf_of_new hfs
  have hl : (raw.map (toOption frNull)).length = 2 ^ n := by rw [List.length_map, hs.1]; simp [codeword]
  have hm := (missingIdxs_length (raw.map (toOption frNull))).trans (toOption_countP raw)
  rw [recoverNull_tail]
  rw [(hwf.recoverTail_outcome _ (.err _) (fun u => nofun) _ _ hl
    (fun h0 h _ hl => recoverNull_pre h0 (by have := hwf.lt; omega) _ hl)
    ⟨hn, h16, by omega, by omega, by omega⟩).1 p (by rw [hm]; exact degree_add_lt hp) ?_, omega_eq hfs hn]
  · rfl
  · intro i v hv
    have hi : i < 2 ^ n := by rw [← hl]; exact (List.getElem?_eq_some_iff.mp hv).1
    obtain ⟨hv1, hv2⟩ := toOption_some.mp hv
    have := hs.2 i v hv1 hv2
    rw [codeword, List.getElem?_map, List.getElem?_range hi, Option.map_some, Option.some_inj] at this
    rw [omega_eq hfs hn, this]

/-- C21 (large domains): on every domain above 65536 both variants panic, whatever the samples. -/
theorem C21_large_domain_panics {scale : Nat} {fs : FFTSettings Fr}
    (hfs : FFTSettings.new scale = .ok fs) {n : Nat} (h16 : 16 < n) :
    (∀ samples : List (Option Fr), samples.length = 2 ^ n → fs.recoverOption samples = .panic) ∧
    (∀ raw : List Fr, raw.length = 2 ^ n → fs.recoverNull frNull raw (2 ^ n) = .panic) := by
  have hwf := wf_of_new hfs
  constructor
  · intro samples hl
    rw [recoverOption_tail fs samples hl]
    exact hwf.recoverTail_panic _ _ _ samples hl (fun _ _ _ _ => rfl)
      (fun h => absurd h.table (by omega))
  · intro raw hl
    rw [recoverNull_tail]
    exact hwf.recoverTail_panic _ _ _ _ (by simpa using hl)
      (fun h0 h _ hl => recoverNull_pre h0 (by have := hwf.lt; omega) _ hl)
      (fun h => absurd h.table (by omega))

/-- C21 (negation): the full statement is false. -/
theorem C21_full_statement_false :
    ¬ ∀ (scale : Nat) (fs : FFTSettings Fr), FFTSettings.new scale = .ok fs → ∀ n ≤ scale, ∀ p : Fr[X],
      (p = 0 ∨ 2 * p.natDegree < 2 ^ n) → ∀ samples : List (Option Fr),
      Erasure (codeword (domainRoot fs scale n) (2 ^ n) p) samples →
      1 ≤ erased samples → 2 * erased samples ≤ 2 ^ n →
      fs.recoverOption samples = .ok (codeword (domainRoot fs scale n) (2 ^ n) p) := by
  intro hall
  obtain ⟨fs, h, _⟩ := new_spec (F := Fr) (k := 17) (by norm_num)
  have hlen : (none :: List.replicate (2 ^ 17 - 1) (some (0 : Fr))).length = 2 ^ 17 := by
    rw [List.length_cons, List.length_replicate]; norm_num
  have hcount : erased (none :: List.replicate (2 ^ 17 - 1) (some (0 : Fr))) = 1 := by
    rw [erased, List.countP_cons, List.countP_replicate]; norm_num
  have := hall 17 fs h 17 le_rfl 0 (Or.inl rfl) (none :: List.replicate (2 ^ 17 - 1) (some (0 : Fr)))
    ⟨by rw [hlen, codeword, List.length_map, List.length_range], by
      intro i v hv
      have hi : i < 2 ^ 17 := by rw [← hlen]; exact (List.getElem?_eq_some_iff.mp hv).1
      rw [codeword, List.getElem?_map, List.getElem?_range hi, Option.map_some, eval_zero]
      cases i with
      | zero => cases hv
      | succ i =>
        rw [List.getElem?_cons_succ, List.getElem?_replicate] at hv
        split at hv
        · exact Option.some_inj.mp hv
        · cases hv⟩ hcount.ge (by rw [hcount]; norm_num)
  rw [(C21_large_domain_panics h (by norm_num)).1 _ hlen] at this
  cases this

example : ∃ fs : FFTSettings Fr, FFTSettings.new 2 = .ok fs ∧
    fs.recoverOption [some 7, none, none, some 7] = .ok (codeword (domainRoot fs 2 2) 4 (C 7)) := by
  obtain ⟨fs, h, _⟩ := new_spec (F := Fr) (k := 2) (by norm_num)
  refine ⟨fs, h, C21_recovery_partial h (n := 2) le_rfl (by norm_num) (C 7) (Or.inr (by simp))
    _ ⟨rfl, ?_⟩ (by simp [erased]) (by simp [erased])⟩
  intro i v hv
  match i with
  | 0 => simpa [codeword] using hv
  | 1 => simp at hv
  | 2 => simp at hv
  | 3 => simpa [codeword] using hv
  | i + 4 => simp at hv

/-! ## C22 -/

theorem codeword_unique {F : Type} [Field F] [DecidableEq F] [FrTable F] [LawfulFr F] {ω : F} {D : Nat} (hω : IsPrimitiveRoot ω D)
    {samples : List (Option F)} (hl : samples.length = D) {p q : F[X]}
    (hp : p.degree + (erased samples : WithBot Nat) < (D : WithBot Nat))
    (hq : q.degree + (erased samples : WithBot Nat) < (D : WithBot Nat))
    (h1 : Erasure (codeword ω D p) samples) (h2 : Erasure (codeword ω D q) samples) : p = q := by
  by_contra hne
  have hsub : p - q ≠ 0 := sub_ne_zero.mpr hne
  have hd : (p - q).degree + (erased samples : WithBot Nat) < (D : WithBot Nat) := by
    rcases le_max_iff.mp (degree_sub_le p q) with h | h
    · exact lt_of_le_of_lt (add_le_add_left h _) hp
    · exact lt_of_le_of_lt (add_le_add_left h _) hq
  apply hsub
  refine eq_zero_of_degree_lt_of_eval_finset_eq_zero
    (((Finset.range D).filter fun i => i ∉ missingIdxs samples).image fun i => ω ^ i) ?_ ?_
  · rw [Finset.card_image_of_injOn]
    · have hcard : ((Finset.range D).filter fun i => i ∉ missingIdxs samples).card +
          (missingIdxs samples).length = D := by
        have hnd : (missingIdxs samples).Nodup := List.Nodup.filter _ List.nodup_range
        have h3 : (missingIdxs samples).toFinset = (Finset.range D).filter fun i => i ∈ missingIdxs samples := by
          ext i
          simp only [List.mem_toFinset, Finset.mem_filter, Finset.mem_range]
          exact ⟨fun h => ⟨by have := missing_lt h; omega, h⟩, fun h => h.2⟩
        have h4 := Finset.card_filter_add_card_filter_not (s := Finset.range D) (fun i => i ∈ missingIdxs samples)
        rw [← h3, List.toFinset_card_of_nodup hnd, Finset.card_range] at h4
        omega
      rw [missingIdxs_length] at hcard
      rw [degree_eq_natDegree hsub] at hd ⊢
      have hd' : (p - q).natDegree + erased samples < D := by exact_mod_cast hd
      unfold erased at hd'
      exact_mod_cast (by omega : (p - q).natDegree < _)
    · intro i hi j hj hij
      simp only [Finset.coe_filter, Finset.mem_range, Set.mem_ofPred_eq] at hi hj
      exact hω.pow_inj hi.1 hj.1 hij
  · intro x hx
    obtain ⟨i, hi, rfl⟩ := Finset.mem_image.mp hx
    obtain ⟨hi1, hi2⟩ := Finset.mem_filter.mp hi
    rw [Finset.mem_range] at hi1
    have hsome := getElem?_eq_some_getD (l := samples) none (show i < samples.length by omega)
    cases hv : samples.getD i none with
    | none => exact absurd (mem_missingIdxs.mpr (by rw [hsome, hv])) hi2
    | some v =>
      rw [hv] at hsome
      have e1 := h1.2 i v hsome
      have e2 := h2.2 i v hsome
      rw [codeword, List.getElem?_map, List.getElem?_range hi1, Option.map_some, Option.some_inj] at e1 e2
      rw [eval_sub, e1, e2, sub_self]

theorem erasure_iff {F : Type} [Field F] {fs : FFTSettings F} {n : Nat} {samples : List (Option F)} {ω : F}
    (hω : fs.omega (2 ^ n) = ω) (hl : samples.length = 2 ^ n) (p : F[X]) :
    (∀ (i : Nat) (v : F), samples[i]? = some (some v) → v = p.eval (fs.omega (2 ^ n) ^ i)) ↔
      Erasure (codeword ω (2 ^ n) p) samples := by
  rw [hω]
  constructor
  · intro h
    refine ⟨by simp [codeword, hl], ?_⟩
    intro i v hv
    have hi : i < 2 ^ n := by rw [← hl]; exact (List.getElem?_eq_some_iff.mp hv).1
    rw [codeword, List.getElem?_map, List.getElem?_range hi, Option.map_some, ← h i v hv]
  · intro h i v hv
    have hi : i < 2 ^ n := by rw [← hl]; exact (List.getElem?_eq_some_iff.mp hv).1
    have := h.2 i v hv
    rw [codeword, List.getElem?_map, List.getElem?_range hi, Option.map_some, Option.some_inj] at this
    exact this.symm

/-- C22: for arbitrary samples, whenever recovery returns data, the data agrees with every present
sample, is the evaluation list of a polynomial whose degree plus the number of erasures is below the
domain size, and that polynomial is the only consistent one. -/
theorem C22_recovery_sound {scale : Nat} {fs : FFTSettings Fr} (hfs : FFTSettings.new scale = .ok fs)
    (samples : List (Option Fr)) (data : List Fr) (h : fs.recoverOption samples = .ok data) :
    data.length = samples.length ∧
    (∀ (i : Nat) (v : Fr), samples[i]? = some (some v) → data[i]? = some v) ∧
    ∃ n ≤ scale, samples.length = 2 ^ n ∧
      ∃ p : Fr[X], p.degree + (erased samples : WithBot Nat) < ((2 ^ n : Nat) : WithBot Nat) ∧
        data = codeword (domainRoot fs scale n) (2 ^ n) p ∧
        ∀ q : Fr[X], q.degree + (erased samples : WithBot Nat) < ((2 ^ n : Nat) : WithBot Nat) →
          Erasure (codeword (domainRoot fs scale n) (2 ^ n) q) samples → q = p := by
  have hwf := wf_of_new hfs
  by_cases hpow : ∃ n, samples.length = 2 ^ n
  swap
  · unfold FFTSettings.recoverOption at h
    have : isPowerOfTwo samples.length = false := by
      rw [← Bool.not_eq_true, isPowerOfTwo_iff]; exact hpow
    simp [this] at h
  obtain ⟨n, hl⟩ := hpow
  rw [recoverOption_tail fs samples hl] at h
  by_cases hrec : Recoverable scale n (missingIdxs samples).length
  swap
  · rw [hwf.recoverTail_panic _ _ _ samples hl (fun _ _ _ _ => rfl) hrec] at h; cases h
  have hn := hrec.width
  have hom := omega_eq hfs hn
  obtain ⟨o1, o2⟩ := hwf.recoverTail_outcome .panic .panic (fun u => nofun) (fun _ => .ok ()) samples hl
    (fun _ _ _ _ => rfl) hrec
  by_cases hex : ∃ p : Fr[X], p.degree + (missingIdxs samples).length < (2 ^ n : Nat) ∧
      ∀ (i : Nat) (v : Fr), samples[i]? = some (some v) → v = p.eval (fs.omega (2 ^ n) ^ i)
  swap
  · rw [o2 hex] at h; cases h
  obtain ⟨p, hp, hs⟩ := hex
  rw [o1 p hp hs] at h
  have hdata := (Res.ok.inj h).symm
  have hera := (erasure_iff hom hl p).mp hs
  rw [hom] at hdata
  rw [missingIdxs_length] at hp
  refine ⟨by rw [hdata, hl]; simp, ?_, n, hn, hl, p, hp, hdata, ?_⟩
  · rw [hdata]; exact hera.2
  · intro q hq hqe
    exact codeword_unique (hom ▸ hwf.omega_prim hn) hl hq hp hqe hera

/-- C22 (null marker): the same for the variant with the null marker, applied with the length of its
sample list. -/
theorem C22_recovery_null_sound {scale : Nat} {fs : FFTSettings Fr}
    (hfs : FFTSettings.new scale = .ok fs) (raw : List Fr) (data : List Fr)
    (h : fs.recoverNull frNull raw raw.length = .ok data) :
    data.length = raw.length ∧
    (∀ (i : Nat) (v : Fr), raw[i]? = some v → v ≠ frNull → data[i]? = some v) ∧
    ∃ n ≤ scale, raw.length = 2 ^ n ∧
      ∃ p : Fr[X], p.degree + (raw.count frNull : WithBot Nat) < ((2 ^ n : Nat) : WithBot Nat) ∧
        data = codeword (domainRoot fs scale n) (2 ^ n) p := by
  have hwf := wf_of_new hfs
  by_cases hpow : ∃ n, raw.length = 2 ^ n
  swap
  · unfold FFTSettings.recoverNull at h
    have : isPowerOfTwo raw.length = false := by
      rw [← Bool.not_eq_true, isPowerOfTwo_iff]; exact hpow
    simp [this] at h
  obtain ⟨n, hl⟩ := hpow
  have hl' : (raw.map (toOption frNull)).length = 2 ^ n := by rw [List.length_map, hl]
  have hpre : n ≠ 0 → n ≤ scale → ∀ l : List Fr, l.length = 2 ^ n →
      (do let k ← subU l.length 1; let _ ← nextPowerOfTwo k; Res.ok ()) = .ok () :=
    fun h0 h _ hl => recoverNull_pre h0 (by have := hwf.lt; omega) _ hl
  rw [hl, recoverNull_tail] at h
  by_cases hrec : Recoverable scale n (missingIdxs (raw.map (toOption frNull))).length
  swap
  · rw [hwf.recoverTail_panic _ _ _ _ hl' hpre hrec] at h; cases h
  have hn := hrec.width
  have hom := omega_eq hfs hn
  obtain ⟨o1, o2⟩ := hwf.recoverTail_outcome
    (.err "recovery error: samples should be null when and only when zero_eval is zero")
    (.err "recovery error: samples should be null or equal reconstructed data") (fun u => nofun) _ _ hl'
    hpre hrec
  by_cases hex : ∃ p : Fr[X], p.degree + (missingIdxs (raw.map (toOption frNull))).length < (2 ^ n : Nat) ∧
      ∀ (i : Nat) (v : Fr), (raw.map (toOption frNull))[i]? = some (some v) →
        v = p.eval (fs.omega (2 ^ n) ^ i)
  swap
  · rw [o2 hex] at h; cases h
  obtain ⟨p, hp, hs⟩ := hex
  rw [o1 p hp hs] at h
  have hdata := (Res.ok.inj h).symm
  have hera := (erasure_iff hom hl' p).mp hs
  rw [hom] at hdata
  rw [missingIdxs_length, toOption_countP] at hp
  refine ⟨by rw [hdata, hl]; simp, ?_, n, hn, hl, p, hp, hdata⟩
  intro i v hv hne
  rw [hdata]; exact hera.2 i v (toOption_some.mpr ⟨hv, hne⟩)

/-- Any samples with at least one value lie on a polynomial whose degree plus the number of erasures is below the
size of the domain: one can interpolate. -/
theorem consistent_exists {F : Type} [Field F] {ω : F} {D : Nat} (hω : IsPrimitiveRoot ω D)
    (samples : List (Option F)) (hl : samples.length = D) :
    ∃ p : F[X], p.degree + (erased samples : WithBot Nat) < (D : WithBot Nat) ∧
      Erasure (codeword ω D p) samples := by
  classical
  set S := (Finset.range D).filter fun i => (samples.getD i none).isSome with hS
  have hinj : Set.InjOn (fun i => ω ^ i) (S : Set Nat) := by
    intro i hi j hj e
    have hi' := (Finset.mem_filter.mp hi).1
    have hj' := (Finset.mem_filter.mp hj).1
    exact hω.pow_inj (Finset.mem_range.mp hi') (Finset.mem_range.mp hj') e
  have hcard : S.card + erased samples = D := by
    have h1 : samples = (List.range D).map fun i => samples.getD i none := by
      rw [← hl]; exact eq_map_getD samples none
    have h2 : erased samples = ((Finset.range D).filter fun i => ¬ (samples.getD i none).isSome).card := by
      have : erased samples = ((List.range D).filter fun i => ¬ (samples.getD i none).isSome).length := by
        conv_lhs => rw [erased, h1, List.countP_map, List.countP_eq_length_filter]
        congr 1
        refine List.filter_congr fun i _ => ?_
        simp only [Function.comp]
        cases samples.getD i none <;> simp
      rw [this]; rfl
    rw [h2, hS, Finset.card_filter_add_card_filter_not, Finset.card_range]
  refine ⟨Lagrange.interpolate S (fun i => ω ^ i) (fun i => (samples.getD i none).getD 0), ?_, ?_, ?_⟩
  · have hd := Lagrange.degree_interpolate_lt (fun i => (samples.getD i none).getD 0) hinj
    generalize Lagrange.interpolate S (fun i => ω ^ i) (fun i => (samples.getD i none).getD 0) = p at hd
    by_cases hp : p = 0
    · exact degree_add_lt (Or.inl hp)
    · rw [degree_eq_natDegree hp] at hd
      have : p.natDegree < S.card := by exact_mod_cast hd
      exact degree_add_lt (Or.inr (by omega))
  · rw [hl]; simp [codeword]
  · intro i v hv
    have hi : i < D := by rw [← hl]; exact (List.getElem?_eq_some_iff.mp hv).1
    have hg : samples.getD i none = some v := by rw [List.getD_eq_getElem?_getD, hv]; rfl
    have hm : i ∈ S := Finset.mem_filter.mpr ⟨Finset.mem_range.mpr hi, by rw [hg]; rfl⟩
    rw [codeword, List.getElem?_map, List.getElem?_range hi, Option.map_some,
      Lagrange.eval_interpolate_at_node (fun i => (samples.getD i none).getD 0) hinj hm, hg]
    rfl

/-- C22 (corrupted samples): within the supported sizes and numbers of erasures every sample list is accepted,
whatever the values: the values present can be interpolated, and the data returned contains them. -/
theorem C22_every_value_accepted {scale : Nat} {fs : FFTSettings Fr}
    (hfs : FFTSettings.new scale = .ok fs) {n : Nat} (hn : n ≤ scale) (h16 : n ≤ 16) :
    (∀ samples : List (Option Fr), samples.length = 2 ^ n → 1 ≤ erased samples → erased samples < 2 ^ n →
      erased samples ≤ 63 * (2 ^ n / 64 + 1) →
      ∃ data : List Fr, fs.recoverOption samples = .ok data ∧
        ∀ (i : Nat) (v : Fr), samples[i]? = some (some v) → data[i]? = some v) ∧
    (∀ raw : List Fr, raw.length = 2 ^ n → 1 ≤ raw.count frNull → raw.count frNull < 2 ^ n →
      raw.count frNull ≤ 63 * (2 ^ n / 64 + 1) →
      ∃ data : List Fr, fs.recoverNull frNull raw (2 ^ n) = .ok data ∧
        ∀ (i : Nat) (v : Fr), raw[i]? = some v → v ≠ frNull → data[i]? = some v) := by
  have hprim := (wf_of_new hfs).omega_prim hn
  rw [omega_eq hfs hn] at hprim
  have key : ∀ (p : Fr[X]) (m : Nat), p.degree + (m : WithBot Nat) < ((2 ^ n : Nat) : WithBot Nat) →
      p = 0 ∨ p.natDegree + m < 2 ^ n := by
    intro p m hp
    by_cases h0 : p = 0
    · exact Or.inl h0
    · rw [degree_eq_natDegree h0] at hp
      exact Or.inr (by exact_mod_cast hp)
  constructor
  · intro samples hl h1 h2 h3
    obtain ⟨p, hp, he⟩ := consistent_exists hprim samples hl
    exact ⟨_, C21_recovery_general_partial hfs hn h16 p samples he h1 h2 (key _ _ hp) h3, he.2⟩
  · intro raw hl h1 h2 h3
    obtain ⟨p, hp, he⟩ := consistent_exists hprim (raw.map (toOption frNull)) (by simpa using hl)
    rw [erased, toOption_countP] at hp
    have he' : NullErasure (codeword (domainRoot fs scale n) (2 ^ n) p) raw :=
      ⟨by simpa using he.1, fun i v hv hne => he.2 i v (toOption_some.mpr ⟨hv, hne⟩)⟩
    exact ⟨_, C21_recovery_null_partial hfs hn h16 p raw he' h1 h2 (key _ _ hp) h3, he'.2⟩

/-- C22 (bad lengths): an error, whatever the samples. -/
theorem C22_bad_length (fs : FFTSettings Fr) (samples : List (Option Fr)) (raw : List Fr) (len : Nat)
    (h : ¬ ∃ n, samples.length = 2 ^ n) (h' : ¬ ∃ n, len = 2 ^ n) :
    (∃ msg, fs.recoverOption samples = .err msg) ∧ ∃ msg, fs.recoverNull frNull raw len = .err msg := by
  rw [← isPowerOfTwo_iff, Bool.not_eq_true] at h h'
  unfold FFTSettings.recoverOption FFTSettings.recoverNull
  simp only [h, h', Bool.not_false, if_true]
  exact ⟨⟨_, rfl⟩, _, rfl⟩

/-- A sample list of four, one erased. -/
example (fs : FFTSettings Fr) (hfs : FFTSettings.new 2 = .ok fs) :
    ∃ data : List Fr, fs.recoverOption [some 1, none, some 5, some 9] = .ok data ∧
      data[0]? = some 1 ∧ data[2]? = some 5 ∧ data[3]? = some 9 := by
  obtain ⟨data, h1, h2⟩ := (C22_every_value_accepted hfs (n := 2) le_rfl (by norm_num)).1
    [some 1, none, some 5, some 9] rfl (by simp [erased]) (by simp [erased]) (by simp [erased])
  exact ⟨data, h1, h2 0 1 rfl, h2 2 5 rfl, h2 3 9 rfl⟩

/-! ## C23 -/

/-- C23 (partial): every sample different from the null element is kept: whenever recovery with the
null marker returns data, the data contains it unchanged. Missing from the full statement: the null
element itself, which is a field element like any other (`C23_collision`). -/
theorem C23_kept_partial {scale : Nat} {fs : FFTSettings Fr} (hfs : FFTSettings.new scale = .ok fs)
    (raw data : List Fr) (h : fs.recoverNull frNull raw raw.length = .ok data) (i : Nat) (x : Fr)
    (hx : x ≠ frNull) (hi : raw[i]? = some x) : data[i]? = some x :=
  (C22_recovery_null_sound hfs raw data h).2.1 i x hi hx

/-- C23 (collision): the null element is the field element with this representative. -/
theorem C23_null_is_element :
    frNull = ((0x1824b159acc5056f998c4fefecbc4ff55884b7fa0003480200000001fffffffd : Nat) : Fr) := by
  have h : wordsVal [2 ^ 64 - 1, 2 ^ 64 - 1, 2 ^ 64 - 1, 2 ^ 64 - 1] % frModulus =
      0x1824b159acc5056f998c4fefecbc4ff55884b7fa0003480200000001fffffffd := by decide +kernel
  rw [← h, ZMod.natCast_mod, frNull, frFromWords]

/-- C23 (collision): on every settings of scale at least one, the two samples `null, y` (a complete
data set) make recovery return `y, y`: the first sample is dropped and replaced. -/
theorem C23_collision {scale : Nat} {fs : FFTSettings Fr} (hfs : FFTSettings.new scale = .ok fs)
    (hs : 1 ≤ scale) (y : Fr) (hy : y ≠ frNull) :
    fs.recoverNull frNull [frNull, y] 2 = .ok [y, y] := by
  have hc : [frNull, y].count frNull = 1 := by
    rw [List.count_cons_self, List.count_cons_of_ne hy, List.count_nil]
  have := C21_recovery_null_partial hfs (n := 1) hs (by norm_num) (C y) [frNull, y] ⟨by simp [codeword], ?_⟩
    hc.ge (by rw [hc]; norm_num) (Or.inr (by rw [hc, natDegree_C]; norm_num)) (by rw [hc]; norm_num)
  · rw [pow_one] at this
    rw [this]
    simp [codeword, List.range_succ]
  · intro i v hv hne
    match i with
    | 0 => exact absurd (Option.some_inj.mp hv).symm hne
    | 1 => rw [← hv]; simp [codeword]
    | i + 2 => simp at hv

/-- C23 (negation): the full statement is false: overwriting one of the evaluations of a constant
polynomial by the marker and recovering does not give the evaluations back if the constant happens
to be the null element, because the remaining samples count as missing too. -/
theorem C23_full_statement_false :
    ¬ ∀ (scale : Nat) (fs : FFTSettings Fr), FFTSettings.new scale = .ok fs → ∀ n ≤ scale, 1 ≤ n → n ≤ 16 →
      ∀ p : Fr[X], 2 * p.natDegree < 2 ^ n → ∀ k < 2 ^ n,
      fs.recoverNull frNull ((codeword (domainRoot fs scale n) (2 ^ n) p).set k frNull) (2 ^ n) =
        .ok (codeword (domainRoot fs scale n) (2 ^ n) p) := by
  intro hall
  obtain ⟨fs, h, _⟩ := new_spec (F := Fr) (k := 2) (by norm_num)
  have hwf := wf_of_new h
  have h1 := hall 2 fs h 2 le_rfl (by norm_num) (by norm_num) (C frNull)
    (by rw [natDegree_C]; norm_num) 0 (by norm_num)
  have hcw : codeword (domainRoot fs 2 2) (2 ^ 2) (C frNull) = [frNull, frNull, frNull, frNull] := by
    simp [codeword, List.range_succ]
  rw [hcw, List.set_cons_zero, recoverNull_tail, hwf.recoverTail_panic _ _ _ _ rfl
    (fun h0 h _ hl => recoverNull_pre h0 (by omega) _ hl)] at h1
  · cases h1
  · intro hr
    have := hr.lt
    rw [missingIdxs_length, toOption_countP] at this
    simp at this

/-! ## C24 -/

/-- C24 (nothing missing): the call panics for every complete list of power-of-two length. -/
theorem C24_complete_panics {scale : Nat} {fs : FFTSettings Fr} (hfs : FFTSettings.new scale = .ok fs)
    (n : Nat) :
    (∀ data : List Fr, data.length = 2 ^ n → fs.recoverOption (data.map some) = .panic) ∧
    (∀ data : List Fr, data.length = 2 ^ n → frNull ∉ data →
      fs.recoverNull frNull data (2 ^ n) = .panic) := by
  have hwf := wf_of_new hfs
  constructor
  · intro data hl
    have hl' : (data.map some).length = 2 ^ n := by rw [List.length_map, hl]
    rw [recoverOption_tail fs _ hl']
    refine hwf.recoverTail_panic _ _ _ _ hl' (fun _ _ _ _ => rfl) ?_
    intro h
    have := h.pos
    rw [missingIdxs_length, List.countP_map] at this
    simp [Function.comp_def] at this
  · intro data hl hn
    rw [recoverNull_tail]
    refine hwf.recoverTail_panic _ _ _ _ (by rw [List.length_map, hl])
      (fun h0 h _ hl => recoverNull_pre h0 (by have := hwf.lt; omega) _ hl) ?_
    intro h
    have := h.pos
    rw [missingIdxs_length, toOption_countP, List.count_eq_zero_of_not_mem hn] at this
    omega

/-- C24 (negation): the full statement is false. -/
theorem C24_full_statement_false :
    ¬ ∀ (scale : Nat) (fs : FFTSettings Fr), FFTSettings.new scale = .ok fs → ∀ n ≤ scale, ∀ p : Fr[X],
      2 * p.natDegree < 2 ^ n →
      fs.recoverOption ((codeword (domainRoot fs scale n) (2 ^ n) p).map some) =
        .ok (codeword (domainRoot fs scale n) (2 ^ n) p) := by
  intro hall
  obtain ⟨fs, h, _⟩ := new_spec (F := Fr) (k := 2) (by norm_num)
  have h1 := hall 2 fs h 2 le_rfl (C 3) (by rw [natDegree_C]; norm_num)
  rw [(C24_complete_panics h 2).1 _ (by simp [codeword])] at h1
  cases h1

/-- C24 (partial): a consistent list returns after any one of its samples has been dropped. Missing:
the complete list itself, on which the code panics (`C24_complete_panics`). -/
theorem C24_one_dropped_partial {scale : Nat} {fs : FFTSettings Fr}
    (hfs : FFTSettings.new scale = .ok fs) {n : Nat} (hn : n ≤ scale) (h1 : 1 ≤ n) (h16 : n ≤ 16)
    (p : Fr[X]) (hp : 2 * p.natDegree < 2 ^ n) (k : Nat) (hk : k < 2 ^ n) :
    fs.recoverOption (((codeword (domainRoot fs scale n) (2 ^ n) p).map some).set k none) =
      .ok (codeword (domainRoot fs scale n) (2 ^ n) p) := by
  set cw := codeword (domainRoot fs scale n) (2 ^ n) p with hcw
  have hl : cw.length = 2 ^ n := by simp [hcw, codeword]
  have h2 : 2 ≤ 2 ^ n := by
    calc 2 = 2 ^ 1 := rfl
      _ ≤ 2 ^ n := Nat.pow_le_pow_right (by omega) (by omega)
  have hcount : erased ((cw.map some).set k none) = 1 := by
    rw [erased, List.countP_set (by simpa [hl] using hk), List.countP_map]
    simp [Function.comp_def]
  refine C21_recovery_general_partial hfs hn h16 p _ ⟨by simp [hcw], ?_⟩ hcount.ge
    (by omega) (Or.inr (by omega)) (by omega)
  intro i v hv
  rw [List.getElem?_set] at hv
  split at hv
  · split at hv <;> simp at hv
  · rw [List.getElem?_map] at hv
    cases hc : cw[i]? with
    | none => rw [hc] at hv; cases hv
    | some x => rw [hc] at hv; simpa using hv

example : ∃ fs : FFTSettings Fr, FFTSettings.new 3 = .ok fs ∧
    fs.recoverOption (((codeword (domainRoot fs 3 3) 8 (C 3)).map some).set 5 none) =
      .ok (codeword (domainRoot fs 3 3) 8 (C 3)) := by
  obtain ⟨fs, h, _⟩ := new_spec (F := Fr) (k := 3) (by norm_num)
  exact ⟨fs, h, C24_one_dropped_partial h (n := 3) le_rfl (by norm_num) (by norm_num) (C 3)
    (by rw [natDegree_C]; norm_num) 5 (by norm_num)⟩

end Kzg.Props
