import Verif.Props.Distance
import Verif.Props.InteropRecover
/-!
# Property C191: extended data and the loss of samples

Extension and recovery of one backend together: the samples of any data come back after the loss of any half of them, and more than half is
too much for any method; what the recoveries do then.
-/

set_option linter.unusedSectionVars false

namespace Kzg.Props
open Kzg Kzg.Res Polynomial

section
variable {F : Type} [Field F] [DecidableEq F]

/-- The list without the values at the positions in `P`. -/
def without (P : Finset Nat) (u : List F) : List (Option F) := (List.range u.length).map fun i => if i ∈ P then none else u[i]?

/-- C191: all data of `2^m` elements can be extended, and from the samples without at least one and at most `2^m` of the `2^(m+1)` values,
whichever these are, recovery returns all samples, so the data at the even positions. -/
def SurvivesHalf (das : List F → Res (List F)) (recover : List (Option F) → Res (List F)) (m : Nat) : Prop :=
  ∀ data : List F, data.length = 2 ^ m → ∃ samples, Samples das data samples ∧ samples.length = 2 ^ (m + 1) ∧
    (∀ i < 2 ^ m, samples[2 * i]? = data[i]?) ∧
    ∀ P ⊆ Finset.range (2 ^ (m + 1)), 1 ≤ P.card → P.card ≤ 2 ^ m → recover (without P samples) = .ok samples

/-- C191 (half is best): after the loss of more than `2^m` samples, whichever they are, there are other data whose samples look the same. -/
def MoreIsLost (das : List F → Res (List F)) (m : Nat) : Prop :=
  ∀ (data samples : List F), data.length = 2 ^ m → Samples das data samples → ∀ P ⊆ Finset.range (2 ^ (m + 1)), 2 ^ m < P.card →
    ∃ data' samples' : List F, data'.length = 2 ^ m ∧ data' ≠ data ∧ Samples das data' samples' ∧ samples' ≠ samples ∧
      without P samples' = without P samples

/-- C191 (silence): after the loss of more than `2^m` samples, but not all and not more than 63 for every full or partial 64, recovery
succeeds all the same, with a list that agrees with the samples it got. -/
def SilentBeyond (das : List F → Res (List F)) (recover : List (Option F) → Res (List F)) (m : Nat) : Prop :=
  ∀ (data samples : List F), data.length = 2 ^ m → Samples das data samples → ∀ P ⊆ Finset.range (2 ^ (m + 1)), 2 ^ m < P.card →
    P.card < 2 ^ (m + 1) → P.card ≤ 63 * (2 ^ (m + 1) / 64 + 1) →
    ∃ w, recover (without P samples) = .ok w ∧ w.length = 2 ^ (m + 1) ∧ without P w = without P samples

theorem without_length (P : Finset Nat) (u : List F) : (without P u).length = u.length := by simp [without]

theorem without_get (P : Finset Nat) (u : List F) (i : Nat) (hi : i < u.length) :
    (without P u)[i]? = some (if i ∈ P then none else u[i]?) := by
  rw [without, List.getElem?_map, List.getElem?_range hi]; rfl

theorem without_erasure (P : Finset Nat) (u : List F) : Erasure u (without P u) := by
  refine ⟨without_length P u, fun i v h => ?_⟩
  by_cases hi : i < u.length
  · rw [without_get P u i hi] at h
    split at h
    · cases h
    · exact Option.some.inj h
  · rw [List.getElem?_eq_none (by rw [without_length]; omega)] at h
    cases h

theorem without_erased (P : Finset Nat) (u : List F) (hP : P ⊆ Finset.range u.length) : erased (without P u) = P.card := by
  unfold erased without
  rw [List.countP_map, List.countP_eq_length_filter]
  have h : (List.range u.length).filter (Option.isNone ∘ fun i => if i ∈ P then none else u[i]?) =
      (List.range u.length).filter (fun i => decide (i ∈ P)) := by
    apply List.filter_congr
    intro i hi
    have hi := List.mem_range.1 hi
    by_cases hp : i ∈ P
    · simp [hp]
    · simp [hp, List.getElem?_eq_getElem hi]
  rw [h, ← List.toFinset_card_of_nodup (List.Nodup.filter _ List.nodup_range)]
  congr 1
  ext i
  simp only [List.mem_toFinset, List.mem_filter, List.mem_range, decide_eq_true_eq]
  exact ⟨fun h => h.2, fun h => ⟨Finset.mem_range.1 (hP h), h⟩⟩

theorem without_of_erasure {P : Finset Nat} {u w : List F} (hl : w.length = u.length) (h : Erasure w (without P u)) :
    without P w = without P u := by
  apply List.ext_getElem?
  intro i
  by_cases hi : i < u.length
  · rw [without_get P u i hi, without_get P w i (by omega)]
    split
    · rfl
    · next hp =>
      have := h.2 i u[i] (by rw [without_get P u i hi, if_neg hp, List.getElem?_eq_getElem hi])
      rw [this, List.getElem?_eq_getElem hi]
  · rw [List.getElem?_eq_none (by rw [without_length]; omega), List.getElem?_eq_none (by rw [without_length]; omega)]

/-- What recovery does on the domain of `2^n` points, as in C21, C66, C104 and C120. -/
def Recovers (recover : List (Option F) → Res (List F)) (ω : F) (n : Nat) : Prop :=
  ∀ (p : F[X]) (samples : List (Option F)), Erasure (codeword ω (2 ^ n) p) samples → 1 ≤ erased samples → erased samples < 2 ^ n →
    (p = 0 ∨ p.natDegree + erased samples < 2 ^ n) → erased samples ≤ 63 * (2 ^ n / 64 + 1) → recover samples = .ok (codeword ω (2 ^ n) p)

theorem moreIsLost {das : List F → Res (List F)} {m : Nat} (h : IsCode das m) : MoreIsLost das m := by
  intro data samples hl hs P hP hc
  have hp2 : 2 ^ (m + 1) = 2 * 2 ^ m := by rw [pow_succ, mul_comm]
  have hsl : samples.length = 2 ^ (m + 1) := by
    obtain ⟨ω, -, hd⟩ := h
    obtain ⟨o, -, e, hol, -⟩ := hd data hl
    obtain ⟨o', e', rfl⟩ := hs
    cases e.symm.trans e'
    rw [interleave_length _ _ (by omega), hl, hp2]
  have hcard : (Finset.range (2 ^ (m + 1)) \ P).card = 2 ^ (m + 1) - P.card := by
    rw [Finset.card_sdiff_of_subset hP, Finset.card_range]
  obtain ⟨S, hS1, hS2, hS3⟩ := Finset.exists_subsuperset_card_eq (s := Finset.range (2 ^ (m + 1)) \ P) (t := Finset.range (2 ^ (m + 1)))
    (n := 2 ^ m - 1) Finset.sdiff_subset (by omega) (by rw [Finset.card_range]; omega)
  obtain ⟨b, v, hb, hv, hdiff⟩ := h.sharp hl hs S hS2 hS3
  have hne : samples ≠ v := by
    rintro rfl
    have h0 : (Finset.range (2 ^ (m + 1)) \ S).card = 0 := by
      rw [← hdiff, Finset.card_eq_zero]
      simp [differing]
    rw [Finset.card_sdiff_of_subset hS2, Finset.card_range, hS3] at h0
    have : 0 < 2 ^ m := by positivity
    omega
  have hvl : v.length = 2 ^ (m + 1) := by
    obtain ⟨ω, -, hd⟩ := h
    obtain ⟨o, -, e, hol, -⟩ := hd b hb
    obtain ⟨o', e', rfl⟩ := hv
    cases e.symm.trans e'
    rw [interleave_length _ _ (by omega), hb, hp2]
  refine ⟨b, v, hb, ?_, hv, hne.symm, ?_⟩
  · rintro rfl
    obtain ⟨o, e, rfl⟩ := hs
    obtain ⟨o', e', rfl⟩ := hv
    cases e.symm.trans e'
    exact hne rfl
  · apply List.ext_getElem?
    intro i
    by_cases hi : i < 2 ^ (m + 1)
    · rw [without_get P _ i (by omega), without_get P _ i (by omega)]
      split
      · rfl
      · next hp =>
        have hiS : i ∈ S := hS1 (Finset.mem_sdiff.2 ⟨Finset.mem_range.2 hi, hp⟩)
        have : i ∉ differing (2 ^ (m + 1)) samples v := by
          rw [hdiff, Finset.mem_sdiff]; exact fun h => h.2 hiS
        rw [differing, Finset.mem_filter] at this
        have e : samples[i]? = v[i]? := by
          by_contra hc'
          exact this ⟨Finset.mem_range.2 hi, hc'⟩
        rw [e]
    · rw [List.getElem?_eq_none (by rw [without_length]; omega), List.getElem?_eq_none (by rw [without_length]; omega)]

variable [FrTable F] [LawfulFr F]

/-- The samples as values of a polynomial at the powers of the root that recovery uses. -/
theorem samples_codeword {das : List F → Res (List F)} {scale m : Nat} {fs : FFTSettings F} (hwf : fs.WF scale) (hm : m + 1 ≤ scale)
    (hd : ∀ evens odds : List F, evens.length = 2 ^ m → odds.length = 2 ^ m → fs.dasFftExtension evens = .ok odds → das evens = .ok odds)
    (evens : List F) (hl : evens.length = 2 ^ m) :
    ∃ (odds : List F) (p : F[X]), das evens = .ok odds ∧ odds.length = 2 ^ m ∧ p.degree < (2 ^ m : Nat) ∧
      interleave evens odds = codeword (domainRoot fs scale (m + 1)) (2 ^ (m + 1)) p := by
  have hp2 : 2 ^ (m + 1) = 2 * 2 ^ m := by rw [pow_succ, mul_comm]
  obtain ⟨odds, -, -, h1, h2, -, -, -, coeffs, h3, h4, h5⟩ := das_extension_of hwf hm evens hl
  have hil : (interleave evens odds).length = 2 ^ (m + 1) := by rw [interleave_length _ _ (by omega), hl, hp2]
  have hrt := hwf.fft_roundtrip' hm _ hil
  rw [show fs.fft (interleave evens odds) true = _ from h3, bind_ok, hwf.fft_eval hm _ h4] at hrt
  refine ⟨odds, polyOf coeffs, hd evens odds hl h2 h1, h2, ?_, ?_⟩
  · rw [degree_lt_iff_coeff_zero]
    intro i hi
    rw [coeff_polyOf, List.getD_eq_getElem?_getD]
    by_cases h : i < 2 ^ (m + 1)
    · rw [h5 i hi h]; rfl
    · rw [List.getElem?_eq_none (by omega)]; rfl
  · rw [← Res.ok.inj hrt, ← omega_of_wf hwf hm]; rfl

theorem survivesHalf {das : List F → Res (List F)} {recover : List (Option F) → Res (List F)} {scale m : Nat} {fs : FFTSettings F}
    (hwf : fs.WF scale) (hm : m + 1 ≤ scale)
    (hd : ∀ evens odds : List F, evens.length = 2 ^ m → odds.length = 2 ^ m → fs.dasFftExtension evens = .ok odds → das evens = .ok odds)
    (hr : Recovers recover (domainRoot fs scale (m + 1)) (m + 1)) : SurvivesHalf das recover m := by
  intro data hl
  have hp2 : 2 ^ (m + 1) = 2 * 2 ^ m := by rw [pow_succ, mul_comm]
  have hpos : 0 < 2 ^ m := by positivity
  obtain ⟨odds, p, h1, h2, h3, h4⟩ := samples_codeword hwf hm hd data hl
  have hil : (interleave data odds).length = 2 ^ (m + 1) := by rw [interleave_length _ _ (by omega), hl, hp2]
  refine ⟨_, ⟨odds, h1, rfl⟩, hil, fun i hi => ?_, fun P hP hc1 hc2 => ?_⟩
  · exact (interleave_getElem? data odds (by omega) i).1
  · have he := without_erased P (interleave data odds) (by rw [hil]; exact hP)
    have := hr p (without P (interleave data odds)) (by rw [← h4]; exact without_erasure P _) (by omega) (by omega) ?_ (by omega)
    · rw [this, h4]
    · by_cases hp0 : p = 0
      · exact .inl hp0
      · right
        have := (natDegree_lt_iff_degree_lt hp0).2 h3
        omega

theorem silentBeyond {das : List F → Res (List F)} {recover : List (Option F) → Res (List F)} {scale m : Nat} {fs : FFTSettings F}
    (hwf : fs.WF scale) (hm : m + 1 ≤ scale)
    (hd : ∀ evens odds : List F, evens.length = 2 ^ m → odds.length = 2 ^ m → fs.dasFftExtension evens = .ok odds → das evens = .ok odds)
    (hr : Recovers recover (domainRoot fs scale (m + 1)) (m + 1)) : SilentBeyond das recover m := by
  intro data samples hl hs P hP hc1 hc2 hc3
  have hp2 : 2 ^ (m + 1) = 2 * 2 ^ m := by rw [pow_succ, mul_comm]
  obtain ⟨odds, p, h1, h2, h3, h4⟩ := samples_codeword hwf hm hd data hl
  obtain ⟨o, e, rfl⟩ := hs
  cases h1.symm.trans e
  have hil : (interleave data odds).length = 2 ^ (m + 1) := by rw [interleave_length _ _ (by omega), hl, hp2]
  have he := without_erased P (interleave data odds) (by rw [hil]; exact hP)
  have hwl : (without P (interleave data odds)).length = 2 ^ (m + 1) := by rw [without_length, hil]
  obtain ⟨q, hq, hqe⟩ := consistent_exists (hwf.omega_prim hm) (without P (interleave data odds)) hwl
  rw [omega_of_wf hwf hm] at hqe
  have hcl : (codeword (domainRoot fs scale (m + 1)) (2 ^ (m + 1)) q).length = 2 ^ (m + 1) := by simp [codeword]
  refine ⟨_, hr q _ hqe (by omega) (by omega) ?_ (by omega), hcl, without_of_erasure (by omega) hqe⟩
  by_cases hq0 : q = 0
  · exact .inl hq0
  · right
    rw [degree_eq_natDegree hq0] at hq
    exact_mod_cast hq

end

/-- All three for one backend. -/
def Survival {F : Type} [Field F] [DecidableEq F] (das : List F → Res (List F)) (recover : List (Option F) → Res (List F)) (m : Nat) : Prop :=
  SurvivesHalf das recover m ∧ MoreIsLost das m ∧ SilentBeyond das recover m

theorem survival_of {F : Type} [Field F] [DecidableEq F] [FrTable F] [LawfulFr F] {das : List F → Res (List F)}
    {recover : List (Option F) → Res (List F)} {scale m : Nat} {fs : FFTSettings F} (hwf : fs.WF scale) (hm : m + 1 ≤ scale)
    (hd : ∀ evens odds : List F, evens.length = 2 ^ m → odds.length = 2 ^ m → fs.dasFftExtension evens = .ok odds → das evens = .ok odds)
    (hr : Recovers recover (domainRoot fs scale (m + 1)) (m + 1)) : Survival das recover m :=
  ⟨survivesHalf hwf hm hd hr, moreIsLost (isCode_of hwf hm hd), silentBeyond hwf hm hd hr⟩

/-- C191 (blst-from-scratch, partial): up to `2^16` samples. Missing: more, with which recovery panics (`C191_blst_panics`). -/
theorem C191_blst_partial {scale m : Nat} {fs : FFTSettings Fr} (hfs : FFTSettings.new scale = .ok fs) (hm : m + 1 ≤ scale)
    (h16 : m + 1 ≤ 16) : Survival fs.dasFftExtension fs.recoverOption m :=
  survival_of (wf_of_new hfs) hm (fun _ _ _ _ h => h)
    fun p samples hs h1 h2 hp hsafe => C21_recovery_general_partial hfs hm h16 p samples hs h1 h2 hp hsafe

/-- C191 (blst-from-scratch, refuted above): from `2^17` samples on recovery panics, although the extension works. -/
theorem C191_blst_panics {scale m : Nat} {fs : FFTSettings Fr} (hfs : FFTSettings.new scale = .ok fs) (hm : m + 1 ≤ scale) (h16 : 16 < m + 1)
    (data : List Fr) (hl : data.length = 2 ^ m) :
    ∃ samples, Samples fs.dasFftExtension data samples ∧ samples.length = 2 ^ (m + 1) ∧
      ∀ P, fs.recoverOption (without P samples) = .panic := by
  obtain ⟨u, hu, hul⟩ := (C190_blst hfs hm).1 data hl
  exact ⟨u, hu, hul, fun P => (C21_large_domain_panics hfs h16).1 _ (by rw [without_length, hul])⟩

/-- C191 (mcl-kzg). -/
theorem C191_mcl [Mcl.Lib Fr] {scale m : Nat} {fs : FFTSettings Fr} (hfs : MadeSettings fs scale) (hm : m + 1 ≤ scale) :
    Survival (Mcl.das fs) (Mcl.recover fs) m :=
  survival_of hfs.wf hm (fun evens odds hl _ h => by rw [Mcl.das_eq hfs.wf hm hl, h])
    fun p samples hs h1 h2 hp hsafe => C104_recovery_general hfs hm p samples hs h1 h2 hp hsafe

/-- C191 (Arkworks). -/
theorem C191_ark {scale m : Nat} {fs : FFTSettings Fr} (hfs : Ark.settingsNew scale = .ok fs) (hm : m + 1 ≤ scale) :
    Survival (Ark.das fs) (Ark.recover fs) m := by
  have hwf := (Ark.made_of_new hfs).toWF
  exact survival_of hwf hm
    (fun evens odds hl hol h => ark_das_eq (by rw [hl]; exact hwf.cast_ne (by omega)) h (by rw [hol, hl]))
    fun p samples hs h1 h2 hp hsafe => C120_recovery_general hfs hm p samples hs h1 h2 hp hsafe

/-- C191 (zkcrypto). -/
theorem C191_zk {scale m : Nat} {fs : FFTSettings Zk.ScW} (hfs : FFTSettings.new scale = .ok fs) (hm : m + 1 ≤ scale) :
    Survival (Zk.Top.dasFftExtension fs) (ZkP.recover fs) m := by
  have hwf := wf_of_new hfs
  exact survival_of hwf hm
    (fun evens odds hl hol h => zk_das_eq (by rw [hl]; exact hwf.cast_ne (by omega)) h (by rw [hol, hl]))
    fun p samples hs h1 h2 hp hsafe => C66_recovery_general hfs hm p samples hs h1 h2 hp hsafe

/-- C191 (mcl-kzg with the parallel feature): up to `2^16` samples the same recovery. -/
theorem C191_mcl_parallel_partial [Mcl.Lib Fr] {scale m : Nat} {fs : FFTSettings Fr} (hfs : MadeSettings fs scale) (hm : m + 1 ≤ scale)
    (h16 : m + 1 ≤ 16) : Survival (Mcl.das fs) (Mcl.recoverPar fs) m :=
  survival_of hfs.wf hm (fun evens odds hl _ h => by rw [Mcl.das_eq hfs.wf hm hl, h])
    fun p samples hs h1 h2 hp hsafe => by
      rw [C106_parallel_partial hfs hm h16 samples (by rw [hs.1]; simp [codeword]) h1 h2 hsafe]
      exact C104_recovery_general hfs hm p samples hs h1 h2 hp hsafe

/-- Four data, eight samples, the data themselves lost: they come back. With a fifth sample lost as well recovery still succeeds, and there
are other data for which it gets the same list. -/
example : ∃ fs : FFTSettings Fr, FFTSettings.new 3 = .ok fs ∧ ∃ u, Samples fs.dasFftExtension [1, 2, 3, 4] u ∧
    fs.recoverOption (without {0, 2, 4, 6} u) = .ok u ∧ u[2]? = some 2 ∧
    ∃ w b v, fs.recoverOption (without {0, 1, 2, 4, 6} u) = .ok w ∧ b.length = 4 ∧ b ≠ [1, 2, 3, 4] ∧ Samples fs.dasFftExtension b v ∧
      v ≠ u ∧ without {0, 1, 2, 4, 6} v = without {0, 1, 2, 4, 6} u := by
  obtain ⟨fs, hfs, -⟩ := new_spec (F := Fr) (k := 3) (by norm_num)
  obtain ⟨h1, h2, h3⟩ := C191_blst_partial hfs (m := 2) (by norm_num) (by norm_num)
  obtain ⟨u, hu, hl, hdata, hrec⟩ := h1 [1, 2, 3, 4] rfl
  obtain ⟨b, v, hb, hbne, hv, hvne, hsame⟩ := h2 [1, 2, 3, 4] u rfl hu {0, 1, 2, 4, 6} (by decide) (by decide)
  obtain ⟨w, hw, -, -⟩ := h3 [1, 2, 3, 4] u rfl hu {0, 1, 2, 4, 6} (by decide) (by decide) (by decide) (by decide)
  exact ⟨fs, hfs, u, hu, hrec {0, 2, 4, 6} (by decide) (by decide) (by decide), hdata 1 (by norm_num), w, b, v, hw, hb, hbne, hv, hvne, hsame⟩

end Kzg.Props
