import Verif.Props.Survival

/-! C192: recovery accepts samples that belong to no data. Extending what it returned finds this out. -/

namespace Kzg.Props
open Kzg Res Polynomial

section
variable {F : Type} [Field F] [DecidableEq F]

/-- The values at the even positions of a list, and those at the odd ones. -/
def evensOf (w : List F) : List F := (List.range (w.length / 2)).map fun i => w.getD (2 * i) 0
def oddsOf (w : List F) : List F := (List.range (w.length / 2)).map fun i => w.getD (2 * i + 1) 0

/-- Positions below `n` in which the sample is missing or not the one of `u`. -/
def wrongOrMissing (n : Nat) (u : List F) (samples : List (Option F)) : Finset Nat :=
  (Finset.range n).filter fun i => samples[i]? ≠ some u[i]?

/-- C192: from any `2^(m+1)` values of which at least one and at most half are missing recovery returns a list that agrees with them; extending
its even half gives its odd half exactly if there are data whose samples agree with the values. -/
def FoundByExtending (das : List F → Res (List F)) (recover : List (Option F) → Res (List F)) (m : Nat) : Prop :=
  ∀ samples : List (Option F), samples.length = 2 ^ (m + 1) → 1 ≤ erased samples → erased samples ≤ 2 ^ m →
    ∃ w, recover samples = .ok w ∧ w.length = 2 ^ (m + 1) ∧ Erasure w samples ∧
      (das (evensOf w) = .ok (oddsOf w) ↔ ∃ data u, data.length = 2 ^ m ∧ Samples das data u ∧ Erasure u samples)

/-- C192 (wrong samples): if the values are the samples of some data, at most half of them missing or wrong and at least one missing, then
extending finds out whether one is wrong. -/
def WrongFound (das : List F → Res (List F)) (recover : List (Option F) → Res (List F)) (m : Nat) : Prop :=
  ∀ (data u : List F) (samples : List (Option F)), data.length = 2 ^ m → Samples das data u → samples.length = 2 ^ (m + 1) →
    1 ≤ erased samples → (wrongOrMissing (2 ^ (m + 1)) u samples).card ≤ 2 ^ m →
    ∃ w, recover samples = .ok w ∧ (das (evensOf w) = .ok (oddsOf w) ↔ ∀ (i : Nat) (v : F), samples[i]? = some (some v) → u[i]? = some v) ∧
      (das (evensOf w) = .ok (oddsOf w) → w = u ∧ evensOf w = data)

omit [DecidableEq F] in
theorem evensOf_length {w : List F} {n : Nat} (h : w.length = 2 * n) : (evensOf w).length = n ∧ (oddsOf w).length = n := by
  simp [evensOf, oddsOf, h]

omit [DecidableEq F] in
theorem interleave_parts {w : List F} {n : Nat} (h : w.length = 2 * n) : interleave (evensOf w) (oddsOf w) = w := by
  obtain ⟨h1, h2⟩ := evensOf_length h
  have hn : w.length / 2 = n := by omega
  apply List.ext_getElem?
  intro i
  obtain ⟨e, o⟩ := interleave_getElem? (evensOf w) (oddsOf w) (by omega) (i / 2)
  by_cases hi : i < 2 * n
  · rcases Nat.even_or_odd' i with ⟨j, rfl | rfl⟩
    · rw [show 2 * j / 2 = j by omega] at e
      rw [e, evensOf, List.getElem?_map, List.getElem?_range (by omega), List.getElem?_eq_getElem (by omega)]
      simp [List.getD_eq_getElem?_getD, List.getElem?_eq_getElem (show 2 * j < w.length by omega)]
    · rw [show (2 * j + 1) / 2 = j by omega] at o
      rw [o, oddsOf, List.getElem?_map, List.getElem?_range (by omega), List.getElem?_eq_getElem (by omega)]
      simp [List.getD_eq_getElem?_getD, List.getElem?_eq_getElem (show 2 * j + 1 < w.length by omega)]
  · rw [List.getElem?_eq_none (by rw [interleave_length _ _ (by omega)]; omega), List.getElem?_eq_none (by omega)]

omit [DecidableEq F] in
theorem parts_interleave {a b : List F} (h : a.length = b.length) :
    evensOf (interleave a b) = a ∧ oddsOf (interleave a b) = b := by
  have hl : (interleave a b).length = 2 * a.length := interleave_length _ _ h
  obtain ⟨h1, h2⟩ := evensOf_length hl
  have hi := interleave_parts hl
  constructor
  · apply List.ext_getElem?
    intro i
    rw [← (interleave_getElem? a b h i).1, ← (interleave_getElem? (evensOf (interleave a b)) (oddsOf (interleave a b)) (by omega) i).1, hi]
  · apply List.ext_getElem?
    intro i
    rw [← (interleave_getElem? a b h i).2, ← (interleave_getElem? (evensOf (interleave a b)) (oddsOf (interleave a b)) (by omega) i).2, hi]

omit [Field F] in
theorem erased_le_wrongOrMissing {n : Nat} {u : List F} {samples : List (Option F)} (hl : samples.length = n) (hu : u.length = n) :
    erased samples ≤ (wrongOrMissing n u samples).card := by
  have hs : samples = (List.range n).map fun i => samples.getD i none := by
    apply List.ext_getElem?
    intro i
    by_cases hi : i < n
    · rw [List.getElem?_map, List.getElem?_range hi, Option.map_some, List.getD_eq_getElem?_getD, List.getElem?_eq_getElem (by omega)]; rfl
    · rw [List.getElem?_eq_none (by omega), List.getElem?_eq_none (by simp; omega)]
  have h1 : erased samples = ((List.range n).filter fun i => (samples.getD i none).isNone).length := by
    unfold erased
    conv_lhs => rw [hs]
    rw [List.countP_map, List.countP_eq_length_filter]
    rfl
  rw [h1, ← List.toFinset_card_of_nodup (List.Nodup.filter _ List.nodup_range)]
  apply Finset.card_le_card
  intro i hi
  rw [List.mem_toFinset, List.mem_filter, List.mem_range] at hi
  obtain ⟨hi, hn⟩ := hi
  rw [wrongOrMissing, Finset.mem_filter]
  refine ⟨Finset.mem_range.2 hi, ?_⟩
  rw [List.getD_eq_getElem?_getD, List.getElem?_eq_getElem (by omega), Option.getD_some, Option.isNone_iff_eq_none] at hn
  rw [List.getElem?_eq_getElem (by omega), hn, List.getElem?_eq_getElem (by omega)]
  simp

theorem wrongFound {das : List F → Res (List F)} {recover : List (Option F) → Res (List F)} {m : Nat} (hc : IsCode das m)
    (h : FoundByExtending das recover m) : WrongFound das recover m := by
  intro data u samples hl hu hsl h1 hw
  have hp2 : 2 ^ (m + 1) = 2 * 2 ^ m := by rw [pow_succ, mul_comm]
  have hul : u.length = 2 ^ (m + 1) := by
    obtain ⟨ω, -, hd⟩ := hc
    obtain ⟨o, -, e, hol, -⟩ := hd data hl
    obtain ⟨o', e', rfl⟩ := hu
    cases e.symm.trans e'
    rw [interleave_length _ _ (by omega), hl, hp2]
  have he := (erased_le_wrongOrMissing hsl hul).trans hw
  obtain ⟨w, hr, hwl, hwe, hiff⟩ := h samples hsl h1 he
  -- whatever data agree with the samples, they are the ones given
  have huniq : ∀ data' u', data'.length = 2 ^ m → Samples das data' u' → Erasure u' samples → data' = data ∧ u' = u := by
    intro data' u' hl' hu' he'
    have hdd : data' = data := by
      by_contra hne
      have hfar := (hc.far hl' hl hne hu' hu).2.2
      have hle : (differing (2 ^ (m + 1)) u' u).card ≤ (wrongOrMissing (2 ^ (m + 1)) u samples).card := by
        apply Finset.card_le_card
        intro i hi
        rw [differing, Finset.mem_filter] at hi
        rw [wrongOrMissing, Finset.mem_filter]
        refine ⟨hi.1, fun hs => hi.2 ?_⟩
        have hlt := Finset.mem_range.1 hi.1
        rw [List.getElem?_eq_getElem (show i < u.length by omega)] at hs ⊢
        exact he'.2 i _ hs
      omega
    subst hdd
    obtain ⟨o, e, rfl⟩ := hu
    obtain ⟨o', e', rfl⟩ := hu'
    cases e.symm.trans e'
    exact ⟨rfl, rfl⟩
  refine ⟨w, hr, ⟨fun hd => ?_, fun hd => ?_⟩, fun hd => ?_⟩
  · obtain ⟨data', u', hl', hu', he'⟩ := hiff.1 hd
    obtain ⟨-, rfl⟩ := huniq data' u' hl' hu' he'
    exact he'.2
  · exact hiff.2 ⟨data, u, hl, hu, by omega, hd⟩
  · have hwl' : w.length = 2 * 2 ^ m := by omega
    obtain ⟨e1, e2⟩ := huniq (evensOf w) w (evensOf_length hwl').1 ⟨_, hd, (interleave_parts hwl').symm⟩ hwe
    exact ⟨e2, e1⟩

variable [FrTable F] [LawfulFr F]

theorem foundByExtending {das : List F → Res (List F)} {recover : List (Option F) → Res (List F)} {scale m : Nat} {fs : FFTSettings F}
    (hwf : fs.WF scale) (hm : m + 1 ≤ scale)
    (hd : ∀ evens odds : List F, evens.length = 2 ^ m → odds.length = 2 ^ m → fs.dasFftExtension evens = .ok odds → das evens = .ok odds)
    (hr : Recovers recover (domainRoot fs scale (m + 1)) (m + 1)) : FoundByExtending das recover m := by
  intro samples hsl h1 h2
  have hp2 : 2 ^ (m + 1) = 2 * 2 ^ m := by rw [pow_succ, mul_comm]
  have hpos : 0 < 2 ^ m := by positivity
  obtain ⟨q, hq, hqe⟩ := consistent_exists (hwf.omega_prim hm) samples hsl
  rw [omega_of_wf hwf hm] at hqe
  have hcl : (codeword (domainRoot fs scale (m + 1)) (2 ^ (m + 1)) q).length = 2 ^ (m + 1) := by simp [codeword]
  have hrec := hr q _ hqe h1 (by omega) (by
    by_cases hq0 : q = 0
    · exact .inl hq0
    · right
      rw [degree_eq_natDegree hq0] at hq
      exact_mod_cast hq) (by omega)
  refine ⟨_, hrec, hcl, hqe, fun h => ?_, fun h => ?_⟩
  · exact ⟨_, _, (evensOf_length (by omega)).1, ⟨_, h, (interleave_parts (n := 2 ^ m) (by omega)).symm⟩, hqe⟩
  · obtain ⟨data, u, hl, hu, hue⟩ := h
    obtain ⟨odds, p, e1, e2, e3, e4⟩ := samples_codeword hwf hm hd data hl
    obtain ⟨o, e, rfl⟩ := hu
    cases e1.symm.trans e
    have hrec' := hr p samples (by rw [← e4]; exact hue) h1 (by omega) (by
      by_cases hp0 : p = 0
      · exact .inl hp0
      · right
        have := (natDegree_lt_iff_degree_lt hp0).2 e3
        omega) (by omega)
    rw [Res.ok.inj (hrec.symm.trans hrec'), ← e4, (parts_interleave (by omega)).1, (parts_interleave (by omega)).2]
    exact e1

theorem both_of {das : List F → Res (List F)} {recover : List (Option F) → Res (List F)} {scale m : Nat} {fs : FFTSettings F}
    (hwf : fs.WF scale) (hm : m + 1 ≤ scale)
    (hd : ∀ evens odds : List F, evens.length = 2 ^ m → odds.length = 2 ^ m → fs.dasFftExtension evens = .ok odds → das evens = .ok odds)
    (hr : Recovers recover (domainRoot fs scale (m + 1)) (m + 1)) : FoundByExtending das recover m ∧ WrongFound das recover m :=
  ⟨foundByExtending hwf hm hd hr, wrongFound (isCode_of hwf hm hd) (foundByExtending hwf hm hd hr)⟩

end

/-- C192 (blst-from-scratch, partial): up to `2^16` samples. Missing: more, with which recovery panics (`C191_blst_panics`). -/
theorem C192_blst_partial {scale m : Nat} {fs : FFTSettings Fr} (hfs : FFTSettings.new scale = .ok fs) (hm : m + 1 ≤ scale)
    (h16 : m + 1 ≤ 16) : FoundByExtending fs.dasFftExtension fs.recoverOption m ∧ WrongFound fs.dasFftExtension fs.recoverOption m :=
  both_of (wf_of_new hfs) hm (fun _ _ _ _ h => h)
    fun p samples hs h1 h2 hp hsafe => C21_recovery_general_partial hfs hm h16 p samples hs h1 h2 hp hsafe

/-- C192 (mcl-kzg). -/
theorem C192_mcl [Mcl.Lib Fr] {scale m : Nat} {fs : FFTSettings Fr} (hfs : MadeSettings fs scale) (hm : m + 1 ≤ scale) :
    FoundByExtending (Mcl.das fs) (Mcl.recover fs) m ∧ WrongFound (Mcl.das fs) (Mcl.recover fs) m :=
  both_of hfs.wf hm (fun evens odds hl _ h => by rw [Mcl.das_eq hfs.wf hm hl, h])
    fun p samples hs h1 h2 hp hsafe => C104_recovery_general hfs hm p samples hs h1 h2 hp hsafe

/-- C192 (Arkworks). -/
theorem C192_ark {scale m : Nat} {fs : FFTSettings Fr} (hfs : Ark.settingsNew scale = .ok fs) (hm : m + 1 ≤ scale) :
    FoundByExtending (Ark.das fs) (Ark.recover fs) m ∧ WrongFound (Ark.das fs) (Ark.recover fs) m := by
  have hwf := (Ark.made_of_new hfs).toWF
  exact both_of hwf hm
    (fun evens odds hl hol h => ark_das_eq (by rw [hl]; exact hwf.cast_ne (by omega)) h (by rw [hol, hl]))
    fun p samples hs h1 h2 hp hsafe => C120_recovery_general hfs hm p samples hs h1 h2 hp hsafe

/-- C192 (zkcrypto). -/
theorem C192_zk {scale m : Nat} {fs : FFTSettings Zk.ScW} (hfs : FFTSettings.new scale = .ok fs) (hm : m + 1 ≤ scale) :
    FoundByExtending (Zk.Top.dasFftExtension fs) (ZkP.recover fs) m ∧ WrongFound (Zk.Top.dasFftExtension fs) (ZkP.recover fs) m := by
  have hwf := wf_of_new hfs
  exact both_of hwf hm
    (fun evens odds hl hol h => zk_das_eq (by rw [hl]; exact hwf.cast_ne (by omega)) h (by rw [hol, hl]))
    fun p samples hs h1 h2 hp hsafe => C66_recovery_general hfs hm p samples hs h1 h2 hp hsafe

/-- Two data, four samples, one missing and one replaced by something else: recovery accepts them, and extending its result shows that they
are wrong. -/
example : ∃ fs : FFTSettings Fr, FFTSettings.new 2 = .ok fs ∧ ∃ u, Samples fs.dasFftExtension [1, 2] u ∧
    ∀ x, u[1]? = some x → ∀ y ≠ x, ∀ z, u[3]? = some z →
      ∃ w, fs.recoverOption [some 1, some y, none, some z] = .ok w ∧ fs.dasFftExtension (evensOf w) ≠ .ok (oddsOf w) := by
  obtain ⟨fs, hfs, -⟩ := new_spec (F := Fr) (k := 2) (by norm_num)
  obtain ⟨u, hu, hul⟩ := (C190_blst hfs (m := 1) (by norm_num)).1 [1, 2] rfl
  refine ⟨fs, hfs, u, hu, fun x hx y hy z hz => ?_⟩
  have h0 : u[0]? = some 1 := by
    obtain ⟨o, -, rfl⟩ := hu
    cases o with
    | nil => simp [interleave] at hul
    | cons => rfl
  have hwm : (wrongOrMissing 4 u [some 1, some y, none, some z]).card ≤ 2 := ?_
  · obtain ⟨w, hw, hiff, -⟩ := (C192_blst_partial hfs (m := 1) (by norm_num) (by norm_num)).2 [1, 2] u [some 1, some y, none, some z]
      rfl hu rfl (by simp [erased]) hwm
    refine ⟨w, hw, fun h => hy ?_⟩
    have := hiff.1 h 1 y rfl
    rw [hx] at this
    exact (Option.some.inj this).symm
  · refine (Finset.card_le_card (t := {1, 2}) fun i hi => ?_).trans (by decide)
    rw [wrongOrMissing, Finset.mem_filter, Finset.mem_range] at hi
    obtain ⟨hi, hne⟩ := hi
    interval_cases i
    · exact absurd (by rw [h0]; rfl) hne
    · decide
    · decide
    · exact absurd (by rw [hz]; rfl) hne

end Kzg.Props
