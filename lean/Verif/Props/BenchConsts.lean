import Verif.Model.BenchConsts
import Verif.Props.BenchFr
import Verif.Props.SettingsInterface
import Verif.Props.CkzgUtils
/-!
# Property C185: the shared tests of the tables of roots
-/

set_option linter.unusedSectionVars false

namespace Kzg.Props
open Kzg Kzg.Res Kzg.Bench Kzg.Zk Kzg.Iface

/-! ## C185: tables of roots -/

/-- 32 rows of words below the modulus. -/
def Rows (roots : List (List Nat)) : Prop :=
  roots.length = 32 ∧ ∀ i < 32, Words4 (roots.getD i []) ∧ wordsVal (roots.getD i []) < frModulus

/-- The field element in a row. -/
def rowEl (roots : List (List Nat)) (i : Nat) : Fr := ((wordsVal (roots.getD i []) : Nat) : Fr)

/-- Every entry raised to its power of two is one. -/
def PowersOne (roots : List (List Nat)) : Prop := ∀ i < 32, rowEl roots i ^ 2 ^ i = 1

noncomputable instance (roots : List (List Nat)) : Decidable (PowersOne roots) := Classical.dec _

/-- `fromWords` reads words below the modulus; `φ` says which field element a value of the backend stands for. -/
def ReadsWords {F : Type} [Field F] (φ : F →+* Fr) (fromWords : List Nat → Res F) : Prop :=
  ∀ u, Words4 u → wordsVal u < frModulus → ∃ x, fromWords u = .ok x ∧ φ x = (wordsVal u : Nat)

/-- What the test needs of the expansion: the powers up to the order of the root if it answers, and an answer for the right width. -/
def Expands {F : Type} [Field F] (expand : F → Nat → Res (List F)) : Prop :=
  (∀ w n l, expand w n = .ok l → 0 < orderOf w ∧ l = (List.range (orderOf w + 1)).map (w ^ ·)) ∧
  ∀ w n, 0 < n → n < 2 ^ 32 → orderOf w = n → ∃ l, expand w n = .ok l

section
variable {F : Type} [Field F] [DecidableEq F]

theorem orderOf_first {w : F} {n : Nat} (h0 : 0 < n) (h1 : w ^ n = 1) (h : ∀ i, 0 < i → i < n → w ^ i ≠ 1) : orderOf w = n :=
  (orderOf_eq_iff h0).2 ⟨h1, fun m hm hm0 => h m hm0 hm⟩

theorem expandLoop_order {w : F} {width : Nat} (fuel : Nat) : ∀ (n : Nat) (rev l : List F), 0 < n →
    rev.reverse = (List.range (n + 1)).map (w ^ ·) → (∀ i, 0 < i → i < n → w ^ i ≠ 1) → expandLoop w width fuel rev = .ok l →
    0 < orderOf w ∧ l = (List.range (orderOf w + 1)).map (w ^ ·) := by
  induction fuel with
  | zero => intro n rev l _ _ _ h; cases h
  | succ f ih =>
    intro n rev l hn hr hi h
    have hr' : rev = w ^ n :: ((List.range n).map (w ^ ·)).reverse := by
      rw [← List.reverse_reverse rev, hr, List.range_succ]; simp
    rw [hr', expandLoop] at h
    by_cases h1 : w ^ n = 1
    · rw [if_pos h1] at h
      cases h
      rw [orderOf_first hn h1 hi, ← hr', hr]
      exact ⟨hn, rfl⟩
    · rw [if_neg h1] at h
      split at h
      · cases h
      · refine ih (n + 1) _ l (by omega) ?_ (fun i h0 hlt => ?_) h
        · rw [List.reverse_cons, ← hr', hr, List.range_succ (n := n + 1), List.map_append, ← pow_succ]; rfl
        · rcases Nat.lt_succ_iff_lt_or_eq.1 hlt with h' | rfl
          · exact hi i h0 h'
          · exact h1

theorem mclExpandLoop_order {w : F} (fuel : Nat) : ∀ (n : Nat) (rev l : List F), 0 < n →
    rev.reverse = (List.range (n + 1)).map (w ^ ·) → (∀ i, 0 < i → i < n → w ^ i ≠ 1) → Mcl.expandLoop w fuel rev = .ok l →
    0 < orderOf w ∧ l = (List.range (orderOf w + 1)).map (w ^ ·) := by
  induction fuel with
  | zero => intro n rev l _ _ _ h; cases h
  | succ f ih =>
    intro n rev l hn hr hi h
    have hr' : rev = w ^ n :: ((List.range n).map (w ^ ·)).reverse := by
      rw [← List.reverse_reverse rev, hr, List.range_succ]; simp
    rw [hr', Mcl.expandLoop] at h
    by_cases h1 : w ^ n = 1
    · rw [if_pos h1] at h
      cases h
      rw [orderOf_first hn h1 hi, ← hr', hr]
      exact ⟨hn, rfl⟩
    · rw [if_neg h1] at h
      refine ih (n + 1) _ l (by omega) ?_ (fun i h0 hlt => ?_) h
      · rw [List.reverse_cons, ← hr', hr, List.range_succ (n := n + 1), List.map_append, ← pow_succ]; rfl
      · rcases Nat.lt_succ_iff_lt_or_eq.1 hlt with h' | rfl
        · exact hi i h0 h'
        · exact h1

theorem expands_blst : Expands (expandRoot (F := F)) := by
  refine ⟨fun w n l h => ?_, fun w n h0 _ ho => ⟨_, expandRoot_spec w n h0 (ho ▸ IsPrimitiveRoot.orderOf w)⟩⟩
  exact expandLoop_order (n + 2) 1 [w, 1] l one_pos (by simp [List.range_succ]) (fun i h0 h1 => by omega) h

theorem expands_mcl : Expands (mclExpand (F := F)) := by
  refine ⟨fun w n l h => ?_, fun w n h0 h1 ho => ⟨_, Mcl.expandRoot_spec w n h0 (le_trans h1.le (by norm_num)) (ho ▸ IsPrimitiveRoot.orderOf w)⟩⟩
  exact mclExpandLoop_order (2 ^ 58) 1 [w, 1] l one_pos (by simp [List.range_succ]) (fun i h0 h1 => by omega) h

theorem expands_ckzg : Expands (Ckzg.expandRoot (F := F)) := by
  have : (Ckzg.expandRoot (F := F)) = expandRoot := by
    funext w n
    rw [Ckzg.expandRoot, expandRoot, ckzg_expandLoop]
  rw [this]
  exact expands_blst

theorem shlU_one {k : Nat} (h : k < 64) : shlU 1 k = .ok (2 ^ k) := by
  rw [shlU, if_pos h, Nat.one_shiftLeft, Nat.mod_eq_of_lt (Nat.pow_lt_pow_right (by norm_num) h)]

/-- The test of the table, for a backend that reads words. -/
theorem rootsPlausibleT_eq {φ : F →+* Fr} {fromWords : List Nat → Res F} (hφ : ReadsWords φ fromWords) {roots : List (List Nat)} (hr : Rows roots) :
    rootsPlausibleT fromWords roots = passIf (PowersOne roots) := by
  have hb : ∀ i < 32, (do
      let row ← rd roots i
      let r ← fromWords row
      let r ← forRange 0 i r fun _ r => .ok (r * r)
      assertT (decide (r = 1))) = assertT (decide (rowEl roots i ^ 2 ^ i = 1)) := by
    intro i hi
    obtain ⟨x, hx, hx'⟩ := hφ _ (hr.2 i hi).1 (hr.2 i hi).2
    have hlt : i < roots.length := by rw [hr.1]; exact hi
    rw [List.getD_eq_getElem _ _ hlt] at hx
    obtain ⟨y, hy, hy'⟩ := forRange_inv (lo := 0) (hi := i) (s := x) (body := fun _ r => .ok (r * r))
      (fun j r => r = x ^ 2 ^ j) (by omega) (by simp) (by
        rintro j r _ _ rfl
        exact ⟨_, rfl, by rw [← pow_two, ← pow_mul, pow_succ]⟩)
    rw [rd_of_lt hlt, bind_ok, hx, bind_ok, hy, bind_ok, hy']
    have : (x ^ 2 ^ i = 1) ↔ rowEl roots i ^ 2 ^ i = 1 := by
      rw [← φ.injective.eq_iff, map_pow, hx', map_one]; rfl
    simp only [this]
  by_cases h : PowersOne roots
  · rw [passIf_true h]
    refine each_ok fun i hi => ?_
    rw [hb i hi]
    simp [assertT, h i hi]
  · rw [passIf_false h]
    unfold PowersOne at h
    push Not at h
    obtain ⟨i, hi, hne⟩ := h
    exact each_panic hb ⟨i, hi, by simp [hne]⟩

/-- The test of the expansion, for a backend that reads words. -/
theorem expandPlausibleT_eq {φ : F →+* Fr} {fromWords : List Nat → Res F} (hφ : ReadsWords φ fromWords) {expand : F → Nat → Res (List F)}
    (he : Expands expand) {roots : List (List Nat)} (hr : Rows roots) {scale : Nat} (hs : scale < 32) :
    expandPlausibleT fromWords expand roots scale = passIf (orderOf (rowEl roots scale) = 2 ^ scale) := by
  obtain ⟨x, hx, hx'⟩ := hφ _ (hr.2 scale hs).1 (hr.2 scale hs).2
  have hlt : scale < roots.length := by rw [hr.1]; exact hs
  have ho : orderOf (rowEl roots scale) = orderOf x := by
    rw [rowEl, ← hx']
    exact orderOf_injective φ.toMonoidHom φ.injective x
  rw [List.getD_eq_getElem _ _ hlt] at hx
  have hpos : 0 < 2 ^ scale := by positivity
  have h32 : 2 ^ scale < 2 ^ 32 := Nat.pow_lt_pow_right (by norm_num) hs
  rw [expandPlausibleT, shlU_one (by omega), bind_ok, rd_of_lt hlt, bind_ok, hx, bind_ok, ho]
  generalize 2 ^ scale = N at hpos h32
  cases h : expand x N with
  | ok l =>
    obtain ⟨h0, hl⟩ := he.1 x N l h
    have hrd : ∀ i, i < orderOf x + 1 → rd l i = .ok (x ^ i) := by
      intro i hi
      rw [hl, rd_of_lt (by simpa using hi)]
      simp
    rw [unwrap_ok, bind_ok, hrd 0 (by omega), bind_ok, pow_zero]
    have ha : assertT (decide ((1 : F) = 1)) = .ok () := by simp [assertT]
    rw [ha, bind_ok]
    rcases lt_trichotomy (orderOf x) N with hlt' | heq | hgt
    · rw [passIf_false (by omega)]
      have : rd l N = .panic := by
        rw [hl, rd, List.getElem?_eq_none (by simp; omega)]
      rw [this]; rfl
    · rw [passIf_true heq, hrd N (by omega), bind_ok]
      have h1 : x ^ N = 1 := by rw [← heq]; exact pow_orderOf_eq_one x
      rw [h1, ha, bind_ok]
      refine each_ok fun i hi => ?_
      have hi' : i ≤ N := by omega
      rw [hrd i (by omega), bind_ok, hrd (N - i) (by omega), bind_ok, ← pow_add, Nat.add_sub_cancel' hi', h1, ha]
    · rw [passIf_false (by omega), hrd N (by omega), bind_ok]
      have h1 : x ^ N ≠ 1 := pow_ne_one_of_lt_orderOf (by omega) hgt
      simp [assertT, h1]
  | err m =>
    rw [passIf_false]
    · rfl
    · intro ho'
      obtain ⟨l, hl⟩ := he.2 x N hpos h32 ho'
      rw [h] at hl; cases hl
  | panic =>
    rw [passIf_false]
    · rfl
    · intro ho'
      obtain ⟨l, hl⟩ := he.2 x N hpos h32 ho'
      rw [h] at hl; cases hl

/-- The test of the settings, for settings that show their powers. -/
theorem settingsPlausibleT_ok {T : FftTrait F} {scale : Nat} {fs : FFTSettings F} (hs : scale < 32) (hn : T.new scale = .ok fs)
    (hg : FftGood T fs scale) : settingsPlausibleT T scale = .ok () := by
  obtain ⟨hw, w, ho, -, -, hat, -⟩ := hg
  have hw0 : w ≠ 0 := by
    rintro rfl
    have := pow_orderOf_eq_one (0 : F)
    rw [ho, zero_pow (by positivity)] at this
    exact zero_ne_one this
  rw [settingsPlausibleT, shlU_one (by omega), bind_ok, hn, unwrap_ok, bind_ok, hw, bind_ok]
  have : assertT (2 ^ scale == 2 ^ scale) = .ok () := by simp [assertT]
  rw [this, bind_ok]
  refine each_ok fun i hi => ?_
  rw [(hat i hi.le).1, bind_ok, (hat i hi.le).2, bind_ok, inv_pow, mul_inv_cancel₀ (pow_ne_zero _ hw0)]
  simp [assertT]

theorem settingsPlausibleT_new_err {T : FftTrait F} {scale : Nat} (h : ∃ msg, T.new scale = .err msg) :
    settingsPlausibleT T scale = .panic := by
  obtain ⟨m, h⟩ := h
  rw [settingsPlausibleT, shlU]
  split
  · rw [bind_ok, h]; rfl
  · rfl

end

theorem zkOfRow {u : List Nat} (hu : Words4 u) : ScW.el (ScW.ofRow u) = (wordsVal u : Nat) := by
  obtain ⟨a, b, c, d, rfl⟩ : ∃ a b c d, u = [a, b, c, d] := by
    match u, hu.1 with
    | [a, b, c, d], _ => exact ⟨a, b, c, d, rfl⟩
  have hw := hu.2
  have ha : a < W := hw a (by simp)
  have hb : b < W := hw b (by simp)
  have hc : c < W := hw c (by simp)
  have hd : d < W := hw d (by simp)
  apply ScW.el_eq
  simp only [ScW.ofRow, List.getD_cons_zero, List.getD_cons_succ, Nat.mod_eq_of_lt ha, Nat.mod_eq_of_lt hb,
    Nat.mod_eq_of_lt hc, Nat.mod_eq_of_lt hd]
  have := Scalar.fromRaw_rep ha hb hc hd
  convert this using 1
  congr 1
  simp only [wordsVal, List.foldr, Scalar.val, W]
  ring

theorem reads_zk : ReadsWords ScW.elHom zkFromWords := fun _ hu _ => ⟨_, rfl, zkOfRow hu⟩

theorem reads_of_good {T : FrTrait Fr} (h : FrGood T (Eq : Fr → Fr → Prop)) : ReadsWords (RingHom.id Fr) T.fromU64Arr := by
  intro u hu hl
  obtain ⟨e, he, he'⟩ := h.fromWords u hu hl
  exact ⟨e, he, he'⟩

section
variable [Mcl.Lib Fr]

/-- C185 (out of bounds): with any scale, the test passes exactly for the scales from 32 on; in mcl-kzg the scale is taken modulo 256. -/
theorem C185_out_of_bounds (scale : Nat) : outOfBoundsT blstFft scale = passIf (32 ≤ scale) ∧
    outOfBoundsT zkFft scale = passIf (32 ≤ scale) ∧ outOfBoundsT arkFft scale = passIf (32 ≤ scale) ∧
    outOfBoundsT mclFft scale = passIf (32 ≤ scale % 256) := by
  have key : ∀ {E : Type} [Field E] {T : FftTrait E} {k : Nat} (_ : k < 32 → ∃ fs, T.new scale = .ok fs)
      (_ : 32 ≤ k → ∃ msg, T.new scale = .err msg), outOfBoundsT T scale = passIf (32 ≤ k) := by
    intro E _ T k h1 h2
    by_cases h : 32 ≤ k
    · obtain ⟨m, hm⟩ := h2 h
      rw [outOfBoundsT, hm, passIf_true h]; rfl
    · obtain ⟨fs, hm⟩ := h1 (by omega)
      rw [outOfBoundsT, hm, passIf_false h]; rfl
  have c : ∀ {E : Type} [Field E] {T : FftTrait E}, FftContract T → outOfBoundsT T scale = passIf (32 ≤ scale) := fun h =>
    key (fun h' => ((h scale).1 h').imp fun _ h => h.1) (h scale).2
  refine ⟨c C157_contract.1, c C157_contract.2.1, c C157_contract.2.2, key (k := scale % 256) (fun h => ?_) (fun h => ?_)⟩
  · obtain ⟨fs, he, -⟩ := Mcl.newTrait_spec (F := Fr) Mcl.Globals.start (k := scale) h
    exact ⟨fs, he⟩
  · exact ⟨_, Mcl.newTrait_err Mcl.Globals.start h⟩

/-- C185 (powers): with any table of 32 rows below the modulus in place of its own, the test passes in every backend exactly when each entry
raised to its power of two is one. -/
theorem C185_roots {roots : List (List Nat)} (hr : Rows roots) :
    rootsPlausibleT Iface.blst.fromU64Arr roots = passIf (PowersOne roots) ∧
    rootsPlausibleT zkFromWords roots = passIf (PowersOne roots) ∧
    rootsPlausibleT Iface.mcl.fromU64Arr roots = passIf (PowersOne roots) ∧
    rootsPlausibleT Iface.ark.fromU64Arr roots = passIf (PowersOne roots) :=
  ⟨rootsPlausibleT_eq (reads_of_good blst_frGood) hr, rootsPlausibleT_eq reads_zk hr, rootsPlausibleT_eq (reads_of_good mcl_frGood) hr,
    rootsPlausibleT_eq (reads_of_good ark_frGood) hr⟩

/-- C185 (expansion): with any such table and any scale below 32, the test passes in every backend, ckzg included, exactly when the entry of
that scale has the right order. The expansion of mcl-kzg, which is given no width, is no exception. -/
theorem C185_expand {roots : List (List Nat)} (hr : Rows roots) {scale : Nat} (hs : scale < 32) :
    expandPlausibleT Iface.blst.fromU64Arr expandRoot roots scale = passIf (orderOf (rowEl roots scale) = 2 ^ scale) ∧
    expandPlausibleT zkFromWords expandRoot roots scale = passIf (orderOf (rowEl roots scale) = 2 ^ scale) ∧
    expandPlausibleT Iface.mcl.fromU64Arr mclExpand roots scale = passIf (orderOf (rowEl roots scale) = 2 ^ scale) ∧
    expandPlausibleT Iface.ark.fromU64Arr expandRoot roots scale = passIf (orderOf (rowEl roots scale) = 2 ^ scale) ∧
    expandPlausibleT Iface.blst.fromU64Arr Ckzg.expandRoot roots scale = passIf (orderOf (rowEl roots scale) = 2 ^ scale) :=
  ⟨expandPlausibleT_eq (reads_of_good blst_frGood) expands_blst hr hs, expandPlausibleT_eq reads_zk expands_blst hr hs,
    expandPlausibleT_eq (reads_of_good mcl_frGood) expands_mcl hr hs, expandPlausibleT_eq (reads_of_good ark_frGood) expands_blst hr hs,
    expandPlausibleT_eq (reads_of_good blst_frGood) expands_ckzg hr hs⟩

/-- C185 (settings): with any scale, the test passes in every backend exactly for the scales below 32. -/
theorem C185_settings (scale : Nat) : settingsPlausibleT blstFft scale = passIf (scale < 32) ∧
    settingsPlausibleT zkFft scale = passIf (scale < 32) ∧ settingsPlausibleT arkFft scale = passIf (scale < 32) ∧
    settingsPlausibleT mclFft scale = passIf (scale < 32) := by
  have c : ∀ {E : Type} [Field E] [DecidableEq E] {T : FftTrait E}, FftContract T → settingsPlausibleT T scale = passIf (scale < 32) := by
    intro E _ _ T h
    by_cases hs : scale < 32
    · obtain ⟨fs, h1, h2⟩ := (h scale).1 hs
      rw [passIf_true hs, settingsPlausibleT_ok hs h1 h2]
    · rw [passIf_false hs, settingsPlausibleT_new_err ((h scale).2 (by omega))]
  refine ⟨c C157_contract.1, c C157_contract.2.1, c C157_contract.2.2, ?_⟩
  by_cases h256 : scale < 256
  · by_cases hs : scale < 32
    · obtain ⟨fs, h1, h2⟩ := (C157_mcl_partial scale h256).1 hs
      rw [passIf_true hs, settingsPlausibleT_ok hs h1 h2]
    · rw [passIf_false hs, settingsPlausibleT_new_err ((C157_mcl_partial scale h256).2 (by omega))]
  · rw [passIf_false (by omega), settingsPlausibleT, shlU, if_neg (by omega)]
    rfl

end

/-- The table of blst-from-scratch, copied by zkcrypto, Arkworks and ckzg. -/
theorem rows_scale2 : Rows scale2RootWords := by
  refine ⟨table_len, fun i hi => ⟨?_, Mcl.table_lt i hi⟩⟩
  have hlt : i < scale2RootWords.length := by rw [table_len]; exact hi
  rw [List.getD_eq_getElem _ _ hlt]
  exact ScW.rows_lt _ (List.getElem_mem hlt)

theorem mcl_rows [Mcl.Lib Fr] {g : Mcl.Globals Fr} (hg : g.Inv) :
    ∃ rows, mclRows g = .ok rows ∧ Rows rows ∧ ∀ i < 32, rowEl rows i = Mcl.row5 i := by
  have hlen : (Mcl.Tables.pr5 (F := Fr)).length = 32 := by simp [Mcl.Tables.pr5, Mcl.rootsPR5]
  rw [mclRows, Mcl.initGlobals_table hg, hlen]
  obtain ⟨rows, h1, h2, h3⟩ := forRange_inv (lo := 0) (hi := 32) (s := List.replicate 32 [0, 0, 0, 0])
    (body := fun i arr => do
      let x ← rd (Mcl.Tables.pr5 (F := Fr)) i
      let u ← Iface.mcl.toU64Arr x
      wr arr i u)
    (fun i (arr : List (List Nat)) => arr.length = 32 ∧
      ∀ j < i, Words4 (arr.getD j []) ∧ wordsVal (arr.getD j []) = (Mcl.row5 j).val)
    (by omega) ⟨by simp, fun j hj => by omega⟩ (by
      rintro i arr _ hi ⟨hl, h⟩
      obtain ⟨u, hu, h4, hv⟩ := mcl_frGood.toWords (Mcl.row5 i) (Mcl.row5 i) rfl
      have hx : rd (Mcl.Tables.pr5 (F := Fr)) i = .ok (Mcl.row5 i) := by
        rw [rd_of_lt (by omega)]
        congr 1
        simp only [Mcl.Tables.pr5, List.getElem_map, Mcl.row5]
        rw [List.getD_eq_getElem _ _ (by simp [Mcl.rootsPR5]; omega)]
      refine ⟨arr.set i u, ?_, by simpa using hl, fun j hj => ?_⟩
      · rw [hx, bind_ok, hu, bind_ok, wr_of_lt (by omega)]
      · by_cases hji : j = i
        · subst hji
          have : (arr.set j u).getD j [] = u := by simp [List.getD_eq_getElem?_getD, hl, hi]
          rw [this]
          exact ⟨h4, hv⟩
        · have : (arr.set i u).getD j [] = arr.getD j [] := by
            simp [List.getD_eq_getElem?_getD, List.getElem?_set_ne (Ne.symm hji)]
          rw [this]
          exact h j (by omega))
  refine ⟨rows, h1, ⟨h2, fun i hi => ⟨(h3 i hi).1, ?_⟩⟩, fun i hi => ?_⟩
  · rw [(h3 i hi).2]; exact ZMod.val_lt _
  · rw [rowEl, (h3 i hi).2, ZMod.natCast_zmod_val]

section
variable [Mcl.Lib Fr]

/-- C185 (the tables): each backend's own table has 32 rows, and with it the test of powers passes and the test of the expansion passes for
every scale; mcl-kzg makes its table from the statics, whatever happened to them before. -/
theorem C185_tables {g : Mcl.Globals Fr} (hg : g.Inv) :
    rootsSizeT scale2RootWords = .ok () ∧ rootsPlausibleT Iface.blst.fromU64Arr scale2RootWords = .ok () ∧
    rootsPlausibleT zkFromWords scale2RootWords = .ok () ∧ rootsPlausibleT Iface.ark.fromU64Arr scale2RootWords = .ok () ∧
    (∀ scale < 32, expandPlausibleT Iface.blst.fromU64Arr expandRoot scale2RootWords scale = .ok () ∧
      expandPlausibleT zkFromWords expandRoot scale2RootWords scale = .ok () ∧
      expandPlausibleT Iface.ark.fromU64Arr expandRoot scale2RootWords scale = .ok () ∧
      expandPlausibleT Iface.blst.fromU64Arr Ckzg.expandRoot scale2RootWords scale = .ok ()) ∧
    ∃ rows, mclRows g = .ok rows ∧ rootsPlausibleT Iface.mcl.fromU64Arr rows = .ok () ∧
      ∀ scale < 32, expandPlausibleT Iface.mcl.fromU64Arr mclExpand rows scale = .ok () := by
  have hp : PowersOne scale2RootWords := fun i hi => (tableRow_primitive hi).pow_eq_one
  have ho : ∀ scale < 32, orderOf (rowEl scale2RootWords scale) = 2 ^ scale := fun s hs => (tableRow_primitive hs).eq_orderOf.symm
  obtain ⟨h1, h2, -, h4⟩ := C185_roots rows_scale2
  rw [passIf_true hp] at h1 h2 h4
  obtain ⟨rows, hr, hr', hv⟩ := mcl_rows hg
  refine ⟨by rw [rootsSizeT, table_len]; rfl, h1, h2, h4, fun s hs => ?_, rows, hr, ?_, fun s hs => ?_⟩
  · obtain ⟨e1, e2, -, e4, e5⟩ := C185_expand rows_scale2 hs
    rw [passIf_true (ho s hs)] at e1 e2 e4 e5
    exact ⟨e1, e2, e4, e5⟩
  · rw [(C185_roots hr').2.2.1, passIf_true]
    intro i hi
    rw [hv i hi]
    exact (Mcl.row5_primitive hi).pow_eq_one
  · rw [(C185_expand hr' hs).2.2.1, passIf_true]
    rw [hv s hs]
    exact (Mcl.row5_primitive hs).eq_orderOf.symm

/-- C185 (what the tests let through): a table of ones, of which no entry but the first is a root of the right order, passes the test of
powers in every backend, and with the right entry at 15 it passes the test of the expansion too, which looks at no other. -/
theorem C185_weak_table : ∃ roots, Rows roots ∧ (∀ scale < 32, scale ≠ 0 → scale ≠ 15 → orderOf (rowEl roots scale) ≠ 2 ^ scale) ∧
    rootsSizeT roots = .ok () ∧
    (rootsPlausibleT Iface.blst.fromU64Arr roots = .ok () ∧ rootsPlausibleT zkFromWords roots = .ok () ∧
      rootsPlausibleT Iface.mcl.fromU64Arr roots = .ok () ∧ rootsPlausibleT Iface.ark.fromU64Arr roots = .ok ()) ∧
    expandPlausibleT Iface.blst.fromU64Arr expandRoot roots 15 = .ok () ∧
    expandPlausibleT zkFromWords expandRoot roots 15 = .ok () ∧
    expandPlausibleT Iface.mcl.fromU64Arr mclExpand roots 15 = .ok () ∧
    expandPlausibleT Iface.ark.fromU64Arr expandRoot roots 15 = .ok () := by
  let roots := (List.replicate 32 [1, 0, 0, 0]).set 15 (scale2RootWords.getD 15 [])
  have hget : ∀ i < 32, roots.getD i [] = if i = 15 then scale2RootWords.getD 15 [] else [1, 0, 0, 0] := by
    intro i hi
    by_cases h : i = 15
    · subst h
      simp [roots, List.getD_eq_getElem?_getD]
    · rw [if_neg h, List.getD_eq_getElem?_getD, List.getElem?_set_ne (Ne.symm h), List.getElem?_replicate, if_pos hi]
      rfl
  have h1 : ∀ i < 32, i ≠ 15 → rowEl roots i = 1 := by
    intro i hi h
    rw [rowEl, hget i hi, if_neg h]
    simp [wordsVal]
  have h15 : rowEl roots 15 = tableRow 15 := by rw [rowEl, hget 15 (by norm_num), if_pos rfl]; rfl
  have hr : Rows roots := by
    refine ⟨by simp [roots], fun i hi => ?_⟩
    rw [hget i hi]
    split
    · exact rows_scale2.2 15 (by norm_num)
    · exact ⟨⟨rfl, by simp⟩, by decide +kernel⟩
  have hp : PowersOne roots := by
    intro i hi
    by_cases h : i = 15
    · rw [h, h15]; exact (tableRow_primitive (by norm_num)).pow_eq_one
    · rw [h1 i hi h, one_pow]
  refine ⟨roots, hr, fun s hs h0 hs15 => ?_, by simp [rootsSizeT, roots, assertT], ?_, ?_⟩
  · rw [h1 s hs hs15, orderOf_one]
    exact (Nat.one_lt_two_pow h0).ne
  · have := C185_roots hr
    rwa [passIf_true hp] at this
  · have := C185_expand hr (scale := 15) (by norm_num)
    rw [passIf_true (by rw [h15]; exact (tableRow_primitive (by norm_num)).eq_orderOf.symm)] at this
    exact ⟨this.1, this.2.1, this.2.2.1, this.2.2.2.1⟩

/-- In mcl-kzg the test of bounds would fail with the scale 256. -/
example : outOfBoundsT mclFft 256 = .panic ∧ outOfBoundsT arkFft 256 = .ok () :=
  ⟨by rw [(C185_out_of_bounds 256).2.2.2]; rfl, by rw [(C185_out_of_bounds 256).2.2.1]; rfl⟩

end

/-- The test of the shared suite. -/
example [Mcl.Lib Fr] : settingsPlausibleT zkFft 21 = .ok () := by rw [(C185_settings 21).2.1]; rfl

end Kzg.Props
