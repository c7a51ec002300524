import Verif.Proofs.Mcl.FFT
/-!
# Settings of mcl-kzg: proofs
-/

namespace Kzg.Mcl
open Kzg Res

set_option linter.unusedSectionVars false

/-- Facts about the two tables; proved for the scalar field below. -/
class LawfulTables (F : Type) [Field F] [Tables F] : Prop where
  len5 : (Tables.pr5 (F := F)).length = 32
  prim5 : ∀ i (h : i < (Tables.pr5 (F := F)).length), IsPrimitiveRoot ((Tables.pr5 (F := F))[i]) (2 ^ i)
  len7 : (Tables.pr7 (F := F)).length = 32
  prim7 : ∀ i (h : i < (Tables.pr7 (F := F)).length), IsPrimitiveRoot ((Tables.pr7 (F := F))[i]) (2 ^ i)

section
variable {F : Type} [Field F] [DecidableEq F]

theorem expandLoop_spec (w : F) (N : Nat) (hN : 0 < N) (hw : IsPrimitiveRoot w N) :
    ∀ (fuel n : Nat) (rev : List F), 2 ≤ n → n ≤ N + 1 → N + 2 ≤ fuel + n →
      rev.reverse = (List.range n).map (w ^ ·) →
      expandLoop w fuel rev = .ok ((List.range (N + 1)).map (w ^ ·)) := by
  intro fuel
  induction fuel with
  | zero => intro n rev h1 h2 h3 _; omega
  | succ f ih =>
    intro n rev h1 h2 h3 hrev
    have hrev' : rev = ((List.range n).map (w ^ ·)).reverse := by rw [← hrev, List.reverse_reverse]
    obtain ⟨n', rfl⟩ : ∃ n', n = n' + 1 := ⟨n - 1, by omega⟩
    have hcons : rev = w ^ n' :: ((List.range n').map (w ^ ·)).reverse := by
      rw [hrev', List.range_succ]; simp
    rw [hcons]
    simp only [expandLoop]
    by_cases hlast : w ^ n' = 1
    · rw [if_pos hlast]
      have hdvd := (hw.pow_eq_one_iff_dvd n').mp hlast
      have hle := Nat.le_of_dvd (by omega) hdvd
      have : n' = N := by omega
      subst this
      rw [← hcons, hrev]
    · rw [if_neg hlast]
      have hne : n' ≠ N := by rintro rfl; exact hlast hw.pow_eq_one
      refine ih (n' + 2) _ (by omega) (by omega) (by omega) ?_
      rw [List.reverse_cons, ← hcons, hrev, ← pow_succ]
      rw [show n' + 2 = (n' + 1) + 1 from rfl, List.range_succ (n := n' + 1), List.map_append]
      rfl

theorem expandRoot_spec (w : F) (N : Nat) (hN : 0 < N) (h58 : N ≤ 2 ^ 57) (hw : IsPrimitiveRoot w N) :
    expandRoot w = .ok ((List.range (N + 1)).map (w ^ ·)) := by
  refine expandLoop_spec w N hN hw (2 ^ 58) 2 [w, 1] (by omega) (by omega) (by omega) ?_
  simp [List.range_succ]

theorem settingsOf_spec {w : F} {k : Nat} (hk : k < 32) (hp : IsPrimitiveRoot w (2 ^ k)) :
    Sat (settingsOf w k) (fun fs => fs.WF k ∧ fs.rootOfUnity = w) := by
  have hpos : 0 < 2 ^ k := by positivity
  have hsh : 1 <<< k = 2 ^ k := by rw [Nat.shiftLeft_eq, one_mul]
  have h57 : 2 ^ k ≤ 2 ^ 57 := Nat.pow_le_pow_right (by omega) (by omega)
  refine ⟨⟨2 ^ k, w, (List.range (2 ^ k + 1)).map (w ^ ·),
    ((List.range (2 ^ k + 1)).map (w ^ ·)).reverse⟩, ?_, ?_, rfl⟩
  · rw [settingsOf, expandRoot_spec w _ hpos h57 hp, bind_ok, hsh]
  · refine ⟨rfl, hk, hp, by simp, ?_, by simp, ?_⟩
    · intro i hi
      simp [List.getElem?_map, List.getElem?_range (show i < 2 ^ k + 1 by omega)]
    · intro i hi
      rw [List.getElem?_reverse (by simp; omega)]
      simp only [List.length_map, List.length_range, List.getElem?_map]
      rw [List.getElem?_range (by omega)]
      simp only [Option.map_some, Option.some.injEq]
      have hw0 : w ≠ 0 := hp.ne_zero (by omega)
      rw [inv_pow]
      have e : 2 ^ k + 1 - 1 - i = 2 ^ k - i := by omega
      rw [e]
      refine eq_inv_of_mul_eq_one_left ?_
      rw [← pow_add, Nat.sub_add_cancel hi, hp.pow_eq_one]

theorem parseAll_some (l : List F) : parseAll (l.map some) = .ok l := by
  induction l with
  | nil => rfl
  | cons x l ih => simp only [List.map_cons, parseAll, ih, bind_ok]

variable [Tables F] [LawfulTables F]

/-- The statics hold the default table whenever the flags say so. -/
def Globals.Inv (g : Globals F) : Prop := (g.initialized && g.isDefault) = true → g.table = Tables.pr5

theorem initGlobals_table {g : Globals F} (h : g.Inv) : (initGlobals g).table = Tables.pr5 := by
  unfold initGlobals
  split
  · next e => exact h e
  · rfl

theorem initGlobals_inv {g : Globals F} (h : g.Inv) : (initGlobals g).Inv := fun _ => initGlobals_table h

theorem newPR5_inv {g : Globals F} (h : g.Inv) (k : Nat) : (newPR5 g k).2.Inv := initGlobals_inv h

theorem newPR5_eq {g : Globals F} (h : g.Inv) (k : Nat) :
    (newPR5 g k).1 = (do let root ← rd (Tables.pr5 (F := F)) k; settingsOf root k) := by
  simp only [newPR5, initGlobals_table h]

theorem newCustom_inv {g : Globals F} (h : g.Inv) (k : Nat) (roots : List (Option F)) :
    (newCustom g k roots).2.Inv := by
  unfold newCustom initGlobalsCustom
  cases hp : parseAll roots with
  | ok t =>
    rw [bind_ok]
    intro e; simp at e
  | err e => exact h
  | panic => exact h

theorem newCustom_indep (g g' : Globals F) (k : Nat) (roots : List (Option F)) :
    (newCustom g k roots).1 = (newCustom g' k roots).1 := by
  unfold newCustom
  cases initGlobalsCustom roots <;> rfl

theorem start_inv : (Globals.start (F := F)).Inv := by
  intro h; simp [Globals.start] at h

theorem newPR5_spec {g : Globals F} (h : g.Inv) {k : Nat} (hk : k < 32) :
    Sat (newPR5 g k).1 (fun fs => fs.WF k ∧ (Tables.pr5 (F := F))[k]? = some fs.rootOfUnity) := by
  have hlen := LawfulTables.len5 (F := F)
  have hk' : k < (Tables.pr5 (F := F)).length := by omega
  rw [newPR5_eq h, rd_of_lt hk', bind_ok]
  refine (settingsOf_spec hk (LawfulTables.prim5 k hk')).mono fun fs ⟨h1, h2⟩ => ⟨h1, ?_⟩
  rw [h2, List.getElem?_eq_getElem hk']

theorem newPR5_panic {g : Globals F} (h : g.Inv) {k : Nat} (hk : 32 ≤ k) : (newPR5 g k).1 = .panic := by
  have hlen := LawfulTables.len5 (F := F)
  rw [newPR5_eq h, rd_of_ge (by omega), bind_panic]

theorem newTrait_spec (g : Globals F) {k : Nat} (hk : k % 256 < 32) :
    Sat (newTrait g k).1 (fun fs => fs.WF (k % 256) ∧
      (Tables.pr7 (F := F))[k % 256]? = some fs.rootOfUnity) := by
  have hlen := LawfulTables.len7 (F := F)
  have hk' : k % 256 < (Tables.pr7 (F := F)).length := by omega
  simp only [newTrait, newCustom, initGlobalsCustom, parseAll_some, bind_ok]
  rw [if_neg (by omega), rd_of_lt hk', bind_ok]
  refine (settingsOf_spec hk (LawfulTables.prim7 _ hk')).mono fun fs ⟨h1, h2⟩ => ⟨h1, ?_⟩
  rw [h2, List.getElem?_eq_getElem hk']

theorem newTrait_err (g : Globals F) {k : Nat} (hk : 32 ≤ k % 256) :
    (newTrait g k).1 = .err "Scale is expected to be within root of unity matrix row size" := by
  have hlen := LawfulTables.len7 (F := F)
  simp only [newTrait, newCustom, initGlobalsCustom, parseAll_some, bind_ok]
  rw [if_pos (by omega)]

theorem wf_of_new7 {k : Nat} {fs : FFTSettings F} (h : FFTSettings.new7 k = .ok fs) : fs.WF (k % 256) := by
  by_cases hk : k % 256 < 32
  · obtain ⟨fs', h', hwf, _⟩ := newTrait_spec (F := F) Globals.start hk
    rw [FFTSettings.new7, h'] at h
    cases h; exact hwf
  · rw [FFTSettings.new7, newTrait_err _ (by omega)] at h
    cases h

theorem wf_of_new5 {k : Nat} {fs : FFTSettings F} (h : FFTSettings.new5 k = .ok fs) : fs.WF k := by
  by_cases hk : k < 32
  · obtain ⟨fs', h', hwf, _⟩ := newPR5_spec (F := F) start_inv hk
    rw [FFTSettings.new5, h'] at h
    cases h; exact hwf
  · rw [FFTSettings.new5, newPR5_panic start_inv (by omega)] at h
    cases h

theorem new5_spec {k : Nat} (hk : k < 32) : Sat (FFTSettings.new5 (F := F) k) (fun fs => fs.WF k) :=
  (newPR5_spec start_inv hk).mono fun _ h => h.1

end

/-! ### The tables of the scalar field -/

theorem len5_nat : rootsPR5.length = 32 := by decide +kernel
theorem len7_nat : rootsPR7.length = 32 := by decide +kernel

/-- Row `i` of the first table. -/
def row5 (i : Nat) : Fr := ((rootsPR5.getD i 0 : Nat) : Fr)
/-- Row `i` of the second table. -/
def row7 (i : Nat) : Fr := ((rootsPR7.getD i 0 : Nat) : Fr)

theorem row5_squares : ∀ i < 31, (rootsPR5.getD (i + 1) 0) ^ 2 % frModulus = rootsPR5.getD i 0 := by
  decide +kernel

theorem row5_zero : rootsPR5.getD 0 0 = 1 := by decide +kernel
theorem row5_one : rootsPR5.getD 1 0 = frModulus - 1 := by decide +kernel

/-- Up to scale 6 the second table is the one of blst-from-scratch. -/
theorem row7_low : ∀ i < 7, rootsPR7.getD i 0 = wordsVal (scale2RootWords.getD i []) := by decide +kernel

/-- From scale 7 on the second table is the first one. -/
theorem row7_high : ∀ i < 32, 7 ≤ i → rootsPR7.getD i 0 = rootsPR5.getD i 0 := by decide +kernel

theorem row7_ne : ∀ i < 32, 7 ≤ i → rootsPR7.getD i 0 ≠ wordsVal (scale2RootWords.getD i []) := by
  decide +kernel

theorem row75_ne : ∀ i < 7, 3 ≤ i → rootsPR7.getD i 0 ≠ rootsPR5.getD i 0 := by decide +kernel

theorem row5_lt : ∀ i < 32, rootsPR5.getD i 0 < frModulus := by decide +kernel
theorem row7_lt : ∀ i < 32, rootsPR7.getD i 0 < frModulus := by decide +kernel
theorem table_lt : ∀ i < 32, wordsVal (scale2RootWords.getD i []) < frModulus := by decide +kernel

theorem row5_sq {i : Nat} (h : i < 31) : row5 (i + 1) ^ 2 = row5 i := by
  rw [row5, row5, ← Nat.cast_pow, ← row5_squares i h, ZMod.natCast_mod]

theorem row5_pow {i : Nat} : ∀ j, i + j < 32 → row5 (i + j) ^ (2 ^ j) = row5 i := by
  intro j
  induction j with
  | zero => intro _; simp
  | succ j ih =>
    intro h
    rw [pow_succ, mul_comm, pow_mul, ← add_assoc, row5_sq (by omega), ih (by omega)]

theorem row5_primitive {i : Nat} (h : i < 32) : IsPrimitiveRoot (row5 i) (2 ^ i) := by
  rcases i with _ | i
  · rw [row5, row5_zero]; simp
  · have hm1 : row5 1 = -1 := by
      have h : 1 ≤ frModulus := by decide +kernel
      rw [row5, row5_one, Nat.cast_sub h]; simp
    have h1 : row5 (i + 1) ^ (2 ^ i) = -1 := by
      have := row5_pow (i := 1) i (by omega)
      rw [add_comm, this, hm1]
    have h2 : row5 (i + 1) ^ (2 ^ (i + 1)) = 1 := by
      rw [pow_succ, pow_mul, h1]; simp
    have hne : (-1 : Fr) ≠ 1 := by
      rw [← tableRow_one, tableRow, frFromWords, table_one]
      intro h
      have h1' : (1 : ZMod frModulus) = ((1 : Nat) : ZMod frModulus) := by simp
      rw [h1', ZMod.natCast_eq_natCast_iff'] at h
      revert h
      decide +kernel
    have := orderOf_eq_prime_pow (x := row5 (i + 1)) (p := 2) (n := i) (by rw [h1]; exact hne) h2
    rw [← this]; exact IsPrimitiveRoot.orderOf _

theorem row7_primitive {i : Nat} (h : i < 32) : IsPrimitiveRoot (row7 i) (2 ^ i) := by
  by_cases h7 : i < 7
  · have : row7 i = tableRow i := by rw [row7, row7_low i h7]; rfl
    rw [this]; exact tableRow_primitive h
  · have : row7 i = row5 i := by rw [row7, row7_high i h (by omega)]; rfl
    rw [this]; exact row5_primitive h

theorem pr5_getElem {i : Nat} (h : i < (Tables.pr5 (F := Fr)).length) : (Tables.pr5 (F := Fr))[i] = row5 i := by
  have h' : i < rootsPR5.length := by simpa [Tables.pr5] using h
  simp only [Tables.pr5, List.getElem_map, row5]
  rw [List.getD_eq_getElem _ _ h']

theorem pr7_getElem {i : Nat} (h : i < (Tables.pr7 (F := Fr)).length) : (Tables.pr7 (F := Fr))[i] = row7 i := by
  have h' : i < rootsPR7.length := by simpa [Tables.pr7] using h
  simp only [Tables.pr7, List.getElem_map, row7]
  rw [List.getD_eq_getElem _ _ h']

theorem len5_fr : (Tables.pr5 (F := Fr)).length = 32 := by
  rw [← len5_nat]; simp only [Tables.pr5, List.length_map]

theorem len7_fr : (Tables.pr7 (F := Fr)).length = 32 := by
  rw [← len7_nat]; simp only [Tables.pr7, List.length_map]

instance : LawfulTables Fr where
  len5 := len5_fr
  prim5 := by
    intro i h
    rw [pr5_getElem h]
    exact row5_primitive (by rw [len5_fr] at h; exact h)
  len7 := len7_fr
  prim7 := by
    intro i h
    rw [pr7_getElem h]
    exact row7_primitive (by rw [len7_fr] at h; exact h)

end Kzg.Mcl
