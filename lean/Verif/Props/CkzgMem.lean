import Verif.Model.Ckzg.Mem
import Mathlib.Tactic.Common
/-!
# Property C137: the memory behind ckzg values is freed once and not used afterwards
-/

namespace Kzg.Props
open Kzg Kzg.Ckzg

/-- Every live allocation belongs to exactly one variable, every variable's memory is live, and what a variable refers
to has a value. -/
structure Owned (s : State) : Prop where
  nodup : s.live.Nodup
  fresh : ∀ id ∈ s.live, id < s.next
  owns : ∀ i o, s.vars.getD i none = some o → (∃ id ∈ s.live, o.ptr = .heap id ∧ o.frees = true) ∨
    (o.ptr = .null ∧ o.sized = false) ∨ (o.ptr = .dangling ∧ o.frees = false)
  owned : ∀ id ∈ s.live, ∃ i o, s.vars.getD i none = some o ∧ o.ptr = .heap id
  unique : ∀ i j o o' id, s.vars.getD i none = some o → s.vars.getD j none = some o' → o.ptr = .heap id →
    o'.ptr = .heap id → i = j
  refs : ∀ i o j, s.vars.getD i none = some o → o.ref = some j → ∃ o', s.vars.getD j none = some o'

/-- What keeps a program safe in a state: it clones nothing that has memory; it makes no default polynomial; no failing
call of the library leaves a polynomial untouched; new values refer to values; nothing is dropped that another value
refers to. -/
def Careful (s : State) : Cmd → Prop
  | .new k ref r => (k = .poly → r ≠ .failedKept) ∧ ∀ j, ref = some j → ∃ o, s.vars.getD j none = some o
  | .default k => k ≠ .poly
  | .clone i => ∀ o id, s.vars.getD i none = some o → o.ptr ≠ .heap id
  | .drop i => ∀ j o, s.vars.getD j none = some o → o.ref = some i → j = i
  | .use _ => True

/-- A program all of whose commands are careful in the states it reaches. -/
def CarefulRun (s : State) : List Cmd → Prop
  | [] => True
  | c :: cs => Careful s c ∧ ∀ s', exec s c = some s' → CarefulRun s' cs

theorem getD_append_one {l : List (Option Obj)} {x : Option Obj} {i : Nat} {o : Obj} :
    (l ++ [x]).getD i none = some o ↔ l.getD i none = some o ∨ (i = l.length ∧ x = some o) := by
  simp only [List.getD_eq_getElem?_getD]
  rcases Nat.lt_trichotomy i l.length with h | h | h
  · rw [List.getElem?_append_left h]
    constructor
    · exact Or.inl
    · rintro (h' | ⟨rfl, -⟩)
      · exact h'
      · omega
  · subst h
    simp
  · rw [List.getElem?_eq_none (by simp; omega), List.getElem?_eq_none (by omega)]
    simp; omega

theorem getD_set_none {l : List (Option Obj)} {i j : Nat} {o : Obj} :
    (l.set i none).getD j none = some o ↔ l.getD j none = some o ∧ j ≠ i := by
  simp only [List.getD_eq_getElem?_getD]
  by_cases h : j = i
  · subst h
    rw [List.getElem?_set]
    by_cases hl : j < l.length <;> simp [hl]
  · rw [List.getElem?_set_ne (Ne.symm h)]
    simp [h]

/-- Adding a variable without memory. -/
theorem Owned.push {s : State} (h : Owned s) (x : Option Obj)
    (hx : ∀ o, x = some o → ((o.ptr = .null ∧ o.sized = false) ∨ (o.ptr = .dangling ∧ o.frees = false)) ∧
      ∀ j, o.ref = some j → ∃ o', s.vars.getD j none = some o') :
    Owned { s with vars := s.vars ++ [x] } := by
  refine ⟨h.nodup, h.fresh, fun i o hi => ?_, fun id hid => ?_, fun i j o o' id hi hj ho ho' => ?_, fun i o j hi hr => ?_⟩
  · rcases getD_append_one.1 hi with hi | ⟨-, hx'⟩
    · exact h.owns i o hi
    · exact Or.inr (hx o hx').1
  · obtain ⟨i, o, hi, ho⟩ := h.owned id hid
    exact ⟨i, o, getD_append_one.2 (Or.inl hi), ho⟩
  · have key : ∀ k o, (s.vars ++ [x]).getD k none = some o → o.ptr = .heap id → s.vars.getD k none = some o := by
      intro k o hk hp
      rcases getD_append_one.1 hk with hk | ⟨-, hx'⟩
      · exact hk
      · rcases (hx o hx').1 with ⟨hp', -⟩ | ⟨hp', -⟩ <;> rw [hp'] at hp <;> cases hp
    exact h.unique i j o o' id (key i o hi ho) (key j o' hj ho') ho ho'
  · have : ∃ o', s.vars.getD j none = some o' := by
      rcases getD_append_one.1 hi with hi | ⟨-, hx'⟩
      · exact h.refs i o j hi hr
      · exact (hx o hx').2 j hr
    obtain ⟨o', ho'⟩ := this
    exact ⟨o', getD_append_one.2 (Or.inl ho')⟩

/-- One careful command has no undefined behaviour and keeps the ownership. -/
theorem Owned.exec {s : State} (h : Owned s) {c : Cmd} (hc : Careful s c) : ∃ s', exec s c = some s' ∧ Owned s' := by
  cases c with
  | new k ref r =>
    cases r with
    | made =>
      refine ⟨_, rfl, ?_, ?_, fun i o hi => ?_, fun id hid => ?_, fun i j o o' id hi hj ho ho' => ?_, fun i o j hi hr => ?_⟩
      · exact List.nodup_cons.2 ⟨fun hm => absurd (h.fresh _ hm) (by omega), h.nodup⟩
      · intro id hid
        rcases List.mem_cons.1 hid with rfl | hid
        · exact Nat.lt_succ_self _
        · exact Nat.lt_succ_of_lt (h.fresh _ hid)
      · rcases getD_append_one.1 hi with hi | ⟨-, hx⟩
        · rcases h.owns i o hi with ⟨id, h1, h2⟩ | h1
          · exact Or.inl ⟨id, List.mem_cons_of_mem _ h1, h2⟩
          · exact Or.inr h1
        · cases hx
          exact Or.inl ⟨s.next, List.mem_cons_self, rfl, by simp [Obj.frees]⟩
      · rcases List.mem_cons.1 hid with rfl | hid
        · exact ⟨_, _, getD_append_one.2 (Or.inr ⟨rfl, rfl⟩), rfl⟩
        · obtain ⟨i, o, hi, ho⟩ := h.owned id hid
          exact ⟨i, o, getD_append_one.2 (Or.inl hi), ho⟩
      · have old : ∀ k o, s.vars.getD k none = some o → o.ptr = .heap id → id ∈ s.live := by
          intro k o hk hp
          rcases h.owns k o hk with ⟨id', h1, h2, -⟩ | ⟨h1, -⟩ | ⟨h1, -⟩
          · rw [h2] at hp; cases hp; exact h1
          · rw [h1] at hp; cases hp
          · rw [h1] at hp; cases hp
        rcases getD_append_one.1 hi with hi | ⟨hi, hx⟩ <;> rcases getD_append_one.1 hj with hj | ⟨hj, hx'⟩
        · exact h.unique i j o o' id hi hj ho ho'
        · cases hx'
          cases ho'
          exact absurd (h.fresh _ (old i o hi ho)) (by omega)
        · cases hx
          cases ho
          exact absurd (h.fresh _ (old j o' hj ho')) (by omega)
        · rw [hi, hj]
      · have : ∃ o', s.vars.getD j none = some o' := by
          rcases getD_append_one.1 hi with hi | ⟨-, hx⟩
          · exact h.refs i o j hi hr
          · cases hx; exact hc.2 j hr
        obtain ⟨o', ho'⟩ := this
        exact ⟨o', getD_append_one.2 (Or.inl ho')⟩
    | empty =>
      exact ⟨_, rfl, h.push _ fun o ho => by cases ho; exact ⟨Or.inl ⟨rfl, rfl⟩, hc.2⟩⟩
    | failedNull =>
      refine ⟨{ s with vars := s.vars ++ [none] }, ?_, h.push _ fun o ho => by cases ho⟩
      simp only [Ckzg.exec, dropObj, free]
      split <;> rfl
    | failedKept =>
      have hk : k ≠ .poly := fun e => hc.1 e rfl
      refine ⟨{ s with vars := s.vars ++ [none] }, ?_, h.push _ fun o ho => by cases ho⟩
      simp [Ckzg.exec, dropObj, Obj.default, Obj.frees, hk]
  | default k =>
    refine ⟨_, rfl, h.push _ fun o ho => ?_⟩
    cases ho
    refine ⟨?_, fun j hj => by cases hj⟩
    have hk : k ≠ .poly := hc
    by_cases hm : k = .multi
    · left; simp [Obj.default, hm]
    · right; simp [Obj.default, Obj.frees, hm, hk]
  | clone i =>
    simp only [Ckzg.exec]
    cases hi : s.vars.getD i none with
    | none => exact ⟨s, rfl, h⟩
    | some o =>
      refine ⟨_, rfl, h.push _ fun o' ho => ?_⟩
      cases ho
      refine ⟨?_, fun j hj => h.refs i o j hi hj⟩
      rcases h.owns i o hi with ⟨id, -, h2, -⟩ | h1
      · exact absurd h2 (hc o id hi)
      · exact h1
  | drop i =>
    simp only [Ckzg.exec]
    cases hi : s.vars.getD i none with
    | none => exact ⟨s, rfl, h⟩
    | some o =>
      have refs : ∀ k o' j, (s.vars.set i none).getD k none = some o' → o'.ref = some j →
          ∃ o'', (s.vars.set i none).getD j none = some o'' := by
        intro k o' j hk hr
        obtain ⟨hk', hne⟩ := getD_set_none.1 hk
        obtain ⟨o'', ho''⟩ := h.refs k o' j hk' hr
        refine ⟨o'', getD_set_none.2 ⟨ho'', ?_⟩⟩
        rintro rfl
        exact hne (hc k o' hk' hr)
      rcases h.owns i o hi with ⟨id, h1, h2, h3⟩ | h1
      · refine ⟨⟨s.live.erase id, s.next, s.vars.set i none⟩, by simp [dropObj, h3, h2, free, h1], h.nodup.erase _,
          fun id' hid => h.fresh _ (List.mem_of_mem_erase hid), fun k o' hk => ?_, fun id' hid => ?_,
          fun k j o1 o2 id' hk hj ho ho' => ?_, refs⟩
        · obtain ⟨hk', hne⟩ := getD_set_none.1 hk
          rcases h.owns k o' hk' with ⟨id', g1, g2, g3⟩ | g
          · refine Or.inl ⟨id', (List.mem_erase_of_ne ?_).2 g1, g2, g3⟩
            rintro rfl
            exact hne (h.unique k i o' o id' hk' hi g2 h2)
          · exact Or.inr g
        · obtain ⟨k, o', hk, ho⟩ := h.owned id' (List.mem_of_mem_erase hid)
          refine ⟨k, o', getD_set_none.2 ⟨hk, ?_⟩, ho⟩
          rintro rfl
          rw [hi] at hk
          cases hk
          rw [h2] at ho
          cases ho
          exact absurd hid (h.nodup.not_mem_erase)
        · exact h.unique k j o1 o2 id' (getD_set_none.1 hk).1 (getD_set_none.1 hj).1 ho ho'
      · refine ⟨⟨s.live, s.next, s.vars.set i none⟩, ?_, h.nodup, h.fresh, fun k o' hk => ?_, fun id' hid => ?_,
          fun k j o1 o2 id' hk hj ho ho' => ?_, refs⟩
        · rcases h1 with ⟨h1, -⟩ | ⟨-, h1⟩
          · simp only [dropObj, h1, free]
            split <;> rfl
          · simp [dropObj, h1]
        · exact h.owns k o' (getD_set_none.1 hk).1
        · obtain ⟨k, o', hk, ho⟩ := h.owned id' hid
          refine ⟨k, o', getD_set_none.2 ⟨hk, ?_⟩, ho⟩
          rintro rfl
          rw [hi] at hk
          cases hk
          rcases h1 with ⟨h1, -⟩ | ⟨h1, -⟩ <;> rw [h1] at ho <;> cases ho
        · exact h.unique k j o1 o2 id' (getD_set_none.1 hk).1 (getD_set_none.1 hj).1 ho ho'
  | use i =>
    refine ⟨s, ?_, h⟩
    have rd : ∀ k o, s.vars.getD k none = some o → readable s o = true := by
      intro k o hk
      rcases h.owns k o hk with ⟨id, g1, g2, -⟩ | ⟨g1, g2⟩ | ⟨g1, g2⟩
      · simp [readable, g2, g1]
      · simp [readable, g1, g2]
      · have : o.sized = false := by
          rw [Obj.frees, Bool.or_eq_false_iff] at g2; exact g2.2
        simp [readable, g1, this]
    simp only [Ckzg.exec]
    cases hi : s.vars.getD i none with
    | none => rfl
    | some o =>
      simp only [rd i o hi, if_true]
      cases hr : o.ref with
      | none => rfl
      | some j =>
        obtain ⟨o', ho'⟩ := h.refs i o j hi hr
        simp only [ho', rd j o' ho', if_true]

/-- C137: a careful program has no undefined behaviour: nothing is freed twice, nothing is read after it was freed,
and every allocation that is left belongs to exactly one variable. -/
theorem C137_careful_partial {s : State} (h : Owned s) (cs : List Cmd) (hc : CarefulRun s cs) :
    ∃ s', run s cs = some s' ∧ Owned s' := by
  induction cs generalizing s with
  | nil => exact ⟨s, rfl, h⟩
  | cons c cs ih =>
    obtain ⟨s', hs', h'⟩ := h.exec hc.1
    obtain ⟨s'', hs'', h''⟩ := ih h' (hc.2 s' hs')
    exact ⟨s'', by rw [run, hs', Option.bind_some, hs''], h''⟩

/-- C137: nothing leaks: when no variable has a value any more, no allocation is left. -/
theorem C137_no_leak {s : State} (h : Owned s) (he : ∀ i, s.vars.getD i none = none) : s.live = [] := by
  refine List.eq_nil_iff_forall_not_mem.2 fun id hid => ?_
  obtain ⟨i, o, hi, -⟩ := h.owned id hid
  rw [he i] at hi
  cases hi

/-- The empty state, in which programs start. -/
theorem C137_start : Owned ⟨[], 0, []⟩ :=
  ⟨List.nodup_nil, by simp, by simp, by simp, by simp, by simp⟩

theorem getD_len (l : List (Option Obj)) (x : Option Obj) : (l ++ [x]).getD l.length none = x := by
  simp [List.getD_eq_getElem?_getD]

/-- C137 (refuted part): in every state, cloning a value of any kind and letting both end frees its memory twice. -/
theorem C137_clone_double_free (s : State) (k : Kind) (hs : s.next ∉ s.live) :
    run s [.new k none .made, .clone s.vars.length, .drop s.vars.length, .drop (s.vars.length + 1)] = none := by
  simp only [run, exec, Option.bind_some, getD_len]
  have hf : ∀ ref, Obj.frees ⟨k, .heap s.next, true, ref⟩ = true := by intro ref; simp [Obj.frees]
  have e : ((s.vars ++ [some (⟨k, .heap s.next, true, none⟩ : Obj)] ++ [some (⟨k, .heap s.next, true, none⟩ : Obj)])).getD s.vars.length none
      = some (⟨k, .heap s.next, true, none⟩ : Obj) := by
    simp [List.getD_eq_getElem?_getD]
  rw [e]
  simp only [dropObj, hf, if_true, free, List.mem_cons, true_or, Option.map_some, Option.bind_some, List.erase_cons_head]
  have e2 : (((s.vars ++ [some (⟨k, .heap s.next, true, none⟩ : Obj)] ++
      [some (⟨k, .heap s.next, true, none⟩ : Obj)]).set s.vars.length none)).getD (s.vars.length + 1) none
      = some (⟨k, .heap s.next, true, none⟩ : Obj) := by
    rw [List.getD_eq_getElem?_getD, List.getElem?_set_ne (by omega)]
    simp
  rw [e2]
  simp [hf, hs]

/-- C137 (refuted part): using the original after its clone has ended reads freed memory. -/
theorem C137_clone_use (s : State) (k : Kind) (hs : s.next ∉ s.live) :
    run s [.new k none .made, .clone s.vars.length, .drop (s.vars.length + 1), .use s.vars.length] = none := by
  simp only [run, exec, Option.bind_some, getD_len]
  have hf : ∀ ref, Obj.frees ⟨k, .heap s.next, true, ref⟩ = true := by intro ref; simp [Obj.frees]
  have e : ((s.vars ++ [some (⟨k, .heap s.next, true, none⟩ : Obj)] ++
      [some (⟨k, .heap s.next, true, none⟩ : Obj)])).getD (s.vars.length + 1) none = some (⟨k, .heap s.next, true, none⟩ : Obj) := by
    simp [List.getD_eq_getElem?_getD]
  rw [e]
  simp only [dropObj, hf, if_true, free, List.mem_cons, true_or, Option.map_some, Option.bind_some, List.erase_cons_head]
  have e2 : (((s.vars ++ [some (⟨k, .heap s.next, true, none⟩ : Obj)] ++
      [some (⟨k, .heap s.next, true, none⟩ : Obj)]).set (s.vars.length + 1) none)).getD s.vars.length none
      = some (⟨k, .heap s.next, true, none⟩ : Obj) := by
    rw [List.getD_eq_getElem?_getD, List.getElem?_set_ne (by omega)]
    simp
  rw [e2]
  simp [readable, hs]

/-- C137 (refuted part): a default polynomial frees a dangling pointer when it ends; so does a call that returns a
polynomial (`new`, `div`) when the library fails without writing to it. -/
theorem C137_default_poly (s : State) :
    run s [.default .poly, .drop s.vars.length] = none ∧ ∀ ref, run s [.new .poly ref .failedKept] = none := by
  constructor
  · simp only [run, exec, Option.bind_some, getD_len]
    simp [dropObj, Obj.default, Obj.frees, free]
  · intro ref
    simp [run, exec, dropObj, Obj.default, Obj.frees, free]

/-- C137 (refuted part): settings keep a raw pointer to those they were made from; nothing keeps these alive. -/
theorem C137_settings_outlive (k k' : Kind) :
    run ⟨[], 0, []⟩ [.new k none .made, .new k' (some 0) .made, .drop 0, .use 1] = none := by
  cases k <;> cases k' <;> rfl

/-- A careful program: transforms made, polynomials made and used, the settings dropped last. -/
def carefulDemo : List Cmd :=
  [.new .fft none .made, .new .kzg (some 0) .made, .new .poly none .made, .use 1, .use 2, .new .fft none .failedKept,
    .drop 2, .drop 1, .drop 0]

/-- It runs and leaves nothing behind. -/
example : (run ⟨[], 0, []⟩ carefulDemo).map State.live = some [] := by decide

end Kzg.Props
