import Verif.Props.ZkRecover
import Verif.Props.ArkRecover

/-! C69 and C123: the shared tables of powers do work when at most one call at a time makes them longer, whatever else the other calls do
meanwhile. A single call, alone, always ends, on every reachable table. -/

namespace Kzg.Props
open Kzg ZkP Res

section
variable {F : Type} [Field F] [DecidableEq F]

/-- The thread is between finding the table too short and having made it long enough. -/
def Growing (t : Thread F) : Prop :=
  match t.pc with
  | .start => False
  | .mul _ => False
  | .done => False
  | _ => True

/-- In the run of this schedule no thread starts while another one is making the table longer (as a lock around the first loop would ensure). -/
def OneGrows (f : F) (schedule : List Nat) (table : List F) (ts : List (Thread F)) : Prop :=
  ∀ (pre : List Nat) (i : Nat) (post : List Nat) (table' : List F) (ts' : List (Thread F)), schedule = pre ++ i :: post →
    runThreads f pre table ts = .ok (table', ts') → (∃ t, ts'[i]? = some t ∧ t.pc = .start) → ∀ t ∈ ts', ¬ Growing t

/-- What a thread that started on the polynomial `p0` has done, on a table of `k` powers. -/
def GrowInv (f : F) (k : Nat) (p0 : List F) (t : Thread F) : Prop :=
  t.p.length = p0.length ∧
    match t.pc with
    | .start => t.p = p0
    | .checkEmpty => t.p = p0 ∧ k < p0.length
    | .pushOne => t.p = p0 ∧ k = 0 ∧ 0 < p0.length
    | .range => t.p = p0 ∧ 1 ≤ k ∧ k ≤ p0.length
    | .readPrev i => t.p = p0 ∧ i = k ∧ 1 ≤ i ∧ i < p0.length
    | .push i x => t.p = p0 ∧ i = k ∧ 1 ≤ i ∧ i < p0.length ∧ x = f ^ i
    | .mul i => p0.length ≤ k ∧ i < p0.length ∧ 1 ≤ i ∧ (∀ j < i, t.p[j]? = (scaled f p0)[j]?) ∧ ∀ j, i ≤ j → t.p[j]? = p0[j]?
    | .done => p0.length ≤ k ∧ t.p = scaled f p0

omit [DecidableEq F] in
theorem powers_snoc (f : F) (k : Nat) : powers f k ++ [f ^ k] = powers f (k + 1) := by
  simp [powers, List.range_succ]

theorem growInv_second {f : F} {k : Nat} {p : List F} (hk : p.length ≤ k) :
    GrowInv f k p ⟨if 1 < p.length then .mul 1 else .done, p⟩ := by
  by_cases h1 : 1 < p.length
  · rw [if_pos h1]
    refine ⟨rfl, hk, h1, le_rfl, fun j hj => ?_, fun _ _ => rfl⟩
    have : j = 0 := by omega
    subst this
    rw [scaled_getElem?]; simp
  · rw [if_neg h1]
    exact ⟨rfl, hk, (scaled_short f p (by omega)).symm⟩

theorem growInv_from {f : F} {k : Nat} {p : List F} (hk : k ≤ p.length) (h1 : 1 ≤ k) : GrowInv f k p ⟨growFrom p.length k, p⟩ := by
  unfold growFrom
  by_cases h : k < p.length
  · rw [if_pos h]; exact ⟨rfl, rfl, rfl, h1, h⟩
  · rw [if_neg h]; exact growInv_second (by omega)

omit [Field F] [DecidableEq F] in
theorem growing_second (p : List F) : ¬ Growing (⟨if 1 < p.length then .mul 1 else .done, p⟩ : Thread F) := by
  split <;> exact id

omit [DecidableEq F] in
theorem growInv_mono {f : F} {k k' : Nat} {p0 : List F} {t : Thread F} (h : GrowInv f k p0 t) (hg : ¬ Growing t) (hk : k ≤ k') :
    GrowInv f k' p0 t := by
  obtain ⟨pc, p⟩ := t
  cases pc with
  | start => exact h
  | mul i => exact ⟨h.1, h.2.1.trans hk, h.2.2⟩
  | done => exact ⟨h.1, h.2.1.trans hk, h.2.2⟩
  | checkEmpty => exact absurd trivial hg
  | pushOne => exact absurd trivial hg
  | range => exact absurd trivial hg
  | readPrev i => exact absurd trivial hg
  | push i x => exact absurd trivial hg

/-- One step keeps the invariant, and only a growing thread changes the table. -/
theorem growStep (f : F) (k : Nat) (p0 : List F) (t : Thread F) (ht : GrowInv f k p0 t) :
    ∃ k' t', threadStep f (powers f k) t = .ok (powers f k', t') ∧ k ≤ k' ∧ (k' = k ∨ (k' ≤ p0.length ∧ Growing t)) ∧
      GrowInv f k' p0 t' ∧ (Growing t' → Growing t ∨ t.pc = .start) := by
  obtain ⟨pc, p⟩ := t
  obtain ⟨hl, ht⟩ := ht
  simp only at hl ht
  cases pc with
  | start =>
    simp only at ht
    subst ht
    simp only [threadStep, powers_length]
    by_cases h : k < p.length
    · rw [if_pos h]
      exact ⟨k, _, rfl, le_rfl, .inl rfl, ⟨rfl, rfl, h⟩, fun _ => .inr trivial⟩
    · rw [if_neg h]
      exact ⟨k, _, rfl, le_rfl, .inl rfl, growInv_second (by omega), fun h => absurd h (growing_second p)⟩
  | checkEmpty =>
    obtain ⟨rfl, h⟩ := ht
    simp only [threadStep]
    refine ⟨k, _, rfl, le_rfl, .inl rfl, ?_, fun _ => .inl trivial⟩
    rcases Nat.eq_zero_or_pos k with rfl | hk
    · rw [if_pos (by simp [powers])]
      exact ⟨rfl, rfl, rfl, h⟩
    · rw [if_neg (by simp [powers]; omega)]
      exact ⟨rfl, rfl, hk, by omega⟩
  | pushOne =>
    obtain ⟨rfl, rfl, h⟩ := ht
    simp only [threadStep]
    refine ⟨1, ⟨.range, p⟩, by rw [← powers_snoc, pow_zero], by omega, .inr ⟨h, trivial⟩, ⟨rfl, rfl, le_rfl, h⟩, fun _ => .inl trivial⟩
  | range =>
    obtain ⟨rfl, h1, h2⟩ := ht
    simp only [threadStep, powers_length]
    exact ⟨k, _, rfl, le_rfl, .inl rfl, growInv_from h2 h1, fun _ => .inl trivial⟩
  | readPrev i =>
    obtain ⟨rfl, rfl, h1, h2⟩ := ht
    simp only [threadStep]
    rw [subU_of_le h1, bind_ok, rd_of_getElem? (powers_getElem? f (by omega)), bind_ok]
    refine ⟨i, _, rfl, le_rfl, .inl rfl, ⟨rfl, rfl, rfl, h1, h2, ?_⟩, fun _ => .inl trivial⟩
    rw [← pow_succ, Nat.sub_add_cancel h1]
  | push i x =>
    obtain ⟨rfl, rfl, h1, h2, rfl⟩ := ht
    simp only [threadStep, powers_snoc]
    exact ⟨i + 1, _, rfl, by omega, .inr ⟨h2, trivial⟩, growInv_from h2 (by omega), fun _ => .inl trivial⟩
  | mul i =>
    obtain ⟨hk, hi, hi1, hs1, hs2⟩ := ht
    obtain ⟨t', e, h⟩ := threadStep_inv f k p0 ⟨.mul i, p⟩ hk ⟨hl, hi, hi1, hs1, hs2⟩
    refine ⟨k, t', e, le_rfl, .inl rfl, ?_⟩
    obtain ⟨pc', p'⟩ := t'
    cases pc' with
    | start =>
      simp only [threadStep] at e
      rw [rd_of_getElem? (x := p0.getD i 0) (by rw [hs2 i le_rfl, getElem?_eq_some_getD 0 hi]), bind_ok,
        rd_of_getElem? (powers_getElem? f (by omega)), bind_ok, wr_of_lt (by omega), bind_ok] at e
      exfalso
      split at e <;> simp at e
    | mul j => exact ⟨⟨h.1, hk, h.2⟩, fun hg => hg.elim⟩
    | done => exact ⟨⟨h.1, hk, h.2⟩, fun hg => hg.elim⟩
    | checkEmpty => exact h.2.elim
    | pushOne => exact h.2.elim
    | range => exact h.2.elim
    | readPrev i => exact h.2.elim
    | push i x => exact h.2.elim
  | done => exact ⟨k, _, rfl, le_rfl, .inl rfl, ⟨hl, ht⟩, fun hg => hg.elim⟩

/-- At most one thread is growing. -/
def AtMostOne (ts : List (Thread F)) : Prop :=
  ∀ (a b : Nat) (ta tb : Thread F), ts[a]? = some ta → ts[b]? = some tb → Growing ta → Growing tb → a = b

theorem growRun (f : F) (ps : List (List F)) :
    ∀ (schedule : List Nat) (k : Nat) (ts : List (Thread F)), ts.length = ps.length →
      (∀ (i : Nat) (t : Thread F) (p : List F), ts[i]? = some t → ps[i]? = some p → GrowInv f k p t) → AtMostOne ts →
      (∀ i ∈ schedule, i < ps.length) → OneGrows f schedule (powers f k) ts →
      ∃ k' ts', runThreads f schedule (powers f k) ts = .ok (powers f k', ts') ∧ ts'.length = ps.length ∧ k ≤ k' ∧
        (k' = k ∨ ∃ p ∈ ps, k' ≤ p.length) ∧
        ∀ (i : Nat) (t : Thread F) (p : List F), ts'[i]? = some t → ps[i]? = some p → GrowInv f k' p t
  | [], k, ts, hl, h, _, _, _ => ⟨k, ts, rfl, hl, le_rfl, .inl rfl, h⟩
  | i :: is, k, ts, hl, h, hone, hs, hg => by
    have hi : i < ps.length := hs i (by simp)
    have hti : ts[i]? = some (ts[i]'(by omega)) := List.getElem?_eq_getElem (by omega)
    have hpi : ps[i]? = some ps[i] := List.getElem?_eq_getElem hi
    obtain ⟨k1, t1, e1, hk1, hk1', hinv, hgrow⟩ := growStep f k ps[i] _ (h i _ _ hti hpi)
    have hstep : ∀ rest, runThreads f (i :: rest) (powers f k) ts = runThreads f rest (powers f k1) (ts.set i t1) := by
      intro rest
      conv_lhs => unfold runThreads
      rw [rd_of_getElem? hti, bind_ok, e1, bind_ok]
      simp only
      rw [wr_of_lt (by omega), bind_ok]
    have hset : ∀ j, (ts.set i t1)[j]? = if j = i then some t1 else ts[j]? := fun j => getElem?_set_of_lt (by omega)
    -- the other threads are not growing if this one is or starts
    have hother : ∀ j t, j ≠ i → ts[j]? = some t → (k1 ≠ k ∨ Growing t1) → ¬ Growing t := by
      intro j t hj ht hc hgt
      have hgi : Growing (ts[i]'(by omega)) ∨ (ts[i]'(by omega)).pc = .start := by
        rcases hc with hc | hc
        · rcases hk1' with e | e
          · exact absurd e hc
          · exact .inl e.2
        · exact hgrow hc
      rcases hgi with hgi | hgi
      · exact hj (hone _ _ _ _ ht hti hgt hgi)
      · exact hg [] i is _ _ rfl rfl ⟨_, hti, hgi⟩ t (List.mem_of_getElem? ht) hgt
    have hinv1 : ∀ (j : Nat) (t : Thread F) (p : List F), (ts.set i t1)[j]? = some t → ps[j]? = some p → GrowInv f k1 p t := by
      intro j t p ht hp
      rw [hset] at ht
      by_cases hj : j = i
      · subst hj
        rw [if_pos rfl] at ht
        cases ht
        rw [hpi] at hp
        cases hp
        exact hinv
      · rw [if_neg hj] at ht
        by_cases hkk : k1 = k
        · rw [hkk]; exact h j t p ht hp
        · exact growInv_mono (h j t p ht hp) (hother j t hj ht (.inl hkk)) hk1
    have hone1 : AtMostOne (ts.set i t1) := by
      intro a b ta tb ha hb hga hgb
      rw [hset] at ha hb
      by_cases hai : a = i <;> by_cases hbi : b = i
      · rw [hai, hbi]
      · rw [if_pos hai] at ha
        rw [if_neg hbi] at hb
        cases ha
        exact absurd hgb (hother b tb hbi hb (.inr hga))
      · rw [if_neg hai] at ha
        rw [if_pos hbi] at hb
        cases hb
        exact absurd hga (hother a ta hai ha (.inr hgb))
      · rw [if_neg hai] at ha
        rw [if_neg hbi] at hb
        exact hone a b ta tb ha hb hga hgb
    have hg1 : OneGrows f is (powers f k1) (ts.set i t1) := by
      intro pre j post table' ts' hsplit hrun
      exact hg (i :: pre) j post table' ts' (by rw [hsplit]; rfl) (by rw [hstep]; exact hrun)
    obtain ⟨k2, ts2, e2, hl2, hk2, hk2', hinv2⟩ :=
      growRun f ps is k1 (ts.set i t1) (by simp [hl]) hinv1 hone1 (fun j hj => hs j (by simp [hj])) hg1
    refine ⟨k2, ts2, by rw [hstep]; exact e2, hl2, hk1.trans hk2, ?_, hinv2⟩
    rcases hk2' with rfl | hk2'
    · rcases hk1' with rfl | hk1'
      · exact .inl rfl
      · exact .inr ⟨_, List.getElem_mem hi, hk1'.1⟩
    · exact .inr hk2'

/-- Any number of threads from any table of powers, one making it longer at a time: no panic, the table is again one of powers, and every
thread that has finished has scaled its polynomial and finds the table long enough. -/
def GuardedRight (f : F) : Prop :=
  ∀ (k : Nat) (ps : List (List F)) (schedule : List Nat), (∀ i ∈ schedule, i < ps.length) →
    OneGrows f schedule ((List.range k).map (f ^ ·)) (ps.map fun p => ⟨.start, p⟩) →
    ∃ k' ts, runThreads f schedule ((List.range k).map (f ^ ·)) (ps.map fun p => ⟨.start, p⟩) =
        .ok ((List.range k').map (f ^ ·), ts) ∧ ts.length = ps.length ∧ k ≤ k' ∧ (k' = k ∨ ∃ p ∈ ps, k' ≤ p.length) ∧
      ∀ (i : Nat) (t : Thread F) (p : List F), ts[i]? = some t → ps[i]? = some p → t.pc = .done →
        p.length ≤ k' ∧ t.p = (List.range p.length).map fun i => p.getD i 0 * f ^ i

theorem guardedRight (f : F) : GuardedRight f := by
  intro k ps schedule hs hg
  obtain ⟨k', ts, e, hl, hk, hk', h⟩ := growRun f ps schedule k (ps.map fun p => ⟨.start, p⟩) (by simp)
    (by
      intro i t p ht hp
      rw [List.getElem?_map, hp] at ht
      cases ht
      exact ⟨rfl, rfl⟩)
    (by
      intro a b ta tb ha _ hga _
      rw [List.getElem?_map] at ha
      obtain ⟨p, _, rfl⟩ := Option.map_eq_some_iff.1 ha
      exact hga.elim) hs hg
  refine ⟨k', ts, e, hl, hk, hk', fun i t p ht hp hd => ?_⟩
  have := (h i t p ht hp).2
  rw [hd] at this
  exact this

/-- The steps a thread has left at most. -/
def stepsLeft (t : Thread F) : Nat :=
  match t.pc with
  | .start => 3 * t.p.length + 6
  | .checkEmpty => 3 * t.p.length + 5
  | .pushOne => 3 * t.p.length + 4
  | .range => 3 * t.p.length + 3
  | .readPrev i => 2 * (t.p.length - i) + t.p.length + 2
  | .push i _ => 2 * (t.p.length - i) + t.p.length + 1
  | .mul i => t.p.length - i + 1
  | .done => 0

theorem stepsLeft_step (f : F) (k : Nat) (p0 : List F) (t : Thread F) (ht : GrowInv f k p0 t) {table : List F} {t' : Thread F}
    (e : threadStep f (powers f k) t = .ok (table, t')) : stepsLeft t' ≤ stepsLeft t - 1 := by
  obtain ⟨pc, p⟩ := t
  obtain ⟨hl, ht⟩ := ht
  simp only at hl ht
  cases pc with
  | start =>
    simp only [threadStep, Res.ok.injEq, Prod.mk.injEq] at e
    obtain ⟨-, rfl⟩ := e
    split
    · simp only [stepsLeft]; omega
    · split <;> simp only [stepsLeft] <;> omega
  | checkEmpty =>
    simp only [threadStep, Res.ok.injEq, Prod.mk.injEq] at e
    obtain ⟨-, rfl⟩ := e
    split <;> simp only [stepsLeft] <;> omega
  | pushOne =>
    simp only [threadStep, Res.ok.injEq, Prod.mk.injEq] at e
    obtain ⟨-, rfl⟩ := e
    simp only [stepsLeft]; omega
  | range =>
    obtain ⟨rfl, h1, h2⟩ := ht
    simp only [threadStep, Res.ok.injEq, Prod.mk.injEq, growFrom, powers_length] at e
    obtain ⟨-, rfl⟩ := e
    split
    · simp only [stepsLeft]; omega
    · split <;> simp only [stepsLeft] <;> omega
  | readPrev i =>
    obtain ⟨rfl, rfl, h1, h2⟩ := ht
    simp only [threadStep] at e
    rw [subU_of_le h1, bind_ok, rd_of_getElem? (powers_getElem? f (by omega)), bind_ok] at e
    simp only [Res.ok.injEq, Prod.mk.injEq] at e
    obtain ⟨-, rfl⟩ := e
    simp only [stepsLeft]; omega
  | push i x =>
    obtain ⟨rfl, rfl, h1, h2, rfl⟩ := ht
    simp only [threadStep, Res.ok.injEq, Prod.mk.injEq, growFrom] at e
    obtain ⟨-, rfl⟩ := e
    split
    · simp only [stepsLeft]; omega
    · split <;> simp only [stepsLeft] <;> omega
  | mul i =>
    obtain ⟨hk, hi, hi1, hs1, hs2⟩ := ht
    simp only [threadStep] at e
    rw [rd_of_getElem? (x := p0.getD i 0) (by rw [hs2 i le_rfl, getElem?_eq_some_getD 0 hi]), bind_ok,
      rd_of_getElem? (powers_getElem? f (by omega)), bind_ok, wr_of_lt (by omega), bind_ok] at e
    simp only [Res.ok.injEq, Prod.mk.injEq] at e
    obtain ⟨-, rfl⟩ := e
    split <;> simp only [stepsLeft, List.length_set] <;> omega
  | done =>
    simp only [threadStep, Res.ok.injEq, Prod.mk.injEq] at e
    obtain ⟨-, rfl⟩ := e
    simp [stepsLeft]

theorem aloneRun (f : F) (p0 : List F) : ∀ (s k : Nat) (t : Thread F), GrowInv f k p0 t → stepsLeft t ≤ s → k ≤ max k p0.length →
    ∃ k' t', runThreads f (List.replicate s 0) (powers f k) [t] = .ok (powers f k', [t']) ∧ GrowInv f k' p0 t' ∧ k ≤ k' ∧
      k' ≤ max k p0.length ∧ stepsLeft t' = 0
  | 0, k, t, h, hs, _ => ⟨k, t, rfl, h, le_rfl, le_max_left _ _, by omega⟩
  | s + 1, k, t, h, hs, _ => by
    obtain ⟨k1, t1, e1, hk1, hk1', hinv, -⟩ := growStep f k p0 t h
    have hd := stepsLeft_step f k p0 t h e1
    obtain ⟨k2, t2, e2, hinv2, hk2, hk2', hz⟩ := aloneRun f p0 s k1 t1 hinv (by omega) (le_max_left _ _)
    refine ⟨k2, t2, ?_, hinv2, hk1.trans hk2, ?_, hz⟩
    · rw [List.replicate_succ]
      unfold runThreads
      rw [rd_of_getElem? (x := t) rfl, bind_ok, e1, bind_ok]
      simp only
      rw [wr_of_lt (by simp), bind_ok]
      exact e2
    · rcases hk1' with rfl | hk1'
      · exact hk2'
      · have := hk1'.1
        rw [max_eq_right this] at hk2'
        exact hk2'.trans (le_max_right _ _)

/-- A single call, alone, from any table of powers, the empty one included: after at most `3 * n + 6` steps it has ended, its polynomial of `n`
coefficients is scaled, and the table has at least `n` powers. -/
def AloneRight (f : F) : Prop :=
  ∀ (k : Nat) (p : List F) (s : Nat), 3 * p.length + 6 ≤ s →
    runThreads f (List.replicate s 0) ((List.range k).map (f ^ ·)) [⟨.start, p⟩] =
      .ok ((List.range (max k p.length)).map (f ^ ·), [⟨.done, (List.range p.length).map fun i => p.getD i 0 * f ^ i⟩])

theorem aloneRight (f : F) : AloneRight f := by
  intro k p s hs
  obtain ⟨k', ⟨pc, q⟩, e, h, h1, h2, hz⟩ := aloneRun f p s k ⟨.start, p⟩ ⟨rfl, rfl⟩ hs (le_max_left _ _)
  cases pc with
  | done =>
    obtain ⟨-, h3, h4⟩ := h
    simp only at h4
    subst h4
    have : k' = max k p.length := le_antisymm h2 (max_le h1 h3)
    subst this
    exact e
  | start => simp [stepsLeft] at hz
  | checkEmpty => simp [stepsLeft] at hz
  | pushOne => simp [stepsLeft] at hz
  | range => simp [stepsLeft] at hz
  | readPrev i => simp [stepsLeft] at hz
  | push i x => simp [stepsLeft] at hz
  | mul i => simp [stepsLeft] at hz

end

/-- C69 (zkcrypto): with one thread making the table longer at a time everything is right. -/
theorem C69_guarded (factor : Zk.ScW) : GuardedRight factor := guardedRight factor

/-- C69 (zkcrypto): alone. -/
theorem C69_alone (factor : Zk.ScW) : AloneRight factor := aloneRight factor

/-- C69: the condition is needed: the run of `C69_race` breaks it, from the empty table. -/
theorem C69_guard_needed : ∃ schedule : List Nat, (∀ i ∈ schedule, i < 2) ∧
    ¬ OneGrows (5 : Zk.ScW) schedule [] [⟨.start, [0, 1]⟩, ⟨.start, [0, 1]⟩] := by
  refine ⟨[0, 1, 0, 1, 0, 1, 0, 0, 1, 1], by decide, fun hg => ?_⟩
  obtain ⟨k', ts, e, -, -, -, h⟩ := C69_guarded 5 0 [[0, 1], [0, 1]] _ (by decide) hg
  have e' := ZkP.race (5 : Zk.ScW) 0 1 0 1
  have := (Res.ok.inj (e.symm.trans e')).symm
  simp only [Prod.mk.injEq] at this
  obtain ⟨-, h2⟩ := this
  have := (h 0 ⟨.done, [0, 1]⟩ [0, 1] (by rw [← h2]; rfl) rfl rfl).2
  simp [List.range_succ] at this
  exact five_ne_one this.symm

/-- C123 (Arkworks): with one thread making the table longer at a time everything is right. -/
theorem C123_guarded (factor : Fr) : GuardedRight factor := guardedRight factor

/-- C123 (Arkworks): alone. -/
theorem C123_alone (factor : Fr) : AloneRight factor := aloneRight factor

/-- C123: the condition is needed: the run of `C123_race` breaks it, from the empty table. -/
theorem C123_guard_needed : ∃ schedule : List Nat, (∀ i ∈ schedule, i < 2) ∧
    ¬ OneGrows (5 : Fr) schedule [] [⟨.start, [0, 1]⟩, ⟨.start, [0, 1]⟩] := by
  refine ⟨[0, 1, 0, 1, 0, 1, 0, 0, 1, 1], by decide, fun hg => ?_⟩
  obtain ⟨k', ts, e, -, -, -, h⟩ := C123_guarded 5 0 [[0, 1], [0, 1]] _ (by decide) hg
  have e' := ZkP.race (5 : Fr) 0 1 0 1
  have := (Res.ok.inj (e.symm.trans e')).symm
  simp only [Prod.mk.injEq] at this
  obtain ⟨-, h2⟩ := this
  have := (h 0 ⟨.done, [0, 1]⟩ [0, 1] (by rw [← h2]; rfl) rfl rfl).2
  simp [List.range_succ] at this
  exact fr_five_ne_one this.symm

/-- Alone, from the empty table: three coefficients and the table are right after fifteen steps. -/
example : runThreads (5 : Fr) (List.replicate 15 0) [] [⟨.start, [1, 1, 2]⟩] = .ok ([1, 5, 25], [⟨.done, [1, 5, 50]⟩]) := by
  refine (C123_alone 5 0 [1, 1, 2] 15 (by simp)).trans ?_
  have h : (List.range 3).map ((5 : Fr) ^ ·) = [1, 5, 25] := by simp only [List.range_succ]; norm_num
  simp only [List.length_cons, List.length_nil, Nat.zero_max, zero_add, Nat.reduceAdd, h]
  simp only [List.range_succ]
  norm_num

theorem oneGrows_cons {F : Type} [Field F] {f : F} {i : Nat} {is : List Nat} {table table1 : List F} {ts ts1 : List (Thread F)}
    (h1 : (∃ t, ts[i]? = some t ∧ t.pc = .start) → ∀ t ∈ ts, ¬ Growing t) (h2 : runThreads f [i] table ts = .ok (table1, ts1))
    (h3 : OneGrows f is table1 ts1) : OneGrows f (i :: is) table ts := by
  intro pre j post table' ts' hs hr ht
  cases pre with
  | nil =>
    obtain ⟨rfl, -⟩ := List.cons.inj hs
    cases hr
    exact h1 ht
  | cons a pre =>
    obtain ⟨rfl, hs'⟩ := List.cons.inj hs
    refine h3 pre j post table' ts' hs' ?_ ht
    rw [← hr]
    unfold runThreads at h2 ⊢
    cases h : rd ts i with
    | ok t =>
      rw [h, bind_ok] at h2
      rw [bind_ok]
      cases h' : threadStep f table t with
      | ok q =>
        obtain ⟨u, t'⟩ := q
        rw [h', bind_ok] at h2
        rw [bind_ok]
        simp only at h2 ⊢
        cases h'' : wr ts i t' with
        | ok w =>
          rw [h'', bind_ok] at h2
          rw [bind_ok]
          cases h2
          cases pre <;> rfl
        | err e => rw [h''] at h2; cases h2
        | panic => rw [h''] at h2; cases h2
      | err e => rw [h'] at h2; cases h2
      | panic => rw [h'] at h2; cases h2
    | err e => rw [h] at h2; cases h2
    | panic => rw [h] at h2; cases h2

/-- Two threads on the empty table, the second starting when the first one has made it long enough, before the first one is done: the
condition holds. -/
example {F : Type} [Field F] (f a b c d : F) :
    OneGrows f [0, 0, 0, 0, 0, 0, 1, 1, 0] [] [⟨.start, [a, b]⟩, ⟨.start, [c, d]⟩] := by
  refine oneGrows_cons (table1 := []) (ts1 := [⟨.checkEmpty, [a, b]⟩, ⟨.start, [c, d]⟩]) (by simp [Growing]) rfl ?_
  refine oneGrows_cons (table1 := []) (ts1 := [⟨.pushOne, [a, b]⟩, ⟨.start, [c, d]⟩]) (by simp) rfl ?_
  refine oneGrows_cons (table1 := [1]) (ts1 := [⟨.range, [a, b]⟩, ⟨.start, [c, d]⟩]) (by simp) rfl ?_
  refine oneGrows_cons (table1 := [1]) (ts1 := [⟨.readPrev 1, [a, b]⟩, ⟨.start, [c, d]⟩]) (by simp) rfl ?_
  refine oneGrows_cons (table1 := [1]) (ts1 := [⟨.push 1 (1 * f), [a, b]⟩, ⟨.start, [c, d]⟩]) (by simp) rfl ?_
  refine oneGrows_cons (table1 := [1, 1 * f]) (ts1 := [⟨.mul 1, [a, b]⟩, ⟨.start, [c, d]⟩]) (by simp) rfl ?_
  refine oneGrows_cons (table1 := [1, 1 * f]) (ts1 := [⟨.mul 1, [a, b]⟩, ⟨.mul 1, [c, d]⟩]) (by simp [Growing]) rfl ?_
  refine oneGrows_cons (table1 := [1, 1 * f]) (ts1 := [⟨.mul 1, [a, b]⟩, ⟨.done, [c, d * (1 * f)]⟩]) (by simp) rfl ?_
  refine oneGrows_cons (table1 := [1, 1 * f]) (ts1 := [⟨.done, [a, b * (1 * f)]⟩, ⟨.done, [c, d * (1 * f)]⟩]) (by simp) rfl ?_
  intro pre i post table ts hs
  cases pre <;> cases hs

end Kzg.Props
