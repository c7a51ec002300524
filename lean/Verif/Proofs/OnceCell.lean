import Verif.Model.OnceCell
import Verif.Proofs.Scale
/-!
# The lazily initialised scale tables: invariant of every execution
-/

namespace Kzg.Once
open Kzg Kzg.Res

variable {F : Type} [Field F]

/-- The sequential meaning of a call. -/
def seqResult (w : Which) (p : List F) (lenP : Nat) : Res (List F) :=
  match w with
  | .scale => scalePoly p lenP
  | .unscale => unscalePoly p lenP

theorem seqResult_eq (w : Which) (p : List F) (lenP : Nat) :
    seqResult w p lenP = (do let t ← powerTable (w.factor F); scaleLoop t p lenP) := by
  cases w <;> rfl

def initBody (f : F) (i : Nat) (temp : List F) : Res (List F) := do
  let k ← subU i 1
  let x ← rd temp k
  .ok (temp ++ [x * f])

def loopBody (factors : List F) (i : Nat) (p : List F) : Res (List F) := do
  let x ← rd p i
  let f ← rd factors i
  wr p i (x * f)

/-- What is known about a call from where it is: what it still has to do gives the sequential result. -/
def CallOk (s : State F) (k : Nat) (c : Call F) : Prop :=
  match c.pc with
  | .enter => True
  | .init i temp => forRange i 65536 temp (initBody (c.which.factor F)) = powerTable (c.which.factor F) ∧
      s.cell c.which = .running k
  | .loop i p factors => forRange i c.lenP p (loopBody factors) = seqResult c.which c.p c.lenP
  | .done r => r = seqResult c.which c.p c.lenP

structure Inv (s : State F) : Prop where
  calls : ∀ k c, s.calls[k]? = some c → CallOk s k c
  full : ∀ w t, s.cell w = .full t → powerTable (w.factor F) = .ok t
  running : ∀ w k, s.cell w = .running k → ∃ c i temp, s.calls[k]? = some c ∧ c.which = w ∧ c.pc = .init i temp

theorem callOk_congr {s s' : State F} {k : Nat} {c : Call F} (h : CallOk s k c)
    (hc : (∃ i temp, c.pc = .init i temp) → s'.cell c.which = s.cell c.which) : CallOk s' k c := by
  unfold CallOk at *
  split
  · trivial
  · rename_i i temp hpc
    rw [hpc] at h
    exact ⟨h.1, (hc ⟨i, temp, hpc⟩).trans h.2⟩
  · rename_i hpc; rw [hpc] at h; exact h
  · rename_i hpc; rw [hpc] at h; exact h

theorem inv_start : Inv (State.start : State F) :=
  ⟨fun k c h => by simp [State.start] at h, fun w t h => by simp [State.start] at h,
    fun w k h => by simp [State.start] at h⟩

theorem inv_call {s : State F} (h : Inv s) (w : Which) (p : List F) (lenP : Nat) : Inv (s.call w p lenP) := by
  refine ⟨fun k c hc => ?_, h.full, fun v k hk => ?_⟩
  · by_cases hk : k < s.calls.length
    · rw [State.call, List.getElem?_append_left hk] at hc
      exact callOk_congr (h.calls k c hc) fun _ => rfl
    · rw [State.call, List.getElem?_append_right (by omega)] at hc
      have : c = ⟨w, p, lenP, .enter⟩ := by
        cases hd : k - s.calls.length with
        | zero => rw [hd] at hc; simpa using hc.symm
        | succ n => rw [hd] at hc; simp at hc
      subst this
      trivial
  · obtain ⟨c, i, temp, hc, h1, h2⟩ := h.running v k hk
    refine ⟨c, i, temp, ?_, h1, h2⟩
    have hlt : k < s.calls.length := by
      by_contra hcon
      rw [List.getElem?_eq_none (by omega)] at hc
      cases hc
    rw [State.call, List.getElem?_append_left hlt, hc]

omit [Field F] in
theorem goto_get {s : State F} {k : Nat} {c : Call F} {pc : Pc F} {j : Nat} {d : Call F}
    (hk : s.calls[k]? = some c) (h : (s.goto k c pc).calls[j]? = some d) :
    (j = k ∧ d = { c with pc := pc }) ∨ (j ≠ k ∧ s.calls[j]? = some d) := by
  have hlt : k < s.calls.length := by
    by_contra hcon
    rw [List.getElem?_eq_none (by omega)] at hk
    cases hk
  rw [State.goto, List.getElem?_set] at h
  by_cases e : k = j
  · rw [if_pos e, if_pos (by omega)] at h
    exact .inl ⟨e.symm, (Option.some.inj h).symm⟩
  · rw [if_neg e] at h
    exact .inr ⟨fun h => e h.symm, h⟩

omit [Field F] in
theorem goto_self {s : State F} {k : Nat} {c : Call F} (pc : Pc F) (hk : s.calls[k]? = some c) :
    (s.goto k c pc).calls[k]? = some { c with pc := pc } := by
  have hlt : k < s.calls.length := by
    by_contra hcon
    rw [List.getElem?_eq_none (by omega)] at hk
    cases hk
  rw [State.goto, List.getElem?_set, if_pos rfl, if_pos hlt]

omit [Field F] in
theorem goto_ne {s : State F} {k j : Nat} {c : Call F} (pc : Pc F) (h : j ≠ k) :
    (s.goto k c pc).calls[j]? = s.calls[j]? := by
  rw [State.goto, List.getElem?_set, if_neg (fun e => h e.symm)]

/-- A step of call `k` that leaves the cells alone. -/
theorem inv_goto {s : State F} (h : Inv s) {k : Nat} {c : Call F} {pc : Pc F} (hk : s.calls[k]? = some c)
    (hok : CallOk s k { c with pc := pc }) (hrun : s.cell c.which = .running k → ∃ i temp, pc = .init i temp) :
    Inv (s.goto k c pc) := by
  refine ⟨fun j d hd => ?_, h.full, fun w j hj => ?_⟩
  · rcases goto_get hk hd with ⟨rfl, rfl⟩ | ⟨_, hd⟩
    · exact callOk_congr hok fun _ => rfl
    · exact callOk_congr (h.calls j d hd) fun _ => rfl
  · obtain ⟨d, i, temp, hd, h1, h2⟩ := h.running w j hj
    by_cases e : j = k
    · subst e
      rw [hk] at hd
      cases hd
      subst h1
      obtain ⟨i', temp', rfl⟩ := hrun hj
      exact ⟨_, i', temp', goto_self _ hk, rfl, rfl⟩
    · exact ⟨d, i, temp, by rw [goto_ne _ e, hd], h1, h2⟩

/-- A step of call `k` that changes its cell, of which no other call is the owner. -/
theorem inv_goto_cell {s : State F} (h : Inv s) {k : Nat} {c : Call F} {pc : Pc F} {x : Cell F}
    (hk : s.calls[k]? = some c) (hok : CallOk (s.setCell c.which x) k { c with pc := pc })
    (hown : ∀ j, s.cell c.which = .running j → j = k)
    (hfull : ∀ t, x = .full t → powerTable (c.which.factor F) = .ok t)
    (hrun : ∀ j, x = .running j → j = k ∧ ∃ i temp, pc = .init i temp) :
    Inv ((s.setCell c.which x).goto k c pc) := by
  have hk' : (s.setCell c.which x).calls[k]? = some c := hk
  refine ⟨fun j d hd => ?_, fun w t hw => ?_, fun w j hj => ?_⟩
  · rcases goto_get hk' hd with ⟨rfl, rfl⟩ | ⟨hne, hd⟩
    · exact callOk_congr hok fun _ => rfl
    · refine callOk_congr (h.calls j d hd) ?_
      rintro ⟨i, temp, hpc⟩
      have hj := h.calls j d hd
      rw [CallOk, hpc] at hj
      show (if d.which = c.which then x else s.cell d.which) = _
      rw [if_neg]
      intro e
      rw [e] at hj
      exact hne (hown j hj.2)
  · change (if w = c.which then x else s.cell w) = _ at hw
    by_cases e : w = c.which
    · rw [if_pos e] at hw
      rw [e]
      exact hfull t hw
    · rw [if_neg e] at hw
      exact h.full w t hw
  · change (if w = c.which then x else s.cell w) = _ at hj
    by_cases e : w = c.which
    · rw [if_pos e] at hj
      obtain ⟨rfl, i, temp, rfl⟩ := hrun j hj
      exact ⟨_, i, temp, goto_self _ hk', e.symm, rfl⟩
    · rw [if_neg e] at hj
      obtain ⟨d, i, temp, hd, h1, h2⟩ := h.running w j hj
      have hne : j ≠ k := by
        rintro rfl
        rw [hk] at hd
        cases hd
        exact e h1.symm
      exact ⟨d, i, temp, by rw [goto_ne _ hne]; exact hd, h1, h2⟩

theorem forRange_stop {σ : Type} {lo hi : Nat} (s : σ) (body : Nat → σ → Res σ) (h : hi ≤ lo) :
    forRange lo hi s body = .ok s := by
  rw [forRange, show hi - lo = 0 by omega]; rfl

theorem loopBody_ne_err (factors p : List F) (i : Nat) (e : String) : loopBody factors i p ≠ .err e := by
  unfold loopBody
  by_cases h1 : i < p.length
  · rw [rd_of_lt h1, bind_ok]
    by_cases h2 : i < factors.length
    · rw [rd_of_lt h2, bind_ok, wr_of_lt h1]; simp
    · rw [rd_of_ge (by omega), bind_panic]; simp
  · rw [rd_of_ge (by omega), bind_panic]; simp

theorem inv_tick {s s' : State F} (h : Inv s) (k : Nat) (ht : s.tick k = some s') : Inv s' := by
  unfold State.tick at ht
  cases hk : s.calls[k]? with
  | none => rw [hk] at ht; cases ht
  | some c =>
    rw [hk] at ht
    have hc := h.calls k c hk
    have run_pc : s.cell c.which = .running k → ∃ i temp, c.pc = .init i temp := by
      intro hr
      obtain ⟨d, i, temp, hd, _, h2⟩ := h.running _ _ hr
      rw [hk] at hd
      cases hd
      exact ⟨i, temp, h2⟩
    cases hpc : c.pc with
    | done r => simp only [hpc] at ht; cases ht
    | enter =>
      simp only [hpc] at ht
      cases hcell : s.cell c.which with
      | running j => simp only [hcell] at ht; cases ht
      | full t =>
        simp only [hcell] at ht
        cases ht
        refine inv_goto h hk ?_ fun hr => by rw [hcell] at hr; cases hr
        simp only [CallOk]
        rw [seqResult_eq, h.full _ _ hcell, bind_ok]
        rfl
      | empty =>
        simp only [hcell] at ht
        cases ht
        refine inv_goto_cell h hk ?_ (fun j hj => by rw [hcell] at hj; cases hj) (fun t e => by cases e)
          fun j e => by cases e; exact ⟨rfl, _, _, rfl⟩
        simp only [CallOk]
        exact ⟨rfl, if_pos rfl⟩
    | init i temp =>
      simp only [hpc] at ht
      simp only [CallOk, hpc] at hc
      by_cases hi : i < 65536
      · rw [if_pos hi] at ht
        rw [forRange_succ _ _ hi, initBody] at hc
        cases hx : (do let j ← subU i 1; rd temp j : Res F) with
        | ok x =>
          simp only [hx] at ht
          cases ht
          refine inv_goto h hk ?_ fun _ => ⟨_, _, rfl⟩
          simp only [CallOk]
          refine ⟨?_, hc.2⟩
          rw [← hc.1]
          cases hj : subU i 1 with
          | ok j =>
            rw [hj, bind_ok] at hx
            rw [bind_ok, hx, bind_ok, bind_ok]
          | err e => rw [hj] at hx; cases hx
          | panic => rw [hj] at hx; cases hx
        | err e =>
          exfalso
          rw [powerTable_spec] at hc
          cases hj : subU i 1 with
          | ok j =>
            rw [hj, bind_ok] at hx
            rw [hj, bind_ok, hx] at hc
            exact absurd hc.1 (by rw [bind_err, bind_err]; simp)
          | err e => rw [hj, bind_err, bind_err] at hc; exact absurd hc.1 (by simp)
          | panic => rw [hj, bind_panic, bind_panic] at hc; exact absurd hc.1 (by simp)
        | panic =>
          exfalso
          rw [powerTable_spec] at hc
          cases hj : subU i 1 with
          | ok j =>
            rw [hj, bind_ok] at hx
            rw [hj, bind_ok, hx] at hc
            exact absurd hc.1 (by rw [bind_panic, bind_panic]; simp)
          | err e => rw [hj, bind_err, bind_err] at hc; exact absurd hc.1 (by simp)
          | panic => rw [hj, bind_panic, bind_panic] at hc; exact absurd hc.1 (by simp)
      · rw [if_neg hi] at ht
        cases ht
        have ht : powerTable (c.which.factor F) = .ok temp := by
          rw [← hc.1, forRange_stop _ _ (by omega)]
        refine inv_goto_cell h hk ?_ (fun j hj => by rw [hc.2] at hj; cases hj; rfl)
          (fun t e => by cases e; exact ht) fun j e => by cases e
        simp only [CallOk]
        rw [seqResult_eq, ht, bind_ok]
        rfl
    | loop i p factors =>
      simp only [hpc] at ht
      simp only [CallOk, hpc] at hc
      have hnr : ∀ {pc : Pc F}, s.cell c.which = .running k → ∃ i temp, pc = .init i temp := by
        intro pc hr
        obtain ⟨_, _, e⟩ := run_pc hr
        rw [hpc] at e
        cases e
      by_cases hi : i < c.lenP
      · rw [if_pos hi] at ht
        rw [forRange_succ _ _ hi] at hc
        cases hx : loopBody factors i p with
        | ok p' =>
          rw [hx, bind_ok] at hc
          rw [loopBody] at hx
          simp only [hx] at ht
          cases ht
          exact inv_goto h hk (by simpa only [CallOk] using hc) hnr
        | err e =>
          exact absurd hx (loopBody_ne_err _ _ _ _)
        | panic =>
          rw [hx, bind_panic] at hc
          rw [loopBody] at hx
          simp only [hx] at ht
          cases ht
          exact inv_goto h hk (by simpa only [CallOk] using hc) hnr
      · rw [if_neg hi] at ht
        cases ht
        rw [forRange_stop _ _ (by omega)] at hc
        exact inv_goto h hk (by simpa only [CallOk] using hc) hnr

theorem inv_reachable {s : State F} (h : Reachable s) : Inv s := by
  induction h with
  | start => exact inv_start
  | call w p lenP _ ih => exact inv_call ih w p lenP
  | tick k _ ht ih => exact inv_tick ih k ht

/-- Some call that has not finished can go on. -/
theorem inv_progress {s : State F} (h : Inv s) {k : Nat} {c : Call F} (hk : s.calls[k]? = some c)
    (hnd : ∀ r, c.pc ≠ .done r) : ∃ j s', s.tick j = some s' := by
  have initCan : ∀ j d i temp, s.calls[j]? = some d → d.pc = .init i temp → ∃ s', s.tick j = some s' := by
    intro j d i temp hj hpc
    unfold State.tick
    simp only [hj, hpc]
    split
    · split <;> exact ⟨_, rfl⟩
    · exact ⟨_, rfl⟩
  cases hpc : c.pc with
  | done r => exact absurd hpc (hnd r)
  | init i temp => exact ⟨k, initCan k c i temp hk hpc⟩
  | loop i p factors =>
    refine ⟨k, ?_⟩
    unfold State.tick
    simp only [hk, hpc]
    split
    · split <;> exact ⟨_, rfl⟩
    · exact ⟨_, rfl⟩
  | enter =>
    cases hcell : s.cell c.which with
    | running j =>
      obtain ⟨d, i, temp, hd, _, hp⟩ := h.running _ _ hcell
      exact ⟨j, initCan j d i temp hd hp⟩
    | full t =>
      refine ⟨k, ?_⟩
      unfold State.tick
      simp only [hk, hpc, hcell]
      exact ⟨_, rfl⟩
    | empty =>
      refine ⟨k, ?_⟩
      unfold State.tick
      simp only [hk, hpc, hcell]
      exact ⟨_, rfl⟩

/-- How many steps a call can still take at most. -/
def weight (c : Call F) : Nat :=
  match c.pc with
  | .enter => 65536 + c.lenP + 3
  | .init i _ => (65536 - i) + c.lenP + 2
  | .loop i _ _ => (c.lenP - i) + 1
  | .done _ => 0

omit [Field F] in
theorem sum_set_lt (l : List (Call F)) (k : Nat) (c d : Call F) (hk : l[k]? = some c) (hlt : weight d < weight c) :
    ((l.set k d).map weight).sum < (l.map weight).sum := by
  induction l generalizing k with
  | nil => simp at hk
  | cons x l ih =>
    cases k with
    | zero =>
      simp only [List.getElem?_cons_zero, Option.some.injEq] at hk
      subst hk
      simpa using hlt
    | succ k =>
      have := ih k (by simpa using hk)
      simpa using this

def totalWeight (s : State F) : Nat := (s.calls.map weight).sum

omit [Field F] in
theorem goto_weight {s : State F} {k : Nat} {c : Call F} {pc : Pc F} (hk : s.calls[k]? = some c)
    (hlt : weight { c with pc := pc } < weight c) : totalWeight (s.goto k c pc) < totalWeight s :=
  sum_set_lt _ _ _ _ hk hlt

theorem tick_weight {s s' : State F} (k : Nat) (ht : s.tick k = some s') : totalWeight s' < totalWeight s := by
  unfold State.tick at ht
  cases hk : s.calls[k]? with
  | none => rw [hk] at ht; cases ht
  | some c =>
    rw [hk] at ht
    have key : ∀ (pc : Pc F) (x : Cell F), weight { c with pc := pc } < weight c →
        totalWeight ((s.setCell c.which x).goto k c pc) < totalWeight s :=
      fun pc x h => goto_weight (s := s.setCell c.which x) hk h
    cases hpc : c.pc with
    | done r => simp only [hpc] at ht; cases ht
    | enter =>
      simp only [hpc] at ht
      split at ht
      · cases ht; exact goto_weight hk (by simp only [weight, hpc]; omega)
      · cases ht; exact key _ _ (by simp only [weight, hpc]; omega)
      · cases ht
    | init i temp =>
      simp only [hpc] at ht
      split at ht
      · split at ht
        · cases ht; exact goto_weight hk (by simp only [weight, hpc]; omega)
        · cases ht; exact key _ _ (by simp only [weight, hpc]; omega)
      · cases ht; exact key _ _ (by simp only [weight, hpc]; omega)
    | loop i p factors =>
      simp only [hpc] at ht
      split at ht
      · split at ht
        · cases ht; exact goto_weight hk (by simp only [weight, hpc]; omega)
        · cases ht; exact goto_weight hk (by simp only [weight, hpc]; omega)
      · cases ht; exact goto_weight hk (by simp only [weight, hpc]; omega)

/-- The arguments of all calls. -/
def args (s : State F) : List (Which × List F × Nat) := s.calls.map fun c => (c.which, c.p, c.lenP)

omit [Field F] in
theorem goto_args {s : State F} {k : Nat} {c : Call F} {pc : Pc F} (hk : s.calls[k]? = some c) :
    args (s.goto k c pc) = args s := by
  apply List.ext_getElem?
  intro j
  rw [args, args, List.getElem?_map, List.getElem?_map]
  by_cases e : j = k
  · subst e
    rw [goto_self _ hk, hk]; rfl
  · rw [goto_ne _ e]

theorem tick_args {s s' : State F} (k : Nat) (ht : s.tick k = some s') : args s' = args s := by
  unfold State.tick at ht
  cases hk : s.calls[k]? with
  | none => rw [hk] at ht; cases ht
  | some c =>
    rw [hk] at ht
    have key : ∀ (pc : Pc F) (x : Cell F), args ((s.setCell c.which x).goto k c pc) = args s :=
      fun pc x => goto_args (s := s.setCell c.which x) hk
    cases hpc : c.pc with
    | done r => simp only [hpc] at ht; cases ht
    | enter =>
      simp only [hpc] at ht
      split at ht <;> cases ht
      · exact goto_args hk
      · exact key _ _
    | init i temp =>
      simp only [hpc] at ht
      split at ht
      · split at ht <;> cases ht
        · exact goto_args hk
        · exact key _ _
      · cases ht; exact key _ _
    | loop i p factors =>
      simp only [hpc] at ht
      split at ht
      · split at ht <;> cases ht <;> exact goto_args hk
      · cases ht; exact goto_args hk

theorem all_finish (n : Nat) : ∀ s : State F, totalWeight s ≤ n → Reachable s →
    ∃ s', Reachable s' ∧ args s' = args s ∧ ∀ c ∈ s'.calls, ∃ r, c.pc = .done r := by
  induction n with
  | zero =>
    intro s hw hs
    refine ⟨s, hs, rfl, fun c hc => ?_⟩
    by_contra hcon
    obtain ⟨k, hk⟩ := List.getElem?_of_mem hc
    obtain ⟨j, s', hj⟩ := inv_progress (inv_reachable hs) hk fun r hr => hcon ⟨r, hr⟩
    have := tick_weight j hj
    omega
  | succ n ih =>
    intro s hw hs
    by_cases hcon : ∀ c ∈ s.calls, ∃ r, c.pc = .done r
    · exact ⟨s, hs, rfl, hcon⟩
    · push Not at hcon
      obtain ⟨c, hc, hnd⟩ := hcon
      obtain ⟨k, hk⟩ := List.getElem?_of_mem hc
      obtain ⟨j, s1, hj⟩ := inv_progress (inv_reachable hs) hk hnd
      have := tick_weight j hj
      obtain ⟨s', h1, h2, h3⟩ := ih s1 (by omega) (.tick j hs hj)
      exact ⟨s', h1, h2.trans (tick_args j hj), h3⟩

/-- A full cell never changes. -/
theorem full_stays {s s' : State F} (h : Inv s) (k : Nat) (ht : s.tick k = some s') {w : Which} {t : List F}
    (hw : s.cell w = .full t) : s'.cell w = .full t := by
  unfold State.tick at ht
  cases hk : s.calls[k]? with
  | none => rw [hk] at ht; cases ht
  | some c =>
    rw [hk] at ht
    have key : ∀ (pc : Pc F) (x : Cell F), w ≠ c.which → ((s.setCell c.which x).goto k c pc).cell w = .full t := by
      intro pc x hne
      show (if w = c.which then x else s.cell w) = _
      rw [if_neg hne, hw]
    cases hpc : c.pc with
    | done r => simp only [hpc] at ht; cases ht
    | enter =>
      simp only [hpc] at ht
      split at ht
      · cases ht; exact hw
      · rename_i he
        cases ht; exact key _ _ (by rintro rfl; rw [he] at hw; cases hw)
      · cases ht
    | init i temp =>
      have hc := h.calls k c hk
      simp only [CallOk, hpc] at hc
      have hne : w ≠ c.which := by rintro rfl; rw [hc.2] at hw; cases hw
      simp only [hpc] at ht
      split at ht
      · split at ht
        · cases ht; exact hw
        · cases ht; exact key _ _ hne
      · cases ht; exact key _ _ hne
    | loop i p factors =>
      simp only [hpc] at ht
      split at ht
      · split at ht <;> cases ht <;> exact hw
      · cases ht; exact hw

end Kzg.Once
