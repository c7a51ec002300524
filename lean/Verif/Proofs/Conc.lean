import Verif.Model.Conc
import Verif.Base.Res
import Mathlib.Data.Set.Basic
/-!
# Tasks with disjoint footprints: every interleaving has the sequential result
-/

namespace Kzg.Conc
open Kzg.Res

variable {V : Type}

/-- Sequential meaning: a `join` runs its first task, then its second. -/
def eval : Task V → Mem V → Mem V
  | .done, m => m
  | .panic, m => m
  | .read a k, m => eval (k (m a)) m
  | .write a v k, m => eval k (m.set a v)
  | .seq p q, m => eval q (eval p m)
  | .join p q, m => eval q (eval p m)

/-- All reads and writes, whatever the values read, are in `S`. -/
inductive Within (S : Set Nat) : Task V → Prop where
  | done : Within S .done
  | read {a k} : a ∈ S → (∀ v, Within S (k v)) → Within S (.read a k)
  | write {a v k} : a ∈ S → Within S k → Within S (.write a v k)
  | seq {p q} : Within S p → Within S q → Within S (.seq p q)
  | join {p q} : Within S p → Within S q → Within S (.join p q)

/-- Wherever two tasks are joined, their footprints are disjoint; no panic. -/
inductive Separate : Task V → Prop where
  | done : Separate .done
  | read {a k} : (∀ v, Separate (k v)) → Separate (.read a k)
  | write {a v k} : Separate k → Separate (.write a v k)
  | seq {p q} : Separate p → Separate q → Separate (.seq p q)
  | join {S T : Set Nat} {p q} : (∀ a, a ∈ S → a ∉ T) → Within S p → Within T q → Separate p → Separate q →
      Separate (.join p q)

def EqOn (S : Set Nat) (m m' : Mem V) : Prop := ∀ a ∈ S, m a = m' a

def EqOff (S : Set Nat) (m m' : Mem V) : Prop := ∀ a, a ∉ S → m a = m' a

theorem Within.mono {S T : Set Nat} (h : ∀ a ∈ S, a ∈ T) {p : Task V} (hp : Within S p) : Within T p := by
  induction hp with
  | done => exact .done
  | read ha _ ih => exact .read (h _ ha) ih
  | write ha _ ih => exact .write (h _ ha) ih
  | seq _ _ ih1 ih2 => exact .seq ih1 ih2
  | join _ _ ih1 ih2 => exact .join ih1 ih2

theorem eval_off {S : Set Nat} {p : Task V} (hp : Within S p) : ∀ m, EqOff S m (eval p m) := by
  induction hp with
  | done => intro m a _; rfl
  | read _ _ ih => intro m; exact ih _ m
  | @write a v k ha _ ih =>
    intro m b hb
    rw [eval, ← ih (m.set a v) b hb, Mem.set, if_neg]
    rintro rfl
    exact hb ha
  | seq _ _ ih1 ih2 => intro m b hb; rw [eval, ← ih2 _ b hb, ← ih1 _ b hb]
  | join _ _ ih1 ih2 => intro m b hb; rw [eval, ← ih2 _ b hb, ← ih1 _ b hb]

theorem eval_on {S : Set Nat} {p : Task V} (hp : Within S p) :
    ∀ m m', EqOn S m m' → EqOn S (eval p m) (eval p m') := by
  induction hp with
  | done => intro m m' h; exact h
  | read ha _ ih => intro m m' h; rw [eval, eval, h _ ha]; exact ih _ m m' h
  | @write a v k ha _ ih =>
    intro m m' h
    apply ih
    intro b hb
    simp only [Mem.set]
    split
    · rfl
    · exact h b hb
  | seq _ _ ih1 ih2 => intro m m' h; exact ih2 _ _ (ih1 _ _ h)
  | join _ _ ih1 ih2 => intro m m' h; exact ih2 _ _ (ih1 _ _ h)

theorem step_within {S : Set Nat} {p p' : Task V} {m m' : Mem V} (hs : Step (p, m) (p', m')) (hp : Within S p) :
    Within S p' ∧ EqOff S m m' ∧ ∀ n, EqOn S m n → ∃ n', Step (p, n) (p', n') ∧ EqOn S m' n' ∧ EqOff S n n' := by
  generalize hc : (p, m) = c at hs
  generalize hc' : (p', m') = c' at hs
  induction hs generalizing p p' m m' with
  | read a k m0 =>
    cases hc; cases hc'
    cases hp with
    | read ha hk =>
      refine ⟨hk _, fun _ _ => rfl, fun n hn => ⟨n, ?_, hn, fun _ _ => rfl⟩⟩
      rw [hn a ha]
      exact .read a k n
  | write a v k m0 =>
    cases hc; cases hc'
    cases hp with
    | write ha hk =>
      have hoff : ∀ m : Mem V, EqOff S m (m.set a v) := by
        intro m b hb
        rw [Mem.set, if_neg]
        rintro rfl
        exact hb ha
      refine ⟨hk, hoff _, fun n hn => ⟨n.set a v, .write a v _ n, ?_, hoff n⟩⟩
      intro b hb
      simp only [Mem.set]
      split
      · rfl
      · exact hn b hb
  | seq q _ ih =>
    cases hc; cases hc'
    cases hp with
    | seq h1 h2 =>
      obtain ⟨a, b, c⟩ := ih h1 rfl rfl
      exact ⟨.seq a h2, b, fun n hn => let ⟨n', x, y⟩ := c n hn; ⟨n', .seq q x, y⟩⟩
  | seqDone q m0 =>
    cases hc; cases hc'
    cases hp with
    | seq h1 h2 => exact ⟨h2, fun _ _ => rfl, fun n hn => ⟨n, .seqDone _ n, hn, fun _ _ => rfl⟩⟩
  | joinL q _ ih =>
    cases hc; cases hc'
    cases hp with
    | join h1 h2 =>
      obtain ⟨a, b, c⟩ := ih h1 rfl rfl
      exact ⟨.join a h2, b, fun n hn => let ⟨n', x, y⟩ := c n hn; ⟨n', .joinL q x, y⟩⟩
  | joinR q _ ih =>
    cases hc; cases hc'
    cases hp with
    | join h1 h2 =>
      obtain ⟨a, b, c⟩ := ih h2 rfl rfl
      exact ⟨.join h1 a, b, fun n hn => let ⟨n', x, y⟩ := c n hn; ⟨n', .joinR q x, y⟩⟩
  | joinDone m0 =>
    cases hc; cases hc'
    exact ⟨.done, fun _ _ => rfl, fun n hn => ⟨n, .joinDone n, hn, fun _ _ => rfl⟩⟩

/-- One step keeps the sequential result. -/
theorem step_eval {p : Task V} (hp : Separate p) :
    ∀ {p' : Task V} {m m' : Mem V}, Step (p, m) (p', m') → Separate p' ∧ eval p' m' = eval p m := by
  induction hp with
  | done => intro p' m m' hs; cases hs
  | read hk _ =>
    intro p' m m' hs
    cases hs
    exact ⟨hk _, rfl⟩
  | write hk _ =>
    intro p' m m' hs
    cases hs
    exact ⟨hk, rfl⟩
  | seq h1 h2 ih1 _ =>
    intro p' m m' hs
    cases hs with
    | seq q hst =>
      obtain ⟨a, b⟩ := ih1 hst
      exact ⟨.seq a h2, by rw [eval, eval, b]⟩
    | seqDone => exact ⟨h2, rfl⟩
  | @join S T p q hd w1 w2 h1 h2 ih1 ih2 =>
    intro p' m m' hs
    cases hs with
    | joinL _ hst =>
      obtain ⟨a, b⟩ := ih1 hst
      exact ⟨.join hd (step_within hst w1).1 w2 a h2, by rw [eval, eval, b]⟩
    | joinR _ hst =>
      obtain ⟨wq, hoff, hmove⟩ := step_within hst w2
      refine ⟨.join hd w1 wq h1 (ih2 hst).1, ?_⟩
      rw [eval, eval]
      -- the same step taken after the first task
      have hon : EqOn T m (eval p m) := fun b hb => eval_off w1 m b fun hS => hd b hS hb
      obtain ⟨n', hst', hon', hoff'⟩ := hmove _ hon
      have hn' : n' = eval p m' := by
        funext b
        by_cases hT : b ∈ T
        · have hS : b ∉ S := fun hS => hd b hS hT
          rw [← hon' b hT, ← eval_off w1 m' b hS]
        · rw [← hoff' b hT]
          by_cases hS : b ∈ S
          · exact eval_on w1 m m' (fun c hc => hoff c fun hT => hd c hc hT) b hS
          · rw [← eval_off w1 m b hS, ← eval_off w1 m' b hS, hoff b hT]
      rw [← hn']
      exact (ih2 hst').2
    | joinDone => exact ⟨.done, rfl⟩

theorem steps_eval {c c' : Task V × Mem V} (h : Steps c c') (hp : Separate c.1) :
    Separate c'.1 ∧ eval c'.1 c'.2 = eval c.1 c.2 := by
  induction h with
  | refl => exact ⟨hp, rfl⟩
  | tail _ hst ih =>
    obtain ⟨a, b⟩ := step_eval ih.1 hst
    exact ⟨a, b.trans ih.2⟩

/-- A task that has not finished can go on. -/
theorem progress {p : Task V} (hp : Separate p) (hne : p ≠ .done) (m : Mem V) : ∃ c, Step (p, m) c := by
  induction hp with
  | done => exact absurd rfl hne
  | read => exact ⟨_, .read _ _ _⟩
  | write => exact ⟨_, .write _ _ _ _⟩
  | @seq p q _ _ ih1 _ =>
    by_cases h : p = .done
    · subst h; exact ⟨_, .seqDone _ _⟩
    · obtain ⟨c, hc⟩ := ih1 h
      exact ⟨_, .seq (p' := c.1) (m' := c.2) q hc⟩
  | @join S T p q _ _ _ _ _ ih1 ih2 =>
    by_cases h : p = .done
    · by_cases h' : q = .done
      · subst h; subst h'; exact ⟨_, .joinDone _⟩
      · obtain ⟨c, hc⟩ := ih2 h'
        exact ⟨_, .joinR (q' := c.1) (m' := c.2) p hc⟩
    · obtain ⟨c, hc⟩ := ih1 h
      exact ⟨_, .joinL (p' := c.1) (m' := c.2) q hc⟩

/-- `p` can become `p'` in one step, whatever the buffer holds. -/
def Next (p' p : Task V) : Prop := ∃ m m', Step (p, m) (p', m')

theorem acc_done : Acc (Next (V := V)) .done := ⟨_, fun _ h => by obtain ⟨_, _, h⟩ := h; cases h⟩

theorem acc_seq {p q : Task V} (hp : Acc Next p) (hq : Acc Next q) : Acc Next (Task.seq p q) := by
  induction hp with
  | intro p _ ih =>
    refine ⟨_, fun r h => ?_⟩
    obtain ⟨m, m', h⟩ := h
    cases h with
    | seq _ hst => exact ih _ ⟨m, m', hst⟩
    | seqDone => exact hq

theorem acc_join {p q : Task V} (hp : Acc Next p) (hq : Acc Next q) : Acc Next (Task.join p q) := by
  induction hp generalizing q with
  | intro p hp' ih =>
    induction hq with
    | intro q hq' ih2 =>
      refine ⟨_, fun r h => ?_⟩
      obtain ⟨m, m', h⟩ := h
      cases h with
      | joinL _ hst => exact ih _ ⟨m, m', hst⟩ ⟨q, hq'⟩
      | joinR _ hst => exact ih2 _ ⟨m, m', hst⟩
      | joinDone => exact acc_done

/-- No execution of any task goes on for ever. -/
theorem terminates (p : Task V) : Acc Next p := by
  induction p with
  | done => exact acc_done
  | panic => exact ⟨_, fun _ h => by obtain ⟨_, _, h⟩ := h; cases h⟩
  | read a k ih =>
    refine ⟨_, fun r h => ?_⟩
    obtain ⟨m, m', h⟩ := h
    cases h
    exact ih _
  | write a v k ih =>
    refine ⟨_, fun r h => ?_⟩
    obtain ⟨m, m', h⟩ := h
    cases h
    exact ih
  | seq p q ih1 ih2 => exact acc_seq ih1 ih2
  | join p q ih1 ih2 => exact acc_join ih1 ih2

theorem no_infinite_run (f : Nat → Task V × Mem V) : ¬ ∀ n, Step (f n) (f (n + 1)) := by
  intro h
  have key : ∀ p : Task V, Acc Next p → ∀ n, (f n).1 ≠ p := by
    intro p hp
    induction hp with
    | intro p _ ih =>
      rintro n rfl
      exact ih (f (n + 1)).1 ⟨(f n).2, (f (n + 1)).2, h n⟩ (n + 1) rfl
  exact key _ (terminates _) 0 rfl

/-- A finished execution leaves the sequential result; an execution that cannot go on is finished. -/
theorem run_result {p p' : Task V} {m m' : Mem V} (hp : Separate p) (h : Steps (p, m) (p', m'))
    (hstuck : ∀ c, ¬ Step (p', m') c) : p' = .done ∧ m' = eval p m := by
  obtain ⟨hs, he⟩ := steps_eval h hp
  have hd : p' = .done := by
    by_contra hne
    obtain ⟨c, hc⟩ := progress hs hne m'
    exact hstuck c hc
  subst hd
  exact ⟨rfl, he⟩

/-! ## Slices and loops -/

theorem region_length (m : Mem V) (b n : Nat) : (region m b n).length = n := by simp [region]

theorem region_getElem? (m : Mem V) {b n i : Nat} (h : i < n) : (region m b n)[i]? = some (m (b + i)) := by
  simp [region, h]

theorem rd_region (m : Mem V) {b n i : Nat} (h : i < n) : rd (region m b n) i = .ok (m (b + i)) :=
  rd_of_getElem? (region_getElem? m h)

theorem region_congr {m m' : Mem V} {b n : Nat} (h : ∀ i, i < n → m (b + i) = m' (b + i)) :
    region m b n = region m' b n := List.map_congr_left fun i hi => h i (List.mem_range.1 hi)

theorem wr_region (m : Mem V) {b n i : Nat} (v : V) (h : i < n) :
    wr (region m b n) i v = .ok (region (m.set (b + i) v) b n) := by
  rw [wr_of_lt (by rw [region_length]; exact h)]
  congr 1
  apply List.ext_getElem?
  intro j
  by_cases hj : j < n
  · rw [region_getElem? _ hj, Mem.set]
    by_cases hij : i = j
    · subst hij
      rw [List.getElem?_set_self (by rw [region_length]; exact h), if_pos rfl]
    · rw [List.getElem?_set_ne hij, region_getElem? _ hj, if_neg (by omega)]
  · rw [List.getElem?_eq_none (by rw [List.length_set, region_length]; omega),
      List.getElem?_eq_none (by rw [region_length]; omega)]

theorem region_append (m : Mem V) (b n k : Nat) : region m b n ++ region m (b + n) k = region m b (n + k) := by
  simp only [region, List.range_add, List.map_append, List.map_map]
  congr 1
  apply List.map_congr_left
  intro i _
  simp only [Function.comp_apply, Nat.add_assoc]

theorem region_take (m : Mem V) (b : Nat) {n k : Nat} (h : k ≤ n) : (region m b n).take k = region m b k := by
  obtain ⟨j, rfl⟩ := Nat.exists_eq_add_of_le h
  rw [← region_append, List.take_left' (region_length _ _ _)]

theorem region_drop (m : Mem V) (b : Nat) {n k : Nat} (h : k ≤ n) :
    (region m b n).drop k = region m (b + k) (n - k) := by
  obtain ⟨j, rfl⟩ := Nat.exists_eq_add_of_le h
  rw [← region_append, List.drop_left' (region_length _ _ _), Nat.add_sub_cancel_left]

theorem loopT_within {S : Set Nat} {body : Nat → Task V} (n lo : Nat) (h : ∀ i, lo ≤ i → i < lo + n → Within S (body i)) :
    Within S (loopT body n lo) := by
  induction n generalizing lo with
  | zero => exact .done
  | succ n ih => exact .seq (h lo (by omega) (by omega)) (ih (lo + 1) fun i h1 h2 => h i (by omega) (by omega))

theorem loopT_separate {body : Nat → Task V} (n lo : Nat) (h : ∀ i, lo ≤ i → i < lo + n → Separate (body i)) :
    Separate (loopT body n lo) := by
  induction n generalizing lo with
  | zero => exact .done
  | succ n ih => exact .seq (h lo (by omega) (by omega)) (ih (lo + 1) fun i h1 h2 => h i (by omega) (by omega))

/-- A loop of tasks on a slice does what the loop on the list does. -/
theorem loopT_eval {b k : Nat} {body : Nat → Task V} {f : Nat → List V → Res (List V)} (n lo : Nat)
    (h : ∀ i, lo ≤ i → i < lo + n → ∀ m : Mem V, f i (region m b k) = .ok (region (eval (body i) m) b k)) :
    ∀ m : Mem V, forRange lo (lo + n) (region m b k) f = .ok (region (eval (loopT body n lo) m) b k) := by
  induction n generalizing lo with
  | zero =>
    intro m
    simp [forRange, forLoop, loopT, eval]
  | succ n ih =>
    intro m
    rw [forRange_succ _ _ (by omega), h lo (by omega) (by omega) m, bind_ok,
      show lo + (n + 1) = lo + 1 + n by omega, ih (lo + 1) (fun i h1 h2 => h i (by omega) (by omega))]
    rfl

end Kzg.Conc
