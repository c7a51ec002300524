import Verif.Base.Res
/-!
# Relating two runs

`Res.Rel lax R m n`: the run `m` of a program on representations follows the run `n` of the same program on
the values they stand for. Both return related values, or both return an error (with any message), or both
panic. With `lax` the run `m` may also panic where `n` does not.
-/

namespace Kzg

namespace Res

/-- `m` follows `n`. -/
def Rel {α : Type u} {β : Type v} (lax : Prop) (R : α → β → Prop) : Res α → Res β → Prop
  | ok a, ok b => R a b
  | err _, err _ => True
  | panic, panic => True
  | panic, _ => lax
  | _, _ => False

variable {lax : Prop}

theorem Rel.ok {α : Type u} {β : Type v} {R : α → β → Prop} {a : α} {b : β} (h : R a b) :
    Rel lax R (.ok a) (.ok b) := h

theorem Rel.err {α : Type u} {β : Type v} {R : α → β → Prop} (e f : String) :
    Rel lax R (.err e : Res α) (.err f : Res β) := trivial

theorem Rel.panic {α : Type u} {β : Type v} {R : α → β → Prop} :
    Rel lax R (.panic : Res α) (.panic : Res β) := trivial

theorem Rel.refl {α : Type u} (m : Res α) : Rel lax Eq m m := by cases m <;> exact (by first | rfl | trivial)

theorem Rel.of_eq {α : Type u} {m n : Res α} (h : m = n) : Rel lax Eq m n := h ▸ Rel.refl m

theorem Rel.mono {α : Type u} {β : Type v} {R Q : α → β → Prop} {m : Res α} {n : Res β} (h : Rel lax R m n)
    (hRQ : ∀ a b, R a b → Q a b) : Rel lax Q m n := by
  cases m <;> cases n <;> first | exact hRQ _ _ h | exact h

theorem Rel.bind {α β : Type u} {γ δ : Type v} {R : α → γ → Prop} {Q : β → δ → Prop} {m : Res α} {n : Res γ}
    {f : α → Res β} {g : γ → Res δ} (h : Rel lax R m n) (hfg : ∀ a b, R a b → Rel lax Q (f a) (g b)) :
    Rel lax Q (m >>= f) (n >>= g) := by
  cases m <;> cases n
  · exact hfg _ _ h
  · exact h.elim
  · exact h.elim
  · exact h.elim
  · exact trivial
  · exact h.elim
  · show Rel lax Q .panic (g _)
    generalize g _ = x
    cases x <;> first | exact h | exact trivial
  · exact h
  · exact trivial

/-- The step exists only on the left. -/
theorem Rel.bind_left {α β : Type u} {γ : Type v} {δ : Type w} {R : α → γ → Prop} {Q : β → δ → Prop} {m : Res α} {b : γ}
    {f : α → Res β} {n : Res δ} (h : Rel lax R m (.ok b)) (hf : ∀ a, R a b → Rel lax Q (f a) n) :
    Rel lax Q (m >>= f) n := by
  cases m
  · exact hf _ h
  · exact h.elim
  · show Rel lax Q .panic n
    cases n <;> first | exact h | exact trivial

theorem Rel.unwrap {α : Type u} {β : Type v} {R : α → β → Prop} {m : Res α} {n : Res β} (h : Rel lax R m n) :
    Rel lax R m.unwrap n.unwrap := by
  cases m <;> cases n <;> exact (by first | exact h | trivial)

theorem Rel.ite {α : Type u} {β : Type v} {R : α → β → Prop} {c : Prop} [Decidable c] {m m' : Res α} {n n' : Res β}
    (h : Rel lax R m n) (h' : Rel lax R m' n') : Rel lax R (if c then m else m') (if c then n else n') := by
  split <;> assumption

/-- A run that follows one that returns: it returns a related value, or panics where that is allowed. -/
theorem Rel.of_ok {α : Type u} {β : Type v} {R : α → β → Prop} {m : Res α} {b : β} (h : Rel lax R m (.ok b)) :
    (∃ a, m = .ok a ∧ R a b) ∨ (lax ∧ m = .panic) := by
  cases m
  · exact .inl ⟨_, rfl, h⟩
  · exact h.elim
  · exact .inr ⟨h, rfl⟩

theorem Rel.of_err {α : Type u} {β : Type v} {R : α → β → Prop} {m : Res α} {e : String}
    (h : Rel lax R m (.err e : Res β)) : (∃ f, m = .err f) ∨ (lax ∧ m = .panic) := by
  cases m
  · exact h.elim
  · exact .inl ⟨_, rfl⟩
  · exact .inr ⟨h, rfl⟩

theorem Rel.of_panic {α : Type u} {β : Type v} {R : α → β → Prop} {m : Res α}
    (h : Rel lax R m (.panic : Res β)) : m = .panic := by
  cases m
  · exact h.elim
  · exact h.elim
  · rfl

end Res

open Res

variable {lax : Prop} {α : Type u} {β : Type v} {R : α → β → Prop}

/-- Lists of related values. -/
inductive RelL (R : α → β → Prop) : List α → List β → Prop
  | nil : RelL R [] []
  | cons {a : α} {b : β} {v : List α} {w : List β} : R a b → RelL R v w → RelL R (a :: v) (b :: w)

theorem RelL.length {v : List α} {w : List β} (h : RelL R v w) : v.length = w.length := by
  induction h with
  | nil => rfl
  | cons _ _ ih => simp only [List.length_cons, ih]

theorem RelL.append {v v' : List α} {w w' : List β} (h : RelL R v w) (h' : RelL R v' w') :
    RelL R (v ++ v') (w ++ w') := by
  induction h with
  | nil => exact h'
  | cons hr _ ih => exact .cons hr ih

theorem RelL.snoc {v : List α} {w : List β} {a : α} {b : β} (h : RelL R v w) (h' : R a b) :
    RelL R (v ++ [a]) (w ++ [b]) := h.append (.cons h' .nil)

theorem RelL.replicate {a : α} {b : β} (n : Nat) (h : R a b) : RelL R (List.replicate n a) (List.replicate n b) := by
  induction n with
  | zero => exact .nil
  | succ n ih => exact .cons h ih

theorem RelL.take {v : List α} {w : List β} (h : RelL R v w) (n : Nat) : RelL R (v.take n) (w.take n) := by
  induction h generalizing n with
  | nil => cases n <;> exact .nil
  | cons hr _ ih => cases n with
    | zero => exact .nil
    | succ n => exact .cons hr (ih n)

theorem RelL.drop {v : List α} {w : List β} (h : RelL R v w) (n : Nat) : RelL R (v.drop n) (w.drop n) := by
  induction h generalizing n with
  | nil => cases n <;> exact .nil
  | cons hr ht ih => cases n with
    | zero => exact .cons hr ht
    | succ n => exact ih n

theorem RelL.set {v : List α} {w : List β} (h : RelL R v w) (n : Nat) {a : α} {b : β} (hab : R a b) :
    RelL R (v.set n a) (w.set n b) := by
  induction h generalizing n with
  | nil => exact .nil
  | cons hr ht ih => cases n with
    | zero => exact .cons hab ht
    | succ n => exact .cons hr (ih n)

theorem RelL.reverse {v : List α} {w : List β} (h : RelL R v w) : RelL R v.reverse w.reverse := by
  induction h with
  | nil => exact .nil
  | cons hr _ ih => rw [List.reverse_cons, List.reverse_cons]; exact ih.append (.cons hr .nil)

theorem RelL.mono {Q : α → β → Prop} {v : List α} {w : List β} (h : RelL R v w) (hRQ : ∀ a b, R a b → Q a b) :
    RelL Q v w := by
  induction h with
  | nil => exact .nil
  | cons hr _ ih => exact .cons (hRQ _ _ hr) ih

theorem RelL.getElem? {v : List α} {w : List β} (h : RelL R v w) {i : Nat} {b : β} (hb : w[i]? = some b) :
    ∃ a, v[i]? = some a ∧ R a b := by
  induction h generalizing i with
  | nil => simp at hb
  | cons hr _ ih =>
    cases i with
    | zero =>
      simp only [List.getElem?_cons_zero, Option.some.injEq] at hb ⊢
      exact ⟨_, rfl, hb ▸ hr⟩
    | succ i =>
      simp only [List.getElem?_cons_succ] at hb ⊢
      exact ih hb

theorem RelL.of_getElem? {v : List α} {w : List β} (hl : v.length = w.length)
    (h : ∀ (i : Nat) (a : α) (b : β), v[i]? = some a → w[i]? = some b → R a b) : RelL R v w := by
  induction v generalizing w with
  | nil => cases w with
    | nil => exact .nil
    | cons => cases hl
  | cons a v ih => cases w with
    | nil => cases hl
    | cons b w =>
      refine .cons (h 0 a b rfl rfl) (ih (by simpa using hl) fun i a b h1 h2 => h (i + 1) a b ?_ ?_)
      · simpa using h1
      · simpa using h2

theorem relL_eq {v : List α} : RelL Eq v v := by
  induction v with
  | nil => exact .nil
  | cons a v ih => exact .cons rfl ih

theorem relL_self {T : α → Prop} {v : List α} (h : ∀ a ∈ v, T a) : RelL (fun a b => a = b ∧ T a) v v := by
  induction v with
  | nil => exact .nil
  | cons a v ih => exact .cons ⟨rfl, h a (by simp)⟩ (ih fun b hb => h b (by simp [hb]))

theorem rel_rd {v : List α} {w : List β} (h : RelL R v w) (i : Nat) : Rel lax R (rd v i) (rd w i) := by
  by_cases hi : i < w.length
  · obtain ⟨a, ha, hr⟩ := h.getElem? (List.getElem?_eq_getElem hi)
    rw [rd_of_getElem? ha, rd_of_lt hi]
    exact hr
  · rw [rd_of_ge (by rw [h.length]; omega), rd_of_ge (by omega)]
    exact Rel.panic

theorem rel_wr {v : List α} {w : List β} (h : RelL R v w) (i : Nat) {a : α} {b : β} (hab : R a b) :
    Rel lax (RelL R) (wr v i a) (wr w i b) := by
  unfold wr
  rw [h.length]
  split
  · exact h.set i hab
  · exact Rel.panic

theorem rel_sliceFrom {v : List α} {w : List β} (h : RelL R v w) (i : Nat) :
    Rel lax (RelL R) (sliceFrom v i) (sliceFrom w i) := by
  unfold sliceFrom
  rw [h.length]
  split
  · exact h.drop i
  · exact Rel.panic

theorem rel_sliceTo {v : List α} {w : List β} (h : RelL R v w) (i : Nat) :
    Rel lax (RelL R) (sliceTo v i) (sliceTo w i) := by
  unfold sliceTo
  rw [h.length]
  split
  · exact h.take i
  · exact Rel.panic

/-- Two loops whose bodies follow each other. -/
theorem rel_forRange {σ : Type u} {τ : Type v} {Q : σ → τ → Prop} {lo hi : Nat} {s : σ} {t : τ}
    {f : Nat → σ → Res σ} {g : Nat → τ → Res τ} (h0 : Q s t)
    (h : ∀ i s t, lo ≤ i → i < hi → Q s t → Rel lax Q (f i s) (g i t)) :
    Rel lax Q (forRange lo hi s f) (forRange lo hi t g) := by
  unfold forRange
  suffices ∀ n i s t, lo ≤ i → i + n ≤ max lo hi → Q s t → Rel lax Q (forLoop f n i s) (forLoop g n i t) from
    this _ _ _ _ (Nat.le_refl _) (by omega) h0
  intro n
  induction n with
  | zero => intro i s t _ _ hq; exact hq
  | succ n ih =>
    intro i s t h1 h2 hq
    exact Rel.bind (h i s t h1 (by omega) hq) fun a b hab => ih (i + 1) a b (by omega) (by omega) hab

end Kzg
