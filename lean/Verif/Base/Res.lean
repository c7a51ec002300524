/-!
# Results, vectors and loops

`Res α` is the outcome of a Rust call: a value, a returned `Err`, or a panic.
Vectors are lists; reads and writes are checked as in Rust.
-/

namespace Kzg

/-- Outcome of a call: `Ok(a)`, `Err(msg)`, or a panic (index out of bounds, unsigned underflow,
`unwrap` on `Err`, failed `assert!`). A function that cannot return `Err` is still modelled in `Res`
when it can panic. -/
inductive Res (α : Type u) where
  | ok (a : α)
  | err (msg : String)
  | panic
deriving DecidableEq, Repr

namespace Res

/-- Sequencing: `Err` propagates (the `?` operator) and so does a panic. -/
def bind {α : Type u} {β : Type v} : Res α → (α → Res β) → Res β
  | ok a, f => f a
  | err e, _ => err e
  | panic, _ => panic

instance : Monad Res where
  pure := ok
  bind := bind

@[simp] theorem bind_ok {α β : Type u} (a : α) (f : α → Res β) : (ok a >>= f) = f a := rfl
@[simp] theorem bind_err {α β : Type u} (e : String) (f : α → Res β) : (err e >>= f) = err e := rfl
@[simp] theorem bind_panic {α β : Type u} (f : α → Res β) : (panic >>= f) = panic := rfl
@[simp] theorem pure_eq {α : Type u} (a : α) : (pure a : Res α) = ok a := rfl

/-- `Result::unwrap`: an `Err` becomes a panic. -/
def unwrap {α : Type u} : Res α → Res α
  | ok a => ok a
  | err _ => panic
  | panic => panic

@[simp] theorem unwrap_ok {α : Type u} (a : α) : (ok a).unwrap = ok a := rfl
@[simp] theorem unwrap_err {α : Type u} (e : String) : (err e : Res α).unwrap = panic := rfl
@[simp] theorem unwrap_panic {α : Type u} : (panic : Res α).unwrap = panic := rfl

/-- The call returns normally and its value satisfies `P`. -/
def Sat {α : Type u} (m : Res α) (P : α → Prop) : Prop := ∃ a, m = ok a ∧ P a

theorem Sat.ok {α : Type u} {a : α} {P : α → Prop} (h : P a) : Sat (.ok a) P := ⟨a, rfl, h⟩

theorem Sat.bind {α β : Type u} {m : Res α} {f : α → Res β} {P : α → Prop} {Q : β → Prop}
    (hm : Sat m P) (hf : ∀ a, P a → Sat (f a) Q) : Sat (m >>= f) Q := by
  obtain ⟨a, rfl, ha⟩ := hm
  exact hf a ha

theorem Sat.mono {α : Type u} {m : Res α} {P Q : α → Prop} (hm : Sat m P) (h : ∀ a, P a → Q a) :
    Sat m Q := by
  obtain ⟨a, rfl, ha⟩ := hm
  exact ⟨a, rfl, h a ha⟩

end Res

open Res

/-- Vector read `v[i]`. -/
def rd {α : Type u} (v : List α) (i : Nat) : Res α :=
  match v[i]? with
  | some x => .ok x
  | none => .panic

/-- Vector write `v[i] = x`. -/
def wr {α : Type u} (v : List α) (i : Nat) (x : α) : Res (List α) :=
  if i < v.length then .ok (v.set i x) else .panic

/-- Slice `&v[a..]`. -/
def sliceFrom {α : Type u} (v : List α) (a : Nat) : Res (List α) :=
  if a ≤ v.length then .ok (v.drop a) else .panic

/-- Slice `&v[..b]`. -/
def sliceTo {α : Type u} (v : List α) (b : Nat) : Res (List α) :=
  if b ≤ v.length then .ok (v.take b) else .panic

/-- Slice `&v[a..b]`. -/
def slice {α : Type u} (v : List α) (a b : Nat) : Res (List α) :=
  if a ≤ b ∧ b ≤ v.length then .ok ((v.take b).drop a) else .panic

/-- Unsigned subtraction `a - b`, panicking on underflow (overflow checks on). -/
def subU (a b : Nat) : Res Nat := if b ≤ a then .ok (a - b) else .panic

/-- `count` iterations of a loop body, starting at counter value `i`. -/
def forLoop {σ : Type u} (body : Nat → σ → Res σ) : (count i : Nat) → σ → Res σ
  | 0, _, s => .ok s
  | n + 1, i, s => do
    let s ← body i s
    forLoop body n (i + 1) s

/-- `for i in lo..hi { body }` with mutable state `s`. -/
def forRange {σ : Type u} (lo hi : Nat) (s : σ) (body : Nat → σ → Res σ) : Res σ :=
  forLoop body (hi - lo) lo s

theorem rd_of_getElem? {α : Type u} {v : List α} {i : Nat} {x : α} (h : v[i]? = some x) :
    rd v i = .ok x := by simp [rd, h]

theorem rd_of_lt {α : Type u} {v : List α} {i : Nat} (h : i < v.length) :
    rd v i = .ok v[i] := by simp [rd, h]

theorem rd_of_ge {α : Type u} {v : List α} {i : Nat} (h : v.length ≤ i) :
    rd v i = .panic := by simp [rd, List.getElem?_eq_none h]

theorem wr_of_lt {α : Type u} {v : List α} {i : Nat} {x : α} (h : i < v.length) :
    wr v i x = .ok (v.set i x) := by simp [wr, h]

theorem wr_of_ge {α : Type u} {v : List α} {i : Nat} {x : α} (h : v.length ≤ i) :
    wr v i x = .panic := by simp [wr, Nat.not_lt.mpr h]

theorem subU_of_le {a b : Nat} (h : b ≤ a) : subU a b = .ok (a - b) := by simp [subU, h]

theorem forLoop_inv {σ : Type u} {body : Nat → σ → Res σ} (Inv : Nat → σ → Prop) (n : Nat) :
    ∀ (lo : Nat) (s : σ), Inv lo s →
      (∀ i s, lo ≤ i → i < lo + n → Inv i s → Sat (body i s) (Inv (i + 1))) →
      Sat (forLoop body n lo s) (Inv (lo + n)) := by
  induction n with
  | zero => intro lo s h0 _; exact ⟨s, rfl, h0⟩
  | succ n ih =>
    intro lo s h0 step
    have h1 := step lo s (Nat.le_refl _) (by omega) h0
    obtain ⟨s', hs', hinv⟩ := h1
    have h2 := ih (lo + 1) s' hinv (fun i s h1 h2 h3 => step i s (by omega) (by omega) h3)
    obtain ⟨s'', hs'', hinv''⟩ := h2
    refine ⟨s'', ?_, ?_⟩
    · simp only [forLoop, hs', bind_ok, hs'']
    · have : lo + (n + 1) = lo + 1 + n := by omega
      rw [this]; exact hinv''

/-- Loop invariant rule. -/
theorem forRange_inv {σ : Type u} {body : Nat → σ → Res σ} (Inv : Nat → σ → Prop) {lo hi : Nat}
    {s : σ} (hle : lo ≤ hi) (h0 : Inv lo s)
    (step : ∀ i s, lo ≤ i → i < hi → Inv i s → Sat (body i s) (Inv (i + 1))) :
    Sat (forRange lo hi s body) (Inv hi) := by
  have := forLoop_inv (body := body) Inv (hi - lo) lo s h0
    (fun i s h1 h2 h3 => step i s h1 (by omega) h3)
  have e : lo + (hi - lo) = hi := by omega
  rw [e] at this
  exact this

/-- A loop whose body never fails and computes `f` is the iteration of `f`. -/
theorem forRange_zero_zero {σ : Type u} (s : σ) (body : Nat → σ → Res σ) :
    forRange 0 0 s body = .ok s := rfl

theorem forRange_succ {σ : Type u} {lo hi : Nat} (s : σ) (body : Nat → σ → Res σ) (h : lo < hi) :
    forRange lo hi s body = (body lo s >>= fun s => forRange (lo + 1) hi s body) := by
  unfold forRange
  have e : hi - lo = (hi - (lo + 1)) + 1 := by omega
  rw [e]; rfl

end Kzg
