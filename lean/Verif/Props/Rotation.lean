import Verif.Props.BenchMclTimed
import Verif.Props.Reextend
/-!
# Property C207: extending an extension gives the data back, moved by one place
-/

set_option linter.unusedSectionVars false

namespace Kzg.Props
open Kzg Kzg.Res Polynomial

section
variable {F : Type}

/-- C207: of every list of `n` data there is an extension of the same length, and the extension of that is the list with its first element moved
to the end. -/
def Rotates (das : List F → Res (List F)) (n : Nat) : Prop :=
  ∀ data : List F, data.length = n → ∃ odds, das data = .ok odds ∧ odds.length = n ∧ das odds = .ok (data.rotate 1)

/-- C207 (moved data): the extension of moved data is the moved extension. -/
def MovesAlong (das : List F → Res (List F)) (n : Nat) : Prop :=
  ∀ (data odds : List F) (k : Nat), data.length = n → das data = .ok odds → das (data.rotate k) = .ok (odds.rotate k)

/-- C207 (repeated): an even number of calls, each on the result of the one before, moves the data by half as many places. -/
def MovesByCalls (das : List F → Res (List F)) (n : Nat) : Prop :=
  ∀ (data : List F) (k : Nat), data.length = n → (forRange 0 (2 * k) data fun _ d => das d) = .ok (data.rotate k)

/-- C207 (the other way): every list of `n` elements is the extension of exactly one list of `n` data, which is its own extension with the last
element moved to the front. -/
def OnlyOneData (das : List F → Res (List F)) (n : Nat) : Prop :=
  ∀ odds : List F, odds.length = n → ∃ e, das odds = .ok e ∧ das (e.rotate (n - 1)) = .ok odds ∧
    ∀ data : List F, data.length = n → das data = .ok odds → data = e.rotate (n - 1)

theorem Rotates.moves {das : List F → Res (List F)} {n : Nat} (h : Rotates das n) : MovesAlong das n := by
  intro data odds k hl e
  induction k with
  | zero => simpa using e
  | succ k ih =>
    obtain ⟨o1, e1, l1, r1⟩ := h (data.rotate k) (by simpa using hl)
    rw [ih, Res.ok.injEq] at e1
    subst e1
    obtain ⟨o2, e2, -, r2⟩ := h (odds.rotate k) l1
    rw [r1, Res.ok.injEq] at e2
    subst e2
    rw [List.rotate_rotate, List.rotate_rotate] at r2
    exact r2

theorem Rotates.calls {das : List F → Res (List F)} {n : Nat} (h : Rotates das n) : MovesByCalls das n := by
  intro data k hl
  obtain ⟨odds, e, lo, r⟩ := h data hl
  obtain ⟨res, hr, hi⟩ := forRange_inv (lo := 0) (hi := 2 * k) (s := data) (body := fun _ d => das d)
    (fun j d => d = if j % 2 = 0 then data.rotate (j / 2) else odds.rotate (j / 2)) (by omega) (by simp) (fun j d _ _ hd => by
      subst hd
      by_cases hj : j % 2 = 0
      · rw [if_pos hj]
        refine ⟨_, h.moves data odds (j / 2) hl e, ?_⟩
        rw [if_neg (by omega), show (j + 1) / 2 = j / 2 by omega]
      · rw [if_neg hj]
        refine ⟨_, h.moves odds _ (j / 2) lo r, ?_⟩
        rw [if_pos (by omega), List.rotate_rotate, show (j + 1) / 2 = 1 + j / 2 by omega])
  rw [hr, hi, if_pos (by omega), show 2 * k / 2 = k by omega]

theorem Rotates.unique {das : List F → Res (List F)} {n : Nat} (hn : 0 < n) (h : Rotates das n) : OnlyOneData das n := by
  intro odds hl
  obtain ⟨e, he, le, r⟩ := h odds hl
  refine ⟨e, he, ?_, fun data hd hdo => ?_⟩
  · rw [h.moves e _ (n - 1) le r, List.rotate_rotate, show 1 + (n - 1) = odds.length by omega, List.rotate_length]
  · obtain ⟨o, e1, -, r1⟩ := h data hd
    rw [hdo, Res.ok.injEq] at e1
    subst e1
    rw [he, Res.ok.injEq] at r1
    rw [r1, List.rotate_rotate, show 1 + (n - 1) = data.length by omega, List.rotate_length]

/-- All four. -/
def Turns (das : List F → Res (List F)) (n : Nat) : Prop :=
  Rotates das n ∧ MovesAlong das n ∧ MovesByCalls das n ∧ OnlyOneData das n

end

section
variable {F : Type} [Field F] [DecidableEq F]

theorem IsCode.rotates {das : List F → Res (List F)} {m : Nat} (h : IsCode das m) : Rotates das (2 ^ m) := by
  intro data hl
  have hp2 : 2 ^ (m + 1) = 2 * 2 ^ m := by rw [pow_succ, mul_comm]
  have hpos : 0 < 2 ^ m := by positivity
  obtain ⟨ω, hω, hd⟩ := h
  obtain ⟨odds, p, e, lo, hp, hv⟩ := hd data hl
  obtain ⟨o2, q, e2, l2, hq, hv2⟩ := hd odds lo
  have i1 := interleave_getElem? data odds (by omega)
  have i2 := interleave_getElem? odds o2 (by omega)
  have hqp : q = p.comp (C ω * X) := by
    refine eq_of_evens hω hq ?_ fun i hi => ?_
    · rw [degree_lt_iff_coeff_zero] at hp ⊢
      intro n hn
      rw [comp_C_mul_X_coeff, hp n hn, zero_mul]
    · have h1 := hv2 (2 * i) (by omega)
      have h2 := hv (2 * i + 1) (by omega)
      rw [(i2 i).1, ← (i1 i).2, h2, Option.some.injEq] at h1
      rw [← h1, eval_comp, eval_mul, eval_C, eval_X, ← pow_succ']
  refine ⟨odds, e, lo, e2.trans ?_⟩
  congr 1
  apply List.ext_getElem?
  intro i
  by_cases hi : i < 2 ^ m
  · rw [List.getElem?_rotate (by omega), hl, ← (i2 i).2, hv2 _ (by omega), hqp, eval_comp, eval_mul, eval_C, eval_X, ← pow_succ']
    have h3 := hv (2 * ((i + 1) % 2 ^ m)) (by have := Nat.mod_lt (i + 1) hpos; omega)
    rw [(i1 _).1] at h3
    rw [h3]
    by_cases h : i + 1 < 2 ^ m
    · rw [Nat.mod_eq_of_lt h]; rfl
    · rw [show i + 1 = 2 ^ m by omega, Nat.mod_self, show 2 * i + 1 + 1 = 2 ^ (m + 1) by omega, hω.pow_eq_one, mul_zero, pow_zero]
  · rw [List.getElem?_eq_none (by omega), List.getElem?_eq_none (by simp; omega)]

theorem IsCode.turns {das : List F → Res (List F)} {m : Nat} (h : IsCode das m) : Turns das (2 ^ m) :=
  ⟨h.rotates, h.rotates.moves, h.rotates.calls, h.rotates.unique (by positivity)⟩

end

/-- C207 (blst-from-scratch). -/
theorem C207_blst {scale m : Nat} {fs : FFTSettings Fr} (hfs : FFTSettings.new scale = .ok fs) (hm : m + 1 ≤ scale) :
    Turns fs.dasFftExtension (2 ^ m) :=
  (isCode_of (wf_of_new hfs) hm fun _ _ _ _ h => h).turns

/-- C207 (mcl-kzg). -/
theorem C207_mcl [Mcl.Lib Fr] {scale m : Nat} {fs : FFTSettings Fr} (hfs : MadeSettings fs scale) (hm : m + 1 ≤ scale) :
    Turns (Mcl.das fs) (2 ^ m) :=
  (isCode_of hfs.wf hm fun evens odds hl _ h => by rw [Mcl.das_eq hfs.wf hm hl, h]).turns

/-- C207 (Arkworks). -/
theorem C207_ark {scale m : Nat} {fs : FFTSettings Fr} (hfs : Ark.settingsNew scale = .ok fs) (hm : m + 1 ≤ scale) :
    Turns (Ark.das fs) (2 ^ m) := by
  have hwf := (Ark.made_of_new hfs).toWF
  exact (isCode_of hwf hm fun evens odds hl hol h =>
    ark_das_eq (by rw [hl]; exact hwf.cast_ne (by omega)) h (by rw [hol, hl])).turns

/-- C207 (zkcrypto). -/
theorem C207_zk {scale m : Nat} {fs : FFTSettings Zk.ScW} (hfs : FFTSettings.new scale = .ok fs) (hm : m + 1 ≤ scale) :
    Turns (Zk.Top.dasFftExtension fs) (2 ^ m) := by
  have hwf := wf_of_new hfs
  exact (isCode_of hwf hm fun evens odds hl hol h =>
    zk_das_eq (by rw [hl]; exact hwf.cast_ne (by omega)) h (by rw [hol, hl])).turns

/-- Four data in a domain of eight: six calls move them by three places. -/
example {fs : FFTSettings Fr} (hfs : FFTSettings.new 3 = .ok fs) (a b c d : Fr) :
    (forRange 0 6 [a, b, c, d] fun _ v => fs.dasFftExtension v) = .ok [d, a, b, c] :=
  (C207_blst hfs (m := 2) (by norm_num)).2.2.1 [a, b, c, d] 3 rfl

/-- Two data in a domain of four, lost but for their extension: one more extension and a swap give them back. -/
example {fs : FFTSettings Fr} (hfs : Ark.settingsNew 2 = .ok fs) (a b : Fr) :
    ∃ odds, Ark.das fs [a, b] = .ok odds ∧ Ark.das fs odds = .ok [b, a] := by
  obtain ⟨o, h1, -, h2⟩ := (C207_ark hfs (m := 1) (by norm_num)).1 [a, b] rfl
  exact ⟨o, h1, h2⟩

end Kzg.Props
