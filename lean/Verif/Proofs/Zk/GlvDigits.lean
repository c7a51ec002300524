import Verif.Model.Zk.Glv
import Verif.Proofs.Zk.Limbs
import Mathlib.Algebra.Ring.Int.Parity
import Mathlib.Tactic.Linarith
import Mathlib.Tactic.Ring
/-!
# The digits of the regular recoding
-/

namespace Kzg.Zk.Glv
open Kzg

theorem asI8_small {x : Nat} (h : x < 128) : asI8 x = x := by
  unfold asI8
  rw [Nat.mod_eq_of_lt (by omega), if_pos h]

theorem asU8_nonneg {x : Int} (h : 0 ≤ x) (h' : x < 256) : asU8 x = x.toNat := by
  unfold asU8
  rw [Int.emod_eq_of_lt h h']

theorem subI8_ok (chk : Bool) {a b : Int} (h : -128 ≤ a - b) (h' : a - b < 128) : subI8 chk a b = .ok (a - b) := by
  unfold subI8
  rw [if_pos ⟨h, h'⟩]

/-- The integer of a digit list, lowest digit first, in base 16. -/
def digitSum : List Int → Int
  | [] => 0
  | d :: ds => d + 16 * digitSum ds

theorem shiftBytes_length (l : List Nat) : (shiftBytes l).length = l.length := by
  match l with
  | [] => rfl
  | [c] => rfl
  | c :: c' :: cs =>
    rw [shiftBytes, List.length_cons, shiftBytes_length (c' :: cs)]
    simp

theorem or_high {a b : Nat} (ha : a < 256) :
    a / 16 ||| b * 16 % 256 = a / 16 + 16 * (b % 16) := by
  have h1 : b * 16 % 256 = (b % 16) * 16 := by omega
  rw [h1, Nat.or_comm, show (b % 16) * 16 = 2 ^ 4 * (b % 16) by ring,
    ← Nat.two_pow_add_eq_or_of_lt (by omega : a / 16 < 2 ^ 4)]
  omega

theorem shiftBytes_bytes (l : List Nat) (h : ∀ c ∈ l, c < 256) : ∀ c ∈ shiftBytes l, c < 256 := by
  match l with
  | [] => simp [shiftBytes]
  | [c] =>
    intro d hd
    simp only [shiftBytes, List.mem_singleton] at hd
    have := h c (by simp)
    omega
  | c :: c' :: cs =>
    intro d hd
    rw [shiftBytes, List.mem_cons] at hd
    rcases hd with rfl | hd
    · have h1 := h c (by simp)
      have h2 := h c' (by simp)
      rw [or_high h1]
      omega
    · exact shiftBytes_bytes (c' :: cs) (fun x hx => h x (List.mem_cons_of_mem _ hx)) d hd

theorem fromLe_shiftBytes (l : List Nat) (h : ∀ c ∈ l, c < 256) : fromLe (shiftBytes l) = fromLe l / 16 := by
  match l with
  | [] => rfl
  | [c] => simp [shiftBytes, fromLe]
  | c :: c' :: cs =>
    have h1 := h c (by simp)
    have h2 := h c' (by simp)
    rw [shiftBytes, fromLe, or_high h1, fromLe_shiftBytes (c' :: cs) (fun x hx => h x (List.mem_cons_of_mem _ hx))]
    simp only [fromLe]
    omega

/-- The recoding of an odd integer of at most `4n + 1` bits: `n + 1` odd digits between -15 and 15 that
spell the integer in base 16. No subtraction overflows. -/
theorem recode_spec (chk : Bool) (n : Nat) : ∀ (sc : List Nat), sc ≠ [] → (∀ c ∈ sc, c < 256) →
    fromLe sc % 2 = 1 → fromLe sc < 2 * 16 ^ n →
    ∃ ds, recode chk n sc = .ok ds ∧ ds.length = n + 1 ∧ (∀ d ∈ ds, -15 ≤ d ∧ d ≤ 15 ∧ d % 2 = 1) ∧
      digitSum ds = fromLe sc := by
  induction n with
  | zero =>
    intro sc hne hb ho hl
    match sc with
    | [] => exact absurd rfl hne
    | c :: cs =>
      have hv : fromLe (c :: cs) = 1 := by omega
      have hc : c = 1 := by
        have := hb c (by simp)
        simp only [fromLe] at hv
        omega
      refine ⟨[1], ?_, rfl, ?_, ?_⟩
      · subst hc
        simp [recode, rd, asI8]
      · intro d hd
        obtain rfl := List.mem_singleton.1 hd
        decide
      · rw [hv]; rfl
  | succ n ih =>
    intro sc hne hb ho hl
    match sc with
    | [] => exact absurd rfl hne
    | c :: cs =>
      have hc := hb c (by simp)
      have hco : c % 2 = 1 := by
        simp only [fromLe] at ho
        omega
      set d : Int := ((c % 32 : Nat) : Int) - 16 with hd
      have h1 : c &&& 31 = c % 32 := Nat.and_two_pow_sub_one_eq_mod c 5
      have h2 : subI8 chk (asI8 (c &&& 31)) 16 = .ok d := by
        rw [h1, asI8_small (by omega), subI8_ok _ (by omega) (by omega)]
      have h3 : subI8 chk (asI8 c) d = .ok (asI8 c - d) := by
        apply subI8_ok <;> unfold asI8 <;> split <;> omega
      have h4 : asU8 (asI8 c - d) = c / 32 * 32 + 16 := by
        unfold asU8 asI8
        split <;> omega
      have hset : setFirst (c :: cs) (c / 32 * 32 + 16) = (c / 32 * 32 + 16) :: cs := rfl
      have hb' : ∀ x ∈ (c / 32 * 32 + 16) :: cs, x < 256 := by
        intro x hx
        rcases List.mem_cons.1 hx with rfl | hx
        · omega
        · exact hb x (List.mem_cons_of_mem _ hx)
      have hv : fromLe (shiftBytes ((c / 32 * 32 + 16) :: cs)) = 2 * (fromLe (c :: cs) / 32) + 1 := by
        rw [fromLe_shiftBytes _ hb']
        simp only [fromLe]
        omega
      have hlt : fromLe (c :: cs) / 32 < 16 ^ n := by
        rw [pow_succ] at hl
        generalize 16 ^ n = N at *
        omega
      obtain ⟨ds, e, hlen, hds, hsum⟩ := ih (shiftBytes ((c / 32 * 32 + 16) :: cs))
        (by intro h; have := congrArg List.length h; rw [shiftBytes_length] at this; simp at this)
        (shiftBytes_bytes _ hb') (by rw [hv]; omega) (by rw [hv]; omega)
      refine ⟨d :: ds, ?_, by rw [List.length_cons, hlen], ?_, ?_⟩
      · rw [recode]
        simp only [rd, List.getElem?_cons_zero, Res.bind_ok, h2, h3, h4, hset, e, Res.pure_eq]
      · intro x hx
        rcases List.mem_cons.1 hx with rfl | hx
        · omega
        · exact hds x hx
      · rw [digitSum, hsum, hv]
        simp only [fromLe]
        omega

theorem makeOdd_spec {k : List Nat} (hl : k.length = 32) (hb : ∀ c ∈ k, c < 256) :
    makeOdd k ≠ [] ∧ (∀ c ∈ makeOdd k, c < 256) ∧ fromLe (makeOdd k) = fromLe k / 2 * 2 + 1 ∧
      k.getD 0 0 % 2 = fromLe k % 2 := by
  match k with
  | [] => simp at hl
  | c :: cs =>
    have hor : c ||| 1 = c / 2 * 2 + 1 := by
      have e : c ||| 1 = (2 ^ 1 * (c / 2) + c % 2) ||| 1 := by congr 1; omega
      rw [e, Nat.two_pow_add_eq_or_of_lt (by omega : c % 2 < 2 ^ 1), Nat.or_assoc]
      have h1 : c % 2 ||| 1 = 1 := by rcases Nat.mod_two_eq_zero_or_one c with h | h <;> rw [h] <;> rfl
      rw [h1, ← Nat.two_pow_add_eq_or_of_lt (by omega : 1 < 2 ^ 1)]
      omega
    have hm : makeOdd (c :: cs) = (c / 2 * 2 + 1) :: cs := by
      simp [makeOdd, hor]
    have hc := hb c (by simp)
    rw [hm]
    refine ⟨by simp, ?_, ?_, ?_⟩
    · intro x hx
      rcases List.mem_cons.1 hx with rfl | hx
      · omega
      · exact hb x (List.mem_cons_of_mem _ hx)
    · simp only [fromLe]; omega
    · simp only [fromLe, List.getD_cons_zero]; omega

/-- Both half scalars below `2^129`: the recoding of the scalar made odd. -/
theorem regularRecoding_spec (chk : Bool) {k : List Nat} (hl : k.length = 32) (hb : ∀ c ∈ k, c < 256)
    (hlt : fromLe k < 2 ^ 129) :
    ∃ ds, regularRecoding chk (makeOdd k) = .ok ds ∧ ds.length = 33 ∧
      (∀ d ∈ ds, -15 ≤ d ∧ d ≤ 15 ∧ d % 2 = 1) ∧
      digitSum ds = fromLe k + (1 - fromLe k % 2 : Nat) := by
  obtain ⟨h1, h2, h3, -⟩ := makeOdd_spec hl hb
  obtain ⟨ds, e, hlen, hds, hs⟩ := recode_spec chk 32 (makeOdd k) h1 h2 (by omega) (by rw [h3]; omega)
  exact ⟨ds, e, hlen, hds, by rw [hs, h3]; omega⟩

end Kzg.Zk.Glv
