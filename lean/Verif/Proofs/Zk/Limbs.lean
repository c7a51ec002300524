import Verif.Model.Zk.Limbs
import Mathlib.Tactic.Linarith
import Mathlib.Tactic.Ring
import Mathlib.Tactic.IntervalCases
import Mathlib.Tactic.LinearCombination
import Mathlib.Data.Nat.Bitwise
/-!
# Exact meaning of the word operations
-/

namespace Kzg.Zk

theorem adc_ex {a b c : Nat} (ha : a < W) (hb : b < W) (hc : c < W) :
    ∃ lo hi, adc a b c = (lo, hi) ∧ lo + W * hi = a + b + c ∧ lo < W ∧ hi ≤ 2 := by
  simp only [W] at *
  refine ⟨(a + b + c) % 2 ^ 64, (a + b + c) / 2 ^ 64, ?_, ?_, ?_, ?_⟩
  · simp only [adc, W, Prod.mk.injEq]
    omega
  all_goals omega

theorem adc_ex1 {a b c : Nat} (ha : a < W) (hb : b < W) (hc : c ≤ 1) :
    ∃ lo hi, adc a b c = (lo, hi) ∧ lo + W * hi = a + b + c ∧ lo < W ∧ hi ≤ 1 := by
  simp only [W] at *
  refine ⟨(a + b + c) % 2 ^ 64, (a + b + c) / 2 ^ 64, ?_, ?_, ?_, ?_⟩
  · simp only [adc, W, Prod.mk.injEq]
    omega
  all_goals omega

theorem mac_ex {a b c d : Nat} (ha : a < W) (hb : b < W) (hc : c < W) (hd : d < W) :
    ∃ lo hi, mac a b c d = (lo, hi) ∧ lo + W * hi = a + b * c + d ∧ lo < W ∧ hi < W := by
  have hbc : b * c ≤ (W - 1) * (W - 1) := Nat.mul_le_mul (by simp only [W] at *; omega)
    (by simp only [W] at *; omega)
  simp only [mac]
  generalize b * c = t at *
  simp only [W] at *
  refine ⟨(a + t + d) % 2 ^ 64, (a + t + d) / 2 ^ 64, ?_, ?_, ?_, ?_⟩
  · simp only [Prod.mk.injEq]
    omega
  all_goals omega

/-- The borrow word is `0` or all ones: `β * (W - 1)` with `β ≤ 1`. -/
theorem sbb_ex {a b β : Nat} (ha : a < W) (hb : b < W) (hβ : β ≤ 1) :
    ∃ d β', sbb a b (β * (W - 1)) = (d, β' * (W - 1)) ∧ d + b + β = a + W * β' ∧ d < W ∧ β' ≤ 1 := by
  have hβ2 : β * (W - 1) / 2 ^ 63 = β := by
    interval_cases β <;> simp [W]
  simp only [sbb, hβ2]
  clear hβ2
  simp only [W] at *
  by_cases h : b + β ≤ a
  · refine ⟨a - (b + β), 0, ?_, ?_, ?_, ?_⟩
    · simp only [Prod.mk.injEq]
      omega
    all_goals omega
  · refine ⟨a + 2 ^ 64 - (b + β), 1, ?_, ?_, ?_, ?_⟩
    · simp only [Prod.mk.injEq]
      omega
    all_goals omega

theorem sbb_ex0 {a b : Nat} (ha : a < W) (hb : b < W) :
    ∃ d β', sbb a b 0 = (d, β' * (W - 1)) ∧ d + b = a + W * β' ∧ d < W ∧ β' ≤ 1 := by
  have h := sbb_ex ha hb (β := 0) (by omega)
  simpa using h

/-- Masking with a borrow word. -/
theorem and_mask {x β : Nat} (hx : x < W) (hβ : β ≤ 1) : x &&& (β * (W - 1)) = β * x := by
  interval_cases β
  · simp
  · simp only [one_mul, W] at *
    rw [Nat.and_two_pow_sub_one_eq_mod, Nat.mod_eq_of_lt hx]

theorem or_eq_zero_iff (a b : Nat) : a ||| b = 0 ↔ a = 0 ∧ b = 0 := Nat.or_eq_zero_iff

/-- `(r << 1) | (s >> 63)`. -/
theorem shl_or {r s : Nat} (hs : s < W) : shl r 1 ||| shr s 63 = 2 * r % W + s / 2 ^ 63 := by
  simp only [shl, shr, W] at *
  have h1 : r * 2 ^ 1 % 2 ^ 64 = 2 ^ 1 * (r % 2 ^ 63) := by omega
  have h2 : s / 2 ^ 63 < 2 ^ 1 := by omega
  rw [h1, ← Nat.two_pow_add_eq_or_of_lt h2]
  omega

theorem dbl_ex1 {r : Nat} (_hr : r < W) :
    ∃ D B, shl r 1 = D ∧ (2 * r = D + W * B ∧ B = r / 2 ^ 63 ∧ D < W) := by
  refine ⟨shl r 1, r / 2 ^ 63, rfl, ?_, rfl, ?_⟩ <;> simp only [shl, W] at * <;> omega

theorem dbl_ex {r s : Nat} (_hr : r < W) (hs : s < W) :
    ∃ D B, shl r 1 ||| shr s 63 = D ∧ (2 * r + s / 2 ^ 63 = D + W * B ∧ B = r / 2 ^ 63 ∧ D < W) := by
  refine ⟨_, r / 2 ^ 63, shl_or hs, ?_, rfl, ?_⟩ <;> simp only [W] at * <;> omega

theorem fromLe_lt (bs : List Nat) (h : ∀ b ∈ bs, b < 256) : fromLe bs < 256 ^ bs.length := by
  induction bs with
  | nil => simp [fromLe]
  | cons b bs ih =>
    have hb := h b (by simp)
    have := ih (fun x hx => h x (by simp [hx]))
    simp only [fromLe, List.length_cons, pow_succ]
    omega

theorem toLe_length (n x : Nat) : (toLe n x).length = n := by
  induction n generalizing x with
  | zero => rfl
  | succ n ih => simp [toLe, ih]

theorem toLe_bytes (n x : Nat) : ∀ b ∈ toLe n x, b < 256 := by
  induction n generalizing x with
  | zero => simp [toLe]
  | succ n ih =>
    intro b hb
    simp only [toLe, List.mem_cons] at hb
    rcases hb with rfl | hb
    · omega
    · exact ih _ b hb

theorem fromLe_toLe (n x : Nat) : fromLe (toLe n x) = x % 256 ^ n := by
  induction n generalizing x with
  | zero => simp [toLe, fromLe, Nat.mod_one]
  | succ n ih =>
    simp only [toLe, fromLe, ih]
    rw [pow_succ, mul_comm (256 ^ n), Nat.mod_mul]

theorem toLe_fromLe (bs : List Nat) (h : ∀ b ∈ bs, b < 256) : toLe bs.length (fromLe bs) = bs := by
  induction bs with
  | nil => rfl
  | cons b bs ih =>
    have hb := h b (by simp)
    simp only [List.length_cons, toLe, fromLe]
    rw [show (b + 256 * fromLe bs) % 256 = b by omega,
      show (b + 256 * fromLe bs) / 256 = fromLe bs by omega, ih (fun x hx => h x (by simp [hx]))]

theorem fromLe_append (a b : List Nat) : fromLe (a ++ b) = fromLe a + 256 ^ a.length * fromLe b := by
  induction a with
  | nil => simp [fromLe]
  | cons x a ih =>
    simp only [List.cons_append, fromLe, ih, List.length_cons, pow_succ]
    ring

end Kzg.Zk
