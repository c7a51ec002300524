import Mathlib.Tactic.Ring
import Mathlib.Tactic.IntervalCases
import Mathlib.Data.Nat.Bitwise
import Verif.Proofs.Settings
/-!
# Integer helpers: proofs
-/

namespace Kzg
open Res

/-- Some bit in the window `i, …, i + w - 1` is set. -/
def anyBit (v i w : Nat) : Prop := ∃ j < w, v.testBit (i + j) = true

theorem smearStep {v u s : Nat} (w : Nat) (hs : s ≤ w)
    (h : ∀ i, u.testBit i = true ↔ anyBit v i w) :
    ∀ i, (u ||| (u >>> s)).testBit i = true ↔ anyBit v i (w + s) := by
  intro i
  rw [Nat.testBit_or, Nat.testBit_shiftRight, Bool.or_eq_true, h, h]
  constructor
  · rintro (⟨j, hj, hb⟩ | ⟨j, hj, hb⟩)
    · exact ⟨j, by omega, hb⟩
    · exact ⟨s + j, by omega, by rw [← hb]; congr 1; omega⟩
  · rintro ⟨j, hj, hb⟩
    by_cases hjw : j < w
    · exact Or.inl ⟨j, hjw, hb⟩
    · exact Or.inr ⟨j - s, by omega, by rw [← hb]; congr 1; omega⟩

theorem smear_testBit (v i : Nat) : (smear v).testBit i = true ↔ anyBit v i 64 := by
  have h0 : ∀ i, v.testBit i = true ↔ anyBit v i 1 := by
    intro i
    constructor
    · intro h; exact ⟨0, by omega, h⟩
    · rintro ⟨j, hj, h⟩
      have : j = 0 := by omega
      subst this; exact h
  have h1 := smearStep 1 (s := 1) (by omega) h0
  have h2 := smearStep 2 (s := 2) (by omega) h1
  have h3 := smearStep 4 (s := 4) (by omega) h2
  have h4 := smearStep 8 (s := 8) (by omega) h3
  have h5 := smearStep 16 (s := 16) (by omega) h4
  have h6 := smearStep 32 (s := 32) (by omega) h5
  exact h6 i

theorem bitLen_zero : bitLen 0 = 0 := rfl

theorem lt_two_pow_bitLen (v : Nat) : v < 2 ^ bitLen v := by
  unfold bitLen
  split
  · next h => subst h; simp
  · exact Nat.lt_log2_self

theorem two_pow_le_of_bitLen {v n : Nat} (h : bitLen v = n + 1) : 2 ^ n ≤ v := by
  unfold bitLen at h
  split at h
  · omega
  · next h0 =>
    have : n = Nat.log2 v := by omega
    rw [this]; exact Nat.log2_self_le h0

theorem bitLen_le_of_lt {v n : Nat} (h : v < 2 ^ n) : bitLen v ≤ n := by
  by_contra hc
  obtain ⟨m, hm⟩ : ∃ m, bitLen v = m + 1 := ⟨bitLen v - 1, by omega⟩
  have h1 := two_pow_le_of_bitLen hm
  have h2 : 2 ^ n ≤ 2 ^ m := Nat.pow_le_pow_right (by omega) (by omega)
  omega

theorem testBit_top {v n : Nat} (h : bitLen v = n + 1) : v.testBit n = true := by
  have h1 := two_pow_le_of_bitLen h
  have h2 := lt_two_pow_bitLen v
  rw [h, pow_succ] at h2
  rw [Nat.testBit_eq_decide_div_mod_eq]
  have : v / 2 ^ n = 1 := by rw [Nat.div_eq_iff (by positivity)]; omega
  simp [this]

theorem smear_eq {v : Nat} (hv : v < 2 ^ 64) : smear v = 2 ^ bitLen v - 1 := by
  apply Nat.eq_of_testBit_eq
  intro i
  rw [Nat.testBit_two_pow_sub_one, Bool.eq_iff_iff, smear_testBit, decide_eq_true_iff]
  constructor
  · rintro ⟨j, hj, hb⟩
    by_contra hc
    have h2 : v < 2 ^ (i + j) :=
      lt_of_lt_of_le (lt_two_pow_bitLen v) (Nat.pow_le_pow_right (by omega) (by omega))
    rw [Nat.testBit_lt_two_pow h2] at hb
    exact absurd hb (by simp)
  · intro hi
    obtain ⟨n, hn⟩ : ∃ n, bitLen v = n + 1 := ⟨bitLen v - 1, by omega⟩
    have hle : bitLen v ≤ 64 := bitLen_le_of_lt hv
    refine ⟨n - i, by omega, ?_⟩
    rw [show i + (n - i) = n by omega]
    exact testBit_top hn

/-- Rounding up to a power of two. -/
theorem nextPowerOfTwo_eq {v : Nat} (h1 : 1 ≤ v) (h2 : v ≤ 2 ^ 63) :
    nextPowerOfTwo v = .ok (2 ^ bitLen (v - 1)) := by
  have hb : bitLen (v - 1) ≤ 63 := bitLen_le_of_lt (by omega)
  have hp : 2 ^ bitLen (v - 1) ≤ 2 ^ 63 := Nat.pow_le_pow_right (by omega) hb
  have hpos : 0 < 2 ^ bitLen (v - 1) := by positivity
  rw [nextPowerOfTwo, subU_of_le h1, bind_ok]
  have hs : smear (v - 1) = 2 ^ bitLen (v - 1) - 1 := smear_eq (by omega)
  simp only [hs]
  rw [if_pos (by omega), bind_ok]
  have : 2 ^ bitLen (v - 1) - 1 + 1 = 2 ^ bitLen (v - 1) := by omega
  rw [this]
  simp

theorem le_two_pow_bitLen_pred {v : Nat} : v ≤ 2 ^ bitLen (v - 1) := by
  have := lt_two_pow_bitLen (v - 1); omega

theorem two_pow_bitLen_pred_le {v n : Nat} (h : v ≤ 2 ^ n) : 2 ^ bitLen (v - 1) ≤ 2 ^ n := by
  apply Nat.pow_le_pow_right (by omega)
  apply bitLen_le_of_lt
  have : 0 < 2 ^ n := by positivity
  omega

theorem bitLen_two_pow_pred (n : Nat) : bitLen (2 ^ n - 1) = n := by
  have h0 : 0 < 2 ^ n := by positivity
  have h := bitLen_le_of_lt (v := 2 ^ n - 1) (n := n) (by omega)
  have h2 := lt_two_pow_bitLen (2 ^ n - 1)
  by_contra hc
  have : 2 ^ bitLen (2 ^ n - 1) ≤ 2 ^ (n - 1) := Nat.pow_le_pow_right (by omega) (by omega)
  have hn : n = (n - 1) + 1 := by omega
  have : 2 ^ n = 2 * 2 ^ (n - 1) := by conv_lhs => rw [hn, pow_succ]
                                       ring
  omega

theorem nextPowerOfTwo_two_pow {n : Nat} (h : n ≤ 63) : nextPowerOfTwo (2 ^ n) = .ok (2 ^ n) := by
  rw [nextPowerOfTwo_eq (Nat.one_le_two_pow) (Nat.pow_le_pow_right (by omega) h),
    bitLen_two_pow_pred]

theorem log2Pow2_all : ∀ k < 32, log2Pow2 (2 ^ k) = k := by decide +kernel

theorem log2U64Loop_eq (n : Nat) : ∀ r, log2U64Loop n r = r + Nat.log2 n := by
  induction n using Nat.strong_induction_on with
  | _ n ih =>
    intro r
    rw [log2U64Loop]
    split
    · next h =>
      have hs : n >>> 1 = n / 2 := by simp [Nat.shiftRight_eq_div_pow]
      rw [hs] at h
      rw [hs, ih (n / 2) (by omega)]
      conv_rhs => rw [Nat.log2_def]
      rw [if_pos (by omega)]; ring
    · next h =>
      have hs : n >>> 1 = n / 2 := by simp [Nat.shiftRight_eq_div_pow]
      rw [hs] at h
      rw [Nat.log2_def, if_neg (by omega), Nat.add_zero]

theorem log2U64_eq (n : Nat) : log2U64 n = Nat.log2 n := by
  rw [log2U64, log2U64Loop_eq, Nat.zero_add]

theorem minU64_eq (a b : Nat) : minU64 a b = min a b := by
  unfold minU64; split <;> omega

theorem log2Byte_all : ∀ b < 256, log2Byte b = Nat.log2 b := by decide +kernel

end Kzg
