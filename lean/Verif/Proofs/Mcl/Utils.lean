import Verif.Proofs.BitRev
import Verif.Model.Mcl.Utils
/-!
# Integer helpers of mcl-kzg: proofs
-/

namespace Kzg.Mcl
open Kzg Res

theorem isPowerOf2_eq {n : Nat} (h : n ≠ 0) : isPowerOf2 n = .ok (isPowerOfTwo n) := by
  rw [isPowerOf2, subU_of_le (by omega), bind_ok]
  simp [isPowerOfTwo, h]

theorem isPowerOf2_zero : isPowerOf2 0 = .panic := by simp [isPowerOf2, subU]

theorem log2_eq {x : Nat} (h : x < 2 ^ 64) : log2 x = Nat.log2 x := by
  unfold log2
  split
  · next h0 => subst h0; simp [Nat.log2_def]
  · next h0 =>
    have hb := bitLen_le_of_lt h
    rw [bitLen, if_neg h0] at hb
    rw [leadingZeros, bitLen, if_neg h0]; omega

theorem log2_two_pow {n : Nat} (h : n < 64) : log2 (2 ^ n) = n := by
  rw [log2_eq (Nat.pow_lt_pow_right (by omega) h), Nat.log2_two_pow]

theorem nextPowOf2_two_pow (n : Nat) : nextPowOf2 (2 ^ n) = .ok (2 ^ n) := by
  have h0 : 2 ^ n ≠ 0 := by positivity
  rw [nextPowOf2, if_neg h0, isPowerOf2_eq h0, bind_ok, isPowerOfTwo_two_pow]; rfl

theorem nextPowOf2_eq {v : Nat} (h2 : v ≤ 2 ^ 63) : nextPowOf2 v = .ok (2 ^ bitLen (v - 1)) := by
  by_cases h0 : v = 0
  · subst h0; rfl
  · by_cases hp : isPowerOfTwo v = true
    · obtain ⟨m, rfl⟩ := exists_of_isPowerOfTwo hp
      rw [nextPowOf2_two_pow, bitLen_two_pow_pred]
    · rw [nextPowOf2, if_neg h0, isPowerOf2_eq h0, bind_ok]
      have hp' : isPowerOfTwo v = false := by simpa using hp
      have hl1 : 2 ^ Nat.log2 v ≤ v := Nat.log2_self_le h0
      have hl2 : v < 2 ^ (Nat.log2 v + 1) := Nat.lt_log2_self
      have hne : 2 ^ Nat.log2 v ≠ v := fun h => hp (by rw [← h]; exact isPowerOfTwo_two_pow _)
      have hlog : Nat.log2 v < 63 := by
        by_contra hc
        have : 2 ^ 63 ≤ 2 ^ Nat.log2 v := Nat.pow_le_pow_right (by omega) (by omega)
        omega
      rw [hp', log2_eq (by omega)]
      simp only [Bool.false_eq_true, if_false]
      rw [if_pos (by omega), Nat.shiftLeft_eq, one_mul]
      have hb : bitLen (v - 1) = Nat.log2 v + 1 := by
        have h3 := bitLen_le_of_lt (v := v - 1) (n := Nat.log2 v + 1) (by omega)
        by_contra hc
        have h4 := lt_two_pow_bitLen (v - 1)
        have : 2 ^ bitLen (v - 1) ≤ 2 ^ Nat.log2 v := Nat.pow_le_pow_right (by omega) (by omega)
        omega
      rw [hb]

theorem nextPowOf2_overflow {v : Nat} (h1 : 2 ^ 63 < v) (h2 : v < 2 ^ 64) : nextPowOf2 v = .panic := by
  have h0 : v ≠ 0 := by omega
  have hlog : Nat.log2 v = 63 := by
    have a : 2 ^ Nat.log2 v ≤ v := Nat.log2_self_le h0
    have b : v < 2 ^ (Nat.log2 v + 1) := Nat.lt_log2_self
    by_contra hc
    rcases Nat.lt_or_ge (Nat.log2 v) 63 with h | h
    · have : 2 ^ (Nat.log2 v + 1) ≤ 2 ^ 63 := Nat.pow_le_pow_right (by omega) (by omega)
      omega
    · have : 2 ^ 64 ≤ 2 ^ Nat.log2 v := Nat.pow_le_pow_right (by omega) (by omega)
      omega
  have hp : isPowerOfTwo v = false := by
    by_contra hp
    obtain ⟨m, rfl⟩ := exists_of_isPowerOfTwo (by simpa using hp)
    have hm : m = 63 := by rw [Nat.log2_two_pow] at hlog; exact hlog
    subst hm; omega
  rw [nextPowOf2, if_neg h0, isPowerOf2_eq h0, bind_ok, hp, log2_eq h2, hlog]
  simp

theorem shrU_of_lt {a s : Nat} (h : s < 64) : shrU a s = .ok (a >>> s) := if_pos h

/-- The extra iteration of the loop (index `2^k - 1`, its own reversal) changes nothing. -/
theorem orderByRevBitOrder_eq {α : Type} (v : List α) (k : Nat) (h0 : 0 < k) (hk : k < 64)
    (hl : v.length = 2 ^ k) : Sat (orderByRevBitOrder v) (fun r => r.length = 2 ^ k ∧
      ∀ i < 2 ^ k, r[i]? = v[reverseBits k i]?) := by
  have hpos : 0 < 2 ^ k := by positivity
  unfold orderByRevBitOrder
  simp only [hl, leadingZeros_two_pow hk]
  refine Sat.mono (forRange_inv (fun i s => s.length = 2 ^ k ∧
    ∀ j < 2 ^ k, s[j]? = if min j (reverseBits k j) < i then v[reverseBits k j]? else v[j]?)
    (Nat.zero_le _) ⟨hl, fun j hj => by simp⟩ ?_) ?_
  · rintro i s _ hi ⟨hsl, hs⟩
    have hi' : i < 2 ^ k := by omega
    rw [shrU_of_lt (by omega), bind_ok, reverseBits_shift (by omega)]
    have hr := reverseBits_lt k i
    have hinv := reverseBits_invol hi'
    set r := reverseBits k i with hrdef
    by_cases hri : r > i
    · simp only [if_pos hri]
      have e1 : s[r]? = v[r]? := by rw [hs r hr, hinv, if_neg (by omega)]
      have e2 : s[i]? = v[i]? := by rw [hs i hi', ← hrdef, if_neg (by omega)]
      rw [rd_of_getElem? (x := v[r]) (by rw [e1, List.getElem?_eq_getElem (by omega)]), bind_ok,
        rd_of_getElem? (x := v[i]) (by rw [e2, List.getElem?_eq_getElem (by omega)]), bind_ok,
        wr_of_lt (by omega), bind_ok, wr_of_lt (by simp; omega)]
      refine Sat.ok ⟨by simp [hsl], ?_⟩
      intro j hj
      rw [getElem?_set_of_lt (by simp; omega), getElem?_set_of_lt (by omega)]
      by_cases h1 : j = i
      · subst h1
        rw [if_pos rfl, if_pos (by omega), List.getElem?_eq_getElem (by omega)]
      · rw [if_neg h1]
        by_cases h2 : j = r
        · subst h2
          rw [if_pos rfl, hinv, if_pos (by omega), List.getElem?_eq_getElem (by omega)]
        · rw [if_neg h2, hs j hj]
          have h3 : reverseBits k j ≠ i := by
            intro h; apply h2; rw [hrdef, ← h, reverseBits_invol hj]
          by_cases h4 : min j (reverseBits k j) < i
          · rw [if_pos h4, if_pos (by omega)]
          · rw [if_neg h4, if_neg (by omega)]
    · simp only [if_neg hri]
      refine Sat.ok ⟨hsl, ?_⟩
      intro j hj
      rw [hs j hj]
      by_cases h4 : min j (reverseBits k j) < i
      · rw [if_pos h4, if_pos (by omega)]
      · rw [if_neg h4]
        by_cases h5 : min j (reverseBits k j) < i + 1
        · rw [if_pos h5]
          have h6 : j = i ∨ reverseBits k j = i := by omega
          have hji : j = reverseBits k j := by
            rcases h6 with h6 | h6
            · subst h6; omega
            · have h7 := reverseBits_invol hj
              rw [h6, ← hrdef] at h7
              omega
          rw [← hji]
        · rw [if_neg h5]
  · rintro r ⟨hrl, hr⟩
    refine ⟨hrl, fun i hi => ?_⟩
    rw [hr i hi, if_pos (by omega)]

theorem orderByRevBitOrder_one {α : Type} (x : α) : orderByRevBitOrder [x] = .panic := by rfl

theorem asI32_of_lt {n : Nat} (h : n < 2 ^ 31) : asI32 n = n := by
  unfold asI32
  rw [Nat.mod_eq_of_lt (by omega), if_pos h]

theorem asI32_two_pow_31 : asI32 (2 ^ 31) = -(2 ^ 31) := by decide +kernel

end Kzg.Mcl
