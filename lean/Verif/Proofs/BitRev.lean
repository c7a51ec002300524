import Mathlib.Data.List.Perm.Basic
import Mathlib.Data.List.Nodup
import Verif.Proofs.Utils
import Verif.Proofs.Loops
/-!
# Bit reversal: proofs
-/

namespace Kzg
open Res

theorem reverseBits_lt : ∀ w n, reverseBits w n < 2 ^ w
  | 0, _ => by simp [reverseBits]
  | w + 1, n => by
    have h1 := reverseBits_lt w (n / 2)
    have h2 : n % 2 < 2 := Nat.mod_lt _ (by omega)
    rw [reverseBits, pow_succ]
    have : n % 2 * 2 ^ w ≤ 1 * 2 ^ w := Nat.mul_le_mul_right _ (by omega)
    omega

theorem testBit_reverseBits : ∀ w n j,
    (reverseBits w n).testBit j = (decide (j < w) && n.testBit (w - 1 - j))
  | 0, n, j => by simp [reverseBits]
  | w + 1, n, j => by
    rw [reverseBits, mul_comm, Nat.testBit_two_pow_mul_add _ (reverseBits_lt w _)]
    by_cases h : j < w
    · rw [if_pos h, testBit_reverseBits w]
      simp only [h, decide_true, Bool.true_and, show j < w + 1 by omega]
      rw [show w + 1 - 1 - j = (w - 1 - j) + 1 by omega, Nat.testBit_succ]
    · rw [if_neg h]
      by_cases h2 : j = w
      · subst h2
        rw [Nat.sub_self, show j + 1 - 1 - j = 0 by omega]
        simp [Nat.testBit_zero]
      · have : ¬ j < w + 1 := by omega
        simp only [this, decide_false, Bool.false_and]
        apply Nat.testBit_lt_two_pow
        have : n % 2 < 2 := Nat.mod_lt _ (by omega)
        have : 2 ^ 1 ≤ 2 ^ (j - w) := Nat.pow_le_pow_right (by omega) (by omega)
        omega

theorem reverseBits_shift {k i : Nat} (hk : k ≤ 64) :
    reverseBits 64 i >>> (64 - k) = reverseBits k i := by
  apply Nat.eq_of_testBit_eq
  intro j
  rw [Nat.testBit_shiftRight, testBit_reverseBits, testBit_reverseBits]
  by_cases h : j < k
  · simp only [h, decide_true, Bool.true_and, show 64 - k + j < 64 by omega]
    congr 1; omega
  · simp only [h, decide_false, Bool.false_and, show ¬ 64 - k + j < 64 by omega]

theorem reverseBits_invol {k i : Nat} (hi : i < 2 ^ k) : reverseBits k (reverseBits k i) = i := by
  apply Nat.eq_of_testBit_eq
  intro j
  rw [testBit_reverseBits, testBit_reverseBits]
  by_cases h : j < k
  · simp only [h, decide_true, Bool.true_and, show k - 1 - j < k by omega]
    congr 1; omega
  · simp only [h, decide_false, Bool.false_and]
    symm
    apply Nat.testBit_lt_two_pow
    exact lt_of_lt_of_le hi (Nat.pow_le_pow_right (by omega) (by omega))

theorem leadingZeros_two_pow {k : Nat} (hk : k < 64) : leadingZeros (2 ^ k) + 1 = 64 - k := by
  have h0 : 2 ^ k ≠ 0 := by positivity
  rw [leadingZeros, bitLen, if_neg h0, Nat.log2_two_pow]; omega

theorem reverseBits_ones (k : Nat) : reverseBits k (2 ^ k - 1) = 2 ^ k - 1 := by
  apply Nat.eq_of_testBit_eq
  intro j
  rw [testBit_reverseBits, Nat.testBit_two_pow_sub_one, Nat.testBit_two_pow_sub_one]
  by_cases h : j < k
  · simp [h]; omega
  · simp [h]

theorem reverseBitOrder_spec {α : Type} (v : List α) (k : Nat) (hk : k < 64)
    (hl : v.length = 2 ^ k) :
    Sat (reverseBitOrder v) (fun r => r.length = 2 ^ k ∧
      ∀ i < 2 ^ k, r[i]? = v[reverseBits k i]?) := by
  have hpos : 0 < 2 ^ k := by positivity
  unfold reverseBitOrder
  simp only [hl, leadingZeros_two_pow hk]
  rw [subU_of_le (by omega), bind_ok]
  refine Sat.mono (forRange_inv (fun i s => s.length = 2 ^ k ∧
    ∀ j < 2 ^ k, s[j]? = if min j (reverseBits k j) < i then v[reverseBits k j]? else v[j]?)
    (Nat.zero_le _) ⟨hl, fun j hj => by simp⟩ ?_) ?_
  · rintro i s _ hi ⟨hsl, hs⟩
    have hi' : i < 2 ^ k := by omega
    rw [reverseBits_shift (by omega)]
    have hr := reverseBits_lt k i
    have hinv := reverseBits_invol hi'
    set r := reverseBits k i with hrdef
    by_cases hri : r > i
    · simp only [if_pos hri]
      have e1 : s[r]? = v[r]? := by rw [hs r hr, hinv, if_neg (by omega)]
      have e2 : s[i]? = v[i]? := by rw [hs i hi', ← hrdef, if_neg (by omega)]
      rw [rd_of_getElem? (x := v[r]) (by rw [e1, List.getElem?_eq_getElem (by omega)]), bind_ok,
        rd_of_getElem? (x := v[i]) (by rw [e2, List.getElem?_eq_getElem (by omega)]), bind_ok,
        wr_of_lt (by omega), bind_ok, wr_of_lt (by simp; omega)]
      refine Sat.ok ⟨by simp [hsl], ?_⟩
      intro j hj
      rw [getElem?_set_of_lt (by simp; omega), getElem?_set_of_lt (by omega)]
      by_cases h1 : j = i
      · subst h1
        rw [if_pos rfl, if_pos (by omega), List.getElem?_eq_getElem (by omega)]
      · rw [if_neg h1]
        by_cases h2 : j = r
        · subst h2
          rw [if_pos rfl, hinv, if_pos (by omega), List.getElem?_eq_getElem (by omega)]
        · rw [if_neg h2, hs j hj]
          have h3 : reverseBits k j ≠ i := by
            intro h; apply h2; rw [hrdef, ← h, reverseBits_invol hj]
          by_cases h4 : min j (reverseBits k j) < i
          · rw [if_pos h4, if_pos (by omega)]
          · rw [if_neg h4, if_neg (by omega)]
    · simp only [if_neg hri]
      refine Sat.ok ⟨hsl, ?_⟩
      intro j hj
      rw [hs j hj]
      by_cases h4 : min j (reverseBits k j) < i
      · rw [if_pos h4, if_pos (by omega)]
      · rw [if_neg h4]
        by_cases h5 : min j (reverseBits k j) < i + 1
        · rw [if_pos h5]
          have h6 : j = i ∨ reverseBits k j = i := by omega
          have hji : j = reverseBits k j := by
            rcases h6 with h6 | h6
            · subst h6; omega
            · have h7 := reverseBits_invol hj
              rw [h6, ← hrdef] at h7
              omega
          rw [← hji]
        · rw [if_neg h5]
  · rintro r ⟨hrl, hr⟩
    refine ⟨hrl, fun i hi => ?_⟩
    rw [hr i hi]
    split
    · rfl
    · next h =>
      have h1 := reverseBits_lt k i
      have : i = 2 ^ k - 1 := by omega
      rw [this, reverseBits_ones]

theorem perm_of_bitrev {α : Type} (v r : List α) (k : Nat) (hl : v.length = 2 ^ k)
    (hrl : r.length = 2 ^ k) (h : ∀ i < 2 ^ k, r[i]? = v[reverseBits k i]?) : r.Perm v := by
  have hp : ((List.range (2 ^ k)).map (reverseBits k)).Perm (List.range (2 ^ k)) := by
    rw [List.perm_ext_iff_of_nodup]
    · intro a
      simp only [List.mem_map, List.mem_range]
      constructor
      · rintro ⟨b, hb, rfl⟩; exact reverseBits_lt k b
      · intro ha; exact ⟨reverseBits k a, reverseBits_lt k a, reverseBits_invol ha⟩
    · refine List.Nodup.map_on ?_ List.nodup_range
      intro x hx y hy hxy
      rw [← reverseBits_invol (List.mem_range.mp hx), hxy, reverseBits_invol (List.mem_range.mp hy)]
    · exact List.nodup_range
  have h1 : r.map some = ((List.range (2 ^ k)).map (reverseBits k)).map (fun i => v[i]?) := by
    apply List.ext_getElem (by simp [hrl])
    intro i h1 h2
    have hi : i < 2 ^ k := by simpa [hrl] using h1
    simp only [List.getElem_map, List.getElem_range]
    rw [← h i hi, List.getElem?_eq_getElem (by omega)]
  have h2 : v.map some = (List.range (2 ^ k)).map (fun i => v[i]?) := by
    apply List.ext_getElem (by simp [hl])
    intro i h1 h2
    have hi : i < 2 ^ k := by simpa [hl] using h1
    simp only [List.getElem_map, List.getElem_range]
    rw [List.getElem?_eq_getElem (by omega)]
  have h3 : (r.map some).Perm (v.map some) := by
    rw [h1, h2]; exact hp.map _
  exact (List.map_perm_map_iff (Option.some_injective α)).mp h3

end Kzg
