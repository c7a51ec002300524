import Mathlib.Algebra.Module.ZMod
import Verif.Model.FrOps
import Verif.Proofs.Utils
import Verif.Proofs.Loops
import Verif.Proofs.FrLawful
/-!
# Field power and scalar multiplication: proofs
-/

namespace Kzg
open Res

theorem frPowLoop_spec {F : Type} [Field F] (n : Nat) : ∀ (out temp : F),
    frPowLoop out temp n = out * temp ^ n := by
  induction n using Nat.strong_induction_on with
  | _ n ih =>
    intro out temp
    rw [frPowLoop]
    have hs : n >>> 1 = n / 2 := by simp [Nat.shiftRight_eq_div_pow]
    have ha : n &&& 1 = n % 2 := Nat.and_one_is_mod n
    simp only [hs, ha]
    split
    · next h =>
      have hn : n = 0 ∨ n = 1 := by omega
      rcases hn with rfl | rfl <;> simp
    · next h =>
      rw [ih (n / 2) (by omega), ← pow_two, ← pow_mul]
      split
      · next h1 =>
        conv_rhs => rw [show n = 2 * (n / 2) + 1 by omega, pow_succ]
        ring
      · next h1 =>
        conv_rhs => rw [show n = 2 * (n / 2) by omega]

theorem bytesVal_digits : ∀ (k v : Nat),
    bytesVal ((List.range k).map fun i => v / 256 ^ i % 256) = v % 256 ^ k := by
  intro k
  induction k with
  | zero => intro v; simp [bytesVal, Nat.mod_one]
  | succ k ih =>
    intro v
    rw [List.range_succ_eq_map, List.map_cons, List.map_map, bytesVal]
    have : ((fun i => v / 256 ^ i % 256) ∘ Nat.succ) = fun i => (v / 256) / 256 ^ i % 256 := by
      funext i
      simp only [Function.comp, Nat.succ_eq_add_one]
      rw [pow_succ, mul_comm, ← Nat.div_div_eq_div_mul]
    rw [this, ih, pow_zero, Nat.div_one, pow_succ, mul_comm (256 ^ k), Nat.mod_mul]

theorem bytesVal_lt : ∀ (l : List Nat), (∀ b ∈ l, b < 256) → bytesVal l < 256 ^ l.length
  | [], _ => by simp [bytesVal]
  | b :: bs, h => by
    have h1 := h b (by simp)
    have h2 := bytesVal_lt bs (fun x hx => h x (by simp [hx]))
    rw [bytesVal, List.length_cons, pow_succ]
    omega

theorem topByte_le (l : List Nat) : ∀ n, topByte l n ≤ n
  | 0 => le_rfl
  | n + 1 => by
    rw [topByte]; split
    · exact (topByte_le l n).trans (by omega)
    · exact le_rfl

theorem topByte_zero (l : List Nat) : ∀ n i, topByte l n ≤ i → i < n → l.getD i 0 = 0
  | 0, i, _, h => by omega
  | n + 1, i, h1, h2 => by
    rw [topByte] at h1
    split at h1
    · next h0 =>
      by_cases hi : i = n
      · subst hi; exact h0
      · exact topByte_zero l n i h1 (by omega)
    · omega

theorem topByte_ne (l : List Nat) : ∀ n i, topByte l n = i + 1 → l.getD i 0 ≠ 0
  | 0, i, h => by simp [topByte] at h
  | n + 1, i, h => by
    rw [topByte] at h
    split at h
    · exact topByte_ne l n i h
    · next h0 => have : n = i := by omega
                 subst this; exact h0

theorem bytesVal_append (l m : List Nat) :
    bytesVal (l ++ m) = bytesVal l + 256 ^ l.length * bytesVal m := by
  induction l with
  | nil => simp [bytesVal]
  | cons b bs ih =>
    rw [List.cons_append, bytesVal, bytesVal, ih, List.length_cons, pow_succ]; ring

theorem bytesVal_all_zero : ∀ (l : List Nat), (∀ b ∈ l, b = 0) → bytesVal l = 0
  | [], _ => rfl
  | b :: bs, h => by
    rw [bytesVal, h b (by simp), bytesVal_all_zero bs (fun x hx => h x (by simp [hx]))]

/-- Number of bits of a byte string with top nonzero byte `i`. -/
theorem bytesVal_bitLen (l : List Nat) (hb : ∀ b ∈ l, b < 256) (i : Nat)
    (hi : topByte l l.length = i + 1) :
    bitLen (bytesVal l) = 8 * i + bitLen (l.getD i 0) := by
  have hil : i < l.length := by have := topByte_le l l.length; omega
  have hne := topByte_ne l _ i hi
  have hsplit : l = l.take i ++ (l.getD i 0 :: l.drop (i + 1)) := by
    rw [List.getD_eq_getElem _ _ hil, ← List.drop_eq_getElem_cons hil, List.take_append_drop]
  have hz : bytesVal (l.drop (i + 1)) = 0 := by
    apply bytesVal_all_zero
    intro b hbm
    obtain ⟨j, hj, rfl⟩ := List.getElem_of_mem hbm
    rw [List.getElem_drop]
    have hj' : i + 1 + j < l.length := by simp at hj; omega
    have := topByte_zero l l.length (i + 1 + j) (by omega) hj'
    rwa [List.getD_eq_getElem _ _ hj'] at this
  have hval : bytesVal l = bytesVal (l.take i) + 256 ^ i * l.getD i 0 := by
    conv_lhs => rw [hsplit]
    rw [bytesVal_append, bytesVal, hz]
    simp [List.length_take, Nat.min_eq_left hil.le]
  have hlow : bytesVal (l.take i) < 256 ^ i := by
    have := bytesVal_lt (l.take i) (fun b h => hb b (List.mem_of_mem_take h))
    simpa [List.length_take, Nat.min_eq_left hil.le] using this
  generalize l.getD i 0 = t at *
  obtain ⟨n, hn⟩ : ∃ n, bitLen t = n + 1 := by
    refine ⟨Nat.log2 t, ?_⟩
    rw [bitLen, if_neg hne]
  have h1 := two_pow_le_of_bitLen hn
  have h2 := lt_two_pow_bitLen t
  have h256 : (256 : Nat) ^ i = 2 ^ (8 * i) := by rw [show 256 = 2 ^ 8 by norm_num, ← pow_mul]
  rw [h256] at hval hlow
  apply le_antisymm
  · apply bitLen_le_of_lt
    rw [hval, pow_add]
    have : 2 ^ (8 * i) * (t + 1) ≤ 2 ^ (8 * i) * 2 ^ bitLen t := Nat.mul_le_mul_left _ h2
    linarith
  · by_contra hc
    have h3 := lt_two_pow_bitLen (bytesVal l)
    have h4 : 2 ^ bitLen (bytesVal l) ≤ 2 ^ (8 * i + n) := Nat.pow_le_pow_right (by omega) (by omega)
    have h5 : 2 ^ (8 * i) * 2 ^ n ≤ 2 ^ (8 * i) * t := Nat.mul_le_mul_left _ h1
    rw [pow_add] at h4
    omega

/-- The dispatch of scalar multiplication for every byte string. -/
theorem g1MulCall_spec (l : List Nat) (hb : ∀ b ∈ l, b < 256) :
    g1MulCall l = .ok (if bytesVal l = 0 then .identity else if bytesVal l = 1 then .self
      else .mult (bitLen (bytesVal l))) := by
  unfold g1MulCall
  simp only
  by_cases h0 : topByte l l.length = 0
  · have : bytesVal l = 0 := by
      apply bytesVal_all_zero
      intro b hbm
      obtain ⟨j, hj, rfl⟩ := List.getElem_of_mem hbm
      have := topByte_zero l l.length j (by omega) hj
      rwa [List.getD_eq_getElem _ _ hj] at this
    rw [if_pos h0, if_pos this]
  · obtain ⟨i, hi⟩ : ∃ i, topByte l l.length = i + 1 :=
      ⟨topByte l l.length - 1, by omega⟩
    have hil : i < l.length := by have := topByte_le l l.length; omega
    have hlen := bytesVal_bitLen l hb i hi
    have hne := topByte_ne l _ i hi
    have htop : l.getD i 0 < 256 := by
      rw [List.getD_eq_getElem _ _ hil]; exact hb _ (List.getElem_mem _)
    have hbl : bitLen (l.getD i 0) = Nat.log2 (l.getD i 0) + 1 := by rw [bitLen, if_neg hne]
    have hv0 : bytesVal l ≠ 0 := by
      intro h; rw [h, bitLen_zero, hbl] at hlen; omega
    rw [if_neg h0, if_neg hv0, rd_getD 0 (by omega), bind_ok, hi]
    by_cases h1 : i + 1 = 1 ∧ l.getD 0 0 = 1
    · rw [if_pos h1]
      have hi0 : i = 0 := by omega
      subst hi0
      rw [h1.2] at hlen
      have : bytesVal l = 1 := by
        have h3 := lt_two_pow_bitLen (bytesVal l)
        rw [hlen] at h3
        have : bitLen 1 = 1 := by decide
        rw [this] at h3
        omega
      rw [if_pos this]
    · rw [if_neg h1, subU_of_le (by omega), bind_ok, subU_of_le (by omega), bind_ok,
        Nat.add_sub_cancel, rd_getD 0 hil, bind_ok, log2Byte_all _ htop]
      have hv1 : bytesVal l ≠ 1 := by
        intro h
        rw [h, show bitLen 1 = 1 by decide, hbl] at hlen
        have hi0 : i = 0 := by omega
        subst hi0
        have hlog : Nat.log2 (l.getD 0 0) = 0 := by omega
        have : l.getD 0 0 < 2 ^ (Nat.log2 (l.getD 0 0) + 1) := Nat.lt_log2_self
        rw [hlog] at this
        exact h1 ⟨rfl, by omega⟩
      rw [if_neg hv1, hlen, hbl]
      congr 2
      omega

theorem scalarBytes_lt (b : Fr) : ∀ x ∈ scalarBytes b, x < 256 := by
  intro x hx
  simp only [scalarBytes, List.mem_map] at hx
  obtain ⟨i, _, rfl⟩ := hx
  exact Nat.mod_lt _ (by norm_num)

theorem bytesVal_scalarBytes (b : Fr) : bytesVal (scalarBytes b) = b.val := by
  rw [scalarBytes, bytesVal_digits]
  apply Nat.mod_eq_of_lt
  have : NeZero frModulus := ⟨by have := frModulus_pos; omega⟩
  refine lt_of_lt_of_le (ZMod.val_lt b) ?_
  decide +kernel

theorem g1Mul_spec {G : Type} [AddCommGroup G] [Module Fr G] (P : G) (b : Fr) :
    g1Mul P b = .ok (b • P) := by
  have : NeZero frModulus := ⟨by have := frModulus_pos; omega⟩
  have key : b • P = b.val • P := by
    conv_lhs => rw [← ZMod.natCast_zmod_val b]
    rw [Nat.cast_smul_eq_nsmul]
  rw [g1Mul, g1MulCall_spec _ (scalarBytes_lt b), bind_ok, bytesVal_scalarBytes, key]
  by_cases h0 : b.val = 0
  · rw [if_pos h0, h0]; simp
  · rw [if_neg h0]
    by_cases h1 : b.val = 1
    · rw [if_pos h1, h1]; simp
    · rw [if_neg h1]
      simp only [p1Mult, bytesVal_scalarBytes]
      rw [Nat.mod_eq_of_lt (lt_two_pow_bitLen _)]

end Kzg
