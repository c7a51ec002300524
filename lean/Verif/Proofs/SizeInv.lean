import Verif.Proofs.SizeDiv
/-!
# Inverses of polynomials without a bound on the length
-/

namespace Kzg
open Res Polynomial

variable {F : Type} [Field F] [DecidableEq F] [FrTable F] [LawfulFr F]

theorem polyMul_cases (a b : List F) (ha : a ≠ []) (hb : b ≠ []) (n : Nat) (hs : a.length + b.length ≤ 2 ^ 63) :
    (∃ t, polyMul a b n = .ok t ∧ t.length = n) ∨ polyMul a b n = .panic := by
  by_cases h : a.length < 64 ∨ b.length < 64 ∨ n < 128
  · refine .inl ⟨(List.range n).map (polyOf a * polyOf b).coeff, ?_, by simp⟩
    rw [polyMul, if_pos h]
    exact mulDirect_spec a b ha hb n
  · push Not at h
    by_cases h' : a.length + b.length ≤ 2 ^ 31 + 1
    · exact .inl ⟨_, polyMul_sized a b ha hb n (.inr h'), by simp⟩
    · exact .inr (polyMul_beyond a b n h.1 h.2.1 h.2.2 (by omega) hs)

omit [Field F] [DecidableEq F] [FrTable F] [LawfulFr F] in
theorem copyLoop_no_err (u : List F) : ∀ (n lo : Nat) (s : List F) (m : String), (forLoop (fun i t => do
      let x ← rd u i
      wr t i x) n lo s) ≠ .err m := by
  intro n
  induction n with
  | zero => intro lo s m h; cases h
  | succ n ih =>
    intro lo s m h
    rw [forLoop] at h
    by_cases h1 : lo < u.length
    · rw [rd_of_lt h1, bind_ok] at h
      by_cases h2 : lo < s.length
      · rw [wr_of_lt h2, bind_ok] at h
        exact ih _ _ _ h
      · rw [wr_of_ge (by omega)] at h; cases h
    · rw [rd_of_ge (by omega)] at h; cases h

theorem invLoop_beyond (a : List F) (ha : a ≠ []) (n : Nat) (hn : 128 ≤ n)
    (hlen : 2 ^ 31 + 1 < 2 * n ∨ 2 ^ 31 + 1 < a.length + n) (h62 : a.length ≤ 2 ^ 62) (h62' : n ≤ 2 ^ 62) :
    ∀ (j : Nat) (ret : List F), ret.length = n →
      invLoop a n (n - 1) (2 ^ j) ((n - 1) / 2 ^ (j + 1)) ret = .panic := by
  have ha' : 0 < a.length := List.length_pos_iff.mpr ha
  intro j
  induction j with
  | zero =>
    intro ret hl
    have hretne : ret ≠ [] := by intro h; rw [h] at hl; simp at hl; omega
    unfold invLoop
    rw [dif_neg (by simp)]
    simp only
    rw [next_d, pow_zero, Nat.div_one, subU_of_le (show 1 ≤ a.length + n by omega), bind_ok, minU64_eq,
      min_eq_left (show n - 1 + 1 ≤ a.length + n - 1 by omega)]
    rcases polyMul_cases a ret ha hretne (n - 1 + 1) (by omega) with ⟨t, ht, htl⟩ | ht
    · rw [ht, unwrap_ok, bind_ok, neg_loop, bind_ok, rd_getD 0 (by simp; omega), bind_ok, wr_of_lt (by simp; omega), bind_ok]
      by_cases h2 : 2 ^ 31 + 1 < 2 * n
      · rw [polyMul_beyond _ _ _ (by omega) (by simp; omega) (by omega) (by simp; omega) (by simp; omega)]
        rfl
      · rw [polyMul_beyond a ret _ (by omega) (by omega) (by omega) (by omega) (by omega)] at ht
        cases ht
    · rw [ht]; rfl
  | succ j ih =>
    intro ret hl
    have hretne : ret ≠ [] := by intro h; rw [h] at hl; simp at hl; omega
    unfold invLoop
    rw [dif_neg (by simp)]
    simp only
    rw [next_d, subU_of_le (show 1 ≤ a.length + n by omega), bind_ok, minU64_eq]
    have hdn : (n - 1) / 2 ^ (j + 1) ≤ n - 1 := Nat.div_le_self _ _
    generalize (n - 1) / 2 ^ (j + 1) = d at hdn ih ⊢
    rw [min_eq_left (show d + 1 ≤ a.length + n - 1 by omega)]
    rcases polyMul_cases a ret ha hretne (d + 1) (by omega) with ⟨t, ht, htl⟩ | ht
    · rw [ht, unwrap_ok, bind_ok, neg_loop, bind_ok, rd_getD 0 (by simp; omega), bind_ok, wr_of_lt (by simp; omega), bind_ok]
      set t3 := ((List.range t.length).map fun i => -(t.getD i 0)).set 0
        (((List.range t.length).map fun i => -(t.getD i 0)).getD 0 0 + 2) with ht3
      have ht3l : t3.length = t.length := by simp [ht3]
      have ht3n : t3 ≠ [] := by intro h; rw [h] at ht3l; simp at ht3l; omega
      rcases polyMul_cases ret t3 hretne ht3n (d + 1) (by omega) with ⟨u, hu, hul⟩ | hu
      · rw [hu, unwrap_ok, bind_ok]
        cases e : (forRange 0 u.length ret fun i r => do
            let x ← rd u i
            wr r i x) with
        | ok r =>
          rw [bind_ok, show 2 ^ (j + 1) >>> 1 = 2 ^ j by rw [Nat.shiftRight_eq_div_pow, pow_one, pow_succ]; simp]
          exact ih r (by rw [copyLoop_length _ _ _ _ _ e, hl])
        | err m => exact absurd e (copyLoop_no_err _ _ _ _ _)
        | panic => rfl
      · rw [hu]; rfl
    · rw [ht]; rfl

/-- Inverses that need too large a transform. -/
theorem polyInverse_beyond (a : List F) (n : Nat) (hn : 128 ≤ n) (ha : 2 ≤ a.length) (h0 : a.getD 0 0 ≠ 0)
    (hlen : 2 ^ 31 + 1 < 2 * n ∨ 2 ^ 31 + 1 < a.length + n) (h62 : a.length ≤ 2 ^ 62) (h62' : n ≤ 2 ^ 62) :
    polyInverse a n = .panic := by
  have hane : a ≠ [] := by rintro rfl; simp at ha
  unfold polyInverse
  rw [if_neg (by omega), if_neg (by simpa using hane), rd_getD 0 (by omega), bind_ok, if_neg h0]
  simp only
  rw [wr_of_lt (by simp; omega), bind_ok, if_neg (by omega), subU_of_le (by omega), bind_ok]
  have hd0 : (n - 1) / 2 ^ (Nat.log2 (n - 1) + 1) = 0 := Nat.div_eq_of_lt Nat.lt_log2_self
  have := invLoop_beyond a hane n hn hlen h62 h62' (Nat.log2 (n - 1)) ((List.replicate n (0 : F)).set 0 (a.getD 0 0)⁻¹) (by simp)
  rw [hd0] at this
  rw [log2U64_eq, Nat.shiftLeft_eq, one_mul, this]
  rfl

end Kzg

namespace Kzg.ZkP
open Res Polynomial

variable {F : Type} [Field F] [DecidableEq F] [FrTable F] [LawfulFr F]

theorem polyInverse_beyond (a : List F) (n : Nat) (hn : 128 ≤ n) (ha : 2 ≤ a.length) (h0 : a.getD 0 0 ≠ 0)
    (hlen : 2 ^ 31 + 1 < 2 * n ∨ 2 ^ 31 + 1 < a.length + n) (h62 : a.length ≤ 2 ^ 62) (h62' : n ≤ 2 ^ 62) :
    polyInverse a n = .panic := by
  have hane : a ≠ [] := by rintro rfl; simp at ha
  unfold polyInverse
  rw [if_neg (by simpa using hane), rd_getD 0 (by omega), bind_ok, if_neg h0]
  simp only
  rw [if_neg (by omega), subU_of_le (by omega), bind_ok, frInv, if_neg h0, bind_ok, wr_of_lt (by simp; omega), bind_ok]
  have hd0 : (n - 1) / 2 ^ (Nat.log2 (n - 1) + 1) = 0 := Nat.div_eq_of_lt Nat.lt_log2_self
  have := Kzg.invLoop_beyond a hane n hn hlen h62 h62' (Nat.log2 (n - 1)) ((List.replicate n (0 : F)).set 0 (a.getD 0 0)⁻¹) (by simp)
  rw [hd0] at this
  rw [log2U64_eq, Nat.shiftLeft_eq, one_mul, invLoop_eq, this]
  rfl

end Kzg.ZkP
