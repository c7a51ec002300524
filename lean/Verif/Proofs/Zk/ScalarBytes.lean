import Verif.Proofs.Zk.ScalarField
/-!
# Encoding, wide reduction and shifting of zkcrypto's scalars
-/

namespace Kzg.Zk.Scalar

theorem word_lt {bs : List Nat} (h : ∀ b ∈ bs, b < 256) (k : Nat) : fromLe ((bs.drop k).take 8) < W := by
  have h1 : ∀ b ∈ (bs.drop k).take 8, b < 256 := fun b hb => h b (List.mem_of_mem_drop (List.mem_of_mem_take hb))
  refine lt_of_lt_of_le (fromLe_lt _ h1) ?_
  calc 256 ^ ((bs.drop k).take 8).length ≤ 256 ^ 8 := Nat.pow_le_pow_right (by norm_num) (by simp)
    _ = W := by norm_num [W]

theorem fromLe_split (bs : List Nat) (h : 8 ≤ bs.length) :
    fromLe bs = fromLe (bs.take 8) + W * fromLe (bs.drop 8) := by
  conv_lhs => rw [← List.take_append_drop 8 bs, fromLe_append]
  rw [List.length_take, Nat.min_eq_left h, show (256 : Nat) ^ 8 = W by norm_num [W]]

theorem fromLe_four (bs : List Nat) (h : 32 ≤ bs.length) :
    fromLe bs = val ⟨fromLe (bs.take 8), fromLe ((bs.drop 8).take 8), fromLe ((bs.drop 16).take 8),
      fromLe ((bs.drop 24).take 8)⟩ + W ^ 4 * fromLe (bs.drop 32) := by
  rw [fromLe_split bs (by omega), fromLe_split (bs.drop 8) (by simp; omega),
    fromLe_split ((bs.drop 8).drop 8) (by simp; omega),
    fromLe_split (((bs.drop 8).drop 8).drop 8) (by simp; omega)]
  simp only [List.drop_drop, val]
  ring

/-- Decoding accepts exactly the integers below the modulus. -/
theorem fromBytes_spec {bs : List Nat} (hl : bs.length = 32) (hb : ∀ b ∈ bs, b < 256) :
    (fromLe bs < frModulus → ∃ s, fromBytes bs = some s ∧ Rep s (fromLe bs : Fr)) ∧
    (frModulus ≤ fromLe bs → fromBytes bs = none) := by
  have hv : fromLe bs = val ⟨fromLe (bs.take 8), fromLe ((bs.drop 8).take 8), fromLe ((bs.drop 16).take 8),
      fromLe ((bs.drop 24).take 8)⟩ := by
    rw [fromLe_four bs (by omega), List.drop_of_length_le (show bs.length ≤ 32 by omega)]
    simp [fromLe]
  have w0 : fromLe (bs.take 8) < W := by simpa using word_lt hb 0
  have w1 := word_lt hb 8
  have w2 := word_lt hb 16
  have w3 := word_lt hb 24
  have hrep := fromRaw_rep w0 w1 w2 w3
  rw [← hv] at hrep
  unfold fromBytes
  generalize fromLe (bs.take 8) = t0 at *
  generalize fromLe ((bs.drop 8).take 8) = t1 at *
  generalize fromLe ((bs.drop 16).take 8) = t2 at *
  generalize fromLe ((bs.drop 24).take 8) = t3 at *
  obtain ⟨m0, m1, m2, m3⟩ := words_modulus
  obtain ⟨d0, β0, e0, q0, b0, c0⟩ := sbb_ex0 w0 m0
  obtain ⟨d1, β1, e1, q1, b1, c1⟩ := sbb_ex w1 m1 c0
  obtain ⟨d2, β2, e2, q2, b2, c2⟩ := sbb_ex w2 m2 c1
  obtain ⟨d3, β3, e3, q3, b3, c3⟩ := sbb_ex w3 m3 c2
  have hD : val ⟨d0, d1, d2, d3⟩ + frModulus = fromLe bs + W ^ 4 * β3 := by
    rw [hv, ← val_modulus]
    simp only [val]
    clear hrep hv e0 e1 e2 e3
    generalize W = w at *
    zify at *
    linear_combination q0 + w * q1 + w ^ 2 * q2 + w ^ 3 * q3
  have hDl := val_lt (s := ⟨d0, d1, d2, d3⟩) ⟨b0, b1, b2, b3⟩
  have hnl := val_lt (s := ⟨t0, t1, t2, t3⟩) ⟨w0, w1, w2, w3⟩
  rw [← hv] at hnl
  have hq : frModulus < W ^ 4 := by simp [frModulus, W]
  simp only [e0, e1, e2, e3]
  have hbit : β3 * (W - 1) % 256 &&& 1 = β3 := by
    interval_cases β3 <;> simp [W]
  rw [hbit]
  have hcase : (β3 = 1 ∧ fromLe bs < frModulus) ∨ (β3 = 0 ∧ frModulus ≤ fromLe bs) := by
    clear hrep hv hbit e0 e1 e2 e3
    generalize frModulus = q at *
    generalize W ^ 4 = w4 at *
    have : β3 = 0 ∨ β3 = 1 := by omega
    rcases this with rfl | rfl <;> omega
  rcases hcase with ⟨rfl, h⟩ | ⟨rfl, h⟩
  · exact ⟨fun _ => ⟨_, if_pos rfl, hrep⟩, fun h' => absurd h (by omega)⟩
  · exact ⟨fun h' => absurd h (by omega), fun _ => by simp⟩

theorem toBytes_spec {s : Scalar} {x : Fr} (hs : Rep s x) :
    (toBytes s).length = 32 ∧ (∀ b ∈ toBytes s, b < 256) ∧ fromLe (toBytes s) = x.val := by
  obtain ⟨⟨h0, h1, h2, h3⟩, e⟩ := reduce_rep hs
  rw [toBytes, ← reduce]
  refine ⟨by simp [toLe_length], ?_, ?_⟩
  · intro b hb
    simp only [List.mem_append] at hb
    rcases hb with ((hb | hb) | hb) | hb <;> exact toLe_bytes _ _ b hb
  · rw [← e]
    simp only [fromLe_append, fromLe_toLe, toLe_length, List.length_append, val]
    rw [show (256 : Nat) ^ 8 = W by norm_num [W], Nat.mod_eq_of_lt h0, Nat.mod_eq_of_lt h1,
      Nat.mod_eq_of_lt h2, Nat.mod_eq_of_lt h3, show (256 : Nat) ^ (8 + 8) = W ^ 2 by norm_num [W],
      show (256 : Nat) ^ (8 + 8 + 8) = W ^ 3 by norm_num [W]]

theorem fromLe_inj {a b : List Nat} (hl : a.length = b.length) (ha : ∀ x ∈ a, x < 256) (hb : ∀ x ∈ b, x < 256)
    (h : fromLe a = fromLe b) : a = b := by
  rw [← toLe_fromLe a ha, ← toLe_fromLe b hb, h, hl]

theorem fromBytesWide_spec {bs : List Nat} (hl : bs.length = 64) (hb : ∀ b ∈ bs, b < 256) :
    Rep (fromBytesWide bs) (fromLe bs : Fr) := by
  have w0 : fromLe (bs.take 8) < W := by simpa using word_lt hb 0
  have h := fromU512_rep w0 (word_lt hb 8) (word_lt hb 16) (word_lt hb 24) (word_lt hb 32) (word_lt hb 40)
    (word_lt hb 48) (word_lt hb 56)
  have e : fromLe bs = val ⟨fromLe (bs.take 8), fromLe ((bs.drop 8).take 8), fromLe ((bs.drop 16).take 8),
      fromLe ((bs.drop 24).take 8)⟩ + 2 ^ 256 * val ⟨fromLe ((bs.drop 32).take 8), fromLe ((bs.drop 40).take 8),
      fromLe ((bs.drop 48).take 8), fromLe ((bs.drop 56).take 8)⟩ := by
    rw [fromLe_four bs (by omega), fromLe_four (bs.drop 32) (by simp; omega)]
    simp only [List.drop_drop]
    rw [List.drop_of_length_le (show bs.length ≤ 32 + 32 by omega)]
    simp only [fromLe, Nat.mul_zero, Nat.add_zero]
    rw [show W ^ 4 = 2 ^ 256 by norm_num [W]]
  rw [e]
  exact h

theorem divnWords_spec (k : Nat) {s : Scalar} (hs : Words s) :
    Words (divnWords k s) ∧ val (divnWords k s) = val s / W ^ k := by
  induction k generalizing s with
  | zero => exact ⟨hs, by simp [divnWords]⟩
  | succ k ih =>
    obtain ⟨h0, h1, h2, h3⟩ := hs
    obtain ⟨w, e⟩ := ih (s := ⟨s.l1, s.l2, s.l3, 0⟩) ⟨h1, h2, h3, by simp [W]⟩
    refine ⟨w, ?_⟩
    rw [divnWords, e, pow_succ, mul_comm, ← Nat.div_div_eq_div_mul]
    congr 1
    simp only [val, W] at *
    omega

theorem shift_word {a b n : Nat} (hn : n ≤ 64) (ha : a < W) :
    shr a n ||| shl b (64 - n) = a / 2 ^ n + 2 ^ (64 - n) * (b % 2 ^ n) := by
  have hW : W = 2 ^ n * 2 ^ (64 - n) := by
    rw [← pow_add, W]
    congr 1
    omega
  have h1 : b * 2 ^ (64 - n) % W = 2 ^ (64 - n) * (b % 2 ^ n) := by
    rw [hW, Nat.mul_mod_mul_right, mul_comm]
  have h2 : a / 2 ^ n < 2 ^ (64 - n) := by
    rw [Nat.div_lt_iff_lt_mul (by positivity), mul_comm, ← hW]
    exact ha
  rw [shr, shl, h1, Nat.or_comm, ← Nat.two_pow_add_eq_or_of_lt h2, add_comm]

theorem divn_spec {s : Scalar} (hs : Words s) {n : Nat} (hn : n < 256) :
    Words (divn s n) ∧ val (divn s n) = val s / 2 ^ n := by
  obtain ⟨⟨w0, w1, w2, w3⟩, e⟩ := divnWords_spec (n / 64) hs
  have hpow : W ^ (n / 64) * 2 ^ (n % 64) = 2 ^ n := by
    rw [W, ← pow_mul, ← pow_add]
    congr 1
    omega
  rw [divn, if_neg (by omega), ← hpow, ← Nat.div_div_eq_div_mul, ← e]
  dsimp only
  generalize divnWords (n / 64) s = a at *
  have hm : n % 64 < 64 := Nat.mod_lt _ (by norm_num)
  generalize n % 64 = m at *
  by_cases h : m > 0
  · rw [if_pos h]
    obtain ⟨a0, a1, a2, a3⟩ := a
    dsimp only at w0 w1 w2 w3 ⊢
    have hW : W = 2 ^ m * 2 ^ (64 - m) := by
      rw [← pow_add, W]
      congr 1
      omega
    rw [shift_word hm.le w0, shift_word hm.le w1, shift_word hm.le w2]
    have h3 : shr a3 m ||| 0 = a3 / 2 ^ m := by simp [shr]
    rw [h3]
    have hP : 0 < 2 ^ m := by positivity
    have hQ : 0 < 2 ^ (64 - m) := by positivity
    generalize 2 ^ m = P at *
    generalize 2 ^ (64 - m) = Q at *
    have bound : ∀ a b, a < W → a / P + Q * (b % P) < W := by
      intro a b ha
      have h1 : a / P < Q := by
        rw [Nat.div_lt_iff_lt_mul hP, mul_comm, ← hW]
        exact ha
      have h2 : b % P + 1 ≤ P := Nat.mod_lt _ hP
      calc a / P + Q * (b % P) < Q + Q * (b % P) := by omega
        _ = Q * (b % P + 1) := by ring
        _ ≤ Q * P := Nat.mul_le_mul_left _ h2
        _ = W := by rw [hW, mul_comm]
    refine ⟨⟨bound _ _ w0, bound _ _ w1, bound _ _ w2, lt_of_le_of_lt (Nat.div_le_self _ _) w3⟩, ?_⟩
    simp only [val]
    clear bound w0 w1 w2 w3 e h3 hpow
    generalize W = w at *
    subst hW
    have e1 : a0 + P * Q * a1 + (P * Q) ^ 2 * a2 + (P * Q) ^ 3 * a3
        = a0 + P * (Q * (a1 + P * Q * a2 + (P * Q) ^ 2 * a3)) := by ring
    rw [e1, Nat.add_mul_div_left _ _ hP]
    have d1 := Nat.mod_add_div a1 P
    have d2 := Nat.mod_add_div a2 P
    have d3 := Nat.mod_add_div a3 P
    generalize a1 % P = r1 at *
    generalize a1 / P = s1 at *
    generalize a2 % P = r2 at *
    generalize a2 / P = s2 at *
    generalize a3 % P = r3 at *
    generalize a3 / P = s3 at *
    subst d1 d2 d3
    ring
  · have h0 : m = 0 := by omega
    rw [if_neg h, h0]
    exact ⟨⟨w0, w1, w2, w3⟩, by simp⟩

theorem divn_large (s : Scalar) {n : Nat} (hn : 256 ≤ n) : divn s n = ofU64 0 := by
  rw [divn, if_pos hn]

end Kzg.Zk.Scalar
