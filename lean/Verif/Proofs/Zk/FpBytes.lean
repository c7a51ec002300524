import Verif.Proofs.Zk.FpField
import Verif.Proofs.Zk.ScalarBytes
/-!
# Encoding, wide reduction and the sign of zkcrypto's base field elements
-/

set_option exponentiation.threshold 1000

namespace Kzg.Zk.Fp

theorem fromBe_append (a b : List Nat) : fromBe (a ++ b) = fromBe a * 256 ^ b.length + fromBe b := by
  rw [fromBe, List.reverse_append, fromLe_append, List.length_reverse, fromBe, fromBe]
  ring

theorem fromBe_lt {bs : List Nat} (h : ∀ b ∈ bs, b < 256) : fromBe bs < 256 ^ bs.length := by
  have := fromLe_lt bs.reverse (fun b hb => h b (List.mem_reverse.1 hb))
  rwa [List.length_reverse] at this

/-- The big-endian number of a byte string, as a fold. -/
theorem fromBe_eq (bs : List Nat) : fromBe bs = beNat bs := by
  have key : ∀ (l : List Nat) (acc : Nat), l.foldl (fun a b => a * 256 + b) acc = acc * 256 ^ l.length + fromBe l := by
    intro l
    induction l with
    | nil => intro acc; simp [fromBe, fromLe]
    | cons x l ih =>
      intro acc
      rw [List.foldl_cons, ih, show x :: l = [x] ++ l from rfl, fromBe_append]
      simp only [fromBe, fromLe, List.reverse_cons, List.reverse_nil, List.nil_append, List.length_append,
        List.length_cons, List.length_nil]
      ring
  rw [beNat, key]
  simp

theorem beWord_lt {bs : List Nat} (h : ∀ b ∈ bs, b < 256) (k : Nat) : fromBe ((bs.drop k).take 8) < W := by
  have h1 : ∀ b ∈ (bs.drop k).take 8, b < 256 := fun b hb => h b (List.mem_of_mem_drop (List.mem_of_mem_take hb))
  refine lt_of_lt_of_le (fromBe_lt h1) ?_
  calc 256 ^ ((bs.drop k).take 8).length ≤ 256 ^ 8 := Nat.pow_le_pow_right (by norm_num) (by simp)
    _ = W := by norm_num [W]

theorem fromBe_split (bs : List Nat) (n : Nat) (h : bs.length = 8 + n) :
    fromBe bs = fromBe (bs.take 8) * 256 ^ n + fromBe (bs.drop 8) := by
  conv_lhs => rw [← List.take_append_drop 8 bs, fromBe_append]
  rw [List.length_drop, h, Nat.add_sub_cancel_left]

theorem fromBe_six (bs : List Nat) (h : bs.length = 48) :
    fromBe bs = val ⟨fromBe ((bs.drop 40).take 8), fromBe ((bs.drop 32).take 8), fromBe ((bs.drop 24).take 8),
      fromBe ((bs.drop 16).take 8), fromBe ((bs.drop 8).take 8), fromBe (bs.take 8)⟩ := by
  rw [fromBe_split bs 40 (by omega), fromBe_split (bs.drop 8) 32 (by simp; omega),
    fromBe_split ((bs.drop 8).drop 8) 24 (by simp; omega),
    fromBe_split (((bs.drop 8).drop 8).drop 8) 16 (by simp; omega),
    fromBe_split ((((bs.drop 8).drop 8).drop 8).drop 8) 8 (by simp; omega)]
  simp only [List.drop_drop, val, Nat.reduceAdd]
  rw [List.take_of_length_le (show (bs.drop 40).length ≤ 8 by simp; omega)]
  rw [show (256 : Nat) ^ 40 = W ^ 5 by norm_num [W], show (256 : Nat) ^ 32 = W ^ 4 by norm_num [W],
    show (256 : Nat) ^ 24 = W ^ 3 by norm_num [W], show (256 : Nat) ^ 16 = W ^ 2 by norm_num [W],
    show (256 : Nat) ^ 8 = W by norm_num [W]]
  ring

/-- The borrow out of a six-word subtraction tells whether the subtrahend was larger. -/
theorem borrow_six {a m : Fp} (ha : Words a) (hm : Words m) :
    ∃ d0 d1 d2 d3 d4 d5 β0 β1 β2 β3 β4 β5,
      sbb a.l0 m.l0 0 = (d0, β0 * (W - 1)) ∧ sbb a.l1 m.l1 (β0 * (W - 1)) = (d1, β1 * (W - 1)) ∧
      sbb a.l2 m.l2 (β1 * (W - 1)) = (d2, β2 * (W - 1)) ∧ sbb a.l3 m.l3 (β2 * (W - 1)) = (d3, β3 * (W - 1)) ∧
      sbb a.l4 m.l4 (β3 * (W - 1)) = (d4, β4 * (W - 1)) ∧ sbb a.l5 m.l5 (β4 * (W - 1)) = (d5, β5 * (W - 1)) ∧
      ((β5 = 1 ∧ val a < val m) ∨ (β5 = 0 ∧ val m ≤ val a)) := by
  obtain ⟨w0, w1, w2, w3, w4, w5⟩ := id ha
  obtain ⟨m0, m1, m2, m3, m4, m5⟩ := id hm
  obtain ⟨d0, β0, e0, q0, b0, c0⟩ := sbb_ex0 w0 m0
  obtain ⟨d1, β1, e1, q1, b1, c1⟩ := sbb_ex w1 m1 c0
  obtain ⟨d2, β2, e2, q2, b2, c2⟩ := sbb_ex w2 m2 c1
  obtain ⟨d3, β3, e3, q3, b3, c3⟩ := sbb_ex w3 m3 c2
  obtain ⟨d4, β4, e4, q4, b4, c4⟩ := sbb_ex w4 m4 c3
  obtain ⟨d5, β5, e5, q5, b5, c5⟩ := sbb_ex w5 m5 c4
  refine ⟨d0, d1, d2, d3, d4, d5, β0, β1, β2, β3, β4, β5, e0, e1, e2, e3, e4, e5, ?_⟩
  have hD : val ⟨d0, d1, d2, d3, d4, d5⟩ + val m = val a + W ^ 6 * β5 := by
    simp only [val]
    clear e0 e1 e2 e3 e4 e5
    generalize W = w at *
    zify at *
    linear_combination q0 + w * q1 + w ^ 2 * q2 + w ^ 3 * q3 + w ^ 4 * q4 + w ^ 5 * q5
  have hDl := val_lt (s := ⟨d0, d1, d2, d3, d4, d5⟩) ⟨b0, b1, b2, b3, b4, b5⟩
  have hnl := val_lt ha
  have hml := val_lt hm
  have hb : β5 = 0 ∨ β5 = 1 := by omega
  generalize val a = x at *
  generalize val m = y at *
  generalize val ⟨d0, d1, d2, d3, d4, d5⟩ = z at *
  clear q0 q1 q2 q3 q4 q5 e0 e1 e2 e3 e4 e5
  generalize W ^ 6 = w6 at *
  rcases hb with rfl | rfl <;> omega

theorem borrow_bit {β : Nat} (h : β = 0 ∨ β = 1) : β * (W - 1) % 256 &&& 1 = β := by
  rcases h with rfl | rfl <;> simp [W]

/-- Decoding accepts exactly the integers below the modulus. -/
theorem fromBytes_spec {bs : List Nat} (hl : bs.length = 48) (hb : ∀ b ∈ bs, b < 256) :
    (fromBe bs < fpModulus → ∃ s, fromBytes bs = some s ∧ Rep s (fromBe bs : Fq)) ∧
    (fpModulus ≤ fromBe bs → fromBytes bs = none) := by
  have hv := fromBe_six bs hl
  have w5 : fromBe (bs.take 8) < W := by simpa using beWord_lt hb 0
  have hw : Words ⟨fromBe ((bs.drop 40).take 8), fromBe ((bs.drop 32).take 8), fromBe ((bs.drop 24).take 8),
      fromBe ((bs.drop 16).take 8), fromBe ((bs.drop 8).take 8), fromBe (bs.take 8)⟩ :=
    ⟨beWord_lt hb 40, beWord_lt hb 32, beWord_lt hb 24, beWord_lt hb 16, beWord_lt hb 8, w5⟩
  have hrep := mulR2_rep hw
  rw [← hv] at hrep
  obtain ⟨d0, d1, d2, d3, d4, d5, β0, β1, β2, β3, β4, β5, e0, e1, e2, e3, e4, e5, hc⟩ :=
    borrow_six hw words_modulus
  rw [← hv, val_modulus] at hc
  have hbit : β5 * (W - 1) % 256 &&& 1 = β5 := borrow_bit (by omega)
  unfold fromBytes
  simp only at e0 e1 e2 e3 e4 e5
  simp only [e0, e1, e2, e3, e4, e5]
  rw [hbit]
  rcases hc with ⟨rfl, h⟩ | ⟨rfl, h⟩
  · exact ⟨fun _ => ⟨_, if_pos rfl, hrep⟩, fun h' => absurd h (by omega)⟩
  · exact ⟨fun h' => absurd h (by omega), fun _ => by simp⟩

theorem toBe_length (n x : Nat) : (toBe n x).length = n := by simp [toBe, toLe_length]

theorem toBe_bytes (n x : Nat) : ∀ b ∈ toBe n x, b < 256 := fun b hb =>
  toLe_bytes n x b (List.mem_reverse.1 hb)

theorem fromBe_toBe (n x : Nat) : fromBe (toBe n x) = x % 256 ^ n := by
  rw [fromBe, toBe, List.reverse_reverse, fromLe_toLe]

theorem toBytes_spec {s : Fp} {x : Fq} (hs : Rep s x) :
    (toBytes s).length = 48 ∧ (∀ b ∈ toBytes s, b < 256) ∧ fromBe (toBytes s) = x.val := by
  obtain ⟨⟨h0, h1, h2, h3, h4, h5⟩, e⟩ := reduce_rep hs
  rw [toBytes]
  refine ⟨by simp [toBe_length], ?_, ?_⟩
  · intro b hb
    simp only [List.mem_append] at hb
    rcases hb with ((((hb | hb) | hb) | hb) | hb) | hb <;> exact toBe_bytes _ _ b hb
  · rw [← e]
    simp only [fromBe_append, fromBe_toBe, toBe_length, val]
    rw [show (256 : Nat) ^ 8 = W by norm_num [W], Nat.mod_eq_of_lt h0, Nat.mod_eq_of_lt h1,
      Nat.mod_eq_of_lt h2, Nat.mod_eq_of_lt h3, Nat.mod_eq_of_lt h4, Nat.mod_eq_of_lt h5]
    ring

theorem fromBe_inj {a b : List Nat} (hl : a.length = b.length) (ha : ∀ x ∈ a, x < 256) (hb : ∀ x ∈ b, x < 256)
    (h : fromBe a = fromBe b) : a = b := by
  have := Scalar.fromLe_inj (a := a.reverse) (b := b.reverse) (by simp [hl])
    (fun x hx => ha x (List.mem_reverse.1 hx)) (fun x hx => hb x (List.mem_reverse.1 hx)) h
  exact List.reverse_injective this

/-- Of a nonzero element and its negation exactly the larger one is called largest. -/
theorem lexLargest_spec {s : Fp} {x : Fq} (hs : Rep s x) :
    lexLargest s = decide ((fpModulus - 1) / 2 < x.val) := by
  obtain ⟨hw, e⟩ := reduce_rep hs
  have hm : Words ⟨0xdcff7fffffffd556, 0x0f55ffff58a9ffff, 0xb39869507b587b12, 0xb23ba5c279c2895f,
      0x258dd3db21a5d66b, 0x0d0088f51cbff34d⟩ := by simp [Words, W]
  have hmv : val ⟨0xdcff7fffffffd556, 0x0f55ffff58a9ffff, 0xb39869507b587b12, 0xb23ba5c279c2895f,
      0x258dd3db21a5d66b, 0x0d0088f51cbff34d⟩ = (fpModulus - 1) / 2 + 1 := by decide +kernel
  unfold lexLargest
  generalize montgomeryReduce s.l0 s.l1 s.l2 s.l3 s.l4 s.l5 0 0 0 0 0 0 = t at *
  obtain ⟨d0, d1, d2, d3, d4, d5, β0, β1, β2, β3, β4, β5, e0, e1, e2, e3, e4, e5, hc⟩ :=
    borrow_six hw hm
  rw [hmv, e] at hc
  have hbit : β5 * (W - 1) % 256 &&& 1 = β5 := borrow_bit (by omega)
  simp only at e0 e1 e2 e3 e4 e5
  simp only [e0, e1, e2, e3, e4, e5]
  rw [hbit]
  rcases hc with ⟨rfl, h⟩ | ⟨rfl, h⟩
  · symm
    simpa using by omega
  · symm
    simpa using by omega

theorem fromU768_rep {l0 l1 l2 l3 l4 l5 l6 l7 l8 l9 l10 l11 : Nat}
    (h0 : Words ⟨l5, l4, l3, l2, l1, l0⟩) (h1 : Words ⟨l11, l10, l9, l8, l7, l6⟩) :
    Rep (fromU768 l0 l1 l2 l3 l4 l5 l6 l7 l8 l9 l10 l11)
      ((val ⟨l5, l4, l3, l2, l1, l0⟩ : Fq) + 2 ^ 384 * (val ⟨l11, l10, l9, l8, l7, l6⟩ : Fq)) := by
  rw [mul_comm (2 ^ 384 : Fq)]
  exact add_rep (mulR2_rep h0) (mulR3_rep h1)

end Kzg.Zk.Fp
