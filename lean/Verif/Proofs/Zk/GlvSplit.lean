import Verif.Proofs.Zk.GlvDigits
import Verif.Proofs.Zk.ScalarBytes
/-!
# The two half scalars of the endomorphism method
-/

namespace Kzg.Zk.Glv
open Kzg

/-- `mul_short` is the exact product. -/
theorem mulShort_spec {a0 a1 a2 a3 b0 b1 b2 : Nat} (ha0 : a0 < W) (ha1 : a1 < W) (ha2 : a2 < W) (ha3 : a3 < W)
    (hb0 : b0 < W) (hb1 : b1 < W) (hb2 : b2 < W) :
    let r := mulShort a0 a1 a2 a3 b0 b1 b2
    r.r0 < W ∧ r.r1 < W ∧ r.r2 < W ∧ r.r3 < W ∧ r.r4 < W ∧ r.r5 < W ∧ r.r6 < W ∧ r.r7 = 0 ∧
    r.r0 + W * r.r1 + W ^ 2 * r.r2 + W ^ 3 * r.r3 + W ^ 4 * (r.r4 + W * r.r5 + W ^ 2 * r.r6) =
      (a0 + W * a1 + W ^ 2 * a2 + W ^ 3 * a3) * (b0 + W * b1 + W ^ 2 * b2) := by
  have hz : 0 < W := by norm_num [W]
  unfold mulShort
  obtain ⟨x0, c0, e0, q0, l0, g0⟩ := mac_ex hz ha0 hb0 hz
  obtain ⟨x1, c1, e1, q1, l1, g1⟩ := mac_ex hz ha0 hb1 g0
  obtain ⟨x2, c2, e2, q2, l2, g2⟩ := mac_ex hz ha0 hb2 g1
  obtain ⟨y1, d1, f1, p1, m1, n1⟩ := mac_ex l1 ha1 hb0 hz
  obtain ⟨y2, d2, f2, p2, m2, n2⟩ := mac_ex l2 ha1 hb1 n1
  obtain ⟨y3, d3, f3, p3, m3, n3⟩ := mac_ex g2 ha1 hb2 n2
  obtain ⟨z2, u2, i2, o2, s2, t2⟩ := mac_ex m2 ha2 hb0 hz
  obtain ⟨z3, u3, i3, o3, s3, t3⟩ := mac_ex m3 ha2 hb1 t2
  obtain ⟨z4, u4, i4, o4, s4, t4⟩ := mac_ex n3 ha2 hb2 t3
  obtain ⟨w3, v3, j3, k3, a3', b3'⟩ := mac_ex s3 ha3 hb0 hz
  obtain ⟨w4, v4, j4, k4, a4', b4'⟩ := mac_ex s4 ha3 hb1 b3'
  obtain ⟨w5, v5, j5, k5, a5', b5'⟩ := mac_ex t4 ha3 hb2 b4'
  simp only [e0, e1, e2, f1, f2, f3, i2, i3, i4, j3, j4, j5]
  refine ⟨l0, m1, s2, a3', a4', a5', b5', trivial, ?_⟩
  clear e0 e1 e2 f1 f2 f3 i2 i3 i4 j3 j4 j5 ha0 ha1 ha2 ha3 hb0 hb1 hb2 l0 l1 l2 g0 g1 g2 m1 m2 m3 n1 n2 n3
    s2 s3 s4 t2 t3 t4 a3' a4' a5' b3' b4' b5' hz
  generalize W = w at *
  zify at *
  linear_combination q0 + w * q1 + w ^ 2 * q2 + w * p1 + w ^ 2 * p2 + w ^ 3 * p3 + w ^ 2 * o2 + w ^ 3 * o3
    + w ^ 4 * o4 + w ^ 3 * k3 + w ^ 4 * k4 + w ^ 5 * k5

/-- `sub_borrow`: the difference modulo `2^256`, and 0 or -1. -/
theorem subBorrow_spec {a0 a1 a2 a3 b0 b1 b2 b3 : Nat} (ha0 : a0 < W) (ha1 : a1 < W) (ha2 : a2 < W) (ha3 : a3 < W)
    (hb0 : b0 < W) (hb1 : b1 < W) (hb2 : b2 < W) (hb3 : b3 < W) :
    ∃ (d0 d1 d2 d3 β : Nat), subBorrow a0 a1 a2 a3 b0 b1 b2 b3 = ((d0, d1, d2, d3), -(β : Int)) ∧ β ≤ 1 ∧
      d0 < W ∧ d1 < W ∧ d2 < W ∧ d3 < W ∧
      (d0 + W * d1 + W ^ 2 * d2 + W ^ 3 * d3) + (b0 + W * b1 + W ^ 2 * b2 + W ^ 3 * b3) =
        (a0 + W * a1 + W ^ 2 * a2 + W ^ 3 * a3) + W ^ 4 * β := by
  unfold subBorrow
  obtain ⟨d0, β0, e0, q0, l0, g0⟩ := sbb_ex0 ha0 hb0
  obtain ⟨d1, β1, e1, q1, l1, g1⟩ := sbb_ex ha1 hb1 g0
  obtain ⟨d2, β2, e2, q2, l2, g2⟩ := sbb_ex ha2 hb2 g1
  obtain ⟨d3, β3, e3, q3, l3, g3⟩ := sbb_ex ha3 hb3 g2
  simp only [e0, e1, e2, e3]
  refine ⟨d0, d1, d2, d3, β3, ?_, g3, l0, l1, l2, l3, ?_⟩
  · congr 1
    interval_cases β3 <;> simp [asI8, W]
  · clear e0 e1 e2 e3 ha0 ha1 ha2 ha3 hb0 hb1 hb2 hb3 l0 l1 l2 l3 g0 g1 g2 g3
    generalize W = w at *
    zify at *
    linear_combination q0 + w * q1 + w ^ 2 * q2 + w ^ 3 * q3

/-- The multiplier of the rounding, `≈ 2^256 / lambda`. -/
def mu : Nat := 0x17c6becf1e01faadd63f6e522f6cfee2f

/-- The eigenvalue of the endomorphism. -/
def lambda : Nat := 0xac45a4010001a40200000000ffffffff

/-- The rounded quotient `k · mu / 2^256`. -/
def quot (k : Nat) : Nat := (k * mu + 2 ^ 255) / 2 ^ 256

/-- Adding the rounding bit does not carry out of the lowest word of the quotient. -/
def NoCarry (k : Nat) : Prop := k * mu / 2 ^ 256 % 2 ^ 64 + k * mu / 2 ^ 255 % 2 < 2 ^ 64

instance (k : Nat) : Decidable (NoCarry k) := by unfold NoCarry; infer_instance

theorem quot_eq (k : Nat) : quot k = k * mu / 2 ^ 256 + k * mu / 2 ^ 255 % 2 := by
  unfold quot
  generalize k * mu = X
  omega

theorem mu_words : 0x63f6e522f6cfee2f + W * 0x7c6becf1e01faadd + W ^ 2 * 1 = mu := by norm_num [W, mu]

theorem lambda_words : 0x00000000ffffffff + W * 0xac45a4010001a402 + W ^ 2 * 0 = lambda := by norm_num [W, lambda]

/-- The first half scalar is short. -/
theorem half_bounds {k : Nat} (hk : k ≤ frModulus) :
    (k : Int) - lambda * quot k < 2 ^ 128 ∧ -(2 ^ 128 : Int) < (k : Int) - lambda * quot k ∧
      lambda * quot k < 2 ^ 256 ∧ quot k < 2 ^ 128 := by
  have h1 := Nat.div_add_mod (k * mu + 2 ^ 255) (2 ^ 256)
  have h2 := Nat.mod_lt (k * mu + 2 ^ 255) (show 0 < 2 ^ 256 by norm_num)
  change 2 ^ 256 * quot k + _ = _ at h1
  generalize quot k = q at *
  generalize (k * mu + 2 ^ 255) % 2 ^ 256 = rem at *
  simp only [frModulus, mu, lambda] at *
  omega

theorem choiceOf_zero : choiceOf 0 = false := by decide
theorem choiceOf_neg : choiceOf (-1) = true := by decide

/-- The words of the quotient. -/
theorem quot_words {t0 t1 t2 t3 : Nat} (h0 : t0 < W) (h1 : t1 < W) (h2 : t2 < W) (h3 : t3 < W) {k : Nat}
    (hk : k = t0 + W * t1 + W ^ 2 * t2 + W ^ 3 * t3) :
    let r := mulShort t0 t1 t2 t3 0x63f6e522f6cfee2f 0x7c6becf1e01faadd 1
    r.r4 < W ∧ r.r5 < W ∧ r.r6 < W ∧ r.r7 = 0 ∧ shr r.r3 63 ≤ 1 ∧ r.r4 = k * mu / 2 ^ 256 % 2 ^ 64 ∧
      shr r.r3 63 = k * mu / 2 ^ 255 % 2 ∧ r.r4 + W * r.r5 + W ^ 2 * r.r6 = k * mu / 2 ^ 256 := by
  intro r
  obtain ⟨g0, g1, g2, g3, g4, g5, g6, g7, e⟩ := mulShort_spec h0 h1 h2 h3
    (show 0x63f6e522f6cfee2f < W by norm_num [W]) (show 0x7c6becf1e01faadd < W by norm_num [W])
    (show 1 < W by norm_num [W])
  rw [← hk, mu_words] at e
  change r.r0 + W * r.r1 + W ^ 2 * r.r2 + W ^ 3 * r.r3 + W ^ 4 * (r.r4 + W * r.r5 + W ^ 2 * r.r6) = _ at e
  change r.r0 < W at g0
  change r.r1 < W at g1
  change r.r2 < W at g2
  change r.r3 < W at g3
  change r.r4 < W at g4
  change r.r5 < W at g5
  change r.r6 < W at g6
  refine ⟨g4, g5, g6, g7, ?_⟩
  unfold shr
  generalize k * mu = X at *
  generalize r.r0 = x0 at *
  generalize r.r1 = x1 at *
  generalize r.r2 = x2 at *
  generalize r.r3 = x3 at *
  generalize r.r4 = x4 at *
  generalize r.r5 = x5 at *
  generalize r.r6 = x6 at *
  clear r hk h0 h1 h2 h3 g7
  simp only [W] at *
  norm_num at *
  omega

/-- Splitting the scalar, when the rounding bit does not carry. -/
theorem glvRecoding_ok (chk : Bool) {k : List Nat} (hl : k.length = 32) (hb : ∀ c ∈ k, c < 256)
    (hk : fromLe k ≤ frModulus) (hc : NoCarry (fromLe k)) :
    ∃ (β : Nat) (k1 k2 : List Nat), glvRecoding chk k = .ok (-(β : Int), k1, 0, k2) ∧ β ≤ 1 ∧
      k1.length = 32 ∧ (∀ c ∈ k1, c < 256) ∧ k2.length = 32 ∧ (∀ c ∈ k2, c < 256) ∧
      fromLe k1 < 2 ^ 128 ∧ fromLe k2 < 2 ^ 128 ∧
      (fromLe k : Int) = (if β = 1 then -(fromLe k1 : Int) else fromLe k1) + lambda * fromLe k2 ∧
      fromLe k2 = quot (fromLe k) := by
  have w0 : fromLe (k.take 8) < W := by simpa using Scalar.word_lt hb 0
  have w1 := Scalar.word_lt hb 8
  have w2 := Scalar.word_lt hb 16
  have w3 := Scalar.word_lt hb 24
  have hv : fromLe k = fromLe (k.take 8) + W * fromLe ((k.drop 8).take 8) + W ^ 2 * fromLe ((k.drop 16).take 8) +
      W ^ 3 * fromLe ((k.drop 24).take 8) := by
    have := Scalar.fromLe_four k (by omega)
    rw [List.drop_of_length_le (show k.length ≤ 32 by omega)] at this
    rw [this, Scalar.val, fromLe, mul_zero, add_zero]
  obtain ⟨g4, g5, g6, g7, gb, e4, eb, eq⟩ := quot_words w0 w1 w2 w3 hv
  obtain ⟨B1, B2, B3, B4⟩ := half_bounds hk
  unfold glvRecoding
  dsimp only
  generalize fromLe (k.take 8) = t0 at *
  generalize fromLe ((k.drop 8).take 8) = t1 at *
  generalize fromLe ((k.drop 16).take 8) = t2 at *
  generalize fromLe ((k.drop 24).take 8) = t3 at *
  generalize mulShort t0 t1 t2 t3 0x63f6e522f6cfee2f 0x7c6becf1e01faadd 1 = b2 at *
  have hadd : addU64 chk b2.r4 (shr b2.r3 63) = .ok (b2.r4 + shr b2.r3 63) := by
    unfold addU64
    rw [if_pos]
    rw [e4, eb]
    exact hc
  have hlt : b2.r4 + shr b2.r3 63 < W := by rw [e4, eb]; exact hc
  have hq : (b2.r4 + shr b2.r3 63) + W * b2.r5 + W ^ 2 * b2.r6 + W ^ 3 * 0 = quot (fromLe k) := by
    rw [quot_eq, ← eq, ← eb]; ring
  simp only [hadd, Res.bind_ok, g7]
  generalize b2.r4 + shr b2.r3 63 = h at *
  have hz : 0 < W := by norm_num [W]
  obtain ⟨m0, m1, m2, m3, m4, m5, m6, m7, me⟩ := mulShort_spec hlt g5 g6 hz
    (show 0x00000000ffffffff < W by norm_num [W]) (show 0xac45a4010001a402 < W by norm_num [W]) hz
  rw [hq, lambda_words] at me
  generalize mulShort h b2.r5 b2.r6 0 0x00000000ffffffff 0xac45a4010001a402 0 = b1 at *
  have hlow : b1.r0 + W * b1.r1 + W ^ 2 * b1.r2 + W ^ 3 * b1.r3 = lambda * quot (fromLe k) := by
    rw [mul_comm lambda]
    rw [mul_comm lambda] at B3
    generalize quot (fromLe k) * lambda = Y at *
    have : b1.r4 + W * b1.r5 + W ^ 2 * b1.r6 = 0 := by
      by_contra hne
      have : W ^ 4 ≤ W ^ 4 * (b1.r4 + W * b1.r5 + W ^ 2 * b1.r6) := Nat.le_mul_of_pos_right _ (by omega)
      have : W ^ 4 = 2 ^ 256 := by norm_num [W]
      omega
    rw [this] at me
    simpa using me
  obtain ⟨d0, d1, d2, d3, β, hs, hβ, l0, l1, l2, l3, hd⟩ := subBorrow_spec w0 w1 w2 w3 m0 m1 m2 m3
  rw [hlow, ← hv] at hd
  rw [hs]
  have hk2 := Scalar.fromRaw_rep hlt g5 g6 hz
  obtain ⟨p1, p2, p3⟩ := Scalar.toBytes_spec hk2
  rw [Scalar.val, hq, ZMod.val_natCast, Nat.mod_eq_of_lt (by simp only [frModulus]; omega)] at p3
  have w4 : W ^ 4 = 2 ^ 256 := by norm_num [W]
  rw [w4] at hd
  have hk1 := Scalar.fromRaw_rep l0 l1 l2 l3
  have hW1 : ∀ x, x < W → wnot x < W := fun x hx => by unfold wnot; simp only [W] at *; omega
  have hnot : Scalar.val ⟨wnot d0, wnot d1, wnot d2, wnot d3⟩ + (Scalar.val ⟨d0, d1, d2, d3⟩ + 1) = 2 ^ 256 := by
    simp only [Scalar.val, wnot, W] at *
    omega
  have hmk := Scalar.add_rep (Scalar.fromRaw_rep (hW1 _ l0) (hW1 _ l1) (hW1 _ l2) (hW1 _ l3)) Scalar.one_rep
  change Scalar.val ⟨d0, d1, d2, d3⟩ + _ = _ at hd
  generalize Scalar.val ⟨d0, d1, d2, d3⟩ = D at *
  generalize Scalar.val ⟨wnot d0, wnot d1, wnot d2, wnot d3⟩ = D' at *
  have hcast : ((lambda * quot (fromLe k) : Nat) : Int) = (lambda : Int) * (quot (fromLe k) : Int) := by push_cast; rfl
  rw [← hcast] at B1 B2
  simp only [Scalar.select_eq, Res.pure_eq]
  interval_cases β
  · obtain ⟨o1, o2, o3⟩ := Scalar.toBytes_spec hk1
    generalize lambda * quot (fromLe k) = Y at *
    rw [ZMod.val_natCast, Nat.mod_eq_of_lt (by simp only [frModulus]; omega)] at o3
    simp only [Nat.cast_zero, neg_zero, choiceOf_zero, Bool.false_eq_true, if_false]
    refine ⟨0, _, _, rfl, by omega, o1, o2, p1, p2, ?_, ?_, ?_, p3⟩
    · rw [o3]; omega
    · rw [p3]; exact B4
    · rw [o3, p3, ← hcast]
      simp only [zero_ne_one, if_false]
      omega
  · obtain ⟨o1, o2, o3⟩ := Scalar.toBytes_spec hmk
    generalize lambda * quot (fromLe k) = Y at *
    have e1 : (D' : Fr) + 1 = ((D' + 1 : Nat) : Fr) := by push_cast; rfl
    rw [e1, ZMod.val_natCast, Nat.mod_eq_of_lt (by simp only [frModulus]; omega)] at o3
    simp only [Nat.cast_one, choiceOf_neg, if_true]
    refine ⟨1, _, _, rfl, by omega, o1, o2, p1, p2, ?_, ?_, ?_, p3⟩
    · rw [o3]; omega
    · rw [p3]; exact B4
    · rw [o3, p3, ← hcast]
      simp only [if_true]
      omega

/-- With overflow checks, splitting panics when the rounding bit carries. -/
theorem glvRecoding_panic {k : List Nat} (hl : k.length = 32) (hb : ∀ c ∈ k, c < 256)
    (hc : ¬ NoCarry (fromLe k)) : glvRecoding true k = .panic := by
  have w0 : fromLe (k.take 8) < W := by simpa using Scalar.word_lt hb 0
  have w1 := Scalar.word_lt hb 8
  have w2 := Scalar.word_lt hb 16
  have w3 := Scalar.word_lt hb 24
  have hv : fromLe k = fromLe (k.take 8) + W * fromLe ((k.drop 8).take 8) + W ^ 2 * fromLe ((k.drop 16).take 8) +
      W ^ 3 * fromLe ((k.drop 24).take 8) := by
    have := Scalar.fromLe_four k (by omega)
    rw [List.drop_of_length_le (show k.length ≤ 32 by omega)] at this
    rw [this, Scalar.val, fromLe, mul_zero, add_zero]
  obtain ⟨g4, g5, g6, g7, gb, e4, eb, eq⟩ := quot_words w0 w1 w2 w3 hv
  unfold glvRecoding
  dsimp only
  generalize fromLe (k.take 8) = t0 at *
  generalize fromLe ((k.drop 8).take 8) = t1 at *
  generalize fromLe ((k.drop 16).take 8) = t2 at *
  generalize fromLe ((k.drop 24).take 8) = t3 at *
  generalize mulShort t0 t1 t2 t3 0x63f6e522f6cfee2f 0x7c6becf1e01faadd 1 = b2 at *
  have hadd : addU64 true b2.r4 (shr b2.r3 63) = .panic := by
    unfold addU64
    rw [if_neg, if_pos rfl]
    rw [e4, eb]
    exact hc
  simp only [hadd, Res.bind_panic]

end Kzg.Zk.Glv
