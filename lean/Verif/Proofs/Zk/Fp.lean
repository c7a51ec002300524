import Verif.Spec.ZkFp
import Verif.Proofs.Zk.Limbs
/-!
# Integer meaning of the six-word operations of zkcrypto's base field
-/

namespace Kzg.Zk.Fp

theorem val_lt {s : Fp} (h : Words s) : val s < W ^ 6 := by
  obtain ⟨h0, h1, h2, h3, h4, h5⟩ := h
  simp only [val, W] at *
  omega

theorem val_inj {s t : Fp} (hs : Words s) (ht : Words t) (h : val s = val t) : s = t := by
  obtain ⟨h0, h1, h2, h3, h4, h5⟩ := hs
  obtain ⟨g0, g1, g2, g3, g4, g5⟩ := ht
  cases s; cases t
  simp only [val, W, mk.injEq] at *
  omega

theorem words_modulus : Words modulus := by simp [Words, modulus, W]

theorem val_modulus : val modulus = fpModulus := by simp [val, modulus, W, fpModulus]

theorem select_mask {x r β : Nat} (hx : x < W) (hr : r < W) (hβ : β ≤ 1) :
    (x &&& β * (W - 1)) ||| (r &&& wnot (β * (W - 1))) = if β = 1 then x else r := by
  have h0 : β = 0 ∨ β = 1 := by omega
  rcases h0 with rfl | rfl
  · have : wnot (0 * (W - 1)) = 1 * (W - 1) := by simp [wnot, W]
    rw [this, and_mask hx (Nat.zero_le 1), and_mask hr le_rfl]
    simp
  · have : wnot (1 * (W - 1)) = 0 * (W - 1) := by simp [wnot, W]
    rw [this, and_mask hx le_rfl, and_mask hr (Nat.zero_le 1)]
    simp

theorem subtractP_spec {a : Fp} (ha : Words a) (hab : val a < 2 * fpModulus) :
    Red (subtractP a) ∧ val (subtractP a) = val a % fpModulus := by
  obtain ⟨a0, a1, a2, a3, a4, a5⟩ := a
  obtain ⟨h0, h1, h2, h3, h4, h5⟩ := ha
  dsimp only at h0 h1 h2 h3 h4 h5
  obtain ⟨m0, m1, m2, m3, m4, m5⟩ := words_modulus
  have hm := val_modulus
  obtain ⟨d0, β0, e0, q0, b0, c0⟩ := sbb_ex0 h0 m0
  obtain ⟨d1, β1, e1, q1, b1, c1⟩ := sbb_ex h1 m1 c0
  obtain ⟨d2, β2, e2, q2, b2, c2⟩ := sbb_ex h2 m2 c1
  obtain ⟨d3, β3, e3, q3, b3, c3⟩ := sbb_ex h3 m3 c2
  obtain ⟨d4, β4, e4, q4, b4, c4⟩ := sbb_ex h4 m4 c3
  obtain ⟨d5, β5, e5, q5, b5, c5⟩ := sbb_ex h5 m5 c4
  have hs : subtractP ⟨a0, a1, a2, a3, a4, a5⟩ = if β5 = 1 then ⟨a0, a1, a2, a3, a4, a5⟩ else ⟨d0, d1, d2, d3, d4, d5⟩ := by
    simp only [subtractP, e0, e1, e2, e3, e4, e5, select_mask h0 b0 c5, select_mask h1 b1 c5, select_mask h2 b2 c5, select_mask h3 b3 c5, select_mask h4 b4 c5, select_mask h5 b5 c5]
    split <;> rfl
  have hD : val ⟨d0, d1, d2, d3, d4, d5⟩ + val modulus = val ⟨a0, a1, a2, a3, a4, a5⟩ + W ^ 6 * β5 := by
    simp only [val]
    clear hs e0 e1 e2 e3 e4 e5 hab hm
    generalize W = w at *
    zify at *
    linear_combination q0 + w * q1 + w ^ 2 * q2 + w ^ 3 * q3 + w ^ 4 * q4 + w ^ 5 * q5
  have lD := val_lt (s := ⟨d0, d1, d2, d3, d4, d5⟩) ⟨b0, b1, b2, b3, b4, b5⟩
  have lA := val_lt (s := ⟨a0, a1, a2, a3, a4, a5⟩) ⟨h0, h1, h2, h3, h4, h5⟩
  rw [hs]
  rw [hm] at hD
  have h5' : β5 = 0 ∨ β5 = 1 := by omega
  clear hs e0 e1 e2 e3 e4 e5 q0 q1 q2 q3 q4 q5
  rcases h5' with rfl | rfl
  · rw [if_neg (by omega)]
    have e : val ⟨d0, d1, d2, d3, d4, d5⟩ = val ⟨a0, a1, a2, a3, a4, a5⟩ % fpModulus := by
      rw [Nat.mod_eq_sub_mod (by omega), Nat.mod_eq_of_lt (by omega)]
      omega
    exact ⟨⟨⟨b0, b1, b2, b3, b4, b5⟩, by rw [e]; exact Nat.mod_lt _ (by simp [fpModulus])⟩, e⟩
  · rw [if_pos rfl]
    have l : val ⟨a0, a1, a2, a3, a4, a5⟩ < fpModulus := by
      generalize W ^ 6 = w6 at *
      omega
    exact ⟨⟨⟨h0, h1, h2, h3, h4, h5⟩, l⟩, (Nat.mod_eq_of_lt l).symm⟩

theorem add_spec {a b : Fp} (ha : Words a) (hb : Words b) (hab : val a + val b < 2 * fpModulus) :
    Red (add a b) ∧ val (add a b) = (val a + val b) % fpModulus := by
  obtain ⟨ha0, ha1, ha2, ha3, ha4, ha5⟩ := ha
  obtain ⟨hb0, hb1, hb2, hb3, hb4, hb5⟩ := hb
  obtain ⟨f0, k0, g0, p0, n0, o0⟩ := adc_ex1 ha0 hb0 (Nat.zero_le 1)
  obtain ⟨f1, k1, g1, p1, n1, o1⟩ := adc_ex1 ha1 hb1 o0
  obtain ⟨f2, k2, g2, p2, n2, o2⟩ := adc_ex1 ha2 hb2 o1
  obtain ⟨f3, k3, g3, p3, n3, o3⟩ := adc_ex1 ha3 hb3 o2
  obtain ⟨f4, k4, g4, p4, n4, o4⟩ := adc_ex1 ha4 hb4 o3
  obtain ⟨f5, k5, g5, p5, n5, o5⟩ := adc_ex1 ha5 hb5 o4
  have hs : add a b = subtractP ⟨f0, f1, f2, f3, f4, f5⟩ := by
    simp only [add, g0, g1, g2, g3, g4, g5]
  have hv : val ⟨f0, f1, f2, f3, f4, f5⟩ = val a + val b := by
    have h : val ⟨f0, f1, f2, f3, f4, f5⟩ + W ^ 6 * k5 = val a + val b := by
      simp only [val]
      clear hs g0 g1 g2 g3 g4 g5 hab
      generalize W = w at *
      zify at *
      linear_combination p0 + w * p1 + w ^ 2 * p2 + w ^ 3 * p3 + w ^ 4 * p4 + w ^ 5 * p5
    have h3 : k5 = 0 := by
      have hq : 2 * fpModulus < W ^ 6 := by simp [fpModulus, W]
      generalize fpModulus = q at *
      generalize W ^ 6 = w6 at *
      have : k5 = 0 ∨ k5 = 1 := by omega
      rcases this with h0 | rfl
      · exact h0
      · omega
    rw [h3] at h
    omega
  rw [hs, ← hv]
  exact subtractP_spec ⟨n0, n1, n2, n3, n4, n5⟩ (by rw [hv]; exact hab)

theorem neg_red {a : Fp} (ha : Red a) :
    Red (neg a) ∧ val (neg a) = (fpModulus - val a) % fpModulus := by
  obtain ⟨⟨ha0, ha1, ha2, ha3, ha4, ha5⟩, hlt⟩ := ha
  obtain ⟨m0, m1, m2, m3, m4, m5⟩ := words_modulus
  obtain ⟨d0, β0, e0, q0, b0, c0⟩ := sbb_ex0 m0 ha0
  obtain ⟨d1, β1, e1, q1, b1, c1⟩ := sbb_ex m1 ha1 c0
  obtain ⟨d2, β2, e2, q2, b2, c2⟩ := sbb_ex m2 ha2 c1
  obtain ⟨d3, β3, e3, q3, b3, c3⟩ := sbb_ex m3 ha3 c2
  obtain ⟨d4, β4, e4, q4, b4, c4⟩ := sbb_ex m4 ha4 c3
  obtain ⟨d5, β5, e5, q5, b5, c5⟩ := sbb_ex m5 ha5 c4
  have hm := val_modulus
  by_cases hz : val a = 0
  · have hz' : a.l0 = 0 ∧ a.l1 = 0 ∧ a.l2 = 0 ∧ a.l3 = 0 ∧ a.l4 = 0 ∧ a.l5 = 0 := by
      simp only [val, W] at hz
      omega
    have hs : neg a = ⟨0, 0, 0, 0, 0, 0⟩ := by
      simp [neg, hz'.1, hz'.2.1, hz'.2.2.1, hz'.2.2.2.1, hz'.2.2.2.2.1, hz'.2.2.2.2.2, wsub, W]
    rw [hs, hz]
    constructor
    · simp [Red, Words, val, W, fpModulus]
    · simp [val]
  · have hz' : ¬ (a.l0 ||| a.l1 ||| a.l2 ||| a.l3 ||| a.l4 ||| a.l5) = 0 := by
      simp only [or_eq_zero_iff]
      rintro ⟨⟨⟨⟨⟨h0, h1⟩, h2⟩, h3⟩, h4⟩, h5⟩
      apply hz
      simp [val, h0, h1, h2, h3, h4, h5]
    have hmask : wsub 0 1 = 1 * (W - 1) := by simp [wsub, W]
    have hs : neg a = ⟨d0, d1, d2, d3, d4, d5⟩ := by
      have am : ∀ x, x < W → x &&& (W - 1) = x := fun x hx => by simpa using and_mask hx le_rfl
      simp only [neg, if_neg hz', hmask, e0, e1, e2, e3, e4, e5, one_mul, am _ b0, am _ b1, am _ b2, am _ b3,
        am _ b4, am _ b5]
    have hv : val (neg a) = fpModulus - val a := by
      have h : val (neg a) + val a = fpModulus + W ^ 6 * β5 := by
        rw [hs, ← hm]
        simp only [val]
        clear hs hm e0 e1 e2 e3 e4 e5 hmask hz' hz hlt
        generalize W = w at *
        zify at *
        linear_combination q0 + w * q1 + w ^ 2 * q2 + w ^ 3 * q3 + w ^ 4 * q4 + w ^ 5 * q5
      have hl : val (neg a) < W ^ 6 := by
        rw [hs]
        exact val_lt ⟨b0, b1, b2, b3, b4, b5⟩
      generalize fpModulus = q at *
      generalize W ^ 6 = w6 at *
      have : β5 = 0 ∨ β5 = 1 := by omega
      rcases this with h0 | rfl
      · rw [h0] at h
        omega
      · omega
    have hw : Words (neg a) := by
      rw [hs]
      exact ⟨b0, b1, b2, b3, b4, b5⟩
    refine ⟨⟨hw, ?_⟩, ?_⟩
    · rw [hv]
      omega
    · rw [hv, Nat.mod_eq_of_lt (by omega)]

theorem sub_red {a b : Fp} (ha : Red a) (hb : Red b) :
    Red (sub a b) ∧ val (sub a b) = (val a + (fpModulus - val b)) % fpModulus := by
  obtain ⟨r, e⟩ := neg_red hb
  have h1 := r.2
  have h2 := ha.2
  obtain ⟨r', e'⟩ := add_spec r.1 ha.1 (by omega)
  refine ⟨r', ?_⟩
  rw [sub, e', e, Nat.mod_add_mod, Nat.add_comm]

theorem wmul_lt (a b : Nat) : wmul a b < W := Nat.mod_lt _ (by simp [W])

theorem inv_spec (r : Nat) : (r + wmul r inv * modulus.l0) % W = 0 := by
  have h : (1 + inv * modulus.l0) % W = 0 := by simp [inv, modulus, W]
  have : r + r * inv * modulus.l0 = r * (1 + inv * modulus.l0) := by ring
  simp only [wmul]
  rw [Nat.add_mod, Nat.mod_mul_mod, ← Nat.add_mod, this, Nat.mul_mod, h]
  simp

/-- Step `mac r k m0 0` of the reduction, where the low word vanishes. -/
theorem mac_first {r : Nat} (hr : r < W) :
    ∃ lo hi, mac r (wmul r inv) modulus.l0 0 = (lo, hi) ∧ W * hi = r + wmul r inv * modulus.l0 ∧ hi < W := by
  obtain ⟨lo, hi, e, q, b, c⟩ := mac_ex hr (wmul_lt r inv)
    words_modulus.1 (by simp [W] : 0 < W)
  refine ⟨lo, hi, e, ?_, c⟩
  have := inv_spec r
  rw [add_zero] at q
  rw [← q, Nat.add_mul_mod_self_left, Nat.mod_eq_of_lt b] at this
  omega

/-- One row of the reduction: the low word is cleared, the window moves up by one word. -/
theorem mont_row {r0 r1 r2 r3 r4 r5 t u : Nat} (h0 : r0 < W) (h1 : r1 < W) (h2 : r2 < W) (h3 : r3 < W)
    (h4 : r4 < W) (h5 : r5 < W) (ht : t < W) (hu : u < W) :
    ∃ K, wmul r0 inv = K ∧ K < W ∧ ∃ z c0 x1 c1 x2 c2 x3 c3 x4 c4 x5 c5 x6 c6,
      (mac r0 K modulus.l0 0 = (z, c0) ∧ mac r1 K modulus.l1 c0 = (x1, c1) ∧
        mac r2 K modulus.l2 c1 = (x2, c2) ∧ mac r3 K modulus.l3 c2 = (x3, c3) ∧
        mac r4 K modulus.l4 c3 = (x4, c4) ∧ mac r5 K modulus.l5 c4 = (x5, c5) ∧ adc t u c5 = (x6, c6)) ∧
      (x1 < W ∧ x2 < W ∧ x3 < W ∧ x4 < W ∧ x5 < W ∧ x6 < W ∧ c6 < W) ∧
      W * (x1 + W * x2 + W ^ 2 * x3 + W ^ 3 * x4 + W ^ 4 * x5 + W ^ 5 * x6 + W ^ 6 * c6) =
        r0 + W * r1 + W ^ 2 * r2 + W ^ 3 * r3 + W ^ 4 * r4 + W ^ 5 * r5 + W ^ 6 * (t + u) + K * fpModulus := by
  obtain ⟨m0, m1, m2, m3, m4, m5⟩ := words_modulus
  have hm := val_modulus
  obtain ⟨z, c0, e0, q0, d0⟩ := mac_first h0
  have k := wmul_lt r0 inv
  refine ⟨_, rfl, k, ?_⟩
  generalize wmul r0 inv = K at *
  obtain ⟨x1, c1, e1, q1, b1, d1⟩ := mac_ex h1 k m1 d0
  obtain ⟨x2, c2, e2, q2, b2, d2⟩ := mac_ex h2 k m2 d1
  obtain ⟨x3, c3, e3, q3, b3, d3⟩ := mac_ex h3 k m3 d2
  obtain ⟨x4, c4, e4, q4, b4, d4⟩ := mac_ex h4 k m4 d3
  obtain ⟨x5, c5, e5, q5, b5, d5⟩ := mac_ex h5 k m5 d4
  obtain ⟨x6, c6, e6, q6, b6, d6⟩ := adc_ex ht hu d5
  have d6' : c6 < W := by simp only [W]; omega
  refine ⟨z, c0, x1, c1, x2, c2, x3, c3, x4, c4, x5, c5, x6, c6, ⟨e0, e1, e2, e3, e4, e5, e6⟩,
    ⟨b1, b2, b3, b4, b5, b6, d6'⟩, ?_⟩
  rw [← hm]
  simp only [val]
  clear e0 e1 e2 e3 e4 e5 e6 hm
  generalize W = w at *
  zify at *
  linear_combination q0 + w * q1 + w ^ 2 * q2 + w ^ 3 * q3 + w ^ 4 * q4 + w ^ 5 * q5 + w ^ 6 * q6

theorem montgomeryReduce_spec {t0 t1 t2 t3 t4 t5 t6 t7 t8 t9 t10 t11 : Nat} (h0 : t0 < W) (h1 : t1 < W) (h2 : t2 < W) (h3 : t3 < W) (h4 : t4 < W) (h5 : t5 < W) (h6 : t6 < W) (h7 : t7 < W) (h8 : t8 < W) (h9 : t9 < W) (h10 : t10 < W) (h11 : t11 < W)
    (hT : t0 + W * t1 + W ^ 2 * t2 + W ^ 3 * t3 + W ^ 4 * t4 + W ^ 5 * t5 + W ^ 6 * t6 + W ^ 7 * t7 + W ^ 8 * t8 + W ^ 9 * t9 + W ^ 10 * t10 + W ^ 11 * t11 < W ^ 6 * fpModulus) :
    Red (montgomeryReduce t0 t1 t2 t3 t4 t5 t6 t7 t8 t9 t10 t11) ∧
    (W ^ 6 * val (montgomeryReduce t0 t1 t2 t3 t4 t5 t6 t7 t8 t9 t10 t11)) % fpModulus =
      (t0 + W * t1 + W ^ 2 * t2 + W ^ 3 * t3 + W ^ 4 * t4 + W ^ 5 * t5 + W ^ 6 * t6 + W ^ 7 * t7 + W ^ 8 * t8 + W ^ 9 * t9 + W ^ 10 * t10 + W ^ 11 * t11) % fpModulus := by
  have hz : 0 < W := by simp [W]
  obtain ⟨K0, hK0, k0, z0, c0_0, x0_1, c0_1, x0_2, c0_2, x0_3, c0_3, x0_4, c0_4, x0_5, c0_5, x0_6, c0_6,
    ⟨e0_0, e0_1, e0_2, e0_3, e0_4, e0_5, e0_6⟩, ⟨b0_1, b0_2, b0_3, b0_4, b0_5, b0_6, b0_7⟩, q0⟩ :=
    mont_row h0 h1 h2 h3 h4 h5 h6 hz
  obtain ⟨K1, hK1, k1, z1, c1_0, x1_1, c1_1, x1_2, c1_2, x1_3, c1_3, x1_4, c1_4, x1_5, c1_5, x1_6, c1_6,
    ⟨e1_0, e1_1, e1_2, e1_3, e1_4, e1_5, e1_6⟩, ⟨b1_1, b1_2, b1_3, b1_4, b1_5, b1_6, b1_7⟩, q1⟩ :=
    mont_row b0_1 b0_2 b0_3 b0_4 b0_5 b0_6 h7 b0_7
  obtain ⟨K2, hK2, k2, z2, c2_0, x2_1, c2_1, x2_2, c2_2, x2_3, c2_3, x2_4, c2_4, x2_5, c2_5, x2_6, c2_6,
    ⟨e2_0, e2_1, e2_2, e2_3, e2_4, e2_5, e2_6⟩, ⟨b2_1, b2_2, b2_3, b2_4, b2_5, b2_6, b2_7⟩, q2⟩ :=
    mont_row b1_1 b1_2 b1_3 b1_4 b1_5 b1_6 h8 b1_7
  obtain ⟨K3, hK3, k3, z3, c3_0, x3_1, c3_1, x3_2, c3_2, x3_3, c3_3, x3_4, c3_4, x3_5, c3_5, x3_6, c3_6,
    ⟨e3_0, e3_1, e3_2, e3_3, e3_4, e3_5, e3_6⟩, ⟨b3_1, b3_2, b3_3, b3_4, b3_5, b3_6, b3_7⟩, q3⟩ :=
    mont_row b2_1 b2_2 b2_3 b2_4 b2_5 b2_6 h9 b2_7
  obtain ⟨K4, hK4, k4, z4, c4_0, x4_1, c4_1, x4_2, c4_2, x4_3, c4_3, x4_4, c4_4, x4_5, c4_5, x4_6, c4_6,
    ⟨e4_0, e4_1, e4_2, e4_3, e4_4, e4_5, e4_6⟩, ⟨b4_1, b4_2, b4_3, b4_4, b4_5, b4_6, b4_7⟩, q4⟩ :=
    mont_row b3_1 b3_2 b3_3 b3_4 b3_5 b3_6 h10 b3_7
  obtain ⟨K5, hK5, k5, z5, c5_0, x5_1, c5_1, x5_2, c5_2, x5_3, c5_3, x5_4, c5_4, x5_5, c5_5, x5_6, c5_6,
    ⟨e5_0, e5_1, e5_2, e5_3, e5_4, e5_5, e5_6⟩, ⟨b5_1, b5_2, b5_3, b5_4, b5_5, b5_6, b5_7⟩, q5⟩ :=
    mont_row b4_1 b4_2 b4_3 b4_4 b4_5 b4_6 h11 b4_7
  have hs : montgomeryReduce t0 t1 t2 t3 t4 t5 t6 t7 t8 t9 t10 t11 = subtractP ⟨x5_1, x5_2, x5_3, x5_4, x5_5, x5_6⟩ := by
    simp only [montgomeryReduce, hK0, e0_0, e0_1, e0_2, e0_3, e0_4, e0_5, e0_6, hK1, e1_0, e1_1, e1_2, e1_3,
      e1_4, e1_5, e1_6, hK2, e2_0, e2_1, e2_2, e2_3, e2_4, e2_5, e2_6, hK3, e3_0, e3_1, e3_2, e3_3,
      e3_4, e3_5, e3_6, hK4, e4_0, e4_1, e4_2, e4_3, e4_4, e4_5, e4_6, hK5, e5_0, e5_1, e5_2, e5_3,
      e5_4, e5_5, e5_6]
  clear hK0 e0_0 e0_1 e0_2 e0_3 e0_4 e0_5 e0_6 hK1 e1_0 e1_1 e1_2 e1_3 e1_4 e1_5 e1_6 hK2 e2_0 e2_1 e2_2
    e2_3 e2_4 e2_5 e2_6 hK3 e3_0 e3_1 e3_2 e3_3 e3_4 e3_5 e3_6 hK4 e4_0 e4_1 e4_2 e4_3 e4_4 e4_5 e4_6
    hK5 e5_0 e5_1 e5_2 e5_3 e5_4 e5_5 e5_6
  have key : W ^ 6 * (val ⟨x5_1, x5_2, x5_3, x5_4, x5_5, x5_6⟩ + W ^ 6 * c5_6) = (t0 + W * t1 + W ^ 2 * t2 + W ^ 3 * t3 + W ^ 4 * t4 + W ^ 5 * t5 + W ^ 6 * t6 + W ^ 7 * t7 + W ^ 8 * t8 + W ^ 9 * t9 + W ^ 10 * t10 + W ^ 11 * t11) + (K0 + W * K1 + W ^ 2 * K2 + W ^ 3 * K3 + W ^ 4 * K4 + W ^ 5 * K5) * fpModulus := by
    simp only [val]
    clear hs hT
    generalize fpModulus = m at *
    generalize W = w at *
    zify at *
    linear_combination q0 + w * q1 + w ^ 2 * q2 + w ^ 3 * q3 + w ^ 4 * q4 + w ^ 5 * q5
  have hK : K0 + W * K1 + W ^ 2 * K2 + W ^ 3 * K3 + W ^ 4 * K4 + W ^ 5 * K5 < W ^ 6 := by
    clear hs q0 q1 q2 q3 q4 q5 hT key
    simp only [W] at *
    omega
  generalize K0 + W * K1 + W ^ 2 * K2 + W ^ 3 * K3 + W ^ 4 * K4 + W ^ 5 * K5 = K at *
  generalize hTT : t0 + W * t1 + W ^ 2 * t2 + W ^ 3 * t3 + W ^ 4 * t4 + W ^ 5 * t5 + W ^ 6 * t6 + W ^ 7 * t7 + W ^ 8 * t8 + W ^ 9 * t9 + W ^ 10 * t10 + W ^ 11 * t11 = T at *
  have hw : Words ⟨x5_1, x5_2, x5_3, x5_4, x5_5, x5_6⟩ := ⟨b5_1, b5_2, b5_3, b5_4, b5_5, b5_6⟩
  have hlt : val ⟨x5_1, x5_2, x5_3, x5_4, x5_5, x5_6⟩ + W ^ 6 * c5_6 < 2 * fpModulus := by
    have : W ^ 6 * (val ⟨x5_1, x5_2, x5_3, x5_4, x5_5, x5_6⟩ + W ^ 6 * c5_6) < W ^ 6 * (2 * fpModulus) := by
      rw [key]
      have h2 : K * fpModulus ≤ W ^ 6 * fpModulus := Nat.mul_le_mul_right _ hK.le
      rw [show W ^ 6 * (2 * fpModulus) = W ^ 6 * fpModulus + W ^ 6 * fpModulus by ring]
      exact Nat.add_lt_add_of_lt_of_le hT h2
    exact Nat.lt_of_mul_lt_mul_left this
  have hc0 : c5_6 = 0 := by
    have h2 : 2 * fpModulus < W ^ 6 := by simp [fpModulus, W]
    rcases Nat.eq_zero_or_pos c5_6 with h | h
    · exact h
    · have := Nat.mul_le_mul_left (W ^ 6) h
      generalize W ^ 6 * c5_6 = u at *
      generalize W ^ 6 = w6 at *
      omega
  rw [hc0, mul_zero, add_zero] at key hlt
  obtain ⟨r, e⟩ := subtractP_spec hw hlt
  rw [hs]
  refine ⟨r, ?_⟩
  rw [e, Nat.mul_mod_mod, key, Nat.add_mul_mod_self_right]

/-- One row of the schoolbook product. -/
theorem mul_row {r0 r1 r2 r3 r4 r5 a b0 b1 b2 b3 b4 b5 : Nat} (h0 : r0 < W) (h1 : r1 < W) (h2 : r2 < W)
    (h3 : r3 < W) (h4 : r4 < W) (h5 : r5 < W) (ha : a < W) (g0 : b0 < W) (g1 : b1 < W) (g2 : b2 < W)
    (g3 : b3 < W) (g4 : b4 < W) (g5 : b5 < W) :
    ∃ x0 c0 x1 c1 x2 c2 x3 c3 x4 c4 x5 c5,
      (mac r0 a b0 0 = (x0, c0) ∧ mac r1 a b1 c0 = (x1, c1) ∧ mac r2 a b2 c1 = (x2, c2) ∧
        mac r3 a b3 c2 = (x3, c3) ∧ mac r4 a b4 c3 = (x4, c4) ∧ mac r5 a b5 c4 = (x5, c5)) ∧
      (x0 < W ∧ x1 < W ∧ x2 < W ∧ x3 < W ∧ x4 < W ∧ x5 < W ∧ c5 < W) ∧
      x0 + W * x1 + W ^ 2 * x2 + W ^ 3 * x3 + W ^ 4 * x4 + W ^ 5 * x5 + W ^ 6 * c5 =
        r0 + W * r1 + W ^ 2 * r2 + W ^ 3 * r3 + W ^ 4 * r4 + W ^ 5 * r5
          + a * (b0 + W * b1 + W ^ 2 * b2 + W ^ 3 * b3 + W ^ 4 * b4 + W ^ 5 * b5) := by
  have hz : 0 < W := by simp [W]
  obtain ⟨x0, c0, e0, q0, l0, d0⟩ := mac_ex h0 ha g0 hz
  obtain ⟨x1, c1, e1, q1, l1, d1⟩ := mac_ex h1 ha g1 d0
  obtain ⟨x2, c2, e2, q2, l2, d2⟩ := mac_ex h2 ha g2 d1
  obtain ⟨x3, c3, e3, q3, l3, d3⟩ := mac_ex h3 ha g3 d2
  obtain ⟨x4, c4, e4, q4, l4, d4⟩ := mac_ex h4 ha g4 d3
  obtain ⟨x5, c5, e5, q5, l5, d5⟩ := mac_ex h5 ha g5 d4
  refine ⟨x0, c0, x1, c1, x2, c2, x3, c3, x4, c4, x5, c5, ⟨e0, e1, e2, e3, e4, e5⟩,
    ⟨l0, l1, l2, l3, l4, l5, d5⟩, ?_⟩
  clear e0 e1 e2 e3 e4 e5
  generalize W = w at *
  zify at *
  linear_combination q0 + w * q1 + w ^ 2 * q2 + w ^ 3 * q3 + w ^ 4 * q4 + w ^ 5 * q5

theorem mul_spec {a b : Fp} (ha : Words a) (hb : Words b) (hab : val a * val b < W ^ 6 * fpModulus) :
    Red (mul a b) ∧ (W ^ 6 * val (mul a b)) % fpModulus = (val a * val b) % fpModulus := by
  obtain ⟨a0, a1, a2, a3, a4, a5⟩ := a
  obtain ⟨b0, b1, b2, b3, b4, b5⟩ := b
  obtain ⟨ha0, ha1, ha2, ha3, ha4, ha5⟩ := ha
  obtain ⟨hb0, hb1, hb2, hb3, hb4, hb5⟩ := hb
  have hz : 0 < W := by simp [W]
  dsimp only at ha0 ha1 ha2 ha3 ha4 ha5 hb0 hb1 hb2 hb3 hb4 hb5
  obtain ⟨x0_0, c0_0, x0_1, c0_1, x0_2, c0_2, x0_3, c0_3, x0_4, c0_4, x0_5, c0_5,
    ⟨e0_0, e0_1, e0_2, e0_3, e0_4, e0_5⟩, ⟨l0_0, l0_1, l0_2, l0_3, l0_4, l0_5, l0_6⟩, q0⟩ :=
    mul_row hz hz hz hz hz hz ha0 hb0 hb1 hb2 hb3 hb4 hb5
  obtain ⟨x1_0, c1_0, x1_1, c1_1, x1_2, c1_2, x1_3, c1_3, x1_4, c1_4, x1_5, c1_5,
    ⟨e1_0, e1_1, e1_2, e1_3, e1_4, e1_5⟩, ⟨l1_0, l1_1, l1_2, l1_3, l1_4, l1_5, l1_6⟩, q1⟩ :=
    mul_row l0_1 l0_2 l0_3 l0_4 l0_5 l0_6 ha1 hb0 hb1 hb2 hb3 hb4 hb5
  obtain ⟨x2_0, c2_0, x2_1, c2_1, x2_2, c2_2, x2_3, c2_3, x2_4, c2_4, x2_5, c2_5,
    ⟨e2_0, e2_1, e2_2, e2_3, e2_4, e2_5⟩, ⟨l2_0, l2_1, l2_2, l2_3, l2_4, l2_5, l2_6⟩, q2⟩ :=
    mul_row l1_1 l1_2 l1_3 l1_4 l1_5 l1_6 ha2 hb0 hb1 hb2 hb3 hb4 hb5
  obtain ⟨x3_0, c3_0, x3_1, c3_1, x3_2, c3_2, x3_3, c3_3, x3_4, c3_4, x3_5, c3_5,
    ⟨e3_0, e3_1, e3_2, e3_3, e3_4, e3_5⟩, ⟨l3_0, l3_1, l3_2, l3_3, l3_4, l3_5, l3_6⟩, q3⟩ :=
    mul_row l2_1 l2_2 l2_3 l2_4 l2_5 l2_6 ha3 hb0 hb1 hb2 hb3 hb4 hb5
  obtain ⟨x4_0, c4_0, x4_1, c4_1, x4_2, c4_2, x4_3, c4_3, x4_4, c4_4, x4_5, c4_5,
    ⟨e4_0, e4_1, e4_2, e4_3, e4_4, e4_5⟩, ⟨l4_0, l4_1, l4_2, l4_3, l4_4, l4_5, l4_6⟩, q4⟩ :=
    mul_row l3_1 l3_2 l3_3 l3_4 l3_5 l3_6 ha4 hb0 hb1 hb2 hb3 hb4 hb5
  obtain ⟨x5_0, c5_0, x5_1, c5_1, x5_2, c5_2, x5_3, c5_3, x5_4, c5_4, x5_5, c5_5,
    ⟨e5_0, e5_1, e5_2, e5_3, e5_4, e5_5⟩, ⟨l5_0, l5_1, l5_2, l5_3, l5_4, l5_5, l5_6⟩, q5⟩ :=
    mul_row l4_1 l4_2 l4_3 l4_4 l4_5 l4_6 ha5 hb0 hb1 hb2 hb3 hb4 hb5
  have hs : mul ⟨a0, a1, a2, a3, a4, a5⟩ ⟨b0, b1, b2, b3, b4, b5⟩ = montgomeryReduce x0_0 x1_0 x2_0 x3_0 x4_0 x5_0 x5_1 x5_2 x5_3 x5_4 x5_5 c5_5 := by
    simp only [mul, e0_0, e0_1, e0_2, e0_3, e0_4, e0_5, e1_0, e1_1, e1_2, e1_3, e1_4, e1_5, e2_0, e2_1, e2_2,
      e2_3, e2_4, e2_5, e3_0, e3_1, e3_2, e3_3, e3_4, e3_5, e4_0, e4_1, e4_2, e4_3, e4_4, e4_5, e5_0,
      e5_1, e5_2, e5_3, e5_4, e5_5]
  clear e0_0 e0_1 e0_2 e0_3 e0_4 e0_5 e1_0 e1_1 e1_2 e1_3 e1_4 e1_5 e2_0 e2_1 e2_2 e2_3 e2_4 e2_5 e3_0 e3_1
    e3_2 e3_3 e3_4 e3_5 e4_0 e4_1 e4_2 e4_3 e4_4 e4_5 e5_0 e5_1 e5_2 e5_3 e5_4 e5_5
  have key : val ⟨a0, a1, a2, a3, a4, a5⟩ * val ⟨b0, b1, b2, b3, b4, b5⟩ = x0_0 + W * x1_0 + W ^ 2 * x2_0 + W ^ 3 * x3_0 + W ^ 4 * x4_0 + W ^ 5 * x5_0 + W ^ 6 * x5_1 + W ^ 7 * x5_2 + W ^ 8 * x5_3 + W ^ 9 * x5_4 + W ^ 10 * x5_5 + W ^ 11 * c5_5 := by
    simp only [val]
    clear hs hab
    generalize b0 + W * b1 + W ^ 2 * b2 + W ^ 3 * b3 + W ^ 4 * b4 + W ^ 5 * b5 = B at *
    generalize W = w at *
    zify at *
    linear_combination -(q0 + w * q1 + w ^ 2 * q2 + w ^ 3 * q3 + w ^ 4 * q4 + w ^ 5 * q5)
  rw [hs, key]
  rw [key] at hab
  exact montgomeryReduce_spec l0_0 l1_0 l2_0 l3_0 l4_0 l5_0 l5_1 l5_2 l5_3 l5_4 l5_5 l5_6 hab

set_option linter.unusedVariables false in
/-- `square` reduces the same double-width product as `mul`. -/
theorem square_spec {a : Fp} (ha : Words a) (hab : val a * val a < W ^ 6 * fpModulus) :
    Red (square a) ∧ (W ^ 6 * val (square a)) % fpModulus = (val a * val a) % fpModulus := by
  obtain ⟨a0, a1, a2, a3, a4, a5⟩ := a
  obtain ⟨ha0, ha1, ha2, ha3, ha4, ha5⟩ := ha
  have hz : 0 < W := by simp [W]
  dsimp only at ha0 ha1 ha2 ha3 ha4 ha5
  obtain ⟨x0_1, c0_1, e0_1, q0_1, l0_1, d0_1⟩ := mac_ex hz ha0 ha1 hz
  obtain ⟨x0_2, c0_2, e0_2, q0_2, l0_2, d0_2⟩ := mac_ex hz ha0 ha2 d0_1
  obtain ⟨x0_3, c0_3, e0_3, q0_3, l0_3, d0_3⟩ := mac_ex hz ha0 ha3 d0_2
  obtain ⟨x0_4, c0_4, e0_4, q0_4, l0_4, d0_4⟩ := mac_ex hz ha0 ha4 d0_3
  obtain ⟨x0_5, c0_5, e0_5, q0_5, l0_5, d0_5⟩ := mac_ex hz ha0 ha5 d0_4
  obtain ⟨x1_2, c1_2, e1_2, q1_2, l1_2, d1_2⟩ := mac_ex l0_3 ha1 ha2 hz
  obtain ⟨x1_3, c1_3, e1_3, q1_3, l1_3, d1_3⟩ := mac_ex l0_4 ha1 ha3 d1_2
  obtain ⟨x1_4, c1_4, e1_4, q1_4, l1_4, d1_4⟩ := mac_ex l0_5 ha1 ha4 d1_3
  obtain ⟨x1_5, c1_5, e1_5, q1_5, l1_5, d1_5⟩ := mac_ex d0_5 ha1 ha5 d1_4
  obtain ⟨x2_3, c2_3, e2_3, q2_3, l2_3, d2_3⟩ := mac_ex l1_4 ha2 ha3 hz
  obtain ⟨x2_4, c2_4, e2_4, q2_4, l2_4, d2_4⟩ := mac_ex l1_5 ha2 ha4 d2_3
  obtain ⟨x2_5, c2_5, e2_5, q2_5, l2_5, d2_5⟩ := mac_ex d1_5 ha2 ha5 d2_4
  obtain ⟨x3_4, c3_4, e3_4, q3_4, l3_4, d3_4⟩ := mac_ex l2_5 ha3 ha4 hz
  obtain ⟨x3_5, c3_5, e3_5, q3_5, l3_5, d3_5⟩ := mac_ex d2_5 ha3 ha5 d3_4
  obtain ⟨x4_5, c4_5, e4_5, q4_5, l4_5, d4_5⟩ := mac_ex d3_5 ha4 ha5 hz
  obtain ⟨D1, B1, hD1, hd1⟩ := dbl_ex1 l0_1
  obtain ⟨D2, B2, hD2, hd2⟩ := dbl_ex l0_2 l0_1
  obtain ⟨D3, B3, hD3, hd3⟩ := dbl_ex l1_2 l0_2
  obtain ⟨D4, B4, hD4, hd4⟩ := dbl_ex l1_3 l1_2
  obtain ⟨D5, B5, hD5, hd5⟩ := dbl_ex l2_3 l1_3
  obtain ⟨D6, B6, hD6, hd6⟩ := dbl_ex l2_4 l2_3
  obtain ⟨D7, B7, hD7, hd7⟩ := dbl_ex l3_4 l2_4
  obtain ⟨D8, B8, hD8, hd8⟩ := dbl_ex l3_5 l3_4
  obtain ⟨D9, B9, hD9, hd9⟩ := dbl_ex l4_5 l3_5
  obtain ⟨D10, B10, hD10, hd10⟩ := dbl_ex d4_5 l4_5
  obtain ⟨D11, hD11, hd11⟩ : ∃ D, shr c4_5 63 = D ∧ (D = c4_5 / 2 ^ 63 ∧ D < W) :=
    ⟨_, rfl, rfl, by
      have h := d4_5
      simp only [shr]
      simp only [W] at h ⊢
      omega⟩
  obtain ⟨w0, i0, E0, Q0, L0, K0⟩ := mac_ex hz ha0 ha0 hz
  obtain ⟨w1, i1, E1, Q1, L1, K1⟩ := adc_ex hd1.2.2 hz K0
  have K1' : i1 < W := lt_of_le_of_lt K1 (by simp [W])
  obtain ⟨w2, i2, E2, Q2, L2, K2⟩ := mac_ex hd2.2.2 ha1 ha1 K1'
  obtain ⟨w3, i3, E3, Q3, L3, K3⟩ := adc_ex hd3.2.2 hz K2
  have K3' : i3 < W := lt_of_le_of_lt K3 (by simp [W])
  obtain ⟨w4, i4, E4, Q4, L4, K4⟩ := mac_ex hd4.2.2 ha2 ha2 K3'
  obtain ⟨w5, i5, E5, Q5, L5, K5⟩ := adc_ex hd5.2.2 hz K4
  have K5' : i5 < W := lt_of_le_of_lt K5 (by simp [W])
  obtain ⟨w6, i6, E6, Q6, L6, K6⟩ := mac_ex hd6.2.2 ha3 ha3 K5'
  obtain ⟨w7, i7, E7, Q7, L7, K7⟩ := adc_ex hd7.2.2 hz K6
  have K7' : i7 < W := lt_of_le_of_lt K7 (by simp [W])
  obtain ⟨w8, i8, E8, Q8, L8, K8⟩ := mac_ex hd8.2.2 ha4 ha4 K7'
  obtain ⟨w9, i9, E9, Q9, L9, K9⟩ := adc_ex hd9.2.2 hz K8
  have K9' : i9 < W := lt_of_le_of_lt K9 (by simp [W])
  obtain ⟨w10, i10, E10, Q10, L10, K10⟩ := mac_ex hd10.2.2 ha5 ha5 K9'
  obtain ⟨w11, i11, E11, Q11, L11, K11⟩ := adc_ex hd11.2 hz K10
  have K11' : i11 < W := lt_of_le_of_lt K11 (by simp [W])
  have hs : square ⟨a0, a1, a2, a3, a4, a5⟩ = montgomeryReduce w0 w1 w2 w3 w4 w5 w6 w7 w8 w9 w10 w11 := by
    simp only [square, e0_1, e0_2, e0_3, e0_4, e0_5, e1_2, e1_3, e1_4, e1_5, e2_3, e2_4, e2_5, e3_4, e3_5, e4_5,
      hD1, hD2, hD3, hD4, hD5, hD6, hD7, hD8, hD9, hD10, hD11, E0, E1, E2, E3, E4, E5, E6, E7, E8, E9,
      E10, E11]
  clear e0_1 e0_2 e0_3 e0_4 e0_5 e1_2 e1_3 e1_4 e1_5 e2_3 e2_4 e2_5 e3_4 e3_5 e4_5 hD1 hD2 hD3 hD4 hD5 hD6
    hD7 hD8 hD9 hD10 hD11 E0 E1 E2 E3 E4 E5 E6 E7 E8 E9 E10 E11
  obtain ⟨X1, y1, -⟩ := hd1
  obtain ⟨X2, y2, -⟩ := hd2
  obtain ⟨X3, y3, -⟩ := hd3
  obtain ⟨X4, y4, -⟩ := hd4
  obtain ⟨X5, y5, -⟩ := hd5
  obtain ⟨X6, y6, -⟩ := hd6
  obtain ⟨X7, y7, -⟩ := hd7
  obtain ⟨X8, y8, -⟩ := hd8
  obtain ⟨X9, y9, -⟩ := hd9
  obtain ⟨X10, y10, -⟩ := hd10
  obtain ⟨X11, -⟩ := hd11
  rw [← y1] at X2
  rw [← y2] at X3
  rw [← y3] at X4
  rw [← y4] at X5
  rw [← y5] at X6
  rw [← y6] at X7
  rw [← y7] at X8
  rw [← y8] at X9
  rw [← y9] at X10
  rw [← y10] at X11
  clear y1 y2 y3 y4 y5 y6 y7 y8 y9 y10
  have cross : W * x0_1 + W ^ 2 * x0_2 + W ^ 3 * x1_2 + W ^ 4 * x1_3 + W ^ 5 * x2_3 + W ^ 6 * x2_4 + W ^ 7 * x3_4 + W ^ 8 * x3_5 + W ^ 9 * x4_5 + W ^ 10 * c4_5 =
      W ^ 1 * (a0 * a1) + W ^ 2 * (a0 * a2) + W ^ 3 * (a0 * a3) + W ^ 4 * (a0 * a4) + W ^ 5 * (a0 * a5) + W ^ 3 * (a1 * a2) + W ^ 4 * (a1 * a3) + W ^ 5 * (a1 * a4) + W ^ 6 * (a1 * a5) + W ^ 5 * (a2 * a3) + W ^ 6 * (a2 * a4) + W ^ 7 * (a2 * a5) + W ^ 7 * (a3 * a4) + W ^ 8 * (a3 * a5) + W ^ 9 * (a4 * a5) := by
    clear X1 X2 X3 X4 X5 X6 X7 X8 X9 X10 X11 Q0 Q1 Q2 Q3 Q4 Q5 Q6 Q7 Q8 Q9 Q10 Q11 hs hab
    generalize W = w at *
    zify at *
    linear_combination w * q0_1 + w ^ 2 * q0_2 + w ^ 3 * q0_3 + w ^ 4 * q0_4 + w ^ 5 * q0_5 + w ^ 3 * q1_2 + w ^ 4 * q1_3
      + w ^ 5 * q1_4 + w ^ 6 * q1_5 + w ^ 5 * q2_3 + w ^ 6 * q2_4 + w ^ 7 * q2_5 + w ^ 7 * q3_4 + w ^ 8
      * q3_5 + w ^ 9 * q4_5
  clear q0_1 q0_2 q0_3 q0_4 q0_5 q1_2 q1_3 q1_4 q1_5 q2_3 q2_4 q2_5 q3_4 q3_5 q4_5
  have dbl : W * D1 + W ^ 2 * D2 + W ^ 3 * D3 + W ^ 4 * D4 + W ^ 5 * D5 + W ^ 6 * D6 + W ^ 7 * D7 + W ^ 8 * D8 + W ^ 9 * D9 + W ^ 10 * D10 + W ^ 11 * D11 = 2 * (W * x0_1 + W ^ 2 * x0_2 + W ^ 3 * x1_2 + W ^ 4 * x1_3 + W ^ 5 * x2_3 + W ^ 6 * x2_4 + W ^ 7 * x3_4 + W ^ 8 * x3_5 + W ^ 9 * x4_5 + W ^ 10 * c4_5) := by
    clear cross hs hab Q0 Q1 Q2 Q3 Q4 Q5 Q6 Q7 Q8 Q9 Q10 Q11
    generalize W = w at *
    zify at *
    linear_combination -(w * X1 + w ^ 2 * X2 + w ^ 3 * X3 + w ^ 4 * X4 + w ^ 5 * X5 + w ^ 6 * X6 + w ^ 7 * X7 + w ^ 8 * X8 + w ^ 9 * X9 + w ^ 10 * X10) + w ^ 11 * X11
  have sq : w0 + W * w1 + W ^ 2 * w2 + W ^ 3 * w3 + W ^ 4 * w4 + W ^ 5 * w5 + W ^ 6 * w6 + W ^ 7 * w7 + W ^ 8 * w8 + W ^ 9 * w9 + W ^ 10 * w10 + W ^ 11 * w11 + W ^ 12 * i11 = (W * D1 + W ^ 2 * D2 + W ^ 3 * D3 + W ^ 4 * D4 + W ^ 5 * D5 + W ^ 6 * D6 + W ^ 7 * D7 + W ^ 8 * D8 + W ^ 9 * D9 + W ^ 10 * D10 + W ^ 11 * D11)
      + (a0 * a0 + W ^ 2 * (a1 * a1) + W ^ 4 * (a2 * a2) + W ^ 6 * (a3 * a3) + W ^ 8 * (a4 * a4) + W ^ 10 * (a5 * a5)) := by
    clear cross hs hab dbl X1 X2 X3 X4 X5 X6 X7 X8 X9 X10 X11
    generalize W = w at *
    zify at *
    linear_combination Q0 + w * Q1 + w ^ 2 * Q2 + w ^ 3 * Q3 + w ^ 4 * Q4 + w ^ 5 * Q5 + w ^ 6 * Q6 + w ^ 7 * Q7 + w ^ 8 * Q8 + w ^ 9 * Q9 + w ^ 10 * Q10 + w ^ 11 * Q11
  have key : val ⟨a0, a1, a2, a3, a4, a5⟩ * val ⟨a0, a1, a2, a3, a4, a5⟩ = w0 + W * w1 + W ^ 2 * w2 + W ^ 3 * w3 + W ^ 4 * w4 + W ^ 5 * w5 + W ^ 6 * w6 + W ^ 7 * w7 + W ^ 8
      * w8 + W ^ 9 * w9 + W ^ 10 * w10 + W ^ 11 * w11 + W ^ 12 * i11 := by
    rw [sq, dbl, cross]
    simp only [val]
    generalize W = w
    ring
  have hi : i11 = 0 := by
    have : W ^ 12 * i11 < W ^ 12 := by
      calc W ^ 12 * i11 ≤ val ⟨a0, a1, a2, a3, a4, a5⟩ * val ⟨a0, a1, a2, a3, a4, a5⟩ := by
            rw [key]; exact Nat.le_add_left _ _
        _ < W ^ 6 * fpModulus := hab
        _ < W ^ 12 := by simp [W, fpModulus]
    rcases Nat.eq_zero_or_pos i11 with h | h
    · exact h
    · have := Nat.mul_le_mul_left (W ^ 12) h
      omega
  rw [hi, mul_zero, add_zero] at key
  rw [hs, key]
  rw [key] at hab
  exact montgomeryReduce_spec L0 L1 L2 L3 L4 L5 L6 L7 L8 L9 L10 L11 hab

end Kzg.Zk.Fp
