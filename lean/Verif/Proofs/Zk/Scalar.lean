import Verif.Spec.ZkScalar
import Verif.Proofs.Zk.Limbs
/-!
# Integer meaning of the four-word operations of zkcrypto's scalar field
-/

namespace Kzg.Zk.Scalar

theorem val_lt {s : Scalar} (h : Words s) : val s < W ^ 4 := by
  obtain ⟨h0, h1, h2, h3⟩ := h
  simp only [val, W] at *
  omega

theorem val_inj {s t : Scalar} (hs : Words s) (ht : Words t) (h : val s = val t) : s = t := by
  obtain ⟨h0, h1, h2, h3⟩ := hs
  obtain ⟨g0, g1, g2, g3⟩ := ht
  cases s; cases t
  simp only [val, W, mk.injEq] at *
  omega

theorem words_modulus : Words modulus := by simp [Words, modulus, W]

theorem val_modulus : val modulus = frModulus := by simp [val, modulus, W, frModulus]

theorem sub_spec {a b : Scalar} (ha : Words a) (hb : Words b) (hab : val b ≤ val a + frModulus)  :
    Words (sub a b) ∧ val (sub a b) = if val b ≤ val a then val a - val b else val a + frModulus - val b := by
  obtain ⟨ha0, ha1, ha2, ha3⟩ := ha
  obtain ⟨hb0, hb1, hb2, hb3⟩ := hb
  obtain ⟨m0, m1, m2, m3⟩ := words_modulus
  have hm := val_modulus
  obtain ⟨d0, β0, e0, q0, b0, c0⟩ := sbb_ex0 ha0 hb0
  obtain ⟨d1, β1, e1, q1, b1, c1⟩ := sbb_ex ha1 hb1 c0
  obtain ⟨d2, β2, e2, q2, b2, c2⟩ := sbb_ex ha2 hb2 c1
  obtain ⟨d3, β3, e3, q3, b3, c3⟩ := sbb_ex ha3 hb3 c2
  have hmask : ∀ x, x < W → β3 * x < W := fun x hx => by
    interval_cases β3 <;> omega
  obtain ⟨f0, k0, g0, p0, n0, o0⟩ := adc_ex1 b0 (hmask _ m0) (Nat.zero_le 1)
  obtain ⟨f1, k1, g1, p1, n1, o1⟩ := adc_ex1 b1 (hmask _ m1) o0
  obtain ⟨f2, k2, g2, p2, n2, o2⟩ := adc_ex1 b2 (hmask _ m2) o1
  obtain ⟨f3, k3, g3, p3, n3, o3⟩ := adc_ex1 b3 (hmask _ m3) o2
  have hs : sub a b = ⟨f0, f1, f2, f3⟩ := by
    simp only [sub, e0, e1, e2, e3, and_mask m0 c3, and_mask m1 c3, and_mask m2 c3, and_mask m3 c3,
      g0, g1, g2, g3]
  have hD : val ⟨d0, d1, d2, d3⟩ + val b = val a + W ^ 4 * β3 := by
    simp only [val]
    clear hs e0 e1 e2 e3 g0 g1 g2 g3 hmask hab hm
    generalize W = w at *
    zify at *
    linear_combination q0 + w * q1 + w ^ 2 * q2 + w ^ 3 * q3
  have hF : val ⟨f0, f1, f2, f3⟩ + W ^ 4 * k3 = val ⟨d0, d1, d2, d3⟩ + β3 * val modulus := by
    simp only [val]
    clear hs e0 e1 e2 e3 g0 g1 g2 g3 hmask hab hm hD
    generalize W = w at *
    zify at *
    linear_combination p0 + w * p1 + w ^ 2 * p2 + w ^ 3 * p3
  have lD := val_lt (s := ⟨d0, d1, d2, d3⟩) ⟨b0, b1, b2, b3⟩
  have lF := val_lt (s := ⟨f0, f1, f2, f3⟩) ⟨n0, n1, n2, n3⟩
  rw [hs]
  refine ⟨⟨n0, n1, n2, n3⟩, ?_⟩
  rw [hm] at hF
  generalize val ⟨d0, d1, d2, d3⟩ = D at *
  generalize val ⟨f0, f1, f2, f3⟩ = F at *
  generalize val a = A at *
  generalize val b = B at *
  have hq : frModulus < W ^ 4 := by simp [frModulus, W]
  generalize frModulus = q at *
  generalize W ^ 4 = w4 at *
  clear hs e0 e1 e2 e3 g0 g1 g2 g3 hmask q0 q1 q2 q3 p0 p1 p2 p3
  have h3 : β3 = 0 ∨ β3 = 1 := by omega
  have h4 : k3 = 0 ∨ k3 = 1 := by omega
  rcases h3 with rfl | rfl <;> rcases h4 with rfl | rfl
  · rw [if_pos (by omega)]
    omega
  · omega
  · rw [if_neg (by omega)]
    omega
  · rw [if_neg (by omega)]
    omega

theorem add_spec {a b : Scalar} (ha : Words a) (hb : Words b) (hab : val a + val b < 2 * frModulus) :
    Red (add a b) ∧ val (add a b) = (val a + val b) % frModulus := by
  obtain ⟨ha0, ha1, ha2, ha3⟩ := ha
  obtain ⟨hb0, hb1, hb2, hb3⟩ := hb
  obtain ⟨f0, k0, g0, p0, n0, o0⟩ := adc_ex1 ha0 hb0 (Nat.zero_le 1)
  obtain ⟨f1, k1, g1, p1, n1, o1⟩ := adc_ex1 ha1 hb1 o0
  obtain ⟨f2, k2, g2, p2, n2, o2⟩ := adc_ex1 ha2 hb2 o1
  obtain ⟨f3, k3, g3, p3, n3, o3⟩ := adc_ex1 ha3 hb3 o2
  have hs : add a b = sub ⟨f0, f1, f2, f3⟩ modulus := by
    simp only [add, g0, g1, g2, g3]
  have hv : val ⟨f0, f1, f2, f3⟩ = val a + val b := by
    have h : val ⟨f0, f1, f2, f3⟩ + W ^ 4 * k3 = val a + val b := by
      simp only [val]
      clear hs g0 g1 g2 g3 hab
      generalize W = w at *
      zify at *
      linear_combination p0 + w * p1 + w ^ 2 * p2 + w ^ 3 * p3
    have h3 : k3 = 0 := by
      have hq : 2 * frModulus < W ^ 4 := by simp [frModulus, W]
      generalize frModulus = q at *
      generalize W ^ 4 = w4 at *
      have : k3 = 0 ∨ k3 = 1 := by omega
      rcases this with h0 | rfl
      · exact h0
      · omega
    rw [h3] at h
    omega
  obtain ⟨w, e⟩ := sub_spec (a := ⟨f0, f1, f2, f3⟩) ⟨n0, n1, n2, n3⟩ words_modulus
    (by rw [val_modulus]; omega)
  rw [hs]
  rw [hv, val_modulus] at e
  have e2 : val (sub ⟨f0, f1, f2, f3⟩ modulus) = (val a + val b) % frModulus := by
    rw [e]
    split
    · rw [Nat.mod_eq_sub_mod (by omega), Nat.mod_eq_of_lt (by omega)]
    · rw [Nat.mod_eq_of_lt (by omega)]
      omega
  refine ⟨⟨w, ?_⟩, e2⟩
  rw [e2]
  exact Nat.mod_lt _ (by simp [frModulus])

theorem sub_red {a b : Scalar} (ha : Red a) (hb : Red b) :
    Red (sub a b) ∧ val (sub a b) = (val a + (frModulus - val b)) % frModulus := by
  obtain ⟨w, e⟩ := sub_spec ha.1 hb.1 (by have := hb.2; omega)
  have h1 := ha.2
  have h2 := hb.2
  have e2 : val (sub a b) = (val a + (frModulus - val b)) % frModulus := by
    rw [e]
    split
    · rw [Nat.mod_eq_sub_mod (by omega), Nat.mod_eq_of_lt (by omega)]
      omega
    · rw [Nat.mod_eq_of_lt (by omega)]
      omega
  refine ⟨⟨w, ?_⟩, e2⟩
  rw [e2]
  exact Nat.mod_lt _ (by simp [frModulus])

theorem neg_red {a : Scalar} (ha : Red a) :
    Red (neg a) ∧ val (neg a) = (frModulus - val a) % frModulus := by
  obtain ⟨⟨ha0, ha1, ha2, ha3⟩, hlt⟩ := ha
  obtain ⟨m0, m1, m2, m3⟩ := words_modulus
  obtain ⟨d0, β0, e0, q0, b0, c0⟩ := sbb_ex0 m0 ha0
  obtain ⟨d1, β1, e1, q1, b1, c1⟩ := sbb_ex m1 ha1 c0
  obtain ⟨d2, β2, e2, q2, b2, c2⟩ := sbb_ex m2 ha2 c1
  obtain ⟨d3, β3, e3, q3, b3, c3⟩ := sbb_ex m3 ha3 c2
  have hm := val_modulus
  by_cases hz : val a = 0
  · have hz' : a.l0 = 0 ∧ a.l1 = 0 ∧ a.l2 = 0 ∧ a.l3 = 0 := by
      simp only [val, W] at hz
      omega
    have hs : neg a = ⟨0, 0, 0, 0⟩ := by
      simp [neg, hz'.1, hz'.2.1, hz'.2.2.1, hz'.2.2.2, wsub, W]
    rw [hs, hz]
    constructor
    · simp [Red, Words, val, W, frModulus]
    · simp [val]
  · have hz' : ¬ (a.l0 ||| a.l1 ||| a.l2 ||| a.l3) = 0 := by
      simp only [or_eq_zero_iff]
      rintro ⟨⟨⟨h0, h1⟩, h2⟩, h3⟩
      apply hz
      simp [val, h0, h1, h2, h3]
    have hmask : wsub 0 1 = 1 * (W - 1) := by simp [wsub, W]
    have hs : neg a = ⟨d0, d1, d2, d3⟩ := by
      have am : ∀ x, x < W → x &&& (W - 1) = x := fun x hx => by simpa using and_mask hx le_rfl
      simp only [neg, if_neg hz', hmask, e0, e1, e2, e3, one_mul, am _ b0, am _ b1, am _ b2, am _ b3]
    have hv : val (neg a) = frModulus - val a := by
      have h : val (neg a) + val a = frModulus + W ^ 4 * β3 := by
        rw [hs, ← hm]
        simp only [val]
        clear hs hm e0 e1 e2 e3 hmask hz' hz hlt
        generalize W = w at *
        zify at *
        linear_combination q0 + w * q1 + w ^ 2 * q2 + w ^ 3 * q3
      have hl : val (neg a) < W ^ 4 := by
        rw [hs]
        exact val_lt ⟨b0, b1, b2, b3⟩
      generalize frModulus = q at *
      generalize W ^ 4 = w4 at *
      have : β3 = 0 ∨ β3 = 1 := by omega
      rcases this with h0 | rfl
      · rw [h0] at h
        omega
      · omega
    have hw : Words (neg a) := by
      rw [hs]
      exact ⟨b0, b1, b2, b3⟩
    refine ⟨⟨hw, ?_⟩, ?_⟩
    · rw [hv]
      omega
    · rw [hv, Nat.mod_eq_of_lt (by omega)]

theorem wmul_lt (a b : Nat) : wmul a b < W := Nat.mod_lt _ (by simp [W])

theorem inv_spec (r : Nat) : (r + wmul r inv * modulus.l0) % W = 0 := by
  have h : (1 + inv * modulus.l0) % W = 0 := by simp [inv, modulus, W]
  have : r + r * inv * modulus.l0 = r * (1 + inv * modulus.l0) := by ring
  simp only [wmul]
  rw [Nat.add_mod, Nat.mod_mul_mod, ← Nat.add_mod, this, Nat.mul_mod, h]
  simp

/-- Step `mac r k m0 0` of the reduction, where the low word vanishes. -/
theorem mac_first {r : Nat} (hr : r < W) :
    ∃ lo hi, mac r (wmul r inv) modulus.l0 0 = (lo, hi) ∧ W * hi = r + wmul r inv * modulus.l0 ∧ hi < W := by
  obtain ⟨lo, hi, e, q, b, c⟩ := mac_ex hr (wmul_lt r inv)
    words_modulus.1 (by simp [W] : 0 < W)
  refine ⟨lo, hi, e, ?_, c⟩
  have := inv_spec r
  rw [add_zero] at q
  rw [← q, Nat.add_mul_mod_self_left, Nat.mod_eq_of_lt b] at this
  omega

theorem montgomeryReduce_spec {r0 r1 r2 r3 r4 r5 r6 r7 : Nat} (h0 : r0 < W) (h1 : r1 < W) (h2 : r2 < W)
    (h3 : r3 < W) (h4 : r4 < W) (h5 : r5 < W) (h6 : r6 < W) (h7 : r7 < W)
    (hT : r0 + W * r1 + W ^ 2 * r2 + W ^ 3 * r3 + W ^ 4 * r4 + W ^ 5 * r5 + W ^ 6 * r6 + W ^ 7 * r7
      < W ^ 4 * frModulus) :
    Red (montgomeryReduce r0 r1 r2 r3 r4 r5 r6 r7) ∧
    (W ^ 4 * val (montgomeryReduce r0 r1 r2 r3 r4 r5 r6 r7)) % frModulus =
      (r0 + W * r1 + W ^ 2 * r2 + W ^ 3 * r3 + W ^ 4 * r4 + W ^ 5 * r5 + W ^ 6 * r6 + W ^ 7 * r7)
        % frModulus := by
  obtain ⟨m0, m1, m2, m3⟩ := words_modulus
  have hm := val_modulus
  -- first word
  obtain ⟨x0, c, e0, q0, b0⟩ := mac_first h0
  have k0 := wmul_lt r0 inv
  generalize hK0 : wmul r0 inv = K0 at *
  obtain ⟨a1, ca1, e1, q1, b1, d1⟩ := mac_ex h1 k0 m1 b0
  obtain ⟨a2, ca2, e2, q2, b2, d2⟩ := mac_ex h2 k0 m2 d1
  obtain ⟨a3, ca3, e3, q3, b3, d3⟩ := mac_ex h3 k0 m3 d2
  obtain ⟨a4, ca4, e4, q4, b4, d4⟩ := adc_ex h4 (by simp [W] : 0 < W) d3
  have d4' : ca4 < W := by simp only [W]; omega
  -- second word
  obtain ⟨x1, cb0, f0, s0, t0⟩ := mac_first b1
  have k1 := wmul_lt a1 inv
  generalize hK1 : wmul a1 inv = K1 at *
  obtain ⟨g2, cb1, f1, s1, t1, u1⟩ := mac_ex b2 k1 m1 t0
  obtain ⟨g3, cb2, f2, s2, t2, u2⟩ := mac_ex b3 k1 m2 u1
  obtain ⟨g4, cb3, f3, s3, t3, u3⟩ := mac_ex b4 k1 m3 u2
  obtain ⟨g5, cb4, f4, s4, t4, u4⟩ := adc_ex h5 d4' u3
  have u4' : cb4 < W := by simp only [W]; omega
  -- third word
  obtain ⟨x2, cc0, i0, j0, l0⟩ := mac_first t1
  have k2 := wmul_lt g2 inv
  generalize hK2 : wmul g2 inv = K2 at *
  obtain ⟨v3, cc1, i1, j1, l1, n1⟩ := mac_ex t2 k2 m1 l0
  obtain ⟨v4, cc2, i2, j2, l2, n2⟩ := mac_ex t3 k2 m2 n1
  obtain ⟨v5, cc3, i3, j3, l3, n3⟩ := mac_ex t4 k2 m3 n2
  obtain ⟨v6, cc4, i4, j4, l4, n4⟩ := adc_ex h6 u4' n3
  have n4' : cc4 < W := by simp only [W]; omega
  -- fourth word
  obtain ⟨x3, cd0, o0, p0, y0⟩ := mac_first l1
  have k3 := wmul_lt v3 inv
  generalize hK3 : wmul v3 inv = K3 at *
  obtain ⟨w4, cd1, o1, p1, y1, z1⟩ := mac_ex l2 k3 m1 y0
  obtain ⟨w5, cd2, o2, p2, y2, z2⟩ := mac_ex l3 k3 m2 z1
  obtain ⟨w6, cd3, o3, p3, y3, z3⟩ := mac_ex l4 k3 m3 z2
  obtain ⟨w7, cd4, o4, p4, y4, z4⟩ := adc_ex h7 n4' z3
  have hs : montgomeryReduce r0 r1 r2 r3 r4 r5 r6 r7 = sub ⟨w4, w5, w6, w7⟩ modulus := by
    simp only [montgomeryReduce, hK0, e0, e1, e2, e3, e4, hK1, f0, f1, f2, f3, f4, hK2, i0, i1, i2, i3, i4,
      hK3, o0, o1, o2, o3, o4]
  have key : W ^ 4 * (val ⟨w4, w5, w6, w7⟩ + W ^ 4 * cd4) =
      (r0 + W * r1 + W ^ 2 * r2 + W ^ 3 * r3 + W ^ 4 * r4 + W ^ 5 * r5 + W ^ 6 * r6 + W ^ 7 * r7)
      + (K0 + W * K1 + W ^ 2 * K2 + W ^ 3 * K3) * frModulus := by
    rw [← hm]
    simp only [val]
    clear hs e0 e1 e2 e3 e4 f0 f1 f2 f3 f4 i0 i1 i2 i3 i4 o0 o1 o2 o3 o4 hK0 hK1 hK2 hK3 hT hm
    generalize W = w at *
    zify at *
    linear_combination q0 + w * q1 + w ^ 2 * q2 + w ^ 3 * q3 + w ^ 4 * q4
      + w * (s0 + w * s1 + w ^ 2 * s2 + w ^ 3 * s3 + w ^ 4 * s4)
      + w ^ 2 * (j0 + w * j1 + w ^ 2 * j2 + w ^ 3 * j3 + w ^ 4 * j4)
      + w ^ 3 * (p0 + w * p1 + w ^ 2 * p2 + w ^ 3 * p3 + w ^ 4 * p4)
  have hK : K0 + W * K1 + W ^ 2 * K2 + W ^ 3 * K3 < W ^ 4 := by
    clear hs e0 e1 e2 e3 e4 f0 f1 f2 f3 f4 i0 i1 i2 i3 i4 o0 o1 o2 o3 o4 hK0 hK1 hK2 hK3 hT hm key
    simp only [W] at *
    omega
  generalize K0 + W * K1 + W ^ 2 * K2 + W ^ 3 * K3 = K at *
  generalize hTT : r0 + W * r1 + W ^ 2 * r2 + W ^ 3 * r3 + W ^ 4 * r4 + W ^ 5 * r5 + W ^ 6 * r6 + W ^ 7 * r7
    = T at *
  have hw : Words ⟨w4, w5, w6, w7⟩ := ⟨y1, y2, y3, y4⟩
  have hlt : val ⟨w4, w5, w6, w7⟩ + W ^ 4 * cd4 < 2 * frModulus := by
    have : W ^ 4 * (val ⟨w4, w5, w6, w7⟩ + W ^ 4 * cd4) < W ^ 4 * (2 * frModulus) := by
      rw [key]
      have h2 : K * frModulus ≤ W ^ 4 * frModulus := Nat.mul_le_mul_right _ hK.le
      rw [show W ^ 4 * (2 * frModulus) = W ^ 4 * frModulus + W ^ 4 * frModulus by ring]
      exact Nat.add_lt_add_of_lt_of_le hT h2
    exact Nat.lt_of_mul_lt_mul_left this
  have hc0 : cd4 = 0 := by
    simp only [W, frModulus] at hlt
    omega
  rw [hc0, mul_zero, add_zero] at key hlt
  obtain ⟨w, e⟩ := sub_spec hw words_modulus (by rw [val_modulus]; omega)
  rw [val_modulus] at e
  have e2 : val (sub ⟨w4, w5, w6, w7⟩ modulus) = val ⟨w4, w5, w6, w7⟩ % frModulus := by
    rw [e]
    split
    · rw [Nat.mod_eq_sub_mod (by omega), Nat.mod_eq_of_lt (by omega)]
    · rw [Nat.mod_eq_of_lt (by omega)]
      omega
  rw [hs]
  refine ⟨⟨w, ?_⟩, ?_⟩
  · rw [e2]
    exact Nat.mod_lt _ (by simp [frModulus])
  · rw [e2, Nat.mul_mod_mod, key, Nat.add_mul_mod_self_right]

theorem mul_spec {a b : Scalar} (ha : Words a) (hb : Words b) (hab : val a * val b < W ^ 4 * frModulus) :
    Red (mul a b) ∧ (W ^ 4 * val (mul a b)) % frModulus = (val a * val b) % frModulus := by
  obtain ⟨a0, a1, a2, a3⟩ := a
  obtain ⟨b0, b1, b2, b3⟩ := b
  obtain ⟨ha0, ha1, ha2, ha3⟩ := ha
  obtain ⟨hb0, hb1, hb2, hb3⟩ := hb
  have hz : 0 < W := by simp [W]
  dsimp only at ha0 ha1 ha2 ha3 hb0 hb1 hb2 hb3
  obtain ⟨r0, c0, e0, q0, l0, k0⟩ := mac_ex hz ha0 hb0 hz
  obtain ⟨r1, c1, e1, q1, l1, k1⟩ := mac_ex hz ha0 hb1 k0
  obtain ⟨r2, c2, e2, q2, l2, k2⟩ := mac_ex hz ha0 hb2 k1
  obtain ⟨r3, r4, e3, q3, l3, k3⟩ := mac_ex hz ha0 hb3 k2
  obtain ⟨s1, d0, f0, t0, m0, n0⟩ := mac_ex l1 ha1 hb0 hz
  obtain ⟨s2, d1, f1, t1, m1, n1⟩ := mac_ex l2 ha1 hb1 n0
  obtain ⟨s3, d2, f2, t2, m2, n2⟩ := mac_ex l3 ha1 hb2 n1
  obtain ⟨s4, s5, f3, t3, m3, n3⟩ := mac_ex k3 ha1 hb3 n2
  obtain ⟨u2, g0, h0, v0, o0, p0⟩ := mac_ex m1 ha2 hb0 hz
  obtain ⟨u3, g1, h1, v1, o1, p1⟩ := mac_ex m2 ha2 hb1 p0
  obtain ⟨u4, g2, h2, v2, o2, p2⟩ := mac_ex m3 ha2 hb2 p1
  obtain ⟨u5, u6, h3, v3, o3, p3⟩ := mac_ex n3 ha2 hb3 p2
  obtain ⟨x3, i0, j0, y0, z0, w0⟩ := mac_ex o1 ha3 hb0 hz
  obtain ⟨x4, i1, j1, y1, z1, w1⟩ := mac_ex o2 ha3 hb1 w0
  obtain ⟨x5, i2, j2, y2, z2, w2⟩ := mac_ex o3 ha3 hb2 w1
  obtain ⟨x6, x7, j3, y3, z3, w3⟩ := mac_ex p3 ha3 hb3 w2
  have hs : mul ⟨a0, a1, a2, a3⟩ ⟨b0, b1, b2, b3⟩ = montgomeryReduce r0 s1 u2 x3 x4 x5 x6 x7 := by
    simp only [mul, e0, e1, e2, e3, f0, f1, f2, f3, h0, h1, h2, h3, j0, j1, j2, j3]
  have key : val ⟨a0, a1, a2, a3⟩ * val ⟨b0, b1, b2, b3⟩ = r0 + W * s1 + W ^ 2 * u2 + W ^ 3 * x3 + W ^ 4 * x4
      + W ^ 5 * x5 + W ^ 6 * x6 + W ^ 7 * x7 := by
    simp only [val]
    clear hs e0 e1 e2 e3 f0 f1 f2 f3 h0 h1 h2 h3 j0 j1 j2 j3 hab
    generalize W = w at *
    zify at *
    linear_combination -(q0 + w * q1 + w ^ 2 * q2 + w ^ 3 * q3
      + w * (t0 + w * t1 + w ^ 2 * t2 + w ^ 3 * t3)
      + w ^ 2 * (v0 + w * v1 + w ^ 2 * v2 + w ^ 3 * v3)
      + w ^ 3 * (y0 + w * y1 + w ^ 2 * y2 + w ^ 3 * y3))
  rw [hs, key]
  rw [key] at hab
  exact montgomeryReduce_spec l0 m0 o0 z0 z1 z2 z3 w3 hab

/-- `square` reduces the same double-width product as `mul`. -/
theorem square_spec {a : Scalar} (ha : Words a) (hab : val a * val a < W ^ 4 * frModulus) :
    Red (square a) ∧ (W ^ 4 * val (square a)) % frModulus = (val a * val a) % frModulus := by
  obtain ⟨a0, a1, a2, a3⟩ := a
  obtain ⟨ha0, ha1, ha2, ha3⟩ := ha
  have hz : 0 < W := by simp [W]
  dsimp only at ha0 ha1 ha2 ha3
  obtain ⟨r1, c0, e0, q0, l0, k0⟩ := mac_ex hz ha0 ha1 hz
  obtain ⟨r2, c1, e1, q1, l1, k1⟩ := mac_ex hz ha0 ha2 k0
  obtain ⟨r3, r4, e2, q2, l2, k2⟩ := mac_ex hz ha0 ha3 k1
  obtain ⟨s3, d0, f0, t0, m0, n0⟩ := mac_ex l2 ha1 ha2 hz
  obtain ⟨s4, s5, f1, t1, m1, n1⟩ := mac_ex k2 ha1 ha3 n0
  obtain ⟨u5, u6, g0, v0, o0, p0⟩ := mac_ex n1 ha2 ha3 hz
  -- the doubled words
  obtain ⟨D1, B1, hD1, hd1⟩ := dbl_ex1 l0
  obtain ⟨D2, B2, hD2, hd2⟩ := dbl_ex l1 l0
  obtain ⟨D3, B3, hD3, hd3⟩ := dbl_ex m0 l1
  obtain ⟨D4, B4, hD4, hd4⟩ := dbl_ex m1 m0
  obtain ⟨D5, B5, hD5, hd5⟩ := dbl_ex o0 m1
  obtain ⟨D6, B6, hD6, hd6⟩ := dbl_ex p0 o0
  obtain ⟨D7, hD7, hd7⟩ : ∃ D, shr u6 63 = D ∧ (D = u6 / 2 ^ 63 ∧ D < W) :=
    ⟨_, rfl, rfl, by simp only [shr, W] at *; omega⟩
  obtain ⟨w0, i0, E0, Q0, L0, K0⟩ := mac_ex hz ha0 ha0 hz
  obtain ⟨w1, i1, E1, Q1, L1, K1⟩ := adc_ex hz hd1.2.2 K0
  have K1' : i1 < W := by simp only [W]; omega
  obtain ⟨w2, i2, E2, Q2, L2, K2⟩ := mac_ex hd2.2.2 ha1 ha1 K1'
  obtain ⟨w3, i3, E3, Q3, L3, K3⟩ := adc_ex hz hd3.2.2 K2
  have K3' : i3 < W := by simp only [W]; omega
  obtain ⟨w4, i4, E4, Q4, L4, K4⟩ := mac_ex hd4.2.2 ha2 ha2 K3'
  obtain ⟨w5, i5, E5, Q5, L5, K5⟩ := adc_ex hz hd5.2.2 K4
  have K5' : i5 < W := by simp only [W]; omega
  obtain ⟨w6, i6, E6, Q6, L6, K6⟩ := mac_ex hd6.2.2 ha3 ha3 K5'
  obtain ⟨w7, i7, E7, Q7, L7, K7⟩ := adc_ex hz hd7.2 K6
  have hs : square ⟨a0, a1, a2, a3⟩ = montgomeryReduce w0 w1 w2 w3 w4 w5 w6 w7 := by
    simp only [square, e0, e1, e2, f0, f1, g0, hD1, hD2, hD3, hD4, hD5, hD6, hD7, E0, E1, E2, E3, E4, E5,
      E6, E7]
  have key : val ⟨a0, a1, a2, a3⟩ * val ⟨a0, a1, a2, a3⟩ = w0 + W * w1 + W ^ 2 * w2 + W ^ 3 * w3
      + W ^ 4 * w4 + W ^ 5 * w5 + W ^ 6 * w6 + W ^ 7 * w7 + W ^ 8 * i7 := by
    obtain ⟨x1, y1, -⟩ := hd1
    obtain ⟨x2, y2, -⟩ := hd2
    obtain ⟨x3, y3, -⟩ := hd3
    obtain ⟨x4, y4, -⟩ := hd4
    obtain ⟨x5, y5, -⟩ := hd5
    obtain ⟨x6, y6, -⟩ := hd6
    obtain ⟨x7, -⟩ := hd7
    rw [← y1] at x2
    rw [← y2] at x3
    rw [← y3] at x4
    rw [← y4] at x5
    rw [← y5] at x6
    rw [← y6] at x7
    simp only [val]
    clear hs e0 e1 e2 f0 f1 g0 hD1 hD2 hD3 hD4 hD5 hD6 hD7 E0 E1 E2 E3 E4 E5 E6 E7 hab y1 y2 y3 y4 y5 y6
    generalize W = w at *
    zify at *
    linear_combination -(2 * (w * q0 + w ^ 2 * q1 + w ^ 3 * q2 + w ^ 3 * t0 + w ^ 4 * t1 + w ^ 5 * v0)
      + Q0 + w * Q1 + w ^ 2 * Q2 + w ^ 3 * Q3 + w ^ 4 * Q4 + w ^ 5 * Q5 + w ^ 6 * Q6 + w ^ 7 * Q7)
      + (w * x1 + w ^ 2 * x2 + w ^ 3 * x3 + w ^ 4 * x4 + w ^ 5 * x5 + w ^ 6 * x6) - w ^ 7 * x7
  have hi7 : i7 = 0 := by
    have : W ^ 8 * i7 < W ^ 8 := by
      calc W ^ 8 * i7 ≤ val ⟨a0, a1, a2, a3⟩ * val ⟨a0, a1, a2, a3⟩ := by rw [key]; exact Nat.le_add_left _ _
        _ < W ^ 4 * frModulus := hab
        _ < W ^ 8 := by simp [W, frModulus]
    rcases Nat.eq_zero_or_pos i7 with h | h
    · exact h
    · have := Nat.mul_le_mul_left (W ^ 8) h
      omega
  rw [hi7, mul_zero, add_zero] at key
  rw [hs, key]
  rw [key] at hab
  exact montgomeryReduce_spec L0 L1 L2 L3 L4 L5 L6 L7 hab

end Kzg.Zk.Scalar
