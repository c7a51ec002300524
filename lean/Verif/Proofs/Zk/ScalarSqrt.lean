import Verif.Proofs.Zk.ScalarField
import Verif.Proofs.PowMod
/-!
# The square root of zkcrypto's scalar field (constant-time Tonelli–Shanks)

The outer loop has two phases. In the first, `z` has order `2^v`, the order of `b` divides `2^(v-1)` and
`x² = a b`; each round lowers `v`. Once `b = 1` was seen, the second phase only multiplies `x` by `±1`.
-/

namespace Kzg.Zk.Scalar

/-- What the inner loop has reached before iteration `j`. `K ≥ 1` is the least positive exponent with
`b^(2^K) = 1`. -/
structure InnerInv (v K : Nat) (b Z : Fr) (j : Nat) (st : Nat × Scalar × Scalar × Bool) : Prop where
  k_eq : st.1 = min (j - 1) K
  tmp_rep : Rep st.2.1 (b ^ 2 ^ min (j - 1) K)
  z_rep : Rep st.2.2.1 (Z ^ 2 ^ (min j v - 1 - K))
  less_eq : st.2.2.2 = decide (j ≤ v)

theorem select_rep {s t : Scalar} {x y : Fr} (hs : Rep s x) (ht : Rep t y) (c : Bool) :
    Rep (select s t c) (if c then y else x) := by
  cases c
  · simpa [select_eq] using hs
  · simpa [select_eq] using ht

theorem less_step (j v : Nat) : (decide (j ≤ v) && !(j == v)) = decide (j + 1 ≤ v) := by
  rw [Bool.eq_iff_iff]
  simp only [Bool.and_eq_true, decide_eq_true_eq, Bool.not_eq_true', beq_eq_false_iff_ne]
  omega

theorem inner_step {v K : Nat} {b Z : Fr} (hK : b ^ 2 ^ K = 1) (hmin : ∀ i, 1 ≤ i → i < K → b ^ 2 ^ i ≠ 1)
    (n j : Nat) (hj : 2 ≤ j) (st : Nat × Scalar × Scalar × Bool)
    (h : InnerInv v K b Z j st) : InnerInv v K b Z (j + n) (sqrtInner v n j st) := by
  induction n generalizing j st with
  | zero => simpa [sqrtInner] using h
  | succ n ih =>
    obtain ⟨k, tmp, z, less⟩ := st
    obtain ⟨e1, e2, e3, e4⟩ := h
    dsimp only at e1 e2 e3 e4
    rw [sqrtInner, show j + (n + 1) = (j + 1) + n by omega]
    apply ih (j + 1) (by omega)
    have hone : ctEq tmp one = decide (K ≤ j - 1) := by
      rw [ctEq_rep e2 one_rep]
      by_cases hc : K ≤ j - 1
      · rw [Nat.min_eq_right hc, hK]
        simp [hc]
      · rw [Nat.min_eq_left (by omega)]
        simp [hc, hmin (j - 1) (by omega) (by omega)]
    have hsq := square_rep (select_rep e2 e3 (decide (K ≤ j - 1)))
    by_cases hc : K ≤ j - 1
    · have hd : decide (K ≤ j - 1) = true := by simp [hc]
      rw [hd] at hone hsq
      simp only [if_true] at hsq
      refine ⟨?_, ?_, ?_, ?_⟩
      · simp only [hone, if_true, e1]
        omega
      · simp only [hone, select_eq, if_true]
        rw [show min (j + 1 - 1) K = min (j - 1) K by omega]
        exact e2
      · simp only [hone, select_eq, if_true, e4]
        by_cases hv : j < v
        · have hlv : (decide (j ≤ v) && !(j == v)) = true := by
            simp
            omega
          rw [hlv, if_pos rfl]
          simp only [select_eq, if_true] at hsq
          rw [show min (j + 1) v - 1 - K = (min j v - 1 - K) + 1 by omega, pow_succ, pow_mul, pow_two]
          exact hsq
        · have hlv : (decide (j ≤ v) && !(j == v)) = false := by
            simp
            omega
          rw [hlv]
          simp only [Bool.false_eq_true, if_false]
          rw [show min (j + 1) v - 1 - K = min j v - 1 - K by omega]
          exact e3
      · simp only [e4, less_step]
    · have hd : decide (K ≤ j - 1) = false := by simp; omega
      rw [hd] at hone hsq
      simp only [Bool.false_eq_true, if_false] at hsq
      refine ⟨?_, ?_, ?_, ?_⟩
      · simp only [hone, Bool.false_eq_true, if_false]
        omega
      · simp only [hone, select_eq, Bool.false_eq_true, if_false]
        simp only [select_eq, Bool.false_eq_true, if_false] at hsq
        rw [show min (j + 1 - 1) K = min (j - 1) K + 1 by omega, pow_succ, pow_mul, pow_two]
        exact hsq
      · simp only [hone, select_eq, Bool.false_eq_true, if_false, ite_self]
        rw [show min (j + 1) v - 1 - K = min j v - 1 - K by omega]
        exact e3
      · simp only [e4, less_step]

/-- When `b² = 1` the inner loop keeps `k = 1` and only squares `z`. -/
theorem inner_trivial {v : Nat} {Z : Fr} (n j : Nat) (st : Nat × Scalar × Scalar × Bool) (hk : st.1 = 1)
    (ht : Rep st.2.1 1) (i : Nat) (hz : Rep st.2.2.1 (Z ^ 2 ^ i)) :
    (sqrtInner v n j st).1 = 1 ∧ ∃ i', i ≤ i' ∧ Rep (sqrtInner v n j st).2.2.1 (Z ^ 2 ^ i') := by
  induction n generalizing j st i with
  | zero => exact ⟨hk, i, le_rfl, hz⟩
  | succ n ih =>
    obtain ⟨k, tmp, z, less⟩ := st
    dsimp only at hk ht hz
    have hone : ctEq tmp one = true := by rw [ctEq_rep ht one_rep]; simp
    rw [sqrtInner]
    simp only [hone, select_eq, if_true]
    generalize (less && !(j == v)) = c
    cases c
    · simp only [Bool.false_eq_true, if_false]
      exact ih (j + 1) _ hk ht i hz
    · simp only [if_true]
      have hsq : Rep (square z) (Z ^ 2 ^ (i + 1)) := by
        rw [pow_succ, pow_mul, pow_two]
        exact square_rep hz
      obtain ⟨a, i', hi, hr⟩ := ih (j + 1) (k, tmp, square z, true) hk ht (i + 1) hsq
      exact ⟨a, i', by omega, hr⟩

/-- First phase. -/
structure PhaseOne (a : Fr) (M : Nat) (st : SqrtState) (x b z : Fr) : Prop where
  xr : Rep st.x x
  br : Rep st.b b
  zr : Rep st.z z
  v1 : 1 ≤ st.v
  vM : st.v ≤ M
  hz : z ^ 2 ^ (st.v - 1) = -1
  hb : b ^ 2 ^ (st.v - 1) = 1
  hx : x * x = a * b

/-- Second phase. -/
structure PhaseTwo (a : Fr) (st : SqrtState) (x b z : Fr) : Prop where
  xr : Rep st.x x
  br : Rep st.b b
  zr : Rep st.z z
  hz : z * z = 1
  hb : b * b = 1
  hx : x * x = a

theorem phase_two_step {a : Fr} {st : SqrtState} {x b z : Fr} (h : PhaseTwo a st x b z) (n : Nat) :
    ∃ st', sqrtOuter (n + 1) st = sqrtOuter n st' ∧ ∃ x b z, PhaseTwo a st' x b z := by
  obtain ⟨v, X, B, Zs⟩ := st
  obtain ⟨xr, br, zr, hz, hb, hx⟩ := h
  dsimp only at xr br zr
  have hb2 : Rep (square B) 1 := hb ▸ square_rep br
  obtain ⟨-, i, -, hi⟩ := inner_trivial (v := v) (Z := z) (n + 1 - 2) 2 (1, square B, Zs, true) rfl hb2 0
    (by simpa using zr)
  refine ⟨_, rfl, ?_⟩
  generalize sqrtInner v (n + 1 - 2) 2 (1, square B, Zs, true) = res at hi ⊢
  obtain ⟨k, tmp, z', less⟩ := res
  dsimp only at hi ⊢
  have hzz : z ^ 2 ^ i * z ^ 2 ^ i = 1 := by
    rw [← pow_two, ← pow_mul, mul_comm, pow_mul, pow_two, hz, one_pow]
  have hsq : Rep (square z') 1 := hzz ▸ square_rep hi
  have hbm : Rep (mul B (square z')) b := by
    have := mul_rep br hsq
    rwa [mul_one] at this
  refine ⟨if ctEq B one then x else x * z ^ 2 ^ i, b, 1, ?_, hbm, hsq, by ring, hb, ?_⟩
  · simp only [select_eq]
    split
    · exact xr
    · exact mul_rep xr hi
  · split
    · exact hx
    · rw [mul_mul_mul_comm, hzz, hx, mul_one]

theorem phase_one_step {a : Fr} {M : Nat} {st : SqrtState} {x b z : Fr} (h : PhaseOne a (M + 1) st x b z) :
    ∃ st', sqrtOuter (M + 1) st = sqrtOuter M st' ∧
      ((∃ x b z, PhaseOne a M st' x b z) ∨ ∃ x b z, PhaseTwo a st' x b z) := by
  obtain ⟨v, X, B, Zs⟩ := st
  obtain ⟨xr, br, zr, v1, vM, hz, hb, hx⟩ := h
  dsimp only at xr br zr v1 vM hz hb
  refine ⟨_, rfl, ?_⟩
  rcases Nat.eq_or_lt_of_le v1 with hv | hv
  · -- v = 1: b = 1 and z = -1
    subst hv
    right
    simp only [Nat.sub_self, pow_zero, pow_one] at hz hb
    subst hb hz
    have hb2 : Rep (square B) 1 := by
      have := square_rep br
      rwa [mul_one] at this
    obtain ⟨-, i, -, hi⟩ := inner_trivial (v := 1) (Z := -1) (M + 1 - 2) 2 (1, square B, Zs, true) rfl hb2 0
      (by simpa using zr)
    generalize sqrtInner 1 (M + 1 - 2) 2 (1, square B, Zs, true) = res at hi ⊢
    obtain ⟨k, tmp, z', less⟩ := res
    dsimp only at hi ⊢
    have hzz : (-1 : Fr) ^ 2 ^ i * (-1) ^ 2 ^ i = 1 := by
      rw [← mul_pow]
      simp
    have hsq : Rep (square z') 1 := hzz ▸ square_rep hi
    have hb1 : ctEq B one = true := by rw [ctEq_rep br one_rep]; simp
    refine ⟨x, 1, 1, ?_, ?_, hsq, by ring, by ring, by rw [hx, mul_one]⟩
    · simp only [select_eq, hb1, if_true]
      exact xr
    · have := mul_rep br hsq
      rwa [mul_one] at this
  · -- v ≥ 2
    have hex : ∃ K, 1 ≤ K ∧ b ^ 2 ^ K = 1 := ⟨v - 1, by omega, hb⟩
    classical
    let K := Nat.find hex
    obtain ⟨hK1, hK⟩ : 1 ≤ K ∧ b ^ 2 ^ K = 1 := Nat.find_spec hex
    have hKv : K ≤ v - 1 := Nat.find_min' hex ⟨by omega, hb⟩
    have hmin : ∀ i, 1 ≤ i → i < K → b ^ 2 ^ i ≠ 1 := fun i h1 h2 e => Nat.find_min hex h2 ⟨h1, e⟩
    clear_value K
    have hinv : InnerInv v K b z 2 (1, square B, Zs, true) := by
      refine ⟨by dsimp only; omega, ?_, ?_, ?_⟩
      · dsimp only
        rw [show min (2 - 1) K = 1 by omega, pow_one, pow_two]
        exact square_rep br
      · dsimp only
        rw [show min 2 v - 1 - K = 0 by omega, pow_zero, pow_one]
        exact zr
      · simp
        omega
    have hout := inner_step hK hmin (M + 1 - 2) 2 le_rfl _ hinv
    rw [show 2 + (M + 1 - 2) = M + 1 by omega] at hout
    generalize sqrtInner v (M + 1 - 2) 2 (1, square B, Zs, true) = res at hout ⊢
    obtain ⟨k, tmp, z', less⟩ := res
    obtain ⟨e1, -, e3, -⟩ := hout
    dsimp only at e1 e3 ⊢
    rw [show min (M + 1 - 1) K = K by omega] at e1
    rw [show min (M + 1) v - 1 - K = v - 1 - K by omega] at e3
    subst e1
    -- the new z
    have hz2 : Rep (square z') (z ^ 2 ^ (v - k)) := by
      rw [show v - k = (v - 1 - k) + 1 by omega, pow_succ, pow_mul, pow_two]
      exact square_rep e3
    have hz2k : (z ^ 2 ^ (v - k)) ^ 2 ^ (k - 1) = -1 := by
      rw [← pow_mul, ← pow_add, show v - k + (k - 1) = v - 1 by omega, hz]
    have hbz := mul_rep br hz2
    by_cases hb1 : b = 1
    · right
      have hk : k = 1 := by
        by_contra hne
        exact hmin 1 le_rfl (by omega) (by rw [hb1, one_pow])
      subst hk
      simp only [Nat.sub_self, pow_zero, pow_one] at hz2k
      have hc : ctEq B one = true := by rw [ctEq_rep br one_rep]; simp [hb1]
      rw [hz2k] at hz2 hbz
      refine ⟨x, b * -1, -1, ?_, hbz, hz2, by ring, by rw [hb1]; ring, by rw [hx, hb1, mul_one]⟩
      simp only [select_eq, hc, if_true]
      exact xr
    · left
      have hc : ctEq B one = false := by rw [ctEq_rep br one_rep]; simp [hb1]
      have hneg : b ^ 2 ^ (k - 1) = -1 := by
        have hsq : b ^ 2 ^ (k - 1) * b ^ 2 ^ (k - 1) = 1 := by
          rw [← pow_two, ← pow_mul, ← pow_succ, show k - 1 + 1 = k by omega, hK]
        rcases mul_self_eq_one_iff.1 hsq with h | h
        · exfalso
          rcases Nat.eq_or_lt_of_le hK1 with h1 | h1
          · rw [← h1] at h
            simp only [Nat.sub_self, pow_zero, pow_one] at h
            exact hb1 h
          · exact hmin (k - 1) (by omega) (by omega) h
        · exact h
      refine ⟨x * z ^ 2 ^ (v - 1 - k), b * z ^ 2 ^ (v - k), z ^ 2 ^ (v - k), ?_, hbz, hz2, hK1, by show k ≤ M; omega,
        hz2k, ?_, ?_⟩
      · simp only [select_eq, hc, Bool.false_eq_true, if_false]
        exact mul_rep xr e3
      · dsimp only
        rw [mul_pow, hneg, hz2k]
        ring
      · rw [mul_mul_mul_comm, hx, ← pow_two, ← pow_mul, ← pow_succ, show v - 1 - k + 1 = v - k by omega,
          mul_assoc]

theorem sqrtOuter_spec {a : Fr} (M : Nat) (st : SqrtState)
    (h : (∃ x b z, PhaseOne a M st x b z) ∨ ∃ x b z, PhaseTwo a st x b z) :
    ∃ x, Rep (sqrtOuter M st).x x ∧ x * x = a := by
  induction M generalizing st with
  | zero =>
    rcases h with ⟨x, b, z, h⟩ | ⟨x, b, z, h⟩
    · have := h.v1
      have := h.vM
      omega
    · exact ⟨x, h.xr, h.hx⟩
  | succ M ih =>
    rcases h with ⟨x, b, z, h⟩ | ⟨x, b, z, h⟩
    · obtain ⟨st', e, h'⟩ := phase_one_step h
      rw [e]
      exact ih st' h'
    · obtain ⟨st', e, h'⟩ := phase_two_step h M
      rw [e]
      exact ih st' (Or.inr h')

/-- The loop multiplies `x` by some field element. -/
theorem sqrtOuter_mul (M : Nat) (st : SqrtState) {x : Fr} (hx : Rep st.x x) (hb : ∃ b, Rep st.b b)
    (hz : ∃ z, Rep st.z z) : ∃ c, Rep (sqrtOuter M st).x (x * c) := by
  induction M generalizing st x with
  | zero => exact ⟨1, by simpa [sqrtOuter] using hx⟩
  | succ M ih =>
    obtain ⟨v, X, B, Zs⟩ := st
    obtain ⟨b, hb⟩ := hb
    obtain ⟨z, hz⟩ := hz
    rw [sqrtOuter]
    have hinner : ∀ n j (st : Nat × Scalar × Scalar × Bool), (∃ t, Rep st.2.1 t) → (∃ z, Rep st.2.2.1 z) →
        ∃ z, Rep (sqrtInner v n j st).2.2.1 z := by
      intro n
      induction n with
      | zero => intro j st _ h; exact h
      | succ n ih =>
        rintro j ⟨k, tmp, z, less⟩ ⟨t, ht⟩ ⟨y, hy⟩
        rw [sqrtInner]
        dsimp only at ht hy ⊢
        have hsq := square_rep (select_rep ht hy (ctEq tmp one))
        apply ih
        · exact ⟨_, select_rep hsq ht _⟩
        · exact ⟨_, select_rep hy (select_rep hy hsq _) _⟩
    obtain ⟨z', hz'⟩ := hinner (M + 1 - 2) 2 (1, square B, Zs, true) ⟨_, square_rep hb⟩ ⟨_, hz⟩
    generalize sqrtInner v (M + 1 - 2) 2 (1, square B, Zs, true) = res at hz' ⊢
    obtain ⟨k, tmp, zz, less⟩ := res
    dsimp only at hz' hx ⊢
    have h1 := select_rep (mul_rep hx hz') hx (ctEq B one)
    have h2 : (if ctEq B one = true then x else x * z') = x * (if ctEq B one = true then 1 else z') := by
      split <;> ring
    rw [h2] at h1
    obtain ⟨c, hc⟩ := ih ⟨k, _, mul B (square zz), square zz⟩ h1 ⟨_, mul_rep hb (square_rep hz')⟩
      ⟨_, square_rep hz'⟩
    exact ⟨_, by rw [mul_assoc] at hc; exact hc⟩

/-- The `2^32`-th root of unity of the source. -/
def rootInt : Nat := 0x16a2a19edfe81f20d09b681922c813b4b63683508c2280b93829971f439f0d2b

theorem rootOfUnity_rep : Rep rootOfUnity (rootInt : Fr) := by
  refine ⟨⟨by simp [Words, rootOfUnity, W], by simp [val, rootOfUnity, frModulus, W]⟩, ?_⟩
  rw [← natCast_two_pow, ← Nat.cast_mul]
  apply natCast_eq_of_mod
  decide +kernel

theorem rootInt_pow : (rootInt : Fr) ^ 2 ^ 31 = -1 := by
  have h := zmod_pow_eq (m := frModulus) (fuel := 32) (a := rootInt) (n := 2 ^ 31) (c := frModulus - 1)
    (by norm_num) (by decide +kernel)
  rw [h, Nat.cast_sub (by simp [frModulus]), ZMod.natCast_self]
  simp

/-- The exponent of the first step of `sqrt`: `(t - 1) / 2`. -/
theorem sqrt_exponent :
    2 * val ⟨0x7fff2dff7fffffff, 0x04d0ec02a9ded201, 0x94cebea4199cec04, 0x0000000039f6d3a9⟩ + 1
      = (frModulus - 1) / 2 ^ 32 := by decide +kernel

theorem sqrt_square {a : Scalar} {x y : Fr} (ha : Rep a x) (hxy : y * y = x) :
    ∃ s w, sqrt a = some s ∧ Rep s w ∧ w * w = x := by
  have hw := powVartime_rep ha (b0 := 0x7fff2dff7fffffff) (b1 := 0x04d0ec02a9ded201)
    (b2 := 0x94cebea4199cec04) (b3 := 0x0000000039f6d3a9) (by norm_num [W]) (by norm_num [W])
    (by norm_num [W]) (by norm_num [W])
  have hexp := sqrt_exponent
  generalize val ⟨0x7fff2dff7fffffff, 0x04d0ec02a9ded201, 0x94cebea4199cec04, 0x0000000039f6d3a9⟩ = e at hw hexp
  have hX := mul_rep ha hw
  have hB := mul_rep hX hw
  have key : ∃ w, Rep (sqrtOuter 32 ⟨32, mul a (powVartime a 0x7fff2dff7fffffff 0x04d0ec02a9ded201
      0x94cebea4199cec04 0x0000000039f6d3a9), mul (mul a (powVartime a 0x7fff2dff7fffffff 0x04d0ec02a9ded201
      0x94cebea4199cec04 0x0000000039f6d3a9)) (powVartime a 0x7fff2dff7fffffff 0x04d0ec02a9ded201
      0x94cebea4199cec04 0x0000000039f6d3a9), rootOfUnity⟩).x w ∧ w * w = x := by
    by_cases hx : x = 0
    · subst hx
      obtain ⟨c, hc⟩ := sqrtOuter_mul 32 ⟨32, _, _, _⟩ hX ⟨_, hB⟩ ⟨_, rootOfUnity_rep⟩
      exact ⟨_, hc, by ring⟩
    · apply sqrtOuter_spec
      left
      refine ⟨_, _, _, hX, hB, rootOfUnity_rep, by norm_num, le_rfl, rootInt_pow, ?_, by ring⟩
      have hy : y ≠ 0 := by
        rintro rfl
        exact hx (by rw [← hxy, mul_zero])
      have hb : x * x ^ e * x ^ e = y ^ (2 * ((frModulus - 1) / 2 ^ 32)) := by
        rw [← hexp, ← hxy]
        ring
      have hb' : x * x ^ e * x ^ e = y ^ (2 * ((frModulus - 1) / 2 ^ 32)) := hb
      show (x * x ^ e * x ^ e) ^ 2 ^ 31 = 1
      rw [hb', ← pow_mul, show 2 * ((frModulus - 1) / 2 ^ 32) * 2 ^ 31 = frModulus - 1 by decide +kernel]
      exact ZMod.pow_card_sub_one_eq_one hy
  obtain ⟨w, hr, hw2⟩ := key
  refine ⟨_, w, ?_, hr, hw2⟩
  unfold sqrt
  refine if_pos ?_
  rw [ctEq_rep (mul_rep hr hr) ha]
  simp [hw2]

theorem sqrt_some {a s : Scalar} {x : Fr} (ha : Rep a x) (h : sqrt a = some s) :
    ∃ w, Rep s w ∧ w * w = x := by
  have hw := powVartime_rep ha (b0 := 0x7fff2dff7fffffff) (b1 := 0x04d0ec02a9ded201)
    (b2 := 0x94cebea4199cec04) (b3 := 0x0000000039f6d3a9) (by norm_num [W]) (by norm_num [W])
    (by norm_num [W]) (by norm_num [W])
  unfold sqrt at h
  dsimp only at h
  generalize powVartime a 0x7fff2dff7fffffff 0x04d0ec02a9ded201 0x94cebea4199cec04 0x0000000039f6d3a9 = w
    at h hw
  have hX := mul_rep ha hw
  obtain ⟨c, hc⟩ := sqrtOuter_mul 32 ⟨32, mul a w, mul (mul a w) w, rootOfUnity⟩ hX ⟨_, mul_rep hX hw⟩
    ⟨_, rootOfUnity_rep⟩
  split at h
  · next hchk =>
    rw [ctEq_rep (mul_rep hc hc) ha] at hchk
    cases h
    exact ⟨_, hc, by simpa using hchk⟩
  · cases h

end Kzg.Zk.Scalar
