import Verif.Proofs.Zk.Fp
import Verif.Proofs.FpPrime
import Mathlib.FieldTheory.Finite.Basic
/-!
# The words of zkcrypto's base field compute in the field
-/

set_option exponentiation.threshold 1000

namespace Kzg.Zk.Fp

theorem natCast_eq_of_mod {m n : Nat} (h : m % fpModulus = n % fpModulus) : (m : Fq) = (n : Fq) :=
  (ZMod.natCast_eq_natCast_iff' m n fpModulus).2 h

/-- `2^384` is invertible. -/
theorem two_pow_ne_zero : (2 : Fq) ^ 384 ≠ 0 := by
  apply pow_ne_zero
  intro h
  have h2 : ((2 : Nat) : Fq) = 0 := by exact_mod_cast h
  rw [ZMod.natCast_eq_zero_iff] at h2
  have := Nat.le_of_dvd (by norm_num) h2
  simp [fpModulus] at this

theorem natCast_two_pow (k : Nat) : ((2 ^ k : Nat) : Fq) = 2 ^ k := by push_cast; rfl

theorem W6 : ((W ^ 6 : Nat) : Fq) = 2 ^ 384 := by
  rw [show (W ^ 6 : Nat) = 2 ^ 384 by norm_num [W], natCast_two_pow]

theorem rep_unique {s : Fp} {x y : Fq} (hx : Rep s x) (hy : Rep s y) : x = y := by
  have h := hx.2.symm.trans hy.2
  exact mul_right_cancel₀ two_pow_ne_zero h

theorem rep_inj {s t : Fp} {x : Fq} (hs : Rep s x) (ht : Rep t x) : s = t := by
  apply val_inj hs.1.1 ht.1.1
  have h := hs.2.trans ht.2.symm
  rw [ZMod.natCast_eq_natCast_iff', Nat.mod_eq_of_lt hs.1.2, Nat.mod_eq_of_lt ht.1.2] at h
  exact h

/-- The words of an integer below `2^384`. -/
def ofNat (n : Nat) : Fp := ⟨n % W, n / W % W, n / W ^ 2 % W, n / W ^ 3 % W, n / W ^ 4 % W, n / W ^ 5⟩

theorem words_ofNat {n : Nat} (h : n < W ^ 6) : Words (ofNat n) := by
  simp only [Words, ofNat, W] at *
  omega

theorem val_ofNat (n : Nat) : val (ofNat n) = n := by
  simp only [val, ofNat, W]
  omega

theorem rep_exists (x : Fq) : ∃ s, Rep s x := by
  have hl : (x * 2 ^ 384).val < fpModulus := ZMod.val_lt _
  refine ⟨ofNat (x * 2 ^ 384).val, ⟨words_ofNat ?_, ?_⟩, ?_⟩
  · exact hl.trans (by simp [fpModulus, W])
  · rw [val_ofNat]; exact hl
  · rw [val_ofNat, ZMod.natCast_zmod_val]

/-- Every reduced vector represents an element. -/
theorem red_rep {s : Fp} (h : Red s) : ∃ x, Rep s x :=
  ⟨(val s : Fq) * ((2 : Fq) ^ 384)⁻¹, h, by rw [mul_assoc, inv_mul_cancel₀ two_pow_ne_zero, mul_one]⟩

theorem add_rep {s t : Fp} {x y : Fq} (hs : Rep s x) (ht : Rep t y) : Rep (add s t) (x + y) := by
  have h1 := hs.1.2
  have h2 := ht.1.2
  obtain ⟨r, e⟩ := add_spec hs.1.1 ht.1.1 (by omega)
  refine ⟨r, ?_⟩
  rw [e, ZMod.natCast_mod, Nat.cast_add, hs.2, ht.2]
  ring

theorem sub_rep {s t : Fp} {x y : Fq} (hs : Rep s x) (ht : Rep t y) : Rep (sub s t) (x - y) := by
  obtain ⟨r, e⟩ := sub_red hs.1 ht.1
  refine ⟨r, ?_⟩
  rw [e, ZMod.natCast_mod, Nat.cast_add, Nat.cast_sub ht.1.2.le, hs.2, ht.2, ZMod.natCast_self]
  ring

theorem neg_rep {s : Fp} {x : Fq} (hs : Rep s x) : Rep (neg s) (-x) := by
  obtain ⟨r, e⟩ := neg_red hs.1
  refine ⟨r, ?_⟩
  rw [e, ZMod.natCast_mod, Nat.cast_sub hs.1.2.le, hs.2, ZMod.natCast_self]
  ring

/-- Product of arbitrary word vectors (not only reduced ones), the form used by the conversions. -/
theorem mul_words {s t : Fp} (hs : Words s) (ht : Red t) :
    Red (mul s t) ∧ (val (mul s t) : Fq) * 2 ^ 384 = (val s : Fq) * (val t : Fq) := by
  obtain ⟨r, e⟩ := mul_spec hs ht.1 (Nat.mul_lt_mul'' (val_lt hs) ht.2)
  refine ⟨r, ?_⟩
  have := natCast_eq_of_mod e
  rw [Nat.cast_mul, W6, Nat.cast_mul] at this
  rw [← this]
  ring

theorem mul_rep {s t : Fp} {x y : Fq} (hs : Rep s x) (ht : Rep t y) : Rep (mul s t) (x * y) := by
  obtain ⟨r, e⟩ := mul_words hs.1.1 ht.1
  refine ⟨r, ?_⟩
  rw [hs.2, ht.2] at e
  apply mul_right_cancel₀ two_pow_ne_zero
  rw [e]
  ring

theorem square_rep {s : Fp} {x : Fq} (hs : Rep s x) : Rep (square s) (x * x) := by
  obtain ⟨r, e⟩ := square_spec hs.1.1
    (Nat.mul_lt_mul'' (val_lt hs.1.1) hs.1.2)
  refine ⟨r, ?_⟩
  have := natCast_eq_of_mod e
  rw [Nat.cast_mul, W6, Nat.cast_mul, hs.2] at this
  apply mul_left_cancel₀ two_pow_ne_zero
  rw [this]
  ring

theorem zero_rep : Rep zero 0 := by
  refine ⟨⟨by simp [Words, zero, W], by simp [val, zero, fpModulus]⟩, by simp [val, zero]⟩

theorem one_rep : Rep one 1 := by
  refine ⟨⟨by simp [Words, one, R, W], by simp [val, one, R, fpModulus, W]⟩, ?_⟩
  rw [one_mul, ← natCast_two_pow]
  apply natCast_eq_of_mod
  decide +kernel

theorem R2_rep : Rep R2 (2 ^ 384) := by
  refine ⟨⟨by simp [Words, R2, W], by simp [val, R2, fpModulus, W]⟩, ?_⟩
  rw [← natCast_two_pow, ← Nat.cast_mul]
  apply natCast_eq_of_mod
  decide +kernel

theorem R3_rep : Rep R3 (2 ^ 768) := by
  refine ⟨⟨by simp [Words, R3, W], by simp [val, R3, fpModulus, W]⟩, ?_⟩
  rw [← natCast_two_pow, ← natCast_two_pow, ← Nat.cast_mul]
  apply natCast_eq_of_mod
  decide +kernel

/-- An arbitrary 384-bit integer enters Montgomery form by multiplication with `R2`. -/
theorem mulR2_rep {s : Fp} (hs : Words s) : Rep (mul s R2) (val s : Fq) := by
  obtain ⟨r, e⟩ := mul_words hs R2_rep.1
  refine ⟨r, ?_⟩
  rw [R2_rep.2] at e
  apply mul_right_cancel₀ two_pow_ne_zero
  rw [e]
  ring

theorem mulR3_rep {s : Fp} (hs : Words s) : Rep (mul s R3) ((val s : Fq) * 2 ^ 384) := by
  obtain ⟨r, q⟩ := mul_words hs R3_rep.1
  refine ⟨r, ?_⟩
  rw [R3_rep.2] at q
  apply mul_right_cancel₀ two_pow_ne_zero
  rw [q, show (768 : Nat) = 384 + 384 from rfl, pow_add]
  ring

/-- Out of Montgomery form. -/
theorem reduce_rep {s : Fp} {x : Fq} (hs : Rep s x) :
    Words (montgomeryReduce s.l0 s.l1 s.l2 s.l3 s.l4 s.l5 0 0 0 0 0 0) ∧
    val (montgomeryReduce s.l0 s.l1 s.l2 s.l3 s.l4 s.l5 0 0 0 0 0 0) = x.val := by
  have hz : 0 < W := by simp [W]
  obtain ⟨h0, h1, h2, h3, h4, h5⟩ := hs.1.1
  have hl : val s < W ^ 6 * fpModulus := by
    have := val_lt hs.1.1
    calc val s < W ^ 6 := this
      _ ≤ W ^ 6 * fpModulus := Nat.le_mul_of_pos_right _ (by simp [fpModulus])
  obtain ⟨r, e⟩ := montgomeryReduce_spec h0 h1 h2 h3 h4 h5 hz hz hz hz hz hz (by simpa [val] using hl)
  refine ⟨r.1, ?_⟩
  have e := natCast_eq_of_mod e
  generalize montgomeryReduce s.l0 s.l1 s.l2 s.l3 s.l4 s.l5 0 0 0 0 0 0 = t at *
  have e' : (val t : Fq) * 2 ^ 384 = (val s : Fq) := by
    rw [Nat.cast_mul, W6] at e
    rw [mul_comm, e]
    simp [val]
  rw [hs.2] at e'
  have := mul_right_cancel₀ two_pow_ne_zero e'
  rw [← this, ZMod.val_natCast, Nat.mod_eq_of_lt r.2]

theorem ctEq_iff {s t : Fp} : ctEq s t = true ↔ s = t := by
  cases s; cases t
  simp [ctEq, and_assoc]

theorem ctEq_rep {s t : Fp} {x y : Fq} (hs : Rep s x) (ht : Rep t y) : ctEq s t = decide (x = y) := by
  by_cases h : x = y
  · subst h
    rw [rep_inj hs ht]
    simp [ctEq]
  · rw [decide_eq_false h, Bool.eq_false_iff]
    intro e
    rw [ctEq_iff] at e
    exact h (rep_unique hs (e ▸ ht))

theorem select_eq (a b : Fp) (c : Bool) : select a b c = if c then b else a := by
  cases c <;> rfl

theorem square_pow' {s : Fp} {x : Fq} {m : Nat} (hs : Rep s (x ^ m)) : Rep (square s) (x ^ (2 * m)) := by
  rw [two_mul, pow_add]
  exact square_rep hs

theorem mul_pow' {s t : Fp} {x : Fq} {m n : Nat} (hs : Rep s (x ^ m)) (ht : Rep t (x ^ n)) :
    Rep (mul s t) (x ^ (m + n)) := by
  rw [pow_add]
  exact mul_rep hs ht

theorem bit_lt (e i : Nat) : (shr e i &&& 1) = e / 2 ^ i % 2 := by
  rw [shr, Nat.and_one_is_mod]

theorem pow_step (e n : Nat) : e % 2 ^ (n + 1) = e / 2 ^ n % 2 * 2 ^ n + e % 2 ^ n := by
  rw [pow_succ, Nat.mod_mul, mul_comm (2 ^ n)]
  omega

theorem powVarWord_rep {a : Fp} {x : Fq} (ha : Rep a x) (e n : Nat) {s : Fp} {m : Nat}
    (hs : Rep s (x ^ m)) : Rep (powVarWord a e n s) (x ^ (m * 2 ^ n + e % 2 ^ n)) := by
  have ha' : Rep a (x ^ 1) := by rwa [pow_one]
  induction n generalizing s m with
  | zero => simpa [powVarWord, Nat.mod_one] using hs
  | succ n ih =>
    rw [powVarWord, bit_lt, pow_step]
    rcases Nat.mod_two_eq_zero_or_one (e / 2 ^ n) with h | h
    · rw [h]
      have := ih (square_pow' hs)
      simp only [zero_ne_one, if_false]
      convert this using 2
      rw [pow_succ]
      ring
    · rw [h]
      have := ih (mul_pow' (square_pow' hs) ha')
      simp only [if_true]
      convert this using 2
      rw [pow_succ]
      ring

theorem powVartime_rep {a : Fp} {x : Fq} (ha : Rep a x) {b0 b1 b2 b3 b4 b5 : Nat} (h0 : b0 < W) (h1 : b1 < W)
    (h2 : b2 < W) (h3 : b3 < W) (h4 : b4 < W) (h5 : b5 < W) :
    Rep (powVartime a b0 b1 b2 b3 b4 b5) (x ^ val ⟨b0, b1, b2, b3, b4, b5⟩) := by
  have hone : Rep one (x ^ 0) := by
    rw [pow_zero]
    exact one_rep
  have := powVarWord_rep ha b0 64 (powVarWord_rep ha b1 64 (powVarWord_rep ha b2 64
    (powVarWord_rep ha b3 64 (powVarWord_rep ha b4 64 (powVarWord_rep ha b5 64 hone)))))
  rw [Nat.mod_eq_of_lt h0, Nat.mod_eq_of_lt h1, Nat.mod_eq_of_lt h2, Nat.mod_eq_of_lt h3,
    Nat.mod_eq_of_lt h4, Nat.mod_eq_of_lt h5] at this
  have e : val ⟨b0, b1, b2, b3, b4, b5⟩ = (((((0 * 2 ^ 64 + b5) * 2 ^ 64 + b4) * 2 ^ 64 + b3) * 2 ^ 64 + b2)
      * 2 ^ 64 + b1) * 2 ^ 64 + b0 := by
    simp only [val, W]
    ring
  rw [e]
  exact this

theorem isZero_rep {a : Fp} {x : Fq} (ha : Rep a x) : isZero a = decide (x = 0) := ctEq_rep ha zero_rep

theorem invert_rep {a : Fp} {x : Fq} (ha : Rep a x) (hx : x ≠ 0) :
    ∃ t, invert a = some t ∧ Rep t x⁻¹ := by
  have h := powVartime_rep ha (b0 := 0xb9feffffffffaaa9) (b1 := 0x1eabfffeb153ffff) (b2 := 0x6730d2a0f6b0f624)
    (b3 := 0x64774b84f38512bf) (b4 := 0x4b1ba7b6434bacd7) (b5 := 0x1a0111ea397fe69a) (by simp [W])
    (by simp [W]) (by simp [W]) (by simp [W]) (by simp [W]) (by simp [W])
  refine ⟨_, by rw [invert, isZero_rep ha]; simp only [hx, decide_false, Bool.not_false, if_true]; rfl, ?_⟩
  have hv : val ⟨0xb9feffffffffaaa9, 0x1eabfffeb153ffff, 0x6730d2a0f6b0f624, 0x64774b84f38512bf,
      0x4b1ba7b6434bacd7, 0x1a0111ea397fe69a⟩ = fpModulus - 2 := by decide +kernel
  rw [hv] at h
  have h1 : x ^ (fpModulus - 2) * x = 1 := by
    rw [← pow_succ, show fpModulus - 2 + 1 = fpModulus - 1 by simp [fpModulus]]
    exact ZMod.pow_card_sub_one_eq_one hx
  rw [← eq_inv_of_mul_eq_one_left h1]
  exact h

theorem invert_zero {a : Fp} (ha : Rep a 0) : invert a = none := by
  rw [invert, isZero_rep ha]
  simp

/-- The power taken by `sqrt`. -/
theorem sqrt_pow {a : Fp} {x : Fq} (ha : Rep a x) :
    ∃ t, Rep t (x ^ ((fpModulus + 1) / 4)) ∧ sqrt a = if ctEq (square t) a then some t else none := by
  have h := powVartime_rep ha (b0 := 0xee7fbfffffffeaab) (b1 := 0x07aaffffac54ffff) (b2 := 0xd9cc34a83dac3d89)
    (b3 := 0xd91dd2e13ce144af) (b4 := 0x92c6e9ed90d2eb35) (b5 := 0x0680447a8e5ff9a6) (by simp [W])
    (by simp [W]) (by simp [W]) (by simp [W]) (by simp [W]) (by simp [W])
  have hv : val ⟨0xee7fbfffffffeaab, 0x07aaffffac54ffff, 0xd9cc34a83dac3d89, 0xd91dd2e13ce144af,
      0x92c6e9ed90d2eb35, 0x0680447a8e5ff9a6⟩ = (fpModulus + 1) / 4 := by decide +kernel
  rw [hv] at h
  exact ⟨_, h, rfl⟩

theorem pow_quarter_sq {y : Fq} : (y ^ 2) ^ ((fpModulus + 1) / 4) * (y ^ 2) ^ ((fpModulus + 1) / 4) = y ^ 2 := by
  rw [← pow_add, ← pow_mul, show 2 * ((fpModulus + 1) / 4 + (fpModulus + 1) / 4) = fpModulus + 1 by
    decide +kernel, pow_succ, ZMod.pow_card]
  ring

/-- Every square has a root, and what is returned is one. -/
theorem sqrt_square {a : Fp} {y : Fq} (ha : Rep a (y ^ 2)) :
    ∃ t z, sqrt a = some t ∧ Rep t z ∧ z ^ 2 = y ^ 2 := by
  obtain ⟨t, ht, e⟩ := sqrt_pow ha
  refine ⟨t, _, ?_, ht, ?_⟩
  · rw [e, ctEq_rep (square_rep ht) ha, pow_quarter_sq]
    simp
  · rw [pow_two]
    exact pow_quarter_sq

theorem sqrt_some {a t : Fp} {x : Fq} (ha : Rep a x) (h : sqrt a = some t) : ∃ z, Rep t z ∧ z ^ 2 = x := by
  obtain ⟨u, hu, e⟩ := sqrt_pow ha
  rw [e, ctEq_rep (square_rep hu) ha] at h
  split at h
  · next h' =>
    cases h
    exact ⟨_, hu, by rw [pow_two]; exact of_decide_eq_true h'⟩
  · cases h

end Kzg.Zk.Fp
