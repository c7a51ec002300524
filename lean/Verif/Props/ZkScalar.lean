import Verif.Proofs.Zk.ScalarBytes
import Verif.Proofs.Zk.ScalarSqrt
/-!
# Properties C36–C40, C44–C46: the pure Rust scalar field of zkcrypto

`Rep s x` (`Verif/Spec/ZkScalar.lean`): the four words `s` are the reduced Montgomery form of the field
element `x`. Every reduced vector represents exactly one element and every element has exactly one
representative, so the theorems below determine the words of every result.
-/

namespace Kzg.Props
open Kzg Kzg.Zk Kzg.Zk.Scalar

/-! ## The representation is a bijection -/

/-- Every reduced vector of words represents exactly one field element. -/
theorem C36_rep_element (s : Scalar) (h : Red s) : ∃! x, Rep s x := by
  obtain ⟨x, hx⟩ := red_rep h
  exact ⟨x, hx, fun y hy => rep_unique hy hx⟩

/-- Every field element has exactly one representative. -/
theorem C36_rep_words (x : Fr) : ∃! s, Rep s x := by
  obtain ⟨s, hs⟩ := rep_exists x
  exact ⟨s, hs, fun t ht => rep_inj ht hs⟩

/-- Equality of words is equality of elements; this is the `==` of the source. -/
theorem C36_eq {s t : Scalar} {x y : Fr} (hs : Rep s x) (ht : Rep t y) : ctEq s t = true ↔ x = y := by
  rw [ctEq_rep hs ht, decide_eq_true_eq]

/-! ## C36 -/

/-- C36 (integers): the words of the sum hold the exact modular sum of the integers. -/
theorem C36_add_integers {a b : Scalar} (ha : Red a) (hb : Red b) :
    Red (add a b) ∧ val (add a b) = (val a + val b) % frModulus :=
  add_spec ha.1 hb.1 (by have := ha.2; have := hb.2; omega)

/-- C36 (integers): the words of the difference hold the exact modular difference. -/
theorem C36_sub_integers {a b : Scalar} (ha : Red a) (hb : Red b) :
    Red (sub a b) ∧ (val (sub a b) + val b) % frModulus = val a := by
  obtain ⟨r, e⟩ := sub_red ha hb
  refine ⟨r, ?_⟩
  have h1 := ha.2
  have h2 := hb.2
  rw [e, Nat.mod_add_mod, show val a + (frModulus - val b) + val b = val a + frModulus by omega,
    Nat.add_mod_right, Nat.mod_eq_of_lt h1]

/-- C36: addition. -/
theorem C36_add {s t : Scalar} {x y : Fr} (hs : Rep s x) (ht : Rep t y) : Rep (add s t) (x + y) := add_rep hs ht

/-- C36: subtraction. -/
theorem C36_sub {s t : Scalar} {x y : Fr} (hs : Rep s x) (ht : Rep t y) : Rep (sub s t) (x - y) := sub_rep hs ht

/-- C36: negation. -/
theorem C36_neg {s : Scalar} {x : Fr} (hs : Rep s x) : Rep (neg s) (-x) := neg_rep hs

/-- C36: doubling. -/
theorem C36_double {s : Scalar} {x : Fr} (hs : Rep s x) : Rep (double s) (2 * x) := double_rep hs

/-- C36: the constants. -/
theorem C36_constants : Rep zero 0 ∧ Rep one 1 ∧ Rep generator 7 := ⟨zero_rep, one_rep, generator_rep⟩

/-- All four carries are used: `(q-1) + (q-1)` wraps, and is `q - 2`. -/
example : add ⟨0xffffffff00000000, 0x53bda402fffe5bfe, 0x3339d80809a1d805, 0x73eda753299d7d48⟩
    ⟨0xffffffff00000000, 0x53bda402fffe5bfe, 0x3339d80809a1d805, 0x73eda753299d7d48⟩
    = ⟨0xfffffffeffffffff, 0x53bda402fffe5bfe, 0x3339d80809a1d805, 0x73eda753299d7d48⟩ := by decide +kernel

example : ∃ s t, Rep s 5 ∧ Rep t (-3) ∧ Rep (add s t) 2 := by
  obtain ⟨s, hs⟩ := rep_exists 5
  obtain ⟨t, ht⟩ := rep_exists (-3)
  have h := C36_add hs ht
  norm_num at h
  exact ⟨s, t, hs, ht, h⟩

/-! ## C37 -/

/-- C37 (integers): Montgomery multiplication returns the reduced `v` with `v · 2^256 ≡ a · b`. -/
theorem C37_mul_integers {a b : Scalar} (ha : Red a) (hb : Red b) :
    Red (mul a b) ∧ (val (mul a b) * 2 ^ 256) % frModulus = (val a * val b) % frModulus := by
  obtain ⟨r, e⟩ := mul_spec ha.1 hb.1 (Nat.mul_lt_mul'' (val_lt ha.1) hb.2)
  rw [show W ^ 4 = 2 ^ 256 by norm_num [W]] at e
  exact ⟨r, by rw [mul_comm]; exact e⟩

/-- C37: multiplication. -/
theorem C37_mul {s t : Scalar} {x y : Fr} (hs : Rep s x) (ht : Rep t y) : Rep (mul s t) (x * y) := mul_rep hs ht

/-- C37: squaring. -/
theorem C37_square {s : Scalar} {x : Fr} (hs : Rep s x) : Rep (square s) (x * x) := square_rep hs

/-- C37: the specialised squaring gives the words of the general product. -/
theorem C37_square_eq_mul {s : Scalar} (hs : Red s) : square s = mul s s := by
  obtain ⟨x, hx⟩ := red_rep hs
  exact rep_inj (square_rep hx) (mul_rep hx hx)

/-- C37: conversion of every 256-bit integer, reduced or not. -/
theorem C37_from_raw {a b c d : Nat} (ha : a < W) (hb : b < W) (hc : c < W) (hd : d < W) :
    Rep (fromRaw a b c d) ((a + W * b + W ^ 2 * c + W ^ 3 * d : Nat) : Fr) := fromRaw_rep ha hb hc hd

/-- C37: conversion of a machine word. -/
theorem C37_from_u64 {v : Nat} (hv : v < W) : Rep (ofU64 v) (v : Fr) := ofU64_rep hv

/-- C37: leaving Montgomery form after entering it returns the integer modulo the group order. -/
theorem C37_round_trip {a b c d : Nat} (ha : a < W) (hb : b < W) (hc : c < W) (hd : d < W) :
    val (reduce (fromRaw a b c d)) = (a + W * b + W ^ 2 * c + W ^ 3 * d) % frModulus := by
  rw [(reduce_rep (fromRaw_rep ha hb hc hd)).2, ZMod.val_natCast]
  rfl

/-- C37: entering Montgomery form after leaving it returns the same words. -/
theorem C37_round_trip_words {s : Scalar} (hs : Red s) :
    fromRaw (reduce s).l0 (reduce s).l1 (reduce s).l2 (reduce s).l3 = s := by
  obtain ⟨x, hx⟩ := red_rep hs
  obtain ⟨⟨h0, h1, h2, h3⟩, e⟩ := reduce_rep hx
  have h := fromRaw_rep h0 h1 h2 h3
  rw [show (⟨(reduce s).l0, (reduce s).l1, (reduce s).l2, (reduce s).l3⟩ : Scalar) = reduce s from rfl, e,
    ZMod.natCast_zmod_val] at h
  exact rep_inj h hx

example : mul (ofU64 0xffffffffffffffff) (ofU64 0xffffffffffffffff)
    = fromRaw 1 0xfffffffffffffffe 0 0 := by decide +kernel

/-! ## C38 -/

/-- C38: decoding 32 bytes succeeds exactly when the little-endian integer is below the modulus, and
then gives that element. -/
theorem C38_from_bytes {bs : List Nat} (hl : bs.length = 32) (hb : ∀ b ∈ bs, b < 256) :
    (fromLe bs < frModulus → ∃ s, fromBytes bs = some s ∧ Rep s (fromLe bs : Fr)) ∧
    (frModulus ≤ fromLe bs → fromBytes bs = none) := fromBytes_spec hl hb

/-- C38: encoding gives 32 bytes holding the canonical integer. -/
theorem C38_to_bytes {s : Scalar} {x : Fr} (hs : Rep s x) :
    (toBytes s).length = 32 ∧ (∀ b ∈ toBytes s, b < 256) ∧ fromLe (toBytes s) = x.val := toBytes_spec hs

/-- C38: decoding what was encoded. -/
theorem C38_decode_encode {s : Scalar} (hs : Red s) : fromBytes (toBytes s) = some s := by
  obtain ⟨x, hx⟩ := red_rep hs
  obtain ⟨hl, hb, e⟩ := toBytes_spec hx
  obtain ⟨t, ht, hr⟩ := (fromBytes_spec hl hb).1 (by rw [e]; exact ZMod.val_lt x)
  rw [e, ZMod.natCast_zmod_val] at hr
  rw [ht, rep_inj hr hx]

/-- C38: encoding what was decoded: only one byte string decodes to each scalar. -/
theorem C38_encode_decode {bs : List Nat} (hl : bs.length = 32) (hb : ∀ b ∈ bs, b < 256) {s : Scalar}
    (h : fromBytes bs = some s) : toBytes s = bs := by
  have hlt : fromLe bs < frModulus := by
    by_contra hn
    rw [(fromBytes_spec hl hb).2 (by omega)] at h
    cases h
  obtain ⟨t, ht, hr⟩ := (fromBytes_spec hl hb).1 hlt
  rw [h] at ht
  cases ht
  obtain ⟨hl', hb', e⟩ := toBytes_spec hr
  rw [ZMod.val_natCast, Nat.mod_eq_of_lt hlt] at e
  exact fromLe_inj (by omega) hb' hb e

/-- The first rejected integer: the modulus itself; and the last accepted one. -/
example : fromBytes (toLe 32 frModulus) = none ∧ (fromBytes (toLe 32 (frModulus - 1))).isSome = true := by
  decide +kernel

/-! ## C39 -/

/-- C39: decoding 64 bytes gives the 512-bit integer modulo the group order. -/
theorem C39_from_bytes_wide {bs : List Nat} (hl : bs.length = 64) (hb : ∀ b ∈ bs, b < 256) :
    Rep (fromBytesWide bs) (fromLe bs : Fr) := fromBytesWide_spec hl hb

/-- C39: and re-encoding it gives the remainder. -/
theorem C39_remainder {bs : List Nat} (hl : bs.length = 64) (hb : ∀ b ∈ bs, b < 256) :
    fromLe (toBytes (fromBytesWide bs)) = fromLe bs % frModulus := by
  rw [(toBytes_spec (fromBytesWide_spec hl hb)).2.2, ZMod.val_natCast]

example : toBytes (fromBytesWide (List.replicate 64 255)) = toLe 32 ((2 ^ 512 - 1) % frModulus) := by
  decide +kernel

/-! ## C40 -/

/-- C40: inversion. -/
theorem C40_invert {s : Scalar} {x : Fr} (hs : Rep s x) (hx : x ≠ 0) :
    ∃ t, invert s = some t ∧ Rep t x⁻¹ := invert_rep hs hx

/-- C40: zero has no inverse, and the code says so. -/
theorem C40_invert_zero {s : Scalar} (hs : Rep s 0) : invert s = none := invert_zero hs

/-- C40: variable time exponentiation by a 256-bit exponent. -/
theorem C40_pow_vartime {s : Scalar} {x : Fr} (hs : Rep s x) {b0 b1 b2 b3 : Nat} (h0 : b0 < W) (h1 : b1 < W)
    (h2 : b2 < W) (h3 : b3 < W) :
    Rep (powVartime s b0 b1 b2 b3) (x ^ (b0 + W * b1 + W ^ 2 * b2 + W ^ 3 * b3)) := powVartime_rep hs h0 h1 h2 h3

/-- C40: constant time exponentiation by a 256-bit exponent. -/
theorem C40_pow {s : Scalar} {x : Fr} (hs : Rep s x) {b0 b1 b2 b3 : Nat} (h0 : b0 < W) (h1 : b1 < W)
    (h2 : b2 < W) (h3 : b3 < W) :
    Rep (Scalar.pow s b0 b1 b2 b3) (x ^ (b0 + W * b1 + W ^ 2 * b2 + W ^ 3 * b3)) := by
  rw [pow_eq]
  exact powVartime_rep hs h0 h1 h2 h3

example : ∃ s t, Rep s (7 : Fr) ∧ invert s = some t ∧ Rep t (7 : Fr)⁻¹ := by
  have h7 : (7 : Fr) ≠ 0 := by
    intro h
    have h2 : ((7 : Nat) : Fr) = 0 := by exact_mod_cast h
    rw [ZMod.natCast_eq_zero_iff] at h2
    have := Nat.le_of_dvd (by norm_num) h2
    simp [frModulus] at this
  obtain ⟨t, h1, h2⟩ := C40_invert generator_rep h7
  exact ⟨_, t, generator_rep, h1, h2⟩

/-! ## C44: square root -/

/-- C44: for a square, the code returns one of its square roots. -/
theorem C44_sqrt_complete {s : Scalar} {x : Fr} (hs : Rep s x) (hx : IsSquare x) :
    ∃ t y, sqrt s = some t ∧ Rep t y ∧ y * y = x := by
  obtain ⟨y, rfl⟩ := hx
  exact sqrt_square hs rfl

/-- C44: whatever is returned is a square root. -/
theorem C44_sqrt_sound {s t : Scalar} {x : Fr} (hs : Rep s x) (h : sqrt s = some t) :
    ∃ y, Rep t y ∧ y * y = x := sqrt_some hs h

/-- C44: nothing is returned exactly when there is no square root. -/
theorem C44_sqrt_none {s : Scalar} {x : Fr} (hs : Rep s x) : sqrt s = none ↔ ¬ IsSquare x := by
  constructor
  · rintro h ⟨y, rfl⟩
    obtain ⟨t, w, e, -⟩ := sqrt_square hs (y := y) rfl
    rw [e] at h
    cases h
  · intro h
    cases e : sqrt s with
    | none => rfl
    | some t =>
      obtain ⟨y, -, hy⟩ := sqrt_some hs e
      exact absurd ⟨y, hy.symm⟩ h

example : ∃ s t y, Rep s (4 : Fr) ∧ sqrt s = some t ∧ Rep t y ∧ (y = 2 ∨ y = -2) := by
  obtain ⟨s, hs⟩ := rep_exists 4
  obtain ⟨t, y, h1, h2, h3⟩ := C44_sqrt_complete hs ⟨2, by norm_num⟩
  refine ⟨s, t, y, hs, h1, h2, ?_⟩
  have : (y - 2) * (y + 2) = 0 := by
    have : (y - 2) * (y + 2) = y * y - 4 := by ring
    rw [this, h3, sub_self]
  rcases mul_eq_zero.1 this with h | h
  · exact Or.inl (sub_eq_zero.1 h)
  · exact Or.inr (eq_neg_of_add_eq_zero_left h)

/-! ## C45: right shift -/

/-- C45: `divn` shifts the integer in the words right, for every amount below 256. -/
theorem C45_divn {s : Scalar} (hs : Words s) {n : Nat} (hn : n < 256) :
    Words (divn s n) ∧ val (divn s n) = val s / 2 ^ n := divn_spec hs hn

/-- C45: larger amounts give zero, as a shift should. -/
theorem C45_divn_large {s : Scalar} (hs : Words s) {n : Nat} (hn : 256 ≤ n) :
    val (divn s n) = val s / 2 ^ n := by
  have h0 : val (divn s n) = 0 := by
    rw [divn_large s hn]
    decide +kernel
  have hlt : val s < 2 ^ n :=
    calc val s < W ^ 4 := val_lt hs
      _ = 2 ^ 256 := by norm_num [W]
      _ ≤ 2 ^ n := Nat.pow_le_pow_right (by norm_num) hn
  rw [h0, Nat.div_eq_of_lt hlt]

/-- C46: the marker for a missing value is not a reduced element, so no computed scalar equals it. -/
theorem C46_null_is_no_value {s : Scalar} (hs : Red s) : ctEq s null = false := by
  rw [Bool.eq_false_iff]
  intro h
  rw [ctEq_iff] at h
  rw [h] at hs
  exact absurd hs.2 (by simp [val, null, W, frModulus])

example : divn ⟨0x8000000000000003, 0x5, 0, 0x10⟩ 65 = ⟨0x2, 0, 0x8, 0⟩ := by decide +kernel

end Kzg.Props
