import Verif.Proofs.Zk.FpBytes
import Mathlib.NumberTheory.LegendreSymbol.Basic
/-!
# Properties C42, C47–C50: the pure Rust base field of zkcrypto

`Rep s x` (`Verif/Spec/ZkFp.lean`): the six words `s` are the reduced Montgomery form of the field
element `x`. Every reduced vector represents exactly one element and every element has exactly one
representative, so the theorems below determine the words of every result.
-/

set_option exponentiation.threshold 1000

namespace Kzg.Props
open Kzg Kzg.Zk Kzg.Zk.Fp

/-! ## C42 -/

/-- C42: every reduced vector of words represents exactly one field element. -/
theorem C42_rep_element (s : Fp) (h : Red s) : ∃! x, Rep s x := by
  obtain ⟨x, hx⟩ := red_rep h
  exact ⟨x, hx, fun y hy => rep_unique hy hx⟩

/-- C42: every field element has exactly one representative. -/
theorem C42_rep_words (x : Fq) : ∃! s, Rep s x := by
  obtain ⟨s, hs⟩ := rep_exists x
  exact ⟨s, hs, fun t ht => rep_inj ht hs⟩

/-- C42: equality of words is equality of elements; this is the `==` of the source. -/
theorem C42_eq {s t : Fp} {x y : Fq} (hs : Rep s x) (ht : Rep t y) : ctEq s t = true ↔ x = y := by
  rw [ctEq_rep hs ht, decide_eq_true_eq]

/-- C42: the test for zero. -/
theorem C42_is_zero {s : Fp} {x : Fq} (hs : Rep s x) : isZero s = true ↔ x = 0 := by
  rw [isZero_rep hs, decide_eq_true_eq]

/-- C42 (integers): the words of the sum hold the exact modular sum of the integers. -/
theorem C42_add_integers {a b : Fp} (ha : Red a) (hb : Red b) :
    Red (add a b) ∧ val (add a b) = (val a + val b) % fpModulus :=
  add_spec ha.1 hb.1 (by have := ha.2; have := hb.2; omega)

/-- C42 (integers): the words of the difference hold the exact modular difference. -/
theorem C42_sub_integers {a b : Fp} (ha : Red a) (hb : Red b) :
    Red (sub a b) ∧ (val (sub a b) + val b) % fpModulus = val a := by
  obtain ⟨x, hx⟩ := red_rep ha
  obtain ⟨y, hy⟩ := red_rep hb
  have h := sub_rep hx hy
  refine ⟨h.1, ?_⟩
  have e : ((val (sub a b) + val b : Nat) : Fq) = (val a : Fq) := by
    rw [Nat.cast_add, h.2, hx.2, hy.2]
    ring
  rw [ZMod.natCast_eq_natCast_iff'] at e
  rw [e, Nat.mod_eq_of_lt ha.2]

/-- C42 (integers): Montgomery multiplication returns the reduced `v` with `v · 2^384 ≡ a · b`. -/
theorem C42_mul_integers {a b : Fp} (ha : Red a) (hb : Red b) :
    Red (mul a b) ∧ (val (mul a b) * 2 ^ 384) % fpModulus = (val a * val b) % fpModulus := by
  obtain ⟨r, e⟩ := mul_spec ha.1 hb.1 (Nat.mul_lt_mul'' (val_lt ha.1) hb.2)
  rw [show W ^ 6 = 2 ^ 384 by norm_num [W]] at e
  exact ⟨r, by rw [mul_comm]; exact e⟩

/-- C42: addition. -/
theorem C42_add {s t : Fp} {x y : Fq} (hs : Rep s x) (ht : Rep t y) : Rep (add s t) (x + y) := add_rep hs ht

/-- C42: subtraction. -/
theorem C42_sub {s t : Fp} {x y : Fq} (hs : Rep s x) (ht : Rep t y) : Rep (sub s t) (x - y) := sub_rep hs ht

/-- C42: negation. -/
theorem C42_neg {s : Fp} {x : Fq} (hs : Rep s x) : Rep (neg s) (-x) := neg_rep hs

/-- C42: multiplication. -/
theorem C42_mul {s t : Fp} {x y : Fq} (hs : Rep s x) (ht : Rep t y) : Rep (mul s t) (x * y) := mul_rep hs ht

/-- C42: squaring. -/
theorem C42_square {s : Fp} {x : Fq} (hs : Rep s x) : Rep (square s) (x * x) := square_rep hs

/-- C42: the specialised squaring gives the words of the general product. -/
theorem C42_square_eq_mul {s : Fp} (hs : Red s) : square s = mul s s := by
  obtain ⟨x, hx⟩ := red_rep hs
  exact rep_inj (square_rep hx) (mul_rep hx hx)

/-- C42: the constants. -/
theorem C42_constants : Rep zero 0 ∧ Rep one 1 := ⟨zero_rep, one_rep⟩

/-- C42: the field size is prime, so this is a field and inverses are meaningful. -/
theorem C42_prime : fpModulus.Prime := fpModulus_prime

/-- All six carries are used: `(p-1) + (p-1)` wraps, and is `p - 2`. -/
example : add ⟨0xb9feffffffffaaaa, 0x1eabfffeb153ffff, 0x6730d2a0f6b0f624, 0x64774b84f38512bf,
      0x4b1ba7b6434bacd7, 0x1a0111ea397fe69a⟩
    ⟨0xb9feffffffffaaaa, 0x1eabfffeb153ffff, 0x6730d2a0f6b0f624, 0x64774b84f38512bf,
      0x4b1ba7b6434bacd7, 0x1a0111ea397fe69a⟩
    = ⟨0xb9feffffffffaaa9, 0x1eabfffeb153ffff, 0x6730d2a0f6b0f624, 0x64774b84f38512bf,
      0x4b1ba7b6434bacd7, 0x1a0111ea397fe69a⟩ := by decide +kernel

example : ∃ s t, Rep s 5 ∧ Rep t (-3) ∧ Rep (add s t) 2 ∧ Rep (mul s t) (-15) := by
  obtain ⟨s, hs⟩ := rep_exists 5
  obtain ⟨t, ht⟩ := rep_exists (-3)
  have h := C42_add hs ht
  have h' := C42_mul hs ht
  norm_num at h h'
  exact ⟨s, t, hs, ht, h, h'⟩

/-! ## C47: encoding -/

/-- C47: decoding 48 bytes succeeds exactly when the big-endian integer is below the modulus, and then
gives that element. -/
theorem C47_from_bytes {bs : List Nat} (hl : bs.length = 48) (hb : ∀ b ∈ bs, b < 256) :
    (beNat bs < fpModulus → ∃ s, fromBytes bs = some s ∧ Rep s (beNat bs : Fq)) ∧
    (fpModulus ≤ beNat bs → fromBytes bs = none) := by
  rw [← fromBe_eq]
  exact fromBytes_spec hl hb

/-- C47: encoding gives 48 bytes holding the canonical integer, most significant byte first. -/
theorem C47_to_bytes {s : Fp} {x : Fq} (hs : Rep s x) :
    (toBytes s).length = 48 ∧ (∀ b ∈ toBytes s, b < 256) ∧ beNat (toBytes s) = x.val := by
  rw [← fromBe_eq]
  exact toBytes_spec hs

/-- C47: decoding what was encoded. -/
theorem C47_decode_encode {s : Fp} (hs : Red s) : fromBytes (toBytes s) = some s := by
  obtain ⟨x, hx⟩ := red_rep hs
  obtain ⟨hl, hb, e⟩ := toBytes_spec hx
  obtain ⟨t, ht, hr⟩ := (fromBytes_spec hl hb).1 (by rw [e]; exact ZMod.val_lt x)
  rw [e, ZMod.natCast_zmod_val] at hr
  rw [ht, rep_inj hr hx]

/-- C47: encoding what was decoded: only one byte string decodes to each element. -/
theorem C47_encode_decode {bs : List Nat} (hl : bs.length = 48) (hb : ∀ b ∈ bs, b < 256) {s : Fp}
    (h : fromBytes bs = some s) : toBytes s = bs := by
  have hlt : fromBe bs < fpModulus := by
    by_contra hn
    rw [(fromBytes_spec hl hb).2 (by omega)] at h
    cases h
  obtain ⟨t, ht, hr⟩ := (fromBytes_spec hl hb).1 hlt
  rw [h] at ht
  cases ht
  obtain ⟨hl', hb', e⟩ := toBytes_spec hr
  rw [ZMod.val_natCast, Nat.mod_eq_of_lt hlt] at e
  exact fromBe_inj (by omega) hb' hb e

/-- The first rejected integer: the modulus itself; and the last accepted one. -/
example : fromBytes (toBe 48 fpModulus) = none ∧ (fromBytes (toBe 48 (fpModulus - 1))).isSome = true := by
  decide +kernel

/-! ## C48: powers, inverses, square roots -/

/-- C48: exponentiation by a 384-bit exponent. -/
theorem C48_pow_vartime {s : Fp} {x : Fq} (hs : Rep s x) {b0 b1 b2 b3 b4 b5 : Nat} (h0 : b0 < W) (h1 : b1 < W)
    (h2 : b2 < W) (h3 : b3 < W) (h4 : b4 < W) (h5 : b5 < W) :
    Rep (powVartime s b0 b1 b2 b3 b4 b5)
      (x ^ (b0 + W * b1 + W ^ 2 * b2 + W ^ 3 * b3 + W ^ 4 * b4 + W ^ 5 * b5)) :=
  powVartime_rep hs h0 h1 h2 h3 h4 h5

/-- C48: inversion. -/
theorem C48_invert {s : Fp} {x : Fq} (hs : Rep s x) (hx : x ≠ 0) :
    ∃ t, invert s = some t ∧ Rep t x⁻¹ := invert_rep hs hx

/-- C48: zero has no inverse, and the code says so. -/
theorem C48_invert_zero {s : Fp} (hs : Rep s 0) : invert s = none := invert_zero hs

/-- C48: for a square, the code returns one of its square roots. -/
theorem C48_sqrt_complete {s : Fp} {x : Fq} (hs : Rep s x) (hx : IsSquare x) :
    ∃ t y, sqrt s = some t ∧ Rep t y ∧ y * y = x := by
  obtain ⟨y, rfl⟩ := hx
  rw [← pow_two] at hs
  obtain ⟨t, z, h1, h2, h3⟩ := sqrt_square hs
  exact ⟨t, z, h1, h2, by rw [← pow_two, ← pow_two, h3]⟩

/-- C48: whatever is returned is a square root. -/
theorem C48_sqrt_sound {s t : Fp} {x : Fq} (hs : Rep s x) (h : sqrt s = some t) :
    ∃ y, Rep t y ∧ y * y = x := by
  obtain ⟨y, h1, h2⟩ := sqrt_some hs h
  exact ⟨y, h1, by rw [← pow_two, h2]⟩

/-- C48: nothing is returned exactly when there is no square root. -/
theorem C48_sqrt_none {s : Fp} {x : Fq} (hs : Rep s x) : sqrt s = none ↔ ¬ IsSquare x := by
  constructor
  · intro h hx
    obtain ⟨t, w, e, -⟩ := C48_sqrt_complete hs hx
    rw [e] at h
    cases h
  · intro h
    cases e : sqrt s with
    | none => rfl
    | some t =>
      obtain ⟨y, -, hy⟩ := C48_sqrt_sound hs e
      exact absurd ⟨y, hy.symm⟩ h

/-- Four has a root, and minus one (the modulus is 3 modulo 4) has none. -/
example : ∃ s t, Rep s (4 : Fq) ∧ (sqrt s).isSome = true ∧ Rep t (-1 : Fq) ∧ sqrt t = none := by
  obtain ⟨s, hs⟩ := rep_exists 4
  obtain ⟨t, ht⟩ := rep_exists (-1)
  obtain ⟨u, y, h1, -⟩ := C48_sqrt_complete hs ⟨2, by norm_num⟩
  refine ⟨s, t, hs, by rw [h1]; rfl, ht, (C48_sqrt_none ht).2 ?_⟩
  rw [ZMod.exists_sq_eq_neg_one_iff]
  simp [fpModulus]

/-! ## C49: the sign used by compressed points -/

/-- C49: the sign bit says whether the canonical integer exceeds `(p - 1) / 2`. -/
theorem C49_lexicographically_largest {s : Fp} {x : Fq} (hs : Rep s x) :
    lexLargest s = true ↔ (fpModulus - 1) / 2 < x.val := by
  rw [lexLargest_spec hs, decide_eq_true_eq]

/-- C49: exactly one of a nonzero element and its negation has the sign bit set, so the bit picks one
of the two roots. -/
theorem C49_negation {s : Fp} {x : Fq} (hs : Rep s x) (hx : x ≠ 0) : lexLargest (neg s) = !lexLargest s := by
  rw [lexLargest_spec hs, lexLargest_spec (neg_rep hs), ZMod.neg_val, if_neg hx]
  have h1 := ZMod.val_lt x
  have h2 : x.val ≠ 0 := by rwa [ne_eq, ZMod.val_eq_zero]
  have h3 : fpModulus = 2 * ((fpModulus - 1) / 2) + 1 := by decide +kernel
  rw [← decide_not, decide_eq_decide]
  omega

/-- C49: zero is not the largest, nor is its negation. -/
theorem C49_zero {s : Fp} (hs : Rep s 0) : lexLargest s = false ∧ neg s = s := by
  refine ⟨by rw [lexLargest_spec hs]; simp, rep_inj (neg_rep hs) ?_⟩
  rwa [neg_zero]

example : lexLargest one = false ∧ lexLargest (neg one) = true ∧ lexLargest zero = false := by decide +kernel

/-! ## C50: reduction of 768 bits -/

/-- C50, the part that holds: the result is reduced, and is the *first* six limbs plus `2^384` times the
*last* six limbs, each half read with its most significant limb first. The comment in the source says
that the twelve limbs are read most significant first, which would be the first half times `2^384` plus
the last half. -/
theorem C50_from_u768_partial {l0 l1 l2 l3 l4 l5 l6 l7 l8 l9 l10 l11 : Nat}
    (h0 : l0 < W) (h1 : l1 < W) (h2 : l2 < W) (h3 : l3 < W) (h4 : l4 < W) (h5 : l5 < W)
    (h6 : l6 < W) (h7 : l7 < W) (h8 : l8 < W) (h9 : l9 < W) (h10 : l10 < W) (h11 : l11 < W) :
    Rep (fromU768 l0 l1 l2 l3 l4 l5 l6 l7 l8 l9 l10 l11)
      (([l6, l7, l8, l9, l10, l11, l0, l1, l2, l3, l4, l5].foldl (fun a l => a * W + l) 0 : Nat) : Fq) := by
  have h := fromU768_rep (l0 := l0) (l1 := l1) (l2 := l2) (l3 := l3) (l4 := l4) (l5 := l5) (l6 := l6) (l7 := l7)
    (l8 := l8) (l9 := l9) (l10 := l10) (l11 := l11) ⟨h5, h4, h3, h2, h1, h0⟩ ⟨h11, h10, h9, h8, h7, h6⟩
  have e : ([l6, l7, l8, l9, l10, l11, l0, l1, l2, l3, l4, l5].foldl (fun a l => a * W + l) 0 : Nat)
      = val ⟨l5, l4, l3, l2, l1, l0⟩ + W ^ 6 * val ⟨l11, l10, l9, l8, l7, l6⟩ := by
    simp only [List.foldl, val]
    ring
  rw [e, Nat.cast_add, Nat.cast_mul, W6]
  exact h

/-- C50: the statement in the source is false. Limbs `0, …, 0, 1` are the number one, and the result is
not one. -/
theorem C50_not_big_endian :
    ¬ Rep (fromU768 0 0 0 0 0 0 0 0 0 0 0 1)
      (([0, 0, 0, 0, 0, 0, 0, 0, 0, 0, 0, 1].foldl (fun a l => a * W + l) 0 : Nat) : Fq) := by
  intro h
  have h1 : (([0, 0, 0, 0, 0, 0, 0, 0, 0, 0, 0, 1].foldl (fun a l => a * W + l) 0 : Nat) : Fq) = 1 := by
    simp [List.foldl]
  rw [h1] at h
  have := rep_inj h one_rep
  revert this
  decide +kernel

end Kzg.Props
