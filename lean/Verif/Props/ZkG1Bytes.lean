import Verif.Proofs.Zk.G1Bytes
/-!
# Properties C58 and C59: encodings of points of the first group (zkcrypto)

A byte array is a list of numbers below 256 with the length of the array; `beNat` reads it as a big endian
integer. `FpW.el` is the residue a coordinate stands for.
-/

namespace Kzg.Props
set_option exponentiation.threshold 1000
open Kzg Kzg.Zk Kzg.Zk.G1 Kzg.Zk.Fp CurveConsts

local notation "E" => curve (CurveConsts.b (K := FpW))

/-! ## C58: compressed points -/

/-- C58: the checked decoder never panics, and accepts exactly the encodings of points of the prime order
subgroup, each of which it decodes to the point with that encoding. -/
theorem C58_decode (chk : Bool) {bs : List Nat} (hl : bs.length = 48) (hb : ∀ c ∈ bs, c < 256) :
    ∃ o, fromCompressed chk bs = .ok o ∧ ∀ p, o = some p ↔
      (∃ P, Affine.Is b p P ∧ frModulus • P = 0) ∧ toCompressed p = bs := fromCompressed_iff chk hl hb

/-- C58: the round trip from a point of the subgroup. -/
theorem C58_round_trip (chk : Bool) {p : Aff} {P : (E).Point} (hp : Affine.Is b p P) (ht : frModulus • P = 0) :
    fromCompressed chk (toCompressed p) = .ok (some p) := by
  obtain ⟨h1, h2⟩ := toCompressed_length p
  obtain ⟨o, e, h⟩ := fromCompressed_iff chk h1 h2
  rw [e, (h p).2 ⟨⟨P, hp, ht⟩, rfl⟩]

/-- C58: the decoder without the subgroup test accepts exactly the encodings of points of the curve. -/
theorem C58_unchecked {bs : List Nat} (hl : bs.length = 48) (hb : ∀ c ∈ bs, c < 256) {p : Aff} :
    fromCompressedUnchecked bs = some p ↔ (∃ P, Affine.Is b p P) ∧ toCompressed p = bs :=
  fromCompressedUnchecked_iff hl hb

/-- C58: no byte string encodes two points, and no point of the curve has two encodings that decode. -/
theorem C58_canonical {p q : Aff} {P Q : (E).Point} (hp : Affine.Is b p P) (hq : Affine.Is b q Q)
    (h : toCompressed p = toCompressed q) : P = Q := by
  obtain ⟨h1, h2⟩ := toCompressed_length p
  have e1 := (fromCompressedUnchecked_iff h1 h2).2 ⟨⟨P, hp⟩, rfl⟩
  have e2 := (fromCompressedUnchecked_iff h1 h2).2 ⟨⟨Q, hq⟩, h.symm⟩
  obtain rfl := Option.some.inj (e1.symm.trans e2)
  exact affine_is_unique hp hq

/-- C58: the encoding has 48 bytes; as an integer it is bit 383, plus bit 382 for the identity, plus bit 381 if
the second coordinate is the larger of the two square roots, plus the first coordinate. -/
theorem C58_format {p : Aff} {P : (E).Point} (h : Affine.Is b p P) :
    (toCompressed p).length = 48 ∧ (∀ c ∈ toCompressed p, c < 256) ∧
    (P = 0 → beNat (toCompressed p) = 2 ^ 383 + 2 ^ 382) ∧
    (∀ x y hn, P = .some x y hn → beNat (toCompressed p) =
      2 ^ 383 + (if (fpModulus - 1) / 2 < (FpW.el y).val then 2 ^ 381 else 0) + (FpW.el x).val) := by
  obtain ⟨h1, h2⟩ := toCompressed_length p
  refine ⟨h1, h2, ?_, ?_⟩
  · rintro rfl
    obtain rfl : p = Affine.identity := affine_is_inj h .infinity
    rw [toCompressed_value h]
    simp [Affine.identity, FpW.el_zero]
  · rintro x y hn rfl
    obtain rfl : p = ⟨x, y, false⟩ := affine_is_inj h (.finite hn)
    rw [toCompressed_value h]
    simp

/-- The generator is encoded as the well known string, and decoded from it. -/
example (chk : Bool) : toCompressed generator = toBe 48
      0x97f1d3a73197d7942695638c4fa9ac0fc3688c4f9774b905a14e3a3f171bac586c55e83ff97a1aeffb3af00adb22c6bb ∧
    fromCompressed chk (toCompressed generator) = .ok (some generator) :=
  ⟨by decide +kernel, C58_round_trip chk generator_is order_gen⟩

/-! ## C59: uncompressed points -/

/-- C59: the checked decoder never panics, and accepts exactly the encodings of points of the prime order
subgroup. -/
theorem C59_decode (chk : Bool) {bs : List Nat} (hl : bs.length = 96) (hb : ∀ c ∈ bs, c < 256) :
    ∃ o, fromUncompressed chk bs = .ok o ∧ ∀ p, o = some p ↔
      (∃ P, Affine.Is b p P ∧ frModulus • P = 0) ∧ toUncompressed p = bs := fromUncompressed_iff chk hl hb

/-- C59: the round trip from a point of the subgroup. -/
theorem C59_round_trip (chk : Bool) {p : Aff} {P : (E).Point} (hp : Affine.Is b p P) (ht : frModulus • P = 0) :
    fromUncompressed chk (toUncompressed p) = .ok (some p) := by
  obtain ⟨h1, h2⟩ := toUncompressed_length p
  obtain ⟨o, e, h⟩ := fromUncompressed_iff chk h1 h2
  rw [e, (h p).2 ⟨⟨P, hp, ht⟩, rfl⟩]

/-- C59: the decoder without tests accepts exactly the encodings of pairs of coordinates, on the curve or not,
and of the identity. -/
theorem C59_unchecked {bs : List Nat} (hl : bs.length = 96) (hb : ∀ c ∈ bs, c < 256) {p : Aff} :
    fromUncompressedUnchecked bs = some p ↔ (p = ⟨0, 1, true⟩ ∨ p.infinity = false) ∧ toUncompressed p = bs :=
  fromUncompressedUnchecked_iff hl hb

/-- C59: the encoding has 96 bytes; as an integer it is bit 766 for the identity, and otherwise the first
coordinate above the 384 bits of the second. -/
theorem C59_format {p : Aff} {P : (E).Point} (h : Affine.Is b p P) :
    (toUncompressed p).length = 96 ∧ (∀ c ∈ toUncompressed p, c < 256) ∧
    (P = 0 → beNat (toUncompressed p) = 2 ^ 766) ∧
    (∀ x y hn, P = .some x y hn → beNat (toUncompressed p) = 2 ^ 384 * (FpW.el x).val + (FpW.el y).val) := by
  obtain ⟨h1, h2⟩ := toUncompressed_length p
  refine ⟨h1, h2, ?_, ?_⟩
  · rintro rfl
    obtain rfl : p = Affine.identity := affine_is_inj h .infinity
    decide +kernel
  · rintro x y hn rfl
    obtain rfl : p = ⟨x, y, false⟩ := affine_is_inj h (.finite hn)
    obtain ⟨c, rest, h0, hc, hl, -⟩ := FpW.toBytes_cons x
    rw [toUncompressed_cons (p := ⟨x, y, false⟩) (by simpa using h0) hc, ← fromBe_eq]
    obtain ⟨-, -, t3⟩ := Fp.toBytes_spec (FpW.el_rep x)
    obtain ⟨l4, -, t4⟩ := Fp.toBytes_spec (FpW.el_rep y)
    simp only [Bool.false_eq_true, if_false, add_zero]
    rw [← List.cons_append, ← h0, fromBe_append, l4, t3, t4]
    ring

example (chk : Bool) : fromUncompressed chk (toUncompressed generator) = .ok (some generator) ∧
    fromUncompressed chk (toUncompressed Affine.identity) = .ok (some Affine.identity) :=
  ⟨C59_round_trip chk generator_is order_gen, C59_round_trip chk affine_identity_is (nsmul_zero _)⟩

/-- The pair `(1, 1)` is decoded without tests, but rejected with them. -/
example (chk : Bool) : fromUncompressedUnchecked (toUncompressed ⟨1, 1, false⟩) = some ⟨1, 1, false⟩ ∧
    fromUncompressed chk (toUncompressed ⟨1, 1, false⟩) = .ok none := by
  obtain ⟨h1, h2⟩ := toUncompressed_length ⟨1, 1, false⟩
  have h := (C59_unchecked h1 h2).2 ⟨Or.inr rfl, rfl⟩
  refine ⟨h, ?_⟩
  obtain ⟨o, e, ho⟩ := C59_decode chk h1 h2
  rw [e]
  cases o with
  | none => rfl
  | some q =>
    exfalso
    obtain ⟨⟨P, hP, -⟩, hq⟩ := (ho q).1 rfl
    obtain rfl := Option.some.inj (((C59_unchecked h1 h2).2 ⟨shape_of_is hP, hq⟩).symm.trans h)
    have := onCurve_of_is hP
    revert this
    decide +kernel

end Kzg.Props
