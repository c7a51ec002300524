import Verif.Proofs.Zk.G2Cofactor
import Verif.Proofs.Zk.G1Bytes
/-!
# The subgroup test and the encodings of points of the second group
-/

set_option exponentiation.threshold 1000

namespace Kzg.Zk

namespace Fp2
open Fp (fromBe fromBe_append)

theorem lexLargest_neg {y : Fp2 FpW} (h : y ≠ 0) : lexLargest (-y) = !lexLargest y := by
  obtain ⟨y0, y1⟩ := y
  have e : -(⟨y0, y1⟩ : Fp2 FpW) = ⟨-y0, -y1⟩ := rfl
  rw [e]
  have hz : ∀ s : FpW, Fp.isZero s.1 = decide (s = 0) := fun s => by
    rw [Fp.isZero_rep (FpW.el_rep s), decide_eq_decide]
    exact ⟨fun h => FpW.el_inj (h.trans FpW.el_zero.symm), fun h => by rw [h]; exact FpW.el_zero⟩
  simp only [lexLargest, hz, neg_eq_zero]
  by_cases h1 : y1 = 0
  · have h0 : y0 ≠ 0 := by
      rintro rfl
      apply h
      rw [h1]
      rfl
    have hl : Fp.lexLargest (0 : FpW).1 = false := by decide +kernel
    rw [h1, neg_zero, hl, FpW.lexLargest_neg h0]
    simp
  · simp [h1, FpW.lexLargest_neg h1]

/-- The encoding of a coordinate. -/
def enc (x : Fp2 FpW) : List Nat := Fp.toBytes x.c1.1 ++ Fp.toBytes x.c0.1

theorem enc_cons (x : Fp2 FpW) : ∃ c rest, enc x = c :: rest ∧ c < 32 ∧ rest.length = 95 ∧ ∀ d ∈ rest, d < 256 := by
  obtain ⟨c, rest, h, hc, hl, hb⟩ := FpW.toBytes_cons x.c1
  obtain ⟨t1, t2, -⟩ := Fp.toBytes_spec (FpW.el_rep x.c0)
  refine ⟨c, rest ++ Fp.toBytes x.c0.1, by rw [enc, h, List.cons_append], hc, by simp [hl, t1], fun d hd => ?_⟩
  rcases List.mem_append.1 hd with hd | hd
  · exact hb d hd
  · exact t2 d hd

theorem enc_length (x : Fp2 FpW) : (enc x).length = 96 ∧ ∀ d ∈ enc x, d < 256 := by
  obtain ⟨c, rest, h, hc, hl, hb⟩ := enc_cons x
  rw [h]
  refine ⟨by simp [hl], fun d hd => ?_⟩
  rcases List.mem_cons.1 hd with rfl | hd
  · omega
  · exact hb d hd

theorem enc_value (x : Fp2 FpW) : fromBe (enc x) = 2 ^ 384 * (FpW.el x.c1).val + (FpW.el x.c0).val := by
  obtain ⟨-, -, t1⟩ := Fp.toBytes_spec (FpW.el_rep x.c1)
  obtain ⟨l0, -, t0⟩ := Fp.toBytes_spec (FpW.el_rep x.c0)
  rw [enc, fromBe_append, l0, t1, t0]
  ring

/-- Decoding the two halves of a coordinate. -/
theorem dec_iff {u v : List Nat} (hu : u.length = 48) (hv : v.length = 48) (bu : ∀ c ∈ u, c < 256)
    (bv : ∀ c ∈ v, c < 256) (x : Fp2 FpW) :
    (FpW.fromBytes u = some x.c1 ∧ FpW.fromBytes v = some x.c0) ↔ enc x = u ++ v := by
  rw [FpW.fromBytes_iff hu bu, FpW.fromBytes_iff hv bv, enc]
  obtain ⟨t1, -, -⟩ := Fp.toBytes_spec (FpW.el_rep x.c1)
  exact ⟨fun h => by rw [h.1, h.2], fun h => List.append_inj h (t1.trans hu.symm)⟩

end Fp2

namespace G2
open CurveConsts
open Fp (fromBe fromBe_append)

local notation "E" => curve (b : Fp2 FpW)

/-! ## The subgroup test -/

theorem isTorsionFree_iff {p : Aff} {P : (E).Point} (hp : Affine.Is b p P) :
    isTorsionFree p = true ↔ frModulus • P = 0 := by
  obtain ⟨h1, h2, h3⟩ := G1.order_bytes
  have h := multiply_is (ofAffine_is hp) (bytes := G1.orderBytes) (fun h => by rw [h] at h1; cases h1) h2
    (by rw [h3, h1]; decide +kernel)
  rw [h3] at h
  rw [isTorsionFree, isIdentity_iff h]

/-! ## Encodings -/

theorem toCompressed_cons {p : Aff} {c : Nat} {rest : List Nat}
    (h : (if p.infinity then (0 : Fp2 FpW) else p.x).enc = c :: rest) (hc : c < 32) :
    toCompressed p = (c + 128 + (if p.infinity then 64 else 0) +
      if !p.infinity && Fp2.lexLargest p.y then 32 else 0) :: rest := by
  rw [← G1.or_flags c hc]
  rw [Fp2.enc] at h
  simp only [toCompressed, h]
  rfl

/-- The decoder of the first coordinate. -/
theorem decode_iff {c : Nat} {rest : List Nat} (hl : 95 ≤ rest.length) (hr : ∀ d ∈ rest, d < 256) (x : Fp2 FpW) :
    (G1.decodeX (c :: rest) = some x.c1 ∧ FpW.fromBytes (((c :: rest).drop 48).take 48) = some x.c0) ↔
      x.enc = c % 32 :: rest.take 95 := by
  have hm : c &&& 0x1f = c % 32 := Nat.and_two_pow_sub_one_eq_mod c 5
  have e1 : G1.decodeX (c :: rest) = FpW.fromBytes (c % 32 :: rest.take 47) := by simp [G1.decodeX, hm]
  have e2 : ((c :: rest).drop 48).take 48 = (rest.drop 47).take 48 := rfl
  rw [e1, e2, Fp2.dec_iff (by simp; omega) (by simp; omega)]
  · rw [List.cons_append, show rest.take 95 = rest.take 47 ++ (rest.drop 47).take 48 from List.take_add (i := 47) (j := 48)]
  · intro d hd
    rcases List.mem_cons.1 hd with rfl | hd
    · omega
    · exact hr d (List.mem_of_mem_take hd)
  · exact fun d hd => hr d (List.mem_of_mem_drop (List.mem_of_mem_take hd))

/-- The compressed decoder without the subgroup test accepts exactly the encodings of curve points. -/
theorem fromCompressedUnchecked_iff {bs : List Nat} (hl : bs.length = 96) (hb : ∀ c ∈ bs, c < 256) {p : Aff} :
    fromCompressedUnchecked bs = some p ↔ (∃ P, Affine.Is b p P) ∧ toCompressed p = bs := by
  match bs, hl with
  | c :: rest, hl =>
    have hl' : rest.length = 95 := by simpa using hl
    have hc := hb c (by simp)
    have hr : ∀ d ∈ rest, d < 256 := fun d hd => hb d (by simp [hd])
    obtain ⟨f7, f6, f5⟩ := G1.flags c hc rest
    have hx : ∀ x : Fp2 FpW, (G1.decodeX (c :: rest) = some x.c1 ∧
        FpW.fromBytes (((c :: rest).drop 48).take 48) = some x.c0) ↔ x.enc = c % 32 :: rest := fun x => by
      rw [decode_iff (by omega) hr, List.take_of_length_le (by omega)]
    constructor
    · intro h
      unfold fromCompressedUnchecked at h
      cases hd1 : G1.decodeX (c :: rest) with
      | none => rw [hd1] at h; cases h
      | some x1 =>
      cases hd0 : FpW.fromBytes (((c :: rest).drop 48).take 48) with
      | none => rw [hd1, Option.bind_some, hd0] at h; cases h
      | some x0 =>
        have hxb := (hx ⟨x0, x1⟩).1 ⟨hd1, hd0⟩
        rw [hd1, Option.bind_some, hd0, Option.bind_some, f7, f6, f5] at h
        dsimp only at h
        generalize (⟨x0, x1⟩ : Fp2 FpW) = x at hxb h
        split at h
        · next hcond =>
          simp only [Bool.and_eq_true, decide_eq_true_eq, Bool.not_eq_true', decide_eq_false_iff_not,
            Fp2.isZero_iff] at hcond
          obtain ⟨⟨⟨h6, h7⟩, h5⟩, rfl⟩ := hcond
          cases h
          refine ⟨⟨0, .infinity⟩, ?_⟩
          rw [toCompressed_cons (p := Affine.identity) hxb (by omega)]
          simp only [Affine.identity, if_true, Bool.not_true, Bool.false_and, Bool.false_eq_true, if_false, List.cons.injEq,
            and_true]
          omega
        · cases hs : Fp2.sqrt (x * x * x + curveB) with
          | none => rw [hs] at h; cases h
          | some y =>
            rw [hs, Option.bind_some] at h
            have hy : y * y = x * x * x + b := Fp2.sqrt_some hs
            by_cases hcond : (!decide (64 ≤ c % 128) && decide (128 ≤ c)) = true
            · rw [if_pos hcond] at h
              simp only [Bool.and_eq_true, decide_eq_true_eq, Bool.not_eq_true', decide_eq_false_iff_not] at hcond
              obtain ⟨h6, h7⟩ := hcond
              have e6 : decide (64 ≤ c % 128) = false := by simpa using h6
              rw [e6] at h
              cases h
              have hn : (E).Nonsingular x y := nonsingular_iff.2 (by linear_combination hy)
              have hy0 : y ≠ 0 := y_ne hn.1
              have hn' : (E).Nonsingular x (-y) := nonsingular_iff.2 (by linear_combination hy)
              constructor
              · split
                · exact ⟨_, .finite hn'⟩
                · exact ⟨_, .finite hn⟩
              · rw [toCompressed_cons (c := c % 32) (rest := rest) (by simpa using hxb) (by omega)]
                simp only [Bool.false_eq_true, if_false, Bool.not_false, Bool.true_and, List.cons.injEq, and_true]
                have hlex : Fp2.lexLargest (if (Fp2.lexLargest y != decide (32 ≤ c % 64)) = true then -y else y) =
                    decide (32 ≤ c % 64) := by
                  split
                  · next hh =>
                    rw [Fp2.lexLargest_neg hy0]
                    revert hh
                    cases Fp2.lexLargest y <;> cases decide (32 ≤ c % 64) <;> simp
                  · next hh => simpa using hh
                rw [hlex]
                simp only [decide_eq_true_eq]
                split <;> omega
            · rw [if_neg hcond] at h
              cases h
    · rintro ⟨⟨P, hP⟩, he⟩
      obtain ⟨c0, rest0, h0, hc0, -, -⟩ := Fp2.enc_cons (if p.infinity then (0 : Fp2 FpW) else p.x)
      rw [toCompressed_cons h0 hc0, List.cons.injEq] at he
      obtain ⟨he, rfl⟩ := he
      have hmod : c % 32 = c0 := by split_ifs at he <;> omega
      rw [← hmod, ← hx] at h0
      unfold fromCompressedUnchecked
      rw [h0.1, Option.bind_some, h0.2, Option.bind_some, f7, f6, f5]
      clear h0
      dsimp only
      cases hP with
      | infinity =>
        simp only [if_true, Bool.not_true, Bool.false_and, Bool.false_eq_true, if_false] at he
        have h7 : 128 ≤ c := by omega
        have h6 : 64 ≤ c % 128 := by omega
        have h5 : ¬ 32 ≤ c % 64 := by omega
        have hz := (Fp2.isZero_iff (0 : Fp2 FpW)).2 rfl
        simp only [if_true, h7, h6, h5, decide_true, decide_false, Bool.not_false, Bool.and_self, hz]
        rfl
      | @finite x y h =>
        simp only [Bool.false_eq_true, if_false, Bool.not_false, Bool.true_and] at he
        have h7 : 128 ≤ c := by split_ifs at he <;> omega
        have h6 : ¬ 64 ≤ c % 128 := by split_ifs at he <;> omega
        have h5 : decide (32 ≤ c % 64) = Fp2.lexLargest y := by
          split_ifs at he with hlx
          · rw [hlx]; simp; omega
          · rw [Bool.not_eq_true] at hlx
            rw [hlx]; simp; omega
        have e := nonsingular_iff.1 h
        have hy0 := y_ne h.1
        have hsq : x * x * x + curveB = y * y := by
          have : x * x * x + b = y * y := by linear_combination -e
          exact this
        obtain ⟨s, hs⟩ := Option.isSome_iff_exists.1 (Fp2.sqrt_isSome y)
        have hs2 := Fp2.sqrt_some hs
        simp only [Bool.false_eq_true, if_false, hsq, hs, h7, h6, h5, Option.bind_some, decide_true, decide_false,
          Bool.false_and, Bool.not_false, Bool.and_self, if_true, Option.some.injEq, Affine.mk.injEq, true_and, and_true]
        have : (s - y) * (s + y) = 0 := by linear_combination hs2
        rcases mul_eq_zero.1 this with g | g
        · have : s = y := by linear_combination g
          subst this
          simp
        · have : s = -y := by linear_combination g
          subst this
          rw [Fp2.lexLargest_neg hy0, if_pos (by cases Fp2.lexLargest y <;> rfl), neg_neg]

theorem toUncompressed_cons {p : Aff} {c : Nat} {rest : List Nat}
    (h : (if p.infinity then (0 : Fp2 FpW) else p.x).enc = c :: rest) (hc : c < 32) :
    toUncompressed p = (c + if p.infinity then 64 else 0) ::
      (rest ++ (if p.infinity then (0 : Fp2 FpW) else p.y).enc) := by
  rw [← G1.or_flag c hc]
  rw [Fp2.enc] at h
  simp only [toUncompressed, h, List.append_assoc]
  simp only [← List.append_assoc]
  rw [Fp2.enc]
  simp

/-- What the uncompressed decoder accepts before any curve test: any pair of coordinates, or the identity. -/
def Shape (p : Aff) : Prop := p = Affine.identity ∨ p.infinity = false

theorem fromUncompressedUnchecked_iff {bs : List Nat} (hl : bs.length = 192) (hb : ∀ c ∈ bs, c < 256) {p : Aff} :
    fromUncompressedUnchecked bs = some p ↔ Shape p ∧ toUncompressed p = bs := by
  match bs, hl with
  | c :: rest, hl =>
    have hl' : rest.length = 191 := by simpa using hl
    have hc := hb c (by simp)
    have hr : ∀ d ∈ rest, d < 256 := fun d hd => hb d (by simp [hd])
    obtain ⟨f7, f6, f5⟩ := G1.flags c hc rest
    have hx : ∀ x : Fp2 FpW, (G1.decodeX (c :: rest) = some x.c1 ∧
        FpW.fromBytes (((c :: rest).drop 48).take 48) = some x.c0) ↔ x.enc = c % 32 :: rest.take 95 := fun x =>
      decode_iff (by omega) hr x
    have hy : ∀ y : Fp2 FpW, (FpW.fromBytes (((c :: rest).drop 96).take 48) = some y.c1 ∧
        FpW.fromBytes (((c :: rest).drop 144).take 48) = some y.c0) ↔ y.enc = rest.drop 95 := fun y => by
      have e1 : ((c :: rest).drop 96).take 48 = (rest.drop 95).take 48 := rfl
      have e2 : ((c :: rest).drop 144).take 48 = (rest.drop 95).drop 48 := by
        rw [List.drop_drop, show (c :: rest).drop 144 = rest.drop 143 from rfl,
          List.take_of_length_le (by simp; omega)]
      rw [e1, e2, Fp2.dec_iff (by simp; omega) (by simp; omega)
        (fun d hd => hr d (List.mem_of_mem_drop (List.mem_of_mem_take hd)))
        (fun d hd => hr d (List.mem_of_mem_drop (List.mem_of_mem_drop hd))), List.take_append_drop]
    constructor
    · intro h
      unfold fromUncompressedUnchecked at h
      cases hd1 : G1.decodeX (c :: rest) with
      | none => rw [hd1] at h; cases h
      | some x1 =>
      cases hd0 : FpW.fromBytes (((c :: rest).drop 48).take 48) with
      | none => rw [hd1, Option.bind_some, hd0] at h; cases h
      | some x0 =>
      cases he1 : FpW.fromBytes (((c :: rest).drop 96).take 48) with
      | none => rw [hd1, Option.bind_some, hd0, Option.bind_some, he1] at h; cases h
      | some y1 =>
      cases he0 : FpW.fromBytes (((c :: rest).drop 144).take 48) with
      | none => rw [hd1, Option.bind_some, hd0, Option.bind_some, he1, Option.bind_some, he0] at h; cases h
      | some y0 =>
        have hxb := (hx ⟨x0, x1⟩).1 ⟨hd1, hd0⟩
        have hyb := (hy ⟨y0, y1⟩).1 ⟨he1, he0⟩
        rw [hd1, Option.bind_some, hd0, Option.bind_some, he1, Option.bind_some, he0, Option.bind_some, f7, f6, f5] at h
        dsimp only at h
        generalize (⟨x0, x1⟩ : Fp2 FpW) = x at hxb h
        generalize (⟨y0, y1⟩ : Fp2 FpW) = y at hyb h
        split at h
        · next hcond =>
          simp only [Bool.and_eq_true, Bool.or_eq_true, decide_eq_true_eq, Bool.not_eq_true',
            decide_eq_false_iff_not, Fp2.isZero_iff] at hcond
          obtain ⟨⟨hi, h7⟩, h5⟩ := hcond
          have hp := (Option.some.inj h).symm
          by_cases h6 : 64 ≤ c % 128
          · rcases hi with hi | ⟨⟨-, rfl⟩, rfl⟩
            · exact absurd h6 hi
            · have hp' : p = Affine.identity := by simpa [h6, Affine.select, Affine.identity] using hp
              refine ⟨Or.inl hp', ?_⟩
              subst hp'
              rw [toUncompressed_cons (p := Affine.identity) hxb (by omega)]
              simp only [Affine.identity, if_true, hyb, List.take_append_drop, List.cons.injEq, and_true]
              omega
          · have hp' : p = ⟨x, y, false⟩ := by simpa [h6, Affine.select] using hp
            subst hp'
            refine ⟨Or.inr rfl, ?_⟩
            rw [toUncompressed_cons (c := c % 32) (rest := rest.take 95) (by simpa using hxb) (by omega)]
            simp only [Bool.false_eq_true, if_false, hyb, List.take_append_drop, List.cons.injEq, and_true]
            omega
        · cases h
    · rintro ⟨hs, he⟩
      obtain ⟨c0, rest0, h0, hc0, hl0, -⟩ := Fp2.enc_cons (if p.infinity then (0 : Fp2 FpW) else p.x)
      rw [toUncompressed_cons h0 hc0, List.cons.injEq] at he
      obtain ⟨he, he'⟩ := he
      have hmod : c % 32 = c0 := by split_ifs at he <;> omega
      have ht : rest.take 95 = rest0 := by rw [← he', List.take_left' hl0]
      have hdr : rest.drop 95 = (if p.infinity then (0 : Fp2 FpW) else p.y).enc := by
        rw [← he', List.drop_left' hl0]
      rw [← hmod, ← ht, ← hx] at h0
      have hy0 := (hy _).2 hdr.symm
      unfold fromUncompressedUnchecked
      rw [h0.1, Option.bind_some, h0.2, Option.bind_some, hy0.1, Option.bind_some, hy0.2, Option.bind_some, f7, f6, f5]
      clear h0 hy0 hdr
      dsimp only
      have h7 : ¬ 128 ≤ c := by split_ifs at he <;> omega
      have h5 : ¬ 32 ≤ c % 64 := by split_ifs at he <;> omega
      have hz := (Fp2.isZero_iff (0 : Fp2 FpW)).2 rfl
      rcases hs with rfl | hs
      · have h6 : 64 ≤ c % 128 := by simp [Affine.identity] at he; omega
        simp only [Affine.identity, if_true, h7, h6, h5, decide_true, decide_false, Bool.not_false, Bool.not_true,
          Bool.and_self, hz, Bool.false_or]
        rfl
      · have h6 : ¬ 64 ≤ c % 128 := by simp [hs] at he; omega
        obtain ⟨x, y, i⟩ := p
        simp only at hs
        subst hs
        simp only [h7, h6, h5, decide_false, Bool.not_false, Bool.true_or, Bool.and_self, if_true, Bool.false_eq_true,
          if_false]
        rfl

theorem shape_of_is {p : Aff} {P : (E).Point} (h : Affine.Is b p P) : Shape p := by
  cases h with
  | infinity => exact Or.inl rfl
  | finite h => exact Or.inr rfl

theorem is_of_shape {p : Aff} (h : Shape p) (hc : p.isOnCurve = true) : ∃ P, Affine.Is b p P := by
  rcases h with rfl | h
  · exact ⟨0, .infinity⟩
  · obtain ⟨x, y, i⟩ := p
    simp only at h
    subst h
    exact (affine_isOnCurve_iff x y).1 hc

theorem onCurve_of_is {p : Aff} {P : (E).Point} (h : Affine.Is b p P) : p.isOnCurve = true := by
  cases h with
  | infinity => simp [Affine.isOnCurve]
  | finite h => exact (affine_isOnCurve_iff _ _).2 ⟨_, .finite h⟩

/-- The checked decoders accept exactly the encodings of points of the subgroup. -/
theorem fromCompressed_iff {bs : List Nat} (hl : bs.length = 96) (hb : ∀ c ∈ bs, c < 256) {p : Aff} :
    fromCompressed bs = some p ↔ (∃ P, Affine.Is b p P ∧ frModulus • P = 0) ∧ toCompressed p = bs := by
  rw [fromCompressed, Option.bind_eq_some_iff]
  constructor
  · rintro ⟨q, hq, h⟩
    split at h
    · next ht =>
      obtain rfl := Option.some.inj h
      obtain ⟨⟨Q, hQ⟩, he⟩ := (fromCompressedUnchecked_iff hl hb).1 hq
      exact ⟨⟨Q, hQ, (isTorsionFree_iff hQ).1 ht⟩, he⟩
    · cases h
  · rintro ⟨⟨P, hP, hz⟩, he⟩
    exact ⟨p, (fromCompressedUnchecked_iff hl hb).2 ⟨⟨P, hP⟩, he⟩, if_pos ((isTorsionFree_iff hP).2 hz)⟩

theorem fromUncompressed_iff {bs : List Nat} (hl : bs.length = 192) (hb : ∀ c ∈ bs, c < 256) {p : Aff} :
    fromUncompressed bs = some p ↔ (∃ P, Affine.Is b p P ∧ frModulus • P = 0) ∧ toUncompressed p = bs := by
  rw [fromUncompressed, Option.bind_eq_some_iff]
  constructor
  · rintro ⟨q, hq, h⟩
    split at h
    · next ht =>
      obtain rfl := Option.some.inj h
      obtain ⟨hs, he⟩ := (fromUncompressedUnchecked_iff hl hb).1 hq
      rw [Bool.and_eq_true] at ht
      obtain ⟨Q, hQ⟩ := is_of_shape hs ht.1
      exact ⟨⟨Q, hQ, (isTorsionFree_iff hQ).1 ht.2⟩, he⟩
    · cases h
  · rintro ⟨⟨P, hP, hz⟩, he⟩
    refine ⟨p, (fromUncompressedUnchecked_iff hl hb).2 ⟨shape_of_is hP, he⟩, if_pos ?_⟩
    rw [onCurve_of_is hP, (isTorsionFree_iff hP).2 hz]
    rfl

theorem toCompressed_length (p : Aff) : (toCompressed p).length = 96 ∧ ∀ c ∈ toCompressed p, c < 256 := by
  obtain ⟨c0, rest0, h0, hc0, hl0, hb⟩ := Fp2.enc_cons (if p.infinity then (0 : Fp2 FpW) else p.x)
  rw [toCompressed_cons h0 hc0]
  refine ⟨by simp [hl0], fun c hc => ?_⟩
  rcases List.mem_cons.1 hc with rfl | hc
  · split_ifs <;> omega
  · exact hb c hc

theorem toUncompressed_length (p : Aff) : (toUncompressed p).length = 192 ∧ ∀ c ∈ toUncompressed p, c < 256 := by
  obtain ⟨c0, rest0, h0, hc0, hl0, hb⟩ := Fp2.enc_cons (if p.infinity then (0 : Fp2 FpW) else p.x)
  obtain ⟨t1, t2⟩ := Fp2.enc_length (if p.infinity then (0 : Fp2 FpW) else p.y)
  rw [toUncompressed_cons h0 hc0]
  refine ⟨by simp [hl0, t1], fun c hc => ?_⟩
  rcases List.mem_cons.1 hc with rfl | hc
  · split_ifs <;> omega
  · rcases List.mem_append.1 hc with hc | hc
    · exact hb c hc
    · exact t2 c hc

/-- The compressed encoding as an integer: three flags above the two words of the first coordinate. -/
theorem toCompressed_value {p : Aff} {P : (E).Point} (h : Affine.Is b p P) :
    beNat (toCompressed p) = 2 ^ 767 + (if p.infinity then 2 ^ 766 else 0) +
      (if !p.infinity && Fp2.lexLargest p.y then 2 ^ 765 else 0) +
        (2 ^ 384 * (FpW.el p.x.c1).val + (FpW.el p.x.c0).val) := by
  obtain ⟨c0, rest0, h0, hc0, hl0, hb⟩ := Fp2.enc_cons (if p.infinity then (0 : Fp2 FpW) else p.x)
  have hx : (if p.infinity then (0 : Fp2 FpW) else p.x) = p.x := by
    cases h with
    | infinity => rfl
    | finite h => rfl
  have t3 := Fp2.enc_value (if p.infinity then (0 : Fp2 FpW) else p.x)
  rw [toCompressed_cons h0 hc0, ← Fp.fromBe_eq]
  rw [h0] at t3
  rw [hx] at t3
  rw [← t3]
  have e1 := fun c => fromBe_append [c] rest0
  have e2 : ∀ c, fromBe [c] = c := fun c => by simp [fromBe, fromLe]
  simp only [List.singleton_append, e2, hl0] at e1
  rw [e1, e1]
  split_ifs <;> ring

end G2
end Kzg.Zk
