import Verif.Proofs.Zk.G1Subgroup
/-!
# Encodings of points of the first group
-/

set_option exponentiation.threshold 1000

namespace Kzg.Zk

set_option linter.unusedSectionVars false

namespace Glv
variable {K : Type} [Field K] [DecidableEq K] [LawfulCurve K]

theorem precompute_ok (p : Projective K) : ∃ t ts, precompute p = .ok (t :: ts) := by
  have hlen : ∀ (d : Projective K) (n : Nat) (p : Projective K), (oddMultiples d n p).length = n := by
    intro d n
    induction n with
    | zero => intro p; rfl
    | succ n ih => intro p; simp [oddMultiples, ih]
  have hb := batchNormalize_eq (oddMultiples p.double 7 p)
  rw [hlen] at hb
  exact ⟨_, _, by rw [precompute, hb, Res.bind_ok]; rfl⟩

theorem digitPoint_ok (chk : Bool) (table : List (Affine K)) {d s : Int} (h1 : -15 ≤ d)
    (h2 : d ≤ 15) (h3 : d % 2 = 1) (hs : s = 0 ∨ s = -1) : ∃ t, digitPoint chk table d s = .ok t := by
  obtain ⟨a, e, -⟩ := digit_bits h1 h2 h3 chk hs
  exact ⟨_, by rw [digitPoint]; simp only [e, Res.bind_ok]; rfl⟩

theorem multiplyLoop_ok (chk : Bool) (β : K) (table : List (Affine K)) {s1 s2 : Int}
    (hs1 : s1 = 0 ∨ s1 = -1) (hs2 : s2 = 0 ∨ s2 = -1) (ds : List (Int × Int))
    (h : ∀ d ∈ ds, (-15 ≤ d.1 ∧ d.1 ≤ 15 ∧ d.1 % 2 = 1) ∧ -15 ≤ d.2 ∧ d.2 ≤ 15 ∧ d.2 % 2 = 1) (acc : Projective K) :
    ∃ q, multiplyLoop chk β table s1 s2 ds acc = .ok q := by
  induction ds with
  | nil => exact ⟨acc, rfl⟩
  | cons d ds ih =>
    obtain ⟨q, e⟩ := ih (fun d hd => h d (by simp [hd]))
    obtain ⟨⟨a1, a2, a3⟩, c1, c2, c3⟩ := h d (by simp)
    obtain ⟨t1, e1⟩ := digitPoint_ok chk table a1 a2 a3 hs1
    obtain ⟨t2, e2⟩ := digitPoint_ok chk table c1 c2 c3 hs2
    obtain ⟨d1, d2⟩ := d
    simp only [multiplyLoop, e, Res.bind_ok, multiplyStep, e1, e2, Res.pure_eq]
    exact ⟨_, rfl⟩

/-- Whether `multiply` panics does not depend on the coordinates. -/
theorem multiply_ok (chk : Bool) (β : K) (p : Projective K) {k : List Nat} (hl : k.length = 32)
    (hb : ∀ c ∈ k, c < 256) (hk : fromLe k ≤ frModulus) (hc : NoCarry (fromLe k)) :
    ∃ q, multiply chk β p k = .ok q := by
  obtain ⟨s, k1, k2, e, hs, l1, b1, l2, b2, lt1, lt2, hv, hq2⟩ := glvRecoding_ok chk hl hb hk hc
  obtain ⟨t, ts, et⟩ := precompute_ok p
  obtain ⟨ds1, ed1, n1, hd1, sum1⟩ := regularRecoding_spec chk l1 b1 (by omega)
  obtain ⟨ds2, ed2, n2, hd2, sum2⟩ := regularRecoding_spec chk l2 b2 (by omega)
  have hs1 : (-(s : Int)) = 0 ∨ (-(s : Int)) = -1 := by omega
  obtain ⟨q, el⟩ := multiplyLoop_ok chk β (t :: ts) hs1 (Or.inl rfl) (ds1.zip ds2)
    (fun d hd => ⟨hd1 _ (List.of_mem_zip hd).1, hd2 _ (List.of_mem_zip hd).2⟩) Projective.identity
  have er : rd (t :: ts) 0 = .ok t := rfl
  unfold multiply
  simp only [e, et, ed1, ed2, el, er, Res.bind_ok, Res.pure_eq]
  exact ⟨_, rfl⟩

end Glv

namespace FpW
open Fp

theorem fromBytes_iff {bs : List Nat} (hl : bs.length = 48) (hb : ∀ c ∈ bs, c < 256) {s : FpW} :
    fromBytes bs = some s ↔ Fp.toBytes s.1 = bs := by
  obtain ⟨t1, t2, t3⟩ := Fp.toBytes_spec (el_rep s)
  obtain ⟨f1, f2⟩ := Fp.fromBytes_spec hl hb
  constructor
  · intro h
    by_cases hlt : fromBe bs < fpModulus
    · obtain ⟨u, e, hr⟩ := f1 hlt
      have hred : Red u := hr.1
      have hs : s = ⟨u, hred⟩ := by
        rw [fromBytes, e, Option.bind_some, dif_pos hred] at h
        exact (Option.some.inj h).symm
      have hel : el s = _ := el_eq (s := s) (by rw [hs]; exact hr)
      rw [hel, ZMod.val_natCast, Nat.mod_eq_of_lt hlt] at t3
      exact fromBe_inj (by omega) t2 hb t3
    · rw [fromBytes, f2 (by omega)] at h
      cases h
  · intro h
    rw [h] at t3
    obtain ⟨u, e, hr⟩ := f1 (by rw [t3]; exact ZMod.val_lt _)
    have hred : Red u := hr.1
    rw [fromBytes, e, Option.bind_some, dif_pos hred]
    apply congrArg some
    apply el_inj
    rw [el_eq (s := ⟨u, hred⟩) hr, t3, ZMod.natCast_zmod_val]

theorem sqrt_sound {a s : FpW} (h : sqrt a = some s) : s * s = a := by
  cases e : Fp.sqrt a.1 with
  | none => rw [sqrt, e] at h; cases h
  | some t =>
    obtain ⟨z, hz, hz2⟩ := sqrt_some (el_rep a) e
    have hred : Red t := hz.1
    have hs : s = ⟨t, hred⟩ := by
      rw [sqrt, e, Option.bind_some, dif_pos hred] at h
      exact (Option.some.inj h).symm
    have hel : el s = z := el_eq (s := s) (by rw [hs]; exact hz)
    apply el_inj
    rw [el_mul, hel, ← hz2, pow_two]

theorem sqrt_complete {y : FpW} : ∃ s, sqrt (y * y) = some s := by
  have hr : Rep (y * y).1 (el y ^ 2) := by
    rw [pow_two, ← el_mul]
    exact el_rep _
  obtain ⟨t, z, e, hz, -⟩ := sqrt_square hr
  have hred : Red t := hz.1
  refine ⟨⟨t, hred⟩, ?_⟩
  rw [sqrt, e, Option.bind_some]
  exact dif_pos hred

theorem lexLargest_neg {y : FpW} (h : y ≠ 0) : lexLargest (-y).1 = !lexLargest y.1 := by
  have hy : el y ≠ 0 := fun e => h (el_inj (e.trans el_zero.symm))
  rw [lexLargest_spec (el_rep (-y)), lexLargest_spec (el_rep y), el_neg, ZMod.neg_val, if_neg hy]
  have h1 := ZMod.val_lt (el y)
  have h2 : (el y).val ≠ 0 := by rwa [ne_eq, ZMod.val_eq_zero]
  have h3 : fpModulus = 2 * ((fpModulus - 1) / 2) + 1 := by decide +kernel
  rw [← decide_not, decide_eq_decide]
  omega

/-- The first byte of an encoding leaves room for three flags. -/
theorem toBytes_cons (s : FpW) : ∃ c rest, Fp.toBytes s.1 = c :: rest ∧ c < 32 ∧ rest.length = 47 ∧
    ∀ d ∈ rest, d < 256 := by
  obtain ⟨t1, t2, t3⟩ := Fp.toBytes_spec (el_rep s)
  match h : Fp.toBytes s.1, t1 with
  | c :: rest, t1 =>
    rw [h] at t2 t3
    simp only [List.length_cons] at t1
    refine ⟨c, rest, rfl, ?_, by omega, fun d hd => t2 d (by simp [hd])⟩
    have e := fromBe_append [c] rest
    rw [List.singleton_append, t3, show rest.length = 47 by omega] at e
    have hc : fromBe [c] = c := by simp [fromBe, fromLe]
    rw [hc] at e
    have := ZMod.val_lt (el s)
    have hp : fpModulus < 32 * 256 ^ 47 := by decide +kernel
    by_contra hn
    have : 32 * 256 ^ 47 ≤ c * 256 ^ 47 := Nat.mul_le_mul_right _ (by omega)
    omega

end FpW

namespace G1
open CurveConsts Glv Fp

local notation "E" => curve (b : FpW)

theorem flags (c : Nat) (h : c < 256) (rest : List Nat) :
    flag (c :: rest) 7 = decide (128 ≤ c) ∧ flag (c :: rest) 6 = decide (64 ≤ c % 128) ∧
      flag (c :: rest) 5 = decide (32 ≤ c % 64) := by
  have H : ∀ c < 256, ((shr c 7 &&& 1) == 1) = decide (128 ≤ c) ∧ ((shr c 6 &&& 1) == 1) = decide (64 ≤ c % 128) ∧
      ((shr c 5 &&& 1) == 1) = decide (32 ≤ c % 64) := by decide +kernel
  exact H c h

theorem decodeX_iff {c : Nat} {rest : List Nat} (_h : c < 256) (hl : 47 ≤ rest.length) (hr : ∀ d ∈ rest, d < 256) {x : FpW} :
    decodeX (c :: rest) = some x ↔ Fp.toBytes x.1 = c % 32 :: rest.take 47 := by
  have hm : c &&& 0x1f = c % 32 := Nat.and_two_pow_sub_one_eq_mod c 5
  have : decodeX (c :: rest) = FpW.fromBytes (c % 32 :: rest.take 47) := by
    simp [decodeX, hm]
  rw [this]
  apply FpW.fromBytes_iff
  · simp; omega
  · intro d hd
    rcases List.mem_cons.1 hd with rfl | hd
    · omega
    · exact hr d (List.mem_of_mem_take hd)

theorem or_flags (c : Nat) (h : c < 32) : ∀ a b' : Bool, ((c ||| 0x80) ||| if a then 0x40 else 0) ||| (if b' then 0x20 else 0) =
    c + 128 + (if a then 64 else 0) + if b' then 32 else 0 := by
  have H : ∀ c < 32, ∀ a b' : Bool, ((c ||| 0x80) ||| if a then 0x40 else 0) ||| (if b' then 0x20 else 0) =
    c + 128 + (if a then 64 else 0) + if b' then 32 else 0 := by decide +kernel
  exact H c h

theorem toCompressed_cons {p : Aff} {c : Nat} {rest : List Nat}
    (h : Fp.toBytes (if p.infinity then (0 : FpW) else p.x).1 = c :: rest) (hc : c < 32) :
    toCompressed p = (c + 128 + (if p.infinity then 64 else 0) +
      if !p.infinity && lexLargest p.y.1 then 32 else 0) :: rest := by
  rw [← or_flags c hc]
  simp only [toCompressed, h]
  rfl

/-- The compressed decoder without the subgroup test accepts exactly the encodings of curve points. -/
theorem fromCompressedUnchecked_iff {bs : List Nat} (hl : bs.length = 48) (hb : ∀ c ∈ bs, c < 256) {p : Aff} :
    fromCompressedUnchecked bs = some p ↔ (∃ P, Affine.Is b p P) ∧ toCompressed p = bs := by
  match bs, hl with
  | c :: rest, hl =>
    have hl' : rest.length = 47 := by simpa using hl
    have hc := hb c (by simp)
    have hr : ∀ d ∈ rest, d < 256 := fun d hd => hb d (by simp [hd])
    obtain ⟨f7, f6, f5⟩ := flags c hc rest
    have hx : ∀ x : FpW, decodeX (c :: rest) = some x ↔ Fp.toBytes x.1 = c % 32 :: rest := fun x => by
      rw [decodeX_iff hc (by omega) hr, List.take_of_length_le (by omega)]
    constructor
    · intro h
      unfold fromCompressedUnchecked at h
      cases hdx : decodeX (c :: rest) with
      | none => rw [hdx] at h; cases h
      | some x =>
        rw [hdx, Option.bind_some, f7, f6, f5] at h
        have hxb := (hx x).1 hdx
        split at h
        · next hcond =>
          simp only [Bool.and_eq_true, decide_eq_true_eq, Bool.not_eq_true', decide_eq_false_iff_not] at hcond
          obtain ⟨⟨⟨h6, h7⟩, h5⟩, rfl⟩ := hcond
          cases h
          refine ⟨⟨0, .infinity⟩, ?_⟩
          rw [toCompressed_cons (p := Affine.identity) hxb (by omega)]
          simp only [Affine.identity, if_true, Bool.not_true, Bool.false_and, Bool.false_eq_true, if_false, List.cons.injEq,
            and_true]
          omega
        · cases hs : FpW.sqrt (x * x * x + b) with
          | none => rw [hs] at h; cases h
          | some y =>
            rw [hs, Option.bind_some] at h
            have hy := FpW.sqrt_sound hs
            dsimp only at h
            by_cases hcond : (!decide (64 ≤ c % 128) && decide (128 ≤ c)) = true
            · rw [if_pos hcond] at h
              simp only [Bool.and_eq_true, decide_eq_true_eq, Bool.not_eq_true', decide_eq_false_iff_not] at hcond
              obtain ⟨h6, h7⟩ := hcond
              have e6 : decide (64 ≤ c % 128) = false := by simpa using h6
              rw [e6] at h
              cases h
              have hn : (E).Nonsingular x y := nonsingular_iff.2 (by linear_combination hy)
              have hy0 : y ≠ 0 := y_ne hn.1
              have hn' : (E).Nonsingular x (-y) := nonsingular_iff.2 (by linear_combination hy)
              constructor
              · split
                · exact ⟨_, .finite hn'⟩
                · exact ⟨_, .finite hn⟩
              · rw [toCompressed_cons (c := c % 32) (rest := rest) (by simpa using hxb) (by omega)]
                simp only [Bool.false_eq_true, if_false, Bool.not_false, Bool.true_and, List.cons.injEq, and_true]
                have hlex : lexLargest (if (lexLargest y.1 != decide (32 ≤ c % 64)) = true then -y else y).1 =
                    decide (32 ≤ c % 64) := by
                  split
                  · next hh =>
                    rw [FpW.lexLargest_neg hy0]
                    revert hh
                    cases lexLargest y.1 <;> cases decide (32 ≤ c % 64) <;> simp
                  · next hh => simpa using hh
                rw [hlex]
                simp only [decide_eq_true_eq]
                split <;> omega
            · rw [if_neg hcond] at h
              cases h
    · rintro ⟨⟨P, hP⟩, he⟩
      obtain ⟨c0, rest0, h0, hc0, -, -⟩ := FpW.toBytes_cons (if p.infinity then (0 : FpW) else p.x)
      rw [toCompressed_cons h0 hc0, List.cons.injEq] at he
      obtain ⟨he, rfl⟩ := he
      have hmod : c % 32 = c0 := by split_ifs at he <;> omega
      rw [← hmod, ← hx] at h0
      unfold fromCompressedUnchecked
      rw [h0, Option.bind_some, f7, f6, f5]
      cases hP with
      | infinity =>
        simp only [if_true, Bool.not_true, Bool.false_and, Bool.false_eq_true, if_false] at he
        have h7 : 128 ≤ c := by omega
        have h6 : 64 ≤ c % 128 := by omega
        have h5 : ¬ 32 ≤ c % 64 := by omega
        simp [h7, h6, h5, Affine.identity]
      | @finite x y h =>
        simp only [Bool.false_eq_true, if_false, Bool.not_false, Bool.true_and] at he
        have h7 : 128 ≤ c := by split_ifs at he <;> omega
        have h6 : ¬ 64 ≤ c % 128 := by split_ifs at he <;> omega
        have h5 : decide (32 ≤ c % 64) = lexLargest y.1 := by
          split_ifs at he with hlx
          · rw [hlx]; simp; omega
          · rw [Bool.not_eq_true] at hlx
            rw [hlx]; simp; omega
        have e := nonsingular_iff.1 h
        have hy0 := y_ne h.1
        have hsq : x * x * x + b = y * y := by linear_combination -e
        obtain ⟨s, hs⟩ := FpW.sqrt_complete (y := y)
        have hs2 := FpW.sqrt_sound hs
        simp only [Bool.false_eq_true, if_false, hsq, hs, h7, h6, h5, Option.bind_some, decide_true, decide_false,
          Bool.false_and, Bool.not_false, Bool.and_self, if_true, Option.some.injEq, Affine.mk.injEq, true_and, and_true]
        have : (s - y) * (s + y) = 0 := by linear_combination hs2
        rcases mul_eq_zero.1 this with g | g
        · have : s = y := by linear_combination g
          subst this
          simp
        · have : s = -y := by linear_combination g
          subst this
          rw [FpW.lexLargest_neg hy0, if_pos (by cases lexLargest y.1 <;> rfl), neg_neg]

/-- The order as a scalar does not meet the overflow, so the torsion test never panics. -/
theorem isTorsionFree_ok (chk : Bool) (p : Aff) : ∃ t, isTorsionFree chk p = .ok t := by
  obtain ⟨h1, h2, h3⟩ := order_bytes
  obtain ⟨q, e⟩ := multiply_ok chk beta (Projective.ofAffine p) h1 h2 (by rw [h3]) (by rw [h3]; decide +kernel)
  exact ⟨_, by rw [isTorsionFree, e]; rfl⟩

theorem or_flag (c : Nat) (h : c < 32) : ∀ a : Bool, (c ||| if a then 0x40 else 0) = c + if a then 64 else 0 := by
  have H : ∀ c < 32, ∀ a : Bool, (c ||| if a then 0x40 else 0) = c + if a then 64 else 0 := by decide +kernel
  exact H c h

theorem toUncompressed_cons {p : Aff} {c : Nat} {rest : List Nat}
    (h : Fp.toBytes (if p.infinity then (0 : FpW) else p.x).1 = c :: rest) (hc : c < 32) :
    toUncompressed p = (c + if p.infinity then 64 else 0) ::
      (rest ++ Fp.toBytes (if p.infinity then (0 : FpW) else p.y).1) := by
  rw [← or_flag c hc]
  simp only [toUncompressed, h]
  rfl

/-- What the uncompressed decoder accepts before any curve test: any pair of coordinates, or the identity. -/
def Shape (p : Aff) : Prop := p = Affine.identity ∨ p.infinity = false

theorem fromUncompressedUnchecked_iff {bs : List Nat} (hl : bs.length = 96) (hb : ∀ c ∈ bs, c < 256) {p : Aff} :
    fromUncompressedUnchecked bs = some p ↔ Shape p ∧ toUncompressed p = bs := by
  match bs, hl with
  | c :: rest, hl =>
    have hl' : rest.length = 95 := by simpa using hl
    have hc := hb c (by simp)
    have hr : ∀ d ∈ rest, d < 256 := fun d hd => hb d (by simp [hd])
    obtain ⟨f7, f6, f5⟩ := flags c hc rest
    have hx : ∀ x : FpW, decodeX (c :: rest) = some x ↔ Fp.toBytes x.1 = c % 32 :: rest.take 47 := fun x =>
      decodeX_iff hc (by omega) hr
    have hd48 : ((c :: rest).drop 48).take 48 = rest.drop 47 := by
      rw [show (c :: rest).drop 48 = rest.drop 47 from rfl, List.take_of_length_le (by simp; omega)]
    have hy : ∀ y : FpW, FpW.fromBytes (((c :: rest).drop 48).take 48) = some y ↔ Fp.toBytes y.1 = rest.drop 47 :=
      fun y => by
        rw [hd48]
        exact FpW.fromBytes_iff (by simp; omega) (fun d hd => hr d (List.mem_of_mem_drop hd))
    constructor
    · intro h
      unfold fromUncompressedUnchecked at h
      cases hdx : decodeX (c :: rest) with
      | none => rw [hdx] at h; cases h
      | some x =>
        cases hdy : FpW.fromBytes (((c :: rest).drop 48).take 48) with
        | none => rw [hdx, Option.bind_some, hdy] at h; cases h
        | some y =>
          rw [hdx, Option.bind_some, hdy, Option.bind_some, f7, f6, f5] at h
          have hxb := (hx x).1 hdx
          have hyb := (hy y).1 hdy
          split at h
          · next hcond =>
            simp only [Bool.and_eq_true, Bool.or_eq_true, decide_eq_true_eq, Bool.not_eq_true',
              decide_eq_false_iff_not] at hcond
            obtain ⟨⟨hi, h7⟩, h5⟩ := hcond
            have hp := (Option.some.inj h).symm
            by_cases h6 : 64 ≤ c % 128
            · rcases hi with hi | ⟨⟨-, rfl⟩, rfl⟩
              · exact absurd h6 hi
              · have hp' : p = Affine.identity := by simpa [h6, Affine.select, Affine.identity] using hp
                refine ⟨Or.inl hp', ?_⟩
                subst hp'
                rw [toUncompressed_cons (p := Affine.identity) hxb (by omega)]
                simp only [Affine.identity, if_true, hyb, List.take_append_drop, List.cons.injEq, and_true]
                omega
            · have hp' : p = ⟨x, y, false⟩ := by simpa [h6, Affine.select] using hp
              subst hp'
              refine ⟨Or.inr rfl, ?_⟩
              rw [toUncompressed_cons (c := c % 32) (rest := rest.take 47) (by simpa using hxb) (by omega)]
              simp only [Bool.false_eq_true, if_false, hyb, List.take_append_drop, List.cons.injEq, and_true]
              omega
          · cases h
    · rintro ⟨hs, he⟩
      obtain ⟨c0, rest0, h0, hc0, hl0, -⟩ := FpW.toBytes_cons (if p.infinity then (0 : FpW) else p.x)
      rw [toUncompressed_cons h0 hc0, List.cons.injEq] at he
      obtain ⟨he, he'⟩ := he
      have hmod : c % 32 = c0 := by split_ifs at he <;> omega
      have ht : rest.take 47 = rest0 := by rw [← he', List.take_left' hl0]
      have hdr : rest.drop 47 = Fp.toBytes (if p.infinity then (0 : FpW) else p.y).1 := by
        rw [← he', List.drop_left' hl0]
      rw [← hmod, ← ht, ← hx] at h0
      have hy0 := (hy _).2 hdr.symm
      unfold fromUncompressedUnchecked
      rw [h0, Option.bind_some, hy0, Option.bind_some, f7, f6, f5]
      have h7 : ¬ 128 ≤ c := by split_ifs at he <;> omega
      have h5 : ¬ 32 ≤ c % 64 := by split_ifs at he <;> omega
      rcases hs with rfl | hs
      · have h6 : 64 ≤ c % 128 := by simp [Affine.identity] at he; omega
        simp [h7, h6, h5, Affine.identity, Affine.select]
      · have h6 : ¬ 64 ≤ c % 128 := by simp [hs] at he; omega
        simp [h7, h6, h5, Affine.select, hs]
        cases p
        simp only at hs
        rw [hs]

theorem shape_of_is {p : Aff} {P : (E).Point} (h : Affine.Is b p P) : Shape p := by
  cases h with
  | infinity => exact Or.inl rfl
  | finite h => exact Or.inr rfl

theorem is_of_shape {p : Aff} (h : Shape p) (hc : p.isOnCurve = true) : ∃ P, Affine.Is b p P := by
  rcases h with rfl | h
  · exact ⟨0, .infinity⟩
  · obtain ⟨x, y, i⟩ := p
    simp only at h
    subst h
    exact (affine_isOnCurve_iff x y).1 hc

theorem onCurve_of_is {p : Aff} {P : (E).Point} (h : Affine.Is b p P) : p.isOnCurve = true := by
  cases h with
  | infinity => simp [Affine.isOnCurve]
  | finite h => exact (affine_isOnCurve_iff _ _).2 ⟨_, .finite h⟩

/-- The checked decoders never panic and accept exactly the encodings of points of the subgroup. -/
theorem fromCompressed_iff (chk : Bool) {bs : List Nat} (hl : bs.length = 48) (hb : ∀ c ∈ bs, c < 256) :
    ∃ o, fromCompressed chk bs = .ok o ∧ ∀ p, o = some p ↔
      (∃ P, Affine.Is b p P ∧ frModulus • P = 0) ∧ toCompressed p = bs := by
  delta fromCompressed
  cases h : fromCompressedUnchecked bs with
  | none =>
    refine ⟨none, Option.elim_none .., fun p => ⟨fun h' => absurd h'.symm (Option.some_ne_none p), ?_⟩⟩
    rintro ⟨⟨P, hP, -⟩, he⟩
    rw [(fromCompressedUnchecked_iff hl hb).2 ⟨⟨P, hP⟩, he⟩] at h
    cases h
  | some q =>
    obtain ⟨⟨Q, hQ⟩, he⟩ := (fromCompressedUnchecked_iff hl hb).1 h
    obtain ⟨t, ht, hiff⟩ := isTorsionFree_iff chk hQ
    refine ⟨if t then some q else none, by rw [Option.elim_some, ht, Res.bind_ok, Res.pure_eq], fun p => ?_⟩
    constructor
    · intro hp
      split at hp
      · next htt =>
        cases hp
        exact ⟨⟨Q, hQ, hiff.1 htt⟩, he⟩
      · cases hp
    · rintro ⟨⟨P, hP, hz⟩, hpe⟩
      have := (fromCompressedUnchecked_iff hl hb).2 ⟨⟨P, hP⟩, hpe⟩
      rw [h] at this
      cases this
      obtain rfl : P = Q := affine_is_unique hP hQ
      rw [if_pos (hiff.2 hz)]

theorem fromUncompressed_iff (chk : Bool) {bs : List Nat} (hl : bs.length = 96) (hb : ∀ c ∈ bs, c < 256) :
    ∃ o, fromUncompressed chk bs = .ok o ∧ ∀ p, o = some p ↔
      (∃ P, Affine.Is b p P ∧ frModulus • P = 0) ∧ toUncompressed p = bs := by
  delta fromUncompressed
  cases h : fromUncompressedUnchecked bs with
  | none =>
    refine ⟨none, Option.elim_none .., fun p => ⟨fun h' => absurd h'.symm (Option.some_ne_none p), ?_⟩⟩
    rintro ⟨⟨P, hP, -⟩, he⟩
    rw [(fromUncompressedUnchecked_iff hl hb).2 ⟨shape_of_is hP, he⟩] at h
    cases h
  | some q =>
    obtain ⟨hs, he⟩ := (fromUncompressedUnchecked_iff hl hb).1 h
    obtain ⟨t, ht⟩ := isTorsionFree_ok chk q
    refine ⟨if q.isOnCurve && t then some q else none, by rw [Option.elim_some, ht, Res.bind_ok, Res.pure_eq], fun p => ?_⟩
    constructor
    · intro hp
      split at hp
      · next htt =>
        cases hp
        rw [Bool.and_eq_true] at htt
        obtain ⟨Q, hQ⟩ := is_of_shape hs htt.1
        obtain ⟨t', ht', hiff⟩ := isTorsionFree_iff chk hQ
        rw [ht] at ht'
        cases ht'
        exact ⟨⟨Q, hQ, hiff.1 htt.2⟩, he⟩
      · cases hp
    · rintro ⟨⟨P, hP, hz⟩, hpe⟩
      have := (fromUncompressedUnchecked_iff hl hb).2 ⟨shape_of_is hP, hpe⟩
      rw [h] at this
      cases this
      obtain ⟨t', ht', hiff⟩ := isTorsionFree_iff chk hP
      rw [ht] at ht'
      cases ht'
      rw [if_pos (by rw [onCurve_of_is hP, hiff.2 hz]; rfl)]

theorem toCompressed_length (p : Aff) : (toCompressed p).length = 48 ∧ ∀ c ∈ toCompressed p, c < 256 := by
  obtain ⟨c0, rest0, h0, hc0, hl0, hb⟩ := FpW.toBytes_cons (if p.infinity then (0 : FpW) else p.x)
  rw [toCompressed_cons h0 hc0]
  refine ⟨by simp [hl0], fun c hc => ?_⟩
  rcases List.mem_cons.1 hc with rfl | hc
  · split_ifs <;> omega
  · exact hb c hc

theorem toUncompressed_length (p : Aff) : (toUncompressed p).length = 96 ∧ ∀ c ∈ toUncompressed p, c < 256 := by
  obtain ⟨c0, rest0, h0, hc0, hl0, hb⟩ := FpW.toBytes_cons (if p.infinity then (0 : FpW) else p.x)
  obtain ⟨t1, t2, -⟩ := Fp.toBytes_spec (FpW.el_rep (if p.infinity then (0 : FpW) else p.y))
  rw [toUncompressed_cons h0 hc0]
  refine ⟨by simp [hl0, t1], fun c hc => ?_⟩
  rcases List.mem_cons.1 hc with rfl | hc
  · split_ifs <;> omega
  · rcases List.mem_append.1 hc with hc | hc
    · exact hb c hc
    · exact t2 c hc

/-- The compressed encoding as an integer: three flags above the first coordinate. -/
theorem toCompressed_value {p : Aff} {P : (E).Point} (h : Affine.Is b p P) :
    beNat (toCompressed p) = 2 ^ 383 + (if p.infinity then 2 ^ 382 else 0) +
      (if !p.infinity && decide ((fpModulus - 1) / 2 < (FpW.el p.y).val) then 2 ^ 381 else 0) + (FpW.el p.x).val := by
  obtain ⟨c0, rest0, h0, hc0, hl0, hb⟩ := FpW.toBytes_cons (if p.infinity then (0 : FpW) else p.x)
  obtain ⟨-, -, t3⟩ := Fp.toBytes_spec (FpW.el_rep (if p.infinity then (0 : FpW) else p.x))
  have hx : (if p.infinity then (0 : FpW) else p.x) = p.x := by cases h <;> simp
  rw [toCompressed_cons h0 hc0, ← fromBe_eq]
  rw [h0, hx] at t3
  rw [← lexLargest_spec (FpW.el_rep p.y)]
  have e1 := fun c => fromBe_append [c] rest0
  have e2 : ∀ c, fromBe [c] = c := fun c => by simp [fromBe, fromLe]
  simp only [List.singleton_append, e2, hl0] at e1
  rw [e1] at t3 ⊢
  rw [← t3]
  split_ifs <;> ring

end G1
end Kzg.Zk
