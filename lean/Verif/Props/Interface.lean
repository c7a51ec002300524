import Verif.Spec.Interface
import Verif.Props.ZkScalar
import Verif.Props.ZkConvert
import Verif.Props.ArkFFT
import Verif.Proofs.FrOps
/-!
# Properties C138–C142: the field element interface of the backends
-/

namespace Kzg.Props
open Kzg Kzg.Iface Kzg.Zk

/-! ## Words -/

theorem wordsVal_four (a b c d : Nat) :
    wordsVal [a, b, c, d] = a + 2 ^ 64 * (b + 2 ^ 64 * (c + 2 ^ 64 * d)) := by simp [wordsVal]

theorem words4_four {u : List Nat} (h : Words4 u) : ∃ a b c d, u = [a, b, c, d] ∧ a < 2 ^ 64 ∧ b < 2 ^ 64 ∧
    c < 2 ^ 64 ∧ d < 2 ^ 64 := by
  obtain ⟨hl, hw⟩ := h
  match u, hl with
  | [a, b, c, d], _ => exact ⟨a, b, c, d, rfl, hw _ (by simp), hw _ (by simp), hw _ (by simp), hw _ (by simp)⟩

theorem wordsVal_inj {u v : List Nat} (hu : Words4 u) (hv : Words4 v) (h : wordsVal u = wordsVal v) : u = v := by
  obtain ⟨a, b, c, d, rfl, _, _, _, _⟩ := words4_four hu
  obtain ⟨a', b', c', d', rfl, _, _, _, _⟩ := words4_four hv
  rw [wordsVal_four, wordsVal_four] at h
  have : a = a' ∧ b = b' ∧ c = c' ∧ d = d' := by omega
  obtain ⟨rfl, rfl, rfl, rfl⟩ := this
  rfl

theorem canonical_words (x : Fr) : Words4 (uint64FromFr x) ∧ wordsVal (uint64FromFr x) = x.val :=
  ⟨⟨(C116_words_roundtrip x).2.1, (C116_words_roundtrip x).2.2.1⟩, (C116_words_roundtrip x).2.2.2⟩

theorem wordsEq_iff {u v : List Nat} (hu : Words4 u) (hv : Words4 v) : wordsEq u v = decide (u = v) := by
  obtain ⟨a, b, c, d, rfl, _, _, _, _⟩ := words4_four hu
  obtain ⟨a', b', c', d', rfl, _, _, _, _⟩ := words4_four hv
  rw [Bool.eq_iff_iff]
  simp [wordsEq, and_assoc]

theorem canonical_inj {x y : Fr} : uint64FromFr x = uint64FromFr y ↔ x = y := by
  refine ⟨fun h => ?_, fun h => by rw [h]⟩
  have h' := congrArg wordsVal h
  rw [(canonical_words x).2, (canonical_words y).2] at h'
  exact ZMod.val_injective _ h'

theorem blstEquals_iff (x y : Fr) : blstEquals x y = decide (x = y) := by
  rw [blstEquals, wordsEq_iff (canonical_words x).1 (canonical_words y).1]
  exact decide_eq_decide.mpr canonical_inj

theorem canonical_small {c : Nat} (hc : c < 2) (x : Fr) :
    wordsEq (uint64FromFr x) [c, 0, 0, 0] = decide (x = (c : Fr)) := by
  have h4 : Words4 [c, 0, 0, 0] := ⟨rfl, by simp; omega⟩
  have hm : c < frModulus := lt_trans hc (by decide +kernel)
  rw [wordsEq_iff (canonical_words x).1 h4]
  refine decide_eq_decide.mpr ⟨fun h => ?_, fun h => ?_⟩
  · have h' := congrArg wordsVal h
    rw [(canonical_words x).2, wordsVal_four] at h'
    rw [← ZMod.natCast_zmod_val x, h']
    simp
  · refine wordsVal_inj (canonical_words x).1 h4 ?_
    rw [(canonical_words x).2, wordsVal_four, h, ZMod.val_cast_of_lt hm]
    omega

theorem scalar_val_words (s : Scalar) : Scalar.val s = wordsVal [s.l0, s.l1, s.l2, s.l3] := by
  rw [wordsVal_four]; simp only [Scalar.val, W]; ring

/-! ## C138: zkcrypto -/

theorem zkPowLoop_rep (n : Nat) : ∀ {o t : Scalar} {x y : Fr}, Scalar.Rep o x → Scalar.Rep t y →
    Scalar.Rep (zkPowLoop o t n) (x * y ^ n) := by
  induction n using Nat.strong_induction_on with
  | _ n ih =>
    intro o t x y ho ht
    rw [zkPowLoop]
    have hs : n >>> 1 = n / 2 := by simp [Nat.shiftRight_eq_div_pow]
    have ha : n &&& 1 = n % 2 := by simp [Nat.and_one_is_mod]
    simp only [hs, ha]
    have ho' : Scalar.Rep (if n % 2 = 1 then Scalar.mul o t else o) (x * y ^ (n % 2)) := by
      rcases Nat.mod_two_eq_zero_or_one n with h | h
      · simp only [h]; simpa using ho
      · simp only [h, if_true, pow_one]; exact C37_mul ho ht
    by_cases h : n / 2 = 0
    · rw [dif_pos h]
      have : n % 2 = n := by omega
      rwa [this] at ho' ⊢
    · rw [dif_neg h]
      have := ih (n / 2) (by omega) ho' (C37_square ht)
      have e : x * y ^ (n % 2) * (y * y) ^ (n / 2) = x * y ^ n := by
        rw [← pow_two, ← pow_mul, mul_assoc, ← pow_add, Nat.mod_add_div]
      rwa [e] at this

theorem zkInverse_rep {e : Scalar} {x : Fr} (h : Scalar.Rep e x) (hx : x ≠ 0) :
    Gives Scalar.Rep (zkInverse e) x⁻¹ := by
  obtain ⟨t, ht, hr⟩ := C40_invert h hx
  exact ⟨t, by simp [zkInverse, ht], hr⟩

theorem ctEq_decide {s t : Scalar} {x y : Fr} (hs : Scalar.Rep s x) (ht : Scalar.Rep t y) :
    Scalar.ctEq s t = decide (x = y) := by
  rw [Bool.eq_iff_iff, C36_eq hs ht, decide_eq_true_iff]

/-- C138: the field elements of zkcrypto keep the whole contract: constants, words (taken modulo the modulus when they
exceed it), comparisons, arithmetic, powers with every exponent, inverses, division (zero for a zero divisor), and
null, which is no element. -/
theorem C138_contract : Contract Iface.zk Scalar.Rep where
  onto x := (C36_rep_words x).exists
  consts := ⟨⟨_, rfl, C36_constants.1⟩, ⟨_, rfl, C36_constants.1⟩, ⟨_, rfl, C36_constants.2.1⟩⟩
  fromU64 v hv := ⟨_, rfl, C37_from_u64 (by simpa [W] using hv)⟩
  fromAllWords u hu := by
    obtain ⟨a, b, c, d, rfl, ha, hb, hc, hd⟩ := words4_four hu
    refine ⟨_, rfl, ?_⟩
    have h := Scalar.fromRaw_rep (a := a) (b := b) (c := c) (d := d) (by simpa [W] using ha) (by simpa [W] using hb)
      (by simpa [W] using hc) (by simpa [W] using hd)
    rw [scalar_val_words] at h
    exact h
  toWords e x h := by
    obtain ⟨⟨h0, h1, h2, h3⟩, hv, _⟩ := C132_u64_arr h
    refine ⟨_, rfl, ⟨rfl, ?_⟩, ?_⟩
    · intro w hw
      simp only [List.mem_cons, List.not_mem_nil, or_false] at hw
      have hW : W = 2 ^ 64 := by simp [W]
      rw [← hW]
      rcases hw with h | h | h | h <;> rw [h]
      · exact h0
      · exact h1
      · exact h2
      · exact h3
    · rw [← hv]; exact (scalar_val_words _).symm
  tests e x h :=
    ⟨congrArg Res.ok (ctEq_decide h C36_constants.2.1), congrArg Res.ok (ctEq_decide h C36_constants.1),
      fun f y hf => congrArg Res.ok (ctEq_decide h hf)⟩
  ring e x h := ⟨⟨_, rfl, by rw [pow_two]; exact C37_square h⟩, ⟨_, rfl, C36_neg h⟩,
    fun f y hf => ⟨⟨_, rfl, C37_mul h hf⟩, ⟨_, rfl, C36_add h hf⟩⟩⟩
  sub e x f y h hf := ⟨_, rfl, C36_sub h hf⟩
  pow e x h n _ := ⟨_, rfl, by simpa using zkPowLoop_rep n C36_constants.2.1 h⟩
  inverse e x h hx := zkInverse_rep h hx
  euclInverse e x h hx := zkInverse_rep h hx
  div e x f y h hf hy := by
    obtain ⟨t, ht, hr⟩ := zkInverse_rep hf hy
    refine ⟨Scalar.mul e t, ?_, by rw [div_eq_mul_inv]; exact C37_mul h hr⟩
    show zkDiv e f = _
    rw [zkDiv, ctEq_decide hf C36_constants.1, if_neg (by simpa using hy), ht]
    rfl
  divZero e x f h hf := by
    refine ⟨Scalar.zero, ?_, C36_constants.1⟩
    show zkDiv e f = _
    rw [zkDiv, ctEq_decide hf C36_constants.1, if_pos (by simp)]
  nullIsNull := ⟨_, rfl, by decide +kernel⟩
  nullIsNone e x h := congrArg Res.ok (C46_null_is_no_value h.1)

/-- C138: outside the contract, the inverse of zero panics, by both functions. -/
theorem C138_inverse_zero {e : Scalar} (h : Scalar.Rep e 0) :
    Iface.zk.inverse e = .panic ∧ Iface.zk.euclInverse e = .panic := by
  have : zkInverse e = .panic := by rw [zkInverse, C40_invert_zero h]
  exact ⟨this, this⟩

/-! ## C139: blst-from-scratch -/

/-- C139 (all but null): the field elements of blst-from-scratch keep the contract but for the last line: constants, words,
comparisons, arithmetic, powers, inverses and division. -/
theorem C139_contract_partial : Onto (E := Fr) Eq ∧ Consts Iface.blst Eq ∧ FromU64 Iface.blst Eq ∧
    FromAllWords Iface.blst Eq ∧ ToWords Iface.blst Eq ∧ Tests Iface.blst Eq ∧ Iface.Ring Iface.blst Eq ∧
    Iface.Sub Iface.blst Eq ∧ Iface.Pow Iface.blst Eq ∧ Inverse Iface.blst Eq ∧ EuclInverse Iface.blst Eq ∧
    Iface.Div Iface.blst Eq ∧ DivZero Iface.blst Eq ∧ NullIsNull Iface.blst ∧ NullTest Iface.blst Eq := by
  refine ⟨fun x => ⟨x, rfl⟩, ⟨⟨_, rfl, rfl⟩, ⟨_, rfl, ?_⟩, ⟨_, rfl, ?_⟩⟩, ?_, ?_, ?_, ?_, ?_, ?_, ?_, ?_, ?_, ?_, ?_, ?_, ?_⟩
  · simp [frFromWords, wordsVal]
  · simp [frFromWords, wordsVal]
  · intro v _; exact ⟨_, rfl, by simp [frFromWords, wordsVal]⟩
  · intro u _; exact ⟨_, rfl, rfl⟩
  · rintro e x rfl; exact ⟨_, rfl, canonical_words e⟩
  · rintro e x rfl
    refine ⟨congrArg Res.ok ?_, congrArg Res.ok ?_, ?_⟩
    · rw [canonical_small (by omega)]; simp
    · rw [canonical_small (by omega)]; simp
    · rintro f y rfl; exact congrArg Res.ok (blstEquals_iff e f)
  · rintro e x rfl
    exact ⟨⟨_, rfl, (pow_two e).symm⟩, ⟨_, rfl, rfl⟩, by rintro f y rfl; exact ⟨⟨_, rfl, rfl⟩, ⟨_, rfl, rfl⟩⟩⟩
  · rintro e x f y rfl rfl; exact ⟨_, rfl, rfl⟩
  · rintro e x rfl n _; exact ⟨_, rfl, by rw [frPow, frPowLoop_spec, one_mul]⟩
  · rintro e x rfl _; exact ⟨_, rfl, rfl⟩
  · rintro e x rfl _; exact ⟨_, rfl, rfl⟩
  · rintro e x f y rfl rfl _; exact ⟨_, rfl, (div_eq_mul_inv e f).symm⟩
  · rintro e x f rfl rfl; exact ⟨_, rfl, by simp⟩
  · exact ⟨_, rfl, congrArg Res.ok (by rw [blstEquals_iff]; simp)⟩
  · rintro e he
    refine congrArg Res.ok ?_
    rw [blstEquals_iff, decide_eq_false_iff_not]
    have key : ∀ c : Nat, c < 2 → (c : Fr) ≠ frFromWords [2 ^ 64 - 1, 2 ^ 64 - 1, 2 ^ 64 - 1, 2 ^ 64 - 1] := by
      intro c hc h
      rw [frFromWords, ZMod.natCast_eq_natCast_iff'] at h
      interval_cases c <;> revert h <;> decide +kernel
    rcases he with rfl | rfl
    · simpa using key 0 (by omega)
    · simpa using key 1 (by omega)

/-- C139 (refuted): an ordinary element, given by words below the modulus, is taken for null. -/
theorem C139_null_is_an_element : ¬ NullIsNone Iface.blst Eq ∧
    ∃ u, Words4 u ∧ wordsVal u < frModulus ∧ ∃ e, Iface.blst.fromU64Arr u = .ok e ∧ Iface.blst.isNull e = .ok true := by
  have h2 : ∃ u, Words4 u ∧ wordsVal u < frModulus ∧ ∃ e, Iface.blst.fromU64Arr u = .ok e ∧
      Iface.blst.isNull e = .ok true := by
    refine ⟨uint64FromFr frNull, (canonical_words _).1, ?_, frNull, ?_, ?_⟩
    · rw [(canonical_words _).2]; exact ZMod.val_lt _
    · show Res.ok (frFromWords _) = _
      rw [frFromWords, (canonical_words _).2, ZMod.natCast_zmod_val]
    · exact congrArg Res.ok (by rw [blstEquals_iff]; simp [frNull])
  refine ⟨fun h => ?_, h2⟩
  obtain ⟨u, _, _, e, _, he⟩ := h2
  have := he.symm.trans (h e e rfl)
  simp at this

/-- C139: which element it is. -/
theorem C139_null_iff (x : Fr) : Iface.blst.isNull x = .ok true ↔ x.val = (2 ^ 256 - 1) % frModulus := by
  show Res.ok (blstEquals x frNull) = _ ↔ _
  rw [blstEquals_iff]
  have hn : frNull = (((2 ^ 256 - 1 : Nat)) : Fr) := by
    rw [frNull, frFromWords, ZMod.natCast_eq_natCast_iff']
    decide +kernel
  simp only [Res.ok.injEq, decide_eq_true_iff]
  rw [hn, ← ZMod.val_natCast]
  exact ⟨fun h => by rw [h], fun h => ZMod.val_injective _ h⟩

/-- C139: the inverse of zero is zero, by both functions. -/
theorem C139_inverse_zero : Iface.blst.inverse 0 = .ok 0 ∧ Iface.blst.euclInverse 0 = .ok 0 := by
  simp [Iface.blst]

/-! ## C140: mcl-kzg -/

theorem mclFromU64Arr_eq {u : List Nat} (hu : u.length = 4) :
    mclFromU64Arr u = if wordsVal u < frModulus then .ok (wordsVal u : Fr) else .panic := by
  match u, hu with
  | [a, b, c, d], _ => rw [wordsVal_four]; rfl

theorem mclPow_eq (x : Fr) {n : Nat} (hn : 1 ≤ n) : Mcl.frPow x n = .ok (x ^ n) := by
  obtain ⟨r, hr, h⟩ := forRange_inv (lo := 1) (hi := n) (s := x) (body := fun _ r => .ok (r * x))
    (fun i r => r = x ^ i) hn (by simp) (by
      rintro i r _ _ rfl
      exact Res.Sat.ok (pow_succ x i).symm)
  rw [Mcl.frPow, hr, h]

section
variable [Mcl.Lib Fr]

/-- C140 (what holds): the field elements of mcl-kzg keep the contract for words below the modulus and exponents from
one on; null is recognised, and it is neither zero nor one. -/
theorem C140_contract_partial : Onto (E := Fr) Eq ∧ Consts Iface.mcl Eq ∧ FromU64 Iface.mcl Eq ∧
    FromWords Iface.mcl Eq ∧ ToWords Iface.mcl Eq ∧ Tests Iface.mcl Eq ∧ Iface.Ring Iface.mcl Eq ∧
    Iface.Sub Iface.mcl Eq ∧ (∀ x : Fr, ∀ n ≥ 1, Iface.mcl.pow x n = .ok (x ^ n)) ∧ Inverse Iface.mcl Eq ∧
    Iface.Div Iface.mcl Eq ∧ NullIsNull Iface.mcl ∧ NullTest Iface.mcl Eq := by
  have hm : (2 : Nat) ^ 64 < frModulus := by decide +kernel
  have hn : mclNull = .ok ((wordsVal [2 ^ 64 - 1, 2 ^ 64 - 1, 2 ^ 64 - 1, (2 ^ 64 - 1) / 3] : Nat) : Fr) := by
    rw [mclNull, mclFromU64Arr_eq rfl, if_pos (by decide +kernel)]
  refine ⟨fun x => ⟨x, rfl⟩, ⟨⟨_, rfl, rfl⟩, ⟨_, rfl, rfl⟩, ⟨_, rfl, rfl⟩⟩, ?_, ?_, ?_, ?_, ?_, ?_, ?_, ?_, ?_, ?_, ?_⟩
  · intro v hv
    have e : wordsVal [v, 0, 0, 0] = v := by rw [wordsVal_four]; omega
    refine ⟨_, ?_, rfl⟩
    show mclFromU64Arr [v, 0, 0, 0] = _
    rw [mclFromU64Arr_eq rfl, e, if_pos (by omega)]
  · intro u hu hl
    refine ⟨_, ?_, rfl⟩
    show mclFromU64Arr u = _
    rw [mclFromU64Arr_eq hu.1, if_pos hl]
  · rintro e x rfl; exact ⟨_, rfl, canonical_words e⟩
  · rintro e x rfl
    exact ⟨rfl, rfl, by rintro f y rfl; rfl⟩
  · rintro e x rfl
    exact ⟨⟨_, rfl, (pow_two e).symm⟩, ⟨_, rfl, rfl⟩, by rintro f y rfl; exact ⟨⟨_, rfl, rfl⟩, ⟨_, rfl, rfl⟩⟩⟩
  · rintro e x f y rfl rfl; exact ⟨_, rfl, rfl⟩
  · intro x n h; exact mclPow_eq x h
  · rintro e x rfl hx
    exact ⟨_, if_neg hx, rfl⟩
  · rintro e x f y rfl rfl hy
    exact ⟨_, if_neg hy, (div_eq_mul_inv e f).symm⟩
  · refine ⟨_, hn, ?_⟩
    simp [Iface.mcl, hn]
  · rintro e he
    have key : ∀ c : Nat, c < 2 → (c : Fr) ≠
        ((wordsVal [2 ^ 64 - 1, 2 ^ 64 - 1, 2 ^ 64 - 1, (2 ^ 64 - 1) / 3] : Nat) : Fr) := by
      intro c hc h
      rw [ZMod.natCast_eq_natCast_iff'] at h
      interval_cases c <;> revert h <;> decide +kernel
    show (do let t ← mclNull; Res.ok (decide (e = t))) = _
    rw [hn, Res.bind_ok]
    refine congrArg Res.ok (decide_eq_false ?_)
    rcases he with rfl | rfl
    · simpa using key 0 (by omega)
    · simpa using key 1 (by omega)

/-- C140 (refuted): words from the modulus on stop the program. -/
theorem C140_from_words_panics {u : List Nat} (hu : Words4 u) (h : frModulus ≤ wordsVal u) :
    Iface.mcl.fromU64Arr u = .panic := by
  show mclFromU64Arr u = _
  rw [mclFromU64Arr_eq hu.1, if_neg (by omega)]

/-- C140 (refuted): the power zero gives the element itself, which is right for one only. -/
theorem C140_pow_zero (x : Fr) : Iface.mcl.pow x 0 = .ok x ∧ (Iface.mcl.pow x 0 = .ok (x ^ 0) ↔ x = 1) := by
  have : Iface.mcl.pow x 0 = .ok x := rfl
  rw [this]
  simp

/-- C140 (refuted): `eucl_inverse` panics for every element. -/
theorem C140_eucl_inverse (x : Fr) : Iface.mcl.euclInverse x = .panic := rfl

/-- C140 (refuted): an ordinary element, given by words below the modulus, is taken for null. -/
theorem C140_null_is_an_element : ∃ u, Words4 u ∧ wordsVal u < frModulus ∧ ∃ e, Iface.mcl.fromU64Arr u = .ok e ∧
    Iface.mcl.isNull e = .ok true := by
  refine ⟨[2 ^ 64 - 1, 2 ^ 64 - 1, 2 ^ 64 - 1, (2 ^ 64 - 1) / 3], ⟨rfl, by simp⟩, by decide +kernel, ?_⟩
  have hn : mclNull = .ok ((wordsVal [2 ^ 64 - 1, 2 ^ 64 - 1, 2 ^ 64 - 1, (2 ^ 64 - 1) / 3] : Nat) : Fr) := by
    rw [mclNull, mclFromU64Arr_eq rfl, if_pos (by decide +kernel)]
  exact ⟨_, hn, by simp [Iface.mcl, hn]⟩

/-- C140 (refuted): the contract as a whole fails, whatever the library does for the inverse of zero. -/
theorem C140_full_statement_false : ¬ Contract (Iface.mcl) (Eq : Fr → Fr → Prop) := by
  intro h
  obtain ⟨e, he, _⟩ := h.euclInverse 1 1 rfl one_ne_zero
  exact absurd he (by simp [Iface.mcl])

end

/-! ## C141: ckzg and Arkworks -/

/-- C141 (refuted): in ckzg, subtraction and both inverses panic for all arguments, whatever the library does. -/
theorem C141_ckzg_panics {E : Type} (C : CFr E) (x y : E) : (Iface.ckzg C).sub x y = .panic ∧
    (Iface.ckzg C).inverse x = .panic ∧ (Iface.ckzg C).euclInverse x = .panic := ⟨rfl, rfl, rfl⟩

/-- C141 (refuted): so no library makes the contract hold. -/
theorem C141_ckzg_false {E : Type} (C : CFr E) (Rep : E → Fr → Prop) : ¬ Contract (Iface.ckzg C) Rep := by
  intro h
  obtain ⟨e, he⟩ := h.onto 1
  obtain ⟨_, h, _⟩ := h.inverse e 1 he one_ne_zero
  exact absurd h (by simp [Iface.ckzg])

/-- C141 (what holds of Arkworks): everything but words from the modulus on, division by zero, `eucl_inverse` and null. -/
theorem C141_ark_partial : Onto (E := Fr) Eq ∧ Consts Iface.ark Eq ∧ FromU64 Iface.ark Eq ∧
    FromWords Iface.ark Eq ∧ ToWords Iface.ark Eq ∧ Tests Iface.ark Eq ∧ Iface.Ring Iface.ark Eq ∧
    Iface.Sub Iface.ark Eq ∧ Iface.Pow Iface.ark Eq ∧ Inverse Iface.ark Eq ∧
    Iface.Div Iface.ark Eq ∧ NullIsNull Iface.ark ∧ NullTest Iface.ark Eq := by
  refine ⟨fun x => ⟨x, rfl⟩, ⟨⟨_, rfl, rfl⟩, ⟨_, rfl, rfl⟩, ⟨_, rfl, rfl⟩⟩, ?_, ?_, ?_, ?_, ?_, ?_, ?_, ?_, ?_, ?_, ?_⟩
  · intro v _; exact ⟨_, rfl, rfl⟩
  · intro u _ hl; exact ⟨_, rfl, (C116_from_words_partial u hl).1⟩
  · rintro e x rfl; exact ⟨_, rfl, canonical_words e⟩
  · rintro e x rfl
    exact ⟨rfl, rfl, by rintro f y rfl; rfl⟩
  · rintro e x rfl
    exact ⟨⟨_, rfl, (pow_two e).symm⟩, ⟨_, rfl, rfl⟩, by rintro f y rfl; exact ⟨⟨_, rfl, rfl⟩, ⟨_, rfl, rfl⟩⟩⟩
  · rintro e x f y rfl rfl; exact ⟨_, rfl, rfl⟩
  · rintro e x rfl n _; exact ⟨_, rfl, rfl⟩
  · rintro e x rfl hx; exact ⟨_, ((C116_inverse_div e e).1 hx).1, rfl⟩
  · rintro e x f y rfl rfl hy; exact ⟨_, ((C116_inverse_div e f).1 hy).2, rfl⟩
  · exact ⟨_, rfl, congrArg Res.ok (by simp [Ark.frIsNull])⟩
  · rintro e (rfl | rfl)
    · exact congrArg Res.ok C116_null_ne.1
    · exact congrArg Res.ok C116_null_ne.2

/-- C141 (refuted): the four places where Arkworks breaks the contract. -/
theorem C141_ark_false : ¬ FromAllWords Iface.ark Eq ∧ ¬ DivZero Iface.ark Eq ∧ ¬ EuclInverse Iface.ark Eq ∧
    ¬ NullIsNone Iface.ark Eq := by
  refine ⟨fun h => ?_, fun h => ?_, fun h => ?_, fun h => ?_⟩
  · obtain ⟨e, he, hx⟩ := h [2, 0x53bda402fffe5bfe + 1, 0x3339d80809a1d805, 0x73eda753299d7d48] ⟨rfl, by simp⟩
    have hl := C116_from_words_large [2, 0x53bda402fffe5bfe + 1, 0x3339d80809a1d805, 0x73eda753299d7d48]
      (by decide +kernel)
    have e0 : e = 0 := by
      rw [← hl.1]
      exact (Res.ok.inj he).symm
    have := hl.2.1 (by rw [hl.1, ← e0, hx]; rfl)
    revert this
    decide +kernel
  · obtain ⟨e, he, _⟩ := h 1 1 0 rfl rfl
    have := ((C116_inverse_div 1 0).2 rfl).2
    rw [show Iface.ark.div 1 0 = Ark.frDiv 1 0 from rfl, this] at he
    cases he
  · obtain ⟨e, he, _⟩ := h 1 1 rfl one_ne_zero
    cases he
  · have := h Ark.frNull _ rfl
    rw [show Iface.ark.isNull Ark.frNull = .ok (Ark.frIsNull Ark.frNull) from rfl] at this
    simp [Ark.frIsNull] at this

/-! ## C142: the backends side by side -/

/-- C142 (what all agree on): on elements that stand for the same residues, the four backends written in Rust give
results that stand for the same residues: words below the modulus, ring operations, comparisons, powers from one
on, and inverses and quotients with a divisor other than zero. -/
theorem C142_agreement_partial [Mcl.Lib Fr] {s t : Scalar} {x y : Fr} (hs : Scalar.Rep s x) (ht : Scalar.Rep t y) :
    (∀ u, Words4 u → wordsVal u < frModulus → ∃ e, Scalar.Rep e (wordsVal u : Fr) ∧ Iface.zk.fromU64Arr u = .ok e ∧
      Iface.blst.fromU64Arr u = .ok (wordsVal u : Fr) ∧ Iface.ark.fromU64Arr u = .ok (wordsVal u : Fr) ∧
      Iface.mcl.fromU64Arr u = .ok (wordsVal u : Fr)) ∧
    (Iface.zk.toU64Arr s = Iface.blst.toU64Arr x ∧ Iface.ark.toU64Arr x = Iface.blst.toU64Arr x ∧
      Iface.mcl.toU64Arr x = Iface.blst.toU64Arr x) ∧
    (Iface.zk.equals s t = Iface.blst.equals x y ∧ Iface.ark.equals x y = Iface.blst.equals x y ∧
      Iface.mcl.equals x y = Iface.blst.equals x y) ∧
    (∃ e, Scalar.Rep e (x * y) ∧ Iface.zk.mul s t = .ok e ∧ Iface.blst.mul x y = .ok (x * y) ∧
      Iface.ark.mul x y = .ok (x * y) ∧ Iface.mcl.mul x y = .ok (x * y)) ∧
    (∀ n < 2 ^ 64, 1 ≤ n → ∃ e, Scalar.Rep e (x ^ n) ∧ Iface.zk.pow s n = .ok e ∧ Iface.blst.pow x n = .ok (x ^ n) ∧
      Iface.ark.pow x n = .ok (x ^ n) ∧ Iface.mcl.pow x n = .ok (x ^ n)) ∧
    (y ≠ 0 → ∃ e, Scalar.Rep e (x / y) ∧ Iface.zk.div s t = .ok e ∧ Iface.blst.div x y = .ok (x / y) ∧
      Iface.ark.div x y = .ok (x / y) ∧ Iface.mcl.div x y = .ok (x / y)) := by
  have B := C139_contract_partial
  have M := C140_contract_partial
  have A := C141_ark_partial
  refine ⟨fun u hu hl => ?_, ⟨?_, rfl, rfl⟩, ⟨?_, ?_, ?_⟩, ?_, fun n hn h1 => ?_, fun hy => ?_⟩
  · obtain ⟨e, he, hr⟩ := C138_contract.fromAllWords u hu
    obtain ⟨b, hb, rfl⟩ := B.2.2.2.1 u hu
    obtain ⟨a, ha, h⟩ := A.2.2.2.1 u hu hl
    obtain ⟨m, hm, h'⟩ := M.2.2.2.1 u hu hl
    exact ⟨e, hr, he, hb, h ▸ ha, h' ▸ hm⟩
  · obtain ⟨u, hu, h4, hv⟩ := C138_contract.toWords s x hs
    rw [hu]
    exact congrArg Res.ok (wordsVal_inj h4 (canonical_words x).1 (hv.trans (canonical_words x).2.symm))
  · rw [(C138_contract.tests s x hs).2.2 t y ht]
    exact congrArg Res.ok (blstEquals_iff x y).symm
  · exact congrArg Res.ok (blstEquals_iff x y).symm
  · exact congrArg Res.ok (blstEquals_iff x y).symm
  · obtain ⟨e, he, hr⟩ := ((C138_contract.ring s x hs).2.2 t y ht).1
    exact ⟨e, hr, he, rfl, rfl, rfl⟩
  · obtain ⟨e, he, hr⟩ := C138_contract.pow s x hs n hn
    obtain ⟨b, hb, h⟩ := B.2.2.2.2.2.2.2.2.1 x x rfl n hn
    exact ⟨e, hr, he, h ▸ hb, rfl, mclPow_eq x h1⟩
  · obtain ⟨e, he, hr⟩ := C138_contract.div s x t y hs ht hy
    exact ⟨e, hr, he, congrArg Res.ok (div_eq_mul_inv x y).symm, ((C116_inverse_div x y).1 hy).2.trans rfl,
      (if_neg hy).trans (congrArg Res.ok (div_eq_mul_inv x y).symm)⟩

/-- C142 (refuted): the same four words, from the modulus on, give the remainder in blst-from-scratch and zkcrypto, zero
in Arkworks, and stop the program in mcl-kzg. -/
theorem C142_words_differ [Mcl.Lib Fr] {u : List Nat} (hu : Words4 u) (h : frModulus ≤ wordsVal u) :
    Iface.blst.fromU64Arr u = .ok (wordsVal u : Fr) ∧
    (∃ e, Iface.zk.fromU64Arr u = .ok e ∧ Scalar.Rep e (wordsVal u : Fr)) ∧
    Iface.ark.fromU64Arr u = .ok 0 ∧ Iface.mcl.fromU64Arr u = .panic :=
  ⟨rfl, C138_contract.fromAllWords u hu, congrArg Res.ok (C116_from_words_large u h).1, C140_from_words_panics hu h⟩

/-- C142 (refuted): a division by zero gives zero in blst-from-scratch and zkcrypto and stops the program in Arkworks;
the inverse of zero is zero in blst-from-scratch and stops the program in zkcrypto and Arkworks. -/
theorem C142_zero_differs {s t : Scalar} {x : Fr} (hs : Scalar.Rep s x) (ht : Scalar.Rep t 0) :
    Iface.blst.div x 0 = .ok 0 ∧ (∃ e, Iface.zk.div s t = .ok e ∧ Scalar.Rep e 0) ∧ Iface.ark.div x 0 = .panic ∧
    Iface.blst.inverse 0 = .ok 0 ∧ Iface.zk.inverse t = .panic ∧ Iface.ark.inverse 0 = .panic :=
  ⟨by simp [Iface.blst], C138_contract.divZero s x t hs ht, ((C116_inverse_div x 0).2 rfl).2, C139_inverse_zero.1,
    (C138_inverse_zero ht).1, ((C116_inverse_div x 0).2 rfl).1⟩

/-- C142 (refuted): the null elements of blst-from-scratch and Arkworks are the same ordinary element, that of
mcl-kzg is another one. -/
theorem C142_null_differs [Mcl.Lib Fr] : ∃ n m : Fr, Iface.blst.null = .ok n ∧ Iface.ark.null = .ok n ∧
    Iface.mcl.null = .ok m ∧ n ≠ m := by
  have hn : mclNull = .ok ((wordsVal [2 ^ 64 - 1, 2 ^ 64 - 1, 2 ^ 64 - 1, (2 ^ 64 - 1) / 3] : Nat) : Fr) := by
    rw [mclNull, mclFromU64Arr_eq rfl, if_pos (by decide +kernel)]
  have h2 : ((2 ^ 256 : Nat) : Fr) ≠ 0 := by
    rw [Ne, ZMod.natCast_eq_zero_iff]
    decide +kernel
  refine ⟨frNull, _, rfl, congrArg Res.ok ?_, hn, ?_⟩
  · rw [frNull, frFromWords, Ark.frNull, mul_inv_eq_iff_eq_mul₀ h2, ← Nat.cast_mul,
      ZMod.natCast_eq_natCast_iff']
    decide +kernel
  · rw [frNull, frFromWords, Ne, ZMod.natCast_eq_natCast_iff']
    decide +kernel

example : Iface.blst.isOne 1 = .ok true ∧ Iface.blst.toU64Arr (-1) = .ok
    [0xffffffff00000000, 0x53bda402fffe5bfe, 0x3339d80809a1d805, 0x73eda753299d7d48] := by decide +kernel

example : Iface.zk.fromU64Arr [1, 2, 3, 4] = .ok (Scalar.fromRaw 1 2 3 4) ∧
    Iface.zk.toU64Arr (Scalar.fromRaw 1 2 3 4) = .ok [1, 2, 3, 4] ∧
    Iface.zk.isNull Scalar.null = .ok true ∧ Iface.zk.pow (Scalar.ofU64 3) 5 = .ok (Scalar.ofU64 243) := by
  refine ⟨rfl, by decide +kernel, by decide +kernel, ?_⟩
  obtain ⟨e, he, hr⟩ := C138_contract.pow (Scalar.ofU64 3) 3 (by simpa using C37_from_u64 (v := 3) (by simp [W])) 5
    (by omega)
  rw [he]
  refine congrArg Res.ok (Scalar.rep_inj hr ?_)
  have := C37_from_u64 (v := 243) (by simp [W])
  have e : ((243 : Nat) : Fr) = 3 ^ 5 := by norm_num
  rwa [e] at this

example [Mcl.Lib Fr] : Iface.mcl.fromU64Arr [1, 2, 3, 4] =
    .ok ((1 + 2 ^ 64 * (2 + 2 ^ 64 * (3 + 2 ^ 64 * 4)) : Nat) : Fr) ∧
    Iface.mcl.fromU64Arr [2 ^ 64 - 1, 2 ^ 64 - 1, 2 ^ 64 - 1, 2 ^ 64 - 1] = .panic := by
  refine ⟨?_, C140_from_words_panics ⟨rfl, by simp⟩ (by decide +kernel)⟩
  have := mclFromU64Arr_eq (u := [1, 2, 3, 4]) rfl
  rw [if_pos (by decide +kernel), wordsVal_four] at this
  exact this

end Kzg.Props
