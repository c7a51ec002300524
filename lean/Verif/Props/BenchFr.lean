import Verif.Model.BenchFr
import Verif.Props.BenchFft
import Verif.Props.GroupInterface
import Verif.Props.Interface
import Verif.Props.CkzgUtils
import Verif.Proofs.BenchZero
/-!
# Property C183: the shared tests of field elements
-/

set_option linter.unusedSectionVars false

namespace Kzg.Props
open Kzg Kzg.Res Kzg.Bench Kzg.Zk Kzg.Iface

theorem assertT_decide (c : Prop) [Decidable c] : assertT (decide c) = passIf c := by
  by_cases h : c <;> simp [assertT, passIf, h]

/-! ## C183: field elements -/

/-- What the tests of field elements need of a backend. -/
structure FrGood {S : Type} (T : FrTrait S) (Rep : S → Fr → Prop) : Prop where
  consts : Iface.Consts T Rep
  fromU64 : FromU64 T Rep
  fromWords : FromWords T Rep
  large : ∀ u, Words4 u → frModulus ≤ wordsVal u → T.fromU64Arr u = .panic ∨ ∃ x, Gives Rep (T.fromU64Arr u) x
  toWords : ToWords T Rep
  tests : Tests T Rep
  ring : Iface.Ring T Rep
  pow : ∀ e x, Rep e x → ∀ n < 2 ^ 64, 1 ≤ n → Gives Rep (T.pow e n) (x ^ n)
  div : Iface.Div T Rep
  nullIsNull : NullIsNull T
  nullTest : NullTest T Rep

theorem zk_frGood : FrGood Iface.zk Scalar.Rep where
  consts := C138_contract.consts
  fromU64 := C138_contract.fromU64
  fromWords u h _ := C138_contract.fromAllWords u h
  large u h _ := Or.inr ⟨_, C138_contract.fromAllWords u h⟩
  toWords := C138_contract.toWords
  tests := C138_contract.tests
  ring := C138_contract.ring
  pow e x h n hn _ := C138_contract.pow e x h n hn
  div := C138_contract.div
  nullIsNull := C138_contract.nullIsNull
  nullTest e h := h.elim (C138_contract.nullIsNone e 0) (C138_contract.nullIsNone e 1)

theorem blst_frGood : FrGood Iface.blst (Eq : Fr → Fr → Prop) := by
  obtain ⟨_, h1, h2, h3, h4, h5, h6, _, h8, _, _, h9, _, h10, h11⟩ := C139_contract_partial
  exact ⟨h1, h2, fun u h _ => h3 u h, fun u h _ => Or.inr ⟨_, h3 u h⟩, h4, h5, h6, fun e x h n hn _ => h8 e x h n hn, h9, h10, h11⟩

theorem mcl_frGood [Mcl.Lib Fr] : FrGood Iface.mcl (Eq : Fr → Fr → Prop) := by
  obtain ⟨_, h1, h2, h3, h4, h5, h6, _, h8, _, h9, h10, h11⟩ := C140_contract_partial
  refine ⟨h1, h2, h3, fun u h h' => Or.inl (C140_from_words_panics h h'), h4, h5, h6, ?_, h9, h10, h11⟩
  rintro e x rfl n _ h
  exact ⟨_, h8 e n h, rfl⟩

theorem ark_frGood : FrGood Iface.ark (Eq : Fr → Fr → Prop) := by
  obtain ⟨_, h1, h2, h3, h4, h5, h6, _, h8, _, h9, h10, h11⟩ := C141_ark_partial
  exact ⟨h1, h2, h3, fun u _ _ => Or.inr ⟨_, _, rfl, rfl⟩, h4, h5, h6, fun e x h n hn _ => h8 e x h n hn, h9, h10, h11⟩

section
variable {S : Type} {T : FrTrait S} {Rep : S → Fr → Prop}

theorem frNullT_ok (h : FrGood T Rep) : frNullT T = .ok () := by
  obtain ⟨o, ho, ho'⟩ := h.fromU64 1 (by norm_num)
  obtain ⟨z, hz, hz'⟩ := h.consts.2.1
  obtain ⟨n, hn, hn'⟩ := h.nullIsNull
  rw [frNullT, ho, bind_ok, hz, bind_ok, hn, bind_ok, h.nullTest z (Or.inl hz'), bind_ok,
    h.nullTest o (Or.inr (by simpa using ho'))]
  simp [assertT, hn']

theorem frZeroT_eq (h : FrGood T Rep) {v : Nat} (hv : v < 2 ^ 64) : frZeroT T v = passIf (v = 0) := by
  obtain ⟨o, ho, ho'⟩ := h.fromU64 v hv
  rw [frZeroT, ho, bind_ok, (h.tests o _ ho').2.1, bind_ok, assertT_decide]
  have hm : v < frModulus := lt_trans hv (by decide +kernel)
  have : ((v : Fr) = 0) ↔ v = 0 := by
    rw [ZMod.natCast_eq_zero_iff]
    exact ⟨fun h => Nat.eq_zero_of_dvd_of_lt h hm, fun h => h ▸ dvd_zero _⟩
  simp only [passIf, this]

theorem natCast_fr_inj {a b : Nat} (ha : a < frModulus) (hb : b < frModulus) : (a : Fr) = b ↔ a = b := by
  refine ⟨fun h => ?_, fun h => by rw [h]⟩
  have := congrArg ZMod.val h
  rwa [ZMod.val_cast_of_lt ha, ZMod.val_cast_of_lt hb] at this

theorem frOneT_eq (h : FrGood T Rep) {v : Nat} (hv : v < 2 ^ 64) : frOneT T v = passIf (v = 1) := by
  obtain ⟨o, ho, ho'⟩ := h.fromU64 v hv
  rw [frOneT, ho, bind_ok, (h.tests o _ ho').1, bind_ok, assertT_decide]
  have hm : v < frModulus := lt_trans hv (by decide +kernel)
  have : ((v : Fr) = 1) ↔ v = 1 := by
    have := natCast_fr_inj hm (show 1 < frModulus by decide +kernel)
    rwa [Nat.cast_one] at this
  simp only [passIf, this]

theorem frEqualT_gives (h : FrGood T Rep) {u v : List Nat} {x y : Fr} (hu : Gives Rep (T.fromU64Arr u) x)
    (hv : Gives Rep (T.fromU64Arr v) y) : frEqualT T u v = passIf (x ≠ y) := by
  obtain ⟨a, ha, ha'⟩ := hu
  obtain ⟨b, hb, hb'⟩ := hv
  rw [frEqualT, ha, bind_ok, hb, bind_ok, (h.tests a x ha').2.2 a x ha', bind_ok, (h.tests a x ha').2.2 b y hb']
  by_cases hxy : x = y <;> simp [assertT, passIf, hxy]

theorem frNegateT_gives (h : FrGood T Rep) {u : List Nat} {x : Fr} (hu : Gives Rep (T.fromU64Arr u) x) :
    frNegateT T u = passIf (x = -1) := by
  obtain ⟨a, ha, ha'⟩ := hu
  obtain ⟨n, hn, hn'⟩ := (h.ring a x ha').2.1
  rw [frNegateT, ha, bind_ok, hn, bind_ok, (h.tests n _ hn').1, bind_ok, assertT_decide]
  have : (-x = 1) ↔ x = -1 := by rw [neg_eq_iff_eq_neg]
  simp only [passIf, this]

theorem frPow_prefix (h : FrGood T Rep) {v : Nat} (hv : v < 2 ^ 64) (n : Nat) (hn : n < 2 ^ 64) : ∃ a e, Rep a (v : Fr) ∧ Rep e ((v : Fr) ^ n) ∧
    T.fromU64 v = .ok a ∧ frPowT T v n = (do
      let actual ← T.pow a n
      let b ← T.equals e actual
      assertT b) := by
  obtain ⟨a, ha, ha'⟩ := h.fromU64 v hv
  obtain ⟨o, ho, ho'⟩ := h.consts.2.2
  obtain ⟨e, he, he'⟩ := forRange_inv (lo := 0) (hi := n) (s := o) (body := fun _ e => T.mul e a)
    (fun i e => Rep e ((v : Fr) ^ i)) (by omega) (by simpa using ho') (by
      intro i e _ _ hr
      obtain ⟨r, hr1, hr2⟩ := ((h.ring e _ hr).2.2 a _ ha').1
      exact ⟨r, hr1, by rw [pow_succ]; exact hr2⟩)
  refine ⟨a, e, ha', he', ha, ?_⟩
  rw [frPowT, ha, bind_ok, ho, bind_ok, he, bind_ok]

theorem frPowT_gives (h : FrGood T Rep) {v n : Nat} (hv : v < 2 ^ 64) (hn : n < 2 ^ 64) {y : Fr}
    (hp : ∀ a, Rep a (v : Fr) → T.fromU64 v = .ok a → Gives Rep (T.pow a n) y) : frPowT T v n = passIf ((v : Fr) ^ n = y) := by
  obtain ⟨a, e, ha, he, ha', ht⟩ := frPow_prefix h hv n hn
  obtain ⟨p, hp1, hp2⟩ := hp a ha ha'
  rw [ht, hp1, bind_ok, (h.tests e _ he).2.2 p y hp2, bind_ok, assertT_decide]

theorem frPowT_ok (h : FrGood T Rep) {v n : Nat} (hv : v < 2 ^ 64) (hn : n < 2 ^ 64) (h1 : 1 ≤ n) : frPowT T v n = .ok () := by
  rw [frPowT_gives h hv hn (fun a ha _ => h.pow a _ ha n hn h1), passIf_true rfl]

theorem frDivT_ok (h : FrGood T Rep) {v w : Nat} (hv : v < 2 ^ 64) (hw : w < 2 ^ 64) (h0 : w ≠ 0) : frDivT T v w = .ok () := by
  obtain ⟨a, ha, ha'⟩ := h.fromU64 v hv
  obtain ⟨b, hb, hb'⟩ := h.fromU64 w hw
  have hm : w < frModulus := lt_trans hw (by decide +kernel)
  have hw0 : (w : Fr) ≠ 0 := by
    intro h'
    exact h0 (Nat.eq_zero_of_dvd_of_lt ((ZMod.natCast_eq_zero_iff _ _).1 h') hm)
  obtain ⟨t, ht, ht'⟩ := h.div a _ b _ ha' hb' hw0
  obtain ⟨p, hp, hp'⟩ := ((h.ring t _ ht').2.2 b _ hb').1
  rw [div_mul_cancel₀ _ hw0] at hp'
  rw [frDivT, ha, bind_ok, hb, bind_ok, ht, unwrap_ok, bind_ok, hp, bind_ok, (h.tests a _ ha').2.2 p _ hp', bind_ok]
  simp [assertT]

theorem frRoundtripT_words {u w : List Nat} {e : S} (hu : Words4 u) (he : T.fromU64Arr u = .ok e) (hw : T.toU64Arr e = .ok w)
    (h4 : Words4 w) : frRoundtripT T u = passIf (u = w) := by
  have hb : ∀ i < 4, (do
      let x ← rd u i
      let y ← rd w i
      assertT (x == y)) = assertT (u.getD i 0 == w.getD i 0) := by
    intro i hi
    rw [rd_of_lt (by rw [hu.1]; exact hi), bind_ok, rd_of_lt (by rw [h4.1]; exact hi), bind_ok,
      List.getD_eq_getElem _ _ (by rw [hu.1]; exact hi), List.getD_eq_getElem _ _ (by rw [h4.1]; exact hi)]
  rw [frRoundtripT, he, bind_ok, hw, bind_ok]
  by_cases h : u = w
  · subst h
    rw [passIf_true rfl]
    refine each_ok fun i hi => ?_
    rw [hb i hi]
    simp [assertT]
  · rw [passIf_false h]
    refine each_panic hb ?_
    by_contra hc
    apply h
    refine List.ext_getElem (by rw [hu.1, h4.1]) fun i h1 h2 => ?_
    rw [hu.1] at h1
    by_contra hne
    refine hc ⟨i, h1, ?_⟩
    rw [List.getD_eq_getElem _ _ (by rw [hu.1]; exact h1), List.getD_eq_getElem _ _ (by rw [h4.1]; exact h1)]
    simpa using hne

theorem frRoundtripT_eq (h : FrGood T Rep) {u : List Nat} (hu : Words4 u) : frRoundtripT T u = passIf (wordsVal u < frModulus) := by
  by_cases hl : wordsVal u < frModulus
  · obtain ⟨e, he, he'⟩ := h.fromWords u hu hl
    obtain ⟨w, hw, h4, hv⟩ := h.toWords e _ he'
    rw [frRoundtripT_words hu he hw h4, passIf_true hl, passIf_true]
    refine wordsVal_inj hu h4 ?_
    rw [hv, ZMod.val_cast_of_lt hl]
  · rw [passIf_false hl]
    rcases h.large u hu (by omega) with hp | ⟨x, e, he, he'⟩
    · rw [frRoundtripT, hp]; rfl
    · obtain ⟨w, hw, h4, hv⟩ := h.toWords e _ he'
      rw [frRoundtripT_words hu he hw h4, passIf_false]
      rintro rfl
      have := ZMod.val_lt x
      omega

end

/-- A statement about the field elements of each of the four backends written in Rust. -/
def FrInAll [Mcl.Lib Fr] (P : ∀ S : Type, FrTrait S → Prop) : Prop :=
  P Fr Iface.blst ∧ P Scalar Iface.zk ∧ P Fr Iface.mcl ∧ P Fr Iface.ark

theorem frInAll [Mcl.Lib Fr] {P : ∀ S : Type, FrTrait S → Prop}
    (h : ∀ (S : Type) (T : FrTrait S) (Rep : S → Fr → Prop), FrGood T Rep → P S T) : FrInAll P :=
  ⟨h _ _ _ blst_frGood, h _ _ _ zk_frGood, h _ _ _ mcl_frGood, h _ _ _ ark_frGood⟩

section
variable [Mcl.Lib Fr]

/-- C183 (null): the test of null passes in all four backends. -/
theorem C183_null : FrInAll fun _ T => frNullT T = .ok () := frInAll fun _ _ _ h => frNullT_ok h

/-- C183 (zero and one): the tests of zero and one, taken with any 64-bit number, pass exactly for zero and for one. -/
theorem C183_zero_one {v : Nat} (hv : v < 2 ^ 64) :
    FrInAll fun _ T => frZeroT T v = passIf (v = 0) ∧ frOneT T v = passIf (v = 1) :=
  frInAll fun _ _ _ h => ⟨frZeroT_eq h hv, frOneT_eq h hv⟩

/-- C183 (comparison): with any words below the modulus, the test passes exactly when they differ. -/
theorem C183_equal {u v : List Nat} (hu : Words4 u) (hv : Words4 v) (lu : wordsVal u < frModulus) (lv : wordsVal v < frModulus) :
    FrInAll fun _ T => frEqualT T u v = passIf (u ≠ v) := by
  refine frInAll fun _ T _ h => ?_
  rw [frEqualT_gives h (h.fromWords u hu lu) (h.fromWords v hv lv)]
  have : ((wordsVal u : Fr) ≠ wordsVal v) ↔ u ≠ v := by
    rw [ne_eq, ne_eq, natCast_fr_inj lu lv]
    exact not_congr ⟨wordsVal_inj hu hv, fun h => by rw [h]⟩
  simp only [passIf, this]

/-- C183 (comparison, larger words): blst-from-scratch and zkcrypto take all words, and the test passes exactly when they differ
modulo the modulus. -/
theorem C183_equal_reduced {u v : List Nat} (hu : Words4 u) (hv : Words4 v) :
    frEqualT Iface.blst u v = passIf (wordsVal u % frModulus ≠ wordsVal v % frModulus) ∧
    frEqualT Iface.zk u v = passIf (wordsVal u % frModulus ≠ wordsVal v % frModulus) := by
  have : ((wordsVal u : Fr) ≠ wordsVal v) ↔ wordsVal u % frModulus ≠ wordsVal v % frModulus :=
    not_congr (ZMod.natCast_eq_natCast_iff' _ _ _)
  constructor
  · rw [frEqualT_gives blst_frGood (C139_contract_partial.2.2.2.1 u hu) (C139_contract_partial.2.2.2.1 v hv)]
    simp only [passIf, this]
  · rw [frEqualT_gives zk_frGood (C138_contract.fromAllWords u hu) (C138_contract.fromAllWords v hv)]
    simp only [passIf, this]

/-- C183 (negation): with any words below the modulus, the test passes exactly for the modulus less one. -/
theorem C183_negate {u : List Nat} (hu : Words4 u) (lu : wordsVal u < frModulus) :
    FrInAll fun _ T => frNegateT T u = passIf (wordsVal u + 1 = frModulus) := by
  refine frInAll fun _ T _ h => ?_
  rw [frNegateT_gives h (h.fromWords u hu lu)]
  have : ((wordsVal u : Fr) = -1) ↔ wordsVal u + 1 = frModulus := by
    rw [eq_neg_iff_add_eq_zero, ← Nat.cast_succ, ZMod.natCast_eq_zero_iff]
    refine ⟨fun h => ?_, fun h => dvd_of_eq h.symm⟩
    have := Nat.le_of_dvd (Nat.succ_pos _) h
    omega
  simp only [passIf, this]

/-- C183 (powers, partial): the slow way and the quick way agree in all four backends, for every base and every exponent from one on.
Missing: the exponent zero, with which the test fails in mcl-kzg (`C183_pow_zero`). -/
theorem C183_pow_partial {v n : Nat} (hv : v < 2 ^ 64) (hn : n < 2 ^ 64) (h1 : 1 ≤ n) :
    FrInAll fun _ T => frPowT T v n = .ok () := frInAll fun _ _ _ h => frPowT_ok h hv hn h1

/-- C183 (the exponent zero): the test passes in three backends; in mcl-kzg it passes for the base one only. -/
theorem C183_pow_zero {v : Nat} (hv : v < 2 ^ 64) : frPowT Iface.blst v 0 = .ok () ∧ frPowT Iface.zk v 0 = .ok () ∧
    frPowT Iface.ark v 0 = .ok () ∧ frPowT Iface.mcl v 0 = passIf (v = 1) := by
  refine ⟨?_, ?_, ?_, ?_⟩
  · rw [frPowT_gives blst_frGood hv (by norm_num) (fun a ha _ => C139_contract_partial.2.2.2.2.2.2.2.2.1 a _ ha 0 (by norm_num)),
      passIf_true rfl]
  · rw [frPowT_gives zk_frGood hv (by norm_num) (fun a ha _ => C138_contract.pow a _ ha 0 (by norm_num)), passIf_true rfl]
  · rw [frPowT_gives ark_frGood hv (by norm_num) (fun a ha _ => C141_ark_partial.2.2.2.2.2.2.2.2.1 a _ ha 0 (by norm_num)),
      passIf_true rfl]
  · rw [frPowT_gives mcl_frGood hv (by norm_num) (y := (v : Fr)) (fun a ha _ => ⟨a, (C140_pow_zero a).1, ha⟩)]
    have hm : v < frModulus := lt_trans hv (by decide +kernel)
    have : ((v : Fr) ^ 0 = v) ↔ v = 1 := by
      rw [pow_zero, eq_comm]
      have := natCast_fr_inj hm (show 1 < frModulus by decide +kernel)
      rwa [Nat.cast_one] at this
    simp only [passIf, this]

/-- C183 (division): the quotient times the divisor is the dividend, in all four backends, for every dividend and every divisor but zero. -/
theorem C183_div {v w : Nat} (hv : v < 2 ^ 64) (hw : w < 2 ^ 64) (h0 : w ≠ 0) :
    FrInAll fun _ T => frDivT T v w = .ok () := frInAll fun _ _ _ h => frDivT_ok h hv hw h0

/-- C183 (division by zero): the test passes in blst-from-scratch and zkcrypto with every dividend and fails in Arkworks with every
dividend, as its mark `#[should_panic]` says. In mcl-kzg it passes if and only if the library answers zero. -/
theorem C183_div_by_zero {v : Nat} (hv : v < 2 ^ 64) : frDivByZeroT Iface.blst v = .ok () ∧ frDivByZeroT Iface.zk v = .ok () ∧
    frDivByZeroT Iface.ark v = .panic ∧
    (frDivByZeroT Iface.mcl v = .ok () ↔ Mcl.Lib.divZero (v : Fr) = .ok 0) := by
  have key : ∀ {S : Type} {T : FrTrait S} {Rep : S → Fr → Prop}, FrGood T Rep → DivZero T Rep → frDivByZeroT T v = .ok () := by
    intro S T Rep h hd
    obtain ⟨a, ha, ha'⟩ := h.fromU64 v hv
    obtain ⟨b, hb, hb'⟩ := h.fromU64 0 (by norm_num)
    obtain ⟨t, ht, ht'⟩ := hd a _ b ha' (by simpa using hb')
    rw [frDivByZeroT, ha, bind_ok, hb, bind_ok, ht, unwrap_ok, bind_ok, (h.tests t _ ht').2.1, bind_ok]
    simp [assertT]
  refine ⟨key blst_frGood C139_contract_partial.2.2.2.2.2.2.2.2.2.2.2.2.1, key zk_frGood C138_contract.divZero, ?_, ?_⟩
  · have : Iface.ark.div (v : Fr) ((0 : Nat) : Fr) = .panic := ((C116_inverse_div _ _).2 (by simp)).2
    show ((Iface.ark.div (v : Fr) ((0 : Nat) : Fr)).unwrap >>= fun tmp => Iface.ark.isZero tmp >>= fun t => assertT t) = _
    rw [this]
    rfl
  · obtain ⟨a, ha, rfl⟩ := mcl_frGood.fromU64 v hv
    obtain ⟨b, hb, hb'⟩ := mcl_frGood.fromU64 0 (by norm_num)
    rw [Nat.cast_zero] at hb'
    subst hb'
    have : Iface.mcl.div (v : Fr) 0 = Mcl.Lib.divZero (v : Fr) := by
      show Mcl.frDiv (v : Fr) 0 = _
      rw [Mcl.frDiv, if_pos rfl]
    rw [frDivByZeroT, ha, bind_ok, hb, bind_ok, this]
    cases Mcl.Lib.divZero (v : Fr) with
    | ok t =>
      rw [unwrap_ok, bind_ok, (mcl_frGood.tests t t rfl).2.1, bind_ok, assertT_decide]
      by_cases h : t = 0 <;> simp [passIf, h]
    | err m => simp [Res.unwrap]
    | panic => simp [Res.unwrap]

/-- C183 (words): giving words in and taking them out passes in all four backends exactly for the words below the modulus. -/
theorem C183_roundtrip {u : List Nat} (hu : Words4 u) :
    FrInAll fun _ T => frRoundtripT T u = passIf (wordsVal u < frModulus) := frInAll fun _ _ _ h => frRoundtripT_eq h hu

end

/-- C183 (bytes): the test of `log_2_byte` passes exactly when the expected answer is the base two logarithm of the byte, rounded down,
in blst-from-scratch (whose function Arkworks and zkcrypto copy), ckzg and mcl-kzg; for the byte zero it asks for zero. -/
theorem C183_log_2_byte {b : Nat} (hb : b < 256) (e : Nat) :
    log2ByteT (fun b => .ok (log2Byte b)) e b = passIf (e = Nat.log2 b) ∧
    log2ByteT (fun b => .ok (Ckzg.log2Byte b)) e b = passIf (e = Nat.log2 b) ∧
    log2ByteT (fun b => .ok (Mcl.log2 b)) e b = passIf (e = Nat.log2 b) := by
  have key : ∀ f : Nat → Nat, f b = Nat.log2 b → log2ByteT (fun b => .ok (f b)) e b = passIf (e = Nat.log2 b) := by
    intro f hf
    show assertT (e == f b) = _
    rw [hf]
    by_cases h : e = Nat.log2 b <;> simp [assertT, passIf, h]
  refine ⟨key _ (log2Byte_all b hb), key _ ?_, key _ ?_⟩
  · exact log2Byte_all b hb
  · rcases Nat.eq_zero_or_pos b with rfl | h0
    · rfl
    · obtain ⟨h1, h2⟩ := C94_log_2 b h0 (lt_trans hb (by norm_num))
      exact ((Nat.log2_eq_iff (by omega)).2 ⟨h1, h2⟩).symm

/-- The values of the tests. -/
example [Mcl.Lib Fr] : FrInAll fun _ T => frEqualT T [0x0001000000000000, 0xec03000276030000, 0x8d51ccce760304d0, 0]
    [0x8dd702cb688bc087, 0xa032824078eaa4fe, 0xa733b23a98ca5b22, 0x3f96405d25a31660] = .ok () := by
  have h := C183_equal (u := [0x0001000000000000, 0xec03000276030000, 0x8d51ccce760304d0, 0])
    (v := [0x8dd702cb688bc087, 0xa032824078eaa4fe, 0xa733b23a98ca5b22, 0x3f96405d25a31660]) ⟨rfl, by simp⟩ ⟨rfl, by simp⟩
    (by decide +kernel) (by decide +kernel)
  rw [passIf_true (by decide)] at h
  exact h

example [Mcl.Lib Fr] : FrInAll fun _ T =>
    frNegateT T [0xffffffff00000000, 0x53bda402fffe5bfe, 0x3339d80809a1d805, 0x73eda753299d7d48] = .ok () := by
  have h := C183_negate (u := [0xffffffff00000000, 0x53bda402fffe5bfe, 0x3339d80809a1d805, 0x73eda753299d7d48]) ⟨rfl, by simp⟩
    (by decide +kernel)
  rw [passIf_true (by decide +kernel)] at h
  exact h

example [Mcl.Lib Fr] : FrInAll fun _ T => frPowT T 197 123456 = .ok () := C183_pow_partial (by norm_num) (by norm_num) (by norm_num)

example [Mcl.Lib Fr] : FrInAll fun _ T => frDivT T 197 123456 = .ok () := C183_div (by norm_num) (by norm_num) (by norm_num)

example [Mcl.Lib Fr] : FrInAll fun _ T => frRoundtripT T [1, 2, 3, 4] = .ok () := by
  have h := C183_roundtrip (u := [1, 2, 3, 4]) ⟨rfl, by simp⟩
  rw [passIf_true (by decide +kernel)] at h
  exact h

/-- The largest words do not come back. -/
example [Mcl.Lib Fr] : FrInAll fun _ T => frRoundtripT T [2 ^ 64 - 1, 2 ^ 64 - 1, 2 ^ 64 - 1, 2 ^ 64 - 1] = .panic := by
  have h := C183_roundtrip (u := [2 ^ 64 - 1, 2 ^ 64 - 1, 2 ^ 64 - 1, 2 ^ 64 - 1]) ⟨rfl, by simp⟩
  rw [passIf_false (by decide +kernel)] at h
  exact h

example : log2ByteT (fun b => .ok (log2Byte b)) 7 0xff = .ok () := by
  rw [(C183_log_2_byte (by norm_num) 7).1]; exact passIf_true (by decide)

end Kzg.Props
