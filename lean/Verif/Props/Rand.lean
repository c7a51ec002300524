import Mathlib.Data.Int.CardIntervalMod
import Mathlib.Data.Set.Card
import Verif.Model.Rand
import Verif.Props.Interface
import Verif.Props.GroupInterface
import Verif.Props.ZkRandom
/-!
# Property C162: random elements through the traits
-/

namespace Kzg.Props
set_option exponentiation.threshold 2000
open Kzg Kzg.Iface Kzg.Zk CurveConsts

/-! ## Counting -/

/-- How many of the values that meet `P` and are numbered `0, …, N - 1` by `f` are numbered `x` modulo the modulus. -/
theorem count_residue {α : Type} {P : α → Prop} {f : α → Nat} {N : Nat} (hlt : ∀ a, P a → f a < N)
    (hinj : ∀ a b, P a → P b → f a = f b → a = b) (hsurj : ∀ n < N, ∃ a, P a ∧ f a = n) (x : Fr) :
    {a | P a ∧ (f a : Fr) = x}.ncard = N / frModulus + if x.val < N % frModulus then 1 else 0 := by
  have h1 : {a | P a ∧ (f a : Fr) = x}.ncard = {n : Nat | n < N ∧ n ≡ x.val [MOD frModulus]}.ncard := by
    have key : ∀ n : Nat, (n : Fr) = x ↔ n ≡ x.val [MOD frModulus] := by
      intro n
      rw [← ZMod.natCast_eq_natCast_iff, ZMod.natCast_zmod_val]
    refine Set.ncard_congr (fun a _ => f a) ?_ ?_ ?_
    · intro a ha; exact ⟨hlt a ha.1, (key _).1 ha.2⟩
    · intro a b ha hb h; exact hinj a b ha.1 hb.1 h
    · rintro n ⟨hn, hx⟩
      obtain ⟨a, ha, rfl⟩ := hsurj n hn
      exact ⟨a, ⟨ha, (key _).2 hx⟩, rfl⟩
  rw [h1]
  have h2 : {n : Nat | n < N ∧ n ≡ x.val [MOD frModulus]} =
      ((Finset.range N).filter (· ≡ x.val [MOD frModulus]) : Finset Nat) := by
    ext n; simp
  rw [h2, Set.ncard_coe_finset, ← Nat.count_eq_card_filter_range, Nat.count_modEq_card N (by decide +kernel),
    Nat.mod_eq_of_lt (ZMod.val_lt x)]

theorem words_of {n : Nat} (hn : n < 2 ^ 256) : ∃ u, Words4 u ∧ wordsVal u = n := by
  refine ⟨[n % 2 ^ 64, n / 2 ^ 64 % 2 ^ 64, n / 2 ^ 64 / 2 ^ 64 % 2 ^ 64, n / 2 ^ 64 / 2 ^ 64 / 2 ^ 64], ⟨rfl, ?_⟩, ?_⟩
  · simp only [List.mem_cons, List.not_mem_nil, or_false, forall_eq_or_imp, forall_eq]
    omega
  · rw [wordsVal_four]; omega

theorem wordsVal_lt {u : List Nat} (hu : Words4 u) : wordsVal u < 2 ^ 256 := by
  obtain ⟨a, b, c, d, rfl, _, _, _, _⟩ := words4_four hu
  rw [wordsVal_four]
  omega

/-! ## C162 -/

theorem zkFrRand_rep {u : List Nat} (hu : Words4 u) : Scalar.Rep (zkFrRand u) (wordsVal u : Fr) := by
  obtain ⟨e, he, hr⟩ := C138_contract.fromAllWords u hu
  cases he
  exact hr

/-- C162: `Fr::rand` of blst-from-scratch and of zkcrypto takes the same four random words to elements that stand for
the same residue, and every residue can come out. -/
theorem C162_fr : (∀ u, Words4 u → blstFrRand u = (wordsVal u : Fr) ∧ Scalar.Rep (zkFrRand u) (wordsVal u : Fr)) ∧
    ∀ x : Fr, ∃ u, Words4 u ∧ blstFrRand u = x ∧ Scalar.Rep (zkFrRand u) x := by
  refine ⟨fun u hu => ⟨rfl, zkFrRand_rep hu⟩, fun x => ⟨uint64FromFr x, (canonical_words x).1, ?_, ?_⟩⟩
  · rw [blstFrRand, frFromWords, (canonical_words x).2, ZMod.natCast_zmod_val]
  · have := zkFrRand_rep (canonical_words x).1
    rwa [(canonical_words x).2, ZMod.natCast_zmod_val] at this

/-- C162 (refuted, how uneven): of the `2^256` quadruples of words, an element comes from three if its canonical integer is
below `2^256 - 2r`, and from two otherwise. -/
theorem C162_uneven (x : Fr) :
    {u | Words4 u ∧ blstFrRand u = x}.ncard = (if x.val < 2 ^ 256 - 2 * frModulus then 3 else 2) ∧
    {u | Words4 u ∧ Scalar.Rep (zkFrRand u) x}.ncard = (if x.val < 2 ^ 256 - 2 * frModulus then 3 else 2) := by
  have h1 := count_residue (P := Words4) (f := wordsVal) (N := 2 ^ 256) (fun u => wordsVal_lt)
    (fun u v hu hv => wordsVal_inj hu hv) (fun n => words_of) x
  have e1 : 2 ^ 256 / frModulus = 2 := by decide +kernel
  have e2 : 2 ^ 256 % frModulus = 2 ^ 256 - 2 * frModulus := by decide +kernel
  rw [e1, e2] at h1
  have h2 : {u | Words4 u ∧ Scalar.Rep (zkFrRand u) x} = {u | Words4 u ∧ (wordsVal u : Fr) = x} := by
    ext u
    refine and_congr_right fun hu => ⟨fun h => ?_, fun h => h ▸ zkFrRand_rep hu⟩
    exact Scalar.rep_unique (zkFrRand_rep hu) h
  rw [h2]
  have h3 : {u | Words4 u ∧ blstFrRand u = x} = {u | Words4 u ∧ (wordsVal u : Fr) = x} := rfl
  rw [h3, h1]
  constructor <;> split <;> rfl

/-- C162 (refuted): so the elements are not equally likely, and one of them comes half as often again as another. -/
theorem C162_full_statement_false : ¬ ∀ x y : Fr, {u | Words4 u ∧ blstFrRand u = x}.ncard =
    {u | Words4 u ∧ blstFrRand u = y}.ncard := by
  intro h
  have := h 0 (-1)
  rw [(C162_uneven 0).1, (C162_uneven (-1)).1, if_pos (by decide +kernel), if_neg (by decide +kernel)] at this
  exact absurd this (by norm_num)

/-- C162 (what the unused function would do): `Scalar::random` of zkcrypto, which takes 64 bytes, gives every element from
`q` or from `q + 1` of the `2^512` strings, where `q` is over `2^256`. -/
theorem C162_wide_partial (x : Fr) : 2 ^ 256 < 2 ^ 512 / frModulus ∧
    {bs | Bytes 64 bs ∧ Scalar.Rep (Scalar.random bs) x}.ncard =
      2 ^ 512 / frModulus + (if x.val < 2 ^ 512 % frModulus then 1 else 0) := by
  refine ⟨by decide +kernel, ?_⟩
  have e : (256 : Nat) ^ 64 = 2 ^ 512 := by norm_num
  have h1 := count_residue (P := Bytes 64) (f := fromLe) (N := 2 ^ 512)
    (fun bs h => by have := fromLe_lt bs h.2; rwa [h.1, e] at this)
    (fun a b ha hb h => Scalar.fromLe_inj (ha.1.trans hb.1.symm) ha.2 hb.2 h)
    (fun n hn => ⟨toLe 64 n, ⟨toLe_length _ _, toLe_bytes _ _⟩, by rw [fromLe_toLe, e, Nat.mod_eq_of_lt hn]⟩) x
  rw [← h1]
  congr 1
  ext bs
  refine and_congr_right fun hb => ⟨fun h => ?_, fun h => h ▸ C146_scalar.1 bs hb⟩
  exact Scalar.rep_unique (C146_scalar.1 bs hb) h

/-- C162 (points, blst-from-scratch): the random point is the multiple of the generator by the words; every multiple can
come out. -/
theorem C162_g1_blst {G : Type} [AddCommGroup G] [Module Fr G] (g : G) :
    (∀ u, Words4 u → blstG1Rand g u = .ok ((wordsVal u : Fr) • g)) ∧
    ∀ x : Fr, ∃ u, Words4 u ∧ blstG1Rand g u = .ok (x • g) := by
  have h : ∀ u, blstG1Rand g u = .ok ((wordsVal u : Fr) • g) := fun u => C35_g1_mul g _
  refine ⟨fun u _ => h u, fun x => ⟨_, (canonical_words x).1, ?_⟩⟩
  rw [h, (canonical_words x).2, ZMod.natCast_zmod_val]

/-- C162 (points, zkcrypto, what holds): unless the rounding in the product overflows, likewise. -/
theorem C162_g1_zk_partial (chk : Bool) {u : List Nat} (hu : Words4 u)
    (h : ¬ RoundingOverflows (wordsVal u : Fr).val) :
    ∃ q, zkG1Rand chk u = .ok q ∧ Projective.Is (b (K := FpW)) q ((wordsVal u : Fr).val • G1.gen) :=
  C54_mul_partial chk C56_generator.2.1 (by rw [← C56_generator.2.2]; exact addOrderOf_nsmul_eq_zero _)
    (zkFrRand_rep hu) h

/-- C162 (refuted for zkcrypto): with overflow checks some random words make `G1::rand` panic. -/
theorem C162_g1_zk_panics : ∃ u, Words4 u ∧ zkG1Rand true u = .panic := by
  obtain ⟨s, hs, _, hv⟩ := bad_scalar
  refine ⟨uint64FromFr (G1.badNat : Fr), (canonical_words _).1, ?_⟩
  have hr := zkFrRand_rep (canonical_words (G1.badNat : Fr)).1
  rw [(canonical_words _).2, ZMod.natCast_zmod_val] at hr
  exact (C54_debug_panics C56_generator.2.1 hr).2 (by rw [hv]; exact badNat_overflows)

/-- C162 (mcl-kzg): `G1::random` gives every multiple of the generator, for exactly one random field element. -/
theorem C162_mcl_g1 {G : Type} [AddCommGroup G] [Module Fr G] {g : G} (hg : g ≠ 0) (y : Fr) : ∃! x, mclG1Random g x = y • g :=
  ⟨y, rfl, fun _ h => smul_left_injective Fr hg h⟩

/-- C162: in mcl-kzg a random polynomial has as many coefficients as asked for, and any coefficients can come out. -/
theorem C162_mcl_poly (n : Nat) : (∀ xs, (mclPolyRandom xs n).length = n) ∧
    ∀ p : List Fr, p.length = n → ∃ xs, mclPolyRandom xs n = p := by
  refine ⟨fun xs => by simp [mclPolyRandom], fun p hp => ⟨fun i => p.getD i 0, ?_⟩⟩
  subst hp
  refine List.ext_getElem (by simp [mclPolyRandom]) fun i h _ => ?_
  have : i < p.length := by simpa [mclPolyRandom] using h
  simp [mclPolyRandom, this]

/-- Zero comes from three quadruples: zero, the modulus and twice the modulus. -/
example : {u | Words4 u ∧ blstFrRand u = 0}.ncard = 3 ∧
    blstFrRand [0xfffffffe00000002, 0xa77b4805fffcb7fd, 0x6673b0101343b00a, 0xe7db4ea6533afa90] = 0 := by
  refine ⟨?_, by decide +kernel⟩
  rw [(C162_uneven 0).1]
  decide +kernel

end Kzg.Props
