import Verif.Props.BenchKnown
/-!
# Property C190: how far apart extended data are

The extension of `2^m` data gives `2^(m+1)` samples: the data at the even positions, the new values at the odd ones.
-/

set_option linter.unusedSectionVars false

namespace Kzg.Props
open Kzg Kzg.Res Polynomial

section
variable {F : Type} [Field F] [DecidableEq F]

/-- The samples of the data `evens`. -/
def Samples (das : List F → Res (List F)) (evens samples : List F) : Prop :=
  ∃ odds, das evens = .ok odds ∧ samples = interleave evens odds

/-- The positions below `n` in which the two lists differ. -/
def differing (n : Nat) (a b : List F) : Finset Nat := (Finset.range n).filter fun i => a[i]? ≠ b[i]?

/-- What the extensions of all backends have in common. -/
def IsCode (das : List F → Res (List F)) (m : Nat) : Prop :=
  ∃ ω : F, IsPrimitiveRoot ω (2 ^ (m + 1)) ∧ ∀ evens : List F, evens.length = 2 ^ m →
    ∃ (odds : List F) (p : F[X]), das evens = .ok odds ∧ odds.length = 2 ^ m ∧ p.degree < (2 ^ m : Nat) ∧
      ∀ i < 2 ^ (m + 1), (interleave evens odds)[i]? = some (p.eval (ω ^ i))

theorem isCode_of {das : List F → Res (List F)} {scale m : Nat} {fs : FFTSettings F} (hwf : fs.WF scale) (hm : m + 1 ≤ scale)
    (hd : ∀ evens odds : List F, evens.length = 2 ^ m → odds.length = 2 ^ m → fs.dasFftExtension evens = .ok odds → das evens = .ok odds) :
    IsCode das m := by
  have hp2 : 2 ^ (m + 1) = 2 * 2 ^ m := by rw [pow_succ, mul_comm]
  refine ⟨fs.omega (2 ^ (m + 1)), hwf.omega_prim hm, fun evens hl => ?_⟩
  obtain ⟨odds, -, -, h1, h2, -, -, -, coeffs, h3, h4, h5⟩ := das_extension_of hwf hm evens hl
  have hil : (interleave evens odds).length = 2 ^ (m + 1) := by rw [interleave_length _ _ (by omega), hl, hp2]
  have hrt := hwf.fft_roundtrip' hm _ hil
  rw [show fs.fft (interleave evens odds) true = _ from h3, bind_ok, hwf.fft_eval hm _ h4] at hrt
  refine ⟨odds, polyOf coeffs, hd evens odds hl h2 h1, h2, ?_, fun i hi => ?_⟩
  · rw [degree_lt_iff_coeff_zero]
    intro i hi
    rw [coeff_polyOf, List.getD_eq_getElem?_getD]
    by_cases h : i < 2 ^ (m + 1)
    · rw [h5 i hi h]; rfl
    · rw [List.getElem?_eq_none (by omega)]; rfl
  · rw [← Res.ok.inj hrt, List.getElem?_map, List.getElem?_range hi]; rfl

theorem IsCode.far {das : List F → Res (List F)} {m : Nat} (h : IsCode das m) {a b u v : List F} (ha : a.length = 2 ^ m)
    (hb : b.length = 2 ^ m) (hab : a ≠ b) (hu : Samples das a u) (hv : Samples das b v) :
    u.length = 2 ^ (m + 1) ∧ v.length = 2 ^ (m + 1) ∧ 2 ^ m < (differing (2 ^ (m + 1)) u v).card := by
  have hp2 : 2 ^ (m + 1) = 2 * 2 ^ m := by rw [pow_succ, mul_comm]
  obtain ⟨ω, hω, hd⟩ := h
  obtain ⟨oa, p, ea, la, hp, hpv⟩ := hd a ha
  obtain ⟨ob, q, eb, lb, hq, hqv⟩ := hd b hb
  obtain ⟨o, e, rfl⟩ := hu
  obtain ⟨o', e', rfl⟩ := hv
  cases ea.symm.trans e
  cases eb.symm.trans e'
  refine ⟨by rw [interleave_length _ _ (by omega)]; omega, by rw [interleave_length _ _ (by omega)]; omega, ?_⟩
  by_contra hc
  have hcard := Finset.card_filter_add_card_filter_not (s := Finset.range (2 ^ (m + 1)))
    (fun i => (interleave a oa)[i]? ≠ (interleave b ob)[i]?)
  rw [Finset.card_range] at hcard
  change (differing (2 ^ (m + 1)) (interleave a oa) (interleave b ob)).card + _ = _ at hcard
  have hpq : p = q := by
    refine Polynomial.eq_of_degree_sub_lt_of_eval_finset_eq
      (((Finset.range (2 ^ (m + 1))).filter fun i => ¬ (interleave a oa)[i]? ≠ (interleave b ob)[i]?).image fun i => ω ^ i) ?_ ?_
    · rw [Finset.card_image_of_injOn]
      · refine lt_of_lt_of_le (lt_of_le_of_lt (degree_sub_le _ _) (max_lt hp hq)) ?_
        rw [Nat.cast_le]
        omega
      · intro i hi j hj e
        rw [Finset.mem_coe, Finset.mem_filter, Finset.mem_range] at hi hj
        exact hω.pow_inj hi.1 hj.1 e
    · intro x hx
      rw [Finset.mem_image] at hx
      obtain ⟨i, hi, rfl⟩ := hx
      rw [Finset.mem_filter, Finset.mem_range, not_not] at hi
      have := hi.2
      rw [hpv i hi.1, hqv i hi.1] at this
      exact Option.some.inj this
  apply hab
  refine List.ext_getElem? fun i => ?_
  by_cases hi : i < 2 ^ m
  · have h1 := hpv (2 * i) (by omega)
    have h2 := hqv (2 * i) (by omega)
    rw [hpq, ← h2] at h1
    rw [← (interleave_getElem? a oa (by omega) i).1, ← (interleave_getElem? b ob (by omega) i).1, h1]
  · rw [List.getElem?_eq_none (by omega), List.getElem?_eq_none (by omega)]

/-- The bound is exact: any `2^m - 1` positions can be all on which the samples agree. -/
theorem IsCode.sharp {das : List F → Res (List F)} {m : Nat} (h : IsCode das m) {a u : List F} (ha : a.length = 2 ^ m)
    (hu : Samples das a u) (S : Finset Nat) (hS : S ⊆ Finset.range (2 ^ (m + 1))) (hc : S.card = 2 ^ m - 1) :
    ∃ b v, b.length = 2 ^ m ∧ Samples das b v ∧ differing (2 ^ (m + 1)) u v = Finset.range (2 ^ (m + 1)) \ S := by
  have hp2 : 2 ^ (m + 1) = 2 * 2 ^ m := by rw [pow_succ, mul_comm]
  have hpos : 0 < 2 ^ m := by positivity
  obtain ⟨ω, hω, hd⟩ := h
  obtain ⟨oa, p, ea, la, hp, hpv⟩ := hd a ha
  obtain ⟨o, e, rfl⟩ := hu
  cases ea.symm.trans e
  have hV : (∏ j ∈ S, (X - C (ω ^ j))).degree = ((2 ^ m - 1 : Nat) : WithBot Nat) := by
    rw [degree_prod, Finset.sum_congr rfl fun j _ => degree_X_sub_C _, Finset.sum_const, hc]
    simp
  have hq : (p + ∏ j ∈ S, (X - C (ω ^ j))).degree < (2 ^ m : Nat) := by
    refine lt_of_le_of_lt (degree_add_le _ _) (max_lt hp ?_)
    rw [hV, Nat.cast_lt]; omega
  obtain ⟨ob, q, eb, lb, hq', hqv⟩ := hd ((List.range (2 ^ m)).map fun i => (p + ∏ j ∈ S, (X - C (ω ^ j))).eval (ω ^ (2 * i))) (by simp)
  have hqq : q = p + ∏ j ∈ S, (X - C (ω ^ j)) := by
    refine poly_unique (n := 2 ^ m) (x := fun i => ω ^ (2 * i)) (fun i hi j hj e => ?_) hq' hq fun i hi => ?_
    · have := hω.pow_inj (by omega) (by omega) e; omega
    · have h1 := hqv (2 * i) (by omega)
      rw [(interleave_getElem? _ ob (by simp [lb]) i).1, List.getElem?_map, List.getElem?_range hi] at h1
      exact (Option.some.inj h1).symm
  refine ⟨_, _, by simp, ⟨ob, eb, rfl⟩, ?_⟩
  ext i
  rw [differing, Finset.mem_filter, Finset.mem_sdiff, Finset.mem_range]
  refine and_congr_right fun hi => ?_
  rw [hpv i hi, hqv i hi, hqq, ne_eq, Option.some.injEq, eval_add, left_eq_add, eval_prod, Finset.prod_eq_zero_iff, not_iff_not]
  constructor
  · rintro ⟨j, hj, e⟩
    rw [eval_sub, eval_X, eval_C, sub_eq_zero] at e
    have := hω.pow_inj hi (Finset.mem_range.1 (hS hj)) e
    rwa [this]
  · exact fun hj => ⟨i, hj, by rw [eval_sub, eval_X, eval_C, sub_self]⟩

theorem differing_triangle (n : Nat) (a b c : List F) :
    (differing n a c).card ≤ (differing n a b).card + (differing n b c).card := by
  refine (Finset.card_le_card fun i hi => ?_).trans (Finset.card_union_le _ _)
  rw [differing, Finset.mem_filter] at hi
  rw [Finset.mem_union, differing, differing, Finset.mem_filter, Finset.mem_filter]
  by_cases h : a[i]? = b[i]?
  · exact .inr ⟨hi.1, fun e => hi.2 (h.trans e)⟩
  · exact .inl ⟨hi.1, h⟩

theorem differing_comm (n : Nat) (a b : List F) : differing n a b = differing n b a := by
  unfold differing
  congr 1
  funext i
  rw [ne_comm]

theorem IsCode.repair {das : List F → Res (List F)} {m : Nat} (h : IsCode das m) {a b u v w : List F} (ha : a.length = 2 ^ m)
    (hb : b.length = 2 ^ m) (hu : Samples das a u) (hv : Samples das b v) (h1 : 2 * (differing (2 ^ (m + 1)) u w).card ≤ 2 ^ m)
    (h2 : 2 * (differing (2 ^ (m + 1)) v w).card ≤ 2 ^ m) : a = b := by
  by_contra hab
  have := (h.far ha hb hab hu hv).2.2
  have h3 := differing_triangle (2 ^ (m + 1)) u w v
  rw [differing_comm _ w v] at h3
  omega

end

/-- C190: the extension of `2^m` data has samples; those of different data differ in more than half of the positions; this is exact: for any
choice of `2^m - 1` positions there are other data whose samples agree exactly there; and a list that differs from the samples of some
data in at most a quarter of the positions does so for no other data. -/
def ExactDistance {F : Type} [Field F] [DecidableEq F] (das : List F → Res (List F)) (m : Nat) : Prop :=
  (∀ a : List F, a.length = 2 ^ m → ∃ u, Samples das a u ∧ u.length = 2 ^ (m + 1)) ∧
  (∀ a b u v : List F, a.length = 2 ^ m → b.length = 2 ^ m → a ≠ b → Samples das a u → Samples das b v →
    2 ^ m < (differing (2 ^ (m + 1)) u v).card) ∧
  (∀ a u : List F, a.length = 2 ^ m → Samples das a u → ∀ S ⊆ Finset.range (2 ^ (m + 1)), S.card = 2 ^ m - 1 →
    ∃ b v, b.length = 2 ^ m ∧ Samples das b v ∧ differing (2 ^ (m + 1)) u v = Finset.range (2 ^ (m + 1)) \ S) ∧
  ∀ a b u v w : List F, a.length = 2 ^ m → b.length = 2 ^ m → Samples das a u → Samples das b v →
    2 * (differing (2 ^ (m + 1)) u w).card ≤ 2 ^ m → 2 * (differing (2 ^ (m + 1)) v w).card ≤ 2 ^ m → a = b

theorem IsCode.exact {F : Type} [Field F] [DecidableEq F] {das : List F → Res (List F)} {m : Nat} (h : IsCode das m) :
    ExactDistance das m := by
  refine ⟨fun a ha => ?_, fun a b u v ha hb hab hu hv => (h.far ha hb hab hu hv).2.2, fun a u ha hu S hS hc => h.sharp ha hu S hS hc,
    fun a b u v w ha hb hu hv h1 h2 => h.repair ha hb hu hv h1 h2⟩
  obtain ⟨ω, -, hd⟩ := h
  obtain ⟨o, -, e, hl, -⟩ := hd a ha
  exact ⟨_, ⟨o, e, rfl⟩, by rw [interleave_length _ _ (by omega), ha, pow_succ, mul_comm]⟩

/-- C190 (blst-from-scratch). -/
theorem C190_blst {scale m : Nat} {fs : FFTSettings Fr} (hfs : FFTSettings.new scale = .ok fs) (hm : m + 1 ≤ scale) :
    ExactDistance fs.dasFftExtension m :=
  (isCode_of (wf_of_new hfs) hm fun _ _ _ _ h => h).exact

/-- C190 (mcl-kzg), both the method and the trait function. -/
theorem C190_mcl [Mcl.Lib Fr] {scale m : Nat} {fs : FFTSettings Fr} (hfs : MadeSettings fs scale) (hm : m + 1 ≤ scale) :
    ExactDistance (Mcl.das fs) m ∧ ExactDistance (Mcl.dasTrait fs) m := by
  have h1 : ∀ evens odds : List Fr, evens.length = 2 ^ m → odds.length = 2 ^ m → fs.dasFftExtension evens = .ok odds →
      Mcl.das fs evens = .ok odds := fun evens odds hl _ h => by rw [Mcl.das_eq hfs.wf hm hl, h]
  refine ⟨(isCode_of hfs.wf hm h1).exact, (isCode_of hfs.wf hm fun evens odds hl hl' h => ?_).exact⟩
  rw [Mcl.dasTrait, h1 evens odds hl hl' h]; rfl

/-- C190 (Arkworks). -/
theorem C190_ark {scale m : Nat} {fs : FFTSettings Fr} (hfs : Ark.settingsNew scale = .ok fs) (hm : m + 1 ≤ scale) :
    ExactDistance (Ark.das fs) m := by
  have hwf := (Ark.made_of_new hfs).toWF
  refine (isCode_of hwf hm fun evens odds hl hol h => ?_).exact
  exact ark_das_eq (by rw [hl]; exact hwf.cast_ne (by omega)) h (by rw [hol, hl])

/-- C190 (zkcrypto). -/
theorem C190_zk {scale m : Nat} {fs : FFTSettings Zk.ScW} (hfs : FFTSettings.new scale = .ok fs) (hm : m + 1 ≤ scale) :
    ExactDistance (Zk.Top.dasFftExtension fs) m := by
  have hwf := wf_of_new hfs
  refine (isCode_of hwf hm fun evens odds hl hol h => ?_).exact
  exact zk_das_eq (by rw [hl]; exact hwf.cast_ne (by omega)) h (by rw [hol, hl])

/-- Four data, eight samples: those of `[1, 2, 3, 4]` and `[1, 2, 3, 5]` differ in at least five positions, although the data differ in
one; and there are data whose samples agree with those of `[1, 2, 3, 4]` exactly at the positions 1, 4 and 7. -/
example : ∃ fs : FFTSettings Fr, FFTSettings.new 3 = .ok fs ∧ ∃ u v, Samples fs.dasFftExtension [1, 2, 3, 4] u ∧
    Samples fs.dasFftExtension [1, 2, 3, 5] v ∧ 5 ≤ (differing 8 u v).card ∧
    ∃ b w, b.length = 4 ∧ Samples fs.dasFftExtension b w ∧ differing 8 u w = {0, 2, 3, 5, 6} := by
  obtain ⟨fs, hfs, -⟩ := new_spec (F := Fr) (k := 3) (by norm_num)
  obtain ⟨h1, h2, h3, -⟩ := C190_blst hfs (m := 2) (by norm_num)
  obtain ⟨u, hu, -⟩ := h1 [1, 2, 3, 4] rfl
  obtain ⟨v, hv, -⟩ := h1 [1, 2, 3, 5] rfl
  refine ⟨fs, hfs, u, v, hu, hv, h2 _ _ _ _ rfl rfl (fun e => ?_) hu hv, ?_⟩
  · have h45 : (4 : Fr) = 5 := by simpa using e
    have := fr_natCast_inj (a := 4) (b := 5) (by decide +kernel) (by decide +kernel) (by exact_mod_cast h45)
    norm_num at this
  · obtain ⟨b, w, hb, hw, e⟩ := h3 _ u rfl hu {1, 4, 7} (by decide) (by decide)
    exact ⟨b, w, hb, hw, e.trans (by decide)⟩

end Kzg.Props
