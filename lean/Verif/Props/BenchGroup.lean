import Verif.Props.BenchFr
import Verif.Props.ZkPairing
import Verif.Proofs.Mcl.Kzg
import Verif.Proofs.Ark.Kzg
/-!
# Property C184: the shared tests of points, linear combinations and pairings
-/

set_option linter.unusedSectionVars false

namespace Kzg.Props
open Kzg Kzg.Res Kzg.Bench Kzg.Zk Kzg.Iface Finset CurveConsts

section
variable {S E E' A A' : Type} [AddCommGroup A] [AddCommGroup A']

/-- What the tests of the first group need of a backend; products may be limited to some scalars. -/
structure G1Good (G : G1Trait S E) (Rep : E → A → Prop) (SRep : S → Fr → Prop) (g : A) (safe : Fr → Prop) : Prop where
  order : addOrderOf g = frModulus
  default : GivesPt Rep G.default 0
  identity : GivesPt Rep G.identity 0
  generator : GivesPt Rep G.generator g
  negativeGenerator : GivesPt Rep G.negativeGenerator (-g)
  addRight : AddRight Rep G.addOrDbl
  isInf : InfRight Rep G.isInf
  dbl : DblRight Rep G.dbl
  sub : SubRight Rep G.sub
  equals : EqualsRight Rep G.equals
  mul : ∀ e P s x, Rep e P → frModulus • P = 0 → SRep s x → safe x → GivesPt Rep (G.mul e s) (x.val • P)

/-- What the tests of the second group need of a backend. -/
structure G2Good (H : G2Trait S E) (Rep : E → A → Prop) (SRep : S → Fr → Prop) (g : A) : Prop where
  order : addOrderOf g = frModulus
  generator : GivesPt Rep H.generator g
  negativeGenerator : GivesPt Rep H.negativeGenerator (-g)
  addRight : AddRight Rep H.addOrDbl
  dbl : DblRight Rep H.dbl
  sub : SubRight Rep H.sub
  equals : EqualsRight Rep H.equals
  mul : MulRightOn Rep SRep H.mul

theorem order_smul {g : A} (h : addOrderOf g = frModulus) : frModulus • g = 0 := by rw [← h, addOrderOf_nsmul_eq_zero]

theorem val_smul_inj {g : A} (h : addOrderOf g = frModulus) {x y : Fr} : x.val • g = y.val • g ↔ x = y := by
  rw [nsmul_eq_nsmul_iff_modEq, h]
  constructor
  · intro h'
    have : x.val = y.val := Nat.ModEq.eq_of_lt_of_lt h' (ZMod.val_lt x) (ZMod.val_lt y)
    exact ZMod.val_injective _ this
  · rintro rfl; rfl

theorem neg_one_smul' {g : A} (h : addOrderOf g = frModulus) : (-1 : Fr).val • g = -g := by
  rw [eq_neg_iff_add_eq_zero, ← succ_nsmul, show (-1 : Fr).val + 1 = frModulus from by
    have : (-1 : Fr) = ((frModulus - 1 : Nat) : Fr) := by
      rw [Nat.cast_sub (by decide +kernel), ZMod.natCast_self]; simp
    rw [this, ZMod.val_cast_of_lt (by decide +kernel)]
    decide +kernel, order_smul h]

theorem neg_one_iff {n : Nat} (hn : n < frModulus) : ((n : Fr) = -1) ↔ n + 1 = frModulus := by
  rw [eq_neg_iff_add_eq_zero, ← Nat.cast_succ, ZMod.natCast_eq_zero_iff]
  refine ⟨fun h => ?_, fun h => dvd_of_eq h.symm⟩
  have := Nat.le_of_dvd (Nat.succ_pos _) h
  omega

variable {T : FrTrait S} {G : G1Trait S E} {H : G2Trait S E'} {Rep : E → A → Prop} {Rep' : E' → A' → Prop} {SRep : S → Fr → Prop} {g : A}
  {g' : A'} {safe : Fr → Prop}

theorem equals_passIf {eq : E → E → Res Bool} (he : EqualsRight Rep eq) {a b : E} {P Q : A} (ha : Rep a P) (hb : Rep b Q) {c : Prop}
    [Decidable c] (hc : P = Q ↔ c) : (do
      let b ← eq a b
      assertT b) = passIf c := by
  obtain ⟨t, ht, h⟩ := he a P b Q ha hb
  rw [ht, bind_ok]
  cases t with
  | true => rw [passIf_true (hc.1 (h.1 rfl))]; rfl
  | false => rw [passIf_false (fun h' => by have := h.2 (hc.2 h'); cases this)]; rfl

theorem p1MulT_eq (hT : FrGood T SRep) (hG : G1Good G Rep SRep g safe) {u : List Nat} (hu : Words4 u) (lu : wordsVal u < frModulus)
    (hs : safe (wordsVal u : Fr)) : p1MulT T G u = passIf (wordsVal u + 1 = frModulus) := by
  obtain ⟨a, ha, ha'⟩ := hT.fromWords u hu lu
  obtain ⟨e, he, he'⟩ := hG.generator
  obtain ⟨n, hn, hn'⟩ := hG.negativeGenerator
  obtain ⟨p, hp, hp'⟩ := hG.mul e _ a _ he' (order_smul hG.order) ha' hs
  rw [p1MulT, ha, bind_ok, he, bind_ok, hp, bind_ok, hn, bind_ok]
  refine equals_passIf hG.equals hp' hn' ?_
  rw [← neg_one_smul' hG.order, val_smul_inj hG.order, neg_one_iff lu]

theorem p2MulT_eq (hT : FrGood T SRep) (hH : G2Good H Rep' SRep g') {u : List Nat} (hu : Words4 u) (lu : wordsVal u < frModulus) :
    p2MulT T H u = passIf (wordsVal u + 1 = frModulus) := by
  obtain ⟨a, ha, ha'⟩ := hT.fromWords u hu lu
  obtain ⟨e, he, he'⟩ := hH.generator
  obtain ⟨n, hn, hn'⟩ := hH.negativeGenerator
  obtain ⟨p, hp, hp'⟩ := hH.mul e _ a _ he' (order_smul hH.order) ha'
  rw [p2MulT, ha, bind_ok, he, bind_ok, hp, bind_ok, hn, bind_ok]
  refine equals_passIf hH.equals hp' hn' ?_
  rw [← neg_one_smul' hH.order, val_smul_inj hH.order, neg_one_iff lu]

theorem equals_ok {eq : E → E → Res Bool} (he : EqualsRight Rep eq) {a b : E} {P : A} (ha : Rep a P) (hb : Rep b P) : (do
      let b ← eq a b
      assertT b) = .ok () := by
  rw [equals_passIf he ha hb (c := True) (by simp)]; rfl

theorem g1Tests_ok (hG : G1Good G Rep SRep g safe) : p1SubT G = .ok () ∧ g1InfT G = .ok () ∧ g1IdT G = .ok () := by
  obtain ⟨e, he, he'⟩ := hG.generator
  obtain ⟨n, hn, hn'⟩ := hG.negativeGenerator
  obtain ⟨i, hi, hi'⟩ := hG.identity
  refine ⟨?_, ?_, ?_⟩
  · obtain ⟨d, hd, hd'⟩ := hG.dbl e _ he'
    obtain ⟨s, hs, hs'⟩ := hG.sub e _ n _ he' hn'
    rw [sub_neg_eq_add] at hs'
    simp only [p1SubT, he, bind_ok, hd, hn, hs]
    exact equals_ok hG.equals hd' hs'
  · obtain ⟨b, hb, hb'⟩ := hG.isInf i _ hi'
    rw [g1InfT, hi, bind_ok, hb, bind_ok, hb'.2 rfl]
    rfl
  · obtain ⟨s, r, hr, hr'⟩ := hG.addRight e _ i _ he' hi'
    rw [add_zero] at hr'
    simp only [g1IdT, he, bind_ok, hi, hr]
    exact equals_ok hG.equals hr' he'

theorem g2Tests_ok (hH : G2Good H Rep' SRep g') : p2AddT H = .ok () ∧ p2SubT H = .ok () := by
  obtain ⟨e, he, he'⟩ := hH.generator
  obtain ⟨n, hn, hn'⟩ := hH.negativeGenerator
  obtain ⟨d, hd, hd'⟩ := hH.dbl e _ he'
  refine ⟨?_, ?_⟩
  · obtain ⟨s, r, hr, hr'⟩ := hH.addRight e _ e _ he' he'
    simp only [p2AddT, he, bind_ok, hd, hr]
    exact equals_ok hH.equals hd' hr'
  · obtain ⟨s, hs, hs'⟩ := hH.sub e _ n _ he' hn'
    rw [sub_neg_eq_add] at hs'
    simp only [p2SubT, he, bind_ok, hd, hn, hs]
    exact equals_ok hH.equals hd' hs'

/-! ### Linear combinations -/

/-- The function computes the linear combination of as many points, none the identity, as coefficients. -/
def LinCombRight (lc : List E → List S → Nat → Res E) (Rep : E → A → Prop) (SRep : S → Fr → Prop) : Prop :=
  ∀ (p : List E) (coeffs : List S) (len : Nat) (P : Nat → A) (x : Nat → Fr), p.length = len → coeffs.length = len →
    (∀ i < len, ∃ e, p[i]? = some e ∧ Rep e (P i)) → (∀ i < len, ∃ c, coeffs[i]? = some c ∧ SRep c (x i)) →
    (∀ i < len, P i ≠ 0) → (∀ i < len, frModulus • P i = 0) →
    GivesPt Rep (lc p coeffs len) (∑ i ∈ range len, (x i).val • P i)

theorem ne_zero_of_order {g : A} (h : addOrderOf g = frModulus) : g ≠ 0 := by
  rintro rfl
  rw [addOrderOf_zero] at h
  exact absurd h (by decide +kernel)

theorem sum_succ (n : Nat) : ∑ i ∈ range n, (i + 1) = n * (n + 1) / 2 := by
  have h : (∑ i ∈ range n, (i + 1)) * 2 = n * (n + 1) := by
    induction n with
    | zero => simp
    | succ n ih => rw [sum_range_succ, add_mul, ih]; ring
  omega

theorem makeLinCombT_ok (hT : FrGood T SRep) (hG : G1Good G Rep SRep g safe) {lc : List E → List S → Nat → Res E}
    (hl : LinCombRight lc Rep SRep) {len : Nat} (hn : len < 2 ^ 32) (hs : safe ((len * (len + 1) / 2 : Nat) : Fr)) :
    makeLinCombT T G lc len = .ok () := by
  have hb : len * (len + 1) / 2 < 2 ^ 64 := by
    have : len * (len + 1) < 2 ^ 32 * 2 ^ 32 := by
      have h1 : len + 1 ≤ 2 ^ 32 := hn
      calc len * (len + 1) ≤ len * 2 ^ 32 := Nat.mul_le_mul_left _ h1
        _ < 2 ^ 32 * 2 ^ 32 := (Nat.mul_lt_mul_right (by norm_num)).2 hn
    have e : (2 : Nat) ^ 32 * 2 ^ 32 = 2 ^ 64 := by norm_num
    omega
  obtain ⟨d, hd, -⟩ := hT.consts.1
  obtain ⟨e, he, -⟩ := hG.default
  obtain ⟨q, hq, hq'⟩ := hG.generator
  obtain ⟨t, ht, ht'⟩ := hT.fromU64 _ hb
  obtain ⟨m, hm, hm'⟩ := hG.mul q _ t _ hq' (order_smul hG.order) ht' hs
  obtain ⟨⟨cs, ps⟩, hr, hc1, hp1, hc2, hp2⟩ := forRange_inv (lo := 0) (hi := len) (s := (List.replicate len d, List.replicate len e))
    (body := fun i s => do
      let c ← T.fromU64 (i + 1)
      let coeffs ← wr s.1 i c
      let g ← G.generator
      let p ← wr s.2 i g
      .ok (coeffs, p))
    (fun i s => s.1.length = len ∧ s.2.length = len ∧ (∀ j < i, ∃ c, s.1[j]? = some c ∧ SRep c ((j + 1 : Nat) : Fr)) ∧
      ∀ j < i, s.2[j]? = some q) (by omega) (by simp) (by
      rintro i ⟨cs, ps⟩ _ hi ⟨h1, h2, h3, h4⟩
      obtain ⟨c, hc, hc'⟩ := hT.fromU64 (i + 1) (by omega)
      simp only at h1 h2 h3 h4
      simp only [hc, bind_ok, hq]
      rw [wr_of_lt (by omega), bind_ok, wr_of_lt (by omega), bind_ok]
      refine Sat.ok ⟨by simpa using h1, by simpa using h2, fun j hj => ?_, fun j hj => ?_⟩
      · simp only
        rw [List.getElem?_set]
        by_cases hij : i = j
        · subst hij; exact ⟨c, by rw [if_pos rfl, if_pos (by omega)], hc'⟩
        · rw [if_neg hij]; exact h3 j (by omega)
      · simp only
        rw [List.getElem?_set]
        by_cases hij : i = j
        · subst hij; rw [if_pos rfl, if_pos (by omega)]
        · rw [if_neg hij]; exact h4 j (by omega))
  simp only at hc1 hp1 hc2 hp2
  obtain ⟨r, hlc, hr'⟩ := hl ps cs len (fun _ => g) (fun i => ((i + 1 : Nat) : Fr)) hp1 hc1 (fun i hi => ⟨q, hp2 i hi, hq'⟩) hc2
    (fun _ _ => ne_zero_of_order hG.order) (fun _ _ => order_smul hG.order)
  have hsum : ∑ i ∈ range len, ((i + 1 : Nat) : Fr).val • g = ((len * (len + 1) / 2 : Nat) : Fr).val • g := by
    have hM : (2 : Nat) ^ 64 < frModulus := by decide +kernel
    rw [ZMod.val_cast_of_lt (by omega), ← sum_succ, Finset.sum_smul]
    refine Finset.sum_congr rfl fun i hi => ?_
    rw [ZMod.val_cast_of_lt (by have := Finset.mem_range.1 hi; omega)]
  rw [hsum] at hr'
  rw [makeLinCombT, hd, bind_ok, he, bind_ok, hr, bind_ok]
  simp only [ht, bind_ok, hq, hm, hlc]
  exact equals_ok hG.equals hm' hr'

theorem randomLinCombT_ok (hT : FrGood T SRep) (hG : G1Good G Rep SRep g safe) {lc : List E → List S → Nat → Res E}
    (hl : LinCombRight lc Rep SRep) {len : Nat} {rand : Nat → Res S} {x : Nat → Fr} (hr : ∀ i < len, Gives SRep (rand i) (x i))
    (hs : ∀ i < len, safe (x i)) : randomLinCombT T G lc len rand = .ok () := by
  obtain ⟨d, hd, -⟩ := hT.consts.1
  obtain ⟨e, he, -⟩ := hG.default
  obtain ⟨q, hq, hq'⟩ := hG.generator
  obtain ⟨z, hz, hz'⟩ := hG.identity
  obtain ⟨⟨cs, ps, t⟩, hloop, hc1, hp1, hc2, hp2, -⟩ := forRange_inv (lo := 0) (hi := len)
    (s := (List.replicate len d, List.replicate len e, q))
    (body := fun i s => do
      let c ← rand i
      let coeffs ← wr s.1 i c
      let p ← wr s.2.1 i s.2.2
      let t ← G.dbl s.2.2
      .ok (coeffs, p, t))
    (fun i s => s.1.length = len ∧ s.2.1.length = len ∧ (∀ j < i, ∃ c, s.1[j]? = some c ∧ SRep c (x j)) ∧
      (∀ j < i, ∃ p, s.2.1[j]? = some p ∧ Rep p (2 ^ j • g)) ∧ Rep s.2.2 (2 ^ i • g)) (by omega) (by simpa using hq') (by
      rintro i ⟨cs, ps, t⟩ _ hi ⟨h1, h2, h3, h4, h5⟩
      obtain ⟨c, hc, hc'⟩ := hr i hi
      simp only at h1 h2 h3 h4 h5
      obtain ⟨w, hw, hw'⟩ := hG.dbl t _ h5
      simp only [hc, bind_ok]
      rw [wr_of_lt (by omega), bind_ok, wr_of_lt (by omega), bind_ok, hw, bind_ok]
      refine Sat.ok ⟨by simpa using h1, by simpa using h2, fun j hj => ?_, fun j hj => ?_, ?_⟩
      · simp only
        rw [List.getElem?_set]
        by_cases hij : i = j
        · subst hij; exact ⟨c, by rw [if_pos rfl, if_pos (by omega)], hc'⟩
        · rw [if_neg hij]; exact h3 j (by omega)
      · simp only
        rw [List.getElem?_set]
        by_cases hij : i = j
        · subst hij; exact ⟨t, by rw [if_pos rfl, if_pos (by omega)], h5⟩
        · rw [if_neg hij]; exact h4 j (by omega)
      · simp only
        rw [pow_succ, mul_comm, mul_nsmul', two_nsmul]; exact hw')
  simp only at hc1 hp1 hc2 hp2
  have hord : ∀ i : Nat, frModulus • (2 ^ i • g) = 0 := fun i => by
    rw [← mul_nsmul', mul_comm, mul_nsmul', order_smul hG.order, nsmul_zero]
  obtain ⟨w, hw, hw'⟩ := forRange_inv (lo := 0) (hi := len) (s := z)
    (body := fun i exp => do
      let x ← rd ps i
      let c ← rd cs i
      let p1tmp ← G.mul x c
      let (_, r) ← G.addOrDbl exp p1tmp
      .ok r) (fun i s => Rep s (∑ j ∈ range i, (x j).val • 2 ^ j • g)) (by omega) (by simpa using hz') (by
      intro i s _ hi h
      obtain ⟨p, hp, hp'⟩ := hp2 i hi
      obtain ⟨c, hc, hc'⟩ := hc2 i hi
      obtain ⟨m, hm, hm'⟩ := hG.mul p _ c _ hp' (hord i) hc' (hs i hi)
      obtain ⟨a, r, hr, hr'⟩ := hG.addRight s _ m _ h hm'
      rw [rd_of_getElem? hp, bind_ok, rd_of_getElem? hc, bind_ok, hm, bind_ok, hr, bind_ok]
      refine Sat.ok ?_
      rw [sum_range_succ]
      exact hr')
  obtain ⟨r, hlc, hr'⟩ := hl ps cs len (fun i => 2 ^ i • g) x hp1 hc1 hp2 hc2 (fun i _ h0 => by
      have h1 := addOrderOf_dvd_of_nsmul_eq_zero h0
      rw [hG.order] at h1
      have h2 : frModulus ∣ 2 := (Fact.out : frModulus.Prime).dvd_of_dvd_pow h1
      exact absurd (Nat.le_of_dvd (by norm_num) h2) (by decide +kernel)) (fun i _ => hord i)
  rw [randomLinCombT, hd, bind_ok, he, bind_ok, hq, bind_ok, hloop, bind_ok]
  simp only [hz, bind_ok, hw, hlc]
  exact equals_ok hG.equals hw' hr'

/-! ### Pairings -/

/-- The function compares the pairings of multiples of the generators. -/
def Verifies (verify : E → E' → E → E' → Res Bool) (Rep : E → A → Prop) (Rep' : E' → A' → Prop) (g : A) (g' : A') (ok : Fr → Prop) : Prop :=
  ∀ a1 a2 b1 b2 (x y z w : Fr), ok y → ok w → Rep a1 (x.val • g) → Rep' a2 (y.val • g') → Rep b1 (z.val • g) → Rep' b2 (w.val • g') →
    verify a1 a2 b1 b2 = .ok (decide (x * y = z * w))

theorem square_inj {v w : Nat} (hv : v < 2 ^ 64) (hw : w < 2 ^ 64) : ((v : Fr) * v = w * w) ↔ v = w := by
  have hM : (2 : Nat) ^ 128 < frModulus := by decide +kernel
  have hv2 : v * v < 2 ^ 128 := by
    calc v * v < 2 ^ 64 * 2 ^ 64 := Nat.mul_lt_mul'' hv hv
      _ = 2 ^ 128 := by norm_num
  have hw2 : w * w < 2 ^ 128 := by
    calc w * w < 2 ^ 64 * 2 ^ 64 := Nat.mul_lt_mul'' hw hw
      _ = 2 ^ 128 := by norm_num
  rw [← Nat.cast_mul, ← Nat.cast_mul, natCast_fr_inj (by omega) (by omega)]
  exact Nat.mul_self_inj

theorem pairingsT_eq (hT : FrGood T SRep) (hG : G1Good G Rep SRep g safe) (hH : G2Good H Rep' SRep g')
    {verify : E → E' → E → E' → Res Bool} {ok : Fr → Prop} (hV : Verifies verify Rep Rep' g g' ok) {v w : Nat} (hv : v < 2 ^ 64)
    (hw : w < 2 ^ 64) (sv : safe (v : Fr)) (sw : safe (w : Fr)) (ov : ok (v : Fr)) (ow : ok (w : Fr)) :
    pairingsT T G H verify v w = passIf (v ≠ w) := by
  obtain ⟨a, ha, ha'⟩ := hT.fromU64 v hv
  obtain ⟨b, hb, hb'⟩ := hT.fromU64 w hw
  obtain ⟨e, he, he'⟩ := hG.generator
  obtain ⟨f, hf, hf'⟩ := hH.generator
  obtain ⟨p, hp, hp'⟩ := hG.mul e _ a _ he' (order_smul hG.order) ha' sv
  obtain ⟨q, hq, hq'⟩ := hG.mul e _ b _ he' (order_smul hG.order) hb' sw
  obtain ⟨r, hr, hr'⟩ := hH.mul f _ a _ hf' (order_smul hH.order) ha'
  obtain ⟨s, hs, hs'⟩ := hH.mul f _ b _ hf' (order_smul hH.order) hb'
  have h1 := hV p s q r _ _ _ _ ow ov hp' hs' hq' hr'
  have h2 := hV p r q s _ _ _ _ ov ow hp' hr' hq' hs'
  simp only [pairingsT, ha, hb, he, hf, hp, hq, hr, hs, h1, h2, bind_ok, square_inj hv hw, mul_comm (w : Fr) v]
  by_cases h : v = w <;> simp [assertT, passIf, h]

end

/-! ### The backends -/

section
variable {A A' GT : Type} [AddCommGroup A] [Module Fr A] [DecidableEq A] [AddCommGroup A'] [Module Fr A'] [DecidableEq A']
  [CommGroup GT] [DecidableEq GT]

theorem module_order {g : A} (h : g ≠ 0) : addOrderOf g = frModulus := by
  rcases (Nat.dvd_prime (Fact.out : frModulus.Prime)).1 (addOrderOf_dvd_of_nsmul_eq_zero (prime_order_all g)) with h' | h'
  · exact absurd (AddMonoid.addOrderOf_eq_one_iff.1 h') h
  · exact h'

theorem blst_g1Good {g : A} (h : g ≠ 0) : G1Good (blstG1 g) (Eq : A → A → Prop) (Eq : Fr → Fr → Prop) g (fun _ => True) := by
  have H := (C145_blst g).1
  exact ⟨module_order h, H.default, H.identity, H.generator, H.negativeGenerator, H.addRight, H.isInf, H.dbl, H.sub, H.equals,
    fun e P s x h1 h2 h3 _ => H.mul e P s x h1 h2 h3⟩

theorem blst_g2Good {g : A} (h : g ≠ 0) : G2Good (blstG2 g) (Eq : A → A → Prop) (Eq : Fr → Fr → Prop) g := by
  have H := (C145_blst g).2
  exact ⟨module_order h, H.generator, H.negativeGenerator, H.addRight, H.dbl, H.sub, H.equals, H.mul⟩

theorem mcl_g1Good {g : A} (h : g ≠ 0) : G1Good (mclG1 g) (Eq : A → A → Prop) (Eq : Fr → Fr → Prop) g (fun _ => True) := by
  have H := (C145_mcl g).1
  exact ⟨module_order h, H.default, H.identity, H.generator, H.negativeGenerator, H.addRight, H.isInf, H.dbl, H.sub, H.equals,
    fun e P s x h1 h2 h3 _ => H.mul e P s x h1 h2 h3⟩

theorem mcl_g2Good {g : A} (h : g ≠ 0) : G2Good (mclG2 g) (Eq : A → A → Prop) (Eq : Fr → Fr → Prop) g := by
  have H := (C145_mcl g).2
  exact ⟨module_order h, H.generator, H.negativeGenerator, H.addRight, H.dbl, H.sub, H.equals, H.mul⟩

end

theorem minus_one_safe : ¬ RoundingOverflows (frModulus - 1) := by
  unfold RoundingOverflows
  decide +kernel

theorem p1MulT_panic {S E : Type} {T : FrTrait S} {G : G1Trait S E} {u : List Nat} {s : S} {e : E} (hs : T.fromU64Arr u = .ok s)
    (he : G.generator = .ok e) (hp : G.mul e s = .panic) : p1MulT T G u = .panic := by
  rw [p1MulT, hs, bind_ok, he, bind_ok, hp]; rfl

theorem zk_g1Good (chk : Bool) : G1Good (zkG1 chk) (Projective.Is (b (K := FpW))) Scalar.Rep G1.gen (fun x => ¬ RoundingOverflows x.val) := by
  obtain ⟨h1, h2, h3, h4, h5, _, h7, h8, h9, h10, h11⟩ := C143_g1_contract_partial chk
  exact ⟨C56_generator.2.2, h1, h2, h3, h4, h5, h7, h8, h9, h10, h11⟩

theorem zk_g2Good : G2Good zkG2 (Projective.Is (b (K := Fp2 FpW))) Scalar.Rep G2.gen := by
  have H := C143_g2_contract
  exact ⟨C79_generator.2.2, H.generator, H.negativeGenerator, H.addRight, H.dbl, H.sub, H.equals, H.mul⟩

section
variable {K : Type} [Field K] [DecidableEq K] {c : K}

/-- What is asked of ark-ec and of the comparison of the crate blst, with the two constants of the source. -/
structure ArkSound (c : K) (L : ArkCurve K) (g n : Jac K) (P : (curve c).Point) : Prop where
  lawful : ArkLawful c L
  beq : ∀ p q P Q, JacIs c p P → JacIs c q Q → (L.beq p q = true ↔ P = Q)
  gen : JacIs c g P
  neg : JacIs c n (-P)
  order : addOrderOf P = frModulus

theorem ark_g1Good {L : ArkCurve K} {g n : Jac K} {P : (curve c).Point} (h : ArkSound c L g n P) :
    G1Good (arkG1 L g n) (JacIs c) (Eq : Fr → Fr → Prop) P (fun _ => True) := by
  obtain ⟨⟨h1, h2, h3, h4, h5, h6, h7, h8, h9⟩, -⟩ := C144_values_partial h.lawful h.gen h.neg
  exact ⟨h.order, h1, h2, h3, h4, h5, h6, h7, h8, (C144_equals_points_partial h.beq g n).1, fun e P s x a b c _ => h9 e P s x a b c⟩

theorem ark_g2Good {L : ArkCurve K} {g n : Jac K} {P : (curve c).Point} (h : ArkSound c L g n P) :
    G2Good (arkG2 L g n) (JacIs c) (Eq : Fr → Fr → Prop) P := by
  obtain ⟨-, h3, h4, h5, h7, h8, h9⟩ := C144_values_partial h.lawful h.gen h.neg
  exact ⟨h.order, h3, h4, h5, h7, h8, (C144_equals_points_partial h.beq g n).2, h9⟩

theorem ark_linCombRight {L : ArkCurve K} (hL : ArkLawful c L) (g n : Jac K) :
    LinCombRight (arkLinComb L g n) (JacIs c) (Eq : Fr → Fr → Prop) := by
  intro p coeffs len P x hp hc hpv hcv _ _
  obtain ⟨r, hr, hr'⟩ := forRange_inv (lo := 0) (hi := len) (s := (⟨0, 0, 0⟩ : Jac K))
    (body := fun i out => do
      let x ← rd p i
      let c ← rd coeffs i
      let tmp ← (arkG1 L g n).mul x c
      let (_, r) ← (arkG1 L g n).addOrDbl out tmp
      .ok r) (fun i s => JacIs c s (∑ j ∈ range i, (x j).val • P j)) (by omega) (by rw [sum_range_zero]; exact Jacobian.infinity 0 0) (by
      intro i s _ hi h
      obtain ⟨e, he, he'⟩ := hpv i hi
      obtain ⟨k, hk, rfl⟩ := hcv i hi
      rw [rd_of_getElem? he, bind_ok, rd_of_getElem? hk, bind_ok]
      refine Sat.ok ?_
      rw [sum_range_succ]
      exact hL.add _ _ _ _ h (hL.mul e _ _ he'))
  exact ⟨r, hr, hr'⟩

end

section
variable {A A' GT : Type} [AddCommGroup A] [Module Fr A] [AddCommGroup A'] [Module Fr A'] [CommGroup GT] [DecidableEq GT]

theorem zipWith_points {p : List A} {coeffs : List Fr} {len : Nat} {P : Nat → A} {x : Nat → Fr} (hp : p.length = len)
    (hc : coeffs.length = len) (hpv : ∀ i < len, ∃ e, p[i]? = some e ∧ e = P i) (hcv : ∀ i < len, ∃ c, coeffs[i]? = some c ∧ c = x i) :
    (List.zipWith (fun P c => c • P) p coeffs).sum = ∑ i ∈ range len, (x i).val • P i := by
  have h : List.zipWith (fun P (c : Fr) => c • P) p coeffs = (List.range len).map fun i => x i • P i := by
    refine List.ext_getElem? fun i => ?_
    rw [List.getElem?_zipWith, List.getElem?_map]
    by_cases hi : i < len
    · obtain ⟨e, he, rfl⟩ := hpv i hi
      obtain ⟨k, hk, rfl⟩ := hcv i hi
      rw [he, hk, List.getElem?_range hi]
      rfl
    · rw [List.getElem?_eq_none (l := p) (by omega), List.getElem?_eq_none (l := coeffs) (by omega),
        List.getElem?_eq_none (l := List.range len) (by simp; omega)]
      rfl
  rw [h, Finset.sum_congr rfl (fun i _ => val_smul (x i) (P i))]
  rfl

theorem blst_linCombRight {B : Backend A A' GT} {g1 : A} {g2 : A'} (hB : B.Lawful g1 g2) :
    LinCombRight (g1LinearCombination B) (Eq : A → A → Prop) (Eq : Fr → Fr → Prop) := by
  intro p coeffs len P x hp hc hpv hcv h0 _
  refine ⟨_, ?_, rfl⟩
  rw [g1LinearCombination]
  split
  · rw [linCombDirect_spec p coeffs len (by omega) (by omega)]
    refine congrArg Res.ok (Finset.sum_congr rfl fun i hi => ?_)
    have hi := Finset.mem_range.1 hi
    obtain ⟨e, he, rfl⟩ := hpv i hi
    obtain ⟨k, hk, rfl⟩ := hcv i hi
    rw [val_smul, List.getD_eq_getElem?_getD, List.getD_eq_getElem?_getD, he, hk]
    rfl
  · rw [show sliceTo p len = .ok p by rw [sliceTo, if_pos (by omega), ← hp, List.take_length], bind_ok, pushLoop coeffs len (by omega), bind_ok]
    rw [show coeffs.take len = coeffs by rw [← hc, List.take_length]]
    rw [hB.msm p coeffs (by omega) ?_, zipWith_points hp hc hpv hcv]
    intro Q hQ
    obtain ⟨i, hi, rfl⟩ := List.mem_iff_getElem.1 hQ
    obtain ⟨e, he, h⟩ := hpv i (by omega)
    rw [List.getElem?_eq_getElem hi, Option.some.injEq] at he
    rw [he, h]
    exact h0 i (by omega)

theorem mcl_linCombRight {B : Mcl.Backend A A' GT} {g1 : A} {g2 : A'} (hB : B.Lawful g1 g2) :
    LinCombRight (mclLinComb B) (Eq : A → A → Prop) (Eq : Fr → Fr → Prop) := by
  intro p coeffs len P x hp hc hpv hcv _ _
  refine ⟨_, ?_, rfl⟩
  rw [mclLinComb, show sliceTo p len = .ok p by rw [sliceTo, if_pos (by omega), ← hp, List.take_length], bind_ok,
    show sliceTo coeffs len = .ok coeffs by rw [sliceTo, if_pos (by omega), ← hc, List.take_length], bind_ok,
    hB.mulVec p coeffs (by omega), zipWith_points hp hc hpv hcv]

theorem blst_verifies {B : Backend A A' GT} {g1 : A} {g2 : A'} (hB : B.Lawful g1 g2) :
    Verifies (fun a b c d => .ok (pairingsVerify B a b c d)) (Eq : A → A → Prop) (Eq : A' → A' → Prop) g1 g2
      (fun y => y ≠ 0 ∨ B.PairTotal) := by
  rintro a1 a2 b1 b2 x y z w hy hw rfl rfl rfl rfl
  obtain ⟨E, h1, h2, h3⟩ := hB.pair
  have h4 : ∀ s t : Fr, (t ≠ 0 ∨ B.PairTotal) → B.pairing (s • g1) (t • g2) = E (s * t) := by
    intro s t ht
    by_cases h : t = 0
    · rw [h, zero_smul, mul_zero, (h2 0).2 rfl]; exact (ht.resolve_left (fun k => k h)) _
    · exact h3 s t h
  refine congrArg Res.ok ?_
  simp only [val_smul]
  rw [pairingsVerify, ← neg_smul, h4 _ _ hy, h4 _ _ hw, ← h1]
  refine decide_eq_decide.2 ?_
  rw [h2, neg_mul, neg_add_eq_zero]

theorem mcl_verifies {B : Mcl.Backend A A' GT} {g1 : A} {g2 : A'} (hB : B.Lawful g1 g2) :
    Verifies (fun a b c d => .ok (Mcl.verifyPairing B a b c d)) (Eq : A → A → Prop) (Eq : A' → A' → Prop) g1 g2
      (fun _ => True) := by
  rintro a1 a2 b1 b2 x y z w - - rfl rfl rfl rfl
  obtain ⟨E, e, he, h1, h2, h3, h4⟩ := hB.pair
  refine congrArg Res.ok ?_
  simp only [val_smul]
  have hinv : (E (x * y))⁻¹ = E (-(x * y)) := by
    rw [inv_eq_iff_mul_eq_one, ← h1, h2]; ring
  rw [Mcl.verifyPairing, h3, h3, hinv, ← h1, h4]
  refine decide_eq_decide.2 ?_
  rw [h2, mul_eq_zero, or_iff_right he, neg_add_eq_zero]

theorem ark_verifies {P K K' : Type} [Field K] [DecidableEq K] [Field K'] [DecidableEq K'] {c : K} {c' : K'} {Q : (curve c).Point}
    {Q' : (curve c').Point} {B : Ark.Backend P A A' GT} {g1 : A} {g2 : A'} (hB : B.Lawful g1 g2) {v1 : Jac K → A} {v2 : Jac K' → A'}
    (h1 : ∀ e (n : Nat), JacIs c e (n • Q) → v1 e = (n : Fr) • g1) (h2 : ∀ e (n : Nat), JacIs c' e (n • Q') → v2 e = (n : Fr) • g2) :
    Verifies (fun a b d e => .ok (Ark.pairingsVerify B (v1 a) (v2 b) (v1 d) (v2 e))) (JacIs c) (JacIs c') Q Q' (fun _ => True) := by
  intro a1 a2 b1 b2 x y z w _ _ ha1 ha2 hb1 hb2
  obtain ⟨E, e1, e2, e3⟩ := hB.pair
  refine congrArg Res.ok ?_
  rw [h1 _ _ ha1, h1 _ _ hb1, h2 _ _ ha2, h2 _ _ hb2]
  simp only [ZMod.natCast_zmod_val]
  rw [Ark.pairingsVerify, ← neg_smul, e3, e3, ← e1]
  refine decide_eq_decide.2 ?_
  rw [e2, neg_mul, neg_add_eq_zero]

end

theorem zk_verifies : Verifies Pairing.pairingsVerify (Projective.Is (b (K := FpW))) (Projective.Is (b (K := Fp2 FpW))) G1.gen G2.gen
    (fun _ => True) := by
  intro a1 a2 b1 b2 x y z w _ _ ha1 ha2 hb1 hb2
  rw [C85_pairings_verify ha1 ha2 hb1 hb2]
  simp only [ZMod.natCast_zmod_val]

/-! ## C184 -/

section
variable [Mcl.Lib Fr] {A A' GT : Type} [AddCommGroup A] [Module Fr A] [DecidableEq A] [AddCommGroup A'] [Module Fr A'] [DecidableEq A']
  [CommGroup GT] [DecidableEq GT] {K K' : Type} [Field K] [DecidableEq K] [Field K'] [DecidableEq K'] {c : K} {c' : K'}
  {L : ArkCurve K} {L' : ArkCurve K'} {g n : Jac K} {h m : Jac K'} {P : (curve c).Point} {Q : (curve c').Point}

/-- C184 (points): the tests of difference, sum and identity pass in all four backends, in both groups. -/
theorem C184_points {g1 : A} {g2 : A'} (h1 : g1 ≠ 0) (h2 : g2 ≠ 0) (hL : ArkSound c L g n P) (hL' : ArkSound c' L' h m Q) (chk : Bool) :
    (p1SubT (blstG1 g1) = .ok () ∧ p1SubT (zkG1 chk) = .ok () ∧ p1SubT (mclG1 g1) = .ok () ∧ p1SubT (arkG1 L g n) = .ok ()) ∧
    (g1InfT (blstG1 g1) = .ok () ∧ g1InfT (zkG1 chk) = .ok () ∧ g1InfT (mclG1 g1) = .ok () ∧ g1InfT (arkG1 L g n) = .ok ()) ∧
    (g1IdT (blstG1 g1) = .ok () ∧ g1IdT (zkG1 chk) = .ok () ∧ g1IdT (mclG1 g1) = .ok () ∧ g1IdT (arkG1 L g n) = .ok ()) ∧
    (p2AddT (blstG2 g2) = .ok () ∧ p2AddT zkG2 = .ok () ∧ p2AddT (mclG2 g2) = .ok () ∧ p2AddT (arkG2 L' h m) = .ok ()) ∧
    (p2SubT (blstG2 g2) = .ok () ∧ p2SubT zkG2 = .ok () ∧ p2SubT (mclG2 g2) = .ok () ∧ p2SubT (arkG2 L' h m) = .ok ()) := by
  obtain ⟨b1, b2, b3⟩ := g1Tests_ok (blst_g1Good h1)
  obtain ⟨z1, z2, z3⟩ := g1Tests_ok (zk_g1Good chk)
  obtain ⟨m1, m2, m3⟩ := g1Tests_ok (mcl_g1Good h1)
  obtain ⟨a1, a2, a3⟩ := g1Tests_ok (ark_g1Good hL)
  obtain ⟨b4, b5⟩ := g2Tests_ok (blst_g2Good h2)
  obtain ⟨z4, z5⟩ := g2Tests_ok zk_g2Good
  obtain ⟨m4, m5⟩ := g2Tests_ok (mcl_g2Good h2)
  obtain ⟨a4, a5⟩ := g2Tests_ok (ark_g2Good hL')
  exact ⟨⟨b1, z1, m1, a1⟩, ⟨b2, z2, m2, a2⟩, ⟨b3, z3, m3, a3⟩, ⟨b4, z4, m4, a4⟩, ⟨b5, z5, m5, a5⟩⟩

/-- C184 (products, partial): with any words below the modulus, the tests of products pass exactly for the modulus less one, in all four
backends and both groups. Missing: the first group of zkcrypto without overflow checks, with a scalar whose rounding overflows (C54). -/
theorem C184_mul_partial {g1 : A} {g2 : A'} (h1 : g1 ≠ 0) (h2 : g2 ≠ 0) (hL : ArkSound c L g n P) (hL' : ArkSound c' L' h m Q) {u : List Nat}
    (hu : Words4 u) (lu : wordsVal u < frModulus) :
    (p1MulT Iface.blst (blstG1 g1) u = passIf (wordsVal u + 1 = frModulus) ∧
      p1MulT Iface.zk (zkG1 true) u = passIf (wordsVal u + 1 = frModulus) ∧
      (¬ RoundingOverflows (wordsVal u) → p1MulT Iface.zk (zkG1 false) u = passIf (wordsVal u + 1 = frModulus)) ∧
      p1MulT Iface.mcl (mclG1 g1) u = passIf (wordsVal u + 1 = frModulus) ∧
      p1MulT Iface.ark (arkG1 L g n) u = passIf (wordsVal u + 1 = frModulus)) ∧
    (p2MulT Iface.blst (blstG2 g2) u = passIf (wordsVal u + 1 = frModulus) ∧
      p2MulT Iface.zk zkG2 u = passIf (wordsVal u + 1 = frModulus) ∧
      p2MulT Iface.mcl (mclG2 g2) u = passIf (wordsVal u + 1 = frModulus) ∧
      p2MulT Iface.ark (arkG2 L' h m) u = passIf (wordsVal u + 1 = frModulus)) := by
  have hsafe : ∀ chk, ¬ RoundingOverflows (wordsVal u) → p1MulT Iface.zk (zkG1 chk) u = passIf (wordsVal u + 1 = frModulus) := by
    intro chk hr
    exact p1MulT_eq zk_frGood (zk_g1Good chk) hu lu (by rwa [ZMod.val_cast_of_lt lu])
  refine ⟨⟨p1MulT_eq blst_frGood (blst_g1Good h1) hu lu trivial, ?_, hsafe false, p1MulT_eq mcl_frGood (mcl_g1Good h1) hu lu trivial,
    p1MulT_eq ark_frGood (ark_g1Good hL) hu lu trivial⟩, p2MulT_eq blst_frGood (blst_g2Good h2) hu lu, p2MulT_eq zk_frGood zk_g2Good hu lu,
    p2MulT_eq mcl_frGood (mcl_g2Good h2) hu lu, p2MulT_eq ark_frGood (ark_g2Good hL') hu lu⟩
  by_cases hr : RoundingOverflows (wordsVal u)
  · rw [passIf_false]
    · obtain ⟨s, hs, hs'⟩ := zk_frGood.fromWords u hu lu
      have e2 : (Iface.zkG1 true).mul G1.generatorProj s = .panic :=
        (C54_debug_panics C56_generator.2.1 hs').2 (by rwa [ZMod.val_cast_of_lt lu])
      exact p1MulT_panic hs rfl e2
    · intro h'
      have : wordsVal u = frModulus - 1 := by omega
      rw [this] at hr
      exact minus_one_safe hr
  · exact hsafe true hr

/-- C184 (linear combinations): both tests pass in the three backends that run them, for every length (the first for lengths of 32 bits, whose
sum fits a word) and all coefficients that are drawn. -/
theorem C184_linear_combinations {B : Backend A A' GT} {M : Mcl.Backend A A' GT} {g1 : A} {g2 : A'} (hB : B.Lawful g1 g2) (hM : M.Lawful g1 g2)
    (hL : ArkSound c L g n P) (len : Nat) (x : Nat → Fr) :
    (len < 2 ^ 32 → makeLinCombT Iface.blst (blstG1 g1) (g1LinearCombination B) len = .ok () ∧
      makeLinCombT Iface.mcl (mclG1 g1) (mclLinComb M) len = .ok () ∧
      makeLinCombT Iface.ark (arkG1 L g n) (arkLinComb L g n) len = .ok ()) ∧
    randomLinCombT Iface.blst (blstG1 g1) (g1LinearCombination B) len (fun i => .ok (x i)) = .ok () ∧
    randomLinCombT Iface.mcl (mclG1 g1) (mclLinComb M) len (fun i => .ok (x i)) = .ok () ∧
    randomLinCombT Iface.ark (arkG1 L g n) (arkLinComb L g n) len (fun i => .ok (x i)) = .ok () :=
  ⟨fun hl => ⟨makeLinCombT_ok blst_frGood (blst_g1Good hB.ne) (blst_linCombRight hB) hl trivial,
    makeLinCombT_ok mcl_frGood (mcl_g1Good hM.ne) (mcl_linCombRight hM) hl trivial,
    makeLinCombT_ok ark_frGood (ark_g1Good hL) (ark_linCombRight hL.lawful g n) hl trivial⟩,
    randomLinCombT_ok blst_frGood (blst_g1Good hB.ne) (blst_linCombRight hB) (x := x) (fun _ _ => ⟨_, rfl, rfl⟩) (fun _ _ => trivial),
    randomLinCombT_ok mcl_frGood (mcl_g1Good hM.ne) (mcl_linCombRight hM) (x := x) (fun _ _ => ⟨_, rfl, rfl⟩) (fun _ _ => trivial),
    randomLinCombT_ok ark_frGood (ark_g1Good hL) (ark_linCombRight hL.lawful g n) (x := x) (fun _ _ => ⟨_, rfl, rfl⟩) (fun _ _ => trivial)⟩

/-- C184 (pairings, blst-from-scratch): with any two factors but zero, the test passes exactly when they differ. -/
theorem C184_pairings_blst {B : Backend A A' GT} {g1 : A} {g2 : A'} (hB : B.Lawful g1 g2) (h2 : g2 ≠ 0) {v w : Nat} (hv : v < 2 ^ 64)
    (hw : w < 2 ^ 64) (h0 : (v ≠ 0 ∧ w ≠ 0) ∨ B.PairTotal) :
    pairingsT Iface.blst (blstG1 g1) (blstG2 g2) (fun a b c d => .ok (pairingsVerify B a b c d)) v w = passIf (v ≠ w) := by
  have hne : ∀ a : Nat, a < 2 ^ 64 → a ≠ 0 → (a : Fr) ≠ 0 := by
    intro a ha h0 h'
    have hm : a < frModulus := lt_trans ha (by decide +kernel)
    exact h0 (Nat.eq_zero_of_dvd_of_lt ((ZMod.natCast_eq_zero_iff _ _).1 h') hm)
  exact pairingsT_eq blst_frGood (blst_g1Good hB.ne) (blst_g2Good h2) (blst_verifies hB) hv hw trivial trivial
    (h0.imp (fun h => hne v hv h.1) id) (h0.imp (fun h => hne w hw h.2) id)

/-- C184 (pairings, the other backends): the same for all factors, zero included. In Arkworks `v1` and `v2` are the group elements that
the coordinates stand for. -/
theorem C184_pairings {M : Mcl.Backend A A' GT} {X : Type} {B : Ark.Backend X A A' GT} {g1 : A} {g2 : A'} (hM : M.Lawful g1 g2) (h2 : g2 ≠ 0)
    (hB : B.Lawful g1 g2) (hL : ArkSound c L g n P) (hL' : ArkSound c' L' h m Q) {v1 : Jac K → A} {v2 : Jac K' → A'}
    (hv1 : ∀ e (k : Nat), JacIs c e (k • P) → v1 e = (k : Fr) • g1) (hv2 : ∀ e (k : Nat), JacIs c' e (k • Q) → v2 e = (k : Fr) • g2)
    (chk : Bool) {v w : Nat} (hv : v < 2 ^ 64) (hw : w < 2 ^ 64) :
    pairingsT Iface.zk (zkG1 chk) zkG2 Pairing.pairingsVerify v w = passIf (v ≠ w) ∧
    pairingsT Iface.mcl (mclG1 g1) (mclG2 g2) (fun a b c d => .ok (Mcl.verifyPairing M a b c d)) v w = passIf (v ≠ w) ∧
    pairingsT Iface.ark (arkG1 L g n) (arkG2 L' h m) (fun a b d e => .ok (Ark.pairingsVerify B (v1 a) (v2 b) (v1 d) (v2 e))) v w =
      passIf (v ≠ w) := by
  have hsmall : ∀ a : Nat, a < 2 ^ 64 → ¬ RoundingOverflows (a : Fr).val := by
    intro a ha
    rw [ZMod.val_natCast]
    exact C54_small_scalars (lt_of_le_of_lt (Nat.mod_le _ _) (lt_trans ha (by norm_num)))
  exact ⟨pairingsT_eq zk_frGood (zk_g1Good chk) zk_g2Good zk_verifies hv hw (hsmall v hv) (hsmall w hw) trivial trivial,
    pairingsT_eq mcl_frGood (mcl_g1Good hM.ne) (mcl_g2Good h2) (mcl_verifies hM) hv hw trivial trivial trivial trivial,
    pairingsT_eq ark_frGood (ark_g1Good hL) (ark_g2Good hL') (ark_verifies hB hv1 hv2) hv hw trivial trivial trivial trivial⟩

end

/-- The values of the test, on the curve of zkcrypto. -/
example (chk : Bool) : pairingsT Iface.zk (zkG1 chk) zkG2 Pairing.pairingsVerify 3 5 = .ok () ∧
    pairingsT Iface.zk (zkG1 chk) zkG2 Pairing.pairingsVerify 4 4 = .panic := by
  have hs : ∀ a : Nat, a < 2 ^ 64 → ¬ RoundingOverflows (a : Fr).val := by
    intro a ha
    rw [ZMod.val_natCast]
    exact C54_small_scalars (lt_of_le_of_lt (Nat.mod_le _ _) (lt_trans ha (by norm_num)))
  constructor
  · rw [pairingsT_eq zk_frGood (zk_g1Good chk) zk_g2Good zk_verifies (by norm_num) (by norm_num) (hs 3 (by norm_num)) (hs 5 (by norm_num))
      trivial trivial]
    exact passIf_true (by norm_num)
  · rw [pairingsT_eq zk_frGood (zk_g1Good chk) zk_g2Good zk_verifies (by norm_num) (by norm_num) (hs 4 (by norm_num)) (hs 4 (by norm_num))
      trivial trivial]
    exact passIf_false (by norm_num)

/-- The words of the test, in the second group of zkcrypto. -/
example : p2MulT Iface.zk zkG2 [0xffffffff00000000, 0x53bda402fffe5bfe, 0x3339d80809a1d805, 0x73eda753299d7d48] = .ok () := by
  rw [p2MulT_eq zk_frGood zk_g2Good ⟨rfl, by simp⟩ (by decide +kernel)]
  exact passIf_true (by decide +kernel)

/-- Sound curves exist for Arkworks: choose coordinates, and compare the points. -/
theorem arkSound_exists : ∃ (L : ArkCurve FpW) (g n : Jac FpW), ArkSound (b (K := FpW)) L g n G1.gen := by
  classical
  obtain ⟨L, hL⟩ := arkLawful_exists (b (K := FpW))
  obtain ⟨g, n, -, -, hg, hn⟩ := C144_constants
  refine ⟨{ L with beq := fun p q => decide (∃ P, JacIs b p P ∧ JacIs b q P) }, g, n,
    ⟨hL.add, hL.double, hL.sub, hL.mul⟩, ?_, hg, hn, C56_generator.2.2⟩
  intro p q P Q hp hq
  rw [decide_eq_true_iff]
  exact ⟨fun ⟨R, h1, h2⟩ => (jac_unique hp h1).trans (jac_unique h2 hq), fun h => ⟨P, hp, h ▸ hq⟩⟩

end Kzg.Props
