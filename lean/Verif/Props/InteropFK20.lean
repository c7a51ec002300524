import Verif.Props.InteropFFT
import Verif.Props.FK20
import Verif.Props.MclFK20
import Verif.Props.ArkFK20
/-!
# Property C152: amortised proofs of one backend in another
-/

set_option linter.unusedSectionVars false

namespace Kzg.Props
open Kzg Kzg.Res Kzg.Zk Kzg.Zk.ScW Kzg.Zk.Top CurveConsts Polynomial

/-- `out` has the entries of `l` in bit-reversed order. -/
theorem reversed_of {α : Type} {k : Nat} {l out : List α} (hout : out.length = 2 ^ k)
    (h : ∀ j < 2 ^ k, ∃ r, IsBitReversal k j r ∧ out[r]? = l[j]?) :
    out.length = 2 ^ k ∧ ∀ i < 2 ^ k, out[i]? = l[reverseBits k i]? := by
  refine ⟨hout, fun i hi => ?_⟩
  obtain ⟨q, hq, e⟩ := h (reverseBits k i) (reverseBits_lt k i)
  have : IsBitReversal k (reverseBits k i) i := by
    refine ⟨hi, fun b hb => ?_⟩
    rw [testBit_reverseBits, show k - 1 - (k - 1 - b) = b by omega]
    simp [show k - 1 - b < k by omega]
  rw [← e, C32_reversal_unique hq this]

theorem reversed_unique {α : Type} {k : Nat} {l out out' : List α}
    (h : out.length = 2 ^ k ∧ ∀ i < 2 ^ k, out[i]? = l[reverseBits k i]?)
    (h' : out'.length = 2 ^ k ∧ ∀ i < 2 ^ k, out'[i]? = l[reverseBits k i]?) : out = out' := by
  apply List.ext_getElem?
  intro i
  by_cases hi : i < 2 ^ k
  · rw [h.2 i hi, h'.2 i hi]
  · rw [List.getElem?_eq_none (by omega), List.getElem?_eq_none (by omega)]

theorem reversed_rel {α β : Type} {R : α → β → Prop} {k : Nat} {l out : List α} {l' out' : List β} (hR : RelL R l l')
    (h : out.length = 2 ^ k ∧ ∀ i < 2 ^ k, out[i]? = l[reverseBits k i]?)
    (h' : out'.length = 2 ^ k ∧ ∀ i < 2 ^ k, out'[i]? = l'[reverseBits k i]?) : RelL R out out' := by
  refine RelL.of_getElem? (by rw [h.1, h'.1]) fun i a b ha hb => ?_
  have hi : i < 2 ^ k := by
    by_contra hc
    rw [List.getElem?_eq_none (by omega)] at ha
    cases ha
  rw [h.2 i hi] at ha
  rw [h'.2 i hi] at hb
  obtain ⟨a', e, hr⟩ := hR.getElem? hb
  rw [e] at ha
  cases ha
  exact hr

variable {chk : Bool} {limbs : Bls1 → List Nat} {rng : List Nat → Fr × Bls1} {params : Ark.Params Bls1 Bls2}
  {kb : KZGSettings Fr Bls1 Bls2} {kz : Top.Settings} {km : KZGSettings Fr Bls1 Bls2} {ka : Ark.Settings Bls1 Bls1 Bls2}
  {N scale : Nat} {s : ScW}

theorem SameSecret.ark_omega (h : SameSecret chk (limbs := limbs) (rng := rng) (params := params) kb kz km ka N scale s) {m : Nat}
    (hm : m ≤ scale) : ka.fs.omega (2 ^ m) = kb.fs.omega (2 ^ m) := by
  rw [omega_of_wf (h.ark.wf (C148_ark h.limbs rng params)).fs.toWF hm, (C150_roots h m).2, cosetRoot_eq h.blst hm]

theorem SameSecret.mcl_omega (h : SameSecret chk (limbs := limbs) (rng := rng) (params := params) kb kz km ka N scale s) {m : Nat}
    (hm : m ≤ scale) (hr : cosetRoot km scale m = cosetRoot kb scale m) : km.fs.omega (2 ^ m) = kb.fs.omega (2 ^ m) := by
  rw [FFTSettings.omega, h.mcl.settings.wf.width, Nat.pow_div hm (by norm_num), cosetRoot_eq h.blst hm, ← hr]
  rfl

theorem fkProofs_stands (h : SameSecret chk (limbs := limbs) (rng := rng) (params := params) kb kz km ka N scale s) {ω : ScW} {l m : Nat}
    (hm : m ≤ scale) (hω : ω ^ l = zkCosetRoot kz scale m) {n : Nat} {p : List ScW} {proofs : List Zk.G1.Proj}
    (hf : FkProofs s ω l n p proofs) : RelL Stands proofs ((List.range n).map fun j =>
      (polyOf (p.map el) / (X ^ l - C (kb.fs.omega (2 ^ m) ^ j))).eval (el s) • blsG1) := by
  refine RelL.of_getElem? (by rw [hf.1]; simp) fun i a b ha hb => ?_
  by_cases hi : i < n
  · obtain ⟨π, e, hπ⟩ := hf.2 i hi
    rw [e] at ha
    cases ha
    rw [List.getElem?_map, List.getElem?_range hi, Option.map_some, Option.some.injEq] at hb
    rw [← hb, cosetRoot_eq h.blst hm, ← (C150_roots h m).1, ← hω, ← el_pow, ← pow_mul, mul_comm l, pow_mul]
    have := quotient_map_el p (ω ^ i) s l
    rw [el_pow, this]
    exact (at1_stands _ _).1 hπ
  · rw [List.getElem?_eq_none (by rw [hf.1]; omega)] at ha
    cases ha

/-- C152 (single proofs): for every polynomial of `2^m` coefficients, `2^(m+1)` within the width, the settings of blst-from-scratch and
Arkworks can be made and give the same list of proofs, in both orders. mcl-kzg gives it if its root of unity is the same and the list has
at most `2^30` entries, zkcrypto (coordinates of the same points) if the scale is at most 16 and no factor overflows. -/
theorem C152_single_partial [Mcl.Lib Fr] (h : SameSecret chk (limbs := limbs) (rng := rng) (params := params) kb kz km ka N scale s)
    {m : Nat} (hm : m < scale) {p : List ScW} (hp : p.length = 2 ^ m) :
    ∃ (L out : List Bls1),
      (∃ fk, FK20Single.new kb (2 ^ (m + 1)) = .ok fk ∧ fk.daOptimized (p.map el) = .ok L ∧ fk.da (p.map el) = .ok out) ∧
      (∃ fk, Ark.FKSingle.new (blsArk limbs rng params) ka (2 ^ (m + 1)) = .ok fk ∧ fk.daOptimized (p.map el) = .ok L ∧
        fk.da (p.map el) = .ok out) ∧
      (m + 1 ≤ 30 → cosetRoot km scale (m + 1) = cosetRoot kb scale (m + 1) →
        ∃ fk, Mcl.FK20Single.new km (2 ^ (m + 1)) = .ok fk ∧ Mcl.FK20Single.daOptimized fk (p.map el) = .ok L ∧
          Mcl.FK20Single.da fk (p.map el) = .ok out) ∧
      (scale ≤ 16 → (∀ i < 2 ^ (m + 1), ¬ RoundingOverflows (el (fkFactor (zkCosetRoot kz scale (m + 1)) (2 ^ m) 1 0 p i)).val) →
        ∃ fk Lz oz, ZkP.singleNew (g1Ops chk) kz (2 ^ (m + 1)) = .ok fk ∧ ZkP.singleOpt (g1Ops chk) fk p = .ok Lz ∧
          ZkP.singleDa (g1Ops chk) fk p = .ok oz ∧ RelL Stands Lz L ∧ RelL Stands oz out) := by
  have hpl : (p.map el).length = 2 ^ m := by rw [List.length_map, hp]
  have hs := h.blst.wf.fs.lt
  have hN := h.blst.wf.le
  have hle : 2 ^ m ≤ 2 ^ scale := Nat.pow_le_pow_right (by norm_num) hm.le
  obtain ⟨fb, hfb, -⟩ := (C30_settings_new h.blst (2 ^ (m + 1))).1 ⟨m, hm, rfl⟩
  have ob := single_opt h.blst.wf hm hfb (p.map el) hpl
  obtain ⟨L', out, ob', db, ol, oi⟩ := C30_fk20_single_order h.blst hm hfb (p.map el) hpl
  rw [ob] at ob'
  have ro := reversed_of ol oi
  refine ⟨L', out, ⟨fb, hfb, ob.trans ob', db⟩, ?_, ?_, ?_⟩
  · have hB := C148_ark h.limbs rng params
    obtain ⟨fa, hfa, -⟩ := ((C129_settings_new hB h.ark (2 ^ (m + 1))).1 m hm rfl).1 (by omega)
    have oa := Ark.single_opt hB (h.ark.wf hB) hm hfa (p.map el) hpl
    rw [h.ark_omega hm] at oa
    obtain ⟨La, outa, oa', da, al, ai⟩ := C129_fk20_single_order hB h.ark hm hfa (p.map el) hpl
    have e : La = L' := Res.ok.inj (oa'.symm.trans (oa.trans ob'))
    subst e
    exact ⟨fa, hfa, oa', by rw [da, reversed_unique (reversed_of al ai) ro]⟩
  · intro h30 hr
    obtain ⟨fm, hfm, -⟩ := ((C110_settings_new h.mcl (2 ^ (m + 1))).1 m hm rfl).1 (by omega)
    have om := Mcl.single_opt h.mcl.wf hm hfm (p.map el) hpl
    rw [h.mcl_omega hm hr, Mcl.sgn_of_le h30] at om
    simp only [one_smul] at om
    obtain ⟨Lm, outm, om', dm, ml, mi⟩ := C110_fk20_single_order h.mcl hm hfm (p.map el) hpl
    have e : Lm = L' := Res.ok.inj (om'.symm.trans (om.trans ob'))
    subst e
    exact ⟨fm, hfm, om', by rw [dm, reversed_unique (reversed_of ml mi) ro]⟩
  · intro h16 hg
    obtain ⟨fk, Lz, hfk, oz, hz⟩ := C91_single_partial h.zk hN h16 hm hp hg
    have hst := fkProofs_stands h hm (by rw [pow_one]) hz
    have e : L' = _ := Res.ok.inj ob'.symm
    rw [← e] at hst
    obtain ⟨outz, dz, zl, zi⟩ := C91_order chk fk (by omega) p hz.1 oz
    exact ⟨fk, Lz, outz, hfk, oz, dz, hst, reversed_rel hst (reversed_of zl zi) ro⟩

/-- C152 (multi proofs): as before, for `2^c` points each. The optimised call of mcl-kzg takes the polynomial followed by as many entries
again, whose values do not matter. -/
theorem C152_multi_partial [Mcl.Lib Fr] (h : SameSecret chk (limbs := limbs) (rng := rng) (params := params) kb kz km ka N scale s)
    {m c : Nat} (hm : m + c < scale) {p : List ScW} (hp : p.length = 2 ^ (m + c)) :
    ∃ (L out : List Bls1),
      (∃ fk, FK20Multi.new kb (2 ^ (m + c + 1)) (2 ^ c) = .ok fk ∧ fk.daOptimized (p.map el) = .ok L ∧ fk.da (p.map el) = .ok out) ∧
      (∃ fk, Ark.FKMulti.new (blsArk limbs rng params) ka (2 ^ (m + c + 1)) (2 ^ c) = .ok fk ∧ fk.daOptimized (p.map el) = .ok L ∧
        fk.da (p.map el) = .ok out) ∧
      (m + 1 ≤ 30 → cosetRoot km scale (m + 1) = cosetRoot kb scale (m + 1) →
        ∃ fk, Mcl.FK20Multi.new km (2 ^ (m + c + 1)) (2 ^ c) = .ok fk ∧
          (∀ rest : List Fr, rest.length = 2 ^ (m + c) → Mcl.FK20Multi.daOptimized fk (p.map el ++ rest) = .ok L) ∧
          Mcl.FK20Multi.da fk (p.map el) = .ok out) ∧
      (scale ≤ 16 → (∀ u < 2 ^ c, ∀ i < 2 ^ (m + 1),
          ¬ RoundingOverflows (el (fkFactor (zkCosetRoot kz scale (m + 1)) (2 ^ m) (2 ^ c) u p i)).val) →
        ∃ fk Lz oz, ZkP.multiNew (g1Ops chk) kz (2 ^ (m + c + 1)) (2 ^ c) = .ok fk ∧ ZkP.multiOpt (g1Ops chk) fk p = .ok Lz ∧
          ZkP.multiDa (g1Ops chk) fk p = .ok oz ∧ RelL Stands Lz L ∧ RelL Stands oz out) := by
  have hpl : (p.map el).length = 2 ^ (m + c) := by rw [List.length_map, hp]
  have hs := h.blst.wf.fs.lt
  have hN := h.blst.wf.le
  have hle : 2 ^ (m + c) ≤ 2 ^ scale := Nat.pow_le_pow_right (by norm_num) hm.le
  have hle' : (2 ^ m - 1) * 2 ^ c ≤ 2 ^ (m + c) := by rw [pow_add]; exact Nat.mul_le_mul_right _ (Nat.sub_le _ _)
  have hm1 : m + 1 ≤ scale := by omega
  obtain ⟨fb, hfb, -⟩ := (C31_settings_new h.blst (2 ^ (m + c + 1)) (2 ^ c)).1 ⟨m, c, hm, rfl, rfl⟩
  have ob := multi_opt h.blst.wf hm hfb (p.map el) hpl
  obtain ⟨L', out, ob', db, ol, oi⟩ := C31_fk20_multi_order h.blst hm hfb (p.map el) hpl
  rw [ob] at ob'
  have ro := reversed_of ol oi
  refine ⟨L', out, ⟨fb, hfb, ob.trans ob', db⟩, ?_, ?_, ?_⟩
  · have hB := C148_ark h.limbs rng params
    obtain ⟨fa, hfa, -⟩ := ((C130_settings_new hB h.ark (2 ^ (m + c + 1)) (2 ^ c)).1 m c hm rfl rfl).1 (by omega)
    have oa := Ark.multi_opt hB (h.ark.wf hB) hm hfa (p.map el) hpl
    rw [h.ark_omega hm1] at oa
    obtain ⟨La, outa, oa', da, al, ai⟩ := C130_fk20_multi_order hB h.ark hm hfa (p.map el) hpl
    have e : La = L' := Res.ok.inj (oa'.symm.trans (oa.trans ob'))
    subst e
    exact ⟨fa, hfa, oa', by rw [da, reversed_unique (reversed_of al ai) ro]⟩
  · intro h30 hr
    obtain ⟨fm, hfm, -⟩ := ((C111_settings_new h.mcl (2 ^ (m + c + 1)) (2 ^ c)).1 m c hm rfl rfl).1 (by omega)
    have om : ∀ rest : List Fr, rest.length = 2 ^ (m + c) → Mcl.FK20Multi.daOptimized fm (p.map el ++ rest) = .ok L' := by
      intro rest hrest
      have om := Mcl.multi_opt h.mcl.wf hm hfm (p.map el ++ rest) (by rw [List.length_append]; omega)
      rw [h.mcl_omega hm1 hr, Mcl.sgn_of_le h30, List.take_left' hpl] at om
      simp only [one_smul] at om
      exact om.trans ob'
    obtain ⟨Lm, outm, om', dm, ml, mi⟩ := C111_fk20_multi_order h.mcl hm hfm (p.map el) (List.replicate (2 ^ (m + c)) 0) hpl (by simp)
    have e : Lm = L' := Res.ok.inj (om'.symm.trans (om _ (by simp)))
    subst e
    exact ⟨fm, hfm, om, by rw [dm, reversed_unique (reversed_of ml mi) ro]⟩
  · intro h16 hg
    obtain ⟨fk, Lz, hfk, oz, hz⟩ := C92_multi_partial h.zk hN h16 hm hp hg
    have hst := fkProofs_stands h hm1 (zkCosetRoot_pow hm) hz
    have e : L' = _ := Res.ok.inj ob'.symm
    rw [← e] at hst
    obtain ⟨outz, dz, zl, zi⟩ := C92_order chk fk (by omega) p hz.1 oz
    exact ⟨fk, Lz, outz, hfk, oz, dz, hst, reversed_rel hst (reversed_of zl zi) ro⟩

/-- C152 (refuted for mcl-kzg): where its root of unity is another one, the proofs for `X²` are other ones than in blst-from-scratch. -/
theorem C152_mcl_differs [Mcl.Lib Fr] (h : SameSecret chk (limbs := limbs) (rng := rng) (params := params) kb kz km ka N scale s)
    {m : Nat} (hm : m < scale) (h30 : m + 1 ≤ 30) (hne : cosetRoot km scale (m + 1) ≠ cosetRoot kb scale (m + 1)) :
    ∃ (p : List Fr) (fb fm : _) (L L' : List Bls1), p.length = 2 ^ m ∧ polyOf p = X ^ 2 ∧
      FK20Single.new kb (2 ^ (m + 1)) = .ok fb ∧ fb.daOptimized p = .ok L ∧
      Mcl.FK20Single.new km (2 ^ (m + 1)) = .ok fm ∧ Mcl.FK20Single.daOptimized fm p = .ok L' ∧ L[1]? ≠ L'[1]? := by
  have hm2 : 2 ≤ m := by
    by_contra hlt
    exact hne ((C150_mcl_roots h hm).2 (.inl (by omega)))
  have hm4 : 2 ^ 2 ≤ 2 ^ m := Nat.pow_le_pow_right (by norm_num) hm2
  have hN := h.blst.wf.le
  have hle : 2 ^ m ≤ 2 ^ scale := Nat.pow_le_pow_right (by norm_num) hm.le
  have h1 : 1 < 2 ^ (m + 1) := by rw [pow_succ]; omega
  set p : List Fr := 0 :: 0 :: 1 :: List.replicate (2 ^ m - 3) 0 with hp
  have hpl : p.length = 2 ^ m := by simp [hp]; omega
  have hX : polyOf p = X ^ 2 := by
    rw [hp, ZkP.polyOf_cons, ZkP.polyOf_cons, ZkP.polyOf_cons, polyOf_replicate_zero, mul_zero, add_zero, map_zero, zero_add, map_one,
      mul_one, zero_add, pow_two]
  have hq : ∀ w : Fr, (X ^ 2 / (X ^ 1 - C (w ^ 1)) : Fr[X]) = X + C w := by
    intro w
    rw [pow_one, pow_one, ← divByMonic_eq_div _ (monic_X_sub_C w)]
    refine (div_modByMonic_unique (f := X ^ 2) (X + C w) (C (w ^ 2)) (monic_X_sub_C w) ⟨?_, ?_⟩).1
    · rw [C_pow]; ring
    · rw [degree_X_sub_C]; exact lt_of_le_of_lt degree_C_le (by norm_num)
  obtain ⟨fb, hfb, -⟩ := (C30_settings_new h.blst (2 ^ (m + 1))).1 ⟨m, hm, rfl⟩
  have ob := single_opt h.blst.wf hm hfb p hpl
  obtain ⟨fm, hfm, -⟩ := ((C110_settings_new h.mcl (2 ^ (m + 1))).1 m hm rfl).1 (by omega)
  have om := Mcl.single_opt h.mcl.wf hm hfm p hpl
  refine ⟨p, fb, fm, _, _, hpl, hX, hfb, ob, hfm, om, fun e => hne ?_⟩
  rw [List.getElem?_map, List.getElem?_map, List.getElem?_range h1, Option.map_some, Option.map_some, Option.some.injEq,
    Mcl.sgn_of_le h30, one_smul, hX, hq, hq, smul_inj' blsGroups.ne, eval_add, eval_add, eval_X, eval_C, eval_C] at e
  have e' := (add_left_cancel e).symm
  rw [FFTSettings.omega, h.mcl.settings.wf.width, Nat.pow_div hm (by norm_num), cosetRoot_eq h.blst hm] at e'
  exact e'

/-- Settings of scale 8 over the real groups: the proofs of a polynomial of 16 coefficients are those of blst-from-scratch in Arkworks and
others in mcl-kzg. -/
example [Mcl.Lib Fr] (chk : Bool) : ∃ (limbs : Bls1 → List Nat) (rng : List Nat → Fr × Bls1) (params : Ark.Params Bls1 Bls2)
    (kb : KZGSettings Fr Bls1 Bls2) (kz : Top.Settings) (km : KZGSettings Fr Bls1 Bls2) (ka : Ark.Settings Bls1 Bls1 Bls2) (s : ScW)
    (p : List ScW) (fb : _) (fm : _) (fa : _) (L L' : List Bls1),
    SameSecret chk (limbs := limbs) (rng := rng) (params := params) kb kz km ka 256 8 s ∧ p.length = 16 ∧
    FK20Single.new kb 32 = .ok fb ∧ fb.daOptimized (p.map el) = .ok L ∧
    Ark.FKSingle.new (blsArk limbs rng params) ka 32 = .ok fa ∧ fa.daOptimized (p.map el) = .ok L ∧
    Mcl.FK20Single.new km 32 = .ok fm ∧ Mcl.FK20Single.daOptimized fm (p.map el) = .ok L' ∧ L ≠ L' := by
  obtain ⟨limbs, rng, params, kb, kz, km, ka, s, h, hs⟩ := sameSecret_exists chk (N := 256) (scale := 8) (by norm_num) (by norm_num)
    (by norm_num)
  obtain ⟨p', fb, fm, L, L', hl, -, h1, h2, h3, h4, h5⟩ := C152_mcl_differs h (m := 4) (by norm_num) (by norm_num) (by
    rw [Ne, C150_mcl_roots h (by norm_num)]
    rintro (h | h) <;> omega)
  obtain ⟨p, hp⟩ : ∃ p : List ScW, p.map el = p' := by
    refine ⟨p'.map fun x => (el_surj x).choose, ?_⟩
    rw [List.map_map]
    exact (List.map_congr_left fun x _ => (el_surj x).choose_spec).trans (List.map_id _)
  subst hp
  rw [List.length_map] at hl
  obtain ⟨L2, o2, ⟨f2, e1, e2, -⟩, ⟨fa, a1, a2, -⟩, -, -⟩ := C152_single_partial h (m := 4) (by norm_num) hl
  have e3 : f2 = fb := Res.ok.inj (e1.symm.trans h1)
  subst e3
  have e4 : L2 = L := Res.ok.inj (e2.symm.trans h2)
  subst e4
  exact ⟨limbs, rng, params, kb, kz, km, ka, s, p, f2, fm, fa, L2, L', h, hl, h1, h2, a1, a2, h3, h4, fun e => h5 (by rw [e])⟩

end Kzg.Props
