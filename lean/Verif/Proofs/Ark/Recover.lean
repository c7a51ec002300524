import Verif.Proofs.Ark.ZeroPoly
import Verif.Proofs.Zk.Recover
/-!
# The recovery of the Arkworks backend
-/

set_option linter.unusedSectionVars false

namespace Kzg.Ark
open Res Polynomial
open ZkP (scaled scaled_length powers powers_length powers_getElem? zeroEvals zeroCoeffs res_assoc)

/-- The error of the final comparison. -/
abbrev failMsg : Res Unit := .err "sample is zero and out coeff at i is not equals to sample"

section Loops
variable {F : Type} [Field F] [DecidableEq F]

theorem scalePoly_eq (h5 : (5 : F) ≠ 0) (p : List F) : scalePoly p = .ok (scaled (5 : F)⁻¹ p) := by
  unfold scalePoly
  rw [frInv_eq h5, bind_ok, ZkP.scaleSeq_spec]

theorem unscalePoly_eq (p : List F) : unscalePoly p = .ok (scaled (5 : F) p) := ZkP.scaleSeq_spec _ _

theorem scaleOk_ark (h5 : (5 : F) ≠ 0) (n : Nat) :
    ScaleOk (F := F) (fun p _ => scalePoly p) (fun p _ => unscalePoly p) n :=
  ⟨fun p _ => scalePoly_eq h5 p, fun p _ => unscalePoly_eq p⟩

theorem evalsWithZero_eq (samples : List (Option F)) (ze : List F) (hl : ze.length = samples.length) :
    evalsWithZero samples ze = Kzg.evalsWithZero samples ze samples.length :=
  ZkP.evalsWithZero_eq samples ze hl

theorem checkMask_eq (samples : List (Option F)) (ze : List F) (hl : ze.length = samples.length) :
    checkMask samples ze = Kzg.checkMask (.err "sample and item are both zero") samples ze samples.length := by
  unfold checkMask Kzg.checkMask
  rw [hl, min_self]

theorem divPointwise_eq (a b : List F) (n : Nat) (hb : b.length = n) (hne : ∀ x ∈ b, x ≠ 0) :
    divPointwise a b n = Kzg.divPointwise a b n := by
  unfold divPointwise Kzg.divPointwise
  have key : ∀ (m lo : Nat) (s : List F), lo + m ≤ n →
      forLoop (fun i acc => do
        let x ← rd a i
        let y ← rd b i
        let q ← (frDiv x y).unwrap
        wr acc i q) m lo s =
      forLoop (fun i acc => do
        let x ← rd a i
        let y ← rd b i
        wr acc i (x * y⁻¹)) m lo s := by
    intro m
    induction m with
    | zero => intros; rfl
    | succ m ih =>
      intro lo s h
      simp only [forLoop]
      have hlo : lo < b.length := by omega
      have hy : b.getD lo 0 ≠ 0 := hne _ (List.mem_of_getElem? (getElem?_eq_some_getD 0 hlo))
      rw [rd_getD (l := b) 0 hlo]
      simp only [bind_ok, frDiv_eq hy, unwrap_ok, div_eq_mul_inv]
      congr 1
      funext s
      exact ih _ _ (by omega)
  exact key _ _ _ (by omega)

theorem unscalePolyPar_spec (k : Nat) (p : List F) :
    unscalePolyPar (powers (5 : F) k) p = .ok (powers (5 : F) (max k p.length), scaled (5 : F) p) :=
  ZkP.unscalePolyPar_spec k p

theorem scalePolyPar_spec (h5 : (5 : F) ≠ 0) (k : Nat) (p : List F) (h0 : 0 < p.length)
    (hp : p.length ≤ 2 ^ 63) :
    ∃ k', scalePolyPar (powers (5 : F)⁻¹ k) p = .ok (powers (5 : F)⁻¹ k', scaled (5 : F)⁻¹ p) := by
  unfold scalePolyPar
  rw [frInv_eq h5, bind_ok, subU_of_le (by omega), bind_ok, ZkP.stdNextPowerOfTwo, if_pos (by omega), bind_ok]
  split
  · rw [ZkP.growTable_powers, bind_ok,
      ZkP.scaleByTable_spec (5 : F)⁻¹ _ _ (fun i hi => powers_getElem? _ (by omega)), bind_ok]
    exact ⟨_, rfl⟩
  · rw [ZkP.scaleSeq_spec, bind_ok]
    exact ⟨_, rfl⟩

theorem scalePolyPar_powers (h5 : (5 : F) ≠ 0) {k : Nat} {p t' p' : List F}
    (h : scalePolyPar (powers (5 : F)⁻¹ k) p = .ok (t', p')) : ∃ k', t' = powers (5 : F)⁻¹ k' := by
  unfold scalePolyPar at h
  rw [frInv_eq h5, bind_ok] at h
  by_cases h0 : 0 < p.length
  swap
  · rw [subU, if_neg (by omega), bind_panic] at h
    cases h
  rw [subU_of_le h0, bind_ok, ZkP.stdNextPowerOfTwo] at h
  by_cases h1 : p.length - 1 ≤ 2 ^ 63
  swap
  · rw [if_neg h1, bind_panic] at h
    cases h
  rw [if_pos h1, bind_ok] at h
  split at h
  · rw [ZkP.growTable_powers, bind_ok,
      ZkP.scaleByTable_spec (5 : F)⁻¹ _ _ (fun i hi => powers_getElem? _ (by omega)), bind_ok] at h
    cases h; exact ⟨_, rfl⟩
  · rw [ZkP.scaleSeq_spec, bind_ok] at h
    cases h; exact ⟨_, rfl⟩

end Loops

section Top
variable {F : Type} [Field F] [DecidableEq F] [FrTable F] [LawfulFr F] [Lib F]

theorem zeroPoly_front {fs : FFTSettings F} {K : Nat} (hm : Made fs K) {n : Nat} (samples : List (Option F))
    (hl : samples.length = 2 ^ n) (hrec : ZkP.Recoverable K n (missingIdxs samples).length) :
    zeroPolyViaMultiplication fs (2 ^ n) (missingIdxs samples) =
        .ok (zeroEvals fs n samples, zeroCoeffs fs n samples) ∧
      checkMask samples (zeroEvals fs n samples) = .ok () := by
  have hwf := hm.toWF
  obtain ⟨hn, hpos, hlt, hsafe⟩ := hrec
  refine ⟨zeroPoly_of_ok hm (hwf.zeroPoly_spec hn (missing := missingIdxs samples)
    (fun i hi => by have := missing_lt hi; omega) (List.ne_nil_of_length_pos hpos) hlt hsafe), ?_⟩
  rw [checkMask_eq _ _ (by simp [hl])]
  refine checkMask_ok _ samples _ (by simp [hl]) ?_
  intro i hi
  rw [getD_range_map, if_pos (by omega), linProd_eval, ← mem_missingIdxs]
  constructor
  · rintro ⟨j, hj, he⟩
    have := (hwf.omega_prim hn).pow_inj (by omega) (by have := missing_lt hj; omega) he
    rw [this]; exact hj
  · intro h; exact ⟨i, h, rfl⟩

/-- The zero polynomial has no zero on the shifted domain. -/
theorem shifted_ne {fs : FFTSettings F} {K : Nat} (hm : Made fs K) {n : Nat} (samples : List (Option F))
    (hrec : ZkP.Recoverable K n (missingIdxs samples).length) :
    ∀ x ∈ (List.range (2 ^ n)).map fun i =>
      (polyOf (scaled (5 : F)⁻¹ (zeroCoeffs fs n samples))).eval (fs.omega (2 ^ n) ^ i), x ≠ 0 := by
  intro x hx
  obtain ⟨i, _, rfl⟩ := List.mem_map.mp hx
  rw [scaled, eval_scaled, polyOf_map_coeff]
  · exact hm.toWF.zero_shift_ne hrec.width _ i
  · rw [degree_eq_natDegree (linProd_monic _ _).ne_zero, linProd_natDegree]
    exact_mod_cast hrec.lt

theorem recover_front {fs : FFTSettings F} {K : Nat} (hm : Made fs K) {n : Nat} (samples : List (Option F))
    (hl : samples.length = 2 ^ n) (hrec : ZkP.Recoverable K n (missingIdxs samples).length) (ki kp : Nat) :
    ∃ d ki' kp', recover fs samples = (do
        checkData failMsg samples d (2 ^ n)
        .ok d) ∧
      recoverPar fs (powers (5 : F)⁻¹ ki, powers (5 : F) kp) samples = (do
        checkData failMsg samples d (2 ^ n)
        .ok ((powers (5 : F)⁻¹ ki', powers (5 : F) kp'), d)) ∧
      fs.recoverCoreWith (fun p _ => scalePoly p) (fun p _ => unscalePoly p) samples (2 ^ n)
        (zeroEvals fs n samples) (zeroCoeffs fs n samples) = .ok d := by
  have hwf := hm.toWF
  have h5 : (5 : F) ≠ 0 := LawfulFr.five_ne
  obtain ⟨h1, h2⟩ := zeroPoly_front hm samples hl hrec
  have hn := hrec.width
  have hK := hm.lt
  have hn0 : 0 < n := by
    have := hrec.pos; have := hrec.lt
    rcases Nat.eq_zero_or_pos n with h | h
    · subst h; omega
    · exact h
  have h2n : 2 ^ 1 ≤ 2 ^ n := Nat.pow_le_pow_right (by omega) hn0
  have h2n' : 2 ^ n ≤ 2 ^ 32 := Nat.pow_le_pow_right (by omega) (by omega)
  have hez := evalsWithZero_spec samples (zeroEvals fs n samples) (by simp [hl])
  have hez' := evalsWithZero_eq samples (zeroEvals fs n samples) (by simp [hl])
  rw [hez] at hez'
  generalize (List.range samples.length).map (fun i =>
    sampleVal samples i * (zeroEvals fs n samples).getD i 0) = ez at hez hez'
  have hezl : ez.length = 2 ^ n := by
    have := evalsWithZero_spec samples (zeroEvals fs n samples) (by simp [hl])
    rw [hez] at this
    rw [Res.ok.inj this]; simp [hl]
  obtain ⟨pz, hpz, hpzl, _⟩ := hwf.fft_backward hn ez hezl
  have hsl : (scaled (5 : F)⁻¹ (zeroCoeffs fs n samples)).length = 2 ^ n := by rw [scaled_length]; simp
  obtain ⟨a, ha, hal, _⟩ := hwf.fft_forward hn (scaled (5 : F)⁻¹ pz) (by rw [scaled_length, hpzl])
  have hb := hwf.fft_eval hn (scaled (5 : F)⁻¹ (zeroCoeffs fs n samples)) hsl
  have hne := shifted_ne hm samples hrec
  generalize (List.range (2 ^ n)).map (fun i =>
      (polyOf (scaled (5 : F)⁻¹ (zeroCoeffs fs n samples))).eval (fs.omega (2 ^ n) ^ i)) = b at hb hne
  have hbl : b.length = 2 ^ n := by
    obtain ⟨b', hb', hbl', _⟩ := hwf.fft_forward hn (scaled (5 : F)⁻¹ (zeroCoeffs fs n samples)) hsl
    rw [hb] at hb'
    rw [Res.ok.inj hb']; exact hbl'
  have hdiv := divPointwise_spec a b (2 ^ n) hal hbl
  have hdiv' := divPointwise_eq a b (2 ^ n) hbl hne
  rw [hdiv] at hdiv'
  generalize hq : (List.range (2 ^ n)).map (fun i => a.getD i 0 * (b.getD i 0)⁻¹) = q at hdiv hdiv'
  have hql : q.length = 2 ^ n := by rw [← hq]; simp
  obtain ⟨c, hc, hcl, _⟩ := hwf.fft_backward hn q hql
  obtain ⟨d, hd, hdl, _⟩ := hwf.fft_forward hn (scaled (5 : F) c) (by rw [scaled_length, hcl])
  obtain ⟨k1, hk1⟩ := scalePolyPar_spec h5 ki pz (by omega) (by omega)
  obtain ⟨k2, hk2⟩ := scalePolyPar_spec h5 k1 (zeroCoeffs fs n samples) (by simp) (by simp; omega)
  refine ⟨d, k2, max kp c.length, ?_, ?_, ?_⟩
  · unfold recover
    rw [hl, isPowerOfTwo_two_pow, if_neg (by simp), h1, unwrap_ok, bind_ok]
    simp only
    rw [h2, bind_ok, hez', bind_ok, fftFr_eq hm hn ez hezl, hpz, unwrap_ok, bind_ok, scalePoly_eq h5, bind_ok,
      scalePoly_eq h5, bind_ok, fftFr_eq hm hn _ (by rw [scaled_length, hpzl]), ha, unwrap_ok, bind_ok,
      fftFr_eq hm hn _ hsl, hb, unwrap_ok, bind_ok, hdiv', bind_ok, fftFr_eq hm hn q hql, hc, unwrap_ok, bind_ok,
      unscalePoly_eq, bind_ok, fftFr_eq hm hn _ (by rw [scaled_length, hcl]), hd, unwrap_ok, bind_ok]
  · unfold recoverPar
    rw [hl, isPowerOfTwo_two_pow, if_neg (by simp), h1, unwrap_ok, bind_ok]
    simp only
    rw [h2, bind_ok, hez', bind_ok, fftFr_eq hm hn ez hezl, hpz, unwrap_ok, bind_ok, hpzl, subU_of_le (by omega),
      bind_ok, ZkP.stdNextPowerOfTwo, if_pos (by omega), bind_ok, hk1, bind_ok]
    simp only
    rw [hk2, bind_ok]
    simp only
    rw [fftFr_eq hm hn _ (by rw [scaled_length, hpzl]), ha, unwrap_ok, bind_ok,
      fftFr_eq hm hn _ hsl, hb, unwrap_ok, bind_ok, hdiv', bind_ok, fftFr_eq hm hn q hql, hc, unwrap_ok, bind_ok,
      unscalePolyPar_spec, bind_ok]
    simp only
    rw [fftFr_eq hm hn _ (by rw [scaled_length, hcl]), hd, unwrap_ok, bind_ok]
  · unfold FFTSettings.recoverCoreWith
    simp only [FFTSettings.fftFr]
    rw [← hl, hez, bind_ok, hpz, unwrap_ok, bind_ok, scalePoly_eq h5, bind_ok, scalePoly_eq h5, bind_ok, ha, unwrap_ok,
      bind_ok, hb, unwrap_ok, bind_ok, hl, hdiv, bind_ok, hc, unwrap_ok, bind_ok, unscalePoly_eq, bind_ok, hd, unwrap_ok]

theorem front_panic {fs : FFTSettings F} {K : Nat} (hm : Made fs K) {n : Nat} (samples : List (Option F))
    (hl : samples.length = 2 ^ n) (hbad : ¬ ZkP.Recoverable K n (missingIdxs samples).length) :
    (zeroPolyViaMultiplication fs (2 ^ n) (missingIdxs samples)).unwrap = .panic ∨
      (zeroPolyViaMultiplication fs (2 ^ n) (missingIdxs samples) = .ok ([], []) ∧
        evalsWithZero samples ([] : List F) = .panic) := by
  have hwf := hm.toWF
  have hposn : 0 < 2 ^ n := by positivity
  by_cases hpos : 0 < (missingIdxs samples).length
  swap
  · right
    have hnil : missingIdxs samples = [] := List.length_eq_zero_iff.mp (by omega)
    rw [hnil]
    refine ⟨rfl, ?_⟩
    unfold evalsWithZero
    rw [forRange_succ _ _ (by omega), rd_getD none (by omega), bind_ok]
    cases hs : samples.getD 0 none with
    | none =>
      exfalso
      have : 0 ∈ missingIdxs samples := mem_missingIdxs.2 (by rw [getElem?_eq_some_getD none (by omega), hs])
      rw [hnil] at this
      cases this
    | some v =>
      simp only
      rw [rd_of_ge (by simp), bind_panic, bind_panic]
  left
  have hne : (missingIdxs samples).isEmpty = false := by
    rw [List.isEmpty_eq_false_iff]; exact List.ne_nil_of_length_pos hpos
  by_cases hlt : (missingIdxs samples).length < 2 ^ n
  swap
  · unfold zeroPolyViaMultiplication
    rw [hne, if_neg (by simp), if_pos (by omega)]; rfl
  by_cases hK : n ≤ K
  swap
  · unfold zeroPolyViaMultiplication
    rw [hne, if_neg (by simp), if_neg (by omega), if_pos]
    · rfl
    · rw [hwf.width]; exact Nat.pow_lt_pow_right (by omega) (by omega)
  by_cases hsafe : (missingIdxs samples).length ≤ 63 * (2 ^ n / 64 + 1)
  · exact absurd ⟨hK, hpos, hlt, hsafe⟩ hbad
  · obtain ⟨e, he⟩ := zeroPoly_of_err hm (hwf.zeroPoly_err hK (missing := missingIdxs samples)
      (fun i hi => by have := missing_lt hi; omega) hlt (by omega))
    rw [he]; rfl

/-- Lengths that are powers of two, but not supported. -/
theorem recover_panic {fs : FFTSettings F} {K : Nat} (hm : Made fs K) (samples : List (Option F)) (t : List F × List F)
    {n : Nat} (hl : samples.length = 2 ^ n) (hbad : ¬ ZkP.Recoverable K n (missingIdxs samples).length) :
    recover fs samples = .panic ∧ recoverPar fs t samples = .panic := by
  unfold recover recoverPar
  rw [hl, isPowerOfTwo_two_pow, if_neg (by simp), if_neg (by simp)]
  have hc : checkMask samples ([] : List F) = .ok () := by
    unfold checkMask
    rw [List.length_nil, Nat.zero_min]; rfl
  rcases front_panic hm samples hl hbad with h | ⟨h1, h2⟩
  · rw [h, bind_panic, bind_panic]; exact ⟨rfl, rfl⟩
  · rw [h1, unwrap_ok, bind_ok, bind_ok]
    simp only
    rw [hc, bind_ok, bind_ok, h2, bind_panic, bind_panic]; exact ⟨rfl, rfl⟩

/-- Lengths that are no powers of two. -/
theorem recover_err (fs : FFTSettings F) (samples : List (Option F)) (t : List F × List F)
    (h : ¬ ∃ n, samples.length = 2 ^ n) :
    recover fs samples = .err "samples lenght has to be power of 2" ∧
      recoverPar fs t samples = .err "samples lenght has to be power of 2" := by
  have hp : isPowerOfTwo samples.length = false := by
    rw [Bool.eq_false_iff]
    intro hc
    exact h (exists_of_isPowerOfTwo hc)
  unfold recover recoverPar
  rw [hp]
  exact ⟨rfl, rfl⟩

/-- Outcome of the recovery on the supported inputs. -/
theorem recover_outcome {fs : FFTSettings F} {K : Nat} (hm : Made fs K) {n : Nat} (samples : List (Option F))
    (hl : samples.length = 2 ^ n) (hrec : ZkP.Recoverable K n (missingIdxs samples).length) (p : F[X])
    (hp : p.degree + (missingIdxs samples).length < (2 ^ n : Nat))
    (hs : ∀ (i : Nat) (v : F), samples[i]? = some (some v) → v = p.eval (fs.omega (2 ^ n) ^ i)) (ki kp : Nat) :
    recover fs samples = .ok ((List.range (2 ^ n)).map fun i => p.eval (fs.omega (2 ^ n) ^ i)) ∧
    ∃ ki' kp', recoverPar fs (powers (5 : F)⁻¹ ki, powers (5 : F) kp) samples =
      .ok ((powers (5 : F)⁻¹ ki', powers (5 : F) kp'),
        (List.range (2 ^ n)).map fun i => p.eval (fs.omega (2 ^ n) ^ i)) := by
  obtain ⟨d, ki', kp', h1, h2, h3⟩ := recover_front hm samples hl hrec ki kp
  have h4 := (hm.toWF.core_outcome hrec.width (scaleOk_ark (LawfulFr.five_ne (F := F)) n) failMsg (fun _ => nofun) samples
    hl hrec.lt (m := recover fs samples) (by rw [h1, h3, bind_ok])).1 p hp hs
  refine ⟨h4, ki', kp', ?_⟩
  rw [h1] at h4
  rw [h2]
  cases hc : checkData failMsg samples d (2 ^ n) with
  | ok u => rw [hc, bind_ok] at h4; rw [bind_ok, Res.ok.inj h4]
  | err e => rw [hc, bind_err] at h4; cases h4
  | panic => rw [hc, bind_panic] at h4; cases h4

end Top
end Kzg.Ark
