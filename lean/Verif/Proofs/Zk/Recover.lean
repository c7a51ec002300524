import Verif.Proofs.Zk.ZeroPoly
import Verif.Proofs.Recovery
/-!
# The recovery of zkcrypto
-/

set_option linter.unusedSectionVars false

namespace Kzg.ZkP
open Kzg Res Polynomial

theorem res_assoc {α β γ : Type} (m : Res α) (f : α → Res β) (g : β → Res γ) :
    ((m >>= f) >>= g) = m >>= fun x => f x >>= g := by
  cases m <;> rfl

section Loops
variable {F : Type} [Field F] [DecidableEq F]

/-- The scaled coefficient list. -/
def scaled (f : F) (p : List F) : List F := (List.range p.length).map fun i => p.getD i 0 * f ^ i

theorem scaled_length (f : F) (p : List F) : (scaled f p).length = p.length := by simp [scaled]

theorem scaled_getElem? (f : F) (p : List F) (i : Nat) : (scaled f p)[i]? = (p[i]?).map fun c => c * f ^ i := by
  unfold scaled
  by_cases h : i < p.length
  · rw [List.getElem?_map, List.getElem?_range h, List.getElem?_eq_getElem h, Option.map_some, Option.map_some,
      List.getD_eq_getElem _ _ h]
  · rw [List.getElem?_eq_none (by simp; omega), List.getElem?_eq_none (by omega)]; rfl

theorem scaleSeq_spec (f : F) (p : List F) : scaleSeq f p = .ok (scaled f p) := by
  unfold scaleSeq
  by_cases h0 : p.length = 0
  · have : p = [] := List.length_eq_zero_iff.mp h0
    subst this
    rfl
  obtain ⟨r, hr, h1, h2, h3, h4⟩ := forRange_inv (lo := 1) (hi := p.length) (s := ((1 : F), p))
    (body := fun i s => do
      let factorPower := s.1 * f
      let c ← rd s.2 i
      let v ← wr s.2 i (c * factorPower)
      .ok (factorPower, v))
    (fun i s => s.1 = f ^ (i - 1) ∧ s.2.length = p.length ∧ (∀ j < i, s.2[j]? = (scaled f p)[j]?) ∧
      ∀ j, i ≤ j → s.2[j]? = p[j]?) (by omega)
    ⟨by simp, rfl, fun j hj => by
      have : j = 0 := by omega
      subst this
      rw [scaled_getElem?]
      simp, fun _ _ => rfl⟩ (by
      rintro i ⟨g, s⟩ hi1 hi2 ⟨hg, hl, hs1, hs2⟩
      simp only at hg hl hs1 hs2 ⊢
      have hgi : g * f = f ^ i := by rw [hg, ← pow_succ]; congr 1; omega
      rw [rd_of_getElem? (x := p.getD i 0) (by rw [hs2 i le_rfl, getElem?_eq_some_getD 0 hi2]), bind_ok,
        wr_of_lt (by omega), bind_ok]
      refine Sat.ok ⟨by rw [hgi]; simp, by simp [hl], ?_, ?_⟩
      · intro j hj
        simp only
        rw [getElem?_set_of_lt (by omega)]
        by_cases hij : j = i
        · subst hij
          rw [if_pos rfl, scaled_getElem?, getElem?_eq_some_getD 0 hi2, Option.map_some, hgi]
        · rw [if_neg hij]; exact hs1 j (by omega)
      · intro j hj
        simp only
        rw [getElem?_set_of_lt (by omega), if_neg (by omega)]
        exact hs2 j (by omega))
  rw [hr, bind_ok]
  congr 1
  apply List.ext_getElem?
  intro j
  by_cases hj : j < p.length
  · exact h3 j hj
  · rw [List.getElem?_eq_none (by omega), List.getElem?_eq_none (by rw [scaled_length]; omega)]

theorem scalePoly_eq (h5 : (5 : F) ≠ 0) (p : List F) : scalePoly p = .ok (scaled (5 : F)⁻¹ p) := by
  unfold scalePoly
  rw [frInv_of_ne h5, bind_ok, scaleSeq_spec]

theorem unscalePoly_eq (p : List F) : unscalePoly p = .ok (scaled (5 : F) p) := scaleSeq_spec _ _

theorem scaleOk_zk (h5 : (5 : F) ≠ 0) (n : Nat) :
    ScaleOk (F := F) (fun p _ => scalePoly p) (fun p _ => unscalePoly p) n :=
  ⟨fun p _ => scalePoly_eq h5 p, fun p _ => unscalePoly_eq p⟩

theorem evalsWithZero_eq (samples : List (Option F)) (ze : List F) (hl : ze.length = samples.length) :
    evalsWithZero samples ze = Kzg.evalsWithZero samples ze samples.length := by
  rw [evalsWithZero_spec samples ze hl]
  unfold evalsWithZero
  refine fill_loop (by simp) _ ?_
  intro i s hi _ _ _
  rw [rd_getD none hi, bind_ok]
  cases hs : samples.getD i none with
  | none => simp only [sampleVal, hs, Option.getD_none, zero_mul]
  | some v =>
    simp only
    rw [rd_getD 0 (by omega), bind_ok]
    simp only [sampleVal, hs, Option.getD_some]

theorem divPointwise_eq (a b : List F) (n : Nat) : divPointwise a b n = Kzg.divPointwise a b n := by
  unfold divPointwise Kzg.divPointwise
  simp only [frDiv_eq, bind_ok]

theorem checkMask_eq (samples : List (Option F)) (ze : List F) (hl : ze.length = samples.length) :
    checkMask samples ze = Kzg.checkMask .panic samples ze samples.length := by
  unfold checkMask Kzg.checkMask
  rw [hl, min_self]
  congr 1
  funext i _
  by_cases h : i < samples.length
  · rw [rd_getD none h, rd_getD 0 (by omega)]
    simp only [bind_ok]
    by_cases h1 : (samples.getD i none).isNone = decide (ze.getD i 0 = 0)
    · rw [if_pos h1, if_neg (by rw [h1]; simp)]
    · rw [if_neg h1, if_pos (by simpa using h1)]
  · rw [rd_of_ge (by omega), rd_of_ge (by omega)]; rfl

end Loops

section Top
variable {F : Type} [Field F] [DecidableEq F] [FrTable F] [LawfulFr F]

/-- The inputs on which the recovery gets as far as its final comparison. -/
structure Recoverable (K n m : Nat) : Prop where
  width : n ≤ K
  pos : 0 < m
  lt : m < 2 ^ n
  safe : m ≤ 63 * (2 ^ n / 64 + 1)

/-- The evaluations and the coefficients of the zero polynomial. -/
noncomputable abbrev zeroEvals (fs : FFTSettings F) (n : Nat) (samples : List (Option F)) : List F :=
  (List.range (2 ^ n)).map fun j =>
    (linProd (fun i => fs.omega (2 ^ n) ^ i) (missingIdxs samples)).eval (fs.omega (2 ^ n) ^ j)

noncomputable abbrev zeroCoeffs (fs : FFTSettings F) (n : Nat) (samples : List (Option F)) : List F :=
  (List.range (2 ^ n)).map (linProd (fun i => fs.omega (2 ^ n) ^ i) (missingIdxs samples)).coeff

theorem zeroPoly_front {fs : FFTSettings F} {K : Nat} (hwf : fs.WF K) {n : Nat} (samples : List (Option F))
    (hl : samples.length = 2 ^ n) (hrec : Recoverable K n (missingIdxs samples).length) :
    zeroPolyViaMultiplication fs (2 ^ n) (missingIdxs samples) =
        .ok (zeroEvals fs n samples, zeroCoeffs fs n samples) ∧
      checkMask samples (zeroEvals fs n samples) = .ok () := by
  obtain ⟨hn, hpos, hlt, hsafe⟩ := hrec
  refine ⟨zeroPoly_of_ok (hwf.zeroPoly_spec hn (missing := missingIdxs samples)
    (fun i hi => by have := missing_lt hi; omega) (List.ne_nil_of_length_pos hpos) hlt hsafe), ?_⟩
  rw [checkMask_eq _ _ (by simp [hl])]
  refine checkMask_ok .panic samples _ (by simp [hl]) ?_
  intro i hi
  rw [getD_range_map, if_pos (by omega), linProd_eval, ← mem_missingIdxs]
  constructor
  · rintro ⟨j, hj, he⟩
    have := (hwf.omega_prim hn).pow_inj (by omega) (by have := missing_lt hj; omega) he
    rw [this]; exact hj
  · intro h; exact ⟨i, h, rfl⟩

theorem recover_front {fs : FFTSettings F} {K : Nat} (hwf : fs.WF K) {n : Nat} (samples : List (Option F))
    (hl : samples.length = 2 ^ n) (hrec : Recoverable K n (missingIdxs samples).length) :
    recover fs samples = (do
      let data ← fs.recoverCoreWith (fun p _ => scalePoly p) (fun p _ => unscalePoly p) samples (2 ^ n)
        (zeroEvals fs n samples) (zeroCoeffs fs n samples)
      checkData .panic samples data (2 ^ n)
      .ok data) := by
  obtain ⟨h1, h2⟩ := zeroPoly_front hwf samples hl hrec
  unfold recover
  rw [hl, isPowerOfTwo_two_pow, if_neg (by simp), h1, unwrap_ok, bind_ok]
  simp only
  rw [h2, bind_ok, evalsWithZero_eq _ _ (by simp [hl]), hl]
  unfold FFTSettings.recoverCoreWith
  simp only [divPointwise_eq, res_assoc]

theorem front_panic {fs : FFTSettings F} {K : Nat} (hwf : fs.WF K) {n : Nat} (samples : List (Option F))
    (hl : samples.length = 2 ^ n) (hbad : ¬ Recoverable K n (missingIdxs samples).length) :
    (zeroPolyViaMultiplication fs (2 ^ n) (missingIdxs samples)).unwrap = .panic ∨
      (zeroPolyViaMultiplication fs (2 ^ n) (missingIdxs samples) = .ok ([], []) ∧
        evalsWithZero samples ([] : List F) = .panic) := by
  have hposn : 0 < 2 ^ n := by positivity
  by_cases hpos : 0 < (missingIdxs samples).length
  swap
  · right
    have hnil : missingIdxs samples = [] := List.length_eq_zero_iff.mp (by omega)
    rw [hnil]
    refine ⟨rfl, ?_⟩
    unfold evalsWithZero
    rw [forRange_succ _ _ (by omega), rd_getD none (by omega), bind_ok]
    cases hs : samples.getD 0 none with
    | none =>
      exfalso
      have : 0 ∈ missingIdxs samples := mem_missingIdxs.2 (by rw [getElem?_eq_some_getD none (by omega), hs])
      rw [hnil] at this
      cases this
    | some v =>
      simp only
      rw [rd_of_ge (by simp), bind_panic, bind_panic]
  left
  have hne : (missingIdxs samples).isEmpty = false := by
    rw [List.isEmpty_eq_false_iff]; exact List.ne_nil_of_length_pos hpos
  by_cases hlt : (missingIdxs samples).length < 2 ^ n
  swap
  · unfold zeroPolyViaMultiplication
    rw [hne, if_neg (by simp), if_pos (by omega)]; rfl
  by_cases hK : n ≤ K
  swap
  · unfold zeroPolyViaMultiplication
    rw [hne, if_neg (by simp), if_neg (by omega), if_pos]
    · rfl
    · rw [hwf.width]; exact Nat.pow_lt_pow_right (by omega) (by omega)
  by_cases hsafe : (missingIdxs samples).length ≤ 63 * (2 ^ n / 64 + 1)
  · exact absurd ⟨hK, hpos, hlt, hsafe⟩ hbad
  · obtain ⟨e, he⟩ := zeroPoly_of_err (hwf.zeroPoly_err hK (missing := missingIdxs samples)
      (fun i hi => by have := missing_lt hi; omega) hlt (by omega))
    rw [he]; rfl

theorem recover_panic {fs : FFTSettings F} {K : Nat} (hwf : fs.WF K) (samples : List (Option F))
    (hbad : ¬ ∃ n, samples.length = 2 ^ n ∧ Recoverable K n (missingIdxs samples).length) :
    recover fs samples = .panic := by
  unfold recover
  by_cases hp2 : isPowerOfTwo samples.length = true
  swap
  · rw [if_pos (by simpa using hp2)]
  obtain ⟨n, hl⟩ := exists_of_isPowerOfTwo hp2
  rw [if_neg (by simp [hp2]), hl]
  rcases front_panic hwf samples hl (fun h => hbad ⟨n, hl, h⟩) with h | ⟨h1, h2⟩
  · rw [h, bind_panic]
  · rw [h1, unwrap_ok, bind_ok]
    simp only
    have : checkMask samples ([] : List F) = .ok () := by
      unfold checkMask
      rw [List.length_nil, Nat.zero_min]; rfl
    rw [this, bind_ok, h2, bind_panic]

/-- Outcome of the recovery on the supported inputs. -/
theorem recover_outcome {fs : FFTSettings F} {K : Nat} (hwf : fs.WF K) {n : Nat} (samples : List (Option F))
    (hl : samples.length = 2 ^ n) (hrec : Recoverable K n (missingIdxs samples).length) :
    (∀ p : F[X], p.degree + (missingIdxs samples).length < (2 ^ n : Nat) →
      (∀ (i : Nat) (v : F), samples[i]? = some (some v) → v = p.eval (fs.omega (2 ^ n) ^ i)) →
      recover fs samples = .ok ((List.range (2 ^ n)).map fun i => p.eval (fs.omega (2 ^ n) ^ i))) ∧
    ((¬ ∃ p : F[X], p.degree + (missingIdxs samples).length < (2 ^ n : Nat) ∧
      ∀ (i : Nat) (v : F), samples[i]? = some (some v) → v = p.eval (fs.omega (2 ^ n) ^ i)) →
      recover fs samples = .panic) :=
  hwf.core_outcome hrec.width (scaleOk_zk (LawfulFr.five_ne (F := F)) n) .panic (fun _ => nofun) samples hl hrec.lt
    (recover_front hwf samples hl hrec)

end Top

section Tables
variable {F : Type} [Field F] [DecidableEq F]

/-- The first `k` powers of the factor. -/
def powers (f : F) (k : Nat) : List F := (List.range k).map (f ^ ·)

theorem powers_length (f : F) (k : Nat) : (powers f k).length = k := by simp [powers]

theorem powers_getElem? (f : F) {k i : Nat} (h : i < k) : (powers f k)[i]? = some (f ^ i) := by
  unfold powers
  rw [List.getElem?_map, List.getElem?_range h, Option.map_some]

theorem powers_succ (f : F) (k : Nat) : powers f (k + 1) = powers f k ++ [f ^ k] := by
  unfold powers
  rw [List.range_succ, List.map_append, List.map_singleton]

theorem growTable_powers (f : F) (k n : Nat) : growTable f (powers f k) n = .ok (powers f (max k n)) := by
  unfold growTable
  rw [powers_length]
  by_cases h : k < n
  swap
  · rw [if_neg h, max_eq_left (by omega)]
  rw [if_pos h, max_eq_right (by omega)]
  have ht : (if (powers f k).isEmpty then [1] else powers f k) = powers f (max k 1) := by
    by_cases hk : k = 0
    · subst hk; simp [powers]
    · rw [if_neg, max_eq_left (by omega)]
      rw [List.isEmpty_iff, ← List.length_eq_zero_iff, powers_length]; exact hk
  simp only [ht, powers_length]
  obtain ⟨r, hr, h1⟩ := forRange_inv (lo := max k 1) (hi := n) (s := powers f (max k 1))
    (body := fun i t => do
      let k ← subU i 1
      let x ← rd t k
      .ok (t ++ [x * f]))
    (fun i t => t = powers f i) (by omega) rfl (by
      rintro i t hi1 hi2 rfl
      rw [subU_of_le (by omega), bind_ok, rd_of_getElem? (powers_getElem? f (by omega)), bind_ok, ← pow_succ,
        show i - 1 + 1 = i by omega, ← powers_succ]
      exact Sat.ok rfl)
  rw [hr, h1]

theorem scaleByTable_spec (f : F) (table p : List F) (h : ∀ i < p.length, table[i]? = some (f ^ i)) :
    scaleByTable table p = .ok (scaled f p) := by
  unfold scaleByTable
  by_cases h0 : p.length = 0
  · have : p = [] := List.length_eq_zero_iff.mp h0
    subst this
    rfl
  obtain ⟨r, hr, h2, h3, h4⟩ := forRange_inv (lo := 1) (hi := p.length) (s := p)
    (body := fun i p => do
      let x ← rd p i
      let f ← rd table i
      wr p i (x * f))
    (fun i s => s.length = p.length ∧ (∀ j < i, s[j]? = (scaled f p)[j]?) ∧
      ∀ j, i ≤ j → s[j]? = p[j]?) (by omega)
    ⟨rfl, fun j hj => by
      have : j = 0 := by omega
      subst this
      rw [scaled_getElem?]
      simp, fun _ _ => rfl⟩ (by
      rintro i s hi1 hi2 ⟨hl, hs1, hs2⟩
      rw [rd_of_getElem? (x := p.getD i 0) (by rw [hs2 i le_rfl, getElem?_eq_some_getD 0 hi2]), bind_ok,
        rd_of_getElem? (h i hi2), bind_ok, wr_of_lt (by omega)]
      refine Sat.ok ⟨by simp [hl], ?_, ?_⟩
      · intro j hj
        rw [getElem?_set_of_lt (by omega)]
        by_cases hij : j = i
        · subst hij
          rw [if_pos rfl, scaled_getElem?, getElem?_eq_some_getD 0 hi2, Option.map_some]
        · rw [if_neg hij]; exact hs1 j (by omega)
      · intro j hj
        rw [getElem?_set_of_lt (by omega), if_neg (by omega)]
        exact hs2 j (by omega))
  rw [hr]
  congr 1
  apply List.ext_getElem?
  intro j
  by_cases hj : j < p.length
  · exact h3 j hj
  · rw [List.getElem?_eq_none (by omega), List.getElem?_eq_none (by rw [scaled_length]; omega)]

theorem unscalePolyPar_spec (k : Nat) (p : List F) :
    unscalePolyPar (powers (5 : F) k) p = .ok (powers (5 : F) (max k p.length), scaled (5 : F) p) := by
  unfold unscalePolyPar
  rw [growTable_powers, bind_ok, scaleByTable_spec (5 : F) _ _ (fun i hi => powers_getElem? _ (by omega)), bind_ok]

theorem scalePolyPar_spec (h5 : (5 : F) ≠ 0) (k : Nat) (p : List F) (h0 : 0 < p.length)
    (hp : p.length ≤ 2 ^ 63) :
    ∃ k', scalePolyPar (powers (5 : F)⁻¹ k) p = .ok (powers (5 : F)⁻¹ k', scaled (5 : F)⁻¹ p) := by
  unfold scalePolyPar
  rw [frInv_of_ne h5, bind_ok, subU_of_le (by omega), bind_ok]
  have : ∃ o, stdNextPowerOfTwo (p.length - 1) = .ok o := by
    unfold stdNextPowerOfTwo
    rw [if_pos (by omega)]
    exact ⟨_, rfl⟩
  obtain ⟨o, ho⟩ := this
  rw [ho, bind_ok]
  split
  · rw [growTable_powers, bind_ok, scaleByTable_spec (5 : F)⁻¹ _ _ (fun i hi => powers_getElem? _ (by omega)),
      bind_ok]
    exact ⟨_, rfl⟩
  · rw [scaleSeq_spec, bind_ok]
    exact ⟨_, rfl⟩

end Tables

section Par
variable {F : Type} [Field F] [DecidableEq F] [FrTable F] [LawfulFr F]

/-- The recovery with the tables returns what the recovery without them returns, and leaves tables of
powers. -/
theorem recoverPar_spec {fs : FFTSettings F} {K : Nat} (hwf : fs.WF K) (ki kp : Nat) (samples : List (Option F)) :
    match recover fs samples with
    | .ok out => ∃ ki' kp', recoverPar fs (powers (5 : F)⁻¹ ki, powers (5 : F) kp) samples =
        .ok ((powers (5 : F)⁻¹ ki', powers (5 : F) kp'), out)
    | .err _ => False
    | .panic => recoverPar fs (powers (5 : F)⁻¹ ki, powers (5 : F) kp) samples = .panic := by
  have h5 : (5 : F) ≠ 0 := LawfulFr.five_ne
  by_cases hrec : ∃ n, samples.length = 2 ^ n ∧ Recoverable K n (missingIdxs samples).length
  swap
  · rw [recover_panic hwf samples hrec]
    simp only
    unfold recoverPar
    by_cases hp2 : isPowerOfTwo samples.length = true
    swap
    · rw [if_pos (by simpa using hp2)]
    obtain ⟨n, hl⟩ := exists_of_isPowerOfTwo hp2
    rw [if_neg (by simp [hp2]), hl]
    rcases front_panic hwf samples hl (fun h => hrec ⟨n, hl, h⟩) with h | ⟨h1, h2⟩
    · rw [h, bind_panic]
    · rw [h1, unwrap_ok, bind_ok]
      simp only
      have : checkMask samples ([] : List F) = .ok () := by
        unfold checkMask
        rw [List.length_nil, Nat.zero_min]; rfl
      rw [this, bind_ok, h2, bind_panic]
  obtain ⟨n, hl, hrec⟩ := hrec
  obtain ⟨h1, h2⟩ := zeroPoly_front hwf samples hl hrec
  have hn := hrec.width
  have hK := hwf.lt
  have hn0 : 0 < n := by
    have := hrec.pos; have := hrec.lt
    rcases Nat.eq_zero_or_pos n with h | h
    · subst h; omega
    · exact h
  have h2n : 2 ^ 1 ≤ 2 ^ n := Nat.pow_le_pow_right (by omega) hn0
  have h2n' : 2 ^ n ≤ 2 ^ 32 := Nat.pow_le_pow_right (by omega) (by omega)
  unfold recover recoverPar
  rw [hl, isPowerOfTwo_two_pow, if_neg (by simp), if_neg (by simp), h1, unwrap_ok, bind_ok, bind_ok]
  simp only
  rw [h2, bind_ok, bind_ok, evalsWithZero_eq _ _ (by simp [hl]), evalsWithZero_spec samples _ (by simp [hl]),
    bind_ok, bind_ok]
  generalize hez : (List.range samples.length).map (fun i =>
    sampleVal samples i * (zeroEvals fs n samples).getD i 0) = ez
  have hezl : ez.length = 2 ^ n := by rw [← hez]; simp [hl]
  obtain ⟨pz, hpz, hpzl, _⟩ := hwf.fft_backward hn ez hezl
  rw [FFTSettings.fftFr, hpz, unwrap_ok, bind_ok, bind_ok, scalePoly_eq h5, bind_ok, scalePoly_eq h5, bind_ok]
  have hnp : ∃ o, nextPowerOfTwo (2 ^ n - 1) = .ok o := ⟨_, nextPowerOfTwo_eq (by omega) (by omega)⟩
  obtain ⟨o, ho⟩ := hnp
  rw [hpzl, subU_of_le (by omega), bind_ok, ho, bind_ok]
  obtain ⟨k1, hk1⟩ := scalePolyPar_spec h5 ki pz (by omega) (by omega)
  obtain ⟨k2, hk2⟩ := scalePolyPar_spec h5 k1 (zeroCoeffs fs n samples) (by simp) (by simp; omega)
  rw [hk1, bind_ok]
  simp only
  rw [hk2, bind_ok]
  simp only
  obtain ⟨a, ha, hal, _⟩ := hwf.fft_forward hn (scaled (5 : F)⁻¹ pz) (by rw [scaled_length, hpzl])
  obtain ⟨b, hb, hbl, _⟩ := hwf.fft_forward hn (scaled (5 : F)⁻¹ (zeroCoeffs fs n samples))
    (by rw [scaled_length]; simp)
  rw [FFTSettings.fftFr, ha, unwrap_ok, bind_ok, bind_ok, FFTSettings.fftFr, hb, unwrap_ok, bind_ok, bind_ok,
    divPointwise_eq, divPointwise_spec _ _ _ hal hbl, bind_ok, bind_ok]
  generalize hq : (List.range (2 ^ n)).map (fun i => a.getD i 0 * (b.getD i 0)⁻¹) = q
  obtain ⟨c, hc, hcl, _⟩ := hwf.fft_backward hn q (by rw [← hq]; simp)
  rw [FFTSettings.fftFr, hc, unwrap_ok, bind_ok, bind_ok, unscalePoly_eq, bind_ok, unscalePolyPar_spec, bind_ok]
  simp only
  obtain ⟨d, hd, hdl, _⟩ := hwf.fft_forward hn (scaled (5 : F) c) (by rw [scaled_length, hcl])
  rw [FFTSettings.fftFr, hd, unwrap_ok, bind_ok, bind_ok]
  cases hcd : checkData .panic samples d (2 ^ n) with
  | ok u => exact ⟨_, _, rfl⟩
  | panic => rfl
  | err e =>
    have := checkData_cases (F := F) (fail := .panic) (fun _ => nofun) samples d (by omega)
    rw [hl, hcd] at this
    simp at this

end Par

section Threads
variable {F : Type} [Field F] [DecidableEq F]

/-- What a thread that started on the polynomial `p0` has done, on a table that is already long enough. -/
def ThreadInv (f : F) (p0 : List F) (t : Thread F) : Prop :=
  t.p.length = p0.length ∧
    match t.pc with
    | .start => t.p = p0
    | .mul i => i < p0.length ∧ 1 ≤ i ∧ (∀ j < i, t.p[j]? = (scaled f p0)[j]?) ∧ ∀ j, i ≤ j → t.p[j]? = p0[j]?
    | .done => t.p = scaled f p0
    | _ => False

theorem scaled_short (f : F) (p : List F) (h : p.length ≤ 1) : scaled f p = p := by
  apply List.ext_getElem?
  intro j
  rw [scaled_getElem?]
  by_cases hj : j = 0
  · subst hj; cases p[0]? <;> simp
  · rw [List.getElem?_eq_none (by omega)]; rfl

theorem threadStep_inv (f : F) (k : Nat) (p0 : List F) (t : Thread F) (hk : p0.length ≤ k)
    (ht : ThreadInv f p0 t) :
    ∃ t', threadStep f (powers f k) t = .ok (powers f k, t') ∧ ThreadInv f p0 t' := by
  obtain ⟨pc, p⟩ := t
  obtain ⟨hl, ht⟩ := ht
  simp only at hl ht
  cases pc with
  | start =>
    simp only at ht
    subst ht
    simp only [threadStep, powers_length]
    rw [if_neg (by omega)]
    refine ⟨_, rfl, ?_⟩
    by_cases h1 : 1 < p.length
    · rw [if_pos h1]
      refine ⟨rfl, h1, le_rfl, fun j hj => ?_, fun _ _ => rfl⟩
      have : j = 0 := by omega
      subst this
      rw [scaled_getElem?]; simp
    · rw [if_neg h1]
      exact ⟨rfl, (scaled_short f p (by omega)).symm⟩
  | mul i =>
    obtain ⟨hi, hi1, hs1, hs2⟩ := ht
    simp only [threadStep]
    rw [rd_of_getElem? (x := p0.getD i 0) (by rw [hs2 i le_rfl, getElem?_eq_some_getD 0 hi]), bind_ok,
      rd_of_getElem? (powers_getElem? f (by omega)), bind_ok, wr_of_lt (by omega), bind_ok]
    refine ⟨_, rfl, by simp [hl], ?_⟩
    have key : ∀ j < i + 1, (p.set i (p0.getD i 0 * f ^ i))[j]? = (scaled f p0)[j]? := by
      intro j hj
      rw [getElem?_set_of_lt (by omega)]
      by_cases hij : j = i
      · subst hij
        rw [if_pos rfl, scaled_getElem?, getElem?_eq_some_getD 0 hi, Option.map_some]
      · rw [if_neg hij]; exact hs1 j (by omega)
    by_cases h1 : i + 1 < p.length
    · simp only [if_pos h1]
      refine ⟨by omega, by omega, key, fun j hj => ?_⟩
      rw [getElem?_set_of_lt (by omega), if_neg (by omega)]
      exact hs2 j (by omega)
    · simp only [if_neg h1]
      apply List.ext_getElem?
      intro j
      by_cases hj : j < p0.length
      · exact key j (by omega)
      · rw [List.getElem?_eq_none (by simp; omega), List.getElem?_eq_none (by rw [scaled_length]; omega)]
  | done => exact ⟨_, rfl, hl, ht⟩
  | checkEmpty => exact ht.elim
  | pushOne => exact ht.elim
  | range => exact ht.elim
  | readPrev i => exact ht.elim
  | push i x => exact ht.elim

/-- On a table that is long enough, every schedule keeps the table, never panics, and every thread that has
finished has scaled its polynomial. -/
theorem runThreads_inv (f : F) (k : Nat) (ps : List (List F)) (hk : ∀ p ∈ ps, p.length ≤ k) :
    ∀ (schedule : List Nat) (ts : List (Thread F)), List.Forall₂ (ThreadInv f) ps ts →
      (∀ i ∈ schedule, i < ps.length) →
      ∃ ts', runThreads f schedule (powers f k) ts = .ok (powers f k, ts') ∧ List.Forall₂ (ThreadInv f) ps ts'
  | [], ts, h, _ => ⟨ts, rfl, h⟩
  | i :: is, ts, h, hs => by
    have hlen := h.length_eq
    have hi : i < ps.length := hs i (by simp)
    have hi' : i < ts.length := by omega
    have hti := (List.forall₂_iff_get.1 h).2 i hi hi'
    simp only [List.get_eq_getElem] at hti
    obtain ⟨t', h1, h2⟩ := threadStep_inv f k ps[i] ts[i] (hk _ (List.getElem_mem _)) hti
    unfold runThreads
    rw [rd_of_getElem? (List.getElem?_eq_getElem hi'), bind_ok, h1, bind_ok]
    simp only
    rw [wr_of_lt hi', bind_ok]
    refine runThreads_inv f k ps hk is _ ?_ (fun j hj => hs j (by simp [hj]))
    rw [List.forall₂_iff_get]
    refine ⟨by simp [hlen], fun j hj1 hj2 => ?_⟩
    simp only [List.get_eq_getElem, List.getElem_set]
    split
    · rename_i hij
      subst hij
      exact h2
    · exact (List.forall₂_iff_get.1 h).2 j hj1 (by simpa using hj2)

theorem threadInv_start (f : F) (ps : List (List F)) :
    List.Forall₂ (ThreadInv f) ps (ps.map fun p => ⟨.start, p⟩) := by
  rw [List.forall₂_map_right_iff]
  exact List.forall₂_same.2 fun p _ => ⟨rfl, rfl⟩

/-- Two threads, each finding the shared table empty: afterwards it starts with two ones. -/
theorem race (f x y u v : F) :
    runThreads f [0, 1, 0, 1, 0, 1, 0, 0, 1, 1] [] [⟨.start, [x, y]⟩, ⟨.start, [u, v]⟩] =
      .ok ([1, 1], [⟨.done, [x, y]⟩, ⟨.done, [u, v]⟩]) := by
  simp [runThreads, threadStep, growFrom, rd, wr]

theorem unscale_after_race (x y : F) : unscalePolyPar [1, 1] [x, y] = .ok ([1, 1], [x, y]) := by
  simp [unscalePolyPar, growTable, scaleByTable, forRange, forLoop, rd, wr]

end Threads
end Kzg.ZkP
