import Verif.Model.Recovery
import Verif.Proofs.ZeroPolyTop
import Verif.Proofs.Scale
import Mathlib.LinearAlgebra.Lagrange
/-!
# Recovery: proofs
-/

set_option linter.unusedSectionVars false

namespace Kzg
open Res Polynomial Finset

variable {F : Type} [Field F] [DecidableEq F]

/-! ### Loops -/

theorem mem_missingIdxs {samples : List (Option F)} {i : Nat} :
    i ∈ missingIdxs samples ↔ samples[i]? = some none := by
  simp only [missingIdxs, List.mem_filter, List.mem_range]
  constructor
  · rintro ⟨h1, h2⟩
    rw [getElem?_eq_some_getD none h1, Option.isNone_iff_eq_none.mp h2]
  · intro h
    obtain ⟨h1, h2⟩ := List.getElem?_eq_some_iff.mp h
    refine ⟨h1, ?_⟩
    rw [List.getD_eq_getElem?_getD, h]; rfl

theorem missingIdxs_length (samples : List (Option F)) :
    (missingIdxs samples).length = samples.countP Option.isNone := by
  have h : samples.countP Option.isNone =
      ((List.range samples.length).map fun i => samples.getD i none).countP Option.isNone := by
    rw [← eq_map_getD samples none]
  rw [h, List.countP_map, List.countP_eq_length_filter]
  rfl

/-- The value of a sample, zero if missing. -/
def sampleVal (samples : List (Option F)) (i : Nat) : F := (samples.getD i none).getD 0

theorem checkMask_ok (fail : Res Unit) (samples : List (Option F)) (ze : List F)
    (hl : ze.length = samples.length)
    (h : ∀ i < samples.length, ze.getD i 0 = 0 ↔ samples[i]? = some none) :
    checkMask fail samples ze samples.length = .ok () := by
  obtain ⟨r, hr, _⟩ := forRange_inv (lo := 0) (hi := samples.length) (s := ())
    (body := fun i _ => do
      let s ← rd samples i
      let z ← rd ze i
      if s.isNone != decide (z = 0) then fail else .ok ()) (fun _ _ => True) (Nat.zero_le _) trivial (by
      intro i _ _ hi _
      rw [rd_getD none hi, bind_ok, rd_getD 0 (by omega), bind_ok, if_neg]
      · exact Sat.ok trivial
      · have := h i hi
        rw [getElem?_eq_some_getD none hi, Option.some_inj] at this
        by_cases hz : ze.getD i 0 = 0
        · simp only [decide_eq_true hz]; rw [this.mp hz]; simp
        · simp only [decide_eq_false hz]
          have h2 : samples.getD i none ≠ none := fun h' => hz (this.mpr h')
          cases hs : samples.getD i none with
          | none => exact absurd hs h2
          | some v => simp)
  exact hr

theorem evalsWithZero_spec (samples : List (Option F)) (ze : List F)
    (hl : ze.length = samples.length) :
    evalsWithZero samples ze samples.length = .ok ((List.range samples.length).map fun i =>
      sampleVal samples i * ze.getD i 0) := by
  obtain ⟨r, hr, h⟩ := forRange_inv (lo := 0) (hi := samples.length) (s := ([] : List F))
    (body := fun i acc => do
      let s ← rd samples i
      match s with
      | none => .ok (acc ++ [0])
      | some v => do
        let z ← rd ze i
        .ok (acc ++ [v * z]))
    (fun i acc => acc = (List.range i).map fun i => sampleVal samples i * ze.getD i 0)
    (Nat.zero_le _) rfl (by
      intro i acc _ hi hacc
      rw [rd_getD none hi, bind_ok]
      cases hs : samples.getD i none with
      | none =>
        refine Sat.ok ?_
        rw [List.range_succ, List.map_append, hacc]
        simp only [sampleVal, hs, List.map_cons, List.map_nil, Option.getD_none, zero_mul]
      | some v =>
        simp only
        rw [rd_getD 0 (by omega), bind_ok]
        refine Sat.ok ?_
        rw [List.range_succ, List.map_append, hacc]
        simp only [sampleVal, hs, List.map_cons, List.map_nil, Option.getD_some])
  rw [evalsWithZero, ← h]
  exact hr

theorem divPointwise_spec (a b : List F) (n : Nat) (ha : a.length = n) (hb : b.length = n) :
    divPointwise a b n = .ok ((List.range n).map fun i => a.getD i 0 * (b.getD i 0)⁻¹) := by
  unfold divPointwise
  refine fill_loop (by omega) _ ?_
  intro i s hi _ _ _
  rw [rd_getD 0 (by omega : i < a.length), bind_ok, rd_getD 0 (by omega : i < b.length), bind_ok]

/-- The final comparison succeeds exactly if the data agrees with all present samples. -/
theorem checkData_ok (fail : Res Unit) (samples : List (Option F)) (data : List F)
    (h : ∀ (i : Nat) (v : F), samples[i]? = some (some v) → data[i]? = some v) :
    checkData fail samples data samples.length = .ok () := by
  obtain ⟨r, hr, _⟩ := forRange_inv (lo := 0) (hi := samples.length) (s := ())
    (body := fun i _ => do
      let s ← rd samples i
      match s with
      | none => .ok ()
      | some v => do
        let d ← rd data i
        if d = v then .ok () else fail) (fun _ _ => True) (Nat.zero_le _) trivial (by
      intro i _ _ hi _
      rw [rd_getD none hi, bind_ok]
      cases hs : samples.getD i none with
      | none => exact Sat.ok trivial
      | some v =>
        simp only
        have := h i v (by rw [getElem?_eq_some_getD none hi, hs])
        rw [rd_of_getElem? this, bind_ok, if_pos rfl]
        exact Sat.ok trivial)
  exact hr

theorem forLoop_ok_inv {σ : Type} {body : Nat → σ → Res σ} (Q : Nat → Prop)
    (hb : ∀ i s s', body i s = .ok s' → Q i) : ∀ (n lo : Nat) (s r : σ),
    forLoop body n lo s = .ok r → ∀ i, lo ≤ i → i < lo + n → Q i := by
  intro n
  induction n with
  | zero => intro lo s r _ i h1 h2; omega
  | succ n ih =>
    intro lo s r h i h1 h2
    simp only [forLoop] at h
    cases hbs : body lo s with
    | ok a =>
      rw [hbs, bind_ok] at h
      by_cases hi : i = lo
      · subst hi; exact hb _ _ _ hbs
      · exact ih (lo + 1) a r h i (by omega) (by omega)
    | err a => rw [hbs] at h; cases h
    | panic => rw [hbs] at h; cases h

theorem checkData_of_ok {fail : Res Unit} (hfail : ∀ u, fail ≠ .ok u) {samples : List (Option F)}
    {data : List F} {n : Nat} {u : Unit} (h : checkData fail samples data n = .ok u) :
    ∀ i < n, ∀ v, samples[i]? = some (some v) → data[i]? = some v := by
  intro i hi
  refine forLoop_ok_inv (fun i => ∀ v, samples[i]? = some (some v) → data[i]? = some v) ?_ n 0 () u
    (by simpa [checkData, forRange] using h) i (Nat.zero_le _) (by omega)
  intro i s s' hbody v hv
  rw [rd_of_getElem? hv, bind_ok] at hbody
  simp only at hbody
  cases hd : data[i]? with
  | none => simp [rd, hd] at hbody
  | some d =>
    rw [rd_of_getElem? hd, bind_ok] at hbody
    by_cases hdv : d = v
    · rw [hdv]
    · rw [if_neg hdv] at hbody
      exact absurd hbody (hfail _)

/-! ### The core -/

section
variable [FrTable F] [LawfulFr F]

theorem five_not_root {x : F} {n : Nat} (hn : n ≤ 31) (hx : x ^ 2 ^ n = 1) (j : F) (hj : j ^ 2 ^ n = 1) :
    (5 : F)⁻¹ * x ≠ j := by
  intro h
  have h5 := LawfulFr.five_ne (F := F)
  have h1 : ((5 : F)⁻¹ * x) ^ 2 ^ n = 1 := by rw [h, hj]
  rw [mul_pow, hx, mul_one, inv_pow, inv_eq_one] at h1
  apply LawfulFr.five_pow (F := F)
  rw [show 2 ^ 31 = 2 ^ n * 2 ^ (31 - n) by rw [← pow_add]; congr 1; omega, pow_mul, h1, one_pow]

theorem FFTSettings.WF.omega_pow_one {fs : FFTSettings F} {K : Nat} (hwf : fs.WF K) {n : Nat} (hn : n ≤ K)
    (i : Nat) : (fs.omega (2 ^ n) ^ i) ^ 2 ^ n = 1 := by
  rw [← pow_mul, mul_comm, pow_mul, (hwf.omega_prim hn).pow_eq_one, one_pow]

/-- The zero polynomial does not vanish on the shifted domain. -/
theorem FFTSettings.WF.zero_shift_ne {fs : FFTSettings F} {K : Nat} (hwf : fs.WF K) {n : Nat} (hn : n ≤ K)
    (missing : List Nat) (i : Nat) :
    (linProd (fun j => fs.omega (2 ^ n) ^ j) missing).eval ((5 : F)⁻¹ * fs.omega (2 ^ n) ^ i) ≠ 0 := by
  intro h
  rw [linProd_eval] at h
  obtain ⟨j, _, hj⟩ := h
  have hlt := hwf.lt
  exact five_not_root (by omega) (hwf.omega_pow_one hn i) _ (hwf.omega_pow_one hn j) hj

/-- The core with the two scaling functions as parameters. -/
def FFTSettings.recoverCoreWith (fs : FFTSettings F) (scale unscale : List F → Nat → Res (List F))
    (samples : List (Option F)) (len : Nat) (zeroEval zeroPoly : List F) : Res (List F) := do
  let ez ← evalsWithZero samples zeroEval len
  let polyWithZero ← (fs.fftFr ez true).unwrap
  let lenZeroPoly := zeroPoly.length
  let scaledPolyWithZero ← scale polyWithZero len
  let scaledZeroPoly ← scale zeroPoly lenZeroPoly
  let evalPoly ← (fs.fftFr scaledPolyWithZero false).unwrap
  let evalZero ← (fs.fftFr scaledZeroPoly false).unwrap
  let evalRec ← divPointwise evalPoly evalZero len
  let scaledRec ← (fs.fftFr evalRec true).unwrap
  let rec' ← unscale scaledRec len
  (fs.fftFr rec' false).unwrap

theorem recoverCore_eq (fs : FFTSettings F) : fs.recoverCore = fs.recoverCoreWith scalePoly unscalePoly := rfl

/-- The two scaling functions multiply coefficient `i` by `5^-i` and `5^i`. -/
structure ScaleOk (scale unscale : List F → Nat → Res (List F)) (n : Nat) : Prop where
  down : ∀ p : List F, p.length = 2 ^ n →
    scale p p.length = .ok ((List.range p.length).map fun i => p.getD i 0 * ((5 : F)⁻¹) ^ i)
  up : ∀ p : List F, p.length = 2 ^ n →
    unscale p p.length = .ok ((List.range p.length).map fun i => p.getD i 0 * (5 : F) ^ i)

theorem scaleOk_blst {n : Nat} (h16 : n ≤ 16) : ScaleOk (F := F) scalePoly unscalePoly n := by
  have h65 : 2 ^ n ≤ 65536 := by
    calc 2 ^ n ≤ 2 ^ 16 := Nat.pow_le_pow_right (by omega) h16
      _ = 65536 := by norm_num
  exact ⟨fun p hp => scalePoly_spec p (by omega), fun p hp => unscalePoly_spec p (by omega)⟩

/-- What the core computes: `T` with `T · Z = PZ` on the shifted domain, where `PZ` interpolates the
samples times `Z`. -/
theorem FFTSettings.WF.recoverCore_spec {fs : FFTSettings F} {K : Nat} (hwf : fs.WF K) {n : Nat}
    (hn : n ≤ K) {scale unscale : List F → Nat → Res (List F)} (hsc : ScaleOk scale unscale n)
    (samples : List (Option F)) (hl : samples.length = 2 ^ n)
    (Z : F[X]) (hZ : Z.degree < (2 ^ n : Nat)) :
    ∃ PZ T : F[X], PZ.degree < (2 ^ n : Nat) ∧ T.degree < (2 ^ n : Nat) ∧
      (∀ i < 2 ^ n, PZ.eval (fs.omega (2 ^ n) ^ i) =
        sampleVal samples i * Z.eval (fs.omega (2 ^ n) ^ i)) ∧
      (∀ i < 2 ^ n, T.eval ((5 : F)⁻¹ * fs.omega (2 ^ n) ^ i) =
        PZ.eval ((5 : F)⁻¹ * fs.omega (2 ^ n) ^ i) *
          (Z.eval ((5 : F)⁻¹ * fs.omega (2 ^ n) ^ i))⁻¹) ∧
      fs.recoverCoreWith scale unscale samples (2 ^ n) ((List.range (2 ^ n)).map fun j => Z.eval (fs.omega (2 ^ n) ^ j))
        ((List.range (2 ^ n)).map Z.coeff) =
        .ok ((List.range (2 ^ n)).map fun i => T.eval (fs.omega (2 ^ n) ^ i)) := by
  have h5 := LawfulFr.five_ne (F := F)
  set ω := fs.omega (2 ^ n) with hω
  -- evaluations of `E * Z`
  have he := evalsWithZero_spec samples ((List.range (2 ^ n)).map fun j => Z.eval (ω ^ j)) (by simp [hl])
  rw [hl] at he
  set ez := (List.range (2 ^ n)).map fun i => sampleVal samples i *
    ((List.range (2 ^ n)).map fun j => Z.eval (ω ^ j)).getD i 0 with hez
  have hezl : ez.length = 2 ^ n := by rw [hez]; simp
  obtain ⟨pz, hpz, hpzl, _⟩ := hwf.fft_backward hn ez hezl
  have hpzv := hwf.fft_roundtrip' hn ez hezl
  rw [hpz, bind_ok, hwf.fft_eval hn pz hpzl] at hpzv
  have hpzv' : ∀ i < 2 ^ n, (polyOf pz).eval (ω ^ i) = sampleVal samples i * Z.eval (ω ^ i) := by
    intro i hi
    have h1 := congrArg (fun l => l.getD i 0) (Res.ok.inj hpzv)
    rw [getD_range_map, if_pos hi, hez, getD_range_map, if_pos hi, getD_range_map, if_pos hi] at h1
    exact h1
  -- scaling
  have hs1 := hsc.down pz hpzl
  rw [hpzl] at hs1
  have hs2 := hsc.down ((List.range (2 ^ n)).map Z.coeff) (by simp)
  have e1 := hwf.fft_eval hn ((List.range (2 ^ n)).map fun i => pz.getD i 0 * (5 : F)⁻¹ ^ i) (by simp)
  have e2 := hwf.fft_eval hn ((List.range ((List.range (2 ^ n)).map Z.coeff).length).map fun i =>
    ((List.range (2 ^ n)).map Z.coeff).getD i 0 * (5 : F)⁻¹ ^ i) (by simp)
  have v1 : ∀ x, (polyOf ((List.range (2 ^ n)).map fun i => pz.getD i 0 * (5 : F)⁻¹ ^ i)).eval x =
      (polyOf pz).eval ((5 : F)⁻¹ * x) := by
    intro x
    have := eval_scaled (5 : F)⁻¹ pz x
    rw [hpzl] at this; exact this
  have v2 : ∀ x, (polyOf ((List.range ((List.range (2 ^ n)).map Z.coeff).length).map fun i =>
      ((List.range (2 ^ n)).map Z.coeff).getD i 0 * (5 : F)⁻¹ ^ i)).eval x =
      Z.eval ((5 : F)⁻¹ * x) := by
    intro x
    rw [eval_scaled, polyOf_map_coeff hZ]
  simp only [v1] at e1
  simp only [v2] at e2
  -- division
  have hd := divPointwise_spec ((List.range (2 ^ n)).map fun i => (polyOf pz).eval ((5 : F)⁻¹ * ω ^ i))
    ((List.range (2 ^ n)).map fun i => Z.eval ((5 : F)⁻¹ * ω ^ i)) (2 ^ n) (by simp) (by simp)
  set dl := (List.range (2 ^ n)).map fun i =>
    ((List.range (2 ^ n)).map fun i => (polyOf pz).eval ((5 : F)⁻¹ * ω ^ i)).getD i 0 *
      (((List.range (2 ^ n)).map fun i => Z.eval ((5 : F)⁻¹ * ω ^ i)).getD i 0)⁻¹ with hdl
  have hdll : dl.length = 2 ^ n := by rw [hdl]; simp
  obtain ⟨r, hr, hrl, _⟩ := hwf.fft_backward hn dl hdll
  have hrv := hwf.fft_roundtrip' hn dl hdll
  rw [hr, bind_ok, hwf.fft_eval hn r hrl] at hrv
  have hrv' : ∀ i < 2 ^ n, (polyOf r).eval (ω ^ i) = (polyOf pz).eval ((5 : F)⁻¹ * ω ^ i) *
      (Z.eval ((5 : F)⁻¹ * ω ^ i))⁻¹ := by
    intro i hi
    have h1 := congrArg (fun l => l.getD i 0) (Res.ok.inj hrv)
    rw [getD_range_map, if_pos hi, hdl, getD_range_map, if_pos hi, getD_range_map, if_pos hi,
      getD_range_map, if_pos hi] at h1
    exact h1
  have hu := hsc.up r hrl
  rw [hrl] at hu
  have e3 := hwf.fft_eval hn ((List.range (2 ^ n)).map fun i => r.getD i 0 * (5 : F) ^ i) (by simp)
  set T := polyOf ((List.range (2 ^ n)).map fun i => r.getD i 0 * (5 : F) ^ i) with hT
  have v3 : ∀ x, T.eval x = (polyOf r).eval ((5 : F) * x) := by
    intro x
    have := eval_scaled (5 : F) r x
    rw [hrl] at this; exact this
  refine ⟨polyOf pz, T, by rw [← hpzl]; exact degree_polyOf_lt pz, ?_, hpzv', ?_, ?_⟩
  · have := degree_polyOf_lt ((List.range (2 ^ n)).map fun i => r.getD i 0 * (5 : F) ^ i)
    simp only [List.length_map, List.length_range] at this
    exact this
  · intro i hi
    rw [v3, ← mul_assoc, mul_inv_cancel₀ h5, one_mul, hrv' i hi]
  · unfold FFTSettings.recoverCoreWith
    rw [he, bind_ok, show fs.fftFr ez true = _ from hpz, unwrap_ok, bind_ok]
    simp only
    rw [hs1, bind_ok, hs2, bind_ok]
    rw [show fs.fftFr ((List.range (2 ^ n)).map fun i => pz.getD i 0 * (5 : F)⁻¹ ^ i) false = _ from e1,
      unwrap_ok, bind_ok]
    rw [show fs.fftFr ((List.range ((List.range (2 ^ n)).map Z.coeff).length).map fun i =>
      ((List.range (2 ^ n)).map Z.coeff).getD i 0 * (5 : F)⁻¹ ^ i) false = _ from e2,
      unwrap_ok, bind_ok, hd, bind_ok, show fs.fftFr dl true = _ from hr, unwrap_ok, bind_ok, hu,
      bind_ok, show fs.fftFr _ false = _ from e3]
    rfl

/-- Two polynomials of degree below `2^n` that agree on `2^n` points `a ω^i`. -/
theorem eq_of_coset {w a : F} {N : Nat} (hw : IsPrimitiveRoot w N) (ha : a ≠ 0) {p q : F[X]}
    (hp : p.degree < N) (hq : q.degree < N) (h : ∀ i < N, p.eval (a * w ^ i) = q.eval (a * w ^ i)) :
    p = q := by
  by_cases hN : N = 0
  · subst hN
    have h1 : p = 0 := by simpa using hp
    have h2 : q = 0 := by simpa using hq
    rw [h1, h2]
  rw [← sub_eq_zero]
  refine eq_zero_of_degree_lt_of_eval_finset_eq_zero ((range N).image fun i => a * w ^ i) ?_ ?_
  · rw [card_image_of_injOn]
    · rw [card_range]; exact lt_of_le_of_lt (degree_sub_le p q) (max_lt hp hq)
    · intro i hi j hj hij
      simp only [coe_range, Set.mem_Iio] at hi hj
      exact hw.pow_inj hi hj (mul_left_cancel₀ ha hij)
  · intro x hx
    obtain ⟨i, hi, rfl⟩ := mem_image.mp hx
    rw [eval_sub, h i (mem_range.mp hi), sub_self]

/-- If the samples come from a polynomial of small degree, the core returns its values. -/
theorem FFTSettings.WF.recoverCore_complete {fs : FFTSettings F} {K : Nat} (hwf : fs.WF K) {n : Nat}
    (hn : n ≤ K) {scale unscale : List F → Nat → Res (List F)} (hsc : ScaleOk scale unscale n)
    (samples : List (Option F)) (hl : samples.length = 2 ^ n)
    (p : F[X]) (hp : p.degree + (missingIdxs samples).length < (2 ^ n : Nat))
    (hm : (missingIdxs samples).length < 2 ^ n)
    (hs : ∀ i v, samples[i]? = some (some v) → v = p.eval (fs.omega (2 ^ n) ^ i)) :
    fs.recoverCoreWith scale unscale samples (2 ^ n)
      ((List.range (2 ^ n)).map fun j =>
        (linProd (fun i => fs.omega (2 ^ n) ^ i) (missingIdxs samples)).eval (fs.omega (2 ^ n) ^ j))
      ((List.range (2 ^ n)).map (linProd (fun i => fs.omega (2 ^ n) ^ i) (missingIdxs samples)).coeff) =
      .ok ((List.range (2 ^ n)).map fun i => p.eval (fs.omega (2 ^ n) ^ i)) := by
  set Z := linProd (fun i => fs.omega (2 ^ n) ^ i) (missingIdxs samples) with hZ
  have hZd : Z.degree = (missingIdxs samples).length := by
    rw [hZ, degree_eq_natDegree (linProd_monic _ _).ne_zero, linProd_natDegree]
  obtain ⟨PZ, T, h1, h2, h3, h4, h5⟩ := hwf.recoverCore_spec hn hsc samples hl Z (by
    rw [hZd]; exact_mod_cast hm)
  rw [h5]
  have hprim := hwf.omega_prim hn
  have hpZ : (p * Z).degree < (2 ^ n : Nat) := by rw [degree_mul, hZd]; exact hp
  have hPZ : PZ = p * Z := by
    refine eq_of_coset hprim one_ne_zero h1 hpZ ?_
    intro i hi
    rw [one_mul, h3 i hi, eval_mul]
    have hsome := getElem?_eq_some_getD (l := samples) none (show i < samples.length by omega)
    cases hv : samples.getD i none with
    | none =>
      have : Z.eval (fs.omega (2 ^ n) ^ i) = 0 := by
        rw [hZ, linProd_eval]
        exact ⟨i, mem_missingIdxs.mpr (by rw [hsome, hv]), rfl⟩
      rw [this]; simp
    | some v =>
      rw [sampleVal, hv, ← hs i v (by rw [hsome, hv])]; rfl
  have hpd : p.degree < (2 ^ n : Nat) := by
    refine lt_of_le_of_lt ?_ hp
    exact le_add_of_nonneg_right (by exact_mod_cast Nat.zero_le _)
  have hT : T = p := by
    refine eq_of_coset hprim (inv_ne_zero (LawfulFr.five_ne (F := F))) h2 hpd ?_
    intro i hi
    rw [h4 i hi, hPZ, eval_mul, mul_assoc, mul_inv_cancel₀ (hwf.zero_shift_ne hn _ i), mul_one]
  rw [hT]

/-- If the reconstructed data agrees with the present samples, it has small degree. -/
theorem FFTSettings.WF.recoverCore_sound {fs : FFTSettings F} {K : Nat} (hwf : fs.WF K) {n : Nat}
    (hn : n ≤ K) {scale unscale : List F → Nat → Res (List F)} (hsc : ScaleOk scale unscale n)
    (samples : List (Option F)) (hl : samples.length = 2 ^ n)
    (hm : (missingIdxs samples).length < 2 ^ n) {data : List F}
    (hc : fs.recoverCoreWith scale unscale samples (2 ^ n)
      ((List.range (2 ^ n)).map fun j =>
        (linProd (fun i => fs.omega (2 ^ n) ^ i) (missingIdxs samples)).eval (fs.omega (2 ^ n) ^ j))
      ((List.range (2 ^ n)).map (linProd (fun i => fs.omega (2 ^ n) ^ i) (missingIdxs samples)).coeff) =
      .ok data)
    (hs : ∀ i < 2 ^ n, ∀ v, samples[i]? = some (some v) → data[i]? = some v) :
    ∃ p : F[X], p.degree + (missingIdxs samples).length < (2 ^ n : Nat) ∧
      data = (List.range (2 ^ n)).map fun i => p.eval (fs.omega (2 ^ n) ^ i) := by
  set Z := linProd (fun i => fs.omega (2 ^ n) ^ i) (missingIdxs samples) with hZ
  have hZd : Z.degree = (missingIdxs samples).length := by
    rw [hZ, degree_eq_natDegree (linProd_monic _ _).ne_zero, linProd_natDegree]
  have hZlt : Z.degree < (2 ^ n : Nat) := by rw [hZd]; exact_mod_cast hm
  obtain ⟨PZ, T, h1, h2, h3, h4, h5⟩ := hwf.recoverCore_spec hn hsc samples hl Z hZlt
  have hdata := Res.ok.inj (h5.symm.trans hc)
  have hprim := hwf.omega_prim hn
  have h5ne := LawfulFr.five_ne (F := F)
  -- `T * Z - PZ` vanishes on both cosets, `2 * 2^n` points in total
  have hA : ∀ i < 2 ^ n, (T * Z - PZ).eval (fs.omega (2 ^ n) ^ i) = 0 := by
    intro i hi
    rw [eval_sub, eval_mul, h3 i hi]
    have hsome := getElem?_eq_some_getD (l := samples) none (show i < samples.length by omega)
    cases hv : samples.getD i none with
    | none =>
      have : Z.eval (fs.omega (2 ^ n) ^ i) = 0 := by
        rw [hZ, linProd_eval]
        exact ⟨i, mem_missingIdxs.mpr (by rw [hsome, hv]), rfl⟩
      rw [this]; simp
    | some v =>
      have h6 := hs i hi v (by rw [hsome, hv])
      rw [← hdata, List.getElem?_map, List.getElem?_range hi, Option.map_some, Option.some_inj] at h6
      rw [h6, sampleVal, hv]; simp
  have hB : ∀ i < 2 ^ n, (T * Z - PZ).eval ((5 : F)⁻¹ * fs.omega (2 ^ n) ^ i) = 0 := by
    intro i hi
    rw [eval_sub, eval_mul, h4 i hi, mul_assoc, inv_mul_cancel₀ (hwf.zero_shift_ne hn _ i), mul_one,
      sub_self]
  have hpos : 0 < 2 ^ n := by positivity
  have hdeg : (T * Z - PZ).degree < (2 * 2 ^ n : Nat) := by
    refine lt_of_le_of_lt (degree_sub_le _ _) (max_lt ?_ ?_)
    · exact degree_mul_lt h2 hZlt (by omega)
    · exact lt_of_lt_of_le h1 (by exact_mod_cast (by omega : 2 ^ n ≤ 2 * 2 ^ n))
  have hzero : T * Z - PZ = 0 := by
    refine eq_zero_of_degree_lt_of_eval_finset_eq_zero
      (((range (2 ^ n)).image fun i => fs.omega (2 ^ n) ^ i) ∪
        ((range (2 ^ n)).image fun i => (5 : F)⁻¹ * fs.omega (2 ^ n) ^ i)) ?_ ?_
    · rw [card_union_of_disjoint, card_image_of_injOn, card_image_of_injOn, card_range, ← two_mul]
      · exact hdeg
      · intro i hi j hj hij
        simp only [coe_range, Set.mem_Iio] at hi hj
        exact hprim.pow_inj hi hj (mul_left_cancel₀ (inv_ne_zero h5ne) hij)
      · intro i hi j hj hij
        simp only [coe_range, Set.mem_Iio] at hi hj
        exact hprim.pow_inj hi hj hij
      · rw [disjoint_left]
        intro x hx hx'
        obtain ⟨i, _, rfl⟩ := mem_image.mp hx
        obtain ⟨j, _, hj⟩ := mem_image.mp hx'
        have := hwf.lt
        exact five_not_root (by omega) (hwf.omega_pow_one hn j) _ (hwf.omega_pow_one hn i) hj
    · intro x hx
      rcases mem_union.mp hx with hx | hx
      · obtain ⟨i, hi, rfl⟩ := mem_image.mp hx
        exact hA i (mem_range.mp hi)
      · obtain ⟨i, hi, rfl⟩ := mem_image.mp hx
        exact hB i (mem_range.mp hi)
  refine ⟨T, ?_, hdata.symm⟩
  rw [← hZd, ← degree_mul, sub_eq_zero.mp hzero]
  exact h1

/-! ### The entry points -/

/-- The inputs on which the recovery gets as far as its final comparison. -/
structure Recoverable (K n m : Nat) : Prop where
  width : n ≤ K
  table : n ≤ 16
  pos : 0 < m
  lt : m < 2 ^ n
  safe : m ≤ 63 * (2 ^ n / 64 + 1)

theorem missing_lt {samples : List (Option F)} {i : Nat} (h : i ∈ missingIdxs samples) :
    i < samples.length := (List.getElem?_eq_some_iff.mp (mem_missingIdxs.mp h)).1

/-- The tail common to both entry points. -/
def recoverTail (fs : FFTSettings F) (failMask fail : Res Unit) (pre : List F → Res Unit)
    (samples : List (Option F)) (len : Nat) : Res (List F) := do
  let (zeroEval, zeroPoly) ← (fs.zeroPolyViaMultiplication len (missingIdxs samples)).unwrap
  checkMask failMask samples zeroEval len
  pre zeroPoly
  let data ← fs.recoverCore samples len zeroEval zeroPoly
  checkData fail samples data len
  .ok data

theorem recoverOption_tail (fs : FFTSettings F) (samples : List (Option F)) {n : Nat}
    (hl : samples.length = 2 ^ n) : fs.recoverOption samples =
      recoverTail fs .panic .panic (fun _ => .ok ()) samples (2 ^ n) := by
  unfold FFTSettings.recoverOption recoverTail
  simp only [hl, isPowerOfTwo_two_pow, Bool.not_true, Bool.false_eq_true, if_false]
  rfl

theorem recoverNull_tail (fs : FFTSettings F) (null : F) (raw : List F) (n : Nat) :
    fs.recoverNull null raw (2 ^ n) =
      recoverTail fs
        (.err "recovery error: samples should be null when and only when zero_eval is zero")
        (.err "recovery error: samples should be null or equal reconstructed data")
        (fun zp => do
          let k ← subU zp.length 1
          let _ ← nextPowerOfTwo k
          .ok ()) (raw.map (toOption null)) (2 ^ n) := by
  unfold FFTSettings.recoverNull recoverTail
  simp only [isPowerOfTwo_two_pow, Bool.not_true, Bool.false_eq_true, if_false]
  cases (fs.zeroPolyViaMultiplication (2 ^ n) (missingIdxs (raw.map (toOption null)))).unwrap with
  | err e => rfl
  | panic => rfl
  | ok z =>
    simp only [bind_ok]
    cases checkMask (.err "recovery error: samples should be null when and only when zero_eval is zero")
      (raw.map (toOption null)) z.1 (2 ^ n) with
    | err e => rfl
    | panic => rfl
    | ok u =>
      simp only [bind_ok]
      cases subU z.2.length 1 with
      | err e => rfl
      | panic => rfl
      | ok k =>
        simp only [bind_ok]
        cases nextPowerOfTwo k <;> rfl

/-- The zero polynomial and the mask comparison. -/
theorem FFTSettings.WF.recoverTail_front {fs : FFTSettings F} {K : Nat} (hwf : fs.WF K) {n : Nat}
    (hn : n ≤ K) (failMask fail : Res Unit) (pre : List F → Res Unit) (samples : List (Option F))
    (hl : samples.length = 2 ^ n)
    (hpos : 0 < (missingIdxs samples).length) (hlt : (missingIdxs samples).length < 2 ^ n)
    (hsafe : (missingIdxs samples).length ≤ 63 * (2 ^ n / 64 + 1))
    (hpre : ∀ l : List F, l.length = 2 ^ n → pre l = .ok ()) :
    recoverTail fs failMask fail pre samples (2 ^ n) = (do
      let data ← fs.recoverCore samples (2 ^ n)
        ((List.range (2 ^ n)).map fun j =>
          (linProd (fun i => fs.omega (2 ^ n) ^ i) (missingIdxs samples)).eval (fs.omega (2 ^ n) ^ j))
        ((List.range (2 ^ n)).map
          (linProd (fun i => fs.omega (2 ^ n) ^ i) (missingIdxs samples)).coeff)
      checkData fail samples data (2 ^ n)
      .ok data) := by
  have hz := hwf.zeroPoly_spec hn (missing := missingIdxs samples)
    (fun i hi => by have := missing_lt hi; omega) (List.ne_nil_of_length_pos hpos) hlt hsafe
  have hmask := checkMask_ok failMask samples ((List.range (2 ^ n)).map fun j =>
    (linProd (fun i => fs.omega (2 ^ n) ^ i) (missingIdxs samples)).eval (fs.omega (2 ^ n) ^ j))
    (by simp [hl]) (by
      intro i hi
      rw [getD_range_map, if_pos (by omega), linProd_eval, ← mem_missingIdxs]
      constructor
      · rintro ⟨j, hj, he⟩
        have := (hwf.omega_prim hn).pow_inj (by omega) (by have := missing_lt hj; omega) he
        rw [this]; exact hj
      · intro h; exact ⟨i, h, rfl⟩)
  rw [hl] at hmask
  unfold recoverTail
  rw [hz, unwrap_ok, bind_ok]
  simp only
  rw [hmask, bind_ok, hpre _ (by simp), bind_ok]

theorem FFTSettings.WF.recoverCore_panic {fs : FFTSettings F} {K : Nat} (hwf : fs.WF K) {n : Nat}
    (hn : n ≤ K) (h16 : 16 < n) (samples : List (Option F)) (hl : samples.length = 2 ^ n)
    (ze zp : List F) (hze : ze.length = 2 ^ n) :
    fs.recoverCore samples (2 ^ n) ze zp = .panic := by
  have h65 : 65536 < 2 ^ n := by
    calc 65536 = 2 ^ 16 := by norm_num
      _ < 2 ^ n := Nat.pow_lt_pow_right (by omega) h16
  have he := evalsWithZero_spec samples ze (by omega)
  rw [hl] at he
  obtain ⟨pz, hpz, hpzl, _⟩ := hwf.fft_backward hn ((List.range (2 ^ n)).map fun i =>
    sampleVal samples i * ze.getD i 0) (by simp)
  unfold FFTSettings.recoverCore
  rw [he, bind_ok, show fs.fftFr _ true = _ from hpz, unwrap_ok, bind_ok]
  simp only
  unfold scalePoly
  rw [powerTable_spec, bind_ok, scaleLoop_panic _ _ _ h65, bind_panic]

theorem FFTSettings.WF.recoverTail_panic {fs : FFTSettings F} {K : Nat} (hwf : fs.WF K) {n : Nat}
    (failMask fail : Res Unit) (pre : List F → Res Unit) (samples : List (Option F))
    (hl : samples.length = 2 ^ n) (hpre : n ≠ 0 → n ≤ K → ∀ l : List F, l.length = 2 ^ n → pre l = .ok ())
    (hbad : ¬ Recoverable K n (missingIdxs samples).length) :
    recoverTail fs failMask fail pre samples (2 ^ n) = .panic := by
  have hposn : 0 < 2 ^ n := by positivity
  by_cases hpos : 0 < (missingIdxs samples).length
  swap
  · -- nothing missing
    have hnil : missingIdxs samples = [] := List.length_eq_zero_iff.mp (by omega)
    unfold recoverTail
    rw [hnil, show fs.zeroPolyViaMultiplication (2 ^ n) [] = .ok ([], []) from rfl, unwrap_ok, bind_ok]
    simp only
    have : checkMask failMask samples ([] : List F) (2 ^ n) = .panic := by
      unfold checkMask
      rw [forRange_succ _ _ hposn, rd_getD none (by omega), bind_ok, rd_of_ge (by simp), bind_panic,
        bind_panic]
    rw [this, bind_panic]
  have hne : (missingIdxs samples).isEmpty = false := by
    rw [List.isEmpty_eq_false_iff]; exact List.ne_nil_of_length_pos hpos
  by_cases hlt : (missingIdxs samples).length < 2 ^ n
  swap
  · unfold recoverTail FFTSettings.zeroPolyViaMultiplication
    rw [hne, if_neg (by simp), if_pos (by omega)]; rfl
  by_cases hK : n ≤ K
  swap
  · unfold recoverTail FFTSettings.zeroPolyViaMultiplication
    rw [hne, if_neg (by simp), if_neg (by omega), if_pos]
    · rfl
    · rw [hwf.width]; exact Nat.pow_lt_pow_right (by omega) (by omega)
  by_cases hsafe : (missingIdxs samples).length ≤ 63 * (2 ^ n / 64 + 1)
  swap
  · have h := hwf.zeroPoly_err hK (missing := missingIdxs samples)
      (fun i hi => by have := missing_lt hi; omega) hlt (by omega)
    unfold recoverTail
    rw [h]; rfl
  have h16 : 16 < n := by
    by_contra h
    exact hbad ⟨hK, by omega, hpos, hlt, hsafe⟩
  rw [hwf.recoverTail_front hK _ _ _ samples hl hpos hlt hsafe (hpre (by omega) hK),
    hwf.recoverCore_panic hK h16 samples hl _ _ (by simp), bind_panic]

/-- The final comparison either succeeds or fails in the given way. -/
theorem checkData_cases {fail : Res Unit} (hfail : ∀ u, fail ≠ .ok u) (samples : List (Option F))
    (data : List F) (hl : samples.length = data.length) :
    checkData fail samples data samples.length = .ok () ∨
      checkData fail samples data samples.length = fail := by
  unfold checkData forRange
  have key : ∀ (c lo : Nat), lo + c ≤ samples.length →
      let r := forLoop (fun i (_ : Unit) => do
        let s ← rd samples i
        match s with
        | none => .ok ()
        | some v => do
          let d ← rd data i
          if d = v then .ok () else fail) c lo ()
      r = .ok () ∨ r = fail := by
    intro c
    induction c with
    | zero => intro lo _; left; rfl
    | succ c ih =>
      intro lo h
      simp only [forLoop]
      rw [rd_getD none (by omega), bind_ok]
      cases hs : samples.getD lo none with
      | none => exact ih (lo + 1) (by omega)
      | some v =>
        simp only
        rw [rd_getD 0 (by omega), bind_ok]
        split
        · exact ih (lo + 1) (by omega)
        · right
          cases hf : fail with
          | ok u => exact absurd hf (hfail u)
          | err e => rfl
          | panic => rfl
  exact key _ 0 (by omega)

/-- Outcome of the core followed by the final comparison. -/
theorem FFTSettings.WF.core_outcome {fs : FFTSettings F} {K : Nat} (hwf : fs.WF K) {n : Nat} (hK : n ≤ K)
    {scale unscale : List F → Nat → Res (List F)} (hsc : ScaleOk scale unscale n)
    (fail : Res Unit) (hfail : ∀ u, fail ≠ .ok u)
    (samples : List (Option F)) (hl : samples.length = 2 ^ n) (hlt : (missingIdxs samples).length < 2 ^ n)
    {m : Res (List F)} (hm : m = (do
      let data ← fs.recoverCoreWith scale unscale samples (2 ^ n)
        ((List.range (2 ^ n)).map fun j =>
          (linProd (fun i => fs.omega (2 ^ n) ^ i) (missingIdxs samples)).eval (fs.omega (2 ^ n) ^ j))
        ((List.range (2 ^ n)).map
          (linProd (fun i => fs.omega (2 ^ n) ^ i) (missingIdxs samples)).coeff)
      checkData fail samples data (2 ^ n)
      .ok data)) :
    (∀ p : F[X], p.degree + (missingIdxs samples).length < (2 ^ n : Nat) →
      (∀ (i : Nat) (v : F), samples[i]? = some (some v) → v = p.eval (fs.omega (2 ^ n) ^ i)) →
      m = .ok ((List.range (2 ^ n)).map fun i => p.eval (fs.omega (2 ^ n) ^ i))) ∧
    ((¬ ∃ p : F[X], p.degree + (missingIdxs samples).length < (2 ^ n : Nat) ∧
      ∀ (i : Nat) (v : F), samples[i]? = some (some v) → v = p.eval (fs.omega (2 ^ n) ^ i)) →
      m = (fail >>= fun _ => .ok [])) := by
  constructor
  · intro p hp hs
    rw [hm, hwf.recoverCore_complete hK hsc samples hl p hp hlt hs, bind_ok]
    have hc := checkData_ok fail samples ((List.range (2 ^ n)).map fun i => p.eval (fs.omega (2 ^ n) ^ i))
      (by
        intro i v hv
        have hi : i < 2 ^ n := by
          have := (List.getElem?_eq_some_iff.mp hv).1
          omega
        rw [List.getElem?_map, List.getElem?_range hi, Option.map_some, ← hs i v hv])
    rw [hl] at hc
    rw [hc, bind_ok]
  · intro hno
    rw [hm]
    have hZlt : (linProd (fun i => fs.omega (2 ^ n) ^ i) (missingIdxs samples)).degree < (2 ^ n : Nat) := by
      rw [degree_eq_natDegree (linProd_monic _ _).ne_zero, linProd_natDegree]
      exact_mod_cast hlt
    obtain ⟨PZ, T, _, _, _, _, h5⟩ := hwf.recoverCore_spec hK hsc samples hl _ hZlt
    rw [h5, bind_ok]
    have hcases := checkData_cases hfail samples
      ((List.range (2 ^ n)).map fun i => T.eval (fs.omega (2 ^ n) ^ i)) (by simp [hl])
    rw [hl] at hcases
    rcases hcases with hc | hc
    · exfalso
      have hagree := checkData_of_ok hfail hc
      obtain ⟨p, hp, hdata⟩ := hwf.recoverCore_sound hK hsc samples hl hlt h5 hagree
      apply hno
      refine ⟨p, hp, ?_⟩
      intro i v hv
      have hi : i < 2 ^ n := by
        have := (List.getElem?_eq_some_iff.mp hv).1
        omega
      have := hagree i hi v hv
      rw [hdata, List.getElem?_map, List.getElem?_range hi, Option.map_some, Option.some_inj] at this
      exact this.symm
    · rw [hc]
      cases hf : fail with
      | ok u => exact absurd hf (hfail u)
      | err e => rfl
      | panic => rfl

/-- Outcome of the recovery on all supported inputs. -/
theorem FFTSettings.WF.recoverTail_outcome {fs : FFTSettings F} {K : Nat} (hwf : fs.WF K) {n : Nat}
    (failMask fail : Res Unit) (hfail : ∀ u, fail ≠ .ok u) (pre : List F → Res Unit)
    (samples : List (Option F)) (hl : samples.length = 2 ^ n)
    (hpre : n ≠ 0 → n ≤ K → ∀ l : List F, l.length = 2 ^ n → pre l = .ok ())
    (hrec : Recoverable K n (missingIdxs samples).length) :
    (∀ p : F[X], p.degree + (missingIdxs samples).length < (2 ^ n : Nat) →
      (∀ (i : Nat) (v : F), samples[i]? = some (some v) → v = p.eval (fs.omega (2 ^ n) ^ i)) →
      recoverTail fs failMask fail pre samples (2 ^ n) =
        .ok ((List.range (2 ^ n)).map fun i => p.eval (fs.omega (2 ^ n) ^ i))) ∧
    ((¬ ∃ p : F[X], p.degree + (missingIdxs samples).length < (2 ^ n : Nat) ∧
      ∀ (i : Nat) (v : F), samples[i]? = some (some v) → v = p.eval (fs.omega (2 ^ n) ^ i)) →
      recoverTail fs failMask fail pre samples (2 ^ n) = (fail >>= fun _ => .ok [])) := by
  obtain ⟨hK, h16, hpos, hlt, hsafe⟩ := hrec
  have hn0 : n ≠ 0 := by
    rintro rfl
    rw [pow_zero] at hlt; omega
  have hfront := hwf.recoverTail_front hK failMask fail pre samples hl hpos hlt hsafe (hpre hn0 hK)
  exact hwf.core_outcome hK (scaleOk_blst h16) fail hfail samples hl hlt hfront

end

end Kzg
