import Verif.Proofs.Mcl.ZeroPolySign
import Verif.Proofs.Zk.Recover
/-!
# The recovery of mcl-kzg
-/

set_option linter.unusedSectionVars false

namespace Kzg.Mcl
open Kzg Res Polynomial
open Kzg.ZkP (scaled scaled_length scaled_getElem? powers powers_length powers_getElem? powers_succ zeroEvals zeroCoeffs)

section Loops
variable {F : Type} [Field F] [DecidableEq F] [Lib F]

theorem shiftInPlace_spec (f : F) (p : List F) : shiftInPlace f p = .ok (scaled f p) := by
  unfold shiftInPlace
  obtain ⟨r, hr, h1, h2, h3, h4⟩ := forRange_inv (lo := 0) (hi := p.length) (s := ((1 : F), p))
    (body := fun i s => do
      let c ← rd s.2 i
      let v ← wr s.2 i (c * s.1)
      .ok (s.1 * f, v))
    (fun i s => s.1 = f ^ i ∧ s.2.length = p.length ∧ (∀ j < i, s.2[j]? = (scaled f p)[j]?) ∧
      ∀ j, i ≤ j → s.2[j]? = p[j]?) (by omega)
    ⟨by simp, rfl, fun j hj => by omega, fun _ _ => rfl⟩ (by
      rintro i ⟨g, s⟩ hi1 hi2 ⟨hg, hl, hs1, hs2⟩
      simp only at hg hl hs1 hs2 ⊢
      rw [rd_of_getElem? (x := p.getD i 0) (by rw [hs2 i le_rfl, getElem?_eq_some_getD 0 hi2]), bind_ok,
        wr_of_lt (by omega), bind_ok]
      refine Sat.ok ⟨by rw [hg, ← pow_succ], by simp [hl], ?_, ?_⟩
      · intro j hj
        simp only
        rw [getElem?_set_of_lt (by omega)]
        by_cases hij : j = i
        · subst hij
          rw [if_pos rfl, scaled_getElem?, getElem?_eq_some_getD 0 hi2, Option.map_some, hg]
        · rw [if_neg hij]; exact hs1 j (by omega)
      · intro j hj
        simp only
        rw [getElem?_set_of_lt (by omega), if_neg (by omega)]
        exact hs2 j (by omega))
  rw [hr, bind_ok]
  congr 1
  apply List.ext_getElem?
  intro j
  by_cases hj : j < p.length
  · exact h3 j hj
  · rw [List.getElem?_eq_none (by omega), List.getElem?_eq_none (by rw [scaled_length]; omega)]

theorem shift_eq (h5 : (5 : F) ≠ 0) (p : List F) : shift p = .ok (scaled (5 : F)⁻¹ p) := by
  unfold shift
  rw [frInv_of_ne h5, bind_ok, shiftInPlace_spec]

theorem unshift_eq (p : List F) : unshift p = .ok (scaled (5 : F) p) := shiftInPlace_spec _ _

theorem powTable_eq (f : F) : powTable f = .ok (powers f 65536) := by
  unfold powTable
  obtain ⟨r, hr, h1⟩ := forRange_inv (lo := 1) (hi := 65536) (s := [(1 : F)])
    (body := fun i temp => do
      let x ← rd temp (i - 1)
      .ok (temp ++ [x * f]))
    (fun i t => t = powers f i) (by omega) (by simp [powers]) (by
      rintro i t hi1 hi2 rfl
      rw [rd_of_getElem? (powers_getElem? f (by omega)), bind_ok, ← pow_succ, show i - 1 + 1 = i by omega,
        ← powers_succ]
      exact Sat.ok rfl)
  rw [hr, h1]

theorem mulTable_eq (N : Nat) (f : F) (p : List F) (h : p.length ≤ N) :
    mulTable (powers f N) p = .ok (scaled f p) := by
  rw [← ZkP.scaleByTable_spec f (powers f N) p (fun i hi => powers_getElem? f (by omega))]
  unfold mulTable ZkP.scaleByTable
  congr 1
  funext i c
  by_cases h1 : i < c.length
  · rw [rd_getD 0 h1, bind_ok]
    by_cases h2 : i < N
    · rw [rd_of_getElem? (powers_getElem? f h2), bind_ok, bind_ok]
      rfl
    · rw [rd_of_ge (by rw [powers_length]; omega), bind_panic, bind_panic]
  · rw [rd_of_ge (v := c) (by omega), bind_panic]
    by_cases h2 : i < N
    · rw [rd_of_getElem? (powers_getElem? f h2), bind_ok]
      rfl
    · rw [rd_of_ge (by rw [powers_length]; omega), bind_panic]

theorem mulTable_panic (N : Nat) (f : F) (p : List F) (h1 : 1 ≤ N) (h : N < p.length) : mulTable (powers f N) p = .panic := by
  unfold mulTable
  cases hr : forRange 1 p.length p (fun i c => do
      let f ← rd (powers f N) i
      let x ← rd c i
      wr c i (x * f)) with
  | panic => rfl
  | ok r =>
    exfalso
    unfold forRange at hr
    have := forLoop_ok_inv (fun i => i < N) (by
      intro i s s' hb
      by_contra hc
      rw [rd_of_ge (by rw [powers_length]; omega), bind_panic] at hb
      cases hb) (p.length - 1) 1 p r hr N (by omega) (by omega)
    omega
  | err e =>
    exfalso
    exact ZkP.NoErr.forRange 1 p.length p (fun i c => (ZkP.NoErr.rd _ _).bind fun f => (ZkP.NoErr.rd _ _).bind fun x =>
      ZkP.NoErr.wr _ _ _) e hr

theorem shiftPar_eq (h5 : (5 : F) ≠ 0) (p : List F) (h : p.length ≤ 65536) :
    shiftPar p = .ok (scaled (5 : F)⁻¹ p) := by
  unfold shiftPar
  rw [frInv_of_ne h5, bind_ok, powTable_eq, bind_ok, mulTable_eq _ _ _ h]

theorem unshiftPar_eq (p : List F) (h : p.length ≤ 65536) : unshiftPar p = .ok (scaled (5 : F) p) := by
  unfold unshiftPar
  rw [powTable_eq, bind_ok, mulTable_eq _ _ _ h]

theorem shiftPar_panic (h5 : (5 : F) ≠ 0) (p : List F) (h : 65536 < p.length) : shiftPar p = .panic := by
  unfold shiftPar
  rw [frInv_of_ne h5, bind_ok, powTable_eq, bind_ok, mulTable_panic _ _ _ (by norm_num) h]

theorem zipWith_range {α β γ : Type} (g : α → β → γ) (a : List α) (b : List β) (x : α) (y : β)
    (h : b.length = a.length) :
    List.zipWith g a b = (List.range a.length).map fun i => g (a.getD i x) (b.getD i y) := by
  apply List.ext_getElem?
  intro i
  rw [List.getElem?_zipWith, List.getElem?_map]
  by_cases hi : i < a.length
  · rw [getElem?_eq_some_getD x hi, getElem?_eq_some_getD y (by omega), List.getElem?_range hi]; rfl
  · rw [List.getElem?_eq_none (l := a) (by omega), List.getElem?_eq_none (l := List.range _) (by simp; omega)]; rfl

theorem evalsWithZero_eq (samples : List (Option F)) (ze : List F) (hl : ze.length = samples.length) :
    Kzg.evalsWithZero samples ze samples.length = .ok (evalsWithZero samples ze) := by
  rw [evalsWithZero_spec samples ze hl, evalsWithZero, zipWith_range _ _ _ none 0 hl]
  congr 1
  refine List.map_congr_left fun i _ => ?_
  cases hs : samples.getD i none with
  | none => simp only [sampleVal, hs, Option.getD_none, zero_mul]
  | some v => simp only [sampleVal, hs, Option.getD_some]

theorem divAll_spec : ∀ (a b : List F), b.length = a.length → (∀ x ∈ b, x ≠ 0) →
    divAll a b = .ok (List.zipWith (fun x y => x * y⁻¹) a b)
  | [], b, h, _ => by
    have : b = [] := List.length_eq_zero_iff.mp (by simpa using h)
    subst this; rfl
  | x :: a, [], h, _ => by simp at h
  | x :: a, y :: b, h, hy => by
    rw [divAll, frDiv_of_ne (hy y (by simp)), bind_ok,
      divAll_spec a b (by simpa using h) (fun z hz => hy z (by simp [hz])), bind_ok]
    rfl

theorem divAll_eq (a b : List F) (n : Nat) (ha : a.length = n) (hb : b.length = n) (hne : ∀ x ∈ b, x ≠ 0) :
    divAll a b = Kzg.divPointwise a b n := by
  rw [divPointwise_spec a b n ha hb, divAll_spec a b (by omega) hne, zipWith_range _ _ _ 0 0 (by omega), ha]

/-- Nothing is multiplied by anything but zero. -/
theorem evalsWithZero_zero (samples : List (Option F)) :
    evalsWithZero samples (List.replicate samples.length 0) = List.replicate samples.length (0 : F) := by
  induction samples with
  | nil => rfl
  | cons s l ih =>
    rw [List.length_cons, List.replicate_succ, evalsWithZero, List.zipWith_cons_cons]
    rw [evalsWithZero] at ih
    rw [ih]
    cases s <;> simp

end Loops

section Top
variable {F : Type} [Field F] [DecidableEq F] [FrTable F] [LawfulFr F] [Lib F]

/-- The two scalings on lists of `2^n` coefficients, and the extra computation. -/
structure ShiftOk (sh un : List F → Res (List F)) (optim : Nat → Res Unit) (n : Nat) : Prop where
  down : ∀ p : List F, p.length = 2 ^ n → sh p = .ok (scaled (5 : F)⁻¹ p)
  up : ∀ p : List F, p.length = 2 ^ n → un p = .ok (scaled (5 : F) p)
  opt : optim (2 ^ n) = .ok ()

theorem ShiftOk.scaleOk {sh un : List F → Res (List F)} {optim : Nat → Res Unit} {n : Nat}
    (h : ShiftOk sh un optim n) : ScaleOk (F := F) (fun p _ => sh p) (fun p _ => un p) n :=
  ⟨fun p hp => h.down p hp, fun p hp => h.up p hp⟩

theorem shiftOk_seq (n : Nat) : ShiftOk (F := F) shift unshift (fun _ => .ok ()) n :=
  ⟨fun p _ => shift_eq LawfulFr.five_ne p, fun p _ => unshift_eq p, rfl⟩

theorem shiftOk_par {n : Nat} (h : n ≤ 16) : ShiftOk (F := F) shiftPar unshiftPar (fun n => do
    let k ← subU n 1
    let _ ← nextPowOf2 k
    .ok ()) n := by
  have h65 : 2 ^ n ≤ 65536 := by
    calc 2 ^ n ≤ 2 ^ 16 := Nat.pow_le_pow_right (by omega) h
      _ = 65536 := by norm_num
  refine ⟨fun p hp => shiftPar_eq LawfulFr.five_ne p (by omega), fun p hp => unshiftPar_eq p (by omega), ?_⟩
  have hpos : 0 < 2 ^ n := by positivity
  show (do
    let k ← subU (2 ^ n) 1
    let _ ← nextPowOf2 k
    Res.ok ()) = .ok ()
  rw [subU_of_le hpos, bind_ok, nextPowOf2_eq (by omega), bind_ok]

/-- The numbers of missing samples for which there is a zero polynomial. -/
structure Supported (K n m : Nat) : Prop where
  width : n ≤ K
  pos : 0 < m
  lt : m < 2 ^ n
  safe : m ≤ 63 * (2 ^ n / 64 + 1)

/-- Multiplication of all elements. -/
def times (e : F) (l : List F) : List F := l.map fun x => e * x

theorem times_length (e : F) (l : List F) : (times e l).length = l.length := by simp [times]

theorem times_times (e d : F) (l : List F) : times e (times d l) = times (e * d) l := by
  simp [times, mul_assoc]

theorem times_one (l : List F) : times 1 l = l := by simp [times]

theorem times_getD (e : F) (l : List F) (i : Nat) : (times e l).getD i 0 = e * l.getD i 0 := by
  rw [times, List.getD_eq_getElem?_getD, List.getD_eq_getElem?_getD, List.getElem?_map]
  cases l[i]? <;> simp

theorem scaled_times (e f : F) (l : List F) : scaled f (times e l) = times e (scaled f l) := by
  apply List.ext_getElem?
  intro i
  rw [scaled_getElem?, times, times, List.getElem?_map, List.getElem?_map, scaled_getElem?]
  cases l[i]? <;> simp [mul_assoc]

theorem evalsWithZero_times (samples : List (Option F)) (e : F) (ze : List F) :
    evalsWithZero samples (times e ze) = times e (evalsWithZero samples ze) := by
  unfold evalsWithZero times
  induction samples generalizing ze with
  | nil => rfl
  | cons s l ih =>
    cases ze with
    | nil => rfl
    | cons z ze =>
      rw [List.map_cons, List.zipWith_cons_cons, List.zipWith_cons_cons, List.map_cons, ih]
      cases s with
      | none => simp
      | some v => simp; ring

theorem dft_times (w : F) (n : Nat) (e : F) (l : List F) (i : Nat) :
    dft w n (fun j => (times e l).getD j 0) i = e * dft w n (fun j => l.getD j 0) i := by
  simp only [dft, times_getD, smul_eq_mul, Finset.mul_sum]
  exact Finset.sum_congr rfl fun j _ => by ring

/-- The transforms are linear. -/
theorem fft_times {fs : FFTSettings F} {K : Nat} (hwf : fs.WF K) {m : Nat} (hm : m ≤ K) (e : F) {v r : List F}
    (hv : v.length = 2 ^ m) (inv : Bool) (h : fs.fft v inv = .ok r) : fs.fft (times e v) inv = .ok (times e r) := by
  have hv' : (times e v).length = 2 ^ m := by rw [times_length, hv]
  cases inv with
  | false =>
    obtain ⟨a, ha, hal, hav⟩ := hwf.fft_forward hm v hv
    obtain ⟨b, hb, hbl, hbv⟩ := hwf.fft_forward hm (times e v) hv'
    rw [h] at ha
    cases ha
    rw [hb]
    congr 1
    apply List.ext_getElem?
    intro i
    by_cases hi : i < 2 ^ m
    · rw [hbv i hi, dft_times, times, List.getElem?_map, hav i hi, Option.map_some]
    · rw [List.getElem?_eq_none (by omega), List.getElem?_eq_none (by rw [times_length]; omega)]
  | true =>
    obtain ⟨a, ha, hal, hav⟩ := hwf.fft_backward hm v hv
    obtain ⟨b, hb, hbl, hbv⟩ := hwf.fft_backward hm (times e v) hv'
    rw [h] at ha
    cases ha
    rw [hb]
    congr 1
    apply List.ext_getElem?
    intro i
    by_cases hi : i < 2 ^ m
    · rw [hbv i hi, dft_times, times, List.getElem?_map, hav i hi, Option.map_some]
      simp only [smul_eq_mul]
      congr 1; ring
    · rw [List.getElem?_eq_none (by omega), List.getElem?_eq_none (by rw [times_length]; omega)]

theorem divAll_times (e d : F) (he : e * e = 1) (a b : List F) (hab : b.length = a.length) (hne : ∀ x ∈ b, x ≠ 0) :
    divAll (times (d * e) a) (times e b) = .ok (times d (List.zipWith (fun x y => x * y⁻¹) a b)) := by
  have he0 : e ≠ 0 := fun h => by simp [h] at he
  rw [divAll_spec _ _ (by rw [times_length, times_length, hab]) (by
    intro x hx
    obtain ⟨y, hy, rfl⟩ := List.mem_map.mp hx
    exact mul_ne_zero he0 (hne y hy))]
  congr 1
  unfold times
  rw [List.zipWith_map, List.map_zipWith]
  congr 1
  funext x y
  rw [mul_inv]
  field_simp

theorem zeroPoly_supported {fs : FFTSettings F} {K : Nat} (hwf : fs.WF K) {n : Nat} (missing : List Nat)
    (hidx : ∀ i ∈ missing, i < 2 ^ n) (hrec : Supported K n missing.length) :
    zeroPolyViaMultiplication fs (2 ^ n) missing =
      .ok (times (zsgn n missing.length) ((List.range (2 ^ n)).map (fun j =>
          (linProd (fun i => fs.omega (2 ^ n) ^ i) missing).eval (fs.omega (2 ^ n) ^ j))),
        times (zsgn n missing.length)
          ((List.range (2 ^ n)).map (linProd (fun i => fs.omega (2 ^ n) ^ i) missing).coeff)) := by
  obtain ⟨hn, hpos, hlt, hsafe⟩ := hrec
  have hne := List.ne_nil_of_length_pos hpos
  rw [zeroPoly_signed hwf hn (fun i hi => (hidx i hi).le) hne hlt hsafe]
  simp only [times, List.map_map]
  rfl

theorem ifft_times {fs : FFTSettings F} {K : Nat} (hwf : fs.WF K) {m : Nat} (hm : m ≤ K) (e : F) {v r : List F}
    (hv : v.length = 2 ^ m) (h : fs.fft v true = .ok r) :
    (fft fs (times e v) true).unwrap = .ok (times (isgn m * e) r) := by
  rw [ifft_eq hwf hm (by rw [times_length, hv]), fft_times hwf hm e hv true h, bind_ok, unwrap_ok, ← times_times]
  rfl

theorem recover_front {sh un : List F → Res (List F)} {optim : Nat → Res Unit} {fs : FFTSettings F} {K : Nat}
    (hwf : fs.WF K) {n : Nat} (samples : List (Option F)) (hl : samples.length = 2 ^ n)
    (hrec : Supported K n (missingIdxs samples).length) (hsh : ShiftOk sh un optim n) :
    recoverWith sh un optim fs samples =
      fs.recoverCoreWith (fun p _ => sh p) (fun p _ => un p) samples (2 ^ n)
        (zeroEvals fs n samples) (zeroCoeffs fs n samples) := by
  have hn := hrec.width
  have hzp := zeroPoly_supported hwf (missingIdxs samples) (fun i hi => by have := missing_lt hi; omega) hrec
  generalize hed : zsgn (F := F) n (missingIdxs samples).length = e at hzp
  have hee : e * e = 1 := hed ▸ zsgn_sq _ _
  unfold recoverWith FFTSettings.recoverCoreWith
  rw [hl, isPowerOf2_eq (by positivity), bind_ok, isPowerOfTwo_two_pow, if_neg (by simp), hzp, unwrap_ok, bind_ok]
  simp only
  have hez := evalsWithZero_eq samples (zeroEvals fs n samples) (by simp [hl])
  rw [hl] at hez
  rw [hez, bind_ok]
  have hezl : (evalsWithZero samples (zeroEvals fs n samples)).length = 2 ^ n := by
    simp [evalsWithZero, hl]
  obtain ⟨pz, hpz, hpzl, _⟩ := hwf.fft_backward hn _ hezl
  have hs1 : (scaled (5 : F)⁻¹ pz).length = 2 ^ n := by rw [scaled_length, hpzl]
  have hsl : (scaled (5 : F)⁻¹ (zeroCoeffs fs n samples)).length = 2 ^ n := by rw [scaled_length]; simp
  rw [evalsWithZero_times, ifft_times hwf hn _ hezl hpz, FFTSettings.fftFr, hpz, unwrap_ok, bind_ok, bind_ok,
    times_length, hpzl,
    hsh.opt, bind_ok, hsh.down _ (by rw [times_length, hpzl]), bind_ok, hsh.down _ hpzl, bind_ok,
    hsh.down _ (by rw [times_length]; simp), bind_ok, hsh.down _ (by simp), bind_ok, scaled_times, scaled_times]
  obtain ⟨a, ha, hal, _⟩ := hwf.fft_forward hn (scaled (5 : F)⁻¹ pz) hs1
  have hb := hwf.fft_eval hn (scaled (5 : F)⁻¹ (zeroCoeffs fs n samples)) hsl
  rw [fft_eq hwf hn (by rw [times_length, hs1]) false (by simp), fft_times hwf hn _ hs1 false ha, unwrap_ok, bind_ok,
    FFTSettings.fftFr, ha, unwrap_ok, bind_ok, fft_eq hwf hn (by rw [times_length, hsl]) false (by simp),
    fft_times hwf hn _ hsl false hb, unwrap_ok, bind_ok, FFTSettings.fftFr, hb, unwrap_ok, bind_ok]
  have hne : ∀ x ∈ (List.range (2 ^ n)).map fun i =>
      (polyOf (scaled (5 : F)⁻¹ (zeroCoeffs fs n samples))).eval (fs.omega (2 ^ n) ^ i), x ≠ 0 := by
    intro x hx
    obtain ⟨i, _, rfl⟩ := List.mem_map.mp hx
    rw [scaled, eval_scaled, polyOf_map_coeff]
    · exact hwf.zero_shift_ne hn _ i
    · rw [degree_eq_natDegree (linProd_monic _ _).ne_zero, linProd_natDegree]
      exact_mod_cast hrec.lt
  have hdiv := divAll_eq a _ (2 ^ n) hal (by simp) hne
  rw [divAll_spec a _ (by simp [hal]) hne] at hdiv
  rw [divAll_times e (isgn n) hee a _ (by simp [hal]) hne, bind_ok, ← hdiv, bind_ok]
  generalize hq : List.zipWith (fun x y : F => x * y⁻¹) a ((List.range (2 ^ n)).map fun i =>
      (polyOf (scaled (5 : F)⁻¹ (zeroCoeffs fs n samples))).eval (fs.omega (2 ^ n) ^ i)) = q
  have hql : q.length = 2 ^ n := by rw [← hq]; simp [hal]
  obtain ⟨c, hc, hcl, _⟩ := hwf.fft_backward hn q hql
  rw [ifft_times hwf hn _ hql hc, isgn_sq, times_one, FFTSettings.fftFr, hc, unwrap_ok, bind_ok, bind_ok, hsh.up _ hcl, bind_ok,
    bind_ok, fft_eq hwf hn (by rw [scaled_length, hcl]) false (by simp), FFTSettings.fftFr]

/-- Outcome of the recovery on the supported inputs: always a list of values; the right one if the samples come
from a polynomial of small degree, and one that contradicts a sample otherwise. -/
theorem recover_outcome {sh un : List F → Res (List F)} {optim : Nat → Res Unit} {fs : FFTSettings F} {K : Nat}
    (hwf : fs.WF K) {n : Nat} (samples : List (Option F)) (hl : samples.length = 2 ^ n)
    (hrec : Supported K n (missingIdxs samples).length) (hsh : ShiftOk sh un optim n) :
    (∀ p : F[X], p.degree + (missingIdxs samples).length < (2 ^ n : Nat) →
      (∀ (i : Nat) (v : F), samples[i]? = some (some v) → v = p.eval (fs.omega (2 ^ n) ^ i)) →
      recoverWith sh un optim fs samples = .ok ((List.range (2 ^ n)).map fun i => p.eval (fs.omega (2 ^ n) ^ i))) ∧
    ((¬ ∃ p : F[X], p.degree + (missingIdxs samples).length < (2 ^ n : Nat) ∧
      ∀ (i : Nat) (v : F), samples[i]? = some (some v) → v = p.eval (fs.omega (2 ^ n) ^ i)) →
      ∃ data : List F, recoverWith sh un optim fs samples = .ok data ∧ data.length = 2 ^ n ∧
        ∃ (i : Nat) (v w : F), samples[i]? = some (some v) ∧ data[i]? = some w ∧ w ≠ v) := by
  have hn := hrec.width
  have hfront := recover_front hwf samples hl hrec hsh
  refine ⟨fun p hp hs => ?_, fun hno => ?_⟩
  · rw [hfront]
    exact hwf.recoverCore_complete hn hsh.scaleOk samples hl p hp hrec.lt hs
  · have hZlt : (linProd (fun i => fs.omega (2 ^ n) ^ i) (missingIdxs samples)).degree < (2 ^ n : Nat) := by
      rw [degree_eq_natDegree (linProd_monic _ _).ne_zero, linProd_natDegree]
      exact_mod_cast hrec.lt
    obtain ⟨PZ, T, h1, h2, h3, h4, h5⟩ := hwf.recoverCore_spec hn hsh.scaleOk samples hl _ hZlt
    refine ⟨_, hfront.trans h5, by simp, ?_⟩
    by_contra hc
    push Not at hc
    obtain ⟨p, hp, hd⟩ := hwf.recoverCore_sound hn hsh.scaleOk samples hl hrec.lt h5 (by
      intro i hi v hv
      have := hc i v (T.eval (fs.omega (2 ^ n) ^ i)) hv (by
        rw [List.getElem?_map, List.getElem?_range hi]; rfl)
      rw [List.getElem?_map, List.getElem?_range hi, Option.map_some, this])
    refine hno ⟨p, hp, fun i v hv => ?_⟩
    have hi : i < 2 ^ n := by
      rw [← hl]; exact (List.getElem?_eq_some_iff.mp hv).1
    have h6 := hc i v (T.eval (fs.omega (2 ^ n) ^ i)) hv (by
        rw [List.getElem?_map, List.getElem?_range hi]; rfl)
    have h7 := congrArg (fun l => l[i]?) hd
    simp only [List.getElem?_map, List.getElem?_range hi, Option.map_some, Option.some_inj] at h7
    rw [← h7, h6]

/-- With nothing missing the result does not depend on the samples. -/
theorem recover_full (sh un : List F → Res (List F)) (optim : Nat → Res Unit) (fs : FFTSettings F)
    (samples samples' : List (Option F)) (hl : samples.length = samples'.length)
    (h : missingIdxs samples = []) (h' : missingIdxs samples' = []) :
    recoverWith sh un optim fs samples = recoverWith sh un optim fs samples' := by
  unfold recoverWith zeroPolyViaMultiplication
  have e := evalsWithZero_zero samples
  rw [hl] at e
  simp only [h, h', List.isEmpty_nil, if_true, unwrap_ok, bind_ok, evalsWithZero_zero samples', hl, e]

theorem recover_panic {sh un : List F → Res (List F)} {optim : Nat → Res Unit} {fs : FFTSettings F} {K : Nat}
    (hwf : fs.WF K) {n : Nat} (samples : List (Option F)) (hl : samples.length = 2 ^ n)
    (hpos : 0 < (missingIdxs samples).length)
    (hbad : 2 ^ n = (missingIdxs samples).length ∨ K < n ∨
      63 * (2 ^ n / 64 + 1) < (missingIdxs samples).length) :
    recoverWith sh un optim fs samples = .panic := by
  have hle : (missingIdxs samples).length ≤ 2 ^ n := by
    rw [← hl]
    unfold missingIdxs
    refine (List.length_filter_le _ _).trans (by simp)
  have hne : (missingIdxs samples).isEmpty = false := by
    rw [List.isEmpty_eq_false_iff]; exact List.ne_nil_of_length_pos hpos
  have key : (zeroPolyViaMultiplication fs (2 ^ n) (missingIdxs samples)).unwrap = .panic := by
    by_cases h1 : 2 ^ n = (missingIdxs samples).length
    · unfold zeroPolyViaMultiplication
      rw [hne, if_neg (by simp), if_pos (by omega)]; rfl
    by_cases h2 : K < n
    · unfold zeroPolyViaMultiplication
      rw [hne, if_neg (by simp), if_neg (by omega), if_pos]
      · rfl
      · rw [hwf.width]; exact Nat.pow_lt_pow_right (by omega) h2
    have hd := (hbad.resolve_left h1).resolve_left h2
    rw [zeroPoly_panic hwf (by omega) _ (fun i hi => by have := missing_lt hi; omega) (by omega) hd]
    rfl
  unfold recoverWith
  rw [hl, isPowerOf2_eq (by positivity), bind_ok, isPowerOfTwo_two_pow, if_neg (by simp), key, bind_panic]

/-- With the parallel feature domains above 65536 panic. -/
theorem recoverPar_large {fs : FFTSettings F} {K : Nat} (hwf : fs.WF K) {n : Nat} (samples : List (Option F))
    (hl : samples.length = 2 ^ n) (hrec : Supported K n (missingIdxs samples).length) (h16 : 16 < n) :
    recoverPar fs samples = .panic := by
  have hn := hrec.width
  have h65 : 65536 < 2 ^ n := by
    calc 65536 = 2 ^ 16 := by norm_num
      _ < 2 ^ n := Nat.pow_lt_pow_right (by omega) h16
  have h63 : 2 ^ n ≤ 2 ^ 63 := Nat.pow_le_pow_right (by omega) (by have := hwf.lt; omega)
  have hzp := zeroPoly_supported hwf (missingIdxs samples) (fun i hi => by have := missing_lt hi; omega) hrec
  unfold recoverPar recoverWith
  rw [hl, isPowerOf2_eq (by positivity), bind_ok, isPowerOfTwo_two_pow, if_neg (by simp), hzp, unwrap_ok, bind_ok]
  simp only
  have hezl : (evalsWithZero samples (zeroEvals fs n samples)).length = 2 ^ n := by
    simp [evalsWithZero, hl]
  obtain ⟨pz, hpz, hpzl, _⟩ := hwf.fft_backward hn _ hezl
  rw [evalsWithZero_times, ifft_times hwf hn _ hezl hpz, bind_ok, times_length, hpzl, subU_of_le (by omega), bind_ok,
    nextPowOf2_eq (by omega), bind_ok, bind_ok, shiftPar_panic LawfulFr.five_ne _ (by rw [times_length]; omega),
    bind_panic]

end Top
end Kzg.Mcl
