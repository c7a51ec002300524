import Verif.Proofs.Parallel
import Verif.Proofs.FrLawful
import Verif.Proofs.DAS
/-!
# Property C07: the concurrent transforms under every schedule
-/

namespace Kzg.Props
open Kzg Kzg.Conc

/-- Every execution of `p` from buffer `m`, whatever the schedule, ends; and wherever it ends, all tasks
have finished without a panic and the buffer satisfies `Q`. -/
def EverySchedule {V : Type} (p : Conc.Task V) (m : Mem V) (Q : Mem V → Prop) : Prop :=
  (¬ ∃ run : Nat → Conc.Task V × Mem V, run 0 = (p, m) ∧ ∀ n, Step (run n) (run (n + 1))) ∧
  ∀ p' m', Steps (p, m) (p', m') → (∀ c, ¬ Step (p', m') c) → p' = .done ∧ Q m'

theorem everySchedule_of_separate {V : Type} {p : Conc.Task V} (hp : Separate p) {m : Mem V} {Q : Mem V → Prop}
    (h : Q (eval p m)) : EverySchedule p m Q := by
  refine ⟨fun ⟨run, _, hr⟩ => no_infinite_run run hr, fun p' m' hs hst => ?_⟩
  obtain ⟨h1, h2⟩ := run_result hp hs hst
  exact ⟨h1, h2 ▸ h⟩

theorem region_replicate {G : Type} [Zero G] (n : Nat) (m : Mem G) (hm : ∀ a < n, m a = 0) :
    region m 0 n = List.replicate n 0 := by
  apply List.ext_getElem?
  intro i
  by_cases hi : i < n
  · rw [region_getElem? m hi, List.getElem?_replicate, if_pos hi, Nat.zero_add, hm i hi]
  · rw [List.getElem?_eq_none (by rw [region_length]; omega), List.getElem?_eq_none (by simp; omega)]

/-- C07: the concurrent forward or inverse transform of `2^m` values in any `Fr`-module (field elements or
group elements), whatever lengths are split off as concurrent tasks: under every schedule it ends, nothing
panics, the result is the one of the sequential transform, and nothing outside the result buffer is written. -/
theorem C07_fft_every_schedule {G : Type} [AddCommGroup G] [Module Fr G] {scale : Nat} {fs : FFTSettings Fr}
    (hfs : FFTSettings.new scale = .ok fs) (cut : Nat → Bool) {m : Nat} (hm : m ≤ scale) (data : List G)
    (hl : data.length = 2 ^ m) (inverse : Bool) (buf : Mem G) (hbuf : ∀ a < data.length, buf a = 0) :
    EverySchedule (fftStart cut fs data inverse) buf fun buf' =>
      fs.fft data inverse = .ok (fftFinish Fr (region buf' 0 data.length) inverse) ∧
      ∀ a, data.length ≤ a → buf' a = buf a := by
  have hwf := wf_of_new hfs
  have hp : 0 < 2 ^ m := by positivity
  have hdiv : 2 ^ m * (2 ^ scale / 2 ^ m) = 2 ^ scale := Nat.mul_div_cancel' (pow_dvd_pow 2 hm)
  have hroots : (if inverse then fs.reverseRoots else fs.expandedRoots).length = 2 ^ scale + 1 := by
    cases inverse
    · exact hwf.elen
    · exact hwf.rlen
  obtain ⟨w, s, e⟩ := fftTask_spec cut (if inverse then fs.reverseRoots else fs.expandedRoots) m 0 data 1
    (fs.maxWidth / data.length) (by rw [hl]; omega) (by
      intro i hi
      rw [hroots, hwf.width, hl]
      have : i * (2 ^ scale / 2 ^ m) ≤ 2 ^ m * (2 ^ scale / 2 ^ m) := Nat.mul_le_mul_right _ (by omega)
      omega)
  rw [← hl] at w s e
  refine everySchedule_of_separate s ⟨?_, fun a ha => ?_⟩
  · have e := e buf
    rw [region_replicate _ _ hbuf] at e
    have hmax : data.length ≤ fs.maxWidth := by rw [hwf.width, hl]; exact Nat.pow_le_pow_right (by norm_num) hm
    rw [FFTSettings.fft, if_neg (by omega), hl, isPowerOfTwo_two_pow]
    simp only [Bool.not_true, Bool.false_eq_true, if_false]
    rw [← hl, e, Res.bind_ok, fftFinish, region_length]
    cases inverse <;> rfl
  · exact (eval_off w buf a fun h => by have := h.2; omega).symm

/-- C07 for the code of the field version (`fft_fr`): slices of more than 513 elements are split into
concurrent tasks. -/
theorem C07_fft_fr {scale : Nat} {fs : FFTSettings Fr} (hfs : FFTSettings.new scale = .ok fs) {m : Nat}
    (hm : m ≤ scale) (data : List Fr) (hl : data.length = 2 ^ m) (inverse : Bool) :
    EverySchedule (fftStart cutFr fs data inverse) (fun _ => 0) fun buf' =>
      fs.fftFr data inverse = .ok (fftFinish Fr (region buf' 0 data.length) inverse) := by
  obtain ⟨h1, h2⟩ := C07_fft_every_schedule hfs cutFr hm data hl inverse (fun _ => 0) fun _ _ => rfl
  exact ⟨h1, fun p' m' hs hst => ⟨(h2 p' m' hs hst).1, (h2 p' m' hs hst).2.1⟩⟩

/-- C07 for the code of the group version (`fft_g1`): slices of more than eight elements are split into
concurrent tasks. -/
theorem C07_fft_g1 {G : Type} [AddCommGroup G] [Module Fr G] {scale : Nat} {fs : FFTSettings Fr}
    (hfs : FFTSettings.new scale = .ok fs) {m : Nat} (hm : m ≤ scale) (data : List G) (hl : data.length = 2 ^ m)
    (inverse : Bool) :
    EverySchedule (fftStart cutG1 fs data inverse) (fun _ => 0) fun buf' =>
      fs.fftG1 data inverse = .ok (fftFinish Fr (region buf' 0 data.length) inverse) := by
  obtain ⟨h1, h2⟩ := C07_fft_every_schedule hfs cutG1 hm data hl inverse (fun _ => 0) fun _ _ => rfl
  exact ⟨h1, fun p' m' hs hst => ⟨(h2 p' m' hs hst).1, (h2 p' m' hs hst).2.1⟩⟩

/-- C07 for the data availability extension: the buffer starts with the given values, and after every
execution holds the values which scaled by `1/n` are the result of the sequential extension. -/
theorem C07_das_every_schedule {scale : Nat} {fs : FFTSettings Fr} (hfs : FFTSettings.new scale = .ok fs)
    (cut : Nat → Bool) {m : Nat} (hm : m + 1 ≤ scale) (evens : List Fr) (hl : evens.length = 2 ^ m)
    (buf : Mem Fr) (hbuf : region buf 0 evens.length = evens) :
    EverySchedule (dasStart cut fs evens.length) buf fun buf' =>
      fs.dasFftExtension evens
        = .ok ((region buf' 0 evens.length).map fun f => f * ((evens.length : Nat) : Fr)⁻¹) ∧
      ∀ a, evens.length ≤ a → buf' a = buf a := by
  have hwf := wf_of_new hfs
  have hp : 0 < 2 ^ m := by positivity
  have hmk : m < 2 ^ m := Nat.lt_two_pow_self
  have e2 : 2 ^ (m + 1) = 2 ^ m * 2 := pow_succ 2 m
  have hdiv : 2 ^ m * 2 * (2 ^ scale / (2 ^ m * 2)) = 2 ^ scale := by
    rw [← e2]; exact Nat.mul_div_cancel' (pow_dvd_pow 2 hm)
  have hb : (2 ^ m - 1) * (fs.maxWidth / (evens.length * 2)) < 2 ^ scale + 1 := by
    rw [hwf.width, hl]
    have : (2 ^ m - 1) * (2 ^ scale / (2 ^ m * 2)) ≤ 2 ^ m * 2 * (2 ^ scale / (2 ^ m * 2)) :=
      Nat.mul_le_mul_right _ (by omega)
    omega
  obtain ⟨w, s, e⟩ := dasTask_spec cut fs.expandedRoots fs.reverseRoots m (evens.length + 1) 0
    (fs.maxWidth / (evens.length * 2)) (by omega) (by rw [hwf.elen]; exact hb) (by rw [hwf.rlen]; exact hb)
  rw [← hl] at w s e
  refine everySchedule_of_separate s ⟨?_, fun a ha => ?_⟩
  · have e := e buf
    rw [hbuf] at e
    have hmax : 2 ^ m * 2 ≤ fs.maxWidth := by
      rw [hwf.width, ← e2]; exact Nat.pow_le_pow_right (by norm_num) hm
    have hne : evens.isEmpty = false := by
      cases evens with
      | nil => rw [List.length_nil] at hl; omega
      | cons => rfl
    rw [FFTSettings.dasFftExtension, hne]
    have hpow : isPowerOfTwo evens.length = true := by rw [hl, isPowerOfTwo_two_pow]
    simp only [hpow, Bool.not_true, Bool.false_eq_true, if_false]
    rw [if_neg (by omega), e, Res.bind_ok, region_length]
  · exact (eval_off w buf a fun h => by have := h.2; omega).symm

/-! ## The hypotheses are met, and schedules matter -/

/-- 1024 field elements: the top call and no other splits into concurrent tasks. -/
example : ∃ fs : FFTSettings Fr, FFTSettings.new 10 = .ok fs ∧ cutFr 1024 = true ∧ cutFr 512 = false ∧
    EverySchedule (fftStart cutFr fs (List.replicate (2 ^ 10) (3 : Fr)) true) (fun _ => 0) fun buf' =>
      fs.fftFr (List.replicate (2 ^ 10) 3) true = .ok (fftFinish Fr (region buf' 0 (2 ^ 10)) true) := by
  obtain ⟨fs, e, _⟩ := new_spec (F := Fr) (show 10 < 32 by norm_num)
  refine ⟨fs, e, by decide, by decide, ?_⟩
  have := C07_fft_fr e (m := 10) (le_refl _) (List.replicate (2 ^ 10) 3) List.length_replicate true
  rwa [List.length_replicate] at this

/-- The extension of 64 values: the top call splits. -/
example : ∃ fs : FFTSettings Fr, FFTSettings.new 7 = .ok fs ∧ cutDas 64 = true ∧ cutDas 32 = false ∧
    EverySchedule (dasStart cutDas fs 64) (fun _ => 2) fun buf' =>
      fs.dasFftExtension (List.replicate 64 2) = .ok ((region buf' 0 64).map fun f => f * ((64 : Nat) : Fr)⁻¹) := by
  obtain ⟨fs, e, _⟩ := new_spec (F := Fr) (show 7 < 32 by norm_num)
  refine ⟨fs, e, by decide, by decide, ?_⟩
  obtain ⟨h1, h2⟩ := C07_das_every_schedule e cutDas (m := 6) (le_refl _) (List.replicate 64 2) List.length_replicate (fun _ => 2)
    (by apply List.ext_getElem?; intro i; simp only [region, List.length_replicate, List.getElem?_map, List.getElem?_replicate]
        by_cases hi : i < 64 <;> simp [hi])
  simp only [List.length_replicate] at h1 h2
  exact ⟨h1, fun p' m' hs hst => ⟨(h2 p' m' hs hst).1, (h2 p' m' hs hst).2.1⟩⟩

/-- The step relation has real races: two joined tasks writing one cell end with either value, so for them
no statement about every schedule could fix the result. -/
example : ¬ ∃ v, EverySchedule (.join (.write 0 1 .done) (.write 0 2 .done)) (fun _ => 0) fun m : Mem Nat => m 0 = v := by
  rintro ⟨v, -, h⟩
  have s1 : Steps (.join (.write 0 1 .done) (.write 0 2 .done), fun _ => (0 : Nat))
      (.done, Mem.set (Mem.set (fun _ => 0) 0 1) 0 2) :=
    .tail (.tail (.tail (.refl _) (.joinL _ (.write _ _ _ _))) (.joinR _ (.write _ _ _ _))) (.joinDone _)
  have s2 : Steps (.join (.write 0 1 .done) (.write 0 2 .done), fun _ => (0 : Nat))
      (.done, Mem.set (Mem.set (fun _ => 0) 0 2) 0 1) :=
    .tail (.tail (.tail (.refl _) (.joinR _ (.write _ _ _ _))) (.joinL _ (.write _ _ _ _))) (.joinDone _)
  have h1 := (h _ _ s1 fun c hc => by cases hc).2
  have h2 := (h _ _ s2 fun c hc => by cases hc).2
  simp [Mem.set] at h1 h2
  omega

end Kzg.Props
