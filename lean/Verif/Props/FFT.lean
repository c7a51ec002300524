import Verif.Spec.Poly
import Verif.Proofs.PolyOf
import Verif.Proofs.FrLawful
import Verif.Proofs.FFTSlow
/-!
# Properties C01–C06: FFT settings and transforms

`Fr` is the scalar field `ZMod r`. Group elements live in an arbitrary `Fr`-module `G`
(the prime order group G1 in the code).
-/

namespace Kzg.Props
open Kzg Polynomial Finset

/-! ## C01 -/

/-- C01 (success): for every scale below 32 the settings exist; the width is `2^scale`; the forward
table consists of the powers `0 … 2^scale` of one element of order exactly `2^scale`; backward table
entry `i` is the inverse of forward entry `i`. -/
theorem C01_settings_new (scale : Nat) (h : scale < 32) :
    ∃ fs : FFTSettings Fr, FFTSettings.new scale = .ok fs ∧
      fs.maxWidth = 2 ^ scale ∧
      orderOf fs.rootOfUnity = 2 ^ scale ∧
      fs.expandedRoots = (List.range (2 ^ scale + 1)).map (fun i => fs.rootOfUnity ^ i) ∧
      fs.reverseRoots.length = 2 ^ scale + 1 ∧
      ∀ i ≤ 2 ^ scale, ∃ a b, fs.expandedRoots[i]? = some a ∧ fs.reverseRoots[i]? = some b ∧
        a * b = 1 := by
  obtain ⟨fs, e, hwf⟩ := new_spec (F := Fr) h
  refine ⟨fs, e, hwf.width, hwf.prim.eq_orderOf.symm, ?_, hwf.rlen, ?_⟩
  · apply List.ext_getElem?
    intro i
    by_cases hi : i < 2 ^ scale + 1
    · rw [hwf.exp i (by omega), List.getElem?_map, List.getElem?_range hi]; rfl
    · rw [List.getElem?_eq_none (by have := hwf.elen; omega),
        List.getElem?_eq_none (by simp; omega)]
  · intro i hi
    refine ⟨_, _, hwf.exp i hi, hwf.rev i hi, ?_⟩
    have hw0 : fs.rootOfUnity ≠ 0 := hwf.prim.ne_zero (by positivity)
    rw [← mul_pow, mul_inv_cancel₀ hw0, one_pow]

/-- C01 (rejection): scales of 32 and more return an error, never a panic. -/
theorem C01_settings_reject (scale : Nat) (h : 32 ≤ scale) :
    ∃ msg, FFTSettings.new (F := Fr) scale = .err msg := ⟨_, new_err h⟩

example : ∃ fs : FFTSettings Fr, FFTSettings.new 31 = .ok fs ∧ fs.maxWidth = 2147483648 := by
  obtain ⟨fs, h, hw, _⟩ := C01_settings_new 31 (by norm_num)
  exact ⟨fs, h, by rw [hw]; norm_num⟩

/-! ## C02 -/

/-- C02: the forward transform of `data` is the list of values of the polynomial with coefficients
`data` at the powers of a primitive `n`-th root of unity, `n = data.length`. -/
theorem C02_fft_is_evaluation {scale : Nat} {fs : FFTSettings Fr}
    (hfs : FFTSettings.new scale = .ok fs) {m : Nat} (hm : m ≤ scale) (data : List Fr)
    (hd : data.length = 2 ^ m) :
    ∃ (ω : Fr) (out : List Fr), ω = fs.rootOfUnity ^ (2 ^ (scale - m)) ∧
      IsPrimitiveRoot ω data.length ∧ fs.fftFr data false = .ok out ∧ out.length = data.length ∧
      ∀ k < data.length, out[k]? = some ((polyOf data).eval (ω ^ k)) := by
  have hwf := wf_of_new hfs
  obtain ⟨r, hr, hl, hv⟩ := hwf.fft_forward hm data hd
  refine ⟨fs.omega (2 ^ m), r, ?_, by rw [hd]; exact hwf.omega_prim hm, hr, by omega, ?_⟩
  · rw [FFTSettings.omega, hwf.width, Nat.pow_div hm (by omega)]
  intro k hk
  rw [hv k (by omega), eval_polyOf, hd, dft]
  congr 1
  refine sum_congr rfl fun j _ => ?_
  rw [smul_eq_mul, mul_comm, ← pow_mul, mul_comm k j]

example : ∃ fs : FFTSettings Fr, FFTSettings.new 3 = .ok fs ∧
    ∃ out, fs.fftFr [1, 2, 3, 4] false = .ok out ∧ out[0]? = some 10 := by
  obtain ⟨fs, h, _⟩ := C01_settings_new 3 (by norm_num)
  obtain ⟨ω, out, _, _, ho, _, hv⟩ := C02_fft_is_evaluation h (m := 2) (by norm_num) [1, 2, 3, 4] rfl
  refine ⟨fs, h, out, ho, ?_⟩
  rw [hv 0 (by simp), eval_polyOf]
  simp [sum_range_succ]; norm_num

/-! ## C03 -/

/-- C03: inverse after forward and forward after inverse both give the input back. -/
theorem C03_fft_roundtrip {scale : Nat} {fs : FFTSettings Fr}
    (hfs : FFTSettings.new scale = .ok fs) {m : Nat} (hm : m ≤ scale) (data : List Fr)
    (hd : data.length = 2 ^ m) :
    (do let e ← fs.fftFr data false; fs.fftFr e true) = .ok data ∧
    (do let e ← fs.fftFr data true; fs.fftFr e false) = .ok data :=
  ⟨(wf_of_new hfs).fft_roundtrip hm data hd, (wf_of_new hfs).fft_roundtrip' hm data hd⟩

/-! ## C04 -/

/-- C04: over field elements (`G = Fr`) and group elements the transform returns an error exactly
when the length exceeds the width or is not a power of two; otherwise a list of the same length. In
particular it never panics. -/
theorem C04_fft_rejects_exactly {G : Type} [AddCommGroup G] [Module Fr G] {scale : Nat}
    {fs : FFTSettings Fr} (hfs : FFTSettings.new scale = .ok fs) (data : List G) (inverse : Bool) :
    ((data.length > fs.maxWidth ∨ ¬ ∃ m, data.length = 2 ^ m) →
      ∃ msg, fs.fft data inverse = .err msg) ∧
    (¬ (data.length > fs.maxWidth ∨ ¬ ∃ m, data.length = 2 ^ m) →
      ∃ out, fs.fft data inverse = .ok out ∧ out.length = data.length) := by
  have hwf := wf_of_new hfs
  constructor
  · intro h
    rw [FFTSettings.fft]
    by_cases h1 : data.length > fs.maxWidth
    · exact ⟨_, if_pos h1⟩
    · have h2 := h.resolve_left h1
      rw [← isPowerOfTwo_iff] at h2
      rw [if_neg h1]
      simp only [Bool.not_eq_true] at h2
      rw [h2]
      exact ⟨_, rfl⟩
  · intro h
    push Not at h
    obtain ⟨h1, m, hm⟩ := h
    have hmk : m ≤ scale := by
      rw [hwf.width, hm] at h1
      exact (Nat.pow_le_pow_iff_right (by omega)).mp h1
    cases inverse
    · obtain ⟨r, hr, hl, _⟩ := hwf.fft_forward hmk data hm
      exact ⟨r, hr, by omega⟩
    · obtain ⟨r, hr, hl, _⟩ := hwf.fft_backward hmk data hm
      exact ⟨r, hr, by omega⟩

/-! ## C05 -/

/-- C05: fast and quadratic transform agree on every input of allowed length, for the forward and
backward root tables, over field elements and group elements. -/
theorem C05_fast_eq_slow {G : Type} [AddCommGroup G] [Module Fr G] {scale : Nat}
    {fs : FFTSettings Fr} (hfs : FFTSettings.new scale = .ok fs) {m : Nat} (hm : m ≤ scale)
    (data ret ret' : List G) (hd : data.length = 2 ^ m) (hr : ret.length = 2 ^ m)
    (hr' : ret'.length = 2 ^ m) (roots : List Fr)
    (hroots : roots = fs.expandedRoots ∨ roots = fs.reverseRoots) :
    ∃ out, fftFast ret data 1 roots (fs.maxWidth / 2 ^ m) = .ok out ∧
      fftSlow ret' data 1 roots (fs.maxWidth / 2 ^ m) = .ok out := by
  have hwf := wf_of_new hfs
  have hp := hwf.omega_prim hm
  have fin : ∀ (a b : List G) (f : Nat → G), a.length = 2 ^ m → b.length = 2 ^ m →
      (∀ i < 2 ^ m, a[i]? = some (f i)) → (∀ i < 2 ^ m, b[i]? = some (f i)) → a = b := by
    intro a b f ha hb h1 h2
    apply List.ext_getElem?
    intro i
    by_cases hi : i < 2 ^ m
    · rw [h1 i hi, h2 i hi]
    · rw [List.getElem?_eq_none (by omega), List.getElem?_eq_none (by omega)]
  rcases hroots with rfl | rfl
  · obtain ⟨a, ha, hal, hav⟩ := hwf.fftFast_forward hm ret data hr hd
    obtain ⟨b, hb, hbl, hbv⟩ := fftSlow_spec ret' data (2 ^ m) (by positivity) _ _ _ hr' hd
      hp.pow_eq_one (hwf.roots_forward hm)
    exact ⟨a, ha, by rw [hb, fin a b _ hal hbl hav hbv]⟩
  · obtain ⟨a, ha, hal, hav⟩ := hwf.fftFast_backward hm ret data hr hd
    obtain ⟨b, hb, hbl, hbv⟩ := fftSlow_spec ret' data (2 ^ m) (by positivity) _ _ _ hr' hd
      hp.inv.pow_eq_one (hwf.roots_backward hm)
    exact ⟨a, ha, by rw [hb, fin a b _ hal hbl hav hbv]⟩

/-! ## C06 -/

/-- C06 (forward): output `k` of the group transform is `∑ ω^(j k) • P_j`. -/
theorem C06_fft_g1 {G : Type} [AddCommGroup G] [Module Fr G] {scale : Nat}
    {fs : FFTSettings Fr} (hfs : FFTSettings.new scale = .ok fs) {m : Nat} (hm : m ≤ scale)
    (data : List G) (hd : data.length = 2 ^ m) :
    ∃ (ω : Fr) (out : List G), ω = fs.rootOfUnity ^ (2 ^ (scale - m)) ∧
      IsPrimitiveRoot ω (2 ^ m) ∧ fs.fftG1 data false = .ok out ∧
      out.length = 2 ^ m ∧
      ∀ k < 2 ^ m, out[k]? = some (∑ j ∈ range (2 ^ m), ω ^ (j * k) • data.getD j 0) := by
  have hwf := wf_of_new hfs
  obtain ⟨r, hr, hl, hv⟩ := hwf.fft_forward hm data hd
  refine ⟨fs.omega (2 ^ m), r, ?_, hwf.omega_prim hm, hr, hl, hv⟩
  rw [FFTSettings.omega, hwf.width, Nat.pow_div hm (by omega)]

/-- C06 (inverse): inverse and forward group transforms undo each other. -/
theorem C06_fft_g1_roundtrip {G : Type} [AddCommGroup G] [Module Fr G] {scale : Nat}
    {fs : FFTSettings Fr} (hfs : FFTSettings.new scale = .ok fs) {m : Nat} (hm : m ≤ scale)
    (data : List G) (hd : data.length = 2 ^ m) :
    (do let e ← fs.fftG1 data false; fs.fftG1 e true) = .ok data ∧
    (do let e ← fs.fftG1 data true; fs.fftG1 e false) = .ok data :=
  ⟨(wf_of_new hfs).fft_roundtrip hm data hd, (wf_of_new hfs).fft_roundtrip' hm data hd⟩

/-- C06 (exponent): multiplying a base point by scalars and transforming the points equals
transforming the scalars and multiplying, in both directions. -/
theorem C06_fft_exponent {G : Type} [AddCommGroup G] [Module Fr G] {scale : Nat}
    {fs : FFTSettings Fr} (hfs : FFTSettings.new scale = .ok fs) {m : Nat} (hm : m ≤ scale)
    (a : List Fr) (ha : a.length = 2 ^ m) (P : G) (inverse : Bool) :
    ∃ b : List Fr, fs.fftFr a inverse = .ok b ∧
      fs.fftG1 (a.map (fun s => s • P)) inverse = .ok (b.map (fun s => s • P)) := by
  have hwf := wf_of_new hfs
  have hmap : (a.map (fun s => s • P)).length = 2 ^ m := by simp [ha]
  have key : ∀ w : Fr, ∀ k, dft w (2 ^ m) (fun j => (a.map (fun s => s • P)).getD j 0) k =
      (dft w (2 ^ m) (fun j => a.getD j 0) k) • P := by
    intro w k
    unfold dft
    rw [Finset.sum_smul]
    refine sum_congr rfl fun j hj => ?_
    have hj' : j < a.length := by rw [ha]; exact mem_range.mp hj
    beta_reduce
    rw [List.getD_eq_getElem _ _ (by simpa using hj'), List.getD_eq_getElem _ _ hj',
      List.getElem_map, smul_eq_mul, mul_smul]
  have fin : ∀ (x : List G) (y : List Fr) (f : Nat → Fr), x.length = 2 ^ m → y.length = 2 ^ m →
      (∀ i < 2 ^ m, x[i]? = some (f i • P)) → (∀ i < 2 ^ m, y[i]? = some (f i)) →
      x = y.map (fun s => s • P) := by
    intro x y f hx hy h1 h2
    apply List.ext_getElem?
    intro i
    by_cases hi : i < 2 ^ m
    · rw [h1 i hi, List.getElem?_map, h2 i hi]; rfl
    · rw [List.getElem?_eq_none (by omega), List.getElem?_eq_none (by simp; omega)]
  cases inverse
  · obtain ⟨b, hb, hbl, hbv⟩ := hwf.fft_forward hm a ha
    obtain ⟨c, hc, hcl, hcv⟩ := hwf.fft_forward hm (a.map (fun s => s • P)) hmap
    refine ⟨b, hb, ?_⟩
    rw [FFTSettings.fftG1, hc, fin c b _ hcl hbl (fun i hi => by rw [hcv i hi, key]) hbv]
  · obtain ⟨b, hb, hbl, hbv⟩ := hwf.fft_backward hm a ha
    obtain ⟨c, hc, hcl, hcv⟩ := hwf.fft_backward hm (a.map (fun s => s • P)) hmap
    refine ⟨b, hb, ?_⟩
    rw [FFTSettings.fftG1, hc, fin c b _ hcl hbl
      (fun i hi => by rw [hcv i hi, key, ← mul_smul]; rfl) hbv]

example : ∃ fs : FFTSettings Fr, FFTSettings.new 5 = .ok fs ∧ ∃ m, m ≤ 5 ∧
    (List.replicate 32 (1 : Fr)).length = 2 ^ m :=
  ⟨_, (C01_settings_new 5 (by norm_num)).choose_spec.1, 5, le_rfl, by simp⟩

end Kzg.Props
