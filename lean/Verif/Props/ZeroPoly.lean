import Verif.Proofs.ZeroPolyTop
import Verif.Proofs.FrLawful
/-!
# Properties C18–C20: zero polynomials
-/

namespace Kzg.Props
open Kzg Polynomial

/-! ## C18 -/

/-- C18: the partial zero polynomial is the product of the `x - root[idx·stride]`. -/
theorem C18_product {scale : Nat} {fs : FFTSettings Fr} (hfs : FFTSettings.new scale = .ok fs)
    (idxs : List Nat) (stride : Nat) (hne : idxs ≠ []) (hin : ∀ i ∈ idxs, i * stride ≤ 2 ^ scale) :
    ∃ out, fs.zeroPolyPartial idxs stride = .ok out ∧ out.length = idxs.length + 1 ∧
      polyOf out = (idxs.map fun i => X - C (fs.rootOfUnity ^ (i * stride))).prod ∧
      out.getLast? = some 1 := by
  have hwf := wf_of_new hfs
  have h := zeroPolyPartial_spec fs idxs stride (fun i => fs.rootOfUnity ^ (i * stride)) hne
    (fun i hi => hwf.exp _ (hin i hi))
  have hd := linProd_natDegree (fun i => fs.rootOfUnity ^ (i * stride)) idxs
  have hm := linProd_monic (fun i => fs.rootOfUnity ^ (i * stride)) idxs
  refine ⟨_, h, by simp, ?_, ?_⟩
  · refine polyOf_map_coeff ?_
    rw [degree_eq_natDegree hm.ne_zero, hd]
    exact_mod_cast Nat.lt_succ_self _
  · rw [List.getLast?_eq_getElem?, List.length_map, List.length_range, Nat.add_sub_cancel,
      List.getElem?_map, List.getElem?_range (by omega), Option.map_some, ← hd, hm.coeff_natDegree]

/-- C18 (empty list): an error. -/
theorem C18_empty (fs : FFTSettings Fr) (stride : Nat) :
    ∃ msg, fs.zeroPolyPartial [] stride = .err msg := zeroPolyPartial_empty fs stride

example : ∃ fs : FFTSettings Fr, FFTSettings.new 4 = .ok fs ∧
    ∃ out, fs.zeroPolyPartial [1, 3, 3, 7] 2 = .ok out ∧ out.length = 5 := by
  obtain ⟨fs, h, _⟩ := new_spec (F := Fr) (k := 4) (by norm_num)
  obtain ⟨out, h1, h2, _⟩ := C18_product h [1, 3, 3, 7] 2 (by simp) (by simp)
  exact ⟨fs, h, out, h1, h2⟩

/-! ## C19 -/

/-- C19 (success): the reduction is the product. The number of coefficients of the product of
nonempty coefficient lists is `∑ (length - 1) + 1`. -/
theorem C19_reduce {scale : Nat} {fs : FFTSettings Fr} (hfs : FFTSettings.new scale = .ok fs)
    {m : Nat} (hm : m ≤ scale) (ps : List (List Fr)) (hne : ps ≠ []) (hp : ∀ p ∈ ps, p ≠ [])
    (hfit : (ps.map fun p => p.length - 1).sum + 1 ≤ 2 ^ m) :
    ∃ out, fs.reducePartials (2 ^ m) ps = .ok out ∧
      out.length = (ps.map fun p => p.length - 1).sum + 1 ∧ polyOf out = (ps.map polyOf).prod := by
  refine ⟨_, (wf_of_new hfs).reducePartials_spec hm ps hne hp hfit, by simp [degSum], ?_⟩
  exact polyOf_map_coeff (listProd_degree ps hp)

/-- C19 (error): any other domain size, and products that do not fit. -/
theorem C19_reduce_errors {scale : Nat} {fs : FFTSettings Fr} (hfs : FFTSettings.new scale = .ok fs)
    (n : Nat) (ps : List (List Fr)) (hne : ps ≠ []) (hp : ∀ p ∈ ps, p ≠ [])
    (hbad : ¬ ∃ m, n = 2 ^ m ∧ m ≤ scale ∧ (ps.map fun p => p.length - 1).sum + 1 ≤ 2 ^ m) :
    ∃ msg, fs.reducePartials n ps = .err msg := (wf_of_new hfs).reducePartials_err n ps hne hp hbad

example : ∃ fs : FFTSettings Fr, FFTSettings.new 4 = .ok fs ∧
    (∃ out, fs.reducePartials 8 [[1, 2], [3, 4, 5], [6, 7]] = .ok out ∧ out.length = 5) ∧
    ∃ msg, fs.reducePartials 4 [[1, 2], [3, 4, 5], [6, 7]] = .err msg := by
  obtain ⟨fs, h, _⟩ := new_spec (F := Fr) (k := 4) (by norm_num)
  obtain ⟨out, h1, h2, _⟩ := C19_reduce h (m := 3) (by norm_num) [[1, 2], [3, 4, 5], [6, 7]]
    (by simp) (by simp) (by simp)
  refine ⟨fs, h, ⟨out, h1, by rw [h2]; simp⟩, C19_reduce_errors h 4 _ (by simp) (by simp) ?_⟩
  rintro ⟨m, h4, _, h5⟩
  rw [← h4] at h5
  simp at h5

/-! ## C20 -/

/-- C20 (partial): for every power-of-two domain `D` within the width and every list of positions
below `D`, nonempty, shorter than `D`, and of length at most `63·(D/64 + 1)`, the call succeeds with
`D` coefficients of the product of the `x - ω^i` and its `D` evaluations; evaluation `j` is zero
exactly if `j` is missing. Missing from the full statement: the lists with
`63·(D/64 + 1) < length < D`, which exist from `D = 8192` on; the code returns an error for all of
them (`C20_dense_error`). -/
theorem C20_zero_poly_partial {scale : Nat} {fs : FFTSettings Fr}
    (hfs : FFTSettings.new scale = .ok fs) {n : Nat} (hn : n ≤ scale) (missing : List Nat)
    (hidx : ∀ i ∈ missing, i < 2 ^ n) (hne : missing ≠ []) (hlt : missing.length < 2 ^ n)
    (hsafe : missing.length ≤ 63 * (2 ^ n / 64 + 1)) :
    ∃ (ω : Fr) (ev coeffs : List Fr), IsPrimitiveRoot ω (2 ^ n) ∧ ω = fs.rootOfUnity ^ 2 ^ (scale - n) ∧
      fs.zeroPolyViaMultiplication (2 ^ n) missing = .ok (ev, coeffs) ∧
      ev.length = 2 ^ n ∧ coeffs.length = 2 ^ n ∧
      polyOf coeffs = (missing.map fun i => X - C (ω ^ i)).prod ∧
      ∀ j < 2 ^ n, ∃ y, ev[j]? = some y ∧ y = (polyOf coeffs).eval (ω ^ j) ∧ (y = 0 ↔ j ∈ missing) := by
  have hwf := wf_of_new hfs
  have hprim := hwf.omega_prim hn
  have h := hwf.zeroPoly_spec hn (fun i hi => (hidx i hi).le) hne hlt hsafe
  set r : Nat → Fr := fun i => fs.omega (2 ^ n) ^ i with hr
  have hpoly : polyOf ((List.range (2 ^ n)).map (linProd r missing).coeff) = linProd r missing := by
    refine polyOf_map_coeff ?_
    rw [degree_eq_natDegree (linProd_monic r missing).ne_zero, linProd_natDegree]
    exact_mod_cast hlt
  refine ⟨fs.omega (2 ^ n), _, _, hprim, ?_, h, by simp, by simp, hpoly, ?_⟩
  · rw [FFTSettings.omega, hwf.width, Nat.pow_div hn (by omega)]
  · intro j hj
    refine ⟨(linProd r missing).eval (fs.omega (2 ^ n) ^ j), ?_, by rw [hpoly], ?_⟩
    · rw [List.getElem?_map, List.getElem?_range hj]; rfl
    · rw [linProd_eval]
      constructor
      · rintro ⟨i, hi, he⟩
        have := hprim.pow_inj hj (hidx i hi) he
        rw [this]; exact hi
      · intro hj'
        exact ⟨j, hj', rfl⟩

/-- The restriction is void for every domain of at most 4096. -/
theorem C20_safe_up_to_4096 {n : Nat} (hn : n ≤ 12) (m : Nat) (hlt : m < 2 ^ n) :
    m ≤ 63 * (2 ^ n / 64 + 1) := by
  interval_cases n <;> omega

/-- The restriction is void whenever at most half of the domain is missing. -/
theorem C20_safe_half {n m : Nat} (h : 2 * m ≤ 2 ^ n) : m ≤ 63 * (2 ^ n / 64 + 1) := by omega

/-- C20 (dense sets): beyond the bound the call is an error for every such list. -/
theorem C20_dense_error {scale : Nat} {fs : FFTSettings Fr}
    (hfs : FFTSettings.new scale = .ok fs) {n : Nat} (hn : n ≤ scale) (missing : List Nat)
    (hidx : ∀ i ∈ missing, i < 2 ^ n) (hlt : missing.length < 2 ^ n)
    (hdense : 63 * (2 ^ n / 64 + 1) < missing.length) :
    ∃ msg, fs.zeroPolyViaMultiplication (2 ^ n) missing = .err msg :=
  ⟨_, (wf_of_new hfs).zeroPoly_err hn (fun i hi => (hidx i hi).le) hlt hdense⟩

/-- C20 (negation): the full statement is false: with settings of scale 13, the domain 8192 and the
8190 positions `0 … 8189` missing, the call returns an error. -/
theorem C20_full_statement_false :
    ¬ ∀ (scale : Nat) (fs : FFTSettings Fr), FFTSettings.new scale = .ok fs → ∀ n ≤ scale,
      ∀ missing : List Nat, missing.Pairwise (· < ·) → (∀ i ∈ missing, i < 2 ^ n) → missing ≠ [] →
        missing.length < 2 ^ n → ∃ r, fs.zeroPolyViaMultiplication (2 ^ n) missing = .ok r := by
  intro hall
  obtain ⟨fs, h, _⟩ := new_spec (F := Fr) (k := 13) (by norm_num)
  have hl : (List.range 8190).length = 8190 := List.length_range
  obtain ⟨r, hr⟩ := hall 13 fs h 13 le_rfl (List.range 8190) List.pairwise_lt_range
    (fun i hi => by have := List.mem_range.mp hi; norm_num; omega)
    (List.ne_nil_of_length_pos (by omega)) (by rw [hl]; norm_num)
  obtain ⟨msg, he⟩ := C20_dense_error h (n := 13) le_rfl (List.range 8190)
    (fun i hi => by have := List.mem_range.mp hi; norm_num; omega)
    (by rw [hl]; norm_num) (by rw [hl]; norm_num)
  rw [he] at hr
  cases hr

/-- C20 (outside of the supported inputs): nothing missing gives two empty vectors; everything
missing, a domain above the width, and a size that is no power of two are errors. -/
theorem C20_zero_poly_edges {scale : Nat} {fs : FFTSettings Fr}
    (hfs : FFTSettings.new scale = .ok fs) (D : Nat) (missing : List Nat) :
    fs.zeroPolyViaMultiplication D [] = .ok ([], []) ∧
    (missing ≠ [] → D ≤ missing.length ∨ 2 ^ scale < D ∨ (¬ ∃ n, D = 2 ^ n) →
      ∃ msg, fs.zeroPolyViaMultiplication D missing = .err msg) := by
  have hwf := wf_of_new hfs
  refine ⟨rfl, ?_⟩
  intro hne h
  unfold FFTSettings.zeroPolyViaMultiplication
  rw [if_neg (by simpa using hne)]
  by_cases h1 : D ≤ missing.length
  · rw [if_pos h1]; exact ⟨_, rfl⟩
  rw [if_neg h1]
  by_cases h2 : 2 ^ scale < D
  · rw [if_pos (by rw [hwf.width]; exact h2)]; exact ⟨_, rfl⟩
  rw [if_neg (by rw [hwf.width]; exact h2)]
  have h3 := (h.resolve_left h1).resolve_left h2
  rw [if_pos (by simpa [← isPowerOfTwo_iff] using h3)]
  exact ⟨_, rfl⟩

example : ∃ fs : FFTSettings Fr, FFTSettings.new 10 = .ok fs ∧
    ∃ r, fs.zeroPolyViaMultiplication 1024 (List.range 1000) = .ok r := by
  obtain ⟨fs, h, _⟩ := new_spec (F := Fr) (k := 10) (by norm_num)
  obtain ⟨_, ev, co, _, _, h1, _⟩ := C20_zero_poly_partial h (n := 10) le_rfl (List.range 1000)
    (fun i hi => by have := List.mem_range.mp hi; norm_num; omega)
    (List.ne_nil_of_length_pos (by rw [List.length_range]; norm_num))
    (by rw [List.length_range]; norm_num) (by rw [List.length_range]; norm_num)
  exact ⟨fs, h, _, h1⟩

end Kzg.Props
