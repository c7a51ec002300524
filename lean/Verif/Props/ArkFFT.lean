import Verif.Props.MclFFT
import Verif.Props.FFT
import Verif.Proofs.Ark.FFT
import Verif.Proofs.Scale
/-!
# Properties C113–C116: settings, transforms and field elements of the Arkworks backend
-/

namespace Kzg.Props
open Kzg Kzg.Ark Polynomial Finset

/-! ## C113: settings -/

theorem tableRow_31 : tableRow 31 = (Lib.root : Fr) ^ 2 := by
  show frFromWords _ = ((_ : Nat) : Fr) ^ 2
  rw [frFromWords, ← Nat.cast_pow, ZMod.natCast_eq_natCast_iff']
  decide +kernel

/-- The generators that the library computes are the rows of the table of blst-from-scratch. -/
theorem tableRow_eq_root {k : Nat} (hk : k < 32) : tableRow k = (Lib.root : Fr) ^ 2 ^ (32 - k) := by
  have h := tableRow_pow (i := k) (31 - k) (by omega)
  rw [show k + (31 - k) = 31 by omega, tableRow_31, ← pow_mul, ← pow_succ'] at h
  rw [← h]
  congr 2; omega

/-- The contents of settings are determined by width and root. -/
theorem settings_ext {fs fs' : FFTSettings Fr} {k : Nat} (h : fs.WF k) (h' : fs'.WF k)
    (hr : fs.rootOfUnity = fs'.rootOfUnity) : fs = fs' := by
  have h1 := (good_of_wf h).2.2.1
  have h2 := (good_of_wf h').2.2.1
  have h3 : fs.reverseRoots = fs'.reverseRoots := by
    apply List.ext_getElem?
    intro i
    by_cases hi : i ≤ 2 ^ k
    · rw [h.rev i hi, h'.rev i hi, hr]
    · rw [List.getElem?_eq_none (by have := h.rlen; omega), List.getElem?_eq_none (by have := h'.rlen; omega)]
  have hw := h.width.trans h'.width.symm
  rw [hr, ← h2] at h1
  cases fs
  cases fs'
  simp only [FFTSettings.mk.injEq]
  exact ⟨hw, hr, h1, h3⟩

theorem rootOf_new {k : Nat} {fs : FFTSettings Fr} (hk : k < 32) (h : FFTSettings.new k = .ok fs) :
    fs.rootOfUnity = tableRow k := by
  have hlen : k < (FrTable.rootTable (F := Fr)).length := by rw [LawfulFr.len (F := Fr)]; exact hk
  rw [FFTSettings.new, if_neg (by omega), rd_of_lt hlen, Res.bind_ok] at h
  cases hx : (Kzg.expandRoot (FrTable.rootTable (F := Fr))[k] (1 <<< k)).unwrap with
  | ok x =>
    rw [hx, Res.bind_ok] at h
    cases h
    show (FrTable.rootTable (F := Fr))[k] = tableRow k
    simp only [FrTable.rootTable, List.getElem_map, tableRow]
    rw [List.getD_eq_getElem _ _ (by rw [table_len]; exact hk)]
  | err e => rw [hx] at h; cases h
  | panic => rw [hx] at h; cases h

/-- C113: for scales below 32 the settings are good, from 32 on an error; there is no panic. -/
theorem C113_new (scale : Nat) :
    (scale < 32 → ∃ fs, settingsNew (F := Fr) scale = .ok fs ∧ GoodSettings fs scale) ∧
    (32 ≤ scale → ∃ msg, settingsNew (F := Fr) scale = .err msg) := by
  refine ⟨fun h => ?_, fun h => ⟨_, settingsNew_err h⟩⟩
  obtain ⟨fs, h1, h2⟩ := settingsNew_spec (F := Fr) h
  exact ⟨fs, h1, good_of_wf h2.toWF⟩

/-- C113 (backends): although the root comes from the library instead of the table, the settings are those of
blst-from-scratch. -/
theorem C113_same_settings (scale : Nat) (fs : FFTSettings Fr) :
    settingsNew scale = .ok fs ↔ FFTSettings.new scale = .ok fs := by
  by_cases hk : scale < 32
  · obtain ⟨a, ha, hm⟩ := settingsNew_spec (F := Fr) hk
    obtain ⟨b, hb, hw⟩ := new_spec (F := Fr) hk
    have : a = b := settings_ext hm.toWF hw (by rw [hm.root, rootOf_new hk hb, tableRow_eq_root hk])
    rw [ha, hb, this]
  · rw [settingsNew_err (by omega)]
    rw [FFTSettings.new, if_pos (by rw [LawfulFr.len (F := Fr)]; omega)]

/-- C113 (copies): a copy is equal to the original, whatever that is. -/
theorem C113_clone (fs : FFTSettings Fr) : settingsClone fs = .ok fs := settingsClone_eq fs

/-- C113 (default): the default settings reject every list. -/
theorem C113_default (data : List Fr) (inverse : Bool) :
    ∃ msg, Ark.fftFr settingsDefault data inverse = .err msg := by
  by_cases h : data.length = 0
  · refine ⟨_, fftFr_err_pow (by rw [h]; exact Nat.zero_le _) ?_ _⟩
    rw [h]
    rintro ⟨m, hm⟩
    have : 0 < 2 ^ m := by positivity
    omega
  · exact ⟨_, fftFr_err_len (Nat.pos_of_ne_zero h) _⟩

example : ∃ fs : FFTSettings Fr, settingsNew 4 = .ok fs ∧ FFTSettings.new 4 = .ok fs ∧ fs.maxWidth = 16 := by
  obtain ⟨fs, h, hg⟩ := (C113_new 4).1 (by norm_num)
  exact ⟨fs, h, (C113_same_settings 4 fs).1 h, hg.1⟩

/-! ## C114: transforms of field elements -/

theorem WF.cases_len {k : Nat} {fs : FFTSettings Fr} (hwf : fs.WF k) {n : Nat} (h1 : ¬ fs.maxWidth < n)
    (h2 : ∃ m, n = 2 ^ m) : ∃ m ≤ k, n = 2 ^ m := by
  obtain ⟨m, rfl⟩ := h2
  refine ⟨m, ?_, rfl⟩
  rw [hwf.width] at h1
  exact (Nat.pow_le_pow_iff_right (by omega)).mp (not_lt.mp h1)

/-- C114: the forward transform of `2^m` values gives the values of the polynomial at the powers of a root of order
`2^m` that depends on `m` only, not on the settings; the inverse transform undoes it. -/
theorem C114_fft (m : Nat) (h31 : m < 32) : ∃ ω : Fr, IsPrimitiveRoot ω (2 ^ m) ∧
    ∀ (scale : Nat) (fs : FFTSettings Fr), settingsNew scale = .ok fs → m ≤ scale →
      ∀ data : List Fr, data.length = 2 ^ m →
        Ark.fftFr fs data false = .ok ((List.range (2 ^ m)).map fun i => (polyOf data).eval (ω ^ i)) ∧
        (do let e ← Ark.fftFr fs data false; Ark.fftFr fs e true) = .ok data ∧
        (do let e ← Ark.fftFr fs data true; Ark.fftFr fs e false) = .ok data := by
  refine ⟨_, gen_prim (F := Fr) (m := m) (by omega), ?_⟩
  intro scale fs hfs hm data hd
  have hmade := made_of_new hfs
  have hwf := hmade.toWF
  obtain ⟨e, he, hel, _⟩ := hwf.fft_forward hm data hd
  obtain ⟨e', he', hel', _⟩ := hwf.fft_backward hm data hd
  have h1 := hwf.fft_roundtrip hm data hd
  have h2 := hwf.fft_roundtrip' hm data hd
  rw [he, Res.bind_ok] at h1
  rw [he', Res.bind_ok] at h2
  refine ⟨?_, ?_, ?_⟩
  · rw [fftFr_eq hmade hm data hd, hwf.fft_eval hm _ hd, hmade.omega_eq hm]
  · rw [fftFr_eq hmade hm data hd, he, Res.bind_ok, fftFr_eq hmade hm e hel, h1]
  · rw [fftFr_eq hmade hm data hd, he', Res.bind_ok, fftFr_eq hmade hm e' hel', h2]

/-- C114 (backends): the outcome is that of blst-from-scratch, for every list; of errors only the text differs. -/
theorem C114_same_transform {scale : Nat} {fs : FFTSettings Fr} (hfs : settingsNew scale = .ok fs) (data : List Fr)
    (inverse : Bool) :
    (∀ out, Ark.fftFr fs data inverse = .ok out ↔ fs.fftFr data inverse = .ok out) ∧
    ((∃ msg, Ark.fftFr fs data inverse = .err msg) ↔ ∃ msg, fs.fftFr data inverse = .err msg) := by
  have hmade := made_of_new hfs
  by_cases h1 : fs.maxWidth < data.length
  · rw [fftFr_err_len h1, FFTSettings.fftFr, FFTSettings.fft, if_pos h1]; simp
  by_cases h2 : ∃ m, data.length = 2 ^ m
  · obtain ⟨m, hm, hd⟩ := WF.cases_len hmade.toWF h1 h2
    rw [fftFr_eq hmade hm data hd]
    exact ⟨fun _ => Iff.rfl, Iff.rfl⟩
  · have hp : isPowerOfTwo data.length = false := by
      rw [← Bool.not_eq_true, isPowerOfTwo_iff]; exact h2
    rw [fftFr_err_pow (by omega) h2, FFTSettings.fftFr, FFTSettings.fft, if_neg (by omega), hp]; simp

/-- C114 (rejection): an error exactly for lengths above the width and lengths that are no powers of two; never a
panic. -/
theorem C114_rejects {scale : Nat} {fs : FFTSettings Fr} (hfs : settingsNew scale = .ok fs) (data : List Fr)
    (inverse : Bool) : Ark.fftFr fs data inverse ≠ .panic ∧
    ((∃ msg, Ark.fftFr fs data inverse = .err msg) ↔ 2 ^ scale < data.length ∨ ¬ ∃ m, data.length = 2 ^ m) := by
  have hmade := made_of_new hfs
  have hwf := hmade.toWF
  by_cases h1 : fs.maxWidth < data.length
  · rw [fftFr_err_len h1]
    exact ⟨nofun, fun _ => .inl (hwf.width ▸ h1), fun _ => ⟨_, rfl⟩⟩
  by_cases h2 : ∃ m, data.length = 2 ^ m
  · obtain ⟨m, hm, hd⟩ := WF.cases_len hwf h1 h2
    have : ∃ r, fs.fft data inverse = .ok r := by
      cases inverse with
      | false => obtain ⟨r, hr, _⟩ := hwf.fft_forward hm data hd; exact ⟨r, hr⟩
      | true => obtain ⟨r, hr, _⟩ := hwf.fft_backward hm data hd; exact ⟨r, hr⟩
    obtain ⟨r, hr⟩ := this
    rw [fftFr_eq hmade hm data hd, hr]
    refine ⟨nofun, ⟨fun ⟨_, h⟩ => (by cases h), ?_⟩⟩
    rintro (h | h)
    · exact absurd (hwf.width ▸ h) h1
    · exact absurd h2 h
  · rw [fftFr_err_pow (by omega) h2]
    exact ⟨nofun, fun _ => .inr h2, fun _ => ⟨_, rfl⟩⟩

/-- C114 (helpers, partial: forward table only): the quadratic function and `fft_fr_fast` agree on the arguments the transform passes. -/
theorem C114_fast_eq_slow_partial {scale : Nat} {fs : FFTSettings Fr} (hfs : settingsNew scale = .ok fs) {m : Nat}
    (hm : m ≤ scale) (data ret ret' : List Fr) (hd : data.length = 2 ^ m) (hr : ret.length = 2 ^ m)
    (hr' : ret'.length = 2 ^ m) :
    ∃ out, fftFrFast ret data 1 fs.expandedRoots (fs.maxWidth / 2 ^ m) = .ok out ∧
      fftFrSlow ret' data 1 fs.expandedRoots (fs.maxWidth / 2 ^ m) = .ok out := by
  have hmade := made_of_new hfs
  have hwf := hmade.toWF
  have hlt := hwf.lt
  obtain ⟨b, hb, hbl, hbv⟩ := fftSlow_spec ret' data (2 ^ m) (by positivity) _ _ _ hr' hd
    (hwf.omega_prim hm).pow_eq_one (hwf.roots_forward hm)
  refine ⟨b, ?_, hb⟩
  rw [fftFrFast_spec (by omega) ret data hd (by omega), eq_range_map hbl hbv, hr, hmade.omega_eq hm]

/-- C114 (refuted for the inverse tables): `fft_fr_fast` ignores stride and roots, so with the inverse roots it
still computes the forward transform. -/
theorem C114_fast_ignores_roots (m : Nat) (hm : m < 32) (ret data : List Fr) (hd : data.length = 2 ^ m)
    (hr : ret.length = 2 ^ m) (stride stride' : Nat) (roots roots' : List Fr) (rs rs' : Nat) :
    ∃ out, fftFrFast ret data stride roots rs = .ok out ∧ fftFrFast ret data stride' roots' rs' = .ok out := by
  rw [fftFrFast_spec hm ret data hd (by omega), fftFrFast_spec hm ret data hd (by omega)]
  exact ⟨_, rfl, rfl⟩

/-- C114 (refuted for the inverse table): the agreement with the quadratic function holds for the forward table only; for the inverse
table it fails, e.g. for the four values `0, 1, 0, 0`. -/
theorem C114_inverse_table_differs (fs : FFTSettings Fr) (hfs : settingsNew 2 = .ok fs) :
    ∃ out out', fftFrFast [0, 0, 0, 0] [0, 1, 0, 0] 1 fs.reverseRoots 1 = .ok out ∧
      fftFrSlow [0, 0, 0, 0] [0, 1, 0, 0] 1 fs.reverseRoots 1 = .ok out' ∧ out ≠ out' := by
  have hmade := made_of_new hfs
  have hwf := hmade.toWF
  have hp := hwf.omega_prim (le_refl 2)
  have hroots := hwf.roots_backward (le_refl 2)
  rw [hwf.width, Nat.div_self (by norm_num)] at hroots
  obtain ⟨b, hb, hbl, hbv⟩ := fftSlow_spec ([0, 0, 0, 0] : List Fr) [0, 1, 0, 0] (2 ^ 2) (by positivity) fs.reverseRoots 1 _ rfl rfl
    hp.inv.pow_eq_one hroots
  refine ⟨_, b, fftFrFast_spec (F := Fr) (m := 2) (by norm_num) [0, 0, 0, 0] [0, 1, 0, 0] rfl (by simp) _ _ _, hb, ?_⟩
  intro he
  have h1 := hbv 1 (by norm_num)
  rw [← he, List.getElem?_map, List.getElem?_range (by simp), Option.map_some, Option.some.injEq] at h1
  rw [← hmade.omega_eq (le_refl 2)] at h1
  set w := fs.omega (2 ^ 2)
  simp [dft, sum_range_succ] at h1
  have hw0 : w ≠ 0 := hp.ne_zero (by norm_num)
  have hw2 : w ^ 2 = 1 := by
    rw [pow_two]
    nth_rewrite 2 [h1]
    exact mul_inv_cancel₀ hw0
  have := hp.dvd_of_pow_eq_one 2 hw2
  norm_num at this

example : ∃ fs : FFTSettings Fr, settingsNew 3 = .ok fs ∧
    ∃ out, Ark.fftFr fs [1, 2, 3, 4] false = .ok out ∧ out[0]? = some 10 := by
  obtain ⟨fs, h, _⟩ := (C113_new 3).1 (by norm_num)
  obtain ⟨ω, _, hv⟩ := C114_fft 2 (by norm_num)
  refine ⟨fs, h, _, (hv 3 fs h (by norm_num) [1, 2, 3, 4] rfl).1, ?_⟩
  rw [List.getElem?_map, List.getElem?_range (by norm_num), Option.map_some, eval_polyOf]
  simp [sum_range_succ]; norm_num

/-! ## C115: transforms of points -/

section
variable {G : Type} [AddCommGroup G] [Module Fr G]

/-- C115: the transform of points `d_i` is `∑_j ω^(jk) d_j` at position `k`, and the two directions undo each
other. -/
theorem C115_fft_g1 {scale : Nat} {fs : FFTSettings Fr} (hfs : settingsNew scale = .ok fs) {m : Nat} (hm : m ≤ scale)
    (data : List G) (hd : data.length = 2 ^ m) :
    ∃ ω : Fr, ω = fs.rootOfUnity ^ (2 ^ (scale - m)) ∧ IsPrimitiveRoot ω (2 ^ m) ∧
      Ark.fftG1 fs data false =
        .ok ((List.range (2 ^ m)).map fun k => ∑ j ∈ range (2 ^ m), ω ^ (j * k) • data.getD j 0) ∧
      (do let e ← Ark.fftG1 fs data false; Ark.fftG1 fs e true) = .ok data ∧
      (do let e ← Ark.fftG1 fs data true; Ark.fftG1 fs e false) = .ok data := by
  have hwf := (made_of_new hfs).toWF
  obtain ⟨e, he, hel, hev⟩ := hwf.fft_forward hm data hd
  obtain ⟨e', he', hel', _⟩ := hwf.fft_backward hm data hd
  have h1 := hwf.fft_roundtrip hm data hd
  have h2 := hwf.fft_roundtrip' hm data hd
  have h3 := eq_range_map hel hev
  rw [he, Res.bind_ok] at h1
  rw [he', Res.bind_ok] at h2
  refine ⟨fs.omega (2 ^ m), ?_, hwf.omega_prim hm, ?_, ?_, ?_⟩
  · rw [FFTSettings.omega, hwf.width, Nat.pow_div hm (by omega)]
  · rw [fftG1_eq hwf hm data hd, he, h3]; rfl
  · rw [fftG1_eq hwf hm data hd, he, Res.bind_ok, fftG1_eq hwf hm e hel, h1]
  · rw [fftG1_eq hwf hm data hd, he', Res.bind_ok, fftG1_eq hwf hm e' hel', h2]

/-- C115 (rejection): an error exactly for lengths above the width and lengths that are no powers of two; never a
panic. -/
theorem C115_rejects {scale : Nat} {fs : FFTSettings Fr} (hfs : settingsNew scale = .ok fs) (data : List G)
    (inverse : Bool) : Ark.fftG1 fs data inverse ≠ .panic ∧
    ((∃ msg, Ark.fftG1 fs data inverse = .err msg) ↔ 2 ^ scale < data.length ∨ ¬ ∃ m, data.length = 2 ^ m) := by
  have hwf := (made_of_new hfs).toWF
  by_cases h1 : fs.maxWidth < data.length
  · rw [fftG1_err_len h1]
    exact ⟨nofun, fun _ => .inl (hwf.width ▸ h1), fun _ => ⟨_, rfl⟩⟩
  by_cases h2 : ∃ m, data.length = 2 ^ m
  · obtain ⟨m, hm, hd⟩ := WF.cases_len hwf h1 h2
    have : ∃ r, fs.fft data inverse = .ok r := by
      cases inverse with
      | false => obtain ⟨r, hr, _⟩ := hwf.fft_forward hm data hd; exact ⟨r, hr⟩
      | true => obtain ⟨r, hr, _⟩ := hwf.fft_backward hm data hd; exact ⟨r, hr⟩
    obtain ⟨r, hr⟩ := this
    rw [fftG1_eq hwf hm data hd, hr]
    refine ⟨nofun, ⟨fun ⟨_, h⟩ => (by cases h), ?_⟩⟩
    rintro (h | h)
    · exact absurd (hwf.width ▸ h) h1
    · exact absurd h2 h
  · rw [fftG1_err_pow (by omega) h2]
    exact ⟨nofun, fun _ => .inr h2, fun _ => ⟨_, rfl⟩⟩

/-- C115 (partial): for two and more points the recursive and the quadratic function agree, with both tables. -/
theorem C115_fast_eq_slow_partial {scale : Nat} {fs : FFTSettings Fr} (hfs : settingsNew scale = .ok fs) {m : Nat}
    (h1 : 1 ≤ m) (hm : m ≤ scale) (data ret ret' : List G) (hd : data.length = 2 ^ m) (hr : ret.length = 2 ^ m)
    (hr' : ret'.length = 2 ^ m) (roots : List Fr) (hroots : roots = fs.expandedRoots ∨ roots = fs.reverseRoots) :
    ∃ out, Ark.fftG1Fast ret data 1 roots (fs.maxWidth / 2 ^ m) = .ok out ∧
      Ark.fftG1Slow ret' data 1 roots (fs.maxWidth / 2 ^ m) = .ok out := by
  have hwf := (made_of_new hfs).toWF
  have hp := hwf.omega_prim hm
  have h2 : 2 ≤ 2 ^ m := by
    calc 2 = 2 ^ 1 := rfl
      _ ≤ 2 ^ m := Nat.pow_le_pow_right (by omega) h1
  rcases hroots with rfl | rfl
  · obtain ⟨a, ha, hal, hav⟩ := hwf.fftFast_forward hm ret data hr hd
    refine ⟨a, by rw [fftG1Fast_eq m _ _ _ _ _ hr, ha], ?_⟩
    rw [Ark.fftG1Slow_spec ret' data (2 ^ m) h2 _ _ _ hr' hd hp.pow_eq_one (hwf.roots_forward hm),
      eq_range_map hal hav]
  · obtain ⟨a, ha, hal, hav⟩ := hwf.fftFast_backward hm ret data hr hd
    refine ⟨a, by rw [fftG1Fast_eq m _ _ _ _ _ hr, ha], ?_⟩
    rw [Ark.fftG1Slow_spec ret' data (2 ^ m) h2 _ _ _ hr' hd hp.inv.pow_eq_one (hwf.roots_backward hm),
      eq_range_map hal hav]

/-- C115 (refuted for one point): the quadratic function leaves the output as it was, the recursive one stores the
point. -/
theorem C115_slow_one_point {scale : Nat} {fs : FFTSettings Fr} (hfs : settingsNew scale = .ok fs) (x y : G) :
    Ark.fftG1Slow [y] [x] 1 fs.expandedRoots fs.maxWidth = .ok [y] ∧
    Ark.fftG1Fast [y] [x] 1 fs.expandedRoots fs.maxWidth = .ok [x] := by
  have hwf := (made_of_new hfs).toWF
  constructor
  · have h0 := hwf.elen
    cases h : fs.expandedRoots with
    | nil => rw [h] at h0; simp at h0
    | cons w l => exact fftG1Slow_one _ _ _ _ _ _
  · rw [Ark.fftG1Fast, dif_neg (by simp)]
    rfl

/-- C115 (combinations): `g1_linear_combination` is the sum of the multiples, and lists that are too short panic. -/
theorem C115_linear_combination (p : List G) (coeffs : List Fr) (len : Nat) :
    (len ≤ p.length → len ≤ coeffs.length →
      Ark.g1LinearCombination p coeffs len = .ok (∑ i ∈ range len, coeffs.getD i 0 • p.getD i 0)) ∧
    (p.length < len ∨ coeffs.length < len → Ark.g1LinearCombination p coeffs len = .panic) := by
  refine ⟨g1LinearCombination_spec p coeffs len, fun h => ?_⟩
  set n := min p.length coeffs.length with hn
  have hlt : n < len := by omega
  refine forRange_panic n (fun _ _ => True) (Nat.zero_le _) hlt trivial ?_ ?_
  · intro i s _ hi _
    exact ⟨_, by rw [rd_getD 0 (by omega), Res.bind_ok, rd_getD 0 (by omega), Res.bind_ok], trivial⟩
  · intro s _
    by_cases hp : n < p.length
    · rw [rd_getD 0 hp, Res.bind_ok, rd_of_ge (by omega), Res.bind_panic]
    · rw [rd_of_ge (by omega), Res.bind_panic]

omit [Module Fr G] in
/-- C115 (test data): `make_data` gives the first multiples of the generator. -/
theorem C115_make_data (g : G) (n : Nat) : makeData g n = .ok ((List.range n).map fun i => (i + 1) • g) :=
  makeData_spec g n

end

example : ∃ fs : FFTSettings Fr, settingsNew 2 = .ok fs ∧
    ∃ out, Ark.fftG1 fs ([1, 2, 3, 4] : List Fr) false = .ok out ∧ out[0]? = some 10 := by
  obtain ⟨fs, h, _⟩ := (C113_new 2).1 (by norm_num)
  obtain ⟨ω, _, _, ho, _⟩ := C115_fft_g1 h (m := 2) le_rfl ([1, 2, 3, 4] : List Fr) rfl
  refine ⟨fs, h, _, ho, ?_⟩
  rw [List.getElem?_map, List.getElem?_range (by norm_num)]
  simp [sum_range_succ]; norm_num

example : makeData (5 : Fr) 3 = .ok [5, 10, 15] := by decide +kernel

/-! ## C116: field elements -/

/-- C116 (words, round trip): four words of an element give it back, and are below `2^64` and below the modulus. -/
theorem C116_words_roundtrip (x : Fr) : frFromU64Arr (frToU64Arr x) = x ∧ (frToU64Arr x).length = 4 ∧
    (∀ w ∈ frToU64Arr x, w < 2 ^ 64) ∧ wordsVal (frToU64Arr x) = x.val := by
  have hx : x.val < 2 ^ 256 := lt_trans (ZMod.val_lt x) (by decide +kernel)
  have hv : wordsVal (frToU64Arr x) = x.val := by
    simp only [frToU64Arr, wordsVal, List.range_succ, List.range_zero, List.nil_append, List.map_cons,
      List.map_nil, List.cons_append, List.foldr_cons, List.foldr_nil]
    omega
  refine ⟨?_, by simp [frToU64Arr], ?_, hv⟩
  · rw [frFromU64Arr_lt (by rw [hv]; exact ZMod.val_lt x), hv, ZMod.natCast_zmod_val]
  · intro w hw
    obtain ⟨i, _, rfl⟩ := List.mem_map.mp hw
    exact Nat.mod_lt _ (by norm_num)

/-- C116 (words, partial): words below the modulus are the element with this value, as in blst-from-scratch. -/
theorem C116_from_words_partial (u : List Nat) (h : wordsVal u < frModulus) :
    frFromU64Arr u = frFromWords u ∧ (frFromU64Arr u).val = wordsVal u := by
  rw [frFromU64Arr_lt h]
  exact ⟨rfl, ZMod.val_cast_of_lt h⟩

/-- C116 (refuted from the modulus on): all words from the modulus on give zero; blst-from-scratch reduces, so that
only the multiples of the modulus give zero. -/
theorem C116_from_words_large (u : List Nat) (h : frModulus ≤ wordsVal u) :
    frFromU64Arr u = 0 ∧ (frFromWords u = frFromU64Arr u ↔ frModulus ∣ wordsVal u) := by
  rw [frFromU64Arr_zero h]
  exact ⟨rfl, ZMod.natCast_eq_zero_iff _ _⟩

/-- C116 (refuted): the null element is an ordinary element: some words below the modulus give it. -/
theorem C116_null_is_an_element : ∃ u : List Nat, u.length = 4 ∧ (∀ w ∈ u, w < 2 ^ 64) ∧ wordsVal u < frModulus ∧
    Ark.frIsNull (frFromU64Arr u) = true := by
  refine ⟨frToU64Arr Ark.frNull, (C116_words_roundtrip _).2.1, (C116_words_roundtrip _).2.2.1, ?_, ?_⟩
  · rw [(C116_words_roundtrip _).2.2.2]; exact ZMod.val_lt _
  · rw [(C116_words_roundtrip _).1]; simp [Ark.frIsNull]

/-- C116 (null): it is neither zero nor one. -/
theorem C116_null_ne : Ark.frIsNull 0 = false ∧ Ark.frIsNull 1 = false := by
  have key : ∀ c : Nat, (wordsVal [14526898868952669296, 2784871451429007392, 11493358522590675359,
      7138715389977065193]) % frModulus ≠ (c * 2 ^ 256) % frModulus → Ark.frIsNull ((c : Nat) : Fr) = false := by
    intro c hc
    rw [Ark.frIsNull, decide_eq_false_iff_not, Ark.frNull]
    intro h
    have h2 : ((2 ^ 256 : Nat) : Fr) ≠ 0 := by
      rw [Ne, ZMod.natCast_eq_zero_iff]
      decide +kernel
    rw [eq_mul_inv_iff_mul_eq₀ h2, ← Nat.cast_mul, ZMod.natCast_eq_natCast_iff'] at h
    exact hc h.symm
  refine ⟨?_, ?_⟩
  · have := key 0 (by decide +kernel); simpa using this
  · have := key 1 (by decide +kernel); simpa using this

/-- C116 (inverse and quotient): exact for nonzero arguments, a panic for zero. -/
theorem C116_inverse_div (x y : Fr) :
    (y ≠ 0 → frInv y = .ok y⁻¹ ∧ frDiv x y = .ok (x / y)) ∧ (y = 0 → frInv y = .panic ∧ frDiv x y = .panic) := by
  refine ⟨fun h => ⟨frInv_eq h, frDiv_eq h⟩, ?_⟩
  rintro rfl
  exact ⟨frInv_zero, frDiv_zero x⟩

/-- C116 (refuted): `eucl_inverse` panics for every element. -/
theorem C116_eucl_inverse (x : Fr) : frEuclInverse x = .panic := rfl

example : frFromU64Arr [3, 0, 0, 0] = 3 ∧ frFromU64Arr [2 ^ 64 - 1, 2 ^ 64 - 1, 2 ^ 64 - 1, 2 ^ 64 - 1] = 0 := by
  constructor
  · rw [frFromU64Arr_lt (by decide +kernel)]; simp [wordsVal]
  · exact frFromU64Arr_zero (by decide +kernel)

example : frToU64Arr (-1) = [0xffffffff00000000, 0x53bda402fffe5bfe, 0x3339d80809a1d805, 0x73eda753299d7d48] := by
  decide +kernel

end Kzg.Props
