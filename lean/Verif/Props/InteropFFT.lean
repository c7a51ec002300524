import Verif.Props.Interop
import Verif.Props.ArkPoly
import Verif.Props.MclPoly
import Verif.Props.ZkDas
import Verif.Props.ZkFK20
/-!
# Property C151: transforms and extensions of one backend in another
-/

set_option linter.unusedSectionVars false

namespace Kzg.Props
open Kzg Kzg.Res Kzg.Zk Kzg.Zk.ScW Kzg.Zk.Top CurveConsts Polynomial

local notation "r" => frModulus

/-- The list of numbers that the scalars stand for. -/
def Reads (a : List ScW) (b : List Fr) : Prop := b = a.map el

/-- C151 (settings): for every scale the constructors of blst-from-scratch, zkcrypto and Arkworks all succeed or all return an error. If
they succeed, the tables of blst-from-scratch and Arkworks are equal and zkcrypto's stand for them. -/
theorem C151_settings (scale : Nat) :
    (32 ≤ scale ∧ (∃ e, (FFTSettings.new scale : Res (FFTSettings Fr)) = .err e) ∧
      (∃ e, (FFTSettings.new scale : Res (FFTSettings ScW)) = .err e) ∧ ∃ e, Ark.settingsNew (F := Fr) scale = .err e) ∨
    (scale < 32 ∧ ∃ (fb : FFTSettings Fr) (fz : FFTSettings ScW), FFTSettings.new scale = .ok fb ∧ FFTSettings.new scale = .ok fz ∧
      Ark.settingsNew scale = .ok fb ∧ fb.maxWidth = fz.maxWidth ∧ fb.rootOfUnity = el fz.rootOfUnity ∧
      Reads fz.expandedRoots fb.expandedRoots ∧ Reads fz.reverseRoots fb.reverseRoots) := by
  by_cases hs : scale < 32
  · obtain ⟨fb, hb, wb⟩ := new_spec (F := Fr) hs
    obtain ⟨fz, hz, wz⟩ := new_spec (F := ScW) hs
    have hr := el_root hz hb
    refine .inr ⟨hs, fb, fz, hb, hz, (C113_same_settings scale fb).2 hb, by rw [wb.width, wz.width], hr.symm, ?_, ?_⟩
    · unfold Reads
      apply List.ext_getElem?
      intro i
      rw [List.getElem?_map]
      by_cases hi : i ≤ 2 ^ scale
      · rw [wb.exp i hi, wz.exp i hi, Option.map_some, el_pow, hr]
      · rw [List.getElem?_eq_none (by have := wb.elen; omega), List.getElem?_eq_none (by have := wz.elen; omega)]
        rfl
    · unfold Reads
      apply List.ext_getElem?
      intro i
      rw [List.getElem?_map]
      by_cases hi : i ≤ 2 ^ scale
      · rw [wb.rev i hi, wz.rev i hi, Option.map_some, el_pow, ← elHom_apply, map_inv₀, elHom_apply, hr]
      · rw [List.getElem?_eq_none (by have := wb.rlen; omega), List.getElem?_eq_none (by have := wz.rlen; omega)]
        rfl
  · refine .inl ⟨by omega, ⟨_, new_err (by omega)⟩, ⟨_, new_err (by omega)⟩, ⟨_, Ark.settingsNew_err (by omega)⟩⟩

variable {scale : Nat} {fb : FFTSettings Fr} {fz : FFTSettings ScW}

theorem el_omega (hb : FFTSettings.new scale = .ok fb) (hz : FFTSettings.new scale = .ok fz) (n : Nat) :
    el (fz.omega n) = fb.omega n := by
  rw [FFTSettings.omega, FFTSettings.omega, el_pow, el_root hz hb, (wf_of_new hb).width, (wf_of_new hz).width]

theorem el_fft_forward (hb : FFTSettings.new scale = .ok fb) (hz : FFTSettings.new scale = .ok fz) {m : Nat} (hm : m ≤ scale)
    {data e : List ScW} (hd : data.length = 2 ^ m) (he : fz.fftFr data false = .ok e) :
    fb.fftFr (data.map el) false = .ok (e.map el) := by
  rw [show fz.fftFr data false = _ from (wf_of_new hz).fft_eval hm data hd] at he
  cases he
  rw [show fb.fftFr (data.map el) false = _ from (wf_of_new hb).fft_eval hm (data.map el) (by rw [List.length_map, hd]),
    List.map_map]
  congr 1
  apply List.map_congr_left
  intro i _
  rw [polyOf_map_el, Function.comp, ← el_omega hb hz, ← el_pow, eval_map_el]

/-- C151 (field transforms): for every list and both directions blst-from-scratch, zkcrypto and Arkworks all return an error or all
succeed, with results that stand for the same numbers. -/
theorem C151_fft (hb : FFTSettings.new scale = .ok fb) (hz : FFTSettings.new scale = .ok fz) (data : List ScW) (inverse : Bool) :
    Res.Rel False Reads (fz.fftFr data inverse) (fb.fftFr (data.map el) inverse) ∧
    Res.Rel False Eq (Ark.fftFr fb (data.map el) inverse) (fb.fftFr (data.map el) inverse) := by
  have wb := wf_of_new hb
  have wz := wf_of_new hz
  constructor
  · by_cases h1 : data.length > fz.maxWidth
    · rw [FFTSettings.fftFr, FFTSettings.fft, if_pos h1, FFTSettings.fftFr, FFTSettings.fft,
        if_pos (by rw [List.length_map, wb.width, ← wz.width]; exact h1)]
      trivial
    by_cases h2 : isPowerOfTwo data.length = true
    · obtain ⟨m, hm⟩ := isPowerOfTwo_iff.1 h2
      have hle : m ≤ scale := by
        rw [wz.width, hm, gt_iff_lt, not_lt] at h1
        exact (Nat.pow_le_pow_iff_right (by norm_num)).1 h1
      cases inverse with
      | false =>
        obtain ⟨e, he, -⟩ := wz.fft_forward hle data hm
        rw [el_fft_forward hb hz hle hm he, show fz.fftFr data false = .ok e from he]
        exact Res.Rel.ok rfl
      | true =>
        obtain ⟨e, he, hel, -⟩ := wz.fft_backward hle data hm
        have h3 := wz.fft_roundtrip' hle data hm
        rw [he, Res.bind_ok] at h3
        have h4 := el_fft_forward hb hz hle hel h3
        have h5 := wb.fft_roundtrip hle (e.map el) (by rw [List.length_map, hel])
        rw [show fb.fft (e.map el) false = _ from h4, Res.bind_ok] at h5
        rw [show fz.fftFr data true = .ok e from he, show fb.fftFr (data.map el) true = _ from h5]
        exact Res.Rel.ok rfl
    · have h2' : isPowerOfTwo data.length = false := by simpa using h2
      have h1' : ¬ (data.map el).length > fb.maxWidth := by rw [List.length_map, wb.width, ← wz.width]; exact h1
      have h3 : isPowerOfTwo (data.map el).length = false := by rw [List.length_map]; exact h2'
      simp only [FFTSettings.fftFr, FFTSettings.fft, if_neg h1, if_neg h1', h2', h3, Bool.not_false, if_true]
      trivial
  · obtain ⟨h1, h2⟩ := C114_same_transform ((C113_same_settings scale fb).2 hb) (data.map el) inverse
    cases h : fb.fftFr (data.map el) inverse with
    | ok o => rw [(h1 o).2 h]; exact Res.Rel.ok rfl
    | err e =>
      obtain ⟨e', h'⟩ := h2.2 ⟨e, h⟩
      rw [h']; trivial
    | panic =>
      obtain ⟨k1, k2⟩ := C04_fft_rejects_exactly hb (data.map el) inverse
      by_cases hc : (data.map el).length > fb.maxWidth ∨ ¬ ∃ m, (data.map el).length = 2 ^ m
      · obtain ⟨e, he⟩ := k1 hc
        rw [show fb.fftFr (data.map el) inverse = _ from he] at h
        cases h
      · obtain ⟨o, ho, -⟩ := k2 hc
        rw [show fb.fftFr (data.map el) inverse = _ from ho] at h
        cases h

theorem el_das (hb : FFTSettings.new scale = .ok fb) (hz : FFTSettings.new scale = .ok fz) {m : Nat} (hm : m + 1 ≤ scale)
    {evens : List ScW} (hl : evens.length = 2 ^ m) :
    ∃ odds, Top.dasFftExtension fz evens = .ok odds ∧ odds.length = 2 ^ m ∧ fb.dasFftExtension (evens.map el) = .ok (odds.map el) := by
  have wb := wf_of_new hb
  have wz := wf_of_new hz
  have hne : ((evens.length : Nat) : ScW) ≠ 0 := by rw [hl]; exact wz.cast_ne (by omega)
  obtain ⟨e, he, hel, -⟩ := wz.fft_backward (show m ≤ scale by omega) evens hl
  have hrt := wz.fft_roundtrip' (show m ≤ scale by omega) evens hl
  rw [he, Res.bind_ok, wz.fft_eval (by omega) e hel] at hrt
  have hω : fz.omega (2 ^ m) = fz.omega (2 ^ (m + 1)) ^ 2 := by
    rw [FFTSettings.omega, FFTSettings.omega, wz.width, Nat.pow_div (by omega) (by omega), Nat.pow_div (by omega) (by omega),
      ← pow_mul, ← pow_succ]
    congr 2; omega
  have hp : (polyOf e).degree < (2 ^ m : Nat) := by rw [← hel]; exact degree_polyOf_lt e
  have hv : ∀ i < 2 ^ m, evens.getD i 0 = (polyOf e).eval (fz.omega (2 ^ (m + 1)) ^ (2 * i)) := by
    intro i hi
    have := Res.ok.inj hrt
    rw [← this, getD_range_map, if_pos hi, hω, ← pow_mul]
  have hd := wz.das_spec hm evens hl (polyOf e) hp hv
  refine ⟨_, zk_das_eq hne hd (by simp [hl]), by simp, ?_⟩
  have hl' : (evens.map el).length = 2 ^ m := by rw [List.length_map, hl]
  rw [wb.das_spec hm (evens.map el) hl' ((polyOf e).map elHom) (by rw [degree_map]; exact hp) ?_, List.map_map]
  · congr 1
    apply List.map_congr_left
    intro i _
    rw [Function.comp, ← el_omega hb hz, ← el_pow, eval_map_el]
  · intro i hi
    rw [← el_omega hb hz, ← el_pow, eval_map_el, ← hv i hi, List.getD_eq_getElem?_getD, List.getD_eq_getElem?_getD,
      List.getElem?_map, List.getElem?_eq_getElem (by omega)]
    rfl

/-- C151 (extensions): for every list blst-from-scratch, zkcrypto and Arkworks all return an error or all succeed, with results that
stand for the same numbers. -/
theorem C151_das (hb : FFTSettings.new scale = .ok fb) (hz : FFTSettings.new scale = .ok fz) (evens : List ScW) :
    Res.Rel False Reads (Top.dasFftExtension fz evens) (fb.dasFftExtension (evens.map el)) ∧
    Res.Rel False Eq (Ark.das fb (evens.map el)) (fb.dasFftExtension (evens.map el)) := by
  have wb := wf_of_new hb
  have hl : (evens.map el).length = evens.length := List.length_map _
  obtain ⟨k1, k2⟩ := C93_das_rejects hz evens
  obtain ⟨l1, l2⟩ := C17_das_rejection hb (evens.map el)
  obtain ⟨a1, a2⟩ := C124_das_rejects ((C113_same_settings scale fb).2 hb) (evens.map el)
  rw [hl] at l2 a2
  have hmap : evens.map el = [] ↔ evens = [] := List.map_eq_nil_iff
  rw [hmap] at l2 a2
  rw [mul_comm] at l2
  by_cases hc : evens = [] ∨ (¬ ∃ m, evens.length = 2 ^ m) ∨ 2 ^ scale < evens.length * 2
  · obtain ⟨e1, h1⟩ := k2.2 hc
    obtain ⟨e2, h2⟩ := l2.2 hc
    obtain ⟨e3, h3⟩ := a2.2 hc
    rw [h1, h2, h3]
    exact ⟨trivial, trivial⟩
  · simp only [not_or, not_not, not_lt] at hc
    obtain ⟨h0, ⟨m, hm⟩, h2⟩ := hc
    have hms : m + 1 ≤ scale := by
      rw [hm, ← pow_succ] at h2
      exact (Nat.pow_le_pow_iff_right (by norm_num)).1 h2
    obtain ⟨odds, z, ol, b⟩ := el_das hb hz hms hm
    have hne : (((evens.map el).length : Nat) : Fr) ≠ 0 := by rw [hl, hm]; exact wb.cast_ne (by omega)
    rw [z, b, ark_das_eq hne b (by rw [List.length_map, hl, ol, hm])]
    exact ⟨Res.Rel.ok rfl, Res.Rel.ok rfl⟩

theorem stands_list {c : List Zk.G1.Proj} {P : List Bls1} (h : RelL Stands c P) :
    ∃ d : List ScW, RelL At1 c d ∧ P = (d.map el).map fun a => a • blsG1 := by
  induction h with
  | nil => exact ⟨[], .nil, rfl⟩
  | cons hr _ ih =>
    obtain ⟨d, h1, h2⟩ := ih
    obtain ⟨x, e, hx⟩ := stands_at1 hr
    exact ⟨x :: d, .cons hx h1, by rw [List.map_cons, List.map_cons, ← h2, ← e]⟩

theorem list_stands {c : List Zk.G1.Proj} {d : List ScW} (h : RelL At1 c d) :
    RelL Stands c ((d.map el).map fun a => a • blsG1) := by
  induction h with
  | nil => exact .nil
  | cons hr _ ih => exact .cons ((at1_stands _ _).1 hr) ih

/-- C151 (transforms of points): for lists of points that fit, given by any coordinates, zkcrypto returns coordinates of the points that
blst-from-scratch and Arkworks return, in either build, if no root of unity overflows its multiplication; scales up to 16 have none. -/
theorem C151_fft_g1_partial (chk : Bool) (hb : FFTSettings.new scale = .ok fb) (hz : FFTSettings.new scale = .ok fz)
    (hr : scale ≤ 16 ∨ ∀ i ≤ 2 ^ scale, ¬ RoundingOverflows (el (fz.rootOfUnity ^ i)).val)
    {m : Nat} (hm : m ≤ scale) {c : List Zk.G1.Proj} {P : List Bls1} (h : RelL Stands c P) (hl : P.length = 2 ^ m) (inverse : Bool) :
    ∃ out Q, ZkP.fftG1 (g1Ops chk) fz c inverse = .ok out ∧ fb.fftG1 P inverse = .ok Q ∧ Ark.fftG1 fb P inverse = .ok Q ∧
      RelL Stands out Q := by
  obtain ⟨d, h1, rfl⟩ := stands_list h
  have hcl : c.length = 2 ^ m := by rw [h.length, hl]
  have hdl : d.length = 2 ^ m := by rw [← h1.length, hcl]
  have key : ∃ out e, ZkP.fftG1 (g1Ops chk) fz c inverse = .ok out ∧ fz.fftFr d inverse = .ok e ∧ RelL At1 out e := by
    rcases hr with hr | hr
    · exact C90_fft_g1_partial chk hr fz hz m hm c d hcl h1 inverse
    · exact C90_fft_g1_roots chk hz hr hm hcl h1 inverse
  obtain ⟨out, e, ho, he, hR⟩ := key
  have h2 := (C151_fft hb hz d inverse).1
  rw [he] at h2
  obtain ⟨b, hb1, hb2⟩ := C06_fft_exponent hb hm (d.map el) (by rw [List.length_map, hdl]) blsG1 inverse
  rw [hb1] at h2
  have h3 : b = e.map el := h2
  subst h3
  refine ⟨out, _, ho, hb2, ?_, list_stands hR⟩
  rw [Ark.fftG1_eq (wf_of_new hb) hm _ hl inverse]
  exact hb2

/-! ### mcl-kzg -/

section
variable [Mcl.Lib Fr] {fm : FFTSettings Fr}

omit [Mcl.Lib Fr] in
theorem mcl_omega_eq (hm : MadeSettings fm scale) (hb : FFTSettings.new scale = .ok fb) {m : Nat} (h : m ≤ scale) :
    fm.omega (2 ^ m) = fb.omega (2 ^ m) ↔ m < 3 ∨ (Mcl.FFTSettings.new7 scale = .ok fm ∧ scale < 7) := by
  have wb := wf_of_new hb
  have hs := wb.lt
  obtain ⟨h1, h2⟩ := mcl_coset hm h
  have eb : fb.omega (2 ^ m) = tableRow m := by
    have := tableRow_pow (i := m) (scale - m) (by omega)
    rw [show m + (scale - m) = scale by omega] at this
    rw [FFTSettings.omega, wb.width, Nat.pow_div h (by norm_num), rootOf_new hs hb, this]
  rw [eb, FFTSettings.omega, hm.wf.width, Nat.pow_div h (by norm_num)]
  by_cases hc : Mcl.FFTSettings.new7 scale = .ok fm ∧ scale < 7
  · exact ⟨fun _ => .inr hc, fun _ => h1 hc⟩
  · rw [h2 hc, row5_table (by omega)]
    exact ⟨.inl, fun e => e.resolve_right hc⟩

omit [Mcl.Lib Fr] in
/-- C151 (settings of mcl-kzg): they are those of the others exactly for scales below 3, and for the constructor of the trait below 7. -/
theorem C151_mcl_settings (hm : MadeSettings fm scale) (hb : FFTSettings.new scale = .ok fb) :
    fm = fb ↔ scale < 3 ∨ (Mcl.FFTSettings.new7 scale = .ok fm ∧ scale < 7) := by
  rw [← mcl_omega_eq hm hb le_rfl]
  have wb := wf_of_new hb
  refine ⟨fun e => by rw [e], fun e => settings_ext hm.wf wb ?_⟩
  rwa [FFTSettings.omega, FFTSettings.omega, hm.wf.width, wb.width, Nat.div_self (by positivity), pow_one, pow_one] at e

/-- C151 (mcl-kzg, where the settings are equal): transforms of field elements and points of every length `2^m` and extensions give the
same results. -/
theorem C151_mcl_partial (hm : MadeSettings fm scale) (hb : FFTSettings.new scale = .ok fb)
    (hc : scale < 3 ∨ (Mcl.FFTSettings.new7 scale = .ok fm ∧ scale < 7)) {m : Nat} (hle : m ≤ scale) (inverse : Bool) :
    (∀ data : List Fr, data.length = 2 ^ m → Mcl.fft fm data inverse = fb.fftFr data inverse) ∧
    (∀ P : List Bls1, P.length = 2 ^ m → Mcl.fftG1 fm P inverse = fb.fftG1 P inverse) ∧
    (m + 1 ≤ scale → ∀ evens : List Fr, evens.length = 2 ^ m → Mcl.das fm evens = fb.dasFftExtension evens ∧
      Mcl.dasTrait fm evens = fb.dasFftExtension evens) := by
  obtain rfl := (C151_mcl_settings hm hb).2 hc
  have hs : scale ≤ 30 := by omega
  refine ⟨fun data hd => Mcl.fft_eq hm.wf hle hd inverse (fun _ => by omega),
    fun P hP => Mcl.fftG1_eq hm.wf hle hP inverse (fun _ => by omega), fun h evens hl => ?_⟩
  have e := Mcl.das_eq hm.wf h hl
  obtain ⟨odds, -, -, ho, -⟩ := das_extension_of hm.wf h evens hl
  refine ⟨e, ?_⟩
  rw [Mcl.dasTrait, e, ho]
  rfl

/-- C151 (refuted for mcl-kzg): for every length of eight or more values where the settings are not those above, there are values whose
transform is another one than in the other backends. -/
theorem C151_mcl_differs (hm : MadeSettings fm scale) (hb : FFTSettings.new scale = .ok fb)
    (hc : ¬ (Mcl.FFTSettings.new7 scale = .ok fm ∧ scale < 7)) {m : Nat} (h3 : 3 ≤ m) (hle : m ≤ scale) :
    ∃ data out out' : List Fr, data.length = 2 ^ m ∧ Mcl.fft fm data false = .ok out ∧ fb.fftFr data false = .ok out' ∧ out ≠ out' := by
  have h8 : 8 ≤ 2 ^ m := (show 8 = 2 ^ 3 by norm_num) ▸ Nat.pow_le_pow_right (by norm_num) h3
  set data : List Fr := 0 :: 1 :: List.replicate (2 ^ m - 2) 0 with hdata
  have hd : data.length = 2 ^ m := by simp [hdata]; omega
  have hX : polyOf data = X := by
    rw [hdata]
    rw [ZkP.polyOf_cons, ZkP.polyOf_cons, polyOf_replicate_zero, mul_zero, add_zero, map_zero, zero_add, map_one, mul_one]
  refine ⟨data, _, _, hd, (Mcl.fft_eq hm.wf hle hd false (fun e => by cases e)).trans (hm.wf.fft_eval hle data hd),
    (wf_of_new hb).fft_eval hle data hd, fun e => ?_⟩
  have := congrArg (fun l => l[1]?) e
  simp only [List.getElem?_map, List.getElem?_range (show 1 < 2 ^ m by omega), Option.map_some, hX, eval_X, pow_one,
    Option.some.injEq] at this
  rcases (mcl_omega_eq hm hb hle).1 this with h | h
  · omega
  · exact hc h

/-- C151 (refuted for mcl-kzg, other lengths): lists that fit but whose length is no power of two are an error in the others and are
filled up in mcl-kzg. -/
theorem C151_mcl_pads (hm : MadeSettings fm scale) (hb : FFTSettings.new scale = .ok fb) (data : List Fr) (inverse : Bool)
    (hd : data.length ≤ 2 ^ scale) (hp : ¬ ∃ m, data.length = 2 ^ m) :
    (∃ e, fb.fftFr data inverse = .err e) ∧ ∃ out, Mcl.fft fm data inverse = .ok out :=
  ⟨(C04_fft_rejects_exactly hb data inverse).1 (.inr hp),
    (((C96_fft_rejects hm data inverse).2 hd).imp fun _ h => h.1)⟩

end

/-- Scale 4: the extension of `[5, 7, 11, 13]` is the same list of numbers in three backends, and mcl-kzg transforms some list of eight
values differently. -/
example (lib : Mcl.Lib Fr) : ∃ (fb fm : FFTSettings Fr) (fz : FFTSettings ScW) (odds : List Fr), FFTSettings.new 4 = .ok fb ∧
    FFTSettings.new 4 = .ok fz ∧ Mcl.FFTSettings.new5 4 = .ok fm ∧ fb.dasFftExtension [5, 7, 11, 13] = .ok odds ∧
    (∃ a o, a.map el = [5, 7, 11, 13] ∧ Top.dasFftExtension fz a = .ok o ∧ o.map el = odds) ∧
    Ark.das fb [5, 7, 11, 13] = .ok odds ∧
    ∃ data out out' : List Fr, data.length = 2 ^ 3 ∧ Mcl.fft fm data false = .ok out ∧ fb.fftFr data false = .ok out' ∧ out ≠ out' := by
  obtain ⟨fb, hb, wb⟩ := new_spec (F := Fr) (k := 4) (by norm_num)
  obtain ⟨fz, hz, wz⟩ := new_spec (F := ScW) (k := 4) (by norm_num)
  obtain ⟨fm, hf, wm⟩ := Mcl.new5_spec (F := Fr) (k := 4) (by norm_num)
  have ha : ([((5 : Nat) : ScW), ((7 : Nat) : ScW), ((11 : Nat) : ScW), ((13 : Nat) : ScW)]).map el = [5, 7, 11, 13] := by
    simp only [List.map_cons, List.map_nil, el_natCast]
    norm_num
  obtain ⟨odds, h1, h2, h3⟩ := el_das hb hz (m := 2) (by norm_num)
    (evens := [((5 : Nat) : ScW), ((7 : Nat) : ScW), ((11 : Nat) : ScW), ((13 : Nat) : ScW)]) rfl
  have h4 := (C151_das hb hz [((5 : Nat) : ScW), ((7 : Nat) : ScW), ((11 : Nat) : ScW), ((13 : Nat) : ScW)]).2
  rw [ha] at h3 h4
  rw [h3] at h4
  have h5 : Ark.das fb [5, 7, 11, 13] = .ok (odds.map el) := by
    cases h : Ark.das fb [5, 7, 11, 13] with
    | ok o => rw [h] at h4; exact congrArg _ h4
    | err e => rw [h] at h4; exact h4.elim
    | panic => rw [h] at h4; exact h4.elim
  refine ⟨fb, fm, fz, odds.map el, hb, hz, hf, h3, ⟨_, odds, ha, h1, rfl⟩, h5, ?_⟩
  refine C151_mcl_differs (scale := 4) ⟨by norm_num, .inl hf⟩ hb (fun hc => ?_) (by norm_num) (by norm_num)
  have h5 := (mcl_coset (m := 4) ⟨by norm_num, .inr hc.1⟩ le_rfl).1 hc
  obtain ⟨fs1, he, _, hr⟩ := Mcl.newPR5_spec (F := Fr) Mcl.start_inv (k := 4) (by norm_num)
  rw [Mcl.FFTSettings.new5, he] at hf
  cases hf
  rw [List.getElem?_eq_getElem (by rw [Mcl.len5_fr]; norm_num), Mcl.pr5_getElem, Option.some.injEq] at hr
  rw [Nat.sub_self, pow_zero, pow_one, ← hr] at h5
  exact absurd ((row5_table (i := 4) (by norm_num)).1 h5) (by norm_num)

end Kzg.Props
