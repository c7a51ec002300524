import Verif.Proofs.BenchFft
import Verif.Props.InteropFFT
/-!
# Properties C179, C180: the shared tests of transforms
-/

set_option linter.unusedSectionVars false

namespace Kzg.Props
open Kzg Kzg.Res Kzg.Bench Kzg.Zk Kzg.Zk.Top CurveConsts Finset ScW

theorem relL_eq {α : Type} {a b : List α} : RelL Eq a b ↔ a = b := by
  constructor
  · intro h
    induction h with
    | nil => rfl
    | cons h _ ih => rw [h, ih]
  · rintro rfl
    induction a with
    | nil => exact .nil
    | cons x a ih => exact .cons rfl ih

section
variable {F M : Type} [Field F] [DecidableEq F] [AddCommGroup M] [Module F M] [DecidableEq M]

/-- A backend whose transform is the one of its settings, up to a factor of the inverse. -/
theorem fftOk_of {A : FftApi F M} {fs : FFTSettings F} {size : Nat} {e : F} (hn : A.new size = .ok fs) (hwf : fs.WF size)
    (heq : A.equals = fun a b => decide (a = b))
    (hf : ∀ {m : Nat}, m ≤ size → ∀ d : List M, d.length = 2 ^ m → A.fft fs d false = fs.fft d false)
    (hb : ∀ d : List M, d.length = 2 ^ size → A.fft fs d true = (fs.fft d true >>= fun r => .ok (r.map fun x => e • x)))
    (hl : ∀ d : List M, fs.maxWidth < d.length → ∃ msg, A.fft fs d false = .err msg) : FftOk A Eq e size fs := by
  refine ⟨hn, hwf, fun x y d d' h1 h2 => by rw [heq, h1, h2, decide_eq_true_iff], fun {m} hm {data d} hr hd => ?_,
    fun {data d} hr hd => ?_, fun {data} hd => ?_⟩
  · obtain rfl := relL_eq.1 hr
    obtain ⟨o, ho, -⟩ := hwf.fft_forward hm data hd
    exact ⟨o, o, by rw [hf hm _ hd, ho], ho, relL_eq.2 rfl⟩
  · obtain rfl := relL_eq.1 hr
    obtain ⟨o, ho, -⟩ := hwf.fft_backward le_rfl data hd
    exact ⟨_, o, by rw [hb _ hd, ho, bind_ok], ho, relL_eq.2 rfl⟩
  · obtain ⟨msg, h⟩ := hl data (by rw [hwf.width]; exact hd)
    rw [h]; rfl

theorem one_smul_back (m : Res (List M)) : (m >>= fun r => .ok (r.map fun x => (1 : F) • x)) = m := by
  cases m with
  | ok r => rw [bind_ok]; simp
  | err e => rfl
  | panic => rfl

/-- The results of the two functions that a comparison calls, for functions that compute the transform. -/
theorem slow_fast {fs : FFTSettings F} {size : Nat} (hwf : fs.WF size) (data : List M) (hd : data.length = 2 ^ size) :
    ∃ o : List M, o.length = 2 ^ size ∧ fftSlow (List.replicate (2 ^ size) (0 : M)) data 1 fs.expandedRoots 1 = .ok o ∧
      fftFast (List.replicate (2 ^ size) (0 : M)) data 1 fs.expandedRoots 1 = .ok o := by
  have hdiv : fs.maxWidth / 2 ^ size = 1 := by rw [hwf.width, Nat.div_self (by positivity)]
  obtain ⟨a, ha, hal, hav⟩ := hwf.fftFast_forward le_rfl (List.replicate (2 ^ size) (0 : M)) data (by simp) hd
  obtain ⟨b, hb, hbl, hbv⟩ := fftSlow_spec (List.replicate (2 ^ size) (0 : M)) data (2 ^ size) (by positivity) _ _ _ (by simp) hd
    (hwf.omega_prim le_rfl).pow_eq_one (hwf.roots_forward le_rfl)
  rw [hdiv] at ha hb
  refine ⟨a, hal, ?_, ha⟩
  rw [hb]
  congr 1
  refine List.ext_getElem? fun i => ?_
  by_cases hi : i < 2 ^ size
  · rw [hav i hi, hbv i hi]
  · rw [List.getElem?_eq_none (by omega), List.getElem?_eq_none (by omega)]

end

/-- The outcome of a test that passes under a condition and fails otherwise. -/
def passIf (c : Prop) [Decidable c] : Res Unit := if c then .ok () else .panic

theorem passIf_true {c : Prop} [Decidable c] (h : c) : passIf c = .ok () := if_pos h
theorem passIf_false {c : Prop} [Decidable c] (h : ¬ c) : passIf c = .panic := if_neg h

/-- `make_data` gives a list of the length it is asked for. -/
def Makes {M : Type} (make : Nat → Res (List M)) : Prop := ∀ n, ∃ l, make n = .ok l ∧ l.length = n

/-! ## The common part -/

section
variable {F M D : Type} [Field F] [DecidableEq F] [AddCommGroup D] [Module F D] {A : FftApi F M} {R : M → D → Prop}

/-- Settings of every scale below 32 whose transforms are right and whose roots belong together. -/
structure AllOk (A : FftApi F M) (R : M → D → Prop) : Prop where
  ok : ∀ size < 32, ∃ fs, FftOk A R 1 size fs
  same : ∀ {s s' : Nat} {fs fs' : FFTSettings F}, A.new s = .ok fs → A.new s' = .ok fs' → ∀ {m : Nat}, m ≤ s → m ≤ s' →
    fs.omega (2 ^ m) = fs'.omega (2 ^ m)
  err : ∀ size, 32 ≤ size → (A.new size).unwrap = .panic

theorem AllOk.frRoundtrip (h : AllOk A R) (size : Nat) {data : Nat → M} {d : Nat → D} (hr : ∀ i, R (data i) (d i)) :
    Bench.frRoundtrip A size data = passIf (size < 32) := by
  by_cases hs : size < 32
  · obtain ⟨fs, h1⟩ := h.ok size hs
    rw [passIf_true hs]
    exact (frRoundtrip_cases h1 hr).1 fun i _ => (one_smul F _).symm
  · rw [passIf_false hs]
    exact (all_panic (h.err size (by omega))).2.1 data

theorem AllOk.frStride (h : AllOk A R) (size1 size2 : Nat) {data : Nat → M} {d : Nat → D} (hr : ∀ i, R (data i) (d i)) :
    Bench.frStride A size1 size2 data = passIf (size1 ≤ size2 ∧ size2 < 32) := by
  by_cases h1 : size1 < 32
  · obtain ⟨fs1, k1⟩ := h.ok size1 h1
    by_cases h2 : size2 < 32
    · obtain ⟨fs2, k2⟩ := h.ok size2 h2
      have hc := frStride_cases k1 k2 hr
      by_cases hle : size1 ≤ size2
      · rw [passIf_true ⟨hle, h2⟩]
        exact hc.1 hle (h.same k1.new k2.new le_rfl hle)
      · rw [passIf_false fun hh => hle hh.1]
        exact hc.2.2 (by omega)
    · rw [passIf_false fun hh => h2 hh.2, Bench.frStride, shlU_one h1, bind_ok, k1.newU, bind_ok, h.err size2 (by omega)]; rfl
  · rw [passIf_false fun hh => by omega, Bench.frStride]
    have : shlU 1 size1 = .panic ∨ ∃ w, shlU 1 size1 = .ok w := by
      unfold shlU
      split
      · exact .inr ⟨_, rfl⟩
      · exact .inl rfl
    rcases this with e | ⟨w, e⟩
    · rw [e]; rfl
    · rw [e, bind_ok, h.err size1 (by omega)]; rfl

theorem AllOk.g1Roundtrip (h : AllOk A R) (size : Nat) {make : Nat → Res (List M)}
    (hm : ∀ n, ∃ l d, make n = .ok l ∧ RelL R l d ∧ d.length = n) :
    Bench.g1Roundtrip A make size = passIf (1 ≤ size ∧ size < 32) := by
  by_cases hs : size < 32
  · obtain ⟨fs, h1⟩ := h.ok size hs
    by_cases h0 : 1 ≤ size
    · obtain ⟨l, d, e, hr, hl⟩ := hm (2 ^ size)
      rw [passIf_true ⟨h0, hs⟩]
      exact (g1Roundtrip_cases h1 h0 e hr hl).1 fun x _ => (one_smul F _).symm
    · obtain rfl : size = 0 := by omega
      rw [passIf_false fun hh => by omega, Bench.g1Roundtrip, h1.newU]; rfl
  · rw [passIf_false fun hh => hs hh.2]
    exact (all_panic (h.err size (by omega))).2.2.2.2.1 make

theorem AllOk.g1Stride (h : AllOk A R) (size1 size2 : Nat) {make : Nat → Res (List M)}
    (hm : ∀ n, ∃ l d, make n = .ok l ∧ RelL R l d ∧ d.length = n) :
    Bench.g1Stride A make size1 size2 = passIf ((1 ≤ size1 ∧ size1 < 32) ∧ 1 ≤ size2 ∧ size2 < 32) := by
  have hw : (if size1 < size2 then shlU 1 size1 else shlU 1 size2) = .panic ∨
      ∃ w, (if size1 < size2 then shlU 1 size1 else shlU 1 size2) = .ok w := by
    unfold shlU
    split <;> split
    · exact .inr ⟨_, rfl⟩
    · exact .inl rfl
    · exact .inr ⟨_, rfl⟩
    · exact .inl rfl
  by_cases h1 : size1 < 32
  · obtain ⟨fs1, k1⟩ := h.ok size1 h1
    by_cases h10 : 1 ≤ size1
    · by_cases h2 : size2 < 32
      · obtain ⟨fs2, k2⟩ := h.ok size2 h2
        by_cases h20 : 1 ≤ size2
        · obtain ⟨l, d, e, hr, hl⟩ := hm (2 ^ min size1 size2)
          rw [passIf_true ⟨⟨h10, h1⟩, h20, h2⟩]
          exact (g1Stride_cases k1 k2 h10 h20 rfl e hr hl).1 (h.same k1.new k2.new (by omega) (by omega))
        · obtain rfl : size2 = 0 := by omega
          rw [passIf_false fun hh => by omega, Bench.g1Stride]
          rcases hw with e | ⟨w, e⟩
          · rw [e]; rfl
          · rw [e, bind_ok, k1.newU, bind_ok, k1.wf.width, assertWidth_ok h10 h1, bind_ok, k2.newU]; rfl
      · rw [passIf_false fun hh => h2 hh.2.2, Bench.g1Stride]
        rcases hw with e | ⟨w, e⟩
        · rw [e]; rfl
        · rw [e, bind_ok, k1.newU, bind_ok, k1.wf.width, assertWidth_ok h10 h1, bind_ok, h.err size2 (by omega)]; rfl
    · obtain rfl : size1 = 0 := by omega
      rw [passIf_false fun hh => by omega, Bench.g1Stride]
      rcases hw with e | ⟨w, e⟩
      · rw [e]; rfl
      · rw [e, bind_ok, k1.newU]; rfl
  · rw [passIf_false fun hh => h1 hh.1.2, Bench.g1Stride]
    rcases hw with e | ⟨w, e⟩
    · rw [e]; rfl
    · rw [e, bind_ok, h.err size1 (by omega)]; rfl

end

/-! ## C179: blst-from-scratch, zkcrypto, Arkworks -/

section
variable {F : Type} [Field F] [DecidableEq F] [FrTable F] [LawfulFr F]

theorem fftFr_long {fs : FFTSettings F} {M : Type} [AddCommGroup M] [Module F M] (d : List M) (h : fs.maxWidth < d.length) :
    ∃ msg, fs.fft d false = .err msg := by
  rw [FFTSettings.fft, if_pos h]; exact ⟨_, rfl⟩

theorem plain_ok {size : Nat} {fs : FFTSettings F} (hfs : FFTSettings.new size = .ok fs) : FftOk (plainFr F) Eq 1 size fs :=
  fftOk_of hfs (wf_of_new hfs) rfl (fun _ _ _ => rfl) (fun _ _ => (one_smul_back _).symm) fun d h => fftFr_long d h

theorem plain_compare (size : Nat) (data : Nat → F) : frCompare (plainFr F) fftSlow fftFast size data = passIf (size < 32) := by
  by_cases hs : size < 32
  · obtain ⟨fs, hfs, hwf⟩ := new_spec (F := F) hs
    obtain ⟨o, ho, h1, h2⟩ := slow_fast hwf ((List.range (2 ^ size)).map data) (by simp)
    rw [passIf_true hs]
    exact frCompare_ok (plain_ok hfs) ho h1 (relL_eq.2 rfl) h2 (relL_eq.2 rfl)
  · rw [passIf_false hs]
    exact (all_panic (A := plainFr F) (by show (FFTSettings.new size).unwrap = _; rw [new_err (by omega)]; rfl)).1 _ _ _

end

theorem omega_row {s m : Nat} {fs : FFTSettings Fr} (h : FFTSettings.new s = .ok fs) (hm : m ≤ s) : fs.omega (2 ^ m) = tableRow m := by
  have hwf := wf_of_new h
  have hs := hwf.lt
  have := tableRow_pow (i := m) (s - m) (by omega)
  rw [show m + (s - m) = s by omega] at this
  rw [FFTSettings.omega, hwf.width, Nat.pow_div hm (by norm_num), rootOf_new hs h, this]

theorem blst_all : AllOk (plainFr Fr) Eq where
  ok size hs := by
    obtain ⟨fs, hfs, -⟩ := new_spec (F := Fr) hs
    exact ⟨fs, plain_ok hfs⟩
  same h h' _ hm hm' := by rw [omega_row h hm, omega_row h' hm']
  err size hs := by show (FFTSettings.new size).unwrap = _; rw [new_err hs]; rfl

theorem zk_omega_same {s s' m : Nat} {fs fs' : FFTSettings ScW} (h : FFTSettings.new s = .ok fs) (h' : FFTSettings.new s' = .ok fs')
    (hm : m ≤ s) (hm' : m ≤ s') : fs.omega (2 ^ m) = fs'.omega (2 ^ m) := by
  obtain ⟨fb, hb, -⟩ := new_spec (F := Fr) (wf_of_new h).lt
  obtain ⟨fb', hb', -⟩ := new_spec (F := Fr) (wf_of_new h').lt
  apply el_inj
  rw [el_omega hb h, el_omega hb' h', omega_row hb hm, omega_row hb' hm']

theorem zk_all : AllOk (plainFr ScW) Eq where
  ok size hs := by
    obtain ⟨fs, hfs, -⟩ := new_spec (F := ScW) hs
    exact ⟨fs, plain_ok hfs⟩
  same h h' _ hm hm' := zk_omega_same h h' hm hm'
  err size hs := by show (FFTSettings.new size).unwrap = _; rw [new_err hs]; rfl

theorem ark_new_iff {s : Nat} {fs : FFTSettings Fr} : Ark.settingsNew s = .ok fs ↔ FFTSettings.new s = .ok fs :=
  C113_same_settings s fs

theorem ark_err {size : Nat} (hs : 32 ≤ size) : (Ark.settingsNew (F := Fr) size).unwrap = .panic := by
  rw [Ark.settingsNew_err hs]; rfl

theorem ark_ok {size : Nat} {fs : FFTSettings Fr} (hfs : Ark.settingsNew size = .ok fs) : FftOk arkFr Eq 1 size fs := by
  have hmade := Ark.made_of_new hfs
  exact fftOk_of hfs hmade.toWF rfl (fun hm d hd => Ark.fftFr_eq hmade hm d hd false)
    (fun d hd => (Ark.fftFr_eq hmade le_rfl d hd true).trans (one_smul_back _).symm) fun d h => ⟨_, Ark.fftFr_err_len h _⟩

theorem ark_all : AllOk arkFr Eq where
  ok size hs := by
    obtain ⟨fs, hfs, -⟩ := Ark.settingsNew_spec (F := Fr) hs
    exact ⟨fs, ark_ok hfs⟩
  same h h' _ hm hm' := by rw [omega_row (ark_new_iff.1 h) hm, omega_row (ark_new_iff.1 h') hm']
  err size hs := ark_err hs

/-- C179 (blst-from-scratch): for every size and all data, the three tests of transforms of field elements pass exactly for sizes below 32,
the one of strides if the first size is not the larger one. -/
theorem C179_blst (size size2 : Nat) (data : Nat → Fr) :
    frCompare (plainFr Fr) fftSlow fftFast size data = passIf (size < 32) ∧
    frRoundtrip (plainFr Fr) size data = passIf (size < 32) ∧
    frStride (plainFr Fr) size size2 data = passIf (size ≤ size2 ∧ size2 < 32) :=
  ⟨plain_compare size data, blst_all.frRoundtrip size (fun _ => rfl), blst_all.frStride size size2 fun _ => rfl⟩

/-- C179 (zkcrypto): the same. -/
theorem C179_zk (size size2 : Nat) (data : Nat → ScW) :
    frCompare (plainFr ScW) fftSlow fftFast size data = passIf (size < 32) ∧
    frRoundtrip (plainFr ScW) size data = passIf (size < 32) ∧
    frStride (plainFr ScW) size size2 data = passIf (size ≤ size2 ∧ size2 < 32) :=
  ⟨plain_compare size data, zk_all.frRoundtrip size (fun _ => rfl), zk_all.frStride size size2 fun _ => rfl⟩

/-- C179 (Arkworks): the same; `fft_fr_fast` ignores the roots it is given, but these are the forward ones. -/
theorem C179_ark (size size2 : Nat) (data : Nat → Fr) :
    frCompare arkFr Ark.fftFrSlow Ark.fftFrFast size data = passIf (size < 32) ∧
    frRoundtrip arkFr size data = passIf (size < 32) ∧
    frStride arkFr size size2 data = passIf (size ≤ size2 ∧ size2 < 32) := by
  refine ⟨?_, ark_all.frRoundtrip size (fun _ => rfl), ark_all.frStride size size2 fun _ => rfl⟩
  by_cases hs : size < 32
  · obtain ⟨fs, hfs, hmade⟩ := Ark.settingsNew_spec (F := Fr) hs
    obtain ⟨o, h1, h2⟩ := C114_fast_eq_slow_partial hfs le_rfl ((List.range (2 ^ size)).map data) (List.replicate (2 ^ size) 0)
      (List.replicate (2 ^ size) 0) (by simp) (by simp) (by simp)
    rw [hmade.toWF.width, Nat.div_self (by positivity)] at h1 h2
    obtain ⟨o', ho', k1, -⟩ := slow_fast hmade.toWF ((List.range (2 ^ size)).map data) (by simp)
    have : o = o' := by
      rw [show Ark.fftFrSlow _ _ _ _ _ = _ from k1] at h2
      cases h2; rfl
    rw [passIf_true hs]
    exact frCompare_ok (ark_ok hfs) (this ▸ ho') h2 (relL_eq.2 rfl) h1 (relL_eq.2 rfl)
  · rw [passIf_false hs]
    exact (all_panic (A := arkFr) (ark_err (by omega))).1 _ _ _

/-! ## C179: mcl-kzg -/

section
variable [Mcl.Lib Fr]

omit [Mcl.Lib Fr] in
theorem mcl_made {size : Nat} (hs : size < 32) : ∃ fs, Mcl.FFTSettings.new7 size = .ok fs ∧ MadeSettings fs size := by
  obtain ⟨fs, he, -⟩ := Mcl.newTrait_spec (F := Fr) Mcl.Globals.start (k := size) (by omega)
  exact ⟨fs, he, hs, .inr he⟩

omit [Mcl.Lib Fr] in
theorem mcl_omega_row {s m : Nat} {fs : FFTSettings Fr} (hs : s < 32) (h : Mcl.FFTSettings.new7 s = .ok fs) (hm : m ≤ s) :
    fs.omega (2 ^ m) = if s < 7 then tableRow m else Mcl.row5 m := by
  have hmade : MadeSettings fs s := ⟨hs, .inr h⟩
  obtain ⟨h1, h2⟩ := mcl_coset hmade hm
  rw [FFTSettings.omega, hmade.wf.width, Nat.pow_div hm (by norm_num)]
  split
  · exact h1 ⟨h, by assumption⟩
  · exact h2 fun hh => absurd hh.2 (by assumption)

omit [Mcl.Lib Fr] in
/-- The roots of two settings of the trait belong together exactly if both are of one table, or the size is below 3. -/
theorem mcl_same_iff {s s' : Nat} {fs fs' : FFTSettings Fr} (hs : s < 32) (hs' : s' < 32) (h : Mcl.FFTSettings.new7 s = .ok fs)
    (h' : Mcl.FFTSettings.new7 s' = .ok fs') (hle : s ≤ s') :
    fs.omega (2 ^ s) = fs'.omega (2 ^ s) ↔ s < 3 ∨ s' < 7 ∨ 7 ≤ s := by
  rw [mcl_omega_row hs h le_rfl, mcl_omega_row hs' h' hle]
  by_cases h1 : s < 7
  · rw [if_pos h1]
    by_cases h2 : s' < 7
    · rw [if_pos h2]; exact ⟨fun _ => by omega, fun _ => rfl⟩
    · rw [if_neg h2, eq_comm, row5_table hs]; omega
  · rw [if_neg h1, if_neg (by omega)]; exact ⟨fun _ => by omega, fun _ => rfl⟩

theorem mcl_ok {size : Nat} {fs : FFTSettings Fr} (h30 : size ≤ 30) (hfs : Mcl.FFTSettings.new7 size = .ok fs) :
    FftOk mclFr Eq 1 size fs := by
  have hwf := MadeSettings.wf ⟨by omega, .inr hfs⟩
  exact fftOk_of hfs hwf rfl (fun hm d hd => Mcl.fft_eq hwf hm hd _ (fun e => by cases e))
    (fun d hd => (Mcl.fft_eq hwf le_rfl hd _ (fun _ => h30)).trans (one_smul_back _).symm) fun d h => ⟨_, Mcl.fft_err h _⟩

theorem mcl_ok31 {size : Nat} {fs : FFTSettings Fr} (h31 : size = 31) (hfs : Mcl.FFTSettings.new7 size = .ok fs) :
    FftOk mclFr Eq (-1) size fs := by
  have hwf := MadeSettings.wf ⟨by omega, .inr hfs⟩
  refine fftOk_of hfs hwf rfl (fun hm d hd => Mcl.fft_eq hwf hm hd _ (fun e => by cases e)) (fun d hd => ?_) fun d h => ⟨_, Mcl.fft_err h _⟩
  subst h31
  refine (Mcl.fft_31 hwf d hd).trans ?_
  simp only [neg_one_smul]

theorem mcl_okE {size : Nat} {fs : FFTSettings Fr} (hs : size < 32) (hfs : Mcl.FFTSettings.new7 size = .ok fs) :
    ∃ e, FftOk mclFr Eq e size fs := by
  by_cases h : size ≤ 30
  · exact ⟨_, mcl_ok h hfs⟩
  · exact ⟨_, mcl_ok31 (by omega) hfs⟩

theorem mclFr_err {size : Nat} (hs : 32 ≤ size) (h256 : size < 256) : (mclFr.new size).unwrap = .panic := by
  show (Mcl.newTrait Mcl.Globals.start size).1.unwrap = _
  rw [Mcl.newTrait_err _ (by omega)]; rfl

theorem fr_neg_self {G : Type} [AddCommGroup G] [Module Fr G] {x : G} : x = (-1 : Fr) • x ↔ x = 0 := by
  rw [neg_one_smul, eq_neg_iff_add_eq_zero, ← two_smul Fr x, smul_eq_zero]
  exact or_iff_right (by decide +kernel)

omit [Mcl.Lib Fr] in
theorem mcl_simple_length {M : Type} [AddCommGroup M] [Module Fr M] {fs : FFTSettings Fr} {size : Nat} (hwf : fs.WF size)
    {simple : List M → Nat → Nat → List Fr → Nat → List M → Res (List M)} (hs : Mcl.SimpleSpec simple) {data o : List M}
    (hd : data.length = 2 ^ size)
    (h : simple data 0 1 fs.expandedRoots 1 (List.replicate (2 ^ size) 0) = .ok o) : o.length = 2 ^ size := by
  have hr := hwf.roots_forward le_rfl
  rw [hwf.width, Nat.div_self (by positivity)] at hr
  obtain ⟨b, hb, hbl, -⟩ := hs (2 ^ size) data 0 1 fs.expandedRoots 1 (List.replicate (2 ^ size) 0) _ _ (by positivity) (by simp)
    (hwf.omega_prim le_rfl).pow_eq_one (fun j hj => by rw [Nat.zero_add]; exact FFTSettings.WF.getElem?_getD hd j hj) hr
  rw [h] at hb; cases hb; exact hbl

/-- C179 (mcl-kzg, comparison): passes for sizes below 32 and fails for 32 to 255, for all data. -/
theorem C179_mcl_compare (size : Nat) (h256 : size < 256) (data : Nat → Fr) :
    frCompare mclFr Mcl.fftFrSlow Mcl.fftFrFast size data = passIf (size < 32) := by
  by_cases hs : size < 32
  · obtain ⟨fs, hfs, hmade⟩ := mcl_made hs
    obtain ⟨o, h1, h2⟩ := (C97_fast_eq_slow (G := Fr) hmade le_rfl _ (.inl rfl)).1 ((List.range (2 ^ size)).map data)
      (List.replicate (2 ^ size) 0) (List.replicate (2 ^ size) 0) (by simp) (by simp) (by simp)
    rw [hmade.wf.width, Nat.div_self (by positivity)] at h1 h2
    obtain ⟨e, hok⟩ := mcl_okE hs hfs
    rw [passIf_true hs]
    refine frCompare_ok hok (o := o) ?_ h2 (relL_eq.2 rfl) h1 (relL_eq.2 rfl)
    exact mcl_simple_length hmade.wf (Mcl.simpleFft_spec (F := Fr) (M := Fr)) (by simp) h2
  · rw [passIf_false hs]
    exact (all_panic (mclFr_err (by omega) h256)).1 _ _ _

/-- C179 (mcl-kzg, round trip): passes for sizes up to 30 with all data. -/
theorem C179_mcl_partial (size : Nat) (hs : size ≤ 30) (data : Nat → Fr) : frRoundtrip mclFr size data = .ok () := by
  obtain ⟨fs, hfs, -⟩ := mcl_made (show size < 32 by omega)
  exact (frRoundtrip_cases (mcl_ok hs hfs) (d := data) fun _ => rfl).1 fun i _ => (one_smul Fr _).symm

/-- C179 (refuted for mcl-kzg, size 31): there it passes for no data but zeros, since the inverse is negated. -/
theorem C179_mcl_31 (data : Nat → Fr) :
    ((∀ i < 2 ^ 31, data i = 0) → frRoundtrip mclFr 31 data = .ok ()) ∧
    ((∃ i, i < 2 ^ 31 ∧ data i ≠ 0) → frRoundtrip mclFr 31 data = .panic) := by
  obtain ⟨fs, hfs, -⟩ := mcl_made (size := 31) (by norm_num)
  have hc := frRoundtrip_cases (mcl_ok31 rfl hfs) (d := data) fun _ => rfl
  refine ⟨fun h => hc.1 fun i hi => fr_neg_self.2 (h i hi), fun ⟨i, hi, hne⟩ => hc.2 ⟨i, hi, fun e => hne (fr_neg_self.1 e)⟩⟩

/-- C179 (mcl-kzg, strides): sizes that the settings take from one table, or a first size below 3. -/
theorem C179_mcl_stride_partial (size1 size2 : Nat) (h12 : size1 ≤ size2) (h2 : size2 < 32) (hc : size1 < 3 ∨ size2 < 7 ∨ 7 ≤ size1)
    (data : Nat → Fr) : frStride mclFr size1 size2 data = .ok () := by
  obtain ⟨fs1, k1, -⟩ := mcl_made (show size1 < 32 by omega)
  obtain ⟨fs2, k2, -⟩ := mcl_made h2
  obtain ⟨e1, o1⟩ := mcl_okE (by omega) k1
  obtain ⟨e2, o2⟩ := mcl_okE h2 k2
  exact (frStride_cases o1 o2 (d := data) fun _ => rfl).1 h12 ((mcl_same_iff (by omega) h2 k1 k2 h12).2 hc)

omit [Mcl.Lib Fr] in
/-- Settings with different roots transform the multiples `c, c + 1, …` of an element differently. -/
theorem ramp_differs {G : Type} [AddCommGroup G] [Module Fr G] {s1 s2 m : Nat} {fs1 fs2 : FFTSettings Fr} (h1 : fs1.WF s1)
    (h2 : fs2.WF s2) (l1 : m ≤ s1) (l2 : m ≤ s2) (hm : 1 ≤ m) (hne : fs1.omega (2 ^ m) ≠ fs2.omega (2 ^ m)) (c : Fr) {g : G}
    (hg : g ≠ 0) {d : Nat → G} (hd : ∀ j < 2 ^ m, d j = ((j : Fr) + c) • g) :
    dft (fs1.omega (2 ^ m)) (2 ^ m) d 1 ≠ dft (fs2.omega (2 ^ m)) (2 ^ m) d 1 := by
  have key : ∀ w : Fr, dft w (2 ^ m) d 1 = (∑ j ∈ range (2 ^ m), w ^ j * ((j : Fr) + c)) • g := by
    intro w
    rw [dft, sum_smul]
    refine sum_congr rfl fun j hj => ?_
    rw [mul_one, hd j (mem_range.1 hj), smul_smul]
  have h2m : 1 < 2 ^ m := Nat.one_lt_two_pow (by omega)
  intro h
  rw [key, key] at h
  have p1 := h1.omega_prim l1
  have p2 := h2.omega_prim l2
  refine hne (ramp_inj (h1.cast_ne l1) p1.pow_eq_one p2.pow_eq_one (p1.ne_one h2m) (p2.ne_one h2m) (c := c) ?_)
  have := sub_eq_zero.2 h
  rw [← sub_smul, smul_eq_zero] at this
  exact sub_eq_zero.1 (this.resolve_right hg)

/-- C179 (refuted for mcl-kzg, strides): with the data of the test, all other pairs of sizes fail; so the test would have failed with
sizes 3 to 6 beside 7 to 31, and with its own sizes 9 and 12 it does not see the two tables. -/
theorem C179_mcl_stride (size1 size2 : Nat) (h12 : size1 ≤ size2) (h2 : size2 < 32) (hc : 3 ≤ size1 ∧ size1 < 7 ∧ 7 ≤ size2) :
    frStride mclFr size1 size2 (fun i => (i : Fr)) = .panic := by
  obtain ⟨fs1, k1, m1⟩ := mcl_made (show size1 < 32 by omega)
  obtain ⟨fs2, k2, m2⟩ := mcl_made h2
  obtain ⟨e1, o1⟩ := mcl_okE (by omega) k1
  obtain ⟨e2, o2⟩ := mcl_okE h2 k2
  refine (frStride_cases o1 o2 (d := fun i => (i : Fr)) fun _ => rfl).2.1 h12 ⟨1, Nat.one_lt_two_pow (by omega), ?_⟩
  refine ramp_differs m1.wf m2.wf le_rfl h12 (by omega) (fun h => ?_) 0 (one_ne_zero (α := Fr)) fun j _ => by simp
  have := (mcl_same_iff (by omega) h2 k1 k2 h12).1 h
  omega

/-- C179 (mcl-kzg, its own data): for sizes below 32 the outcome of the test of strides, exactly. -/
theorem C179_mcl_stride_exact (size1 size2 : Nat) (h1 : size1 < 32) (h2 : size2 < 32) :
    frStride mclFr size1 size2 (fun i => (i : Fr)) = passIf (size1 ≤ size2 ∧ (size1 < 3 ∨ size2 < 7 ∨ 7 ≤ size1)) := by
  by_cases h12 : size1 ≤ size2
  · by_cases hc : size1 < 3 ∨ size2 < 7 ∨ 7 ≤ size1
    · rw [passIf_true ⟨h12, hc⟩]; exact C179_mcl_stride_partial _ _ h12 h2 hc _
    · rw [passIf_false fun h => hc h.2]; exact C179_mcl_stride _ _ h12 h2 (by omega)
  · rw [passIf_false fun h => h12 h.1]
    obtain ⟨fs1, k1, -⟩ := mcl_made h1
    obtain ⟨fs2, k2, -⟩ := mcl_made h2
    obtain ⟨e1, o1⟩ := mcl_okE h1 k1
    obtain ⟨e2, o2⟩ := mcl_okE h2 k2
    exact (frStride_cases o1 o2 (d := fun i => (i : Fr)) fun _ => rfl).2.2 (by omega)

end

/-! ## C179: the expected values of `inverse_fft` -/

section
variable {F : Type} [Field F] [DecidableEq F]

/-- The inverse transform of `0, 1, …, 15`. -/
theorem inverse_ramp {fs : FFTSettings F} (hwf : fs.WF 4) {k : Nat} (hk : k < 16) :
    ((2 ^ 4 : Nat) : F)⁻¹ • dft (fs.omega (2 ^ 4))⁻¹ (2 ^ 4) (fun i => (i : F)) k =
      if k = 0 then 15 / 2 else fs.rootOfUnity ^ k / (1 - fs.rootOfUnity ^ k) := by
  have hp : IsPrimitiveRoot fs.rootOfUnity 16 := hwf.prim
  have hom : fs.omega (2 ^ 4) = fs.rootOfUnity := by
    rw [FFTSettings.omega, hwf.width, Nat.div_self (by positivity), pow_one]
  have h16 : ((2 ^ 4 : Nat) : F) ≠ 0 := hwf.cast_ne le_rfl
  have h2 : (2 : F) ≠ 0 := fun h => h16 (by rw [Nat.cast_pow, Nat.cast_ofNat, h]; norm_num)
  have hw0 := hp.ne_zero (by norm_num)
  rw [hom, smul_eq_mul, inv_mul_eq_iff_eq_mul₀ h16]
  split
  · next h =>
    subst h
    simp only [dft, mul_zero, pow_zero, one_smul]
    rw [mul_div_assoc', eq_div_iff h2]
    simp only [show 2 ^ 4 = 16 from rfl, sum_range_succ, sum_range_zero]
    push_cast; ring
  · next h =>
    have hne : fs.rootOfUnity ^ k ≠ 1 := hp.pow_ne_one_of_pos_of_lt h hk
    have hk0 : fs.rootOfUnity ^ k ≠ 0 := pow_ne_zero _ hw0
    have hr := ramp_root (w := (fs.rootOfUnity ^ k)⁻¹) (n := 16)
      (by rw [inv_pow, ← pow_mul, mul_comm, pow_mul, hp.pow_eq_one, one_pow, inv_one]) (by simpa using hne)
    have e : dft fs.rootOfUnity⁻¹ (2 ^ 4) (fun i => (i : F)) k = ∑ j ∈ range 16, (j : F) * (fs.rootOfUnity ^ k)⁻¹ ^ j := by
      refine sum_congr rfl fun j _ => ?_
      rw [smul_eq_mul, mul_comm, inv_pow, inv_pow, ← pow_mul, mul_comm k]
    rw [e]
    have h1 : 1 - fs.rootOfUnity ^ k ≠ 0 := sub_ne_zero.2 (Ne.symm hne)
    rw [mul_div_assoc', eq_div_iff h1]
    have h3 : ((fs.rootOfUnity ^ k)⁻¹ - 1) * fs.rootOfUnity ^ k = 1 - fs.rootOfUnity ^ k := by
      rw [sub_mul, inv_mul_cancel₀ hk0, one_mul]
    rw [← h3, mul_comm _ (_ * _), mul_right_comm, hr]
    push_cast; ring

end

/-- The check of the sixteen values, with numbers. -/
theorem inverse_values : ∀ k < 16,
    (k = 0 → inverseExpected.getD k 0 * 2 % frModulus = 15) ∧
    (k ≠ 0 → (inverseExpected.getD k 0 * (frModulus + 1 - wordsVal (scale2RootWords.getD 4 []) ^ k % frModulus)) % frModulus =
      wordsVal (scale2RootWords.getD 4 []) ^ k % frModulus) := by
  decide +kernel

theorem inverse_expected_fr {k : Nat} (hk : k < 16) : ((inverseExpected.getD k 0 : Nat) : Fr) =
    if k = 0 then 15 / 2 else tableRow 4 ^ k / (1 - tableRow 4 ^ k) := by
  have h := inverse_values k hk
  have hp : IsPrimitiveRoot (tableRow 4) 16 := by
    obtain ⟨fs, hfs, hwf⟩ := new_spec (F := Fr) (k := 4) (by norm_num)
    rw [← rootOf_new (by norm_num) hfs]
    exact hwf.prim
  have h2 : (2 : Fr) ≠ 0 := by decide +kernel
  have cast : ∀ a b : Nat, a % frModulus = b → (a : Fr) = (b : Fr) := fun a b hab => by
    rw [← hab, ZMod.natCast_mod]
  split
  · next h0 =>
    rw [eq_div_iff h2]
    have := cast _ _ (h.1 h0)
    push_cast at this
    exact this
  · next h0 =>
    have hne : tableRow 4 ^ k ≠ 1 := hp.pow_ne_one_of_pos_of_lt h0 hk
    rw [eq_div_iff (sub_ne_zero.2 (Ne.symm hne))]
    have hw : tableRow 4 = ((wordsVal (scale2RootWords.getD 4 []) : Nat) : Fr) := rfl
    have h1 := cast _ _ (h.2 h0)
    rw [ZMod.natCast_mod, Nat.cast_mul, Nat.cast_sub ((Nat.mod_lt _ (by decide)).le.trans (Nat.le_succ _)), ZMod.natCast_mod,
      Nat.succ_eq_add_one, Nat.cast_add, ZMod.natCast_self, zero_add, Nat.cast_one, Nat.cast_pow, ← hw] at h1
    exact h1

theorem inverseExpected_length : inverseExpected.length = 16 := rfl

theorem expected_getElem? {F : Type} [Field F] {k : Nat} (hk : k < 2 ^ 4) :
    (castAll F inverseExpected)[k]? = some ((inverseExpected.getD k 0 : Nat) : F) := by
  rw [castAll, List.getElem?_map, List.getElem?_eq_getElem (show k < inverseExpected.length from hk), List.getD_eq_getElem?_getD,
    List.getElem?_eq_getElem (show k < inverseExpected.length from hk)]; rfl

theorem inverse_passes {A : FftApi Fr Fr} {fs : FFTSettings Fr} (h : FftOk A Eq 1 4 fs) (hr : fs.rootOfUnity = tableRow 4) :
    frInverse A 4 (fun i => (i : Fr)) (castAll Fr inverseExpected) = .ok () := by
  refine (frInverse_cases h (d := fun i => (i : Fr)) (fun _ => rfl) (relL_eq.2 rfl) (by simp [castAll, inverseExpected_length])).1 fun k hk => ?_
  rw [expected_getElem? hk, inverse_ramp h.wf hk, inverse_expected_fr hk, hr]

/-- C179 (expected values): `inverse_fft` passes with all four backends. -/
theorem C179_inverse [Mcl.Lib Fr] :
    frInverse (plainFr Fr) 4 (fun i => (i : Fr)) (castAll Fr inverseExpected) = .ok () ∧
    frInverse (plainFr ScW) 4 (fun i => (i : ScW)) (castAll ScW inverseExpected) = .ok () ∧
    frInverse arkFr 4 (fun i => (i : Fr)) (castAll Fr inverseExpected) = .ok () ∧
    frInverse mclFr 4 (fun i => (i : Fr)) (castAll Fr inverseExpected) = .ok () := by
  obtain ⟨fb, hb, wb⟩ := new_spec (F := Fr) (k := 4) (by norm_num)
  have rb := rootOf_new (by norm_num) hb
  refine ⟨inverse_passes (plain_ok hb) rb, ?_, inverse_passes (ark_ok (ark_new_iff.2 hb)) rb, ?_⟩
  · obtain ⟨fz, hz, wz⟩ := new_spec (F := ScW) (k := 4) (by norm_num)
    have hval : ∀ k < 2 ^ 4, (castAll ScW inverseExpected)[k]? = some (((2 ^ 4 : Nat) : ScW)⁻¹ •
        dft (fz.omega (2 ^ 4))⁻¹ (2 ^ 4) (fun i => (i : ScW)) k) := fun k hk => ?_
    · exact (frInverse_cases (plain_ok hz) (d := fun i => (i : ScW)) (fun _ => rfl) (relL_eq.2 rfl)
        (by rw [castAll, List.length_map]; rfl)).1 hval
    rw [expected_getElem? hk, inverse_ramp wz hk]
    refine congrArg some (el_inj ?_)
    have hroot : elHom fz.rootOfUnity = tableRow 4 := by rw [← rb]; exact el_root hz hb
    rw [el_natCast, inverse_expected_fr hk]
    change _ = elHom _
    split
    · rw [map_div₀, map_ofNat, map_ofNat]
    · rw [map_div₀, map_sub, map_one, map_pow, hroot]
  · obtain ⟨fs, hfs, hm⟩ := mcl_made (size := 4) (by norm_num)
    refine inverse_passes (mcl_ok (by norm_num) hfs) ?_
    have := mcl_omega_row (by norm_num) hfs (le_refl 4)
    rwa [FFTSettings.omega, hm.wf.width, Nat.div_self (by positivity), pow_one, if_pos (by norm_num)] at this

/-- C179 (the table behind it): with settings of the inherent constructor of mcl-kzg, which takes the other table, the same test fails. -/
theorem C179_inverse_other_table [Mcl.Lib Fr] :
    frInverse { mclFr with new := Mcl.FFTSettings.new5 } 4 (fun i => (i : Fr)) (castAll Fr inverseExpected) = .panic := by
  obtain ⟨fs, hfs, -, h5⟩ := Mcl.newPR5_spec (F := Fr) Mcl.start_inv (k := 4) (by norm_num)
  have hm : MadeSettings fs 4 := ⟨by norm_num, .inl hfs⟩
  have hwf := hm.wf
  have hok : FftOk { mclFr with new := Mcl.FFTSettings.new5 } Eq 1 4 fs :=
    fftOk_of hfs hwf rfl (fun hm d hd => Mcl.fft_eq hwf hm hd _ (fun e => by cases e))
      (fun d hd => (Mcl.fft_eq hwf le_rfl hd _ (fun _ => by norm_num)).trans (one_smul_back _).symm) fun d h => ⟨_, Mcl.fft_err h _⟩
  refine (frInverse_cases hok (d := fun i => (i : Fr)) (fun _ => rfl) (relL_eq.2 rfl) (by simp [castAll, inverseExpected_length])).2
    ⟨1, by norm_num, fun h => ?_⟩
  rw [expected_getElem? (by norm_num), inverse_ramp hwf (by norm_num), inverse_expected_fr (by norm_num), if_neg (by norm_num),
    if_neg (by norm_num), Option.some.injEq, pow_one, pow_one] at h
  have hp : IsPrimitiveRoot fs.rootOfUnity 16 := hwf.prim
  have ht : IsPrimitiveRoot (tableRow 4) 16 := by
    obtain ⟨fb, hb, wb⟩ := new_spec (F := Fr) (k := 4) (by norm_num)
    rw [← rootOf_new (by norm_num) hb]
    exact wb.prim
  have a1 : 1 - tableRow 4 ≠ 0 := sub_ne_zero.2 (Ne.symm (ht.ne_one (by norm_num)))
  have a2 : 1 - fs.rootOfUnity ≠ 0 := sub_ne_zero.2 (Ne.symm (hp.ne_one (by norm_num)))
  rw [div_eq_div_iff a1 a2] at h
  have e : tableRow 4 = fs.rootOfUnity := by linear_combination h
  rw [List.getElem?_eq_getElem (by rw [Mcl.len5_fr]; norm_num), Mcl.pr5_getElem, Option.some.injEq, ← e] at h5
  exact absurd ((row5_table (by norm_num)).1 h5) (by norm_num)

/-- The data of `inverse_fft` and the first value it expects: `15/2`. -/
example : ((inverseExpected.getD 0 0 : Nat) : Fr) * 2 = 15 := by
  rw [inverse_expected_fr (by norm_num), if_pos rfl]
  exact div_mul_cancel₀ _ (by decide +kernel)

/-- The sizes of the tests: 12, and 9 with 12. -/
example (data : Nat → Fr) : frRoundtrip (plainFr Fr) 12 data = .ok () ∧ frStride (plainFr Fr) 9 12 data = .ok () ∧
    frStride (plainFr Fr) 12 9 data = .panic :=
  ⟨(C179_blst 12 0 data).2.1, (C179_blst 9 12 data).2.2, (C179_blst 12 9 data).2.2⟩

/-- mcl-kzg passes with the sizes of the test and fails with sizes 4 and 12. -/
example [Mcl.Lib Fr] : frStride mclFr 9 12 (fun i => (i : Fr)) = .ok () ∧ frStride mclFr 4 12 (fun i => (i : Fr)) = .panic :=
  ⟨C179_mcl_stride_exact 9 12 (by norm_num) (by norm_num), C179_mcl_stride_exact 4 12 (by norm_num) (by norm_num)⟩

/-! ## C180: the tests of points -/

section
variable {G : Type} [AddCommGroup G] [Module Fr G] [DecidableEq G]

theorem makes_rel {make : Nat → Res (List G)} (h : Makes make) (n : Nat) : ∃ l d, make n = .ok l ∧ RelL Eq l d ∧ d.length = n := by
  obtain ⟨l, h1, h2⟩ := h n
  exact ⟨l, l, h1, relL_eq.2 rfl, h2⟩

theorem blstG1_ok {size : Nat} {fs : FFTSettings Fr} (hfs : FFTSettings.new size = .ok fs) : FftOk (blstG1 G) Eq (1 : Fr) size fs :=
  fftOk_of hfs (wf_of_new hfs) rfl (fun _ _ _ => rfl) (fun _ _ => (one_smul_back _).symm) fun d h => fftFr_long d h

theorem blstG1_all : AllOk (blstG1 G) Eq where
  ok size hs := by
    obtain ⟨fs, hfs, -⟩ := new_spec (F := Fr) hs
    exact ⟨fs, blstG1_ok hfs⟩
  same h h' _ hm hm' := by rw [omega_row h hm, omega_row h' hm']
  err size hs := by show (FFTSettings.new size).unwrap = _; rw [new_err hs]; rfl

/-- C180 (blst-from-scratch): for every function that makes data and all sizes, the three tests of transforms of points pass exactly for
sizes from 1 to 31; size 0 fails in the test itself, whose `2 << size - 1` underflows. -/
theorem C180_blst {make : Nat → Res (List G)} (hmake : Makes make) (size size2 : Nat) :
    g1CompareFt (blstG1 G) fftSlow fftFast make size = passIf (1 ≤ size ∧ size < 32) ∧
    g1Roundtrip (blstG1 G) make size = passIf (1 ≤ size ∧ size < 32) ∧
    g1Stride (blstG1 G) make size size2 = passIf ((1 ≤ size ∧ size < 32) ∧ 1 ≤ size2 ∧ size2 < 32) := by
  refine ⟨?_, blstG1_all.g1Roundtrip size (makes_rel hmake), blstG1_all.g1Stride size size2 (makes_rel hmake)⟩
  by_cases hs : size < 32
  · obtain ⟨fs, hfs, hwf⟩ := new_spec (F := Fr) hs
    have hok := blstG1_ok (G := G) hfs
    by_cases h1 : 1 ≤ size
    · obtain ⟨data, hm, hl⟩ := hmake (2 ^ size)
      obtain ⟨o, ho, k1, k2⟩ := slow_fast hwf data hl
      rw [passIf_true ⟨h1, hs⟩]
      exact g1CompareFt_ok hok h1 hm hl ho k1 (relL_eq.2 rfl) k2 (relL_eq.2 rfl)
    · obtain rfl : size = 0 := by omega
      rw [passIf_false fun hh => by omega, g1CompareFt, hok.newU]; rfl
  · rw [passIf_false fun hh => hs hh.2]
    exact (all_panic (blstG1_all.err size (by omega))).2.2.2.1 _ _ _

theorem arkG1_ok {size : Nat} {fs : FFTSettings Fr} (hfs : Ark.settingsNew size = .ok fs) : FftOk (arkG1 G) Eq (1 : Fr) size fs := by
  have hwf := (Ark.made_of_new hfs).toWF
  exact fftOk_of hfs hwf rfl (fun hm d hd => Ark.fftG1_eq hwf hm d hd false)
    (fun d hd => (Ark.fftG1_eq hwf le_rfl d hd true).trans (one_smul_back _).symm) fun d h => ⟨_, Ark.fftG1_err_len h _⟩

theorem arkG1_all : AllOk (arkG1 G) Eq where
  ok size hs := by
    obtain ⟨fs, hfs, -⟩ := Ark.settingsNew_spec (F := Fr) hs
    exact ⟨fs, arkG1_ok hfs⟩
  same h h' _ hm hm' := by rw [omega_row (ark_new_iff.1 h) hm, omega_row (ark_new_iff.1 h') hm']
  err size hs := ark_err hs

/-- `fft_g1_slow` and `fft_g1_fast` of Arkworks with their sixth argument, which they ignore. -/
def ark6 (f : Transform Fr G) : List G → List G → Nat → List Fr → Nat → Nat → Res (List G) :=
  fun out data stride roots rootsStride _ => f out data stride roots rootsStride

/-- C180 (Arkworks): round trip and strides as with blst-from-scratch. The comparison, which Arkworks calls with the two functions
exchanged, passes for sizes from 1 to 31. -/
theorem C180_ark_partial {make : Nat → Res (List G)} (hmake : Makes make) (size size2 : Nat) :
    (1 ≤ size → g1CompareSft (arkG1 G) (ark6 Ark.fftG1Fast) (ark6 Ark.fftG1Slow) make size = passIf (size < 32)) ∧
    g1Roundtrip (arkG1 G) make size = passIf (1 ≤ size ∧ size < 32) ∧
    g1Stride (arkG1 G) make size size2 = passIf ((1 ≤ size ∧ size < 32) ∧ 1 ≤ size2 ∧ size2 < 32) := by
  refine ⟨fun h1 => ?_, arkG1_all.g1Roundtrip size (makes_rel hmake), arkG1_all.g1Stride size size2 (makes_rel hmake)⟩
  by_cases hs : size < 32
  · obtain ⟨fs, hfs, hmade⟩ := Ark.settingsNew_spec (F := Fr) hs
    have hok := arkG1_ok (G := G) hfs
    obtain ⟨data, hm, hl⟩ := hmake (2 ^ size)
    obtain ⟨o, k1, k2⟩ := C115_fast_eq_slow_partial hfs h1 le_rfl data (List.replicate (2 ^ size) 0) (List.replicate (2 ^ size) 0) hl
      (by simp) (by simp) _ (.inl rfl)
    rw [hmade.toWF.width, Nat.div_self (by positivity)] at k1 k2
    have hol : o.length = 2 ^ size := by
      obtain ⟨a, ha, hal, -⟩ := hmade.toWF.fftFast_forward le_rfl (List.replicate (2 ^ size) (0 : G)) data (by simp) hl
      rw [hmade.toWF.width, Nat.div_self (by positivity), ← Ark.fftG1Fast_eq size _ _ _ _ _ (by simp), k1] at ha
      cases ha; exact hal
    rw [passIf_true hs]
    exact (g1CompareSft_cases hok hm hol hol k1 (relL_eq.2 rfl) k2 (relL_eq.2 rfl)).1 rfl
  · rw [passIf_false hs]
    exact (all_panic (arkG1_all.err size (by omega))).2.2.2.2.2 _ _ _

/-- C180 (refuted for Arkworks, size 0): there the comparison passes only if the one point is the identity. -/
theorem C180_ark_zero {make : Nat → Res (List G)} {x : G} (hmake : make 1 = .ok [x]) :
    (x = 0 → g1CompareSft (arkG1 G) (ark6 Ark.fftG1Fast) (ark6 Ark.fftG1Slow) make 0 = .ok ()) ∧
    (x ≠ 0 → g1CompareSft (arkG1 G) (ark6 Ark.fftG1Fast) (ark6 Ark.fftG1Slow) make 0 = .panic) := by
  obtain ⟨fs, hfs, hmade⟩ := Ark.settingsNew_spec (F := Fr) (k := 0) (by norm_num)
  obtain ⟨h1, h2⟩ := C115_slow_one_point hfs x 0
  rw [hmade.toWF.width, pow_zero] at h1 h2
  have hc := g1CompareSft_cases (arkG1_ok (G := G) hfs) (make := make) (data := [x]) hmake
    (slow := ark6 Ark.fftG1Fast) (fast := ark6 Ark.fftG1Slow) (o := [x]) (o' := [0]) rfl rfl h2 (relL_eq.2 rfl) h1 (relL_eq.2 rfl)
  exact ⟨fun h => hc.1 (by rw [h]), fun h => hc.2 fun e => h (List.head_eq_of_cons_eq e)⟩

section
variable [Mcl.Lib Fr]

theorem mclG1_long {fs : FFTSettings Fr} (d : List G) (h : fs.maxWidth < d.length) : ∃ msg, Mcl.fftG1 fs d false = .err msg := by
  rw [Mcl.fftG1, if_pos h]; exact ⟨_, rfl⟩

theorem mclG1_ok {size : Nat} {fs : FFTSettings Fr} (h30 : size ≤ 30) (hfs : Mcl.FFTSettings.new7 size = .ok fs) :
    FftOk (mclG1 G) Eq (1 : Fr) size fs := by
  have hwf := MadeSettings.wf ⟨by omega, .inr hfs⟩
  exact fftOk_of hfs hwf rfl (fun hm d hd => Mcl.fftG1_eq hwf hm hd _ (fun e => by cases e))
    (fun d hd => (Mcl.fftG1_eq hwf le_rfl hd _ (fun _ => h30)).trans (one_smul_back _).symm) fun d h => mclG1_long d h

theorem mclG1_ok31 {size : Nat} {fs : FFTSettings Fr} (h31 : size = 31) (hfs : Mcl.FFTSettings.new7 size = .ok fs) :
    FftOk (mclG1 G) Eq (-1 : Fr) size fs := by
  have hwf := MadeSettings.wf ⟨by omega, .inr hfs⟩
  refine fftOk_of hfs hwf rfl (fun hm d hd => Mcl.fftG1_eq hwf hm hd _ (fun e => by cases e)) (fun d hd => ?_) fun d h => mclG1_long d h
  subst h31
  refine (Mcl.fftG1_31 hwf d hd).trans ?_
  simp only [neg_one_smul]

theorem mclG1_okE {size : Nat} {fs : FFTSettings Fr} (hs : size < 32) (hfs : Mcl.FFTSettings.new7 size = .ok fs) :
    ∃ e : Fr, FftOk (mclG1 G) Eq e size fs := by
  by_cases h : size ≤ 30
  · exact ⟨_, mclG1_ok h hfs⟩
  · exact ⟨_, mclG1_ok31 (by omega) hfs⟩

/-- C180 (mcl-kzg, comparison): passes for sizes below 32, also for 0, and fails for 32 to 255. -/
theorem C180_mcl_compare {make : Nat → Res (List G)} (hmake : Makes make) (size : Nat) (h256 : size < 256) :
    g1CompareSft (mclG1 G) Mcl.fftG1Slow Mcl.fftG1Fast make size = passIf (size < 32) := by
  by_cases hs : size < 32
  · obtain ⟨fs, hfs, hmade⟩ := mcl_made hs
    obtain ⟨data, hm, hl⟩ := hmake (2 ^ size)
    obtain ⟨o, h1, h2⟩ := (C97_fast_eq_slow (G := G) hmade le_rfl _ (.inl rfl)).2 data
      (List.replicate (2 ^ size) 0) (List.replicate (2 ^ size) 0) (2 ^ size) (2 ^ size) hl (by simp) (by simp)
    rw [hmade.wf.width, Nat.div_self (by positivity)] at h1 h2
    obtain ⟨e, hok⟩ := mclG1_okE (G := G) hs hfs
    have hol := mcl_simple_length hmade.wf (Mcl.simpleFftG1_spec (F := Fr) (M := G)) hl h2
    rw [passIf_true hs]
    exact (g1CompareSft_cases hok hm hol hol h2 (relL_eq.2 rfl) h1 (relL_eq.2 rfl)).1 rfl
  · rw [passIf_false hs]
    refine (all_panic ?_).2.2.2.2.2 _ _ _
    show (Mcl.newTrait Mcl.Globals.start size).1.unwrap = _
    rw [Mcl.newTrait_err _ (by omega)]; rfl

/-- C180 (mcl-kzg, round trip): passes for sizes from 1 to 30 with all data. -/
theorem C180_mcl_partial {make : Nat → Res (List G)} (hmake : Makes make) (size : Nat) (h1 : 1 ≤ size) (h30 : size ≤ 30) :
    g1Roundtrip (mclG1 G) make size = .ok () := by
  obtain ⟨fs, hfs, -⟩ := mcl_made (show size < 32 by omega)
  obtain ⟨data, hm, hl⟩ := hmake (2 ^ size)
  exact (g1Roundtrip_cases (mclG1_ok h30 hfs) h1 hm (relL_eq.2 rfl) hl).1 fun x _ => (one_smul Fr _).symm

/-- C180 (refuted for mcl-kzg, size 31): there it passes only if all points are the identity. -/
theorem C180_mcl_31 {make : Nat → Res (List G)} {data : List G} (hm : make (2 ^ 31) = .ok data) (hl : data.length = 2 ^ 31) :
    ((∀ x ∈ data, x = 0) → g1Roundtrip (mclG1 G) make 31 = .ok ()) ∧ ((∃ x ∈ data, x ≠ 0) → g1Roundtrip (mclG1 G) make 31 = .panic) := by
  obtain ⟨fs, hfs, -⟩ := mcl_made (size := 31) (by norm_num)
  have hc := g1Roundtrip_cases (mclG1_ok31 (G := G) rfl hfs) (by norm_num) hm (relL_eq.2 rfl) hl
  exact ⟨fun h => hc.1 fun x hx => fr_neg_self.2 (h x hx), fun ⟨x, hx, hne⟩ => hc.2 ⟨x, hx, fun e => hne (fr_neg_self.1 e)⟩⟩

/-- C180 (mcl-kzg, strides): with the multiples `g, 2g, …` that `make_data` gives, exactly the sizes from 1 to 31 pass of which both are
below 7, both at least 7, or one below 3. -/
theorem C180_mcl_stride {g : G} (hg : g ≠ 0) {make : Nat → Res (List G)}
    (hmake : ∀ n, make n = .ok ((List.range n).map fun j : Nat => ((j : Fr) + 1) • g)) {size1 size2 : Nat} (h1 : 1 ≤ size1) (h2 : 1 ≤ size2)
    (l1 : size1 < 32) (l2 : size2 < 32) : g1Stride (mclG1 G) make size1 size2 =
      passIf (min size1 size2 < 3 ∨ max size1 size2 < 7 ∨ 7 ≤ min size1 size2) := by
  obtain ⟨fs1, k1, m1⟩ := mcl_made l1
  obtain ⟨fs2, k2, m2⟩ := mcl_made l2
  obtain ⟨e1, o1⟩ := mclG1_okE (G := G) l1 k1
  obtain ⟨e2, o2⟩ := mclG1_okE (G := G) l2 k2
  have hc := g1Stride_cases o1 o2 h1 h2 rfl (hmake _) (relL_eq.2 rfl) (by simp)
  have hiff : fs1.omega (2 ^ min size1 size2) = fs2.omega (2 ^ min size1 size2) ↔
      (min size1 size2 < 3 ∨ max size1 size2 < 7 ∨ 7 ≤ min size1 size2) := by
    rcases le_total size1 size2 with h | h
    · rw [min_eq_left h, max_eq_right h]; exact mcl_same_iff l1 l2 k1 k2 h
    · rw [min_eq_right h, max_eq_left h, eq_comm]; exact mcl_same_iff l2 l1 k2 k1 h
  by_cases h : min size1 size2 < 3 ∨ max size1 size2 < 7 ∨ 7 ≤ min size1 size2
  · rw [passIf_true h]; exact hc.1 (hiff.2 h)
  · rw [passIf_false h]
    refine hc.2 ⟨1, Nat.one_lt_two_pow (by omega), ?_⟩
    refine ramp_differs m1.wf m2.wf (min_le_left _ _) (min_le_right _ _) (by omega) (fun e => h (hiff.1 e)) 1 hg fun j hj => ?_
    rw [List.getD_eq_getElem?_getD, List.getElem?_map, List.getElem?_range hj]; rfl

end
end

/-- C180 (zkcrypto): for every list of points of the group, given by any coordinates, the three tests pass for sizes from 1 to 16, in
either build. -/
theorem C180_zk_partial (chk : Bool) {make : Nat → Res (List Zk.G1.Proj)}
    (hmake : ∀ n, ∃ l d, make n = .ok l ∧ RelL At1 l d ∧ d.length = n) {size size2 : Nat} (h1 : 1 ≤ size) (h16 : size ≤ 16)
    (h2 : 1 ≤ size2) (h216 : size2 ≤ 16) :
    g1CompareFt (zkG1 chk) (ZkP.fftG1Slow (g1Ops chk)) (ZkP.fftG1Fast (g1Ops chk)) make size = .ok () ∧
    g1Roundtrip (zkG1 chk) make size = .ok () ∧ g1Stride (zkG1 chk) make size size2 = .ok () := by
  have hok : ∀ s ≤ 16, ∃ fs, FftOk (zkG1 chk) At1 (1 : ScW) s fs := by
    intro s hs
    obtain ⟨fs, hfs, hwf⟩ := new_spec (F := ScW) (k := s) (by omega)
    refine ⟨fs, hfs, hwf, fun x y d d' hx hy => at1_ctEq hx hy, fun hm data d hr hl => ?_, fun {data d} hr hl => ?_, fun {data} hl => ?_⟩
    · exact C90_fft_g1_partial chk hs fs hfs _ hm data d (by rw [hr.length, hl]) hr false
    · obtain ⟨out, e, ho, he, hR⟩ := C90_fft_g1_partial chk hs fs hfs _ le_rfl data d (by rw [hr.length, hl]) hr true
      exact ⟨out, e, ho, he, by simpa using hR⟩
    · obtain ⟨msg, e⟩ := C90_rejects chk fs data false (.inl (by rw [hwf.width]; exact hl))
      show (ZkP.fftG1 (g1Ops chk) fs data false).unwrap = _
      rw [e]; rfl
  obtain ⟨fs, k1⟩ := hok size h16
  obtain ⟨fs2, k2⟩ := hok size2 h216
  obtain ⟨l, d, hm, hr, hd⟩ := hmake (2 ^ size)
  refine ⟨?_, (g1Roundtrip_cases k1 h1 hm hr hd).1 fun x _ => (one_smul ScW _).symm, ?_⟩
  · obtain ⟨o, ho, s1, s2⟩ := slow_fast k1.wf d hd
    have hT := fsT_small k1.wf h16
    have hz : RelL At1 (List.replicate (2 ^ size) (Projective.identity : Zk.G1.Proj)) (List.replicate (2 ^ size) (0 : ScW)) :=
      RelL.replicate _ at1_zero
    have a := ZkP.fftSlow_rel (opsAny chk) hT.fwd hz hr 1 1
    have b := ZkP.fftFast_rel (opsAny chk) hT.fwd (2 ^ size) (by simp) hz hr 1 1
    rw [s1] at a
    rw [s2] at b
    rcases a.of_ok with ⟨oa, ha, ra⟩ | ⟨hf, -⟩
    · rcases b.of_ok with ⟨ob, hb, rb⟩ | ⟨hf, -⟩
      · exact g1CompareFt_ok k1 h1 hm (by rw [hr.length, hd]) ho ha ra hb rb
      · exact hf.elim
    · exact hf.elim
  · obtain ⟨l, d, hm, hr, hd⟩ := hmake (2 ^ min size size2)
    exact (g1Stride_cases k1 k2 h1 h2 rfl hm hr hd).1 (zk_omega_same k1.new k2.new (min_le_left _ _) (min_le_right _ _))

/-- The sizes of the tests with points: 10, and 9 with 12; a test of size 0 would fail. -/
example {G : Type} [AddCommGroup G] [Module Fr G] [DecidableEq G] (g : G) :
    let make : Nat → Res (List G) := fun n => .ok ((List.range n).map fun j => (j + 1) • g)
    g1Roundtrip (blstG1 G) make 10 = .ok () ∧ g1Stride (blstG1 G) make 9 12 = .ok () ∧ g1Roundtrip (blstG1 G) make 0 = .panic := by
  intro make
  have hm : Makes make := fun n => ⟨_, rfl, by simp⟩
  exact ⟨(C180_blst hm 10 0).2.1, (C180_blst hm 9 12).2.2, (C180_blst hm 0 0).2.1⟩

end Kzg.Props
