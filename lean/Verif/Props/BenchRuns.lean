import Mathlib.Data.Finset.Card
import Mathlib.Data.Finset.Dedup
import Verif.Model.BenchRuns
import Verif.Props.BenchRecover
import Verif.Props.BenchZero
/-!
# Property C201: the benchmarks of recovery and of zero polynomials
-/

set_option linter.unusedSectionVars false

namespace Kzg.Props
open Kzg Kzg.Res Kzg.Bench Polynomial

section
variable {F : Type} [Field F] [DecidableEq F]

/-- The positions among the draws at which there still is a sample. -/
def freshDraws (n : Nat) (w : List (Option F)) (draws : List Nat) : Finset Nat :=
  (draws.map (· % n)).toFinset.filter fun j => (w.getD j none).isSome

theorem drawErase_spec {n : Nat} (hn : 0 < n) : ∀ (draws : List Nat) (left : Nat) (w : List (Option F)), w.length = n →
    ((freshDraws n w draws).card < left → drawErase n left w draws = .ok none) ∧
    (left ≤ (freshDraws n w draws).card → ∃ w', drawErase n left w draws = .ok (some w') ∧ w'.length = n ∧
      erased w' = erased w + left ∧ ∀ (j : Nat) (v : F), w'[j]? = some (some v) → w[j]? = some (some v)) := by
  intro draws
  induction draws with
  | nil =>
    intro left w hw
    have h0 : (freshDraws n w []).card = 0 := by simp [freshDraws]
    rw [h0]
    refine ⟨fun h => ?_, fun h => ?_⟩
    · obtain ⟨k, rfl⟩ : ∃ k, left = k + 1 := ⟨left - 1, by omega⟩
      rfl
    · obtain rfl : left = 0 := by omega
      exact ⟨w, rfl, hw, rfl, fun _ _ h => h⟩
  | cons d draws ih =>
    intro left w hw
    rcases left with _ | left
    · refine ⟨fun h => absurd h (Nat.not_lt_zero _), fun _ => ⟨w, by rw [drawErase], hw, rfl, fun _ _ h => h⟩⟩
    have hj : d % n < w.length := by rw [hw]; exact Nat.mod_lt _ hn
    rw [drawErase, rd_of_getElem? (List.getElem?_eq_getElem hj), bind_ok]
    have hg : w.getD (d % n) none = w[d % n] := by rw [List.getD_eq_getElem?_getD, List.getElem?_eq_getElem hj]; rfl
    rcases hx : w[d % n] with _ | x
    · have he : freshDraws n w (d :: draws) = freshDraws n w draws := by
        rw [freshDraws, List.map_cons, List.toFinset_cons, Finset.filter_insert, if_neg (by rw [hg, hx]; simp)]
        rfl
      rw [he]
      exact ih (left + 1) w hw
    · have hw' : (w.set (d % n) none).length = n := by rw [List.length_set, hw]
      have hc : (freshDraws n w (d :: draws)).card = (freshDraws n (w.set (d % n) none) draws).card + 1 := by
        have hni : d % n ∉ freshDraws n (w.set (d % n) none) draws := by
          rw [freshDraws, Finset.mem_filter]
          rintro ⟨-, h⟩
          rw [List.getD_eq_getElem?_getD, List.getElem?_set_self hj] at h
          simp at h
        rw [← Finset.card_insert_of_notMem hni]
        congr 1
        ext j
        simp only [freshDraws, List.map_cons, List.toFinset_cons, Finset.mem_filter, Finset.mem_insert]
        by_cases e : j = d % n
        · subst e
          rw [hg, hx]
          simp
        · have : (w.set (d % n) none).getD j none = w.getD j none := by
            rw [List.getD_eq_getElem?_getD, List.getElem?_set_ne (fun h => e h.symm), ← List.getD_eq_getElem?_getD]
          rw [this]
          simp [e]
      simp only [wr_of_lt hj, bind_ok]
      obtain ⟨h1, h2⟩ := ih left (w.set (d % n) none) hw'
      rw [hc]
      refine ⟨fun h => h1 (by omega), fun h => ?_⟩
      obtain ⟨w', e, hl, he, hv⟩ := h2 (by omega)
      refine ⟨w', e, hl, ?_, fun j v h => ?_⟩
      · rw [he, erased, List.countP_set hj, hx, erased]
        simp
        omega
      · have h := hv j v h
        rw [List.getElem?_set] at h
        split at h
        · simp at h
        · exact h

/-- How many positions of `0, …, n - 1` the draws reach. -/
def reached (n : Nat) (draws : List Nat) : Nat := ((draws.map (· % n)).toFinset).card

theorem benchRecover_eq {A : RecApi F} {ω : F} {scale : Nat} (hwidth : A.maxWidth = 2 ^ (scale + 1))
    (hfft : ∀ l : List F, l.length = 2 ^ (scale + 1) → A.fft l false = .ok (codeword ω (2 ^ (scale + 1)) (polyOf l)))
    {coeffs : List F} (hc : coeffs.length = 2 ^ scale) (draws : List Nat) :
    (reached (2 ^ (scale + 1)) draws < 2 ^ scale → benchRecover A coeffs draws = .ok none) ∧
    (2 ^ scale ≤ reached (2 ^ (scale + 1)) draws → ∃ samples, Erasure (codeword ω (2 ^ (scale + 1)) (polyOf coeffs)) samples ∧
      erased samples = 2 ^ scale ∧ samples.length = 2 ^ (scale + 1) ∧ benchRecover A coeffs draws = (do
        let r ← (A.recover samples).unwrap
        .ok (some r))) := by
  have hw : A.maxWidth = 2 * 2 ^ scale := by rw [hwidth, pow_succ, mul_comm]
  have hw2 : A.maxWidth / 2 = 2 ^ scale := by omega
  have hpl : (coeffs ++ List.replicate (2 ^ scale) (0 : F)).length = 2 ^ (scale + 1) := by
    rw [List.length_append, List.length_replicate, hc, pow_succ, mul_two]
  have hf := hfft _ hpl
  rw [show polyOf (coeffs ++ List.replicate (2 ^ scale) (0 : F)) = polyOf coeffs from ZkP.polyOf_append_zeros _ _] at hf
  have hWl : (codeword ω (2 ^ (scale + 1)) (polyOf coeffs)).length = 2 ^ (scale + 1) := by simp [codeword]
  generalize codeword ω (2 ^ (scale + 1)) (polyOf coeffs) = W at hf hWl ⊢
  have hrun : benchRecover A coeffs draws = (do
      let s ← drawErase (2 ^ (scale + 1)) (2 ^ scale) (W.map some) draws
      match s with
      | none => .ok none
      | some samples => do
        let r ← (A.recover samples).unwrap
        .ok (some r)) := by
    unfold benchRecover
    rw [hw2, show List.replicate A.maxWidth (0 : F) = List.replicate (2 * 2 ^ scale) 0 by rw [hw], fill_ok hc, bind_ok, hf, unwrap, bind_ok,
      tab_ok (g := fun i => some (W.getD i 0)) (fun i hi => by
        rw [rd_of_getElem? (List.getElem?_eq_getElem (by omega)), bind_ok, List.getD_eq_getElem?_getD,
          List.getElem?_eq_getElem (by omega)]; rfl), bind_ok, hwidth]
    congr 2
    apply List.ext_getElem?
    intro i
    rw [List.getElem?_map, List.getElem?_map]
    by_cases hi : i < 2 ^ (scale + 1)
    · rw [List.getElem?_range hi, List.getElem?_eq_getElem (by omega), Option.map_some, Option.map_some, List.getD_eq_getElem?_getD,
        List.getElem?_eq_getElem (by omega)]
      rfl
    · rw [List.getElem?_eq_none (by simpa using hi), List.getElem?_eq_none (by omega)]
      rfl
  have hpos : 0 < 2 ^ (scale + 1) := by positivity
  have hfresh : (freshDraws (2 ^ (scale + 1)) (W.map some) draws).card = reached (2 ^ (scale + 1)) draws := by
    rw [freshDraws, Finset.filter_true_of_mem, reached]
    intro j hj
    rw [List.mem_toFinset, List.mem_map] at hj
    obtain ⟨d, -, rfl⟩ := hj
    rw [List.getD_eq_getElem?_getD, List.getElem?_map, List.getElem?_eq_getElem (by rw [hWl]; exact Nat.mod_lt _ hpos)]
    rfl
  obtain ⟨h1, h2⟩ := drawErase_spec hpos draws (2 ^ scale) (W.map some) (by rw [List.length_map, hWl])
  rw [hfresh] at h1 h2
  refine ⟨fun h => by rw [hrun, h1 h]; rfl, fun h => ?_⟩
  obtain ⟨samples, e, hl, he, hv⟩ := h2 h
  refine ⟨samples, ⟨by rw [hl, hWl], fun i v hi => ?_⟩, ?_, hl, by rw [hrun, e]; rfl⟩
  · have := hv i v hi
    rw [List.getElem?_map] at this
    rcases hx : W[i]? with _ | x
    · rw [hx] at this; cases this
    · rw [hx] at this
      simpa using this
  · rw [he, erased, show (W.map some).countP Option.isNone = 0 by rw [List.countP_eq_zero]; simp, zero_add]

theorem benchRecover_ok {A : RecApi F} {ω : F} {scale : Nat} (hwidth : A.maxWidth = 2 ^ (scale + 1))
    (hfft : ∀ l : List F, l.length = 2 ^ (scale + 1) → A.fft l false = .ok (codeword ω (2 ^ (scale + 1)) (polyOf l)))
    (hrecover : ∀ (p : F[X]) (samples : List (Option F)), (p = 0 ∨ 2 * p.natDegree < 2 ^ (scale + 1)) →
      Erasure (codeword ω (2 ^ (scale + 1)) p) samples → 1 ≤ erased samples → 2 * erased samples ≤ 2 ^ (scale + 1) →
        A.recover samples = .ok (codeword ω (2 ^ (scale + 1)) p)) {coeffs : List F} (hc : coeffs.length = 2 ^ scale) (draws : List Nat) :
    ∃ data, A.fft (coeffs ++ List.replicate (2 ^ scale) 0) false = .ok data ∧
      benchRecover A coeffs draws = .ok (if 2 ^ scale ≤ reached (2 ^ (scale + 1)) draws then some data else none) := by
  have hpl : (coeffs ++ List.replicate (2 ^ scale) (0 : F)).length = 2 ^ (scale + 1) := by
    rw [List.length_append, List.length_replicate, hc, pow_succ, mul_two]
  have hf := hfft _ hpl
  rw [show polyOf (coeffs ++ List.replicate (2 ^ scale) (0 : F)) = polyOf coeffs from ZkP.polyOf_append_zeros _ _] at hf
  have hdeg : 2 * (polyOf coeffs).natDegree < 2 ^ (scale + 1) := by
    have := natDegree_polyOf_le coeffs
    have hpos : 0 < 2 ^ scale := by positivity
    rw [pow_succ]
    omega
  refine ⟨_, hf, ?_⟩
  obtain ⟨h1, h2⟩ := benchRecover_eq hwidth hfft hc draws
  by_cases h : 2 ^ scale ≤ reached (2 ^ (scale + 1)) draws
  · obtain ⟨samples, hs, he, -, e⟩ := h2 h
    rw [if_pos h, e, hrecover _ _ (Or.inr hdeg) hs (by rw [he]; exact Nat.one_le_two_pow) (by rw [he, pow_succ, mul_comm])]
    rfl
  · rw [if_neg h, h1 (not_le.1 h)]

end

/-! ### Recovery -/

/-- C201 (recovery, blst-from-scratch, partial): the benchmark draws until half of the positions are reached, whatever is drawn, and then
recovers the data; it goes on drawing as long as fewer are reached. Missing: widths above `2^16`, where it panics
(`C201_recover_blst_large`); the benchmark goes up to `2^15`. -/
theorem C201_recover_blst_partial {scale : Nat} {fs : FFTSettings Fr} (hfs : FFTSettings.new (scale + 1) = .ok fs) (h16 : scale + 1 ≤ 16)
    (coeffs : List Fr) (hc : coeffs.length = 2 ^ scale) (draws : List Nat) :
    ∃ data, fs.fftFr (coeffs ++ List.replicate (2 ^ scale) 0) false = .ok data ∧
      benchRecover (blstRec fs) coeffs draws = .ok (if 2 ^ scale ≤ reached (2 ^ (scale + 1)) draws then some data else none) :=
  have h := blst_recBase hfs h16
  benchRecover_ok h.width h.fft h.recover hc draws

/-- C201 (recovery, blst-from-scratch, refuted for large scales): once half of the positions are reached the benchmark panics. -/
theorem C201_recover_blst_large {scale : Nat} {fs : FFTSettings Fr} (hfs : FFTSettings.new (scale + 1) = .ok fs) (h16 : 16 < scale + 1)
    (coeffs : List Fr) (hc : coeffs.length = 2 ^ scale) (draws : List Nat) :
    benchRecover (blstRec fs) coeffs draws = if 2 ^ scale ≤ reached (2 ^ (scale + 1)) draws then .panic else .ok none := by
  have hwf := wf_of_new hfs
  obtain ⟨h1, h2⟩ := benchRecover_eq (A := blstRec fs) (ω := fs.omega (2 ^ (scale + 1))) (scale := scale) hwf.width
    (fun l hl => (hwf.fft_eval le_rfl l hl).trans (by rw [codeword])) hc draws
  by_cases h : 2 ^ scale ≤ reached (2 ^ (scale + 1)) draws
  · obtain ⟨samples, -, -, hl, e⟩ := h2 h
    rw [if_pos h, e]
    rw [show (blstRec fs).recover samples = .panic from (C21_large_domain_panics hfs h16).1 _ hl]
    rfl
  · rw [if_neg h, h1 (not_le.1 h)]

/-- C201 (recovery, mcl-kzg). -/
theorem C201_recover_mcl [Mcl.Lib Fr] {scale : Nat} {fs : FFTSettings Fr} (hfs : MadeSettings fs (scale + 1))
    (coeffs : List Fr) (hc : coeffs.length = 2 ^ scale) (draws : List Nat) :
    ∃ data, Mcl.fft fs (coeffs ++ List.replicate (2 ^ scale) 0) false = .ok data ∧
      benchRecover (mclRec fs) coeffs draws = .ok (if 2 ^ scale ≤ reached (2 ^ (scale + 1)) draws then some data else none) := by
  have hwf := hfs.wf
  have hom : domainRoot fs (scale + 1) (scale + 1) = fs.omega (2 ^ (scale + 1)) := (omega_of_wf hwf le_rfl).symm
  exact benchRecover_ok (A := mclRec fs) hwf.width (fun l hl => by
      show Mcl.fft fs l false = _
      rw [Mcl.fft_eq hwf le_rfl hl false (fun h => by cases h), hwf.fft_eval le_rfl l hl, hom, codeword])
    (fun p samples hp hs h1 h2 => C104_recovery hfs le_rfl p hp samples hs h1 h2) hc draws

/-- C201 (recovery, Arkworks). -/
theorem C201_recover_ark {scale : Nat} {fs : FFTSettings Fr} (hfs : Ark.settingsNew (scale + 1) = .ok fs)
    (coeffs : List Fr) (hc : coeffs.length = 2 ^ scale) (draws : List Nat) :
    ∃ data, Ark.fftFr fs (coeffs ++ List.replicate (2 ^ scale) 0) false = .ok data ∧
      benchRecover (arkRec fs) coeffs draws = .ok (if 2 ^ scale ≤ reached (2 ^ (scale + 1)) draws then some data else none) :=
  have h := ark_recBase hfs
  benchRecover_ok h.width h.fft h.recover hc draws

/-- C201 (recovery, zkcrypto). -/
theorem C201_recover_zk {scale : Nat} {fs : FFTSettings Zk.ScW} (hfs : FFTSettings.new (scale + 1) = .ok fs)
    (coeffs : List Zk.ScW) (hc : coeffs.length = 2 ^ scale) (draws : List Nat) :
    ∃ data, fs.fftFr (coeffs ++ List.replicate (2 ^ scale) 0) false = .ok data ∧
      benchRecover (zkRec fs) coeffs draws = .ok (if 2 ^ scale ≤ reached (2 ^ (scale + 1)) draws then some data else none) :=
  have h := zk_recBase hfs
  benchRecover_ok h.width h.fft h.recover hc draws

/-! ### Zero polynomials -/

theorem half_shuffled {scale : Nat} {order : List Nat} (ho : order.Perm (List.range (2 ^ (scale + 1)))) :
    (order.take (2 ^ scale)).length = 2 ^ scale ∧ (∀ i ∈ order.take (2 ^ scale), i < 2 ^ (scale + 1)) ∧ order.take (2 ^ scale) ≠ [] ∧
      (order.take (2 ^ scale)).length < 2 ^ (scale + 1) ∧ (order.take (2 ^ scale)).length ≤ 63 * (2 ^ (scale + 1) / 64 + 1) := by
  have hp : 2 ^ (scale + 1) = 2 * 2 ^ scale := by rw [pow_succ, mul_comm]
  have hpos : 0 < 2 ^ scale := by positivity
  have hl : (order.take (2 ^ scale)).length = 2 ^ scale := by
    rw [List.length_take, ho.length_eq, List.length_range]
    omega
  refine ⟨hl, fun i hi => ?_, fun h => ?_, by omega, by omega⟩
  · have := (ho.mem_iff (a := i)).1 (List.mem_of_mem_take hi)
    simpa using this
  · rw [h] at hl
    simp only [List.length_nil] at hl
    omega

theorem benchZeroPoly_eq {F : Type} [Field F] [DecidableEq F] {A : ZeroApi F} {scale : Nat} (hw : A.maxWidth = 2 ^ (scale + 1))
    {order : List Nat} (ho : order.Perm (List.range (2 ^ (scale + 1)))) :
    benchZeroPoly A order = A.zero (2 ^ (scale + 1)) (order.take (2 ^ scale)) := by
  have hp : 2 ^ (scale + 1) / 2 = 2 ^ scale := by rw [pow_succ]; omega
  unfold benchZeroPoly
  simp only
  rw [hw, hp, sliceTo, if_pos (by rw [ho.length_eq, List.length_range, pow_succ]; omega), bind_ok]

/-- C201 (zero polynomials): in all four backends the benchmark times the making of a polynomial of full length, never an error, whatever
the shuffle; its values are zero exactly at the first half of the shuffled positions. In mcl-kzg up to `2^30` positions; the benchmark goes
up to `2^15`. -/
theorem C201_zero_poly [Mcl.Lib Fr] {scale : Nat} {fb fm fa : FFTSettings Fr} {fz : FFTSettings Zk.ScW}
    (hb : FFTSettings.new (scale + 1) = .ok fb) (hm : MadeSettings fm (scale + 1)) (ha : Ark.settingsNew (scale + 1) = .ok fa)
    (hz : FFTSettings.new (scale + 1) = .ok fz) (order : List Nat) (ho : order.Perm (List.range (2 ^ (scale + 1)))) :
    (∃ ev co, benchZeroPoly (blstZero fb) order = .ok (ev, co) ∧ ev.length = 2 ^ (scale + 1) ∧
      ∀ j < 2 ^ (scale + 1), ∃ y, ev[j]? = some y ∧ (y = 0 ↔ j ∈ order.take (2 ^ scale))) ∧
    (scale + 1 ≤ 30 → ∃ ev co, benchZeroPoly (mclZero fm) order = .ok (ev, co) ∧ ev.length = 2 ^ (scale + 1) ∧
      ∀ j < 2 ^ (scale + 1), ∃ y, ev[j]? = some y ∧ (y = 0 ↔ j ∈ order.take (2 ^ scale))) ∧
    (∃ ev co, benchZeroPoly (arkZero fa) order = .ok (ev, co) ∧ ev.length = 2 ^ (scale + 1) ∧
      ∀ j < 2 ^ (scale + 1), ∃ y, ev[j]? = some y ∧ (y = 0 ↔ j ∈ order.take (2 ^ scale))) ∧
    ∃ ev co, benchZeroPoly (zkZero fz) order = .ok (ev, co) ∧ ev.length = 2 ^ (scale + 1) ∧
      ∀ j < 2 ^ (scale + 1), ∃ y, ev[j]? = some y ∧ (y = 0 ↔ j ∈ order.take (2 ^ scale)) := by
  obtain ⟨-, h1, h2, h3, h4⟩ := half_shuffled ho
  refine ⟨?_, fun h30 => ?_, ?_, ?_⟩
  · obtain ⟨ω, ev, co, -, -, e1, e2, -, -, e5⟩ := C20_zero_poly_partial hb le_rfl _ h1 h2 h3 h4
    refine ⟨ev, co, (benchZeroPoly_eq (A := blstZero fb) (wf_of_new hb).width ho).trans e1, e2, fun j hj => ?_⟩
    obtain ⟨y, e, -, h⟩ := e5 j hj
    exact ⟨y, e, h⟩
  · obtain ⟨ev, co, -, e1, e2, -, -, e5⟩ := C103_zero_poly_partial hm le_rfl _ (Or.inl h30) h1 h2 h3 h4
    refine ⟨ev, co, (benchZeroPoly_eq (A := mclZero fm) hm.wf.width ho).trans e1, e2, fun j hj => ?_⟩
    obtain ⟨y, e, -, h⟩ := e5 j hj
    exact ⟨y, e, h⟩
  · obtain ⟨ev, co, -, e1, e2, -, -, e5⟩ := C119_zero_poly_partial ha le_rfl _ h1 h2 h3 h4
    refine ⟨ev, co, (benchZeroPoly_eq (A := arkZero fa) (Ark.made_of_new ha).toWF.width ho).trans e1, e2, fun j hj => ?_⟩
    obtain ⟨y, e, -, h⟩ := e5 j hj
    exact ⟨y, e, h⟩
  · obtain ⟨ev, co, -, e1, e2, -, -, e5⟩ := C65_zero_poly_partial hz le_rfl _ h1 h2 h3 h4
    refine ⟨ev, co, (benchZeroPoly_eq (A := zkZero fz) (wf_of_new hz).width ho).trans e1, e2, fun j hj => ?_⟩
    obtain ⟨y, e, -, h⟩ := e5 j hj
    exact ⟨y, e, h⟩

/-! ### Examples -/

/-- Width 4: the draws 6 and 2 name the same position, so the benchmark needs a third one. -/
example : ∃ fs : FFTSettings Fr, benchRecover (blstRec fs) [0, 1] [6, 2] = .ok none ∧
    ∃ data, fs.fftFr [0, 1, 0, 0] false = .ok data ∧ benchRecover (blstRec fs) [0, 1] [6, 2, 3] = .ok (some data) := by
  obtain ⟨fs, hfs, -⟩ := C01_settings_new 2 (by norm_num)
  obtain ⟨_, _, h1⟩ := C201_recover_blst_partial (scale := 1) hfs (by norm_num) [0, 1] rfl [6, 2]
  obtain ⟨data, hd, h2⟩ := C201_recover_blst_partial (scale := 1) hfs (by norm_num) [0, 1] rfl [6, 2, 3]
  rw [if_neg (by decide)] at h1
  rw [if_pos (by decide)] at h2
  exact ⟨fs, h1, data, hd, h2⟩

end Kzg.Props
