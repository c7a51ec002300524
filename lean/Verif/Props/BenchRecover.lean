import Verif.Proofs.BenchRecover
import Verif.Props.Recovery
import Verif.Props.ZkRecover
import Verif.Props.MclRecover
import Verif.Props.ArkRecover
import Verif.Props.DAS
import Verif.Props.ZkDas
import Verif.Props.ArkPoly
/-!
# Properties C171–C172: the shared tests of recovery and of the extension pass for every input

kzg-bench runs `recover_simple` and `recover_random` with the coefficients `0, 1, 2, …` and a few random choices of missing positions, and
`das_extension_test_random` with random values. Here the coefficients, the order of the positions, the number of known values and the
values to extend are variables.
-/

set_option linter.unusedSectionVars false

namespace Kzg.Props
open Kzg Kzg.Res Kzg.Bench Polynomial

section
variable {F : Type} [Field F] [DecidableEq F]

/-- Settings with the roots of unity of their width have what the tests of recovery need, if recovery works on their full width. -/
theorem recBase_of {A : RecApi F} {fs : FFTSettings F} {scale : Nat} (hwf : fs.WF scale) (hw : A.maxWidth = fs.maxWidth)
    (hf : ∀ (l : List F) (inv : Bool), l.length = 2 ^ scale → A.fft l inv = fs.fft l inv)
    (hrec : ∀ (p : F[X]) (samples : List (Option F)), (p = 0 ∨ 2 * p.natDegree < 2 ^ scale) →
      Erasure (codeword (domainRoot fs scale scale) (2 ^ scale) p) samples → 1 ≤ erased samples → 2 * erased samples ≤ 2 ^ scale →
        A.recover samples = .ok (codeword (domainRoot fs scale scale) (2 ^ scale) p)) :
    RecBase A (domainRoot fs scale scale) scale := by
  have hom : domainRoot fs scale scale = fs.omega (2 ^ scale) := by
    rw [domainRoot, FFTSettings.omega, hwf.width, Nat.pow_div le_rfl (by omega)]
  have hfe : ∀ l : List F, l.length = 2 ^ scale →
      fs.fft l false = .ok (codeword (domainRoot fs scale scale) (2 ^ scale) (polyOf l)) := fun l hl => by
    rw [hwf.fft_eval le_rfl l hl, hom, codeword]
  refine ⟨by rw [hw, hwf.width], fun l hl => by rw [hf l _ hl, hfe l hl], fun l hl => ?_, hrec⟩
  rw [hf _ _ (by simp [codeword])]
  have := hwf.fft_roundtrip le_rfl l hl
  rwa [hfe l hl, bind_ok] at this

end

/-! ## C171: recovery -/

theorem blst_recBase {scale : Nat} {fs : FFTSettings Fr} (hfs : FFTSettings.new scale = .ok fs) (h16 : scale ≤ 16) :
    RecBase (blstRec fs) (domainRoot fs scale scale) scale :=
  recBase_of (wf_of_new hfs) rfl (fun _ _ _ => rfl) fun p samples hp hs h1 h2 =>
    C21_recovery_partial hfs le_rfl (Nat.pow_le_pow_right (n := 2) (by omega) h16) p hp samples hs h1 h2

theorem mcl_recBase [Mcl.Lib Fr] {scale : Nat} {fs : FFTSettings Fr} (hfs : MadeSettings fs scale) (h30 : scale ≤ 30) :
    RecBase (mclRec fs) (domainRoot fs scale scale) scale :=
  recBase_of hfs.wf rfl (fun _ _ hl => Mcl.fft_eq hfs.wf le_rfl hl _ fun _ => h30) fun p samples hp hs h1 h2 =>
    C104_recovery hfs le_rfl p hp samples hs h1 h2

theorem ark_recBase {scale : Nat} {fs : FFTSettings Fr} (hfs : Ark.settingsNew scale = .ok fs) :
    RecBase (arkRec fs) (domainRoot fs scale scale) scale :=
  recBase_of (Ark.made_of_new hfs).toWF rfl (fun l _ hl => Ark.fftFr_eq (Ark.made_of_new hfs) le_rfl l hl _)
    fun p samples hp hs h1 h2 => C120_recovery hfs le_rfl p hp samples hs h1 h2

theorem zk_recBase {scale : Nat} {fs : FFTSettings Zk.ScW} (hfs : FFTSettings.new scale = .ok fs) :
    RecBase (zkRec fs) (domainRoot fs scale scale) scale :=
  recBase_of (wf_of_new hfs) rfl (fun _ _ _ => rfl) fun p samples hp hs h1 h2 => C66_recovery hfs le_rfl p hp samples hs h1 h2

/-- C171 (blst-from-scratch, partial): the test passes for all coefficients of the lower half, every order of the positions and every
number of known values from half of the width to all but one. Missing: scales above 16, for which it is false (`C171_blst_large`). -/
theorem C171_blst_partial {scale : Nat} {fs : FFTSettings Fr} (hfs : FFTSettings.new (scale + 1) = .ok fs) (h16 : scale + 1 ≤ 16)
    (coeffs : List Fr) (hc : coeffs.length = 2 ^ scale) (order : List Nat) (ho : order.Perm (List.range (2 ^ (scale + 1))))
    (known : Nat) (h1 : 2 ^ scale ≤ known) (h2 : known < 2 ^ (scale + 1)) :
    recoverRandom (blstRec fs) coeffs order known = .ok () :=
  recoverRandom_ok (blst_recBase hfs h16) hc ho h1 h2

/-- C171 (refuted for large scales): with settings of a scale above 16 the test panics, whatever the input. -/
theorem C171_blst_large {scale : Nat} {fs : FFTSettings Fr} (hfs : FFTSettings.new (scale + 1) = .ok fs) (h16 : 16 < scale + 1)
    (coeffs : List Fr) (hc : coeffs.length = 2 ^ scale) (order : List Nat) (ho : order.Perm (List.range (2 ^ (scale + 1))))
    (known : Nat) (h2 : known ≤ 2 ^ (scale + 1)) :
    recoverRandom (blstRec fs) coeffs order known = .panic := by
  have hwf := wf_of_new hfs
  have hw : (blstRec fs).maxWidth = 2 * 2 ^ scale := by show fs.maxWidth = _; rw [hwf.width, pow_succ, mul_comm]
  have hw2 : (blstRec fs).maxWidth / 2 = 2 ^ scale := by omega
  have hpl : (coeffs ++ List.replicate (2 ^ scale) (0 : Fr)).length = 2 ^ (scale + 1) := by
    rw [List.length_append, List.length_replicate, hc, pow_succ, mul_two]
  obtain ⟨d, hd, hdl, -⟩ := hwf.fft_forward le_rfl _ hpl
  obtain ⟨samples, hs, he, -⟩ := randomMissing_ok hdl ho h2
  unfold recoverRandom recoverRun
  rw [hw2, hw, fill_ok hc, bind_ok, show (blstRec fs).fft _ false = _ from hd, unwrap, bind_ok, ← pow_succ']
  beta_reduce
  rw [hs, bind_ok, show (blstRec fs).recover samples = _ from (C21_large_domain_panics hfs h16).1 samples (by rw [he.1, hdl])]
  rfl

/-- C171 (mcl-kzg, partial): the test passes. Missing: the scale 31, for which it is false (`C171_mcl_31`). -/
theorem C171_mcl_partial [Mcl.Lib Fr] {scale : Nat} {fs : FFTSettings Fr} (hfs : MadeSettings fs (scale + 1)) (h30 : scale + 1 ≤ 30)
    (coeffs : List Fr) (hc : coeffs.length = 2 ^ scale) (order : List Nat) (ho : order.Perm (List.range (2 ^ (scale + 1))))
    (known : Nat) (h1 : 2 ^ scale ≤ known) (h2 : known < 2 ^ (scale + 1)) :
    recoverRandom (mclRec fs) coeffs order known = .ok () :=
  recoverRandom_ok (mcl_recBase hfs h30) hc ho h1 h2

theorem fr_two_ne : (2 : Fr) ≠ 0 := by decide +kernel

/-- C171 (refuted for the largest scale of mcl-kzg): recovery itself is right there, but the last part of the test, which transforms the
data back, panics for every nonzero polynomial, since the inverse transform of `2^31` values negates (C96). -/
theorem C171_mcl_31 [Mcl.Lib Fr] {fs : FFTSettings Fr} (hfs : MadeSettings fs 31)
    (coeffs : List Fr) (hc : coeffs.length = 2 ^ 30) (hne : ∃ c ∈ coeffs, c ≠ 0)
    (order : List Nat) (ho : order.Perm (List.range (2 ^ 31))) (known : Nat) (h1 : 2 ^ 30 ≤ known) (h2 : known < 2 ^ 31) :
    recoverRandom (mclRec fs) coeffs order known = .panic := by
  have key : ∀ k, k + 1 = 31 → coeffs.length = 2 ^ k → 2 ^ k ≤ known → recoverRandom (mclRec fs) coeffs order known = .panic := by
    intro k hk hc h1
    rw [← hk] at hfs ho h2
    have hwf := hfs.wf
    have hom : domainRoot fs (k + 1) (k + 1) = fs.omega (2 ^ (k + 1)) := (omega_of_wf hwf le_rfl).symm
    have hfe : ∀ l : List Fr, l.length = 2 ^ (k + 1) →
        fs.fft l false = .ok (codeword (domainRoot fs (k + 1) (k + 1)) (2 ^ (k + 1)) (polyOf l)) := fun l hl => by
      rw [hwf.fft_eval le_rfl l hl, hom, codeword]
    refine recoverRandom_negated (ω := domainRoot fs (k + 1) (k + 1)) (show fs.maxWidth = _ from hwf.width) (fun l hl => ?_) (fun l hl => ?_)
      (fun p samples hp hs h1 h2 => C104_recovery hfs le_rfl p hp samples hs h1 h2) fr_two_ne hc ho h1 h2 hne
    · exact (Mcl.fft_eq hwf le_rfl hl false (by simp)).trans (hfe l hl)
    · have e := hwf.fft_roundtrip le_rfl l hl
      rw [hfe l hl, bind_ok] at e
      have h31 := Mcl.fft_31 (hk ▸ hwf) (codeword (domainRoot fs (k + 1) (k + 1)) (2 ^ (k + 1)) (polyOf l))
        (by rw [codeword, List.length_map, List.length_range, hk])
      rw [e, bind_ok] at h31
      exact h31
  exact key 30 rfl hc h1

/-- C171 (Arkworks): the test passes. -/
theorem C171_ark {scale : Nat} {fs : FFTSettings Fr} (hfs : Ark.settingsNew (scale + 1) = .ok fs)
    (coeffs : List Fr) (hc : coeffs.length = 2 ^ scale) (order : List Nat) (ho : order.Perm (List.range (2 ^ (scale + 1))))
    (known : Nat) (h1 : 2 ^ scale ≤ known) (h2 : known < 2 ^ (scale + 1)) :
    recoverRandom (arkRec fs) coeffs order known = .ok () :=
  recoverRandom_ok (ark_recBase hfs) hc ho h1 h2

/-- C171 (zkcrypto): the test passes. -/
theorem C171_zk {scale : Nat} {fs : FFTSettings Zk.ScW} (hfs : FFTSettings.new (scale + 1) = .ok fs)
    (coeffs : List Zk.ScW) (hc : coeffs.length = 2 ^ scale) (order : List Nat) (ho : order.Perm (List.range (2 ^ (scale + 1))))
    (known : Nat) (h1 : 2 ^ scale ≤ known) (h2 : known < 2 ^ (scale + 1)) :
    recoverRandom (zkRec fs) coeffs order known = .ok () :=
  recoverRandom_ok (zk_recBase hfs) hc ho h1 h2

/-- C171 (`recover_simple`): four values, the two in the middle missing, for all pairs of coefficients. -/
theorem C171_simple [Mcl.Lib Fr] {fb fm fa : FFTSettings Fr} {fz : FFTSettings Zk.ScW} (hb : FFTSettings.new 2 = .ok fb)
    (hm : MadeSettings fm 2) (ha : Ark.settingsNew 2 = .ok fa) (hz : FFTSettings.new 2 = .ok fz) (c : List Fr) (hc : c.length = 2)
    (z : List Zk.ScW) (hz2 : z.length = 2) :
    recoverSimple (blstRec fb) c = .ok () ∧ recoverSimple (mclRec fm) c = .ok () ∧ recoverSimple (arkRec fa) c = .ok () ∧
      recoverSimple (zkRec fz) z = .ok () :=
  ⟨recoverSimple_ok (blst_recBase hb (by omega)) hc, recoverSimple_ok (mcl_recBase hm (by omega)) hc,
    recoverSimple_ok (ark_recBase ha) hc, recoverSimple_ok (zk_recBase hz) hz2⟩

/-- Example for C171: `recover_random` itself, with settings of scale 12, the coefficients `0, …, 2047` and the positions erased from
the back, all four rounds of a ratio of 0.65. -/
example (fs : FFTSettings Fr) (hfs : FFTSettings.new 12 = .ok fs) :
    recoverRandom (blstRec fs) ((List.range 2048).map fun i : Nat => (i : Fr)) (List.range 4096).reverse 2662 = .ok () :=
  C171_blst_partial (scale := 11) hfs (by omega) _ (by rw [List.length_map, List.length_range]; norm_num) _ (List.reverse_perm _) _ (by norm_num) (by norm_num)

example (fs : FFTSettings Zk.ScW) (hfs : FFTSettings.new 12 = .ok fs) :
    recoverRandom (zkRec fs) ((List.range 2048).map fun i : Nat => (i : Zk.ScW)) (List.range 4096).reverse 2662 = .ok () :=
  C171_zk (scale := 11) hfs _ (by rw [List.length_map, List.length_range]; norm_num) _ (List.reverse_perm _) _ (by norm_num) (by norm_num)

/-! ## C172: the extension -/

/-- C172 (blst-from-scratch): the test passes for every scale within the settings and all values. -/
theorem C172_blst {scale : Nat} {fs : FFTSettings Fr} (hfs : FFTSettings.new scale = .ok fs) {m : Nat} (hm : m + 1 ≤ scale)
    (evens : List Fr) (hl : evens.length = 2 ^ m) : dasRandom (blstRec fs) (m + 1) evens = .ok () := by
  obtain ⟨odds, p, ω, h1, h2, -, -, -, coeffs, h3, -, h4⟩ := C16_das_extension hfs hm evens hl
  exact dasRandom_ok (by show _ ≤ fs.maxWidth; rw [(wf_of_new hfs).width]; exact Nat.pow_le_pow_right (by omega) hm) hl h1 h2 h3 h4

/-- C172 (zkcrypto): the test passes for every scale within the settings and all values. -/
theorem C172_zk {scale : Nat} {fs : FFTSettings Zk.ScW} (hfs : FFTSettings.new scale = .ok fs) {m : Nat} (hm : m + 1 ≤ scale)
    (evens : List Zk.ScW) (hl : evens.length = 2 ^ m) : dasRandom (zkRec fs) (m + 1) evens = .ok () := by
  obtain ⟨odds, p, ω, h1, h2, -, -, -, coeffs, h3, -, h4⟩ := C93_das_extension hfs hm evens hl
  exact dasRandom_ok (by show _ ≤ fs.maxWidth; rw [(wf_of_new hfs).width]; exact Nat.pow_le_pow_right (by omega) hm) hl h1 h2 h3 h4

/-- C172 (Arkworks): the test passes for every scale within the settings and all values. -/
theorem C172_ark {scale : Nat} {fs : FFTSettings Fr} (hfs : Ark.settingsNew scale = .ok fs) {m : Nat} (hm : m + 1 ≤ scale)
    (evens : List Fr) (hl : evens.length = 2 ^ m) : dasRandom (arkRec fs) (m + 1) evens = .ok () := by
  obtain ⟨odds, p, ω, h1, h2, -, -, -, coeffs, h3, -, h4⟩ := C124_das_extension hfs hm evens hl
  exact dasRandom_ok (by
    show _ ≤ fs.maxWidth; rw [(Ark.made_of_new hfs).toWF.width]; exact Nat.pow_le_pow_right (by omega) hm) hl h1 h2 h3 h4

/-- C172 (mcl-kzg): the test passes for every scale within the settings and all values; at scale 31 the inverse transform gives the
negated coefficients (C96), which are zero as well. -/
theorem C172_mcl [Mcl.Lib Fr] {scale : Nat} {fs : FFTSettings Fr} (hfs : MadeSettings fs scale) {m : Nat} (hm : m + 1 ≤ scale)
    (evens : List Fr) (hl : evens.length = 2 ^ m) : dasRandom (mclRec fs) (m + 1) evens = .ok () := by
  have hwf := hfs.wf
  obtain ⟨odds, p, ω, h1, h2, -, -, -, coeffs, h3, -, h4⟩ := das_extension_of hwf hm evens hl
  rw [← Mcl.das_eq hwf hm hl] at h1
  have hw : 2 ^ (m + 1) ≤ (mclRec fs).maxWidth := by
    show _ ≤ fs.maxWidth; rw [hwf.width]; exact Nat.pow_le_pow_right (by omega) hm
  have hil : (interleave evens odds).length = 2 ^ (m + 1) := by
    rw [interleave_length _ _ (by omega), hl, pow_succ, mul_comm]
  by_cases h30 : m + 1 ≤ 30
  · refine dasRandom_ok hw hl (odds := odds) (by show Mcl.dasTrait fs evens = _; rw [Mcl.dasTrait, h1]; rfl) h2 (coeffs := coeffs) ?_ h4
    exact (Mcl.fft_eq hwf hm hil true fun _ => h30).trans h3
  · have hlt := hfs.1
    have e31 : m = 30 := by omega
    have es : scale = 31 := by omega
    subst e31 es
    refine dasRandom_ok hw hl (odds := odds) (by show Mcl.dasTrait fs evens = _; rw [Mcl.dasTrait, h1]; rfl) h2
      (coeffs := coeffs.map fun x => -x) ?_ fun i hi1 hi2 => by rw [List.getElem?_map, h4 i hi1 hi2]; simp
    show Mcl.fft fs _ true = _
    rw [Mcl.fft_31 hwf _ hil, show fs.fft (interleave evens odds) true = _ from h3, bind_ok]

/-- Example for C172: a round of the test at scale 15 with the values `7, 49, 343, …`. -/
example (fs : FFTSettings Fr) (hfs : FFTSettings.new 15 = .ok fs) :
    dasRandom (blstRec fs) 10 ((List.range 512).map fun i => (7 : Fr) ^ (i + 1)) = .ok () :=
  C172_blst hfs (m := 9) (by omega) _ (by rw [List.length_map, List.length_range]; norm_num)

end Kzg.Props
