import Verif.Proofs.BenchZero
import Verif.Props.BenchRecover
/-!
# Properties C177, C178: the shared tests of zero polynomials
-/

set_option linter.unusedSectionVars false

namespace Kzg.Props
open Kzg Kzg.Res Kzg.Bench Polynomial

section
variable {F : Type} [Field F] [DecidableEq F]

/-- The positions that a round of `zero_poly_random` takes out of `2^scale`. -/
def missingOf (scale : Nat) (bit : Nat → Bool) : List Nat := (List.range (2 ^ scale)).filter bit

theorem missingOf_lt {scale : Nat} {bit : Nat → Bool} : ∀ i ∈ missingOf scale bit, i < 2 ^ scale := fun i hi =>
  List.mem_range.1 (List.mem_filter.1 hi).1

theorem missingOf_length_le (scale : Nat) (bit : Nat → Bool) : (missingOf scale bit).length ≤ 2 ^ scale :=
  (List.length_filter_le _ _).trans_eq List.length_range

theorem zeroBase_of {A : ZeroApi F} {fs : FFTSettings F} {scale : Nat} {e : F} (hwf : fs.WF scale) (hw : A.maxWidth = fs.maxWidth)
    (hr : A.rootAt = fun i => rd fs.expandedRoots i)
    (he : ∀ p : List F, p.length ≠ 1 → ∀ x, A.eval p x = .ok ((polyOf p).eval x))
    (hf : ∀ l : List F, l.length = 2 ^ scale → A.fft l true = (fs.fft l true >>= fun r => .ok (r.map fun x => e * x))) :
    ZeroBase A (domainRoot fs scale scale) e scale := by
  have hom : domainRoot fs scale scale = fs.omega (2 ^ scale) := by
    rw [domainRoot, FFTSettings.omega, hwf.width, Nat.pow_div le_rfl (by omega)]
  have hroot : domainRoot fs scale scale = fs.rootOfUnity := by rw [domainRoot, Nat.sub_self, pow_zero, pow_one]
  have hfe : ∀ l : List F, l.length = 2 ^ scale →
      fs.fft l false = .ok (codeword (domainRoot fs scale scale) (2 ^ scale) (polyOf l)) := fun l hl => by
    rw [hwf.fft_eval le_rfl l hl, hom, codeword]
  refine ⟨by rw [hw, hwf.width], by rw [hroot]; exact hwf.prim, fun i hi => ?_, he, fun l hl => ?_⟩
  · rw [hr, hroot]; exact rd_of_getElem? (hwf.exp i hi.le)
  · have := hwf.fft_roundtrip le_rfl l hl
    rw [hfe l hl, bind_ok] at this
    rw [hf _ (by rw [codeword, List.length_map, List.length_range]), this, bind_ok]

theorem map_one_mul (m : Res (List F)) : (m >>= fun r => .ok (r.map fun x => 1 * x)) = m := by
  cases m with
  | ok r => rw [bind_ok]; simp
  | err e => rfl
  | panic => rfl

/-- The cases of a round, for a backend that reports an error or panics for dense sets. -/
theorem zeroRandom_cases {A : ZeroApi F} {ω : F} {scale : Nat} (h : ZeroBase A ω 1 scale) (bit : Nat → Bool)
    (hok : missingOf scale bit ≠ [] → (missingOf scale bit).length < 2 ^ scale →
      (missingOf scale bit).length ≤ 63 * (2 ^ scale / 64 + 1) → ZeroResult A ω scale (missingOf scale bit))
    (hbad : (missingOf scale bit).length < 2 ^ scale → 63 * (2 ^ scale / 64 + 1) < (missingOf scale bit).length →
      (A.zero (2 ^ scale) (missingOf scale bit)).unwrap = .panic) :
    (missingOf scale bit ≠ [] → (missingOf scale bit).length ≤ 63 * (2 ^ scale / 64 + 1) → zeroRandom A bit = .ok ()) ∧
    ((missingOf scale bit).length = 2 ^ scale → zeroRandom A bit = .ok ()) ∧
    ((missingOf scale bit).length < 2 ^ scale → 63 * (2 ^ scale / 64 + 1) < (missingOf scale bit).length → zeroRandom A bit = .panic) ∧
    (missingOf scale bit = [] → zeroRandom A bit = zeroCheck A []) := by
  rw [zeroRandom_eq h.width]
  change (_ → _ → (if (missingOf scale bit).length = 2 ^ scale then _ else zeroCheck A (missingOf scale bit)) = _) ∧
    (_ → (if (missingOf scale bit).length = 2 ^ scale then _ else zeroCheck A (missingOf scale bit)) = _) ∧
    (_ → _ → (if (missingOf scale bit).length = 2 ^ scale then _ else zeroCheck A (missingOf scale bit)) = _) ∧
    (_ → (if (missingOf scale bit).length = 2 ^ scale then _ else zeroCheck A (missingOf scale bit)) = _)
  have hle := missingOf_length_le scale bit
  refine ⟨fun hne hs => ?_, fun hf => if_pos hf, fun hlt hd => ?_, fun hn => ?_⟩
  · by_cases hf : (missingOf scale bit).length = 2 ^ scale
    · exact if_pos hf
    · rw [if_neg hf]
      refine zeroCheck_ok h ?_ missingOf_lt (hok hne (by omega) hs)
      by_contra h0
      have : scale = 0 := by omega
      subst this
      have := List.length_pos_iff.2 hne
      simp only [pow_zero] at hle hf
      omega
  · rw [if_neg (by omega)]
    unfold zeroCheck
    rw [h.width, hbad hlt hd]; rfl
  · have : (missingOf scale bit).length ≠ 2 ^ scale := by rw [hn]; exact (Nat.two_pow_pos scale).ne
    rw [if_neg this, hn]

end

/-! ## C177 -/

theorem blst_zeroBase {scale : Nat} {fs : FFTSettings Fr} (hfs : FFTSettings.new scale = .ok fs) :
    ZeroBase (blstZero fs) (domainRoot fs scale scale) 1 scale :=
  zeroBase_of (wf_of_new hfs) rfl rfl (fun p hp x => polyEval_spec p x (Or.inl hp)) fun _ _ => (map_one_mul _).symm

theorem ark_zeroBase {scale : Nat} {fs : FFTSettings Fr} (hfs : Ark.settingsNew scale = .ok fs) :
    ZeroBase (arkZero fs) (domainRoot fs scale scale) 1 scale :=
  zeroBase_of (Ark.made_of_new hfs).toWF rfl rfl (fun p _ x => by
    show Res.ok (Ark.polyEval p x) = _
    rw [Ark.polyEval_eq]) fun l hl => (Ark.fftFr_eq (Ark.made_of_new hfs) le_rfl l hl _).trans (map_one_mul _).symm

theorem zk_zeroBase {scale : Nat} {fs : FFTSettings Zk.ScW} (hfs : FFTSettings.new scale = .ok fs) :
    ZeroBase (zkZero fs) (domainRoot fs scale scale) 1 scale :=
  zeroBase_of (wf_of_new hfs) rfl rfl (fun p hp x => polyEval_spec p x (Or.inl hp)) fun _ _ => (map_one_mul _).symm

theorem mcl_zeroBase [Mcl.Lib Fr] {scale : Nat} {fs : FFTSettings Fr} (hfs : MadeSettings fs scale) :
    ZeroBase (mclZero fs) (domainRoot fs scale scale) (if scale ≤ 30 then 1 else -1) scale := by
  refine zeroBase_of hfs.wf rfl rfl (fun p _ x => ?_) fun l hl => ?_
  · show Res.ok (Mcl.evalAt p x) = _
    rw [Mcl.evalAt_eq]
  · by_cases h30 : scale ≤ 30
    · rw [if_pos h30, map_one_mul]
      exact Mcl.fft_eq hfs.wf le_rfl hl _ fun _ => h30
    · have h31 : scale = 31 := by have := hfs.1; omega
      have := Mcl.fft_31 (h31 ▸ hfs.wf) l (by rw [hl, h31])
      rw [if_neg h30]
      simp only [neg_one_mul]
      exact this

theorem linProd_ne_zero {F : Type} [Field F] {l : List Nat} {ω : F} : (l.map fun i => X - C (ω ^ i)).prod ≠ 0 :=
  (linProd_monic (fun i => ω ^ i) l).ne_zero

theorem zeroCheck_none {F : Type} [Field F] [DecidableEq F] {A : ZeroApi F} (h1 : A.zero A.maxWidth [] = .ok ([], []))
    (h2 : (A.fft [] true).unwrap = .panic) : zeroCheck A [] = .panic := by
  unfold zeroCheck
  rw [h1, unwrap, bind_ok]
  dsimp only
  rw [each_ok (fun i hi => absurd hi (by simp)), bind_ok, h2]; rfl

/-- C177 (blst-from-scratch, exactly): a round of `zero_poly_random` passes if it skips (everything missing) or if at least one and at most
`63·(D/64 + 1)` positions are missing, and panics otherwise: for denser sets, and if nothing is missing. -/
theorem C177_blst_exact {scale : Nat} {fs : FFTSettings Fr} (hfs : FFTSettings.new scale = .ok fs) (bit : Nat → Bool) :
    zeroRandom (blstZero fs) bit = if (missingOf scale bit).length = 2 ^ scale ∨ (missingOf scale bit ≠ [] ∧
      (missingOf scale bit).length ≤ 63 * (2 ^ scale / 64 + 1)) then .ok () else .panic := by
  obtain ⟨h1, h2, h3, h4⟩ := zeroRandom_cases (blst_zeroBase hfs) bit (fun hne hlt hs => by
    obtain ⟨ω, ev, co, -, e0, e1, e2, e3, e4, e5⟩ := C20_zero_poly_partial hfs le_rfl _ missingOf_lt hne hlt hs
    rw [e0] at e4 e5
    exact ⟨ev, co, e1, e2, e3, by rw [e4]; exact linProd_ne_zero, e5⟩) (fun hlt hd => by
    obtain ⟨msg, e⟩ := C20_dense_error hfs le_rfl _ missingOf_lt hlt hd
    show (fs.zeroPolyViaMultiplication _ _).unwrap = _
    rw [e]; rfl)
  have hle := missingOf_length_le scale bit
  split
  · next h =>
    rcases h with h | ⟨ha, hb⟩
    · exact h2 h
    · exact h1 ha hb
  · next h =>
    push Not at h
    by_cases hn : missingOf scale bit = []
    · rw [h4 hn]
      refine zeroCheck_none rfl ?_
      show (fs.fftFr [] true).unwrap = _
      rw [FFTSettings.fftFr, FFTSettings.fft, if_neg (by simp), if_pos (by decide)]; rfl
    · exact h3 (by omega) (h.2 hn)

/-- C177 (zkcrypto, exactly): as for blst-from-scratch. -/
theorem C177_zk_exact {scale : Nat} {fs : FFTSettings Zk.ScW} (hfs : FFTSettings.new scale = .ok fs) (bit : Nat → Bool) :
    zeroRandom (zkZero fs) bit = if (missingOf scale bit).length = 2 ^ scale ∨ (missingOf scale bit ≠ [] ∧
      (missingOf scale bit).length ≤ 63 * (2 ^ scale / 64 + 1)) then .ok () else .panic := by
  obtain ⟨h1, h2, h3, h4⟩ := zeroRandom_cases (zk_zeroBase hfs) bit (fun hne hlt hs => by
    obtain ⟨ev, co, -, e1, e2, e3, e4, e5⟩ := C65_zero_poly_partial hfs le_rfl _ missingOf_lt hne hlt hs
    exact ⟨ev, co, e1, e2, e3, by rw [e4]; exact linProd_ne_zero, e5⟩) (fun hlt hd => by
    obtain ⟨msg, e⟩ := C65_dense_error hfs le_rfl _ missingOf_lt hlt hd
    show (ZkP.zeroPolyViaMultiplication fs _ _).unwrap = _
    rw [e]; rfl)
  have hle := missingOf_length_le scale bit
  split
  · next h =>
    rcases h with h | ⟨ha, hb⟩
    · exact h2 h
    · exact h1 ha hb
  · next h =>
    push Not at h
    by_cases hn : missingOf scale bit = []
    · rw [h4 hn]
      refine zeroCheck_none rfl ?_
      show (fs.fftFr [] true).unwrap = _
      rw [FFTSettings.fftFr, FFTSettings.fft, if_neg (by simp), if_pos (by decide)]; rfl
    · exact h3 (by omega) (h.2 hn)

/-- C177 (Arkworks, exactly): as for blst-from-scratch. -/
theorem C177_ark_exact {scale : Nat} {fs : FFTSettings Fr} (hfs : Ark.settingsNew scale = .ok fs) (bit : Nat → Bool) :
    zeroRandom (arkZero fs) bit = if (missingOf scale bit).length = 2 ^ scale ∨ (missingOf scale bit ≠ [] ∧
      (missingOf scale bit).length ≤ 63 * (2 ^ scale / 64 + 1)) then .ok () else .panic := by
  obtain ⟨h1, h2, h3, h4⟩ := zeroRandom_cases (ark_zeroBase hfs) bit (fun hne hlt hs => by
    obtain ⟨ev, co, -, e1, e2, e3, e4, e5⟩ := C119_zero_poly_partial hfs le_rfl _ missingOf_lt hne hlt hs
    exact ⟨ev, co, e1, e2, e3, by rw [e4]; exact linProd_ne_zero, e5⟩) (fun hlt hd => by
    obtain ⟨msg, e⟩ := C119_dense_error hfs le_rfl _ missingOf_lt hlt hd
    show (Ark.zeroPolyViaMultiplication fs _ _).unwrap = _
    rw [e]; rfl)
  have hle := missingOf_length_le scale bit
  split
  · next h =>
    rcases h with h | ⟨ha, hb⟩
    · exact h2 h
    · exact h1 ha hb
  · next h =>
    push Not at h
    by_cases hn : missingOf scale bit = []
    · rw [h4 hn]
      refine zeroCheck_none rfl ?_
      show (Ark.fftFr fs [] true).unwrap = _
      rw [Ark.fftFr, if_neg (by simp), if_pos (by decide)]; rfl
    · exact h3 (by omega) (h.2 hn)

/-- C177 (mcl-kzg, exactly, up to `2^30` positions): here a round passes if nothing is missing, since the polynomial is the zero
polynomial then. -/
theorem C177_mcl_exact [Mcl.Lib Fr] {scale : Nat} {fs : FFTSettings Fr} (hfs : MadeSettings fs scale) (h30 : scale ≤ 30)
    (bit : Nat → Bool) :
    zeroRandom (mclZero fs) bit = if (missingOf scale bit).length = 2 ^ scale ∨ 
      (missingOf scale bit).length ≤ 63 * (2 ^ scale / 64 + 1) then .ok () else .panic := by
  have hB := mcl_zeroBase hfs
  rw [if_pos h30] at hB
  obtain ⟨h1, h2, h3, h4⟩ := zeroRandom_cases hB bit (fun hne hlt hs => by
    obtain ⟨ev, co, -, e1, e2, e3, e4, e5⟩ := C103_zero_poly_partial hfs le_rfl _ (Or.inl h30) missingOf_lt hne hlt hs
    exact ⟨ev, co, e1, e2, e3, by rw [e4]; exact linProd_ne_zero, e5⟩) (fun hlt hd => by
    show (Mcl.zeroPolyViaMultiplication fs _ _).unwrap = _
    rw [C103_dense_panics hfs le_rfl _ missingOf_lt hlt hd]; rfl)
  have hle := missingOf_length_le scale bit
  by_cases hn : missingOf scale bit = []
  · rw [h4 hn, if_pos (Or.inr (by rw [hn]; simp))]
    unfold zeroCheck
    have e1 : (mclZero fs).zero (mclZero fs).maxWidth [] = .ok (List.replicate fs.maxWidth 0, List.replicate fs.maxWidth 0) :=
      (C103_zero_poly_edges hfs fs.maxWidth []).1
    have hrep : codeword (domainRoot fs scale scale) (2 ^ scale) (polyOf (List.replicate (2 ^ scale) (0 : Fr))) =
        List.replicate (2 ^ scale) 0 := by
      rw [polyOf_replicate_zero, codeword]
      simp
    have e2 := hB.back (List.replicate (2 ^ scale) 0) (by simp)
    rw [hrep] at e2
    rw [e1, unwrap, bind_ok]
    dsimp only
    rw [each_ok (fun i hi => absurd hi (by simp)), bind_ok, hfs.wf.width, e2, unwrap, bind_ok, List.map_replicate, mul_zero,
      List.length_replicate, each_ok (fun i hi => ?_), bind_ok]
    · exact eachFrom_ok (by rw [hB.width]) fun i h1 h2 => absurd h2 (by rw [hB.width]; omega)
    · have : (List.replicate (2 ^ scale) (0 : Fr))[i]? = some 0 := by rw [List.getElem?_replicate, if_pos hi]
      rw [rd_of_getElem? this, bind_ok, bind_ok]
      exact assertT_true (beq_self_eq_true _)
  · split
    · next h =>
      rcases h with h | h
      · exact h2 h
      · exact h1 hn h
    · next h =>
      push Not at h
      exact h3 (by omega) h.2

theorem mclZero_panics [Mcl.Lib Fr] {k : Nat} {fs : FFTSettings Fr} (hfs : MadeSettings fs k) (hk : 30 < k) (bit : Nat → Bool)
    (hne : missingOf k bit ≠ []) (hlt : (missingOf k bit).length < 2 ^ k) : zeroRandom (mclZero fs) bit = .panic := by
  have hB := mcl_zeroBase hfs
  rw [if_neg (by omega)] at hB
  rw [zeroRandom_eq hB.width]
  change (if (missingOf k bit).length = 2 ^ k then _ else zeroCheck _ (missingOf k bit)) = _
  rw [if_neg (by omega)]
  by_cases hs : (missingOf k bit).length ≤ 63 * (2 ^ k / 64 + 1)
  · refine zeroCheck_negated hB (by omega) fr_two_ne missingOf_lt ?_
    obtain ⟨ev, co, e, -, he, e1, e2, e3, e4, e5⟩ := C103_zero_poly_signed hfs le_rfl _ missingOf_lt hne hlt hs
    refine ⟨ev, co, e1, e2, e3, ?_, e5⟩
    rw [e4]
    refine mul_ne_zero (C_ne_zero.2 ?_) linProd_ne_zero
    rw [he]
    split
    · exact neg_ne_zero.2 one_ne_zero
    · exact one_ne_zero
  · unfold zeroCheck
    have : (mclZero fs).zero (2 ^ k) (missingOf k bit) = .panic := C103_dense_panics hfs le_rfl _ missingOf_lt hlt (by omega)
    rw [hB.width, this]; rfl

/-- C177 (refuted for the largest scale of mcl-kzg): every round panics in which something is missing, but not everything. -/
theorem C177_mcl_31 [Mcl.Lib Fr] {fs : FFTSettings Fr} (hfs : MadeSettings fs 31) (bit : Nat → Bool)
    (hne : missingOf 31 bit ≠ []) (hlt : (missingOf 31 bit).length < 2 ^ 31) : zeroRandom (mclZero fs) bit = .panic :=
  mclZero_panics hfs (by norm_num) bit hne hlt

/-- C177 (partial): in all four backends a round of `zero_poly_random` passes if at least one and at most half of the positions are
missing, whichever they are; in mcl-kzg up to `2^30` positions. Missing: no position (`C177_nothing_missing`), dense sets
(`C177_all_but_one`), and `2^31` positions in mcl-kzg (`C177_mcl_31`). -/
theorem C177_passes_partial [Mcl.Lib Fr] {scale : Nat} {fb fm fa : FFTSettings Fr} {fz : FFTSettings Zk.ScW}
    (hb : FFTSettings.new scale = .ok fb) (hm : MadeSettings fm scale) (ha : Ark.settingsNew scale = .ok fa)
    (hz : FFTSettings.new scale = .ok fz) (bit : Nat → Bool) (h1 : missingOf scale bit ≠ [])
    (h2 : 2 * (missingOf scale bit).length ≤ 2 ^ scale) :
    zeroRandom (blstZero fb) bit = .ok () ∧ (scale ≤ 30 → zeroRandom (mclZero fm) bit = .ok ()) ∧
      zeroRandom (arkZero fa) bit = .ok () ∧ zeroRandom (zkZero fz) bit = .ok () := by
  have h3 : (missingOf scale bit).length ≤ 63 * (2 ^ scale / 64 + 1) := by omega
  refine ⟨?_, fun h30 => ?_, ?_, ?_⟩
  · rw [C177_blst_exact hb, if_pos (Or.inr ⟨h1, h3⟩)]
  · rw [C177_mcl_exact hm h30, if_pos (Or.inr h3)]
  · rw [C177_ark_exact ha, if_pos (Or.inr ⟨h1, h3⟩)]
  · rw [C177_zk_exact hz, if_pos (Or.inr ⟨h1, h3⟩)]

/-- C177 (refuted): if the random numbers of a round are all even, so that nothing is missing, the test panics in three backends. With eight
positions, the smallest number in the test, this is one round of 256. -/
theorem C177_nothing_missing {scale : Nat} {fb fa : FFTSettings Fr} {fz : FFTSettings Zk.ScW}
    (hb : FFTSettings.new scale = .ok fb) (ha : Ark.settingsNew scale = .ok fa) (hz : FFTSettings.new scale = .ok fz) :
    zeroRandom (blstZero fb) (fun _ => false) = .panic ∧ zeroRandom (arkZero fa) (fun _ => false) = .panic ∧
      zeroRandom (zkZero fz) (fun _ => false) = .panic := by
  have h0 : missingOf scale (fun _ => false) = [] := by simp [missingOf]
  have : ¬ ((missingOf scale fun _ => false).length = 2 ^ scale ∨ (missingOf scale (fun _ => false) ≠ [] ∧
      (missingOf scale fun _ => false).length ≤ 63 * (2 ^ scale / 64 + 1))) := by
    rw [h0]
    rintro (h | ⟨h, -⟩)
    · exact (Nat.two_pow_pos scale).ne h
    · exact h rfl
  exact ⟨by rw [C177_blst_exact hb, if_neg this], by rw [C177_ark_exact ha, if_neg this], by rw [C177_zk_exact hz, if_neg this]⟩

/-- C177 (all but one, exactly): `zero_poly_all_but_one` runs with 256 positions; it passes for 2 to 4096 positions and panics from 8192
on, in all four backends (in mcl-kzg at `2^31` as well). -/
theorem C177_all_but_one [Mcl.Lib Fr] {scale : Nat} {fb fm fa : FFTSettings Fr} {fz : FFTSettings Zk.ScW}
    (hb : FFTSettings.new scale = .ok fb) (hm : MadeSettings fm scale) (ha : Ark.settingsNew scale = .ok fa)
    (hz : FFTSettings.new scale = .ok fz) (h1 : 1 ≤ scale) :
    let r : Res Unit := if scale ≤ 12 then .ok () else .panic
    zeroAllButOne (blstZero fb) = r ∧ zeroAllButOne (mclZero fm) = r ∧ zeroAllButOne (arkZero fa) = r ∧
      zeroAllButOne (zkZero fz) = r := by
  have hmiss : ∀ i ∈ (List.range (2 ^ scale - 1)).map (· + 1), i < 2 ^ scale := by
    intro i hi
    obtain ⟨j, hj, rfl⟩ := List.mem_map.1 hi
    have := List.mem_range.1 hj
    omega
  have hp2 : 2 ≤ 2 ^ scale := by
    calc 2 = 2 ^ 1 := rfl
      _ ≤ 2 ^ scale := Nat.pow_le_pow_right (by norm_num) h1
  have hl : ((List.range (2 ^ scale - 1)).map (· + 1)).length = 2 ^ scale - 1 := by simp
  have hne : (List.range (2 ^ scale - 1)).map (· + 1) ≠ [] := by rw [← List.length_pos_iff, hl]; omega
  rw [zeroAllButOne_eq (blst_zeroBase hb).width, zeroAllButOne_eq (mcl_zeroBase hm).width, zeroAllButOne_eq (ark_zeroBase ha).width,
    zeroAllButOne_eq (zk_zeroBase hz).width]
  generalize (List.range (2 ^ scale - 1)).map (· + 1) = missing at hmiss hl hne
  intro r
  by_cases h12 : scale ≤ 12
  · have hs : missing.length ≤ 63 * (2 ^ scale / 64 + 1) := C20_safe_up_to_4096 h12 _ (by omega)
    have hr : r = .ok () := if_pos h12
    rw [hr]
    refine ⟨zeroCheck_ok (blst_zeroBase hb) h1 hmiss ?_, ?_, zeroCheck_ok (ark_zeroBase ha) h1 hmiss ?_,
      zeroCheck_ok (zk_zeroBase hz) h1 hmiss ?_⟩
    · obtain ⟨ω, ev, co, -, e0, e1, e2, e3, e4, e5⟩ := C20_zero_poly_partial hb le_rfl missing hmiss hne (by omega) hs
      rw [e0] at e4 e5
      exact ⟨ev, co, e1, e2, e3, by rw [e4]; exact linProd_ne_zero, e5⟩
    · have hB := mcl_zeroBase hm
      rw [if_pos (by omega)] at hB
      obtain ⟨ev, co, -, e1, e2, e3, e4, e5⟩ := C103_zero_poly_partial hm le_rfl missing (Or.inl (by omega)) hmiss hne (by omega) hs
      exact zeroCheck_ok hB h1 hmiss ⟨ev, co, e1, e2, e3, by rw [e4]; exact linProd_ne_zero, e5⟩
    · obtain ⟨ev, co, -, e1, e2, e3, e4, e5⟩ := C119_zero_poly_partial ha le_rfl missing hmiss hne (by omega) hs
      exact ⟨ev, co, e1, e2, e3, by rw [e4]; exact linProd_ne_zero, e5⟩
    · obtain ⟨ev, co, -, e1, e2, e3, e4, e5⟩ := C65_zero_poly_partial hz le_rfl missing hmiss hne (by omega) hs
      exact ⟨ev, co, e1, e2, e3, by rw [e4]; exact linProd_ne_zero, e5⟩
  · have hr : r = .panic := if_neg h12
    have h13 : 2 ^ 13 ≤ 2 ^ scale := Nat.pow_le_pow_right (by norm_num) (by omega)
    have hd : 63 * (2 ^ scale / 64 + 1) < missing.length := by omega
    rw [hr]
    obtain ⟨m1, e1⟩ := C20_dense_error hb le_rfl missing hmiss (by omega) hd
    have e2 := C103_dense_panics hm le_rfl missing hmiss (by omega) hd
    obtain ⟨m3, e3⟩ := C119_dense_error ha le_rfl missing hmiss (by omega) hd
    obtain ⟨m4, e4⟩ := C65_dense_error hz le_rfl missing hmiss (by omega) hd
    have key : ∀ {F : Type} [Field F] [DecidableEq F] {A : ZeroApi F} (hw : A.maxWidth = 2 ^ scale)
        (h : (A.zero (2 ^ scale) missing).unwrap = .panic), zeroCheck A missing = .panic := by
      intro F _ _ A hw h
      unfold zeroCheck
      rw [hw, h]; rfl
    refine ⟨key (blst_zeroBase hb).width ?_, key (mcl_zeroBase hm).width ?_, key (ark_zeroBase ha).width ?_, key (zk_zeroBase hz).width ?_⟩
    · show (fb.zeroPolyViaMultiplication _ _).unwrap = _
      rw [e1]; rfl
    · show (Mcl.zeroPolyViaMultiplication fm _ _).unwrap = _
      rw [e2]; rfl
    · show (Ark.zeroPolyViaMultiplication fa _ _).unwrap = _
      rw [e3]; rfl
    · show (ZkP.zeroPolyViaMultiplication fz _ _).unwrap = _
      rw [e4]; rfl

/-- C177 (252 of 256): `zero_poly_252` passes in all four backends; it does with wider settings as well, up to `2^30` in mcl-kzg. -/
theorem C177_252 [Mcl.Lib Fr] {scale : Nat} {fb fm fa : FFTSettings Fr} {fz : FFTSettings Zk.ScW}
    (hb : FFTSettings.new scale = .ok fb) (hm : MadeSettings fm scale) (ha : Ark.settingsNew scale = .ok fa)
    (hz : FFTSettings.new scale = .ok fz) (h8 : 8 ≤ scale) :
    zero252 (blstZero fb) = .ok () ∧ (scale ≤ 30 → zero252 (mclZero fm) = .ok ()) ∧ zero252 (arkZero fa) = .ok () ∧
      zero252 (zkZero fz) = .ok () := by
  have h256 : 2 ^ 8 ≤ 2 ^ scale := Nat.pow_le_pow_right (by norm_num) h8
  have hl : (List.range 252).length = 252 := List.length_range
  have hmiss : ∀ i ∈ List.range 252, i < 2 ^ scale := fun i hi => by
    have := List.mem_range.1 hi
    omega
  have hne : List.range 252 ≠ [] := by rw [← List.length_pos_iff, hl]; norm_num
  rw [zero252_eq, zero252_eq, zero252_eq, zero252_eq]
  generalize List.range 252 = missing at hl hmiss hne
  have hs : missing.length ≤ 63 * (2 ^ scale / 64 + 1) := by omega
  refine ⟨zeroCheck_ok (blst_zeroBase hb) (by omega) hmiss ?_, fun h30 => ?_, zeroCheck_ok (ark_zeroBase ha) (by omega) hmiss ?_,
    zeroCheck_ok (zk_zeroBase hz) (by omega) hmiss ?_⟩
  · obtain ⟨ω, ev, co, -, e0, e1, e2, e3, e4, e5⟩ := C20_zero_poly_partial hb le_rfl missing hmiss hne (by omega) hs
    rw [e0] at e4 e5
    exact ⟨ev, co, e1, e2, e3, by rw [e4]; exact linProd_ne_zero, e5⟩
  · have hB := mcl_zeroBase hm
    rw [if_pos h30] at hB
    obtain ⟨ev, co, -, e1, e2, e3, e4, e5⟩ := C103_zero_poly_partial hm le_rfl missing (Or.inl h30) hmiss hne (by omega) hs
    exact zeroCheck_ok hB (by omega) hmiss ⟨ev, co, e1, e2, e3, by rw [e4]; exact linProd_ne_zero, e5⟩
  · obtain ⟨ev, co, -, e1, e2, e3, e4, e5⟩ := C119_zero_poly_partial ha le_rfl missing hmiss hne (by omega) hs
    exact ⟨ev, co, e1, e2, e3, by rw [e4]; exact linProd_ne_zero, e5⟩
  · obtain ⟨ev, co, -, e1, e2, e3, e4, e5⟩ := C65_zero_poly_partial hz le_rfl missing hmiss hne (by omega) hs
    exact ⟨ev, co, e1, e2, e3, by rw [e4]; exact linProd_ne_zero, e5⟩

/-- Example for C177: `zero_poly_random` of scale 3 with the odd positions missing passes everywhere, and with nothing missing it panics. -/
example [Mcl.Lib Fr] {fb fm fa : FFTSettings Fr} {fz : FFTSettings Zk.ScW} (hb : FFTSettings.new 3 = .ok fb)
    (hm : MadeSettings fm 3) (ha : Ark.settingsNew 3 = .ok fa) (hz : FFTSettings.new 3 = .ok fz) :
    (zeroRandom (blstZero fb) (fun i => i % 2 == 1) = .ok () ∧ zeroRandom (mclZero fm) (fun i => i % 2 == 1) = .ok () ∧
      zeroRandom (arkZero fa) (fun i => i % 2 == 1) = .ok () ∧ zeroRandom (zkZero fz) (fun i => i % 2 == 1) = .ok ()) ∧
      zeroRandom (blstZero fb) (fun _ => false) = .panic := by
  have he : missingOf 3 (fun i => i % 2 == 1) = [1, 3, 5, 7] := by decide
  obtain ⟨a, b, c, d⟩ := C177_passes_partial hb hm ha hz (fun i => i % 2 == 1) (by rw [he]; simp) (by rw [he]; simp)
  exact ⟨⟨a, b (by norm_num), c, d⟩, (C177_nothing_missing hb ha hz).1⟩

/-! ## C178 -/

theorem blst_partBase {scale : Nat} {fs : FFTSettings Fr} (hfs : FFTSettings.new scale = .ok fs) :
    PartBase (blstZero fs) fs.rootOfUnity scale := by
  refine ⟨(wf_of_new hfs).width, fun idxs hne hi => ?_, fun ps hne hp hfit => C19_reduce hfs le_rfl ps hne hp hfit⟩
  obtain ⟨out, h1, h2, h3, -⟩ := C18_product hfs idxs 1 hne fun i h => by have := hi i h; omega
  exact ⟨out, h1, h2, by rw [h3, linProd]; simp only [mul_one]⟩

theorem mcl_partBase [Mcl.Lib Fr] {scale : Nat} {fs : FFTSettings Fr} (hfs : MadeSettings fs scale) (h30 : scale ≤ 30) :
    PartBase (mclZero fs) fs.rootOfUnity scale := by
  refine ⟨hfs.wf.width, fun idxs hne hi => ?_, fun ps hne hp hfit => C103_reduce hfs le_rfl h30 ps hne hp hfit⟩
  obtain ⟨out, h1, h2, h3, -⟩ := (C103_product hfs idxs 1).1 hne fun i h => by have := hi i h; omega
  exact ⟨out, h1, h2, by rw [h3, linProd]; simp only [mul_one]⟩

theorem ark_partBase {scale : Nat} {fs : FFTSettings Fr} (hfs : Ark.settingsNew scale = .ok fs) :
    PartBase (arkZero fs) fs.rootOfUnity scale := by
  refine ⟨(Ark.made_of_new hfs).toWF.width, fun idxs hne hi => ?_, fun ps hne hp hfit => C119_reduce hfs le_rfl ps hne hp hfit⟩
  obtain ⟨out, h1, h2, h3, -⟩ := (C119_product hfs idxs 1).1 hne fun i h => by have := hi i h; omega
  exact ⟨out, h1, h2, by rw [h3, linProd]; simp only [mul_one]⟩

theorem zk_partBase {scale : Nat} {fs : FFTSettings Zk.ScW} (hfs : FFTSettings.new scale = .ok fs) :
    PartBase (zkZero fs) fs.rootOfUnity scale := by
  refine ⟨(wf_of_new hfs).width, fun idxs hne hi => ?_, fun ps hne hp hfit => (C65_reduce hfs ps hne hp).1 scale le_rfl hfit⟩
  obtain ⟨out, h1, h2, h3, -⟩ := (C65_product hfs idxs 1).1 hne fun i h => by have := hi i h; omega
  exact ⟨out, h1, h2, by rw [h3, linProd]; simp only [mul_one]⟩

/-- C178 (partial): for every order of the positions and every number of missing ones from one to all but one, `reduce_partials_random`
runs to its end, and it would if it asserted what it compares (`insist`); in mcl-kzg for scales up to 30. -/
theorem C178_passes_partial [Mcl.Lib Fr] {scale : Nat} {fb fm fa : FFTSettings Fr} {fz : FFTSettings Zk.ScW}
    (hb : FFTSettings.new scale = .ok fb) (hm : MadeSettings fm scale) (ha : Ark.settingsNew scale = .ok fa)
    (hz : FFTSettings.new scale = .ok fz) (order : List Nat) (ho : order.Perm (List.range (2 ^ scale))) (count : Nat)
    (h1 : 1 ≤ count) (h2 : count < 2 ^ scale) :
    (reduceRandom (blstZero fb) insist order count = .ok () ∧ reduceRandom (blstZero fb) discard order count = .ok ()) ∧
    (scale ≤ 30 → reduceRandom (mclZero fm) insist order count = .ok () ∧ reduceRandom (mclZero fm) discard order count = .ok ()) ∧
    (reduceRandom (arkZero fa) insist order count = .ok () ∧ reduceRandom (arkZero fa) discard order count = .ok ()) ∧
    (reduceRandom (zkZero fz) insist order count = .ok () ∧ reduceRandom (zkZero fz) discard order count = .ok ()) := by
  have hlt : ∀ i ∈ order, i < 2 ^ scale := fun i hi => List.mem_range.1 (ho.mem_iff.1 hi)
  have hl : count ≤ order.length := by rw [ho.length_eq, List.length_range]; omega
  exact ⟨reduceRandom_ok (blst_partBase hb) hlt hl h1 h2, fun h30 => reduceRandom_ok (mcl_partBase hm h30) hlt hl h1 h2,
    reduceRandom_ok (ark_partBase ha) hlt hl h1 h2, reduceRandom_ok (zk_partBase hz) hlt hl h1 h2⟩

/-- C178 (what the test can not find): the test drops the results of its comparisons, so it passes with functions that return any
polynomials of enough coefficients, for instance zeros. -/
theorem C178_blind {F : Type} [Field F] [DecidableEq F] (A : ZeroApi F) (hw : 0 < A.maxWidth)
    (hp : A.part = fun idxs _ => .ok (List.replicate (idxs.length + 1) 0)) (hr : A.reduce = fun n _ => .ok (List.replicate n 0))
    (order : List Nat) (count : Nat) (h1 : count ≤ order.length) (h2 : count < A.maxWidth) :
    reduceRandom A discard order count = .ok () :=
  reduceRandom_blind rfl h1 hw (part := fun idxs => List.replicate (idxs.length + 1) 0) (fun _ _ => by rw [hp])
    (fun _ => by simp) (tree := List.replicate A.maxWidth 0) (fun _ => by rw [hr]) (by simpa using h2)

/-- Example for C178: the functions of blst-from-scratch replaced by zeros, with settings of scale 5 and the 22 positions that a ratio of 0.7
gives. -/
example (fs : FFTSettings Fr) (hfs : FFTSettings.new 5 = .ok fs) :
    reduceRandom { blstZero fs with
      part := fun idxs _ => .ok (List.replicate (idxs.length + 1) 0)
      reduce := fun n _ => .ok (List.replicate n 0) } discard (List.range 32) 22 = .ok () ∧
    reduceRandom (blstZero fs) insist (List.range 32) 22 = .ok () := by
  have hw : (blstZero fs).maxWidth = 32 := (wf_of_new hfs).width
  refine ⟨C178_blind _ (by show 0 < (blstZero fs).maxWidth; omega) rfl rfl _ _ (by simp)
    (by show 22 < (blstZero fs).maxWidth; omega), ?_⟩
  exact (reduceRandom_ok (blst_partBase hfs) (fun i hi => by simpa using hi) (by simp) (by norm_num) (by norm_num)).1

end Kzg.Props
