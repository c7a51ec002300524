import Verif.Model.SettingsInterface
import Verif.Props.ArkFK20
import Verif.Props.ZkDas
/-!
# Properties C157–C160: settings as the traits show them

C157: `new` and the accessors. C158: the default FFT settings. C159: copies. C160: the default settings for
commitments and amortised proofs.
-/

set_option linter.unusedSectionVars false

namespace Kzg.Props
open Kzg Kzg.Iface Kzg.Res

/-! ## C157: constructor and accessors -/

/-- What the accessors must show of settings of width `2^scale`: the powers of a root of that order, from 0 to
`2^scale`, their inverses in the same order, and nothing beyond. -/
def FftGood {E : Type} [Field E] (T : FftTrait E) (fs : FFTSettings E) (scale : Nat) : Prop :=
  T.getMaxWidth fs = .ok (2 ^ scale) ∧ ∃ w : E, orderOf w = 2 ^ scale ∧
    T.getExpanded fs = .ok ((List.range (2 ^ scale + 1)).map fun i => w ^ i) ∧
    T.getReversed fs = .ok ((List.range (2 ^ scale + 1)).map fun i => w⁻¹ ^ i) ∧
    (∀ i ≤ 2 ^ scale, T.getExpandedAt fs i = .ok (w ^ i) ∧ T.getReverseAt fs i = .ok (w⁻¹ ^ i)) ∧
    ∀ i > 2 ^ scale, T.getExpandedAt fs i = .panic ∧ T.getReverseAt fs i = .panic

/-- The contract of `new`: good settings for the scales below 32, an error for all others. -/
def FftContract {E : Type} [Field E] (T : FftTrait E) : Prop :=
  ∀ scale, (scale < 32 → ∃ fs, T.new scale = .ok fs ∧ FftGood T fs scale) ∧
    (32 ≤ scale → ∃ msg, T.new scale = .err msg)

/-- The accessors of all backends have the same definition. -/
structure PlainGetters {E : Type} (T : FftTrait E) : Prop where
  width : ∀ fs, T.getMaxWidth fs = .ok fs.maxWidth
  at1 : ∀ fs i, T.getExpandedAt fs i = rd fs.expandedRoots i
  all1 : ∀ fs, T.getExpanded fs = .ok fs.expandedRoots
  at2 : ∀ fs i, T.getReverseAt fs i = rd fs.reverseRoots i
  all2 : ∀ fs, T.getReversed fs = .ok fs.reverseRoots

theorem PlainGetters.good {E : Type} [Field E] {T : FftTrait E} (h : PlainGetters T) {fs : FFTSettings E} {scale : Nat}
    (hwf : fs.WF scale) : FftGood T fs scale := by
  refine ⟨by rw [h.width, hwf.width], fs.rootOfUnity, hwf.prim.eq_orderOf.symm, ?_, ?_, fun i hi => ?_, fun i hi => ?_⟩
  · rw [h.all1]
    congr 1
    apply List.ext_getElem?
    intro i
    by_cases hi : i < 2 ^ scale + 1
    · rw [hwf.exp i (by omega), List.getElem?_map, List.getElem?_range hi]; rfl
    · rw [List.getElem?_eq_none (by have := hwf.elen; omega), List.getElem?_eq_none (by simp; omega)]
  · rw [h.all2]
    congr 1
    apply List.ext_getElem?
    intro i
    by_cases hi : i < 2 ^ scale + 1
    · rw [hwf.rev i (by omega), List.getElem?_map, List.getElem?_range hi]; rfl
    · rw [List.getElem?_eq_none (by have := hwf.rlen; omega), List.getElem?_eq_none (by simp; omega)]
  · rw [h.at1, h.at2]
    exact ⟨rd_of_getElem? (hwf.exp i hi), rd_of_getElem? (hwf.rev i hi)⟩
  · rw [h.at1, h.at2]
    exact ⟨rd_of_ge (by rw [hwf.elen]; omega), rd_of_ge (by rw [hwf.rlen]; omega)⟩

theorem blst_getters : PlainGetters blstFft := ⟨fun _ => rfl, fun _ _ => rfl, fun _ => rfl, fun _ _ => rfl, fun _ => rfl⟩
theorem zk_getters : PlainGetters zkFft := ⟨fun _ => rfl, fun _ _ => rfl, fun _ => rfl, fun _ _ => rfl, fun _ => rfl⟩
theorem mcl_getters : PlainGetters mclFft := ⟨fun _ => rfl, fun _ _ => rfl, fun _ => rfl, fun _ _ => rfl, fun _ => rfl⟩
theorem ark_getters : PlainGetters arkFft := ⟨fun _ => rfl, fun _ _ => rfl, fun _ => rfl, fun _ _ => rfl, fun _ => rfl⟩

/-- C157: blst-from-scratch, zkcrypto and Arkworks satisfy the contract for every scale. -/
theorem C157_contract : FftContract blstFft ∧ FftContract zkFft ∧ FftContract arkFft := by
  refine ⟨fun scale => ⟨fun h => ?_, fun h => ⟨_, new_err h⟩⟩, fun scale => ⟨fun h => ?_, fun h => ⟨_, new_err h⟩⟩,
    fun scale => ⟨fun h => ?_, fun h => ⟨_, Ark.settingsNew_err h⟩⟩⟩
  · obtain ⟨fs, e, hwf⟩ := new_spec (F := Fr) h
    exact ⟨fs, e, blst_getters.good hwf⟩
  · obtain ⟨fs, e, hwf⟩ := new_spec (F := Zk.ScW) h
    exact ⟨fs, e, zk_getters.good hwf⟩
  · obtain ⟨fs, e, hwf⟩ := Ark.settingsNew_spec (F := Fr) h
    exact ⟨fs, e, ark_getters.good hwf.toWF⟩

/-- C157 (partial, mcl-kzg): the contract holds for the scales below 256. Missing: larger ones, which are cut to eight
bits (`C157_mcl_truncates`). -/
theorem C157_mcl_partial (scale : Nat) (h : scale < 256) :
    (scale < 32 → ∃ fs, mclFft.new scale = .ok fs ∧ FftGood mclFft fs scale) ∧
    (32 ≤ scale → ∃ msg, mclFft.new scale = .err msg) := by
  have e : scale % 256 = scale := Nat.mod_eq_of_lt h
  constructor
  · intro h32
    obtain ⟨fs, he, hwf, _⟩ := Mcl.newTrait_spec (F := Fr) Mcl.Globals.start (k := scale) (by omega)
    rw [e] at hwf
    exact ⟨fs, he, mcl_getters.good hwf⟩
  · intro h32
    exact ⟨_, Mcl.newTrait_err Mcl.Globals.start (by rw [e]; omega)⟩

/-- C157 (refuted for mcl-kzg): a scale is taken modulo 256; where the others answer with an error, this backend
returns settings of width `2^(scale mod 256)`. -/
theorem C157_mcl_truncates (scale : Nat) (h : 256 ≤ scale) (hs : scale % 256 < 32) :
    (∃ fs, mclFft.new scale = .ok fs ∧ FftGood mclFft fs (scale % 256)) ∧
    (∃ msg, blstFft.new scale = .err msg) ∧ (∃ msg, zkFft.new scale = .err msg) ∧ ∃ msg, arkFft.new scale = .err msg := by
  obtain ⟨fs, he, hwf, _⟩ := Mcl.newTrait_spec (F := Fr) Mcl.Globals.start (k := scale) hs
  exact ⟨⟨fs, he, mcl_getters.good hwf⟩, (C157_contract.1 scale).2 (by omega), (C157_contract.2.1 scale).2 (by omega),
    (C157_contract.2.2 scale).2 (by omega)⟩

/-- C157 (negation for mcl-kzg). -/
theorem C157_mcl_full_statement_false : ¬ FftContract mclFft := by
  intro hc
  obtain ⟨msg, h⟩ := (hc 258).2 (by norm_num)
  obtain ⟨⟨fs, h', _⟩, _⟩ := C157_mcl_truncates 258 (by norm_num) (by norm_num)
  rw [h] at h'; cases h'

/-- Settings of scale 3 show nine powers and no tenth. -/
example : ∃ fs, arkFft.new 3 = .ok fs ∧ arkFft.getMaxWidth fs = .ok 8 ∧ arkFft.getExpandedAt fs 8 = .ok 1 ∧
    arkFft.getReverseAt fs 9 = .panic := by
  obtain ⟨fs, h, hw, w, ho, -, -, ha, hb⟩ := (C157_contract.2.2 3).1 (by norm_num)
  refine ⟨fs, h, hw, ?_, (hb 9 (by norm_num)).2⟩
  have hp : w ^ 8 = 1 := by
    have := pow_orderOf_eq_one w
    rwa [ho] at this
  rw [(ha 8 (by norm_num)).1, hp]

/-! ## C158: default FFT settings -/

/-- The contract of `default`: good settings of width 1. -/
def DefaultContract {E : Type} [Field E] (T : FftTrait E) : Prop := ∃ fs, T.default = .ok fs ∧ FftGood T fs 0

theorem fft_one {fs : FFTSettings Fr} {k : Nat} (hwf : fs.WF k) (x : Fr) (inverse : Bool) : fs.fft [x] inverse = .ok [x] := by
  have e : fs.fft [x] false = .ok [x] := by
    rw [hwf.fft_eval (m := 0) (Nat.zero_le _) [x] rfl]
    simp [eval_polyOf]
  cases inverse with
  | false => exact e
  | true =>
    have h := hwf.fft_roundtrip (m := 0) (Nat.zero_le _) [x] rfl
    rwa [e, Res.bind_ok] at h

/-- C158 (partial): it holds in blst-from-scratch and mcl-kzg, and with the default settings both transform a list of
one element to itself. Missing: zkcrypto and Arkworks (`C158_full_statement_false`). -/
theorem C158_default_partial :
    (DefaultContract blstFft ∧ blstFft.default = blstFft.new 0 ∧
      ∃ fs, blstFft.default = .ok fs ∧ ∀ x inverse, fs.fftFr [x] inverse = .ok [x]) ∧
    DefaultContract mclFft ∧ ∃ fs, mclFft.default = .ok fs ∧ ∀ (_ : Mcl.Lib Fr) x inverse, Mcl.fft fs [x] inverse = .ok [x] := by
  obtain ⟨fs, h, hwf⟩ := new_spec (F := Fr) (k := 0) (by norm_num)
  obtain ⟨fs5, h5, hwf5⟩ := Mcl.new5_spec (F := Fr) (k := 0) (by norm_num)
  have hd : blstFft.default = .ok fs := by show (FFTSettings.new (F := Fr) 0).unwrap = _; rw [h]; rfl
  refine ⟨⟨⟨fs, hd, blst_getters.good hwf⟩, by rw [hd]; exact h.symm, fs, hd, fft_one hwf⟩,
    ⟨fs5, h5, mcl_getters.good hwf5⟩, fs5, h5, fun _ x inverse => ?_⟩
  rw [Mcl.fft_eq hwf5 (m := 0) le_rfl rfl inverse (fun _ => by norm_num)]
  exact fft_one hwf5 x inverse

/-- C158 (refuted for zkcrypto and Arkworks): the default settings have width 0 and empty tables. Every access panics, no
list is transformed, and they are not the settings of any scale. -/
theorem C158_empty_defaults :
    (∃ fs, zkFft.default = .ok fs ∧ zkFft.getMaxWidth fs = .ok 0 ∧
      (∀ i, zkFft.getExpandedAt fs i = .panic ∧ zkFft.getReverseAt fs i = .panic) ∧
      (∀ data inverse, ∃ msg, fs.fftFr data inverse = .err msg) ∧ ∀ scale, zkFft.new scale ≠ .ok fs) ∧
    ∃ fs, arkFft.default = .ok fs ∧ arkFft.getMaxWidth fs = .ok 0 ∧
      (∀ i, arkFft.getExpandedAt fs i = .panic ∧ arkFft.getReverseAt fs i = .panic) ∧
      (∀ data inverse, ∃ msg, Ark.fftFr fs data inverse = .err msg) ∧ ∀ scale, arkFft.new scale ≠ .ok fs := by
  refine ⟨⟨_, rfl, rfl, fun i => ⟨rfl, rfl⟩, fun data inverse => ?_,
    fun scale h => ?_⟩, _, rfl, rfl, fun i => ⟨rfl, rfl⟩, C113_default,
    fun scale h => ?_⟩
  · unfold FFTSettings.fftFr FFTSettings.fft
    cases data with
    | nil => exact ⟨_, rfl⟩
    | cons a p => rw [if_pos (by show _ > 0; simp)]; exact ⟨_, rfl⟩
  · have hw : (0 : Nat) = 2 ^ scale := (wf_of_new h).width
    have : 0 < 2 ^ scale := by positivity
    omega
  · have hw : (0 : Nat) = 2 ^ scale := (wf_of_new ((C113_same_settings scale _).1 h)).width
    have : 0 < 2 ^ scale := by positivity
    omega

/-- C158 (negation). -/
theorem C158_full_statement_false : ¬ DefaultContract zkFft ∧ ¬ DefaultContract arkFft := by
  constructor
  · rintro ⟨fs, h, hw, -⟩
    cases h
    have : (Res.ok 0 : Res Nat) = .ok (2 ^ 0) := hw
    cases this
  · rintro ⟨fs, h, hw, -⟩
    cases h
    have : (Res.ok 0 : Res Nat) = .ok (2 ^ 0) := hw
    cases this

example : ∃ fs, blstFft.default = .ok fs ∧ blstFft.getMaxWidth fs = .ok 1 ∧ blstFft.getExpanded fs = .ok [1, 1] := by
  obtain ⟨fs, h, hw, w, ho, he, -⟩ := C158_default_partial.1.1
  refine ⟨fs, h, hw, ?_⟩
  have : w = 1 := orderOf_eq_one_iff.mp ho
  rw [he, this]; rfl

/-! ## C159: copies -/

/-- The contract of `clone`: the copy is the original, whatever that is. -/
def CloneContract {E S S1 S2 : Type} (T : KeepTrait E S S1 S2) : Prop :=
  (∀ s, T.clone s = .ok s) ∧ (∀ s, T.singleClone s = .ok s) ∧ ∀ s, T.multiClone s = .ok s

theorem blst_clone (fs : FFTSettings Fr) : blstFft.clone fs = .ok fs := by
  obtain ⟨o, h, -⟩ := new_spec (F := Fr) (k := 0) (by norm_num)
  show ((FFTSettings.new (F := Fr) 0).unwrap >>= _) = _
  rw [h]; rfl

/-- C159 (FFT settings): in every backend a copy is equal to the original. -/
theorem C159_fft : (∀ fs, blstFft.clone fs = .ok fs) ∧ (∀ fs, zkFft.clone fs = .ok fs) ∧ (∀ fs, mclFft.clone fs = .ok fs) ∧
    ∀ fs, arkFft.clone fs = .ok fs :=
  ⟨blst_clone, fun _ => rfl, fun _ => rfl, C113_clone⟩

/-- C159 (partial): copies of the settings for commitments and amortised proofs are equal to the originals in
blst-from-scratch, zkcrypto and mcl-kzg. Missing: Arkworks (`C159_full_statement_false`). -/
theorem C159_clone_partial (G1 G2 : Type) :
    CloneContract (blstKeep G1 G2) ∧ CloneContract zkKeep ∧ CloneContract (mclKeep G1 G2) := by
  refine ⟨⟨fun s => ?_, fun s => ?_, fun s => ?_⟩, ⟨fun s => rfl, fun s => rfl, fun s => rfl⟩,
    fun s => rfl, fun s => rfl, fun s => rfl⟩
  · show (blstFft.clone s.fs >>= _) = _
    rw [blst_clone]; rfl
  · show (blstFft.clone s.ks.fs >>= _) = _
    rw [blst_clone]; rfl
  · show (blstFft.clone s.ks.fs >>= _) = _
    rw [blst_clone]; rfl

section
variable {P G1 G2 GT : Type} [AddCommGroup G1] [Module Fr G1] [AddCommGroup G2] [Module Fr G2]
  [CommGroup GT] [DecidableEq GT]

/-- C159 (refuted for Arkworks): a copy of settings for commitments is one longer than the original and never equal to
it; copying settings for amortised proofs panics. -/
theorem C159_ark {B : Ark.Backend P G1 G2 GT} {g1 : G1} {g2 : G2} (hB : B.Lawful g1 g2) {ks : Ark.Settings P G1 G2}
    {L scale : Nat} {s : Fr} (h : ArkMade B ks g1 g2 L scale s) :
    (∃ ks', (arkKeep B g1 g2).clone ks = .ok ks' ∧ ks'.length = ks.length + 1 ∧ ks' ≠ ks) ∧
    (∀ n2 fk, Ark.FKSingle.new B ks n2 = .ok fk → (arkKeep B g1 g2).singleClone fk = .panic) ∧
    ∀ n2 l fk, Ark.FKMulti.new B ks n2 l = .ok fk → (arkKeep B g1 g2).multiClone fk = .panic := by
  obtain ⟨ks', h1, -, h2, h3, -, h4⟩ := C126_clone hB h
  exact ⟨⟨ks', h1, by rw [h2, h3], h4⟩, fun n2 => (C131_clone_panics hB h n2 0).1, fun n2 l => (C131_clone_panics hB h n2 l).2⟩

end

/-- C159 (negation for Arkworks): over the toy groups, and even without the settings for amortised proofs. -/
theorem C159_full_statement_false : ¬ ∀ s, (arkKeep arkToy 1 1).clone s = .ok s := by
  intro hc
  obtain ⟨ks, h⟩ := arkMade_exists arkToy_lawful (Sum.inl ()) 3 4 (by norm_num)
  obtain ⟨⟨ks', h1, -, h2⟩, -⟩ := C159_ark arkToy_lawful h
  rw [hc ks] at h1
  cases h1
  exact h2 rfl

/-- A copy of settings with four points can be used where the original was. -/
example : (mclKeep Fr Fr).clone ⟨⟨1, 1, [1, 1], [1, 1]⟩, [1, 2, 4, 8], [1, 2, 4, 8]⟩ =
    .ok ⟨⟨1, 1, [1, 1], [1, 1]⟩, [1, 2, 4, 8], [1, 2, 4, 8]⟩ := (C159_clone_partial Fr Fr).2.2.1 _

/-! ## C160: default settings for commitments and amortised proofs -/

section
variable {P G1 G2 GT : Type} [AddCommGroup G1] [Module Fr G1] [AddCommGroup G2] [Module Fr G2]
  [CommGroup GT] [DecidableEq GT]

/-- C160 (partial): default settings answer every polynomial with coefficients with an error in blst-from-scratch and
mcl-kzg, and the only roots they show are `[1, 1]`. Missing: zkcrypto and Arkworks, which panic (`C160_panics`). -/
theorem C160_commit_partial (B : Backend G1 G2 GT) (B' : Mcl.Backend G1 G2 GT) :
    (∃ ks, (blstKeep G1 G2).default = .ok ks ∧ (∀ p, p ≠ [] → ∃ msg, ks.commitToPoly B p = .err msg) ∧
      ∀ i, (blstKeep G1 G2).rootAt ks i = if i ≤ 1 then .ok 1 else .panic) ∧
    ∃ ks, (mclKeep G1 G2).default = .ok ks ∧ (∀ p, p ≠ [] → ∃ msg, Mcl.commit B' ks.secretG1 p = .err msg) ∧
      ∀ i, (mclKeep G1 G2).rootAt ks i = if i ≤ 1 then .ok 1 else .panic := by
  obtain ⟨⟨⟨fs, hd, hg⟩, -⟩, ⟨fs', hd', hg'⟩, -⟩ := C158_default_partial
  refine ⟨⟨⟨fs, [], []⟩, ?_, fun p hp => ?_, fun i => ?_⟩, ⟨fs', [], []⟩, ?_, fun p hp => ?_, fun i => ?_⟩
  · show (blstFft.default >>= _) = _
    rw [hd]; rfl
  · unfold KZGSettings.commitToPoly
    rw [if_pos (by exact List.length_pos_iff.mpr hp)]
    exact ⟨_, rfl⟩
  · obtain ⟨-, w, ho, -, -, h1, h2⟩ := hg
    have hw : w = 1 := orderOf_eq_one_iff.mp ho
    split
    · rename_i hi
      exact ((h1 i (by simpa using hi)).1).trans (by rw [hw, one_pow])
    · rename_i hi
      exact (h2 i (by simpa using hi)).1
  · show (mclFft.default >>= _) = _
    rw [hd']; rfl
  · unfold Mcl.commit
    rw [if_pos (by exact List.length_pos_iff.mpr hp)]
    exact ⟨_, rfl⟩
  · obtain ⟨-, w, ho, -, -, h1, h2⟩ := hg'
    have hw : w = 1 := orderOf_eq_one_iff.mp ho
    split
    · rename_i hi
      exact ((h1 i (by simpa using hi)).1).trans (by rw [hw, one_pow])
    · rename_i hi
      exact (h2 i (by simpa using hi)).1

/-- C160 (refuted for zkcrypto and Arkworks): committing with default settings to a polynomial with coefficients panics,
and so does every access to the roots. -/
theorem C160_panics (B : Ark.Backend P G1 G2 GT) (g1 : G1) (g2 : G2) :
    (∃ ks, zkKeep.default = .ok ks ∧ (∀ p, p ≠ [] → Zk.Top.commitToPoly ks p = .panic) ∧ ∀ i, zkKeep.rootAt ks i = .panic) ∧
    ∃ ks, (arkKeep B g1 g2).default = .ok ks ∧ (∀ p, p ≠ [] → ks.commit p = .panic) ∧
      ∀ i, (arkKeep B g1 g2).rootAt ks i = .panic := by
  refine ⟨⟨_, rfl, fun p hp => ?_, fun i => rfl⟩, _, rfl, fun p hp => ?_,
    fun i => rfl⟩
  · unfold Zk.Top.commitToPoly Zk.Top.polyCommit
    rw [if_pos (by exact List.length_pos_iff.mpr hp)]; rfl
  · unfold Ark.Settings.commit Ark.commitToPoly
    rw [if_pos (by exact List.length_pos_iff.mpr hp)]; rfl

/-- C160 (amortised proofs): default settings answer every polynomial with an error in every backend, but the empty one
panics in mcl-kzg. -/
theorem C160_amortised [Mcl.Lib Fr] (B : Ark.Backend P G1 G2 GT) (g1 : G1) (g2 : G2) (o : ZkP.PtOps Zk.ScW Zk.G1.Proj) :
    (∃ fk fm, (blstKeep G1 G2).singleDefault = .ok fk ∧ (blstKeep G1 G2).multiDefault = .ok fm ∧ ∀ p,
      (∃ msg, fk.da p = .err msg) ∧ ∃ msg, fm.da p = .err msg) ∧
    (∃ fk fm, zkKeep.singleDefault = .ok fk ∧ zkKeep.multiDefault = .ok fm ∧ ∀ p,
      (∃ msg, ZkP.singleDa o fk p = .err msg) ∧ ∃ msg, ZkP.multiDa o fm p = .err msg) ∧
    (∃ fk fm, (arkKeep B g1 g2).singleDefault = .ok fk ∧ (arkKeep B g1 g2).multiDefault = .ok fm ∧ ∀ p,
      (∃ msg, fk.da p = .err msg) ∧ ∃ msg, fm.da p = .err msg) ∧
    ∃ fk fm, (mclKeep G1 G2).singleDefault = .ok fk ∧ (mclKeep G1 G2).multiDefault = .ok fm ∧
      (∀ p, p ≠ [] → (∃ msg, Mcl.FK20Single.da fk p = .err msg) ∧ ∃ msg, Mcl.FK20Multi.da fm p = .err msg) ∧
      Mcl.FK20Single.da fk [] = .panic ∧ Mcl.FK20Multi.da fm [] = .panic := by
  obtain ⟨⟨⟨fs, hd, hw, -⟩, -⟩, ⟨fs', hd', hw', -⟩, -⟩ := C158_default_partial
  have hw : fs.maxWidth = 1 := by
    have : (Res.ok fs.maxWidth) = .ok (2 ^ 0) := hw
    simpa using this
  have hw' : fs'.maxWidth = 1 := by
    have : (Res.ok fs'.maxWidth) = .ok (2 ^ 0) := hw'
    simpa using this
  refine ⟨⟨⟨⟨fs, [], []⟩, []⟩, ⟨⟨fs, [], []⟩, 1, []⟩, ?_, ?_, fun p => ⟨?_, ?_⟩⟩,
    ⟨_, _, rfl, rfl, fun p => ⟨?_, ?_⟩⟩, ⟨_, _, rfl, rfl, fun p => ⟨(C131_defaults B g1 g2 p).1, (C131_defaults B g1 g2 p).2.1⟩⟩,
    ⟨⟨⟨fs', [], []⟩, []⟩, ⟨⟨fs', [], []⟩, 1, []⟩, ?_, ?_, fun p hp => ⟨?_, ?_⟩, rfl, rfl⟩⟩
  · show (blstFft.default >>= _) = _
    rw [hd]; rfl
  · show (blstFft.default >>= _) = _
    rw [hd]; rfl
  · unfold FK20Single.da
    cases p with
    | nil => rw [if_neg (by simp)]; exact ⟨_, rfl⟩
    | cons a p => rw [if_pos (by simp only [hw, List.length_cons]; omega)]; exact ⟨_, rfl⟩
  · unfold FK20Multi.da
    cases p with
    | nil => rw [if_neg (by simp)]; exact ⟨_, rfl⟩
    | cons a p => rw [if_pos (by simp only [hw, List.length_cons]; omega)]; exact ⟨_, rfl⟩
  · unfold ZkP.singleDa
    cases p with
    | nil => exact ⟨_, rfl⟩
    | cons a p => rw [if_pos (by show _ > 0; simp)]; exact ⟨_, rfl⟩
  · unfold ZkP.multiDa
    cases p with
    | nil => exact ⟨_, rfl⟩
    | cons a p => rw [if_pos (by show _ > 0; simp)]; exact ⟨_, rfl⟩
  · show (mclFft.default >>= _) = _
    rw [hd']; rfl
  · show (mclFft.default >>= _) = _
    rw [hd']; rfl
  · have hl := List.length_pos_iff.mpr hp
    unfold Mcl.FK20Single.da Mcl.isPowerOf2
    dsimp only
    rw [subU_of_le (by omega), Res.bind_ok, Res.bind_ok]
    split
    · exact ⟨_, rfl⟩
    · rw [if_pos (by simp only [hw']; omega)]; exact ⟨_, rfl⟩
  · have hl := List.length_pos_iff.mpr hp
    unfold Mcl.FK20Multi.da Mcl.isPowerOf2
    dsimp only
    rw [subU_of_le (by omega), Res.bind_ok, Res.bind_ok]
    split
    · exact ⟨_, rfl⟩
    · rw [if_pos (by simp only [hw']; omega)]; exact ⟨_, rfl⟩

end

/-- The default settings of blst-from-scratch commit to nothing, not even to a constant. -/
example (B : Backend Fr Fr (Multiplicative Fr)) : ∃ ks, (blstKeep Fr Fr).default = .ok ks ∧
    (∃ msg, ks.commitToPoly B [7] = .err msg) ∧ (blstKeep Fr Fr).rootAt ks 2 = .panic := by
  obtain ⟨⟨ks, h, hc, hr⟩, -⟩ := C160_commit_partial B (⟨fun _ _ => 0, fun _ _ => 1, fun _ => 1⟩ : Mcl.Backend Fr Fr (Multiplicative Fr))
  exact ⟨ks, h, hc [7] (by simp), by rw [hr]; rfl⟩

end Kzg.Props
