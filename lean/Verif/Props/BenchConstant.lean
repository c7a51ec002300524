import Verif.Model.BenchConstant
import Verif.Props.BenchFft
import Verif.Props.BenchKnown
/-!
# Property C203: the benchmarks of transforms and of the extension run on constant data
-/

set_option linter.unusedSectionVars false

namespace Kzg.Props
open Kzg Kzg.Res Kzg.Bench Kzg.Zk Kzg.Zk.Top CurveConsts Finset ScW Polynomial

/-- `n · x` and then zeros. -/
def onePeak {D : Type} [AddCommGroup D] (n : Nat) (x : D) : List D := (n • x) :: List.replicate (n - 1) 0

section
variable {F M D : Type} [Field F] [DecidableEq F] [AddCommGroup D] [Module F D]

/-- The transform of constant data, of any length that the settings allow. -/
theorem fft_onePeak {fs : FFTSettings F} {k m : Nat} (hwf : fs.WF k) (hm : m ≤ k) (x : D) :
    fs.fft (List.replicate (2 ^ m) x) false = .ok (onePeak (2 ^ m) x) := by
  obtain ⟨r, hr, hl, hv⟩ := hwf.fft_forward hm (List.replicate (2 ^ m) x) (by simp)
  have hprim := hwf.omega_prim hm
  have hpos : 0 < 2 ^ m := by positivity
  rw [hr]
  congr 1
  apply List.ext_getElem?
  intro i
  by_cases hi : i < 2 ^ m
  · rw [hv i hi, dft, Finset.sum_congr rfl (g := fun j => fs.omega (2 ^ m) ^ (j * i) • x)
      fun j hj => by rw [List.getD_eq_getElem?_getD, List.getElem?_replicate, if_pos (Finset.mem_range.1 hj), Option.getD_some],
      ← Finset.sum_smul]
    rcases Nat.eq_zero_or_pos i with rfl | h0
    · simp only [Nat.mul_zero, pow_zero, Finset.sum_const, Finset.card_range, onePeak, List.getElem?_cons_zero]
      rw [smul_assoc, one_smul]
    · obtain ⟨i', rfl⟩ : ∃ i', i = i' + 1 := ⟨i - 1, by omega⟩
      rw [onePeak, List.getElem?_cons_succ, List.getElem?_replicate, if_pos (by omega)]
      have hne : fs.omega (2 ^ m) ^ (i' + 1) ≠ 1 := hprim.pow_ne_one_of_pos_of_lt (by omega) hi
      have hz : ∑ j ∈ Finset.range (2 ^ m), fs.omega (2 ^ m) ^ (j * (i' + 1)) = 0 := by
        have h1 : ∀ j ∈ Finset.range (2 ^ m), fs.omega (2 ^ m) ^ (j * (i' + 1)) = (fs.omega (2 ^ m) ^ (i' + 1)) ^ j := fun j _ => by
          rw [mul_comm, pow_mul]
        have h2 := mul_geom_sum (fs.omega (2 ^ m) ^ (i' + 1)) (2 ^ m)
        rw [← pow_mul, mul_comm (i' + 1), pow_mul, hprim.pow_eq_one, one_pow, sub_self] at h2
        rw [Finset.sum_congr rfl h1]
        exact (mul_eq_zero.1 h2).resolve_left (sub_ne_zero.2 hne)
      rw [hz, zero_smul]
  · rw [List.getElem?_eq_none (by omega), List.getElem?_eq_none (by simp only [onePeak, List.length_cons, List.length_replicate]; omega)]

theorem benchFft_of {A : FftApi F M} {R : M → D → Prop} {e : F} {scale : Nat} {fs : FFTSettings F} (h : FftOk A R e scale fs) {x : M} {d : D}
    (hx : R x d) : ∃ out, benchFft A scale x = .ok out ∧ RelL R out (onePeak (2 ^ scale) d) := by
  obtain ⟨out, o, h1, h2, h3⟩ := h.fwd le_rfl (RelL.replicate (2 ^ scale) hx) (by simp)
  rw [fft_onePeak h.wf le_rfl] at h2
  cases h2
  exact ⟨out, by rw [benchFft, h.newU, bind_ok, h.wf.width, h1], h3⟩

theorem benchFft_eq {A : FftApi F D} {e : F} {scale : Nat} {fs : FFTSettings F} (h : FftOk A Eq e scale fs) (x : D) :
    benchFft A scale x = .ok (onePeak (2 ^ scale) x) := by
  obtain ⟨out, h1, h2⟩ := benchFft_of h rfl
  rw [h1, relL_eq.1 h2]

/-- C203 (inside a transform): a transform of constant data, of any length it takes, leaves one value; so do the halves that a transform is
made of, and what it multiplies by a root other than one is zero. -/
theorem C203_constant [FrTable F] [LawfulFr F] {scale m : Nat} {fs : FFTSettings F} (hfs : FFTSettings.new scale = .ok fs) (hm : m ≤ scale)
    (x : D) : fs.fft (List.replicate (2 ^ m) x) false = .ok (onePeak (2 ^ m) x) :=
  fft_onePeak (wf_of_new hfs) hm x

end

/-- C203 (the field): in all four backends, at every scale below 32, whichever element is drawn, the benchmark of the transform computes `n`
times that element and zeros. -/
theorem C203_fft_fr [Mcl.Lib Fr] {scale : Nat} (hs : scale < 32) (x : Fr) (z : ScW) :
    benchFft (plainFr Fr) scale x = .ok (onePeak (2 ^ scale) x) ∧ benchFft mclFr scale x = .ok (onePeak (2 ^ scale) x) ∧
    benchFft arkFr scale x = .ok (onePeak (2 ^ scale) x) ∧ benchFft (plainFr ScW) scale z = .ok (onePeak (2 ^ scale) z) := by
  obtain ⟨_, h1⟩ := blst_all.ok scale hs
  obtain ⟨_, k2, _⟩ := mcl_made hs
  obtain ⟨_, h2⟩ := mcl_okE hs k2
  obtain ⟨_, h3⟩ := ark_all.ok scale hs
  obtain ⟨_, h4⟩ := zk_all.ok scale hs
  exact ⟨benchFft_eq h1 x, benchFft_eq h2 x, benchFft_eq h3 x, benchFft_eq h4 z⟩

/-- C203 (points): likewise for points, where the zeros are points at infinity. -/
theorem C203_fft_g1 [Mcl.Lib Fr] {G : Type} [AddCommGroup G] [Module Fr G] [DecidableEq G] {scale : Nat} (hs : scale < 32) (x : G) :
    benchFft (blstG1 G) scale x = .ok (onePeak (2 ^ scale) x) ∧ benchFft (mclG1 G) scale x = .ok (onePeak (2 ^ scale) x) ∧
    benchFft (arkG1 G) scale x = .ok (onePeak (2 ^ scale) x) := by
  obtain ⟨_, h1⟩ := (blstG1_all (G := G)).ok scale hs
  obtain ⟨_, k2, _⟩ := mcl_made hs
  obtain ⟨_, h2⟩ := mclG1_okE (G := G) hs k2
  obtain ⟨_, h3⟩ := (arkG1_all (G := G)).ok scale hs
  exact ⟨benchFft_eq h1 x, benchFft_eq h2 x, benchFft_eq h3 x⟩

/-- C203 (points, zkcrypto): the coordinates of the result stand for `n` times the point drawn and for points at infinity, in either build;
up to scale 16. -/
theorem C203_fft_g1_zk_partial (chk : Bool) {scale : Nat} (h16 : scale ≤ 16) {x : Zk.G1.Proj} {d : ScW} (hx : At1 x d) :
    ∃ out, benchFft (zkG1 chk) scale x = .ok out ∧ RelL At1 out (onePeak (2 ^ scale) d) := by
  obtain ⟨fs, hfs, hwf⟩ := new_spec (F := ScW) (k := scale) (by omega)
  obtain ⟨out, o, h1, h2, h3⟩ := C90_fft_g1_partial chk h16 fs hfs _ le_rfl (List.replicate (2 ^ scale) x) (List.replicate (2 ^ scale) d) (by simp)
    (RelL.replicate _ hx) false
  rw [show fs.fftFr (List.replicate (2 ^ scale) d) false = _ from fft_onePeak hwf le_rfl d] at h2
  cases h2
  refine ⟨out, ?_, h3⟩
  rw [benchFft, show (zkG1 chk).new scale = .ok fs from hfs, unwrap_ok, bind_ok, hwf.width]
  exact h1

theorem benchDas_of {F : Type} [Field F] [DecidableEq F] {A : RecApi F} {w : F} {m : Nat} (h : DasBase A w m) (x : F) :
    benchDas A x = .ok (List.replicate (2 ^ m) x) := by
  obtain ⟨hw, hprim, hd⟩ := h
  have hp2 : 2 ^ (m + 1) = 2 * 2 ^ m := by rw [pow_succ, mul_comm]
  obtain ⟨p, hp, hv, e⟩ := hd (List.replicate (2 ^ m) x) (by simp)
  have hpx : p = C x := by
    refine Polynomial.eq_of_degrees_lt_of_eval_index_eq (s := Finset.range (2 ^ m)) (v := fun i => w ^ (2 * i)) ?_ (by simpa using hp) ?_ ?_
    · intro i hi j hj hij
      have hi' := Finset.mem_range.1 (Finset.mem_coe.1 hi)
      have hj' := Finset.mem_range.1 (Finset.mem_coe.1 hj)
      have := hprim.pow_inj (by omega) (by omega) hij
      omega
    · refine lt_of_le_of_lt degree_C_le ?_
      rw [Finset.card_range]
      exact_mod_cast (show 0 < 2 ^ m by positivity)
    · intro i hi
      have := hv i (Finset.mem_range.1 hi)
      rw [List.getElem?_replicate, if_pos (Finset.mem_range.1 hi), Option.some.injEq] at this
      rw [← this, eval_C]
  have hd2 : A.maxWidth / 2 = 2 ^ m := by rw [hw]; omega
  rw [benchDas, hd2, e, hpx]
  simp only [eval_C]
  rw [List.map_const', List.length_range]

/-- C203 (extension): in all four backends, at every scale from 1 on that has settings, the benchmark of the extension returns what it was
given. -/
theorem C203_das [Mcl.Lib Fr] {m : Nat} {fb fm fa : FFTSettings Fr} {fz : FFTSettings ScW} (hb : FFTSettings.new (m + 1) = .ok fb)
    (hm : MadeSettings fm (m + 1)) (ha : Ark.settingsNew (m + 1) = .ok fa) (hz : FFTSettings.new (m + 1) = .ok fz) (x : Fr) (z : ScW) :
    benchDas (blstRec fb) x = .ok (List.replicate (2 ^ m) x) ∧ benchDas (mclRec fm) x = .ok (List.replicate (2 ^ m) x) ∧
    benchDas (arkRec fa) x = .ok (List.replicate (2 ^ m) x) ∧ benchDas (zkRec fz) z = .ok (List.replicate (2 ^ m) z) :=
  ⟨benchDas_of (blst_das hb) x, benchDas_of (mcl_das hm) x, benchDas_of (ark_das ha) x, benchDas_of (zk_das hz) z⟩

/-! ### Examples -/

/-- Scale 2 with the element 5: `[20, 0, 0, 0]`, and the extension of `[5, 5]` is `[5, 5]`. -/
example [Mcl.Lib Fr] : benchFft (plainFr Fr) 2 5 = .ok [20, 0, 0, 0] ∧
    ∃ fs : FFTSettings Fr, FFTSettings.new 2 = .ok fs ∧ benchDas (blstRec fs) 5 = .ok [5, 5] := by
  constructor
  · rw [(C203_fft_fr (scale := 2) (by norm_num) 5 0).1]
    simp [onePeak]; norm_num
  · obtain ⟨fs, hfs, -⟩ := new_spec (F := Fr) (k := 2) (by norm_num)
    exact ⟨fs, hfs, benchDas_of (blst_das (m := 1) hfs) 5⟩

end Kzg.Props
