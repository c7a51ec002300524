import Verif.Props.Linear
/-!
# Property C208: two transforms in a row, and transforms of moved data
-/

set_option linter.unusedSectionVars false

namespace Kzg.Props
open Kzg Kzg.Res Finset

section
variable (F : Type) [Field F] {M : Type} [AddCommGroup M] [Module F M]

/-- C208 (twice): the transform of the transform of `n` data is `n` times the data, the first in its place and the others from the end. -/
def TwiceReverses (f : List M → Res (List M)) (n : Nat) : Prop :=
  ∀ data : List M, data.length = n → ∃ out, f data = .ok out ∧ out.length = n ∧
    f out = .ok ((List.range n).map fun i => (n : F) • data.getD ((n - i) % n) 0)

/-- C208 (moved data): if the data are moved by `k` places, entry `i` of the transform is divided by the `i * k`-th power of one primitive root. -/
def MovedIsScaled (f : List M → Res (List M)) (n : Nat) : Prop :=
  ∃ ω : F, IsPrimitiveRoot ω n ∧ ∀ (data out : List M) (k : Nat), data.length = n → f data = .ok out →
    f (data.rotate k) = .ok ((List.range n).map fun i => (ω ^ (i * k))⁻¹ • out.getD i 0)

/-- Both. -/
def Symmetric (f : List M → Res (List M)) (n : Nat) : Prop := TwiceReverses F f n ∧ MovedIsScaled F f n

variable {F}

theorem Symmetric.congr {f g : List M → Res (List M)} {n : Nat} (h : Symmetric F f n) (e : ∀ xs, xs.length = n → g xs = f xs) :
    Symmetric F g n := by
  obtain ⟨h1, ω, hω, h2⟩ := h
  refine ⟨fun data hl => ?_, ω, hω, fun data out k hl ho => ?_⟩
  · obtain ⟨out, a, b, c⟩ := h1 data hl
    exact ⟨out, (e _ hl).trans a, b, (e _ b).trans c⟩
  · rw [e _ (by simpa using hl)]
    exact h2 data out k hl ((e _ hl).symm.trans ho)

theorem pow_reversed {w : F} {n i : Nat} (hw : w ^ n = 1) (hi : i < n) : (w⁻¹) ^ ((n - i) % n) = w ^ i := by
  rcases Nat.eq_zero_or_pos i with rfl | h0
  · simp
  · rw [Nat.mod_eq_of_lt (by omega), inv_pow]
    refine inv_eq_of_mul_eq_one_right ?_
    rw [← pow_add, Nat.sub_add_cancel hi.le, hw]

theorem dft_twice {w : F} {n : Nat} (hn : 0 < n) (hw : IsPrimitiveRoot w n) (hnF : (n : F) ≠ 0) (d e : Nat → M)
    (he : ∀ k < n, e k = dft w n d k) {i : Nat} (hi : i < n) : dft w n e i = (n : F) • d ((n - i) % n) := by
  rw [← inv_dft hn hw hnF d e he (Nat.mod_lt _ hn), smul_smul, mul_inv_cancel₀ hnF, one_smul]
  refine sum_congr rfl fun j _ => ?_
  rw [mul_comm j, mul_comm j, pow_mul, pow_mul, pow_reversed hw.pow_eq_one hi]

theorem dft_moved {w : F} {n : Nat} (hw : w ^ n = 1) (d : Nat → M) (i : Nat) :
    dft w n (fun j => d ((j + 1) % n)) i = (w ^ i)⁻¹ • dft w n d i := by
  rcases n with _ | n
  · simp [dft]
  have hw0 : w ≠ 0 := fun h => by rw [h, zero_pow (by omega)] at hw; exact zero_ne_one hw
  unfold dft
  rw [sum_range_succ, sum_range_succ' (fun j => w ^ (j * i) • d j)]
  simp only
  rw [Nat.mod_self, smul_add, smul_sum, zero_mul, pow_zero, one_smul]
  congr 1
  · refine sum_congr rfl fun j hj => ?_
    have := mem_range.1 hj
    rw [Nat.mod_eq_of_lt (by omega), smul_smul]
    congr 1
    rw [add_mul, one_mul, pow_add]
    field_simp
  · congr 1
    refine eq_inv_of_mul_eq_one_left ?_
    rw [← pow_add, show n * i + i = (n + 1) * i by ring, pow_mul, hw, one_pow]

theorem fft_symmetric {scale m : Nat} {fs : FFTSettings F} (hwf : fs.WF scale) (hm : m ≤ scale) :
    Symmetric F (fun d : List M => fs.fft d false) (2 ^ m) := by
  have hpos : 0 < 2 ^ m := by positivity
  have hω := hwf.omega_prim hm
  constructor
  · intro data hl
    obtain ⟨out, e, lo, hv⟩ := hwf.fft_forward hm data hl
    obtain ⟨o2, e2, l2, hv2⟩ := hwf.fft_forward hm out lo
    refine ⟨out, e, lo, e2.trans ?_⟩
    congr 1
    apply List.ext_getElem?
    intro i
    by_cases hi : i < 2 ^ m
    · rw [hv2 i hi, List.getElem?_map, List.getElem?_range hi, Option.map_some,
        dft_twice hpos hω (hwf.cast_ne hm) (fun j => data.getD j 0) _ (FFTSettings.WF.getD_of hv) hi]
    · rw [List.getElem?_eq_none (by omega), List.getElem?_eq_none (by simpa using hi)]
  · refine ⟨_, hω, fun data out k hl ho => ?_⟩
    obtain ⟨o, e, lo, hv⟩ := hwf.fft_forward hm data hl
    have ho' : Res.ok o = .ok out := e.symm.trans ho
    rw [Res.ok.injEq] at ho'
    subst ho'
    have main : ∀ k i, i < 2 ^ m → dft (fs.omega (2 ^ m)) (2 ^ m) (fun j => (data.rotate k).getD j 0) i =
        (fs.omega (2 ^ m) ^ (i * k))⁻¹ • o.getD i 0 := by
      intro k i hi
      induction k with
      | zero => simp only [List.rotate_zero, mul_zero, pow_zero, inv_one, one_smul]; exact (FFTSettings.WF.getD_of hv i hi).symm
      | succ k ih =>
        have h1 : dft (fs.omega (2 ^ m)) (2 ^ m) (fun j => (data.rotate (k + 1)).getD j 0) i =
            dft (fs.omega (2 ^ m)) (2 ^ m) (fun j => (fun t => (data.rotate k).getD t 0) ((j + 1) % 2 ^ m)) i := by
          refine sum_congr rfl fun j hj => ?_
          have hj' := mem_range.1 hj
          simp only
          rw [← List.rotate_rotate, List.getD_eq_getElem?_getD, List.getElem?_rotate (by simp [hl]; omega), List.length_rotate, hl,
            ← List.getD_eq_getElem?_getD]
        rw [h1, dft_moved hω.pow_eq_one (fun t => (data.rotate k).getD t 0), ih, smul_smul, ← mul_inv, ← pow_add, show i + i * k = i * (k + 1) by ring]
    obtain ⟨o2, e2, l2, hv2⟩ := hwf.fft_forward hm (data.rotate k) (by simpa using hl)
    refine e2.trans ?_
    congr 1
    apply List.ext_getElem?
    intro i
    by_cases hi : i < 2 ^ m
    · rw [hv2 i hi, List.getElem?_map, List.getElem?_range hi, Option.map_some, main k i hi]
    · rw [List.getElem?_eq_none (by omega), List.getElem?_eq_none (by simpa using hi)]

end

section
variable {G : Type} [AddCommGroup G] [Module Fr G]

/-- C208 (blst-from-scratch). -/
theorem C208_blst {scale : Nat} {fs : FFTSettings Fr} (hfs : FFTSettings.new scale = .ok fs) {m : Nat} (hm : m ≤ scale) :
    Symmetric Fr (fun d : List Fr => fs.fftFr d false) (2 ^ m) ∧ Symmetric Fr (fun d : List G => fs.fftG1 d false) (2 ^ m) :=
  ⟨fft_symmetric (wf_of_new hfs) hm, fft_symmetric (wf_of_new hfs) hm⟩

/-- C208 (mcl-kzg). -/
theorem C208_mcl [Mcl.Lib Fr] {scale : Nat} {fs : FFTSettings Fr} (hfs : MadeSettings fs scale) {m : Nat} (hm : m ≤ scale) :
    Symmetric Fr (fun d : List Fr => Mcl.fft fs d false) (2 ^ m) ∧ Symmetric Fr (fun d : List G => Mcl.fftG1 fs d false) (2 ^ m) :=
  ⟨(fft_symmetric hfs.wf hm).congr fun _ hx => Mcl.fft_eq hfs.wf hm hx false (by simp),
    (fft_symmetric hfs.wf hm).congr fun _ hx => Mcl.fftG1_eq hfs.wf hm hx false (by simp)⟩

/-- C208 (Arkworks). -/
theorem C208_ark {scale : Nat} {fs : FFTSettings Fr} (hfs : Ark.settingsNew scale = .ok fs) {m : Nat} (hm : m ≤ scale) :
    Symmetric Fr (fun d : List Fr => Ark.fftFr fs d false) (2 ^ m) ∧ Symmetric Fr (fun d : List G => Ark.fftG1 fs d false) (2 ^ m) := by
  have hmade := Ark.made_of_new hfs
  have hwf := hmade.toWF
  exact ⟨(fft_symmetric hwf hm).congr fun xs hx => Ark.fftFr_eq hmade hm xs hx false,
    (fft_symmetric hwf hm).congr fun xs hx => Ark.fftG1_eq hwf hm xs hx false⟩

/-- C208 (zkcrypto, transforms of scalars). -/
theorem C208_zk {scale : Nat} {fs : FFTSettings Zk.ScW} (hfs : FFTSettings.new scale = .ok fs) {m : Nat} (hm : m ≤ scale) :
    Symmetric Zk.ScW (fun d : List Zk.ScW => fs.fftFr d false) (2 ^ m) :=
  fft_symmetric (wf_of_new hfs) hm

end

/-- Four data, transformed twice. -/
example {fs : FFTSettings Fr} (hfs : FFTSettings.new 2 = .ok fs) (a b c d : Fr) :
    (do let o ← fs.fftFr [a, b, c, d] false; fs.fftFr o false) = .ok [4 * a, 4 * d, 4 * c, 4 * b] := by
  obtain ⟨out, h1, -, h2⟩ := (C208_blst (G := Fr) hfs (m := 2) le_rfl).1.1 [a, b, c, d] rfl
  simp only at h1 h2
  rw [h1, bind_ok, h2]
  simp [List.range_succ]

end Kzg.Props
