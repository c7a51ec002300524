import Verif.Props.Symmetry
/-!
# Property C209: transforms turn cyclic convolutions into products
-/

set_option linter.unusedSectionVars false

namespace Kzg.Props
open Kzg Kzg.Res Finset

section
variable {F : Type} [Field F] {M : Type} [AddCommGroup M] [Module F M]

/-- C209: `f` transforms `n` scalars and `g` elements of a module. The transform of the cyclic convolution, in which the indices of the two
factors add up to that of the result modulo `n`, is the product of the transforms place by place. -/
def Convolves (f : List F → Res (List F)) (g : List M → Res (List M)) (n : Nat) : Prop :=
  ∀ (c : List F) (x : List M), c.length = n → x.length = n → ∃ (oc : List F) (ox : List M), f c = .ok oc ∧ g x = .ok ox ∧
    oc.length = n ∧ ox.length = n ∧
    g ((List.range n).map fun k => ∑ i ∈ range n, c.getD ((k + n - i) % n) 0 • x.getD i 0) = .ok (List.zipWith (· • ·) oc ox)

theorem Convolves.congr {f f' : List F → Res (List F)} {g g' : List M → Res (List M)} {n : Nat} (h : Convolves f g n)
    (ef : ∀ xs, xs.length = n → f' xs = f xs) (eg : ∀ xs, xs.length = n → g' xs = g xs) : Convolves f' g' n := by
  intro c x hc hx
  obtain ⟨oc, ox, h1, h2, h3, h4, h5⟩ := h c x hc hx
  exact ⟨oc, ox, (ef _ hc).trans h1, (eg _ hx).trans h2, h3, h4, (eg _ (by simp)).trans h5⟩

theorem list_eq_range {A : Type} [Zero A] {l : List A} {n : Nat} (h : l.length = n) : l = (List.range n).map fun i => l.getD i 0 := by
  subst h
  apply List.ext_getElem?
  intro i
  by_cases hi : i < l.length
  · rw [List.getElem?_map, List.getElem?_range hi, Option.map_some, List.getD_eq_getElem?_getD, List.getElem?_eq_getElem hi]; rfl
  · rw [List.getElem?_eq_none (by omega), List.getElem?_eq_none (by simpa using hi)]

theorem fft_convolves {scale m : Nat} {fs : FFTSettings F} (hwf : fs.WF scale) (hm : m ≤ scale) :
    Convolves (fun d : List F => fs.fft d false) (fun d : List M => fs.fft d false) (2 ^ m) := by
  intro c x hc hx
  have ec := fft_range hwf hm fun i => c.getD i 0
  have ex := fft_range hwf hm fun i => x.getD i 0
  rw [← list_eq_range hc] at ec
  rw [← list_eq_range hx] at ex
  refine ⟨_, _, ec, ex, by simp, by simp, (fft_range hwf hm _).trans ?_⟩
  rw [List.zipWith_map, List.zipWith_self]
  congr 1
  exact List.map_congr_left fun i _ => dft_cyc (hwf.omega_prim hm).pow_eq_one (fun i => c.getD i 0) (fun i => x.getD i 0) i

end

section
variable {G : Type} [AddCommGroup G] [Module Fr G]

/-- C209 (blst-from-scratch): scalars with scalars, and scalars with points. -/
theorem C209_blst {scale : Nat} {fs : FFTSettings Fr} (hfs : FFTSettings.new scale = .ok fs) {m : Nat} (hm : m ≤ scale) :
    Convolves (fun d : List Fr => fs.fftFr d false) (fun d : List Fr => fs.fftFr d false) (2 ^ m) ∧
      Convolves (fun d : List Fr => fs.fftFr d false) (fun d : List G => fs.fftG1 d false) (2 ^ m) :=
  ⟨fft_convolves (wf_of_new hfs) hm, fft_convolves (wf_of_new hfs) hm⟩

/-- C209 (mcl-kzg). -/
theorem C209_mcl [Mcl.Lib Fr] {scale : Nat} {fs : FFTSettings Fr} (hfs : MadeSettings fs scale) {m : Nat} (hm : m ≤ scale) :
    Convolves (fun d : List Fr => Mcl.fft fs d false) (fun d : List Fr => Mcl.fft fs d false) (2 ^ m) ∧
      Convolves (fun d : List Fr => Mcl.fft fs d false) (fun d : List G => Mcl.fftG1 fs d false) (2 ^ m) := by
  have e : ∀ xs : List Fr, xs.length = 2 ^ m → Mcl.fft fs xs false = fs.fft xs false := fun _ hx => Mcl.fft_eq hfs.wf hm hx false (by simp)
  exact ⟨(fft_convolves hfs.wf hm).congr e e,
    (fft_convolves hfs.wf hm).congr e fun _ hx => Mcl.fftG1_eq hfs.wf hm hx false (by simp)⟩

/-- C209 (Arkworks). -/
theorem C209_ark {scale : Nat} {fs : FFTSettings Fr} (hfs : Ark.settingsNew scale = .ok fs) {m : Nat} (hm : m ≤ scale) :
    Convolves (fun d : List Fr => Ark.fftFr fs d false) (fun d : List Fr => Ark.fftFr fs d false) (2 ^ m) ∧
      Convolves (fun d : List Fr => Ark.fftFr fs d false) (fun d : List G => Ark.fftG1 fs d false) (2 ^ m) := by
  have hmade := Ark.made_of_new hfs
  have hwf := hmade.toWF
  have e : ∀ xs : List Fr, xs.length = 2 ^ m → Ark.fftFr fs xs false = fs.fft xs false := fun xs hx => Ark.fftFr_eq hmade hm xs hx false
  exact ⟨(fft_convolves hwf hm).congr e e, (fft_convolves hwf hm).congr e fun xs hx => Ark.fftG1_eq hwf hm xs hx false⟩

/-- C209 (zkcrypto, transforms of scalars). -/
theorem C209_zk {scale : Nat} {fs : FFTSettings Zk.ScW} (hfs : FFTSettings.new scale = .ok fs) {m : Nat} (hm : m ≤ scale) :
    Convolves (fun d : List Zk.ScW => fs.fftFr d false) (fun d : List Zk.ScW => fs.fftFr d false) (2 ^ m) :=
  fft_convolves (wf_of_new hfs) hm

end

/-- Two scalars and two scalars: the transform of `[a c + b d, a d + b c]` is the product of those of `[a, b]` and `[c, d]`. -/
example {fs : FFTSettings Fr} (hfs : FFTSettings.new 1 = .ok fs) (a b c d : Fr) :
    ∃ u v, fs.fftFr [a, b] false = .ok u ∧ fs.fftFr [c, d] false = .ok v ∧
      fs.fftFr [a * c + b * d, b * c + a * d] false = .ok (List.zipWith (· * ·) u v) := by
  obtain ⟨u, v, h1, h2, -, -, h3⟩ := (C209_blst (G := Fr) hfs (m := 1) le_rfl).1 [a, b] [c, d] rfl rfl
  refine ⟨u, v, h1, h2, ?_⟩
  simpa [List.range_succ, sum_range_succ] using h3

end Kzg.Props
