import Verif.Model.BenchFft
import Verif.Proofs.BenchZero
import Verif.Proofs.Zk.FK20Rel
/-!
# The shared tests of transforms: when they pass

An element `x` of the backend stands for an element `d` of a module over the field, `R x d`; for all backends but zkcrypto's points, `R` is
equality.
-/

set_option linter.unusedSectionVars false

namespace Kzg.Bench
open Kzg Kzg.Res Kzg.Props Finset

theorem shlU_of_lt {a k : Nat} (h : a * 2 ^ k < 2 ^ 64) (hk : k < 64) : shlU a k = .ok (a * 2 ^ k) := by
  rw [shlU, if_pos hk, Nat.shiftLeft_eq, Nat.mod_eq_of_lt h]

theorem shlU_one {k : Nat} (hk : k < 32) : shlU 1 k = .ok (2 ^ k) := by
  have : 2 ^ k < 2 ^ 64 := Nat.pow_lt_pow_right (by norm_num) (by omega)
  rw [shlU_of_lt (by omega) (by omega), one_mul]

theorem assertWidth_ok {size : Nat} (h1 : 1 ≤ size) (h : size < 32) : assertWidth (2 ^ size) size = .ok () := by
  have e : 2 * 2 ^ (size - 1) = 2 ^ size := by rw [← pow_succ']; congr 1; omega
  have : 2 ^ size < 2 ^ 64 := Nat.pow_lt_pow_right (by norm_num) (by omega)
  rw [assertWidth, subU_of_le h1, bind_ok, shlU_of_lt (by omega) (by omega), bind_ok, e, assertT_true (by simp)]

theorem assertWidth_zero (n : Nat) : assertWidth n 0 = .panic := rfl

section
variable {F M D : Type} [Field F] [DecidableEq F] [AddCommGroup D] [Module F D] {A : FftApi F M} {R : M → D → Prop}

/-- The loop at the end of the tests, for lists that stand for lists of the module. -/
theorem allEqual_cases {eq : M → M → Bool} (he : ∀ x y d d', R x d → R y d' → (eq x y = true ↔ d = d')) {n : Nat} {a b : List M}
    {d d' : List D} (ha : RelL R a d) (hb : RelL R b d') (hd : d.length = n) (hd' : d'.length = n) :
    (d = d' → allEqual eq n a b = .ok ()) ∧ (d ≠ d' → allEqual eq n a b = .panic) := by
  have key : ∀ i, (hi : i < n) → ∃ x y, rd a i = .ok x ∧ rd b i = .ok y ∧ R x (d[i]'(by omega)) ∧ R y (d'[i]'(by omega)) := by
    intro i hi
    obtain ⟨x, hx, rx⟩ := ha.getElem? (List.getElem?_eq_getElem (show i < d.length by omega))
    obtain ⟨y, hy, ry⟩ := hb.getElem? (List.getElem?_eq_getElem (show i < d'.length by omega))
    exact ⟨x, y, rd_of_getElem? hx, rd_of_getElem? hy, rx, ry⟩
  constructor
  · rintro rfl
    refine each_ok fun i hi => ?_
    obtain ⟨x, y, hx, hy, rx, ry⟩ := key i hi
    rw [hx, bind_ok, hy, bind_ok, assertT_true ((he _ _ _ _ rx ry).2 rfl)]
  · intro hne
    classical
    refine each_panic (b := fun i => decide (d[i]? = d'[i]?)) (fun i hi => ?_) ?_
    · obtain ⟨x, y, hx, hy, rx, ry⟩ := key i hi
      refine (by rw [hx, bind_ok, hy, bind_ok] : _ = assertT (eq x y)).trans ?_
      congr 1
      rw [Bool.eq_iff_iff, he _ _ _ _ rx ry, decide_eq_true_iff, List.getElem?_eq_getElem (show i < d.length by omega),
        List.getElem?_eq_getElem (show i < d'.length by omega), Option.some.injEq]
    · by_contra hc
      push Not at hc
      refine hne (List.ext_getElem? fun i => ?_)
      by_cases hi : i < n
      · simpa using hc i hi
      · rw [List.getElem?_eq_none (by omega), List.getElem?_eq_none (by omega)]

/-- What the tests of transforms need of a backend at one size; `e` is a factor of the inverse transform at the full width, 1 if it is
right. -/
structure FftOk (A : FftApi F M) (R : M → D → Prop) (e : F) (size : Nat) (fs : FFTSettings F) : Prop where
  new : A.new size = .ok fs
  wf : fs.WF size
  equals : ∀ x y d d', R x d → R y d' → (A.equals x y = true ↔ d = d')
  fwd : ∀ {m : Nat}, m ≤ size → ∀ {data : List M} {d : List D}, RelL R data d → d.length = 2 ^ m →
    ∃ out o, A.fft fs data false = .ok out ∧ fs.fft d false = .ok o ∧ RelL R out o
  back : ∀ {data : List M} {d : List D}, RelL R data d → d.length = 2 ^ size →
    ∃ out o, A.fft fs data true = .ok out ∧ fs.fft d true = .ok o ∧ RelL R out (o.map fun x => e • x)
  long : ∀ {data : List M}, 2 ^ size < data.length → (A.fft fs data false).unwrap = .panic

theorem FftOk.newU {e : F} {size : Nat} {fs : FFTSettings F} (h : FftOk A R e size fs) : (A.new size).unwrap = .ok fs := by
  rw [h.new]; rfl

theorem relL_tab {data : Nat → M} {d : Nat → D} (n : Nat) (h : ∀ i < n, R (data i) (d i)) :
    RelL R ((List.range n).map data) ((List.range n).map d) := by
  induction n with
  | zero => exact .nil
  | succ n ih =>
    rw [List.range_succ, List.map_append, List.map_append]
    exact (ih fun i hi => h i (by omega)).append (.cons (h n (by omega)) .nil)

theorem tab_data {data : Nat → M} (n : Nat) : (tab n fun i => .ok (data i)) = .ok ((List.range n).map data) := tab_ok fun _ _ => rfl

/-- The round trip, up to the comparison at the end. -/
theorem trip {e : F} {size : Nat} {fs : FFTSettings F} (h : FftOk A R e size fs) {data : List M} {d : List D} (hr : RelL R data d)
    (hl : d.length = 2 ^ size) : ∃ f b, A.fft fs data false = .ok f ∧ f.length = 2 ^ size ∧ A.fft fs f true = .ok b ∧
      RelL R b (d.map fun x => e • x) := by
  obtain ⟨f, o, h1, h2, h3⟩ := h.fwd le_rfl hr hl
  have hol : o.length = 2 ^ size := by
    obtain ⟨o', ho', hl', -⟩ := h.wf.fft_forward le_rfl d hl
    rw [h2] at ho'; cases ho'; exact hl'
  obtain ⟨b, o', h4, h5, h6⟩ := h.back h3 hol
  have := h.wf.fft_roundtrip le_rfl d hl
  rw [h2, bind_ok, h5] at this
  cases this
  exact ⟨f, b, h1, by rw [h3.length, hol], h4, h6⟩

theorem frRoundtrip_cases {e : F} {size : Nat} {fs : FFTSettings F} (h : FftOk A R e size fs) {data : Nat → M} {d : Nat → D}
    (hr : ∀ i, R (data i) (d i)) :
    ((∀ i < 2 ^ size, d i = e • d i) → frRoundtrip A size data = .ok ()) ∧
    ((∃ i, i < 2 ^ size ∧ d i ≠ e • d i) → frRoundtrip A size data = .panic) := by
  have hrel := relL_tab (2 ^ size) fun i _ => hr i
  obtain ⟨f, b, h1, -, h2, h3⟩ := trip h hrel (by simp)
  have hc := allEqual_cases (n := 2 ^ size) h.equals hrel h3 (by simp) (by simp)
  have hrun : frRoundtrip A size data = allEqual A.equals (2 ^ size) ((List.range (2 ^ size)).map data) b := by
    rw [frRoundtrip, h.newU, bind_ok, tab_data, bind_ok, h.wf.width, h1, unwrap_ok, bind_ok, h2, unwrap_ok, bind_ok]
  rw [hrun]
  refine ⟨fun hall => hc.1 ?_, fun ⟨i, hi, hne⟩ => hc.2 fun heq => hne ?_⟩
  · rw [List.map_map]
    exact List.map_congr_left fun i hi => hall i (List.mem_range.1 hi)
  · have := congrArg (fun l : List D => l[i]?) heq
    simpa [List.getElem?_map, List.getElem?_range hi] using this

theorem g1Roundtrip_cases {e : F} {size : Nat} {fs : FFTSettings F} (h : FftOk A R e size fs) (h1s : 1 ≤ size)
    {make : Nat → Res (List M)} {data : List M} {d : List D} (hm : make (2 ^ size) = .ok data) (hr : RelL R data d)
    (hl : d.length = 2 ^ size) :
    ((∀ x ∈ d, x = e • x) → g1Roundtrip A make size = .ok ()) ∧
    ((∃ x ∈ d, x ≠ e • x) → g1Roundtrip A make size = .panic) := by
  have hs := h.wf.lt
  obtain ⟨f, b, h1, hf, h2, h3⟩ := trip h hr hl
  have hc := allEqual_cases h.equals hr h3 hl (by simpa using hl)
  have hrun : g1Roundtrip A make size = allEqual A.equals (2 ^ size) data b := by
    rw [g1Roundtrip, h.newU, bind_ok, h.wf.width, assertWidth_ok h1s hs, bind_ok, hm, bind_ok, bind_ok, h1, unwrap_ok, bind_ok, hf,
      assertWidth_ok h1s hs, bind_ok, h2, unwrap_ok, bind_ok, h3.length, List.length_map, hl, assertWidth_ok h1s hs, bind_ok]
  rw [hrun]
  refine ⟨fun hall => hc.1 ?_, fun ⟨x, hx, hne⟩ => hc.2 fun heq => hne ?_⟩
  · conv_lhs => rw [← List.map_id d]
    exact List.map_congr_left fun x hx => hall x hx
  · obtain ⟨i, hi, rfl⟩ := List.getElem_of_mem hx
    have := congrArg (fun l : List D => l[i]?) heq
    simpa [List.getElem?_map, List.getElem?_eq_getElem hi] using this

/-- Two transforms of the same data, up to the comparison at the end. -/
theorem strided {e1 e2 : F} {size1 size2 m : Nat} {fs1 fs2 : FFTSettings F} (h1 : FftOk A R e1 size1 fs1) (h2 : FftOk A R e2 size2 fs2)
    (hm1 : m ≤ size1) (hm2 : m ≤ size2) {data : List M} {d : List D} (hr : RelL R data d) (hl : d.length = 2 ^ m) :
    ∃ a b, A.fft fs1 data false = .ok a ∧ A.fft fs2 data false = .ok b ∧ a.length = 2 ^ m ∧ b.length = 2 ^ m ∧
      (fs1.omega (2 ^ m) = fs2.omega (2 ^ m) → allEqual A.equals (2 ^ m) a b = .ok ()) ∧
      ((∃ k < 2 ^ m, dft (fs1.omega (2 ^ m)) (2 ^ m) (fun j => d.getD j 0) k ≠ dft (fs2.omega (2 ^ m)) (2 ^ m) (fun j => d.getD j 0) k) →
        allEqual A.equals (2 ^ m) a b = .panic) := by
  obtain ⟨a, o, k1, k2, k3⟩ := h1.fwd hm1 hr hl
  obtain ⟨b, o', k4, k5, k6⟩ := h2.fwd hm2 hr hl
  obtain ⟨u, hu, ul, uv⟩ := h1.wf.fft_forward hm1 d hl
  rw [k2] at hu; cases hu
  obtain ⟨u, hu, ul', uv'⟩ := h2.wf.fft_forward hm2 d hl
  rw [k5] at hu; cases hu
  have hc := allEqual_cases h1.equals k3 k6 ul ul'
  refine ⟨a, b, k1, k4, by rw [k3.length, ul], by rw [k6.length, ul'], fun heq => hc.1 ?_, fun ⟨k, hk, hne⟩ => hc.2 fun heq => hne ?_⟩
  · refine List.ext_getElem? fun i => ?_
    by_cases hi : i < 2 ^ m
    · rw [uv i hi, uv' i hi, heq]
    · rw [List.getElem?_eq_none (by omega), List.getElem?_eq_none (by omega)]
  · have h3 := uv k hk
    rw [heq, uv' k hk] at h3
    exact (Option.some.inj h3).symm

theorem frStride_cases {e1 e2 : F} {size1 size2 : Nat} {fs1 fs2 : FFTSettings F} (h1 : FftOk A R e1 size1 fs1)
    (h2 : FftOk A R e2 size2 fs2) {data : Nat → M} {d : Nat → D} (hr : ∀ i, R (data i) (d i)) :
    (size1 ≤ size2 → fs1.omega (2 ^ size1) = fs2.omega (2 ^ size1) → frStride A size1 size2 data = .ok ()) ∧
    (size1 ≤ size2 → (∃ k < 2 ^ size1, dft (fs1.omega (2 ^ size1)) (2 ^ size1) d k ≠ dft (fs2.omega (2 ^ size1)) (2 ^ size1) d k) →
      frStride A size1 size2 data = .panic) ∧
    (size2 < size1 → frStride A size1 size2 data = .panic) := by
  have hs := h1.wf.lt
  have hrel := relL_tab (2 ^ size1) fun i _ => hr i
  have hpre : frStride A size1 size2 data = (do
      let r1 ← (A.fft fs1 ((List.range (2 ^ size1)).map data) false).unwrap
      let r2 ← (A.fft fs2 ((List.range (2 ^ size1)).map data) false).unwrap
      allEqual A.equals (2 ^ size1) r1 r2) := by
    rw [frStride, shlU_one hs, bind_ok, h1.newU, bind_ok, h2.newU, bind_ok, tab_data, bind_ok]
  have hd : ∀ (ω : F) k, dft ω (2 ^ size1) (fun j => ((List.range (2 ^ size1)).map d).getD j 0) k = dft ω (2 ^ size1) d k := by
    intro ω k
    refine sum_congr rfl fun j hj => ?_
    beta_reduce
    rw [List.getD_eq_getElem?_getD, List.getElem?_map, List.getElem?_range (mem_range.1 hj)]; rfl
  refine ⟨fun hle heq => ?_, fun hle hne => ?_, fun hlt => ?_⟩
  · obtain ⟨a, b, k1, k2, -, -, k3, -⟩ := strided h1 h2 le_rfl hle hrel (by simp)
    rw [hpre, k1, unwrap_ok, bind_ok, k2, unwrap_ok, bind_ok, k3 heq]
  · obtain ⟨a, b, k1, k2, -, -, -, k3⟩ := strided h1 h2 le_rfl hle hrel (by simp)
    rw [hpre, k1, unwrap_ok, bind_ok, k2, unwrap_ok, bind_ok, k3]
    obtain ⟨k, hk, hk'⟩ := hne
    exact ⟨k, hk, by rwa [hd, hd]⟩
  · obtain ⟨a, o, k1, -⟩ := h1.fwd le_rfl hrel (by simp)
    rw [hpre, k1, unwrap_ok, bind_ok, h2.long]; · rfl
    simpa using Nat.pow_lt_pow_right (by norm_num) hlt

theorem g1Stride_cases {e1 e2 : F} {size1 size2 : Nat} {fs1 fs2 : FFTSettings F} (h1 : FftOk A R e1 size1 fs1)
    (h2 : FftOk A R e2 size2 fs2) (hs1 : 1 ≤ size1) (hs2 : 1 ≤ size2) {make : Nat → Res (List M)} {data : List M} {d : List D} {m : Nat}
    (hmin : m = min size1 size2) (hm : make (2 ^ m) = .ok data) (hr : RelL R data d) (hl : d.length = 2 ^ m) :
    (fs1.omega (2 ^ m) = fs2.omega (2 ^ m) → g1Stride A make size1 size2 = .ok ()) ∧
    ((∃ k < 2 ^ m, dft (fs1.omega (2 ^ m)) (2 ^ m) (fun j => d.getD j 0) k ≠ dft (fs2.omega (2 ^ m)) (2 ^ m) (fun j => d.getD j 0) k) →
      g1Stride A make size1 size2 = .panic) := by
  have l1 := h1.wf.lt
  have l2 := h2.wf.lt
  obtain ⟨a, b, k1, k2, a1, a2, k3, k4⟩ := strided h1 h2 (by omega) (by omega) hr hl
  have hw : (if size1 < size2 then shlU 1 size1 else shlU 1 size2) = .ok (2 ^ m) := by
    by_cases hc : size1 < size2
    · rw [if_pos hc, shlU_one l1, show m = size1 by omega]
    · rw [if_neg hc, shlU_one l2, show m = size2 by omega]
  have hrun : g1Stride A make size1 size2 = allEqual A.equals (2 ^ m) a b := by
    rw [g1Stride, hw, bind_ok, h1.newU, bind_ok, h1.wf.width, assertWidth_ok hs1 l1, bind_ok, h2.newU, bind_ok, h2.wf.width,
      assertWidth_ok hs2 l2, bind_ok, hm, bind_ok, k1, unwrap_ok, bind_ok, a1, assertT_true (by simp), bind_ok, k2, unwrap_ok, bind_ok,
      a2, assertT_true (by simp), bind_ok]
  rw [hrun]
  exact ⟨k3, k4⟩

/-- The comparisons of two functions, for functions whose results stand for the same list. -/
theorem frCompare_ok {e : F} {size : Nat} {fs : FFTSettings F} (h : FftOk A R e size fs) {data : Nat → M} {slow fast : Transform F M}
    {a b : List M} {o : List D} (ho : o.length = 2 ^ size)
    (ha : slow (List.replicate (2 ^ size) A.default) ((List.range (2 ^ size)).map data) 1 fs.expandedRoots 1 = .ok a) (ra : RelL R a o)
    (hb : fast (List.replicate (2 ^ size) A.default) ((List.range (2 ^ size)).map data) 1 fs.expandedRoots 1 = .ok b) (rb : RelL R b o) :
    frCompare A slow fast size data = .ok () := by
  rw [frCompare, h.newU, bind_ok, tab_data, bind_ok, h.wf.width, ha, bind_ok, hb, bind_ok]
  exact (allEqual_cases h.equals ra rb ho ho).1 rfl

theorem g1CompareFt_ok {e : F} {size : Nat} {fs : FFTSettings F} (h : FftOk A R e size fs) (h1 : 1 ≤ size) {make : Nat → Res (List M)}
    {data : List M} (hm : make (2 ^ size) = .ok data) (hl : data.length = 2 ^ size) {slow fast : Transform F M}
    {a b : List M} {o : List D} (ho : o.length = 2 ^ size)
    (ha : slow (List.replicate (2 ^ size) A.default) data 1 fs.expandedRoots 1 = .ok a) (ra : RelL R a o)
    (hb : fast (List.replicate (2 ^ size) A.default) data 1 fs.expandedRoots 1 = .ok b) (rb : RelL R b o) :
    g1CompareFt A slow fast make size = .ok () := by
  have hpos : 2 ^ size ≠ 0 := by positivity
  rw [g1CompareFt, h.newU, bind_ok, h.wf.width, assertWidth_ok h1 h.wf.lt, bind_ok, hm, bind_ok, hl, divU, if_neg hpos, bind_ok,
    Nat.div_self (by positivity), hb, bind_ok, ha, bind_ok]
  exact (allEqual_cases h.equals rb ra ho ho).1 rfl

/-- The comparison with six arguments: passes if the results stand for the same list, panics if not. -/
theorem g1CompareSft_cases {e : F} {size : Nat} {fs : FFTSettings F} (h : FftOk A R e size fs) {make : Nat → Res (List M)}
    {data : List M} (hm : make (2 ^ size) = .ok data) {slow fast : List M → List M → Nat → List F → Nat → Nat → Res (List M)}
    {a b : List M} {o o' : List D} (ho : o.length = 2 ^ size) (ho' : o'.length = 2 ^ size)
    (ha : slow (List.replicate (2 ^ size) A.default) data 1 fs.expandedRoots 1 (2 ^ size) = .ok a) (ra : RelL R a o)
    (hb : fast (List.replicate (2 ^ size) A.default) data 1 fs.expandedRoots 1 (2 ^ size) = .ok b) (rb : RelL R b o') :
    (o = o' → g1CompareSft A slow fast make size = .ok ()) ∧ (o ≠ o' → g1CompareSft A slow fast make size = .panic) := by
  have hrun : g1CompareSft A slow fast make size = allEqual A.equals (2 ^ size) a b := by
    rw [g1CompareSft, h.newU, bind_ok, h.wf.width, hm, bind_ok, ha, bind_ok, hb, bind_ok]
  rw [hrun]
  exact allEqual_cases h.equals ra rb ho ho'

/-- A size that the constructor does not accept makes every test panic. -/
theorem all_panic {size : Nat} (h : (A.new size).unwrap = .panic) :
    (∀ slow fast data, frCompare A slow fast size data = .panic) ∧ (∀ data, frRoundtrip A size data = .panic) ∧
    (∀ data ex, frInverse A size data ex = .panic) ∧ (∀ slow fast mk, g1CompareFt A slow fast mk size = .panic) ∧
    (∀ mk, g1Roundtrip A mk size = .panic) ∧ (∀ slow fast mk, g1CompareSft A slow fast mk size = .panic) := by
  refine ⟨fun _ _ _ => ?_, fun _ => ?_, fun _ _ => ?_, fun _ _ _ => ?_, fun _ => ?_, fun _ _ _ => ?_⟩
  · rw [frCompare, h]; rfl
  · rw [frRoundtrip, h]; rfl
  · rw [frInverse, h]; rfl
  · rw [g1CompareFt, h]; rfl
  · rw [g1Roundtrip, h]; rfl
  · rw [g1CompareSft, h]; rfl

theorem frInverse_cases {size : Nat} {fs : FFTSettings F} (h : FftOk A R 1 size fs) {data : Nat → M} {d : Nat → D}
    (hr : ∀ i, R (data i) (d i)) {ex : List M} {x : List D} (hx : RelL R ex x) (hl : x.length = 2 ^ size) :
    ((∀ k < 2 ^ size, x[k]? = some (((2 ^ size : Nat) : F)⁻¹ • dft (fs.omega (2 ^ size))⁻¹ (2 ^ size) d k)) →
      frInverse A size data ex = .ok ()) ∧
    ((∃ k < 2 ^ size, x[k]? ≠ some (((2 ^ size : Nat) : F)⁻¹ • dft (fs.omega (2 ^ size))⁻¹ (2 ^ size) d k)) →
      frInverse A size data ex = .panic) := by
  have hrel := relL_tab (2 ^ size) fun i _ => hr i
  obtain ⟨b, o, h1, h2, h3⟩ := h.back hrel (by simp)
  simp only [one_smul, List.map_id'] at h3
  obtain ⟨o', ho', hol, hov⟩ := h.wf.fft_backward le_rfl ((List.range (2 ^ size)).map d) (by simp)
  rw [h2] at ho'; cases ho'
  have hd : ∀ (ω : F) k, dft ω (2 ^ size) (fun j => ((List.range (2 ^ size)).map d).getD j 0) k = dft ω (2 ^ size) d k := by
    intro ω k
    refine sum_congr rfl fun j hj => ?_
    beta_reduce
    rw [List.getD_eq_getElem?_getD, List.getElem?_map, List.getElem?_range (mem_range.1 hj)]; rfl
  simp only [hd] at hov
  have hc := allEqual_cases h.equals hx h3 hl hol
  have hrun : frInverse A size data ex = allEqual A.equals (2 ^ size) ex b := by
    rw [frInverse, h.newU, bind_ok, tab_data, bind_ok, h.wf.width, h1, unwrap_ok, bind_ok, hx.length, hl, assertT_true (by simp), bind_ok]
  rw [hrun]
  refine ⟨fun hall => hc.1 (List.ext_getElem? fun i => ?_), fun ⟨k, hk, hne⟩ => hc.2 fun heq => hne ?_⟩
  · by_cases hi : i < 2 ^ size
    · rw [hall i hi, hov i hi]
    · rw [List.getElem?_eq_none (by omega), List.getElem?_eq_none (by omega)]
  · rw [heq, hov k hk]

end

section
variable {F : Type} [Field F]

/-- `(w - 1) ∑ j w^j`, the transform of the numbers of the positions. -/
theorem ramp_sum (w : F) (n : Nat) : (w - 1) * ∑ j ∈ range n, (j : F) * w ^ j = n * w ^ n - ∑ j ∈ range n, w ^ (j + 1) := by
  induction n with
  | zero => simp
  | succ n ih =>
    rw [sum_range_succ, sum_range_succ, mul_add, ih]
    push_cast
    ring

theorem ramp_root {w : F} {n : Nat} (h1 : w ^ n = 1) (hw : w ≠ 1) : (w - 1) * ∑ j ∈ range n, (j : F) * w ^ j = n := by
  have hg : ∑ j ∈ range n, w ^ j = 0 := by
    have h := mul_geom_sum w n
    rw [h1, sub_self] at h
    exact (mul_eq_zero.1 h).resolve_left (sub_ne_zero.2 hw)
  rw [ramp_sum, h1, mul_one]
  simp only [pow_succ]
  rw [← sum_mul, hg, zero_mul, sub_zero]

/-- Different roots transform `c, c + 1, c + 2, …` differently. -/
theorem ramp_inj {w v c : F} {n : Nat} (hn : (n : F) ≠ 0) (hw : w ^ n = 1) (hv : v ^ n = 1) (hw1 : w ≠ 1) (hv1 : v ≠ 1)
    (h : ∑ j ∈ range n, w ^ j * ((j : F) + c) = ∑ j ∈ range n, v ^ j * ((j : F) + c)) : w = v := by
  have key : ∀ u : F, u ^ n = 1 → u ≠ 1 → (u - 1) * ∑ j ∈ range n, u ^ j * ((j : F) + c) = n := by
    intro u hu hu1
    have hg : ∑ j ∈ range n, u ^ j = 0 := by
      have h := mul_geom_sum u n
      rw [hu, sub_self] at h
      exact (mul_eq_zero.1 h).resolve_left (sub_ne_zero.2 hu1)
    rw [← ramp_root hu hu1]
    congr 1
    simp only [mul_add]
    rw [sum_add_distrib, ← sum_mul, hg, zero_mul, add_zero]
    exact sum_congr rfl fun j _ => mul_comm _ _
  have a := key w hw hw1
  have b := key v hv hv1
  rw [← h] at b
  have hne : ∑ j ∈ range n, w ^ j * ((j : F) + c) ≠ 0 := fun h0 => hn (by rw [← a, h0, mul_zero])
  have := mul_right_cancel₀ hne (a.trans b.symm)
  exact sub_left_injective this

end
end Kzg.Bench
