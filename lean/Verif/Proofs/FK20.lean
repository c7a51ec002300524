import Verif.Model.FK20
import Verif.Proofs.KZG
import Verif.Proofs.BitRev
/-!
# FK20: proofs
-/

set_option linter.unusedSectionVars false

namespace Kzg
open Res Polynomial Finset

variable {F G1 G2 : Type} [Field F] [AddCommGroup G1] [Module F G1] [AddCommGroup G2] [Module F G2]

/-! ### Loops -/

theorem push_loop {α : Type} {lo hi : Nat} (hle : lo ≤ hi) (acc : List α) (f : Nat → α)
    {body : Nat → List α → Res (List α)}
    (hbody : ∀ i s, lo ≤ i → i < hi → body i s = .ok (s ++ [f i])) :
    forRange lo hi acc body = .ok (acc ++ (List.range (hi - lo)).map fun i => f (lo + i)) := by
  obtain ⟨r, hr, h⟩ := forRange_inv (lo := lo) (hi := hi) (s := acc) (body := body)
    (fun i s => s = acc ++ (List.range (i - lo)).map fun i => f (lo + i)) hle (by simp) (by
      intro i s h1 h2 hs
      rw [hbody i s h1 h2]
      refine Sat.ok ?_
      rw [hs, show i + 1 - lo = (i - lo) + 1 by omega, List.range_succ, List.map_append,
        List.append_assoc, List.map_singleton, show lo + (i - lo) = i by omega])
  rw [hr, h]

theorem push_loop' {α : Type} {n : Nat} (f : Nat → α) {body : Nat → List α → Res (List α)}
    (hbody : ∀ i s, i < n → body i s = .ok (s ++ [f i])) :
    forRange 0 n [] body = .ok ((List.range n).map f) := by
  rw [push_loop (Nat.zero_le _) [] f (fun i s _ h => hbody i s h)]
  simp

theorem push_loop_state {α : Type} {lo hi : Nat} (hle : lo ≤ hi) (acc : List α) (j0 : Nat) (f : Nat → α)
    (g : Nat → Nat) (hg : g lo = j0)
    {body : Nat → List α × Nat → Res (List α × Nat)}
    (hbody : ∀ i s, lo ≤ i → i < hi → s.2 = g i → body i s = .ok (s.1 ++ [f i], g (i + 1))) :
    forRange lo hi (acc, j0) body =
      .ok (acc ++ (List.range (hi - lo)).map fun i => f (lo + i), g hi) := by
  obtain ⟨r, hr, h⟩ := forRange_inv (lo := lo) (hi := hi) (s := (acc, j0)) (body := body)
    (fun i s => s = (acc ++ (List.range (i - lo)).map fun i => f (lo + i), g i)) hle (by simp [hg]) (by
      intro i s h1 h2 hs
      rw [hbody i s h1 h2 (by rw [hs])]
      refine Sat.ok ?_
      rw [hs, show i + 1 - lo = (i - lo) + 1 by omega, List.range_succ, List.map_append,
        List.append_assoc, List.map_singleton, show lo + (i - lo) = i by omega])
  rw [hr, h]

theorem range_map_append {α : Type} (a b : Nat) (f g : Nat → α) :
    (List.range a).map f ++ (List.range b).map g =
      (List.range (a + b)).map fun i => if i < a then f i else g (i - a) := by
  rw [List.range_add, List.map_append, List.map_map]
  congr 1
  · exact List.map_congr_left fun i hi => (if_pos (List.mem_range.mp hi)).symm
  · refine List.map_congr_left fun i _ => ?_
    simp only [Function.comp]
    rw [if_neg (by omega), Nat.add_sub_cancel_left]

/-! ### Toeplitz coefficients -/

/-- Entry `i` of the circulant for offset `o` and stride `l`. -/
def tcoef (p : List F) (k l o i : Nat) : F :=
  if i = 0 then p.getD (k * l - 1 - o) 0 else if k + 2 ≤ i then p.getD ((i - k) * l - 1 - o) 0 else 0

theorem toeplitzCoeffs_spec (p : List F) {k l o : Nat} (hp : p.length = k * l) (hk : 0 < k) (ho : o < l) :
    toeplitzCoeffsStride p o l = .ok ((List.range (k * 2)).map (tcoef p k l o)) := by
  have hl : 0 < l := by omega
  have hkl : l ≤ k * l := Nat.le_mul_of_pos_left l hk
  unfold toeplitzCoeffsStride
  simp only
  rw [divU, if_neg (by omega), bind_ok, hp, Nat.mul_div_cancel _ hl]
  rw [subU_of_le (show 1 ≤ k * l by omega), bind_ok, subU_of_le (show o ≤ k * l - 1 by omega), bind_ok,
    rd_getD 0 (by omega), bind_ok, toeplitzZeros]
  by_cases hk2 : k + 2 < k * 2
  · rw [if_pos hk2, bind_ok, subU_of_le (show o ≤ 2 * l by omega), bind_ok,
      subU_of_le (show 1 ≤ 2 * l - o by omega), bind_ok, toeplitzTail,
      push_loop_state (by omega) _ _ (fun i => p.getD ((i - k) * l - 1 - o) 0)
        (fun i => (i - k) * l - 1 - o) (by
          rw [show k + 2 - k = 2 by omega]; omega) (by
          intro i s h1 h2 hs
          have e1 : (i - k) * l ≤ k * l := Nat.mul_le_mul_right l (by omega)
          have e2 : 2 * l ≤ (i - k) * l := Nat.mul_le_mul_right l (by omega)
          have e3 : (i + 1 - k) * l = (i - k) * l + l := by
            rw [show i + 1 - k = (i - k) + 1 by omega, Nat.succ_mul]
          rw [hs, rd_getD 0 (by omega), bind_ok]
          congr 2
          omega), bind_ok]
    simp only
    congr 1
    apply List.ext_getElem?
    intro i
    rw [List.getElem?_map]
    by_cases hi : i < k * 2
    · rw [List.getElem?_range hi, Option.map_some]
      unfold tcoef
      by_cases h0 : i = 0
      · subst h0; rw [if_pos rfl]; simp
      rw [if_neg h0]
      obtain ⟨i, rfl⟩ : ∃ j, i = j + 1 := ⟨i - 1, by omega⟩
      simp only [List.cons_append, List.nil_append, List.getElem?_cons_succ]
      by_cases h1 : k + 2 ≤ i + 1
      · rw [if_pos h1, List.getElem?_append_right (by simp; omega), List.getElem?_map,
          List.length_replicate, List.getElem?_range (by omega), Option.map_some]
        rw [show k + 2 + (i - (k + 2 - 1)) - k = i + 1 - k by omega]
      · rw [if_neg h1, List.getElem?_append_left (by simp; omega), List.getElem?_replicate,
          if_pos (by omega)]
    · rw [List.getElem?_eq_none (by simp; omega), List.getElem?_eq_none (by simp; omega)]; rfl
  · rw [if_neg hk2, subU_of_le (show 1 ≤ k * 2 by omega), bind_ok, subU_of_le (show o ≤ 2 * l by omega),
      bind_ok, subU_of_le (show 1 ≤ 2 * l - o by omega), bind_ok, toeplitzTail, forRange,
      show k * 2 - (k + 2) = 0 by omega, forLoop, bind_ok]
    simp only
    congr 1
    apply List.ext_getElem?
    intro i
    rw [List.getElem?_map]
    by_cases hi : i < k * 2
    · rw [List.getElem?_range hi, Option.map_some]
      unfold tcoef
      by_cases h0 : i = 0
      · subst h0; rw [if_pos rfl]; simp
      rw [if_neg h0, if_neg (by omega)]
      obtain ⟨i, rfl⟩ : ∃ j, i = j + 1 := ⟨i - 1, by omega⟩
      simp only [List.cons_append, List.nil_append, List.getElem?_cons_succ]
      rw [List.getElem?_replicate, if_pos (by omega)]
    · rw [List.getElem?_eq_none (by simp; omega), List.getElem?_eq_none (by simp; omega)]; rfl

/-! ### Transforms -/

theorem dft_congr {M : Type} [AddCommGroup M] [Module F M] {w : F} {n : Nat} {d e : Nat → M}
    (h : ∀ j < n, d j = e j) (i : Nat) : dft w n d i = dft w n e i :=
  sum_congr rfl fun j hj => by rw [h j (mem_range.mp hj)]

theorem fft_range {M : Type} [AddCommGroup M] [Module F M] {fs : FFTSettings F} {K : Nat} (hwf : fs.WF K)
    {m : Nat} (hm : m ≤ K) (d : Nat → M) :
    fs.fft ((List.range (2 ^ m)).map d) false =
      .ok ((List.range (2 ^ m)).map (dft (fs.omega (2 ^ m)) (2 ^ m) d)) := by
  obtain ⟨r, hr, hl, hv⟩ := hwf.fft_forward hm ((List.range (2 ^ m)).map d) (by simp)
  rw [hr]
  congr 1
  apply List.ext_getElem?
  intro i
  by_cases hi : i < 2 ^ m
  · rw [hv i hi, List.getElem?_map, List.getElem?_range hi, Option.map_some]
    congr 1
    exact dft_congr (fun j hj => by rw [getD_range_map, if_pos hj]) i
  · rw [List.getElem?_eq_none (by omega), List.getElem?_eq_none (by simp; omega)]

theorem ifft_range {M : Type} [AddCommGroup M] [Module F M] {fs : FFTSettings F} {K : Nat} (hwf : fs.WF K)
    {m : Nat} (hm : m ≤ K) (d : Nat → M) :
    fs.fft ((List.range (2 ^ m)).map (dft (fs.omega (2 ^ m)) (2 ^ m) d)) true =
      .ok ((List.range (2 ^ m)).map d) := by
  have := hwf.fft_roundtrip hm ((List.range (2 ^ m)).map d) (by simp)
  rwa [fft_range hwf hm, bind_ok] at this

/-- Cyclic convolution. -/
def cyc {M : Type} [AddCommGroup M] [Module F M] (D : Nat) (c : Nat → F) (x : Nat → M) (m : Nat) : M :=
  ∑ i ∈ range D, c ((m + D - i) % D) • x i

theorem sum_rotate {M : Type} [AddCommMonoid M] {D i : Nat} (hi : i ≤ D) (f : Nat → M) :
    ∑ m ∈ range D, f ((m + D - i) % D) = ∑ m ∈ range D, f m := by
  refine sum_nbij' (fun m => (m + D - i) % D) (fun m => (m + i) % D) ?_ ?_ ?_ ?_ ?_
  · intro m hm
    have := mem_range.mp hm
    exact mem_range.mpr (Nat.mod_lt _ (by omega))
  · intro m hm
    have := mem_range.mp hm
    exact mem_range.mpr (Nat.mod_lt _ (by omega))
  · intro m hm
    have := mem_range.mp hm
    rw [Nat.mod_add_mod, show m + D - i + i = m + D by omega, Nat.add_mod_right, Nat.mod_eq_of_lt this]
  · intro m hm
    have := mem_range.mp hm
    have e : (m + i) % D + D - i = (m + i) % D + (D - i) := by omega
    rw [e, Nat.mod_add_mod, show m + i + (D - i) = m + D by omega, Nat.add_mod_right,
      Nat.mod_eq_of_lt this]
  · intro m _; rfl

theorem dft_cyc {M : Type} [AddCommGroup M] [Module F M] {w : F} {D : Nat} (hw : w ^ D = 1) (c : Nat → F)
    (x : Nat → M) (i : Nat) : dft w D (cyc D c x) i = dft w D c i • dft w D x i := by
  by_cases hD : D = 0
  · subst hD; simp [dft]
  have hmod : ∀ a, w ^ (a % D) = w ^ a := fun a => by
    conv_rhs => rw [← Nat.div_add_mod a D, pow_add, pow_mul, hw, one_pow, one_mul]
  unfold dft cyc
  simp only [smul_sum]
  rw [sum_comm]
  refine sum_congr rfl fun j hj => ?_
  have hj' := mem_range.mp hj
  rw [sum_smul, ← sum_rotate (show j ≤ D by omega)
    (fun m => (w ^ (m * i) • c m) • w ^ (j * i) • x j)]
  refine sum_congr rfl fun m hm => ?_
  rw [smul_smul, smul_smul, smul_eq_mul]
  congr 1
  have : w ^ (m * i) = w ^ ((m + D - j) % D * i) * w ^ (j * i) := by
    rw [pow_mul w ((m + D - j) % D), hmod, ← pow_mul, ← pow_add, ← Nat.add_mul,
      show m + D - j + j = m + D by omega, Nat.add_mul, pow_add, pow_mul w D, hw, one_pow, mul_one]
  rw [this]; ring

theorem dft_sum {M ι : Type} [AddCommGroup M] [Module F M] (w : F) (D : Nat) (s : Finset ι)
    (f : ι → Nat → M) (i : Nat) :
    dft w D (fun j => ∑ o ∈ s, f o j) i = ∑ o ∈ s, dft w D (f o) i := by
  unfold dft
  simp only [smul_sum]
  rw [sum_comm]

/-! ### Parts -/

theorem part1_spec {fs : FFTSettings F} {K : Nat} (hwf : fs.WF K) {m : Nat} (hm : m + 1 ≤ K) (x : Nat → G1)
    (hx : ∀ i, 2 ^ m ≤ i → x i = 0) :
    fs.toeplitzPart1 ((List.range (2 ^ m)).map x) =
      .ok ((List.range (2 ^ (m + 1))).map (dft (fs.omega (2 ^ (m + 1))) (2 ^ (m + 1)) x)) := by
  unfold FFTSettings.toeplitzPart1
  simp only [List.length_map, List.length_range]
  rw [push_loop' x (by
    intro i s hi
    rw [rd_getD 0 (by simpa using hi), bind_ok, getD_range_map, if_pos hi]), bind_ok,
    push_loop (by omega) _ (fun _ => 0) (fun _ _ _ _ => rfl), bind_ok, range_map_append,
    show 2 ^ m + (2 ^ m * 2 - 2 ^ m) = 2 ^ (m + 1) by rw [pow_succ]; omega]
  have : (List.range (2 ^ (m + 1))).map (fun i => if i < 2 ^ m then x i else 0) =
      (List.range (2 ^ (m + 1))).map x := by
    refine List.map_congr_left fun i _ => ?_
    split
    · rfl
    · rw [hx i (by omega)]
  rw [this, show fs.fftG1 _ false = _ from fft_range hwf hm x]; rfl

theorem part2_spec {fs : FFTSettings F} {K : Nat} (hwf : fs.WF K) {m : Nat} (hm : m ≤ K) (c : Nat → F)
    (x : Nat → G1) :
    fs.toeplitzPart2 ((List.range (2 ^ m)).map c)
        ((List.range (2 ^ m)).map (dft (fs.omega (2 ^ m)) (2 ^ m) x)) =
      .ok ((List.range (2 ^ m)).map (dft (fs.omega (2 ^ m)) (2 ^ m) (cyc (2 ^ m) c x))) := by
  unfold FFTSettings.toeplitzPart2
  rw [show fs.fftFr _ false = _ from fft_range hwf hm c]
  simp only [unwrap_ok, bind_ok, List.length_map, List.length_range]
  refine push_loop' _ ?_
  intro i s hi
  rw [rd_getD 0 (by simpa using hi), bind_ok, rd_getD 0 (by simpa using hi), bind_ok, getD_range_map,
    if_pos hi, getD_range_map, if_pos hi, dft_cyc (hwf.omega_prim hm).pow_eq_one]

theorem clearRange_spec {d : Nat → G1} {n : Nat} :
    clearRange ((List.range (n * 2)).map d) n (n * 2) =
      .ok ((List.range (n * 2)).map fun i => if i < n then d i else 0) := by
  unfold clearRange
  rw [if_pos ⟨by omega, by simp⟩]
  congr 1
  apply List.ext_getElem?
  intro i
  rw [List.drop_of_length_le (by simp), List.append_nil, List.getElem?_map]
  by_cases hi : i < n
  · rw [List.getElem?_append_left (by simp; omega), List.getElem?_take, if_pos hi, List.getElem?_map,
      List.getElem?_range (by omega), Option.map_some, Option.map_some, if_pos hi]
  · rw [List.getElem?_append_right (by simp; omega), List.getElem?_replicate, List.length_take,
      List.length_map, List.length_range, Nat.min_eq_left (by omega)]
    by_cases hi' : i < n * 2
    · rw [if_pos (by omega), List.getElem?_range hi', Option.map_some, if_neg hi]
    · rw [if_neg (by omega), List.getElem?_eq_none (by simp; omega)]; rfl

theorem part3_spec {fs : FFTSettings F} {K : Nat} (hwf : fs.WF K) {m : Nat} (hm : m + 1 ≤ K)
    (h : Nat → G1) :
    fs.toeplitzPart3 ((List.range (2 ^ (m + 1))).map (dft (fs.omega (2 ^ (m + 1))) (2 ^ (m + 1)) h)) =
      .ok ((List.range (2 ^ (m + 1))).map fun i => if i < 2 ^ m then h i else 0) := by
  unfold FFTSettings.toeplitzPart3
  rw [show fs.fftG1 _ true = _ from ifft_range hwf hm h]
  simp only [unwrap_ok, bind_ok, List.length_map, List.length_range]
  rw [show 2 ^ (m + 1) / 2 = 2 ^ m by rw [pow_succ]; omega, show 2 ^ (m + 1) = 2 ^ m * 2 from pow_succ _ _]
  exact clearRange_spec

/-! ### Algebra -/

theorem sum_range_mul {M : Type} [AddCommMonoid M] (f : Nat → M) (l : Nat) : ∀ k,
    ∑ u ∈ range (k * l), f u = ∑ e ∈ range k, ∑ r ∈ range l, f (e * l + r)
  | 0 => by simp
  | k + 1 => by rw [Nat.succ_mul, sum_range_add, sum_range_mul f l k, sum_range_succ]

/-- Entry of the selected points for offset `o`. -/
def selPt (g1 : G1) (s : F) (k l o i : Nat) : G1 := if i < k - 1 then s ^ ((k - 1 - i) * l - 1 - o) • g1 else 0

/-- `h_m`, the coefficients of the vector whose transform gives the proofs. -/
def hvec (p : List F) (s : F) (k l m : Nat) : F :=
  ∑ u ∈ range ((k - 1) * l), p.getD ((m + 1) * l + u) 0 * s ^ u

theorem tcoef_idx (p : List F) {k l o m i : Nat} (hp : p.length = k * l) (ho : o < l) (hm : m < k)
    (hi : i < k - 1) : tcoef p k l o ((m + k * 2 - i) % (k * 2)) = p.getD ((m + k - i) * l - 1 - o) 0 := by
  have hkl : l ≤ k * l := Nat.le_mul_of_pos_left l (by omega)
  unfold tcoef
  rcases lt_trichotomy i m with h | h | h
  · have e : (m + k * 2 - i) % (k * 2) = m - i := by
      rw [show m + k * 2 - i = (m - i) + k * 2 by omega, Nat.add_mod_right, Nat.mod_eq_of_lt (by omega)]
    have e2 : (k + 1) * l ≤ (m + k - i) * l := Nat.mul_le_mul_right l (by omega)
    rw [Nat.succ_mul] at e2
    rw [e, if_neg (by omega), if_neg (by omega), List.getD_eq_default _ _ (by omega)]
  · subst h
    rw [show i + k * 2 - i = k * 2 by omega, Nat.mod_self, if_pos rfl, show i + k - i = k by omega]
  · rw [Nat.mod_eq_of_lt (by omega), if_neg (by omega), if_pos (by omega),
      show m + k * 2 - i - k = m + k - i by omega]

theorem cyc_hvec (p : List F) (g1 : G1) (s : F) {k l m : Nat} (hp : p.length = k * l)
    (hm : m < k) :
    ∑ o ∈ range l, cyc (k * 2) (tcoef p k l o) (selPt g1 s k l o) m = hvec p s k l m • g1 := by
  have h1 : ∀ o ∈ range l, cyc (k * 2) (tcoef p k l o) (selPt g1 s k l o) m =
      ∑ e ∈ range (k - 1), (p.getD ((m + 1) * l + (e * l + (l - 1 - o))) 0 * s ^ (e * l + (l - 1 - o))) • g1 := by
    intro o ho
    have ho' := mem_range.mp ho
    unfold cyc
    rw [← sum_range_reflect _ (k - 1)]
    symm
    refine sum_subset_zero_on_sdiff (range_subset_range.mpr (by omega)) ?_ ?_
    · intro i hi
      rw [mem_sdiff, mem_range, mem_range] at hi
      rw [selPt, if_neg (by omega), smul_zero]
    · intro i hi
      have hi' := mem_range.mp hi
      rw [tcoef_idx p hp ho' hm hi', selPt, if_pos hi', smul_smul]
      have e1 : (k - 1 - i) * l = (k - 1 - 1 - i) * l + l := by
        rw [← Nat.succ_mul]; congr 1; omega
      have e2 : (m + k - i) * l = (m + 1) * l + ((k - 1 - 1 - i) * l + l) := by
        rw [← e1, ← Nat.add_mul]; congr 1; omega
      congr 3
      · omega
      · omega
  rw [sum_congr rfl h1, sum_range_reflect (fun o => ∑ e ∈ range (k - 1),
    (p.getD ((m + 1) * l + (e * l + o)) 0 * s ^ (e * l + o)) • g1) l, sum_comm, hvec, sum_smul,
    sum_range_mul _ l (k - 1)]

/-- The quotient by `X^l - c` in terms of `hvec`. -/
theorem quotient_hvec (p : List F) (s c : F) {k l : Nat} (hp : p.length = k * l) (hl : 0 < l) :
    (polyOf p / (X ^ l - C c)).eval s = ∑ m ∈ range k, c ^ m * hvec p s k l m := by
  by_cases hk : k = 0
  · subst hk
    have hp0 : p = [] := List.length_eq_zero_iff.mp (by simpa using hp)
    subst hp0
    simp [polyOf]
  set q : Nat → F := fun u => ∑ m ∈ range k, c ^ m * p.getD ((m + 1) * l + u) 0 with hq
  have hq0 : ∀ u, (k - 1) * l ≤ u → q u = 0 := by
    intro u hu
    refine sum_eq_zero fun m _ => ?_
    have e1 : k * l = (k - 1) * l + l := by rw [← Nat.succ_mul]; congr 1; omega
    have e2 : l ≤ (m + 1) * l := Nat.le_mul_of_pos_left l (by omega)
    rw [List.getD_eq_default _ _ (by omega), mul_zero]
  have hrec : ∀ u, q u = p.getD (u + l) 0 + c * q (u + l) := by
    intro u
    have e : ∀ m, (m + 1) * l + (u + l) = (m + 1 + 1) * l + u := fun m => by ring
    have hz : p.getD ((k + 1) * l + u) 0 = 0 :=
      List.getD_eq_default _ _ (by rw [hp, Nat.succ_mul]; omega)
    have h1 := sum_range_succ (fun m => c ^ m * p.getD ((m + 1) * l + u) 0) k
    rw [hz, mul_zero, add_zero] at h1
    simp only [hq]
    rw [← h1, sum_range_succ', mul_sum, add_comm]
    congr 1
    · rw [pow_zero, one_mul]; congr 1; ring
    · refine sum_congr rfl fun m _ => ?_
      rw [e, pow_succ]; ring
  have hcoef : ∀ i, (polyOf ((List.range ((k - 1) * l)).map q)).coeff i = q i := by
    intro i
    rw [coeff_polyOf, getD_range_map]
    split
    · rfl
    · rw [hq0 i (by omega)]
  have hne : (X ^ l - C c : F[X]) ≠ 0 := X_pow_sub_C_ne_zero hl c
  have hdiv : polyOf ((List.range ((k - 1) * l)).map q) = polyOf p / (X ^ l - C c) := by
    classical
    refine quotient_unique hne ?_
    rw [degree_X_pow_sub_C hl, degree_lt_iff_coeff_zero]
    intro i hi
    obtain ⟨u, rfl⟩ : ∃ u, i = u + l := ⟨i - l, by omega⟩
    rw [coeff_sub, mul_sub, coeff_sub, coeff_mul_X_pow, coeff_mul_C, hcoef, hcoef, coeff_polyOf, hrec u]
    ring
  rw [← hdiv, eval_polyOf, List.length_map, List.length_range]
  have : ∀ u ∈ range ((k - 1) * l), ((List.range ((k - 1) * l)).map q).getD u 0 * s ^ u =
      ∑ m ∈ range k, c ^ m * (p.getD ((m + 1) * l + u) 0 * s ^ u) := by
    intro u hu
    rw [getD_range_map, if_pos (mem_range.mp hu), hq, sum_mul]
    exact sum_congr rfl fun m _ => by ring
  rw [sum_congr rfl this, sum_comm]
  refine sum_congr rfl fun m _ => ?_
  rw [hvec, mul_sum]

theorem dft_hvec (p : List F) (g1 : G1) (s w : F) {k l : Nat} (hp : p.length = k * l) (hl : 0 < l) (j : Nat) :
    dft w (k * 2) (fun i => if i < k then hvec p s k l i • g1 else 0) j =
      (polyOf p / (X ^ l - C (w ^ j))).eval s • g1 := by
  rw [quotient_hvec p s _ hp hl, sum_smul]
  unfold dft
  symm
  refine sum_subset_zero_on_sdiff (range_subset_range.mpr (by omega)) ?_ ?_
  · intro i hi
    rw [mem_sdiff, mem_range, mem_range] at hi
    beta_reduce
    rw [if_neg hi.2, smul_zero]
  · intro i hi
    beta_reduce
    rw [if_pos (mem_range.mp hi), smul_smul, ← pow_mul, mul_comm j i]

/-! ### Single proofs -/

/-- Settings for polynomials of `2^m` coefficients. -/
theorem single_new {ks : KZGSettings F G1 G2} {g1 : G1} {g2 : G2} {s : F} {N K : Nat} (hw : ks.WF g1 g2 s N K)
    {m : Nat} (hm : m + 1 ≤ K) :
    FK20Single.new ks (2 ^ (m + 1)) = .ok ⟨ks, (List.range (2 ^ (m + 1))).map
      (dft (ks.fs.omega (2 ^ (m + 1))) (2 ^ (m + 1)) (selPt g1 s (2 ^ m) 1 0))⟩ := by
  have hle : 2 ^ (m + 1) ≤ 2 ^ K := Nat.pow_le_pow_right (by omega) hm
  have hpos : 0 < 2 ^ m := by positivity
  have hp1 : 2 ^ (m + 1) = 2 ^ m * 2 := pow_succ _ _
  have hN := hw.le
  unfold FK20Single.new
  simp only
  rw [if_neg (by rw [hw.fs.width]; omega), isPowerOfTwo_two_pow, if_neg (by simp), if_neg (by omega),
    show 2 ^ (m + 1) / 2 = 2 ^ m by omega, subU_of_le (show 1 ≤ 2 ^ m by omega), bind_ok,
    push_loop' (fun i => s ^ (2 ^ m - 2 - i) • g1) (by
      intro i acc hi
      rw [subU_of_le (show 2 ≤ 2 ^ m by omega), bind_ok, subU_of_le (show i ≤ 2 ^ m - 2 by omega), bind_ok,
        hw.s1, rd_getD 0 (by simp; omega), bind_ok, getD_range_map, if_pos (by omega)]), bind_ok]
  have : (List.range (2 ^ m - 1)).map (fun i => s ^ (2 ^ m - 2 - i) • g1) ++ [0] =
      (List.range (2 ^ m)).map (selPt g1 s (2 ^ m) 1 0) := by
    have e : List.range (2 ^ m) = List.range (2 ^ m - 1) ++ [2 ^ m - 1] := by
      rw [← List.range_succ]; congr 1; omega
    rw [e, List.map_append]
    congr 1
    · refine List.map_congr_left fun i hi => ?_
      rw [selPt, if_pos (List.mem_range.mp hi)]
      congr 2
      omega
    · rw [List.map_singleton, selPt, if_neg (by omega)]
  rw [this, part1_spec hw.fs hm _ (fun i hi => by rw [selPt, if_neg (by omega)]), bind_ok]

theorem single_opt {ks : KZGSettings F G1 G2} {g1 : G1} {g2 : G2} {s : F} {N K : Nat} (hw : ks.WF g1 g2 s N K)
    {m : Nat} (hm : m + 1 ≤ K) {fk : FK20Single F G1 G2} (hfk : FK20Single.new ks (2 ^ (m + 1)) = .ok fk)
    (p : List F) (hp : p.length = 2 ^ m) :
    fk.daOptimized p = .ok ((List.range (2 ^ (m + 1))).map fun j =>
      (polyOf p / (X ^ 1 - C (ks.fs.omega (2 ^ (m + 1)) ^ j))).eval s • g1) := by
  rw [single_new hw hm] at hfk
  cases hfk
  have hle : 2 ^ (m + 1) ≤ 2 ^ K := Nat.pow_le_pow_right (by omega) hm
  have hp1 : 2 ^ (m + 1) = 2 ^ m * 2 := pow_succ _ _
  have hpos : 0 < 2 ^ m := by positivity
  have hpl : p.length = 2 ^ m * 1 := by omega
  unfold FK20Single.daOptimized
  simp only
  rw [hp, ← hp1, if_neg (by rw [hw.fs.width]; omega), isPowerOfTwo_two_pow, if_neg (by simp),
    toeplitzCoeffsStep, toeplitzCoeffs_spec p hpl hpos (by omega), bind_ok, ← hp1,
    part2_spec hw.fs hm, bind_ok, part3_spec hw.fs hm, bind_ok,
    show ks.fs.fftG1 _ false = _ from fft_range hw.fs hm _, unwrap_ok]
  congr 1
  refine List.map_congr_left fun j _ => ?_
  rw [hp1, ← dft_hvec p g1 s _ hpl (by omega) j]
  refine dft_congr (fun i _ => ?_) j
  split
  · next hi =>
    rw [← cyc_hvec p g1 s hpl hi, sum_range_one]
  · rfl

theorem single_da {ks : KZGSettings F G1 G2} {g1 : G1} {g2 : G2} {s : F} {N K : Nat} (hw : ks.WF g1 g2 s N K)
    {m : Nat} (hm : m + 1 ≤ K) {fk : FK20Single F G1 G2} (hfk : FK20Single.new ks (2 ^ (m + 1)) = .ok fk)
    (p : List F) (hp : p.length = 2 ^ m) :
    fk.da p = (do let r ← fk.daOptimized p; reverseBitOrder r) := by
  have hopt := single_opt hw hm hfk p hp
  rw [single_new hw hm] at hfk
  cases hfk
  have hle : 2 ^ (m + 1) ≤ 2 ^ K := Nat.pow_le_pow_right (by omega) hm
  have hp1 : 2 ^ (m + 1) = 2 ^ m * 2 := pow_succ _ _
  unfold FK20Single.da
  simp only
  rw [hp, ← hp1, if_neg (by rw [hw.fs.width]; omega), isPowerOfTwo_two_pow, if_neg (by simp), hopt]
  rfl

/-! ### Multi proofs -/

theorem multiSelect_spec {ks : KZGSettings F G1 G2} {g1 : G1} {g2 : G2} {s : F} {N K : Nat}
    (hw : ks.WF g1 g2 s N K) {k l o : Nat} (hk : 0 < k) (ho : o < l) (hN : k * l ≤ N) :
    multiSelect ks (k * l) k l o = .ok ((List.range k).map (selPt g1 s k l o)) := by
  unfold multiSelect
  dsimp only
  rcases Nat.lt_or_ge 1 k with h1 | h1
  · have hkl : 2 * l ≤ k * l := Nat.mul_le_mul_right l h1
    have e0 : k * l = (k - 1) * l + l := by rw [← Nat.succ_mul]; congr 1; omega
    rw [if_pos (by omega), push_loop_state (Nat.zero_le _) [] _
      (fun i => s ^ ((k - 1 - i) * l - 1 - o) • g1) (fun i => (k - 1 - i) * l - 1 - o) (by
        rw [Nat.sub_zero, e0]; omega) (by
        intro i st _ hi hst
        have e1 : (k - 1 - i) * l ≤ (k - 1) * l := Nat.mul_le_mul_right l (by omega)
        have e2 : (k - 1 - i) * l = (k - 1 - (i + 1)) * l + l := by
          rw [← Nat.succ_mul]; congr 1; omega
        rw [hst, hw.s1, rd_getD 0 (by simp; omega), bind_ok, getD_range_map, if_pos (by omega)]
        congr 2
        split
        · omega
        · have : (k - 1 - (i + 1)) * l < l := by omega
          have : k - 1 - (i + 1) = 0 := by
            by_contra hne
            have := Nat.le_mul_of_pos_left l (Nat.pos_of_ne_zero hne)
            omega
          rw [this]; omega), bind_ok]
    simp only
    congr 1
    have e : List.range k = List.range (k - 1) ++ [k - 1] := by
      rw [← List.range_succ]; congr 1; omega
    rw [e, List.map_append, List.nil_append]
    congr 1
    · refine List.map_congr_left fun i hi => ?_
      rw [selPt, if_pos (by simpa using hi), Nat.zero_add]
    · rw [List.map_singleton, selPt, if_neg (by omega)]
  · have hk1 : k = 1 := by omega
    subst hk1
    rw [show 1 - 1 = 0 from rfl, forRange_zero_zero, bind_ok]
    simp only
    congr 1

theorem multi_new {ks : KZGSettings F G1 G2} {g1 : G1} {g2 : G2} {s : F} {N K : Nat} (hw : ks.WF g1 g2 s N K)
    {m c : Nat} (hm : m + c + 1 ≤ K) :
    FK20Multi.new ks (2 ^ (m + c + 1)) (2 ^ c) = .ok ⟨ks, 2 ^ c, (List.range (2 ^ c)).map fun o =>
      (List.range (2 ^ (m + 1))).map
        (dft (ks.fs.omega (2 ^ (m + 1))) (2 ^ (m + 1)) (selPt g1 s (2 ^ m) (2 ^ c) o))⟩ := by
  have hle : 2 ^ (m + c + 1) ≤ 2 ^ K := Nat.pow_le_pow_right (by omega) hm
  have hpos : 0 < 2 ^ m := by positivity
  have hposc : 0 < 2 ^ c := by positivity
  have hp1 : 2 ^ (m + c + 1) = 2 ^ (m + c) * 2 := pow_succ _ _
  have hp2 : 2 ^ (m + c) = 2 ^ m * 2 ^ c := pow_add _ _ _
  have hcl : 2 ^ c ≤ 2 ^ (m + c) := Nat.pow_le_pow_right (by omega) (by omega)
  have hN := hw.le
  unfold FK20Multi.new
  simp only
  rw [if_neg (by rw [hw.fs.width]; omega), isPowerOfTwo_two_pow, if_neg (by simp), if_neg (by omega),
    show 2 ^ (m + c + 1) / 2 = 2 ^ (m + c) by omega, if_neg (by omega), isPowerOfTwo_two_pow,
    if_neg (by simp), hp2, Nat.mul_div_cancel _ hposc,
    push_loop' (fun o => (List.range (2 ^ (m + 1))).map
        (dft (ks.fs.omega (2 ^ (m + 1))) (2 ^ (m + 1)) (selPt g1 s (2 ^ m) (2 ^ c) o))) (by
      intro o acc ho
      rw [multiSelect_spec hw hpos ho (by omega), bind_ok,
        part1_spec hw.fs (by omega) _ (fun i hi => by rw [selPt, if_neg (by omega)]), bind_ok]), bind_ok]

theorem accumulate_spec {ks : KZGSettings F G1 G2} {g1 : G1} {g2 : G2} {s : F} {N K : Nat}
    (hw : ks.WF g1 g2 s N K) {m c : Nat} (hm : m + c + 1 ≤ K) {fk : FK20Multi F G1 G2}
    (hfk : FK20Multi.new ks (2 ^ (m + c + 1)) (2 ^ c) = .ok fk)
    (p : List F) (hp : p.length = 2 ^ m * 2 ^ c) :
    fk.accumulate p (2 ^ m * 2) = .ok ((List.range (2 ^ (m + 1))).map
      (dft (ks.fs.omega (2 ^ (m + 1))) (2 ^ (m + 1)) fun i => ∑ o ∈ range (2 ^ c),
        cyc (2 ^ (m + 1)) (tcoef p (2 ^ m) (2 ^ c) o) (selPt g1 s (2 ^ m) (2 ^ c) o) i)) := by
  rw [multi_new hw hm] at hfk
  cases hfk
  have hpos : 0 < 2 ^ m := by positivity
  have hp1 : 2 ^ (m + 1) = 2 ^ m * 2 := pow_succ _ _
  unfold FK20Multi.accumulate
  simp only
  rw [← hp1]
  obtain ⟨r, hr, h⟩ := forRange_inv (lo := 0) (hi := 2 ^ c) (s := List.replicate (2 ^ (m + 1)) (0 : G1))
    (body := fun i hExtFft => do
      let coeffs ← toeplitzCoeffsStride p i (2 ^ c)
      let f ← rd ((List.range (2 ^ c)).map fun o => (List.range (2 ^ (m + 1))).map
        (dft (ks.fs.omega (2 ^ (m + 1))) (2 ^ (m + 1)) (selPt g1 s (2 ^ m) (2 ^ c) o))) i
      let file ← ks.fs.toeplitzPart2 coeffs f
      forRange 0 (2 ^ (m + 1)) hExtFft fun j acc => do
        let a ← rd acc j
        let b ← rd file j
        wr acc j (a + b))
    (fun t acc => acc = (List.range (2 ^ (m + 1))).map
      fun i => ∑ o ∈ range t, dft (ks.fs.omega (2 ^ (m + 1))) (2 ^ (m + 1))
        (cyc (2 ^ (m + 1)) (tcoef p (2 ^ m) (2 ^ c) o) (selPt g1 s (2 ^ m) (2 ^ c) o)) i) (Nat.zero_le _)
    (by simp [List.map_const']) (by
      intro o acc _ ho hacc
      rw [toeplitzCoeffs_spec p hp hpos ho, bind_ok, rd_getD [] (by simpa using ho), bind_ok, getD_range_map,
        if_pos ho, ← hp1, part2_spec hw.fs (by omega), bind_ok,
        fill_loop (by rw [hacc]; simp) (fun i => ∑ o ∈ range (o + 1),
          dft (ks.fs.omega (2 ^ (m + 1))) (2 ^ (m + 1))
          (cyc (2 ^ (m + 1)) (tcoef p (2 ^ m) (2 ^ c) o) (selPt g1 s (2 ^ m) (2 ^ c) o)) i) (by
          intro i st hi hl _ h2
          have : st[i]? = some _ := (h2 i le_rfl).trans (getElem?_eq_some_getD 0 (by rw [hacc]; simpa using hi))
          rw [rd_of_getElem? this, bind_ok, rd_getD 0 (by simpa using hi), bind_ok, hacc, getD_range_map,
            if_pos hi, getD_range_map, if_pos hi, sum_range_succ])]
      exact Sat.ok rfl)
  rw [hr, h]
  congr 1
  refine List.map_congr_left fun i _ => ?_
  rw [dft_sum]

theorem multi_opt {ks : KZGSettings F G1 G2} {g1 : G1} {g2 : G2} {s : F} {N K : Nat} (hw : ks.WF g1 g2 s N K)
    {m c : Nat} (hm : m + c + 1 ≤ K) {fk : FK20Multi F G1 G2}
    (hfk : FK20Multi.new ks (2 ^ (m + c + 1)) (2 ^ c) = .ok fk)
    (p : List F) (hp : p.length = 2 ^ (m + c)) :
    fk.daOptimized p = .ok ((List.range (2 ^ (m + 1))).map fun j =>
      (polyOf p / (X ^ 2 ^ c - C (ks.fs.omega (2 ^ (m + 1)) ^ j))).eval s • g1) := by
  have hp2 : 2 ^ (m + c) = 2 ^ m * 2 ^ c := pow_add _ _ _
  have hacc := accumulate_spec hw hm hfk p (by omega)
  rw [multi_new hw hm] at hfk
  cases hfk
  have hle : 2 ^ (m + c + 1) ≤ 2 ^ K := Nat.pow_le_pow_right (by omega) hm
  have hp1 : 2 ^ (m + 1) = 2 ^ m * 2 := pow_succ _ _
  have hp3 : 2 ^ (m + c + 1) = 2 ^ (m + c) * 2 := pow_succ _ _
  have hpos : 0 < 2 ^ m := by positivity
  have hposc : 0 < 2 ^ c := by positivity
  have hm1 : m + 1 ≤ K := by omega
  unfold FK20Multi.daOptimized
  simp only
  rw [hp, ← hp3, if_neg (by rw [hw.fs.width]; omega), isPowerOfTwo_two_pow, if_neg (by simp),
    show 2 ^ (m + c + 1) / 2 = 2 ^ (m + c) by omega, divU, if_neg (by omega), bind_ok, hp2,
    Nat.mul_div_cancel _ hposc, hacc, bind_ok, part3_spec hw.fs hm1, bind_ok, hp1, clearRange_spec, bind_ok,
    ← hp1, show ks.fs.fftG1 _ false = _ from fft_range hw.fs hm1 _, unwrap_ok]
  congr 1
  refine List.map_congr_left fun j _ => ?_
  rw [hp1, ← dft_hvec p g1 s _ (hp.trans hp2) hposc j]
  refine dft_congr (fun i _ => ?_) j
  split
  · next hi => rw [cyc_hvec p g1 s (hp.trans hp2) hi]
  · rfl

theorem multi_da {ks : KZGSettings F G1 G2} {g1 : G1} {g2 : G2} {s : F} {N K : Nat} (hw : ks.WF g1 g2 s N K)
    {m c : Nat} (hm : m + c + 1 ≤ K) {fk : FK20Multi F G1 G2}
    (hfk : FK20Multi.new ks (2 ^ (m + c + 1)) (2 ^ c) = .ok fk)
    (p : List F) (hp : p.length = 2 ^ (m + c)) :
    fk.da p = (do let r ← fk.daOptimized p; reverseBitOrder r) := by
  have hopt := multi_opt hw hm hfk p hp
  rw [multi_new hw hm] at hfk
  cases hfk
  have hle : 2 ^ (m + c + 1) ≤ 2 ^ K := Nat.pow_le_pow_right (by omega) hm
  have hp3 : 2 ^ (m + c + 1) = 2 ^ (m + c) * 2 := pow_succ _ _
  unfold FK20Multi.da
  simp only
  rw [hp, ← hp3, if_neg (by rw [hw.fs.width]; omega), isPowerOfTwo_two_pow, if_neg (by simp), hopt]
  rfl

end Kzg
