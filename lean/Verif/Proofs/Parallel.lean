import Verif.Model.Parallel
import Verif.Proofs.Conc
import Mathlib.Tactic.Ring
import Mathlib.Tactic.Positivity
import Mathlib.Tactic.NormNum
/-!
# The concurrent transforms as tasks with disjoint footprints
-/

namespace Kzg.Conc
open Kzg Kzg.Res

variable {F M : Type} [Field F] [AddCommGroup M] [Module F M]

/-- The cells of a slice. -/
def cells (b n : Nat) : Set Nat := {a | b ≤ a ∧ a < b + n}

theorem cells_low (b n k : Nat) : ∀ a ∈ cells b n, a ∈ cells b (n + k) :=
  fun _ h => ⟨h.1, by have := h.2; omega⟩

theorem cells_high (b n k : Nat) : ∀ a ∈ cells (b + n) k, a ∈ cells b (n + k) :=
  fun _ h => ⟨by have := h.1; omega, by have := h.2; omega⟩

theorem cells_disjoint (b n k : Nat) : ∀ a, a ∈ cells b n → a ∉ cells (b + n) k :=
  fun _ h h' => by have := h.2; have := h'.1; omega

theorem butterflyT_spec {b h : Nat} {roots : List F} {rs i : Nat} (hi : i < h) (hr : i * rs < roots.length) :
    Within (cells b (h + h)) (butterflyT (M := M) b h roots rs i) ∧ Separate (butterflyT (M := M) b h roots rs i) ∧
    ∀ m : Mem M, (do
      let y ← rd (region m b (h + h)) (i + h)
      let root ← rd roots (i * rs)
      let yTimesRoot := root • y
      let x ← rd (region m b (h + h)) i
      let r ← wr (region m b (h + h)) (i + h) (x - yTimesRoot)
      let x ← rd r i
      wr r i (x + yTimesRoot)) = .ok (region (eval (butterflyT b h roots rs i) m) b (h + h)) := by
  have m1 : b + (i + h) ∈ cells b (h + h) := ⟨by omega, by omega⟩
  have m2 : b + i ∈ cells b (h + h) := ⟨by omega, by omega⟩
  unfold butterflyT
  simp only [rd_of_lt hr]
  refine ⟨.read m1 fun _ => .read m2 fun _ => .write m1 <| .read m2 fun _ => .write m2 .done,
    .read fun _ => .read fun _ => .write <| .read fun _ => .write .done, fun m => ?_⟩
  rw [rd_region m (by omega), bind_ok, bind_ok, rd_region m (by omega), bind_ok, wr_region m _ (by omega), bind_ok,
    rd_region _ (by omega), bind_ok, wr_region _ _ (by omega)]
  simp only [eval]

omit [AddCommGroup M] in
/-- Joined or in sequence, two tasks on the two halves of a slice. -/
theorem halves_spec {cut : Bool} {b n k : Nat} {lo hi : Task M} (wl : Within (cells b n) lo) (sl : Separate lo)
    (wh : Within (cells (b + n) k) hi) (sh : Separate hi) :
    Within (cells b (n + k)) (if cut then .join lo hi else .seq lo hi) ∧
    Separate (if cut then .join lo hi else .seq lo hi) ∧
    ∀ m, eval (if cut then .join lo hi else .seq lo hi) m = eval hi (eval lo m) := by
  have w1 := wl.mono (cells_low b n k)
  have w2 := wh.mono (cells_high b n k)
  cases cut
  · exact ⟨.seq w1 w2, .seq sl sh, fun m => rfl⟩
  · exact ⟨.join w1 w2, .join (cells_disjoint b n k) wl wh sl sh, fun m => rfl⟩

omit [AddCommGroup M] in
theorem region_halves {b n k : Nat} {lo hi : Task M} (wl : Within (cells b n) lo)
    (wh : Within (cells (b + n) k) hi) (m : Mem M) :
    region (eval hi (eval lo m)) b (n + k) = region (eval lo m) b n ++ region (eval hi m) (b + n) k := by
  rw [← region_append]
  congr 1
  · apply region_congr
    intro i hi
    exact (eval_off wh _ _ (cells_disjoint b n k _ ⟨by omega, by omega⟩)).symm
  · apply region_congr
    intro i hi
    refine (eval_on wh m (eval lo m) (fun a ha => ?_) _ ⟨by omega, by omega⟩).symm
    exact eval_off wl m a fun h => cells_disjoint b n k a h ha

theorem fftTask_spec (cut : Nat → Bool) (roots : List F) (k : Nat) :
    ∀ (b : Nat) (data : List M) (stride rs : Nat), (2 ^ k - 1) * stride < data.length →
      (∀ i, i < 2 ^ k / 2 → i * rs < roots.length) →
      Within (cells b (2 ^ k)) (fftTask cut b (2 ^ k) data stride roots rs) ∧
      Separate (fftTask cut b (2 ^ k) data stride roots rs) ∧
      ∀ m : Mem M, fftFast (region m b (2 ^ k)) data stride roots rs
        = .ok (region (eval (fftTask cut b (2 ^ k) data stride roots rs) m) b (2 ^ k)) := by
  induction k with
  | zero =>
    intro b data stride rs hd hr
    have h0 : 0 < data.length := by omega
    rw [fftTask]
    simp only [pow_zero, Nat.reduceDiv, gt_iff_lt, Nat.lt_irrefl, dif_neg, not_false_eq_true, rd_of_lt h0]
    refine ⟨.write ⟨by omega, by omega⟩ .done, .write .done, fun m => ?_⟩
    rw [fftFast]
    simp only [region_length, Nat.reduceDiv, gt_iff_lt, Nat.lt_irrefl, dif_neg, not_false_eq_true, rd_of_lt h0,
      bind_ok, wr_region m _ (show 0 < 1 by omega)]
    rfl
  | succ k ih =>
    intro b data stride rs hd hr
    have hp : 0 < 2 ^ k := by positivity
    have e2 : 2 ^ (k + 1) = 2 ^ k + 2 ^ k := by rw [pow_succ]; omega
    have hh : (2 ^ k + 2 ^ k) / 2 = 2 ^ k := by omega
    have hmul : (2 ^ (k + 1) - 1) * stride = (2 ^ k - 1) * (stride * 2) + stride := by
      obtain ⟨t, ht⟩ : ∃ t, 2 ^ k = t + 1 := ⟨2 ^ k - 1, by omega⟩
      rw [e2, ht, show t + 1 + (t + 1) - 1 = 2 * t + 1 by omega, show t + 1 - 1 = t by omega]
      ring
    have hds : stride ≤ data.length := by rw [hmul] at hd; omega
    have hr1 : ∀ i, i < 2 ^ k / 2 → i * (rs * 2) < roots.length := by
      intro i hi
      have := hr (2 * i) (by omega)
      rwa [show i * (rs * 2) = 2 * i * rs by ring]
    obtain ⟨wl, sl, el⟩ := ih b data (stride * 2) (rs * 2) (by rw [hmul] at hd; omega) hr1
    obtain ⟨wh, sh, eh⟩ := ih (b + 2 ^ k) (data.drop stride) (stride * 2) (rs * 2)
      (by rw [List.length_drop]; rw [hmul] at hd; omega) hr1
    have hbody : ∀ i, i < 2 ^ k → i * rs < roots.length := fun i hi => hr i (by omega)
    rw [fftTask]
    simp only [e2, hh, hp, dif_pos, sliceFrom, if_pos hds, Nat.add_sub_cancel]
    obtain ⟨w, s, e⟩ := halves_spec (cut := cut (2 ^ k + 2 ^ k)) wl sl wh sh
    refine ⟨.seq w (loopT_within _ _ fun i _ hi => (butterflyT_spec (by omega) (hbody i (by omega))).1),
      .seq s (loopT_separate _ _ fun i _ hi => (butterflyT_spec (b := b) (by omega) (hbody i (by omega))).2.1), ?_⟩
    intro m
    rw [fftFast]
    simp only [region_length, hh, hp, dif_pos]
    rw [region_take _ _ (by omega), region_drop _ _ (by omega), el, bind_ok, sliceFrom, if_pos hds, bind_ok,
      Nat.add_sub_cancel, eh, bind_ok, ← region_halves wl wh, ← e m, eval]
    have := loopT_eval (b := b) (k := 2 ^ k + 2 ^ k) (body := butterflyT b (2 ^ k) roots rs)
      (f := fun i r => do
        let y ← rd r (i + 2 ^ k)
        let root ← rd roots (i * rs)
        let yTimesRoot := root • y
        let x ← rd r i
        let r ← wr r (i + 2 ^ k) (x - yTimesRoot)
        let x ← rd r i
        wr r i (x + yTimesRoot)) (2 ^ k) 0
      (fun i _ hi m => (butterflyT_spec (b := b) (h := 2 ^ k) (by omega) (hbody i (by omega))).2.2 m)
      (eval (if cut (2 ^ k + 2 ^ k) = true then
          (fftTask cut b (2 ^ k) data (stride * 2) roots (rs * 2)).join
            (fftTask cut (b + 2 ^ k) (2 ^ k) (List.drop stride data) (stride * 2) roots (rs * 2))
        else
          (fftTask cut b (2 ^ k) data (stride * 2) roots (rs * 2)).seq
            (fftTask cut (b + 2 ^ k) (2 ^ k) (List.drop stride data) (stride * 2) roots (rs * 2))) m)
    rw [Nat.zero_add] at this
    exact this

theorem dasFirstT_spec {b h stride : Nat} {reverse : List F} {i : Nat} (hi : i < h)
    (hr : i * 2 * stride < reverse.length) :
    Within (cells b (h + h)) (dasFirstT b h stride reverse i) ∧ Separate (dasFirstT b h stride reverse i) ∧
    ∀ m : Mem F, (do
      let a ← rd (region m b (h + h)) i
      let b' ← rd (region m b (h + h)) (h + i)
      let tmp1 := a + b'
      let tmp2 := a - b'
      let r ← rd reverse (i * 2 * stride)
      let ev ← wr (region m b (h + h)) (h + i) (tmp2 * r)
      wr ev i tmp1) = .ok (region (eval (dasFirstT b h stride reverse i) m) b (h + h)) := by
  have m1 : b + (h + i) ∈ cells b (h + h) := ⟨by omega, by omega⟩
  have m2 : b + i ∈ cells b (h + h) := ⟨by omega, by omega⟩
  unfold dasFirstT
  simp only [rd_of_lt hr]
  refine ⟨.read m2 fun _ => .read m1 fun _ => .read m2 fun _ => .read m1 fun _ => .write m1 <| .write m2 .done,
    .read fun _ => .read fun _ => .read fun _ => .read fun _ => .write <| .write .done, fun m => ?_⟩
  rw [rd_region m (by omega), bind_ok, rd_region m (by omega), bind_ok, bind_ok, wr_region m _ (by omega), bind_ok,
    wr_region _ _ (by omega)]
  simp only [eval]

theorem dasLastT_spec {b h stride : Nat} {expanded : List F} {i : Nat} (hi : i < h)
    (hr : (1 + 2 * i) * stride < expanded.length) :
    Within (cells b (h + h)) (dasLastT b h stride expanded i) ∧ Separate (dasLastT b h stride expanded i) ∧
    ∀ m : Mem F, (do
      let x ← rd (region m b (h + h)) i
      let y ← rd (region m b (h + h)) (h + i)
      let r ← rd expanded ((1 + 2 * i) * stride)
      let yTimesRoot := y * r
      let ev ← wr (region m b (h + h)) i (x + yTimesRoot)
      wr ev (h + i) (x - yTimesRoot)) = .ok (region (eval (dasLastT b h stride expanded i) m) b (h + h)) := by
  have m1 : b + (h + i) ∈ cells b (h + h) := ⟨by omega, by omega⟩
  have m2 : b + i ∈ cells b (h + h) := ⟨by omega, by omega⟩
  unfold dasLastT
  simp only [rd_of_lt hr]
  refine ⟨.read m2 fun _ => .read m1 fun _ => .write m2 <| .write m1 .done,
    .read fun _ => .read fun _ => .write <| .write .done, fun m => ?_⟩
  rw [rd_region m (by omega), bind_ok, rd_region m (by omega), bind_ok, bind_ok, wr_region m _ (by omega), bind_ok,
    wr_region _ _ (by omega)]
  simp only [eval]

omit [AddCommGroup M] in
/-- As `halves_spec`, with the order of the source: the joined tasks are `hi`, `lo`. -/
theorem halves_spec' {cut : Bool} {b n k : Nat} {lo hi : Task M} (wl : Within (cells b n) lo) (sl : Separate lo)
    (wh : Within (cells (b + n) k) hi) (sh : Separate hi) :
    Within (cells b (n + k)) (if cut then .join hi lo else .seq lo hi) ∧
    Separate (if cut then .join hi lo else .seq lo hi) ∧
    ∀ m, region (eval (if cut then .join hi lo else .seq lo hi) m) b (n + k)
      = region (eval lo m) b n ++ region (eval hi m) (b + n) k := by
  have w1 := wl.mono (cells_low b n k)
  have w2 := wh.mono (cells_high b n k)
  cases cut
  · exact ⟨.seq w1 w2, .seq sl sh, fun m => region_halves wl wh m⟩
  · refine ⟨.join w2 w1, .join (fun a h h' => cells_disjoint b n k a h' h) wh wl sh sl, fun m => ?_⟩
    simp only [if_true, eval]
    rw [← region_append]
    congr 1
    · apply region_congr
      intro i hi
      refine (eval_on wl m (eval _ m) (fun a ha => ?_) _ ⟨by omega, by omega⟩).symm
      exact eval_off wh m a (cells_disjoint b n k a ha)
    · apply region_congr
      intro i hi
      exact (eval_off wl _ _ fun h => cells_disjoint b n k _ h ⟨by omega, by omega⟩).symm

theorem dasTask_spec (cut : Nat → Bool) (expanded reverse : List F) (k : Nat) :
    ∀ (fuel b stride : Nat), k < fuel → (2 ^ k - 1) * stride < expanded.length →
      (2 ^ k - 1) * stride < reverse.length →
      Within (cells b (2 ^ k)) (dasTask cut expanded reverse fuel b (2 ^ k) stride) ∧
      Separate (dasTask cut expanded reverse fuel b (2 ^ k) stride) ∧
      ∀ m : Mem F, dasStride expanded reverse fuel (region m b (2 ^ k)) stride
        = .ok (region (eval (dasTask cut expanded reverse fuel b (2 ^ k) stride) m) b (2 ^ k)) := by
  induction k with
  | zero =>
    intro fuel b stride hf he hr
    obtain ⟨fuel, rfl⟩ : ∃ f, fuel = f + 1 := ⟨fuel - 1, by omega⟩
    rw [dasTask]
    simp only [pow_zero, show 1 < 2 by omega, if_true]
    refine ⟨.done, .done, fun m => ?_⟩
    rw [dasStride, region_length, if_pos (by omega)]
    rfl
  | succ k ih =>
    intro fuel b stride hf he hr
    obtain ⟨fuel, rfl⟩ : ∃ f, fuel = f + 1 := ⟨fuel - 1, by omega⟩
    have hp : 0 < 2 ^ k := by positivity
    have e2 : 2 ^ (k + 1) = 2 ^ k + 2 ^ k := by rw [pow_succ]; omega
    have hh : (2 ^ k + 2 ^ k) / 2 = 2 ^ k := by omega
    rw [dasTask, if_neg (by omega)]
    by_cases hk : k = 0
    · subst hk
      have hes : stride < expanded.length := by simpa using he
      have m1 : b ∈ cells b (2 ^ (0 + 1)) := ⟨by omega, by norm_num⟩
      have m2 : b + 1 ∈ cells b (2 ^ (0 + 1)) := ⟨by omega, by norm_num⟩
      rw [if_pos (by norm_num)]
      simp only [rd_of_lt hes]
      refine ⟨.read m1 fun _ => .read m2 fun _ => .read m1 fun _ => .read m2 fun _ => .write m1 <| .write m2 .done,
        .read fun _ => .read fun _ => .read fun _ => .read fun _ => .write <| .write .done, fun m => ?_⟩
      rw [dasStride, region_length, if_neg (by norm_num), if_pos (by norm_num), rd_region m (by norm_num), bind_ok,
        rd_region m (by norm_num), bind_ok]
      simp only [rd_of_lt hes, bind_ok]
      rw [wr_region m _ (by norm_num), bind_ok, wr_region _ _ (by norm_num)]
      simp only [eval, Nat.add_zero]
    · have h2 : 2 ≤ 2 ^ k := by
        calc 2 = 2 ^ 1 := rfl
          _ ≤ 2 ^ k := Nat.pow_le_pow_right (by norm_num) (by omega)
      have hmul : (2 ^ (k + 1) - 1) * stride = (2 ^ k - 1) * (stride * 2) + stride := by
        obtain ⟨t, ht⟩ : ∃ t, 2 ^ k = t + 1 := ⟨2 ^ k - 1, by omega⟩
        rw [e2, ht, show t + 1 + (t + 1) - 1 = 2 * t + 1 by omega, show t + 1 - 1 = t by omega]
        ring
      have hle : ∀ j, j ≤ 2 ^ (k + 1) - 1 → ∀ l : List F, (2 ^ (k + 1) - 1) * stride < l.length → j * stride < l.length :=
        fun j hj l hl => lt_of_le_of_lt (Nat.mul_le_mul_right _ hj) hl
      have hf1 : ∀ i, i < 2 ^ k → i * 2 * stride < reverse.length := fun i hi => hle _ (by omega) _ hr
      have hf2 : ∀ i, i < 2 ^ k → (1 + 2 * i) * stride < expanded.length := fun i hi => hle _ (by omega) _ he
      obtain ⟨wl, sl, el⟩ := ih fuel b (stride * 2) (by omega) (by omega) (by omega)
      obtain ⟨wh, sh, eh⟩ := ih fuel (b + 2 ^ k) (stride * 2) (by omega) (by omega) (by omega)
      rw [if_neg (by omega)]
      simp only [e2, hh, Nat.add_sub_cancel]
      obtain ⟨w, s, e⟩ := halves_spec' (cut := cut (2 ^ k + 2 ^ k)) wl sl wh sh
      refine ⟨.seq (loopT_within _ _ fun i _ hi => (dasFirstT_spec (by omega) (hf1 i (by omega))).1)
          (.seq w (loopT_within _ _ fun i _ hi => (dasLastT_spec (by omega) (hf2 i (by omega))).1)),
        .seq (loopT_separate _ _ fun i _ hi => (dasFirstT_spec (b := b) (by omega) (hf1 i (by omega))).2.1)
          (.seq s (loopT_separate _ _ fun i _ hi => (dasLastT_spec (b := b) (by omega) (hf2 i (by omega))).2.1)), ?_⟩
      intro m
      rw [dasStride, region_length, if_neg (by omega), if_neg (by omega)]
      simp only [hh]
      have first := loopT_eval (b := b) (k := 2 ^ k + 2 ^ k) (body := dasFirstT b (2 ^ k) stride reverse)
        (f := fun i ev => do
          let a ← rd ev i
          let b' ← rd ev (2 ^ k + i)
          let tmp1 := a + b'
          let tmp2 := a - b'
          let r ← rd reverse (i * 2 * stride)
          let ev ← wr ev (2 ^ k + i) (tmp2 * r)
          wr ev i tmp1) (2 ^ k) 0
        (fun i _ hi m => (dasFirstT_spec (b := b) (h := 2 ^ k) (by omega) (hf1 i (by omega))).2.2 m) m
      rw [Nat.zero_add] at first
      rw [dasFirst, first, bind_ok]
      simp only [eval]
      generalize eval (loopT (dasFirstT b (2 ^ k) stride reverse) (2 ^ k) 0) m = m1
      have last := loopT_eval (b := b) (k := 2 ^ k + 2 ^ k) (body := dasLastT b (2 ^ k) stride expanded)
        (f := fun i ev => do
          let x ← rd ev i
          let y ← rd ev (2 ^ k + i)
          let r ← rd expanded ((1 + 2 * i) * stride)
          let yTimesRoot := y * r
          let ev ← wr ev i (x + yTimesRoot)
          wr ev (2 ^ k + i) (x - yTimesRoot)) (2 ^ k) 0
        (fun i _ hi m => (dasLastT_spec (b := b) (h := 2 ^ k) (by omega) (hf2 i (by omega))).2.2 m)
        (eval (if cut (2 ^ k + 2 ^ k) = true then
            (dasTask cut expanded reverse fuel (b + 2 ^ k) (2 ^ k) (stride * 2)).join
              (dasTask cut expanded reverse fuel b (2 ^ k) (stride * 2))
          else
            (dasTask cut expanded reverse fuel b (2 ^ k) (stride * 2)).seq
              (dasTask cut expanded reverse fuel (b + 2 ^ k) (2 ^ k) (stride * 2))) m1)
      rw [Nat.zero_add] at last
      rw [sliceTo, region_length, if_pos (by omega), bind_ok, region_take _ _ (by omega), el, bind_ok,
        sliceFrom, region_length, if_pos (by omega), bind_ok, region_drop _ _ (by omega), Nat.add_sub_cancel, eh, bind_ok,
        ← e m1, dasLast]
      exact last

end Kzg.Conc
