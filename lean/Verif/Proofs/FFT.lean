import Mathlib.Algebra.BigOperators.Intervals
import Mathlib.Algebra.BigOperators.Module
import Mathlib.Algebra.Module.BigOperators
import Mathlib.Tactic.Ring
import Mathlib.Tactic.Abel
import Mathlib.Tactic.Module
import Verif.Model.FFT
/-!
# Correctness of the recursive transform (helper lemmas)
-/

namespace Kzg
open Res Finset

section
variable {F M : Type} [Field F] [AddCommGroup M] [Module F M]

/-- Discrete Fourier transform: `∑_{j<n} w^(j k) • d j`. -/
def dft (w : F) (n : Nat) (d : Nat → M) (k : Nat) : M := ∑ j ∈ range n, w ^ (j * k) • d j

theorem sum_range_two_mul {A : Type} [AddCommMonoid A] (n : Nat) (f : Nat → A) :
    ∑ j ∈ range (2 * n), f j = ∑ j ∈ range n, f (2 * j) + ∑ j ∈ range n, f (2 * j + 1) := by
  induction n with
  | zero => simp
  | succ n ih =>
    have : 2 * (n + 1) = 2 * n + 1 + 1 := by ring
    rw [this, sum_range_succ, sum_range_succ, ih, sum_range_succ, sum_range_succ]
    abel

theorem dft_split (w : F) (n : Nat) (d : Nat → M) (k : Nat) :
    dft w (2 * n) d k =
      dft (w ^ 2) n (fun j => d (2 * j)) k + w ^ k • dft (w ^ 2) n (fun j => d (2 * j + 1)) k := by
  unfold dft
  rw [sum_range_two_mul, Finset.smul_sum]
  congr 1
  · refine sum_congr rfl fun j _ => ?_
    rw [← pow_mul]; congr 2; ring
  · refine sum_congr rfl fun j _ => ?_
    rw [smul_smul, ← pow_mul, ← pow_add]; congr 2; ring

theorem dft_periodic (w : F) (n : Nat) (d : Nat → M) (k : Nat) (h : w ^ n = 1) :
    dft w n d (k + n) = dft w n d k := by
  unfold dft
  refine sum_congr rfl fun j _ => ?_
  rw [mul_add, pow_add, mul_comm j n, pow_mul w n j, h, one_pow, mul_one]

theorem butterfly_loop (lo hi : List M) (half : Nat) (roots : List F) (rs : Nat) (w : F)
    (f g : Nat → M) (hlo : lo.length = half) (hhi : hi.length = half)
    (hf : ∀ k < half, lo[k]? = some (f k)) (hg : ∀ k < half, hi[k]? = some (g k))
    (hr : ∀ k < half, roots[k * rs]? = some (w ^ k)) :
    Sat (forRange 0 half (lo ++ hi) fun i r => do
      let y ← rd r (i + half)
      let root ← rd roots (i * rs)
      let yTimesRoot := root • y
      let x ← rd r i
      let r ← wr r (i + half) (x - yTimesRoot)
      let x ← rd r i
      wr r i (x + yTimesRoot))
    (fun r => r.length = 2 * half ∧ (∀ k < half, r[k]? = some (f k + w ^ k • g k)) ∧
      (∀ k < half, r[k + half]? = some (f k - w ^ k • g k))) := by
  have key := forRange_inv (body := fun i r => do
      let y ← rd r (i + half)
      let root ← rd roots (i * rs)
      let yTimesRoot := root • y
      let x ← rd r i
      let r ← wr r (i + half) (x - yTimesRoot)
      let x ← rd r i
      wr r i (x + yTimesRoot))
    (fun i (r : List M) => r.length = 2 * half ∧
      (∀ k < half, r[k]? = some (if k < i then f k + w ^ k • g k else f k)) ∧
      (∀ k < half, r[k + half]? = some (if k < i then f k - w ^ k • g k else g k)))
    (lo := 0) (hi := half) (s := lo ++ hi) (Nat.zero_le _) ?_ ?_
  · refine key.mono fun r ⟨h1, h2, h3⟩ => ⟨h1, fun k hk => ?_, fun k hk => ?_⟩
    · rw [h2 k hk, if_pos hk]
    · rw [h3 k hk, if_pos hk]
  · refine ⟨by simp [hlo, hhi]; omega, fun k hk => ?_, fun k hk => ?_⟩
    · rw [List.getElem?_append_left (by omega)]; simp [hf k hk]
    · rw [List.getElem?_append_right (by omega)]
      have : k + half - lo.length = k := by omega
      simp [this, hg k hk]
  · intro i r _ hi' ⟨hlen, h1, h2⟩
    have e1 := h1 i hi'
    have e2 := h2 i hi'
    simp only [Nat.lt_irrefl, if_false] at e1 e2
    have hw1 : i + half < r.length := by omega
    simp only [rd_of_getElem? e2, rd_of_getElem? (hr i hi'), bind_ok, rd_of_getElem? e1,
      wr_of_lt hw1]
    have e3 : (r.set (i + half) (f i - w ^ i • g i))[i]? = some (f i) := by
      rw [List.getElem?_set_ne (by omega), e1]
    rw [rd_of_getElem? e3, bind_ok, wr_of_lt (by simp; omega)]
    refine Sat.ok ⟨by simp [hlen], fun k hk => ?_, fun k hk => ?_⟩
    · by_cases hki : k = i
      · subst hki; rw [List.getElem?_set_self (by simp; omega)]; simp
      · rw [List.getElem?_set_ne (by omega), List.getElem?_set_ne (by omega), h1 k hk]
        congr 1
        have : (k < i + 1) ↔ k < i := by omega
        simp [this]
    · by_cases hki : k = i
      · subst hki
        rw [List.getElem?_set_ne (by omega), List.getElem?_set_self (by omega)]; simp
      · rw [List.getElem?_set_ne (by omega), List.getElem?_set_ne (by omega), h2 k hk]
        congr 1
        have : (k < i + 1) ↔ k < i := by omega
        simp [this]

/-- The recursive transform computes the DFT, for every power-of-two length and all strides that
stay inside the data and the root table. -/
theorem fftFast_spec (m : Nat) :
    ∀ (ret data : List M) (stride : Nat) (roots : List F) (rs : Nat) (w : F) (d : Nat → M),
      ret.length = 2 ^ m →
      (∀ j < 2 ^ m, data[j * stride]? = some (d j)) →
      (∀ j < 2 ^ m, roots[j * rs]? = some (w ^ j)) →
      (∀ n, m = n + 1 → w ^ (2 ^ n) = -1) →
      Sat (fftFast ret data stride roots rs)
        (fun r => r.length = 2 ^ m ∧ ∀ k < 2 ^ m, r[k]? = some (dft w (2 ^ m) d k)) := by
  induction m with
  | zero =>
    intro ret data stride roots rs w d hret hdata _ _
    rw [fftFast]
    have h0 := hdata 0 (by simp)
    simp only [Nat.zero_mul] at h0
    have hl : ret.length = 1 := by simpa using hret
    simp only [hl, Nat.reduceDiv, gt_iff_lt, Nat.lt_irrefl, dite_false, rd_of_getElem? h0, bind_ok]
    rw [wr_of_lt (by omega)]
    refine Sat.ok ⟨by simp [hl], fun k hk => ?_⟩
    have : k = 0 := by simpa using hk
    subst this
    rw [List.getElem?_set_self (by omega)]
    simp [dft]
  | succ m ih =>
    intro ret data stride roots rs w d hret hdata hroots hw
    have hpos : 0 < 2 ^ m := Nat.pos_of_ne_zero (by simp)
    have hhalf : ret.length / 2 = 2 ^ m := by rw [hret, pow_succ]; omega
    have hneg : w ^ (2 ^ m) = -1 := hw m rfl
    have hsplit : 2 ^ (m + 1) = 2 * 2 ^ m := by rw [pow_succ]; ring
    rw [fftFast]
    simp only [hhalf, gt_iff_lt, hpos, dite_true]
    have hw2 : ∀ n, m = n + 1 → (w ^ 2) ^ 2 ^ n = -1 := by
      intro n hn; rw [← pow_mul, ← hneg, hn, pow_succ]; congr 1; ring
    have hr2 : ∀ j < 2 ^ m, roots[j * (rs * 2)]? = some ((w ^ 2) ^ j) := by
      intro j hj
      have := hroots (2 * j) (by omega)
      rw [← pow_mul, ← this]; congr 1; ring
    have hlo := ih (ret.take (2 ^ m)) data (stride * 2) roots (rs * 2) (w ^ 2) (fun j => d (2 * j))
      (by rw [List.length_take, hret]; omega)
      (by intro j hj
          have := hdata (2 * j) (by omega)
          rw [← this]; congr 1; ring) hr2 hw2
    have hs : stride ≤ data.length := by
      have h1 := hdata 1 (by omega)
      have := (List.getElem?_eq_some_iff.mp h1).1
      omega
    have hhi := ih (ret.drop (2 ^ m)) (data.drop stride) (stride * 2) roots (rs * 2) (w ^ 2)
      (fun j => d (2 * j + 1))
      (by rw [List.length_drop, hret]; omega)
      (by intro j hj
          have := hdata (2 * j + 1) (by omega)
          rw [List.getElem?_drop, ← this]; congr 1; ring) hr2 hw2
    obtain ⟨lo, elo, hlol, hlov⟩ := hlo
    obtain ⟨hi, ehi, hhil, hhiv⟩ := hhi
    have hsl : sliceFrom data stride = .ok (data.drop stride) := by simp [sliceFrom, hs]
    rw [elo, bind_ok, hsl, bind_ok, ehi, bind_ok]
    have hb := butterfly_loop lo hi (2 ^ m) roots rs w _ _ hlol hhil hlov hhiv
      (fun k hk => hroots k (by omega))
    refine hb.mono fun r ⟨h1, h2, h3⟩ => ⟨by omega, fun k hk => ?_⟩
    rw [hsplit, dft_split]
    by_cases hk' : k < 2 ^ m
    · rw [h2 k hk']
    · obtain ⟨k', rfl⟩ : ∃ k', k = k' + 2 ^ m := ⟨k - 2 ^ m, by omega⟩
      rw [h3 k' (by omega)]
      have hper : (w ^ 2) ^ 2 ^ m = 1 := by rw [← pow_mul, mul_comm, pow_mul, hneg]; simp
      rw [dft_periodic _ _ _ _ hper, dft_periodic _ _ _ _ hper, pow_add, hneg]
      congr 1
      module

end
end Kzg
