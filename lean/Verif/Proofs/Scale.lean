import Verif.Model.Scale
import Verif.Proofs.FFTPoly
/-!
# Coset scaling: proofs
-/

set_option linter.unusedSectionVars false

namespace Kzg
open Res Polynomial Finset

variable {F : Type} [Field F]

theorem powerTable_spec (f : F) : powerTable f = .ok ((List.range 65536).map (f ^ ·)) := by
  unfold powerTable
  obtain ⟨r, hr, h⟩ := forRange_inv (lo := 1) (hi := 65536) (s := [(1 : F)])
    (body := fun i temp => do
      let k ← subU i 1
      let x ← rd temp k
      .ok (temp ++ [x * f]))
    (fun i s => s = (List.range i).map (f ^ ·)) (by omega) (by simp) (by
      rintro i s h1 h2 rfl
      obtain ⟨k, rfl⟩ : ∃ k, i = k + 1 := ⟨i - 1, by omega⟩
      rw [subU_of_le (by omega), bind_ok, Nat.add_sub_cancel,
        rd_of_getElem? (x := f ^ k) (by rw [List.getElem?_map, List.getElem?_range (by omega)]; rfl),
        bind_ok]
      refine Sat.ok ?_
      rw [List.range_succ (n := k + 1), List.map_append]
      simp [pow_succ])
  rw [hr, h]

theorem scaleLoop_spec (f : F) (p : List F) (n : Nat) (hn : n ≤ p.length) (hn2 : n ≤ 65536) :
    Sat (scaleLoop ((List.range 65536).map (f ^ ·)) p n) (fun r => r.length = p.length ∧
      ∀ i, r.getD i 0 = if i < n then p.getD i 0 * f ^ i else p.getD i 0) := by
  unfold scaleLoop
  by_cases h1 : 1 ≤ n
  · refine Sat.mono (update_loop (v := p) (lo := 1) (hi := n) h1 hn
      (fun i => p.getD i 0 * f ^ i) ?_) ?_
    · intro i s hi1 hi2 hl _ h2
      rw [rd_of_getElem? (x := p.getD i 0) (by rw [h2 i (by omega), getElem?_eq_some_getD 0 (by omega)]),
        bind_ok, rd_of_getElem? (x := f ^ i)
          (by rw [List.getElem?_map, List.getElem?_range (by omega)]; rfl), bind_ok]
    · rintro r ⟨hl, g1, g2⟩
      refine ⟨hl, fun i => ?_⟩
      by_cases hi : i < n
      · rw [if_pos hi]
        by_cases h0 : 1 ≤ i
        · exact getD_of_getElem? (g1 i h0 hi)
        · have : i = 0 := by omega
          subst this
          rw [List.getD_eq_getElem?_getD, g2 0 (by omega), ← List.getD_eq_getElem?_getD]; simp
      · rw [if_neg hi, List.getD_eq_getElem?_getD, g2 i (by omega), ← List.getD_eq_getElem?_getD]
  · have : n = 0 := by omega
    subst this
    exact Sat.ok ⟨rfl, fun i => by simp⟩

theorem scaleBy_spec (f : F) (p : List F) (hn : p.length ≤ 65536) :
    (do let t ← powerTable f; scaleLoop t p p.length) =
      .ok ((List.range p.length).map fun i => p.getD i 0 * f ^ i) := by
  rw [powerTable_spec, bind_ok]
  obtain ⟨r, hr, hl, hv⟩ := scaleLoop_spec f p p.length le_rfl hn
  rw [hr]
  congr 1
  rw [eq_map_getD r 0, hl]
  apply List.map_congr_left
  intro i hi
  rw [hv i, if_pos (by simpa using hi)]

theorem scalePoly_spec (p : List F) (hn : p.length ≤ 65536) :
    scalePoly p p.length = .ok ((List.range p.length).map fun i => p.getD i 0 * ((5 : F)⁻¹) ^ i) :=
  scaleBy_spec _ p hn

theorem unscalePoly_spec (p : List F) (hn : p.length ≤ 65536) :
    unscalePoly p p.length = .ok ((List.range p.length).map fun i => p.getD i 0 * (5 : F) ^ i) :=
  scaleBy_spec _ p hn

theorem forRange_panic {σ : Type} {lo hi : Nat} {s : σ} {body : Nat → σ → Res σ} (k : Nat)
    (Inv : Nat → σ → Prop) (hlo : lo ≤ k) (hk : k < hi) (h0 : Inv lo s)
    (step : ∀ i s, lo ≤ i → i < k → Inv i s → Sat (body i s) (Inv (i + 1)))
    (hp : ∀ s, Inv k s → body k s = .panic) : forRange lo hi s body = .panic := by
  obtain ⟨n, hn⟩ : ∃ n, n = k - lo := ⟨_, rfl⟩
  induction n generalizing lo s with
  | zero =>
    have : lo = k := by omega
    subst this
    rw [forRange_succ _ _ hk, hp s h0, bind_panic]
  | succ n ih =>
    rw [forRange_succ _ _ (by omega)]
    obtain ⟨s', hs', hinv⟩ := step lo s le_rfl (by omega) h0
    rw [hs', bind_ok]
    exact ih (lo := lo + 1) (by omega) hinv (fun i s h1 h2 h3 => step i s (by omega) h2 h3) (by omega)

theorem scaleLoop_panic (f : F) (p : List F) (n : Nat) (hn : 65536 < n) :
    scaleLoop ((List.range 65536).map (f ^ ·)) p n = .panic := by
  unfold scaleLoop
  by_cases hp : 65536 < p.length
  · refine forRange_panic 65536 (fun _ s => s.length = p.length) (by omega) hn rfl ?_ ?_
    · intro i s h1 h2 hl
      rw [rd_getD 0 (by omega), bind_ok, rd_getD 0 (by simpa using h2), bind_ok, wr_of_lt (by omega)]
      exact Sat.ok (by simp [hl])
    · intro s hl
      rw [rd_getD 0 (by omega), bind_ok, rd_of_ge (by simp), bind_panic]
  · by_cases h0 : p.length = 0
    · have : p = [] := List.length_eq_zero_iff.mp h0
      subst this
      rw [forRange_succ _ _ (by omega)]
      simp [rd]
    · refine forRange_panic p.length (fun _ s => s.length = p.length) (by omega) (by omega) rfl ?_ ?_
      · intro i s h1 h2 hl
        rw [rd_getD 0 (by omega), bind_ok, rd_getD 0 (by simp; omega), bind_ok, wr_of_lt (by omega)]
        exact Sat.ok (by simp [hl])
      · intro s hl
        rw [rd_of_ge (by omega), bind_panic]

theorem scale_unscale (g f : F) (hfg : g * f = 1) (p : List F) :
    (List.range p.length).map (fun i => ((List.range p.length).map
      fun i => p.getD i 0 * g ^ i).getD i 0 * f ^ i) = p := by
  conv_rhs => rw [eq_map_getD p 0]
  apply List.map_congr_left
  intro i hi
  rw [getD_range_map, if_pos (by simpa using hi), mul_assoc, ← mul_pow, hfg, one_pow, mul_one]

theorem eval_scaled (f : F) (p : List F) (x : F) :
    (polyOf ((List.range p.length).map fun i => p.getD i 0 * f ^ i)).eval x =
      (polyOf p).eval (f * x) := by
  rw [eval_polyOf, eval_polyOf]
  simp only [List.length_map, List.length_range]
  refine sum_congr rfl fun i hi => ?_
  rw [getD_range_map, if_pos (mem_range.mp hi), mul_pow]; ring

end Kzg
