import Verif.Model.DAS
import Verif.Proofs.FFTPoly
/-!
# Data availability extension: proofs
-/

set_option linter.unusedSectionVars false

namespace Kzg
open Res Polynomial Finset

variable {F : Type} [Field F]

/-- `∑_{j<n} c_j x^j`. -/
def evs (c : Nat → F) (n : Nat) (x : F) : F := ∑ j ∈ range n, c j * x ^ j

theorem evs_split (c : Nat → F) (h : Nat) (x : F) :
    evs c (2 * h) x = evs (fun j => c (2 * j)) h (x ^ 2) + x * evs (fun j => c (2 * j + 1)) h (x ^ 2) := by
  unfold evs
  rw [sum_range_two_mul, mul_sum]
  congr 1
  · refine sum_congr rfl fun j _ => ?_
    rw [← pow_mul]
  · refine sum_congr rfl fun j _ => ?_
    rw [← pow_mul, pow_succ]; ring

theorem evs_smul (a : F) (c : Nat → F) (n : Nat) (x : F) :
    evs (fun j => a * c j) n x = a * evs c n x := by
  unfold evs
  rw [mul_sum]
  exact sum_congr rfl fun j _ => by ring

theorem dasFirst_spec (reverse : List F) (h stride : Nat) (ev : List F) (hl : ev.length = 2 * h)
    (r : Nat → F) (hr : ∀ i < h, reverse[i * 2 * stride]? = some (r i)) :
    Sat (dasFirst reverse h stride ev) (fun o => o.length = 2 * h ∧
      ∀ i < h, o[i]? = some (ev.getD i 0 + ev.getD (h + i) 0) ∧
        o[h + i]? = some ((ev.getD i 0 - ev.getD (h + i) 0) * r i)) := by
  unfold dasFirst
  refine Sat.mono (forRange_inv (fun i o => o.length = 2 * h ∧
    (∀ j < i, o[j]? = some (ev.getD j 0 + ev.getD (h + j) 0) ∧
      o[h + j]? = some ((ev.getD j 0 - ev.getD (h + j) 0) * r j)) ∧
    ∀ j, i ≤ j → j < h → o[j]? = some (ev.getD j 0) ∧ o[h + j]? = some (ev.getD (h + j) 0))
    (Nat.zero_le _) ⟨hl, fun j hj => by omega, fun j _ hj => ⟨getElem?_eq_some_getD 0 (by omega),
      getElem?_eq_some_getD 0 (by omega)⟩⟩ ?_) ?_
  · rintro i o _ hi ⟨hol, h1, h2⟩
    obtain ⟨e1, e2⟩ := h2 i le_rfl hi
    rw [rd_of_getElem? e1, bind_ok, rd_of_getElem? e2, bind_ok, rd_of_getElem? (hr i hi), bind_ok,
      wr_of_lt (by omega), bind_ok, wr_of_lt (by simp; omega)]
    refine Sat.ok ⟨by simp [hol], ?_, ?_⟩
    · intro j hj
      rw [getElem?_set_of_lt (by simp; omega), getElem?_set_of_lt (by omega),
        getElem?_set_of_lt (by simp; omega), getElem?_set_of_lt (by omega)]
      by_cases hji : j = i
      · subst hji
        rw [if_pos rfl, if_neg (by omega), if_pos rfl]; exact ⟨rfl, rfl⟩
      · rw [if_neg hji, if_neg (by omega), if_neg (by omega), if_neg (by omega)]
        exact h1 j (by omega)
    · intro j hj hjh
      rw [getElem?_set_of_lt (by simp; omega), getElem?_set_of_lt (by omega),
        getElem?_set_of_lt (by simp; omega), getElem?_set_of_lt (by omega),
        if_neg (by omega), if_neg (by omega), if_neg (by omega), if_neg (by omega)]
      exact h2 j (by omega) hjh
  · rintro o ⟨hol, h1, _⟩
    exact ⟨hol, h1⟩

theorem dasLast_spec (expanded : List F) (h stride : Nat) (ev : List F) (hl : ev.length = 2 * h)
    (r : Nat → F) (hr : ∀ i < h, expanded[(1 + 2 * i) * stride]? = some (r i)) :
    Sat (dasLast expanded h stride ev) (fun o => o.length = 2 * h ∧
      ∀ i < h, o[i]? = some (ev.getD i 0 + ev.getD (h + i) 0 * r i) ∧
        o[h + i]? = some (ev.getD i 0 - ev.getD (h + i) 0 * r i)) := by
  unfold dasLast
  refine Sat.mono (forRange_inv (fun i o => o.length = 2 * h ∧
    (∀ j < i, o[j]? = some (ev.getD j 0 + ev.getD (h + j) 0 * r j) ∧
      o[h + j]? = some (ev.getD j 0 - ev.getD (h + j) 0 * r j)) ∧
    ∀ j, i ≤ j → j < h → o[j]? = some (ev.getD j 0) ∧ o[h + j]? = some (ev.getD (h + j) 0))
    (Nat.zero_le _) ⟨hl, fun j hj => by omega, fun j _ hj => ⟨getElem?_eq_some_getD 0 (by omega),
      getElem?_eq_some_getD 0 (by omega)⟩⟩ ?_) ?_
  · rintro i o _ hi ⟨hol, h1, h2⟩
    obtain ⟨e1, e2⟩ := h2 i le_rfl hi
    rw [rd_of_getElem? e1, bind_ok, rd_of_getElem? e2, bind_ok, rd_of_getElem? (hr i hi), bind_ok]
    simp only
    rw [wr_of_lt (by omega), bind_ok, wr_of_lt (by simp; omega)]
    refine Sat.ok ⟨by simp [hol], ?_, ?_⟩
    · intro j hj
      rw [getElem?_set_of_lt (by simp; omega), getElem?_set_of_lt (by omega),
        getElem?_set_of_lt (by simp; omega), getElem?_set_of_lt (by omega)]
      by_cases hji : j = i
      · subst hji
        rw [if_neg (by omega), if_pos rfl, if_pos rfl]; exact ⟨rfl, rfl⟩
      · rw [if_neg (by omega), if_neg hji, if_neg (by omega), if_neg (by omega)]
        exact h1 j (by omega)
    · intro j hj hjh
      rw [getElem?_set_of_lt (by simp; omega), getElem?_set_of_lt (by omega),
        getElem?_set_of_lt (by simp; omega), getElem?_set_of_lt (by omega),
        if_neg (by omega), if_neg (by omega), if_neg (by omega), if_neg (by omega)]
      exact h2 j (by omega) hjh
  · rintro o ⟨hol, h1, _⟩
    exact ⟨hol, h1⟩

/-- The recursion computes `n` times the values at the odd powers. -/
theorem dasStride_spec (expanded reverse : List F) : ∀ (m : Nat) (fuel : Nat) (ev : List F)
    (stride : Nat) (w : F) (c : Nat → F), 2 ^ m < fuel + 1 → ev.length = 2 ^ m → w ≠ 0 →
    (∀ n, m = n + 1 → w ^ (2 ^ m) = -1) →
    (∀ j ≤ 2 * 2 ^ m, expanded[j * stride]? = some (w ^ j)) →
    (∀ j ≤ 2 * 2 ^ m, reverse[j * stride]? = some (w⁻¹ ^ j)) →
    (∀ i < 2 ^ m, ev.getD i 0 = evs c (2 ^ m) (w ^ (2 * i))) →
    Sat (dasStride expanded reverse fuel ev stride) (fun o => o.length = 2 ^ m ∧
      ∀ i < 2 ^ m, o.getD i 0 = ((2 ^ m : Nat) : F) * evs c (2 ^ m) (w ^ (2 * i + 1))) := by
  intro m
  induction m with
  | zero =>
    intro fuel ev stride w c hf hl hw _ hE hR hv
    obtain ⟨f, rfl⟩ : ∃ f, fuel = f + 1 := ⟨fuel - 1, by simp at hf; omega⟩
    simp only [dasStride]
    rw [if_pos (by simp [hl])]
    refine Sat.ok ⟨hl, ?_⟩
    intro i hi
    rw [hv i hi]
    simp [evs]
  | succ m ih =>
    intro fuel ev stride w c hf hl hw hneg hE hR hv
    have hpos : 0 < 2 ^ m := by positivity
    obtain ⟨f, rfl⟩ : ∃ f, fuel = f + 1 := ⟨fuel - 1, by rw [pow_succ] at hf; omega⟩
    have hw2 : w ^ (2 ^ (m + 1)) = -1 := hneg m rfl
    set h := 2 ^ m with hh
    have e2 : 2 ^ (m + 1) = 2 * h := by rw [pow_succ]; ring
    rw [e2] at hl hE hR hv hw2 hf ⊢
    have hwh : ∀ i, w ^ (2 * (h + i)) = - w ^ (2 * i) := by
      intro i; rw [mul_add, pow_add, hw2]; ring
    have hwh1 : ∀ i, w ^ (2 * (h + i) + 1) = - w ^ (2 * i + 1) := by
      intro i; rw [pow_succ, hwh, pow_succ]; ring
    -- values of the two halves
    have hvA : ∀ i < h, ev.getD i 0 + ev.getD (h + i) 0 =
        evs (fun j => 2 * c (2 * j)) h ((w ^ 2) ^ (2 * i)) := by
      intro i hi
      rw [hv i (by omega), hv (h + i) (by omega), hwh, evs_split, evs_split, evs_smul]
      rw [show (w ^ 2) ^ (2 * i) = (w ^ (2 * i)) ^ 2 by rw [← pow_mul, ← pow_mul, mul_comm]]
      rw [neg_sq]; ring
    have hvB : ∀ i < h, (ev.getD i 0 - ev.getD (h + i) 0) * w⁻¹ ^ (i * 2) =
        evs (fun j => 2 * c (2 * j + 1)) h ((w ^ 2) ^ (2 * i)) := by
      intro i hi
      rw [hv i (by omega), hv (h + i) (by omega), hwh, evs_split, evs_split, evs_smul]
      rw [show (w ^ 2) ^ (2 * i) = (w ^ (2 * i)) ^ 2 by rw [← pow_mul, ← pow_mul, mul_comm]]
      rw [neg_sq]
      have : w ^ (2 * i) * w⁻¹ ^ (i * 2) = 1 := by
        rw [mul_comm i 2, ← mul_pow, mul_inv_cancel₀ hw, one_pow]
      linear_combination (2 * evs (fun j => c (2 * j + 1)) h ((w ^ (2 * i)) ^ 2)) * this
    have final : ∀ (x y : F) (i : Nat), i < h →
        x = (h : F) * evs (fun j => 2 * c (2 * j)) h ((w ^ 2) ^ (2 * i + 1)) →
        y = (h : F) * evs (fun j => 2 * c (2 * j + 1)) h ((w ^ 2) ^ (2 * i + 1)) →
        x + y * w ^ (1 + 2 * i) = ((2 * h : Nat) : F) * evs c (2 * h) (w ^ (2 * i + 1)) ∧
        x - y * w ^ (1 + 2 * i) = ((2 * h : Nat) : F) * evs c (2 * h) (w ^ (2 * (h + i) + 1)) := by
      intro x y i hi hx hy
      rw [hx, hy, evs_smul, evs_smul, hwh1, evs_split, evs_split, neg_sq]
      rw [show (w ^ 2) ^ (2 * i + 1) = (w ^ (2 * i + 1)) ^ 2 by
        rw [← pow_mul, ← pow_mul, mul_comm]]
      rw [add_comm 1 (2 * i)]
      push_cast
      constructor <;> ring
    simp only [dasStride]
    rw [if_neg (by omega)]
    by_cases hm : ev.length = 2
    · -- base case
      have h1 : h = 1 := by omega
      rw [if_pos hm, rd_getD 0 (by omega), bind_ok, rd_getD 0 (by omega), bind_ok]
      have hr := hE 1 (by omega)
      rw [one_mul, pow_one] at hr
      rw [rd_of_getElem? hr, bind_ok, wr_of_lt (by omega), bind_ok, wr_of_lt (by simp; omega)]
      refine Sat.ok ⟨by simp; omega, ?_⟩
      have hf := final (ev.getD 0 0 + ev.getD 1 0) (ev.getD 0 0 - ev.getD 1 0) 0 (by omega) (by
        have := hvA 0 (by omega)
        rw [h1] at this ⊢
        rw [show 1 + 0 = 1 from rfl] at this
        rw [this]; simp [evs]) (by
        have := hvB 0 (by omega)
        rw [h1] at this ⊢
        rw [show 1 + 0 = 1 from rfl] at this
        simp only [zero_mul, pow_zero, mul_one] at this
        rw [this]; simp [evs])
      simp only [mul_zero, add_zero, zero_add, pow_one] at hf
      intro i hi
      have hi' : i = 0 ∨ i = 1 := by omega
      rcases hi' with rfl | rfl
      · rw [List.getD_eq_getElem?_getD, getElem?_set_of_lt (by simp; omega),
          getElem?_set_of_lt (by omega)]
        simpa using hf.1
      · rw [List.getD_eq_getElem?_getD, getElem?_set_of_lt (by simp; omega)]
        rw [h1] at hf ⊢
        simpa using hf.2
    · rw [if_neg hm]
      have hhalf : ev.length / 2 = h := by omega
      simp only [hhalf]
      obtain ⟨o, ho, hol, hov⟩ := dasFirst_spec reverse h stride ev hl (fun i => w⁻¹ ^ (i * 2)) (by
        intro i hi
        exact hR (i * 2) (by omega))
      rw [ho, bind_ok, sliceTo, if_pos (by omega), bind_ok]
      have hmne : ∃ n, m = n + 1 := by
        refine ⟨m - 1, ?_⟩
        have : m ≠ 0 := by
          rintro rfl; simp at hh; omega
        omega
      have hneg' : ∀ n, m = n + 1 → (w ^ 2) ^ (2 ^ m) = -1 := by
        intro n _; rw [← pow_mul]; exact hw2
      have hE' : ∀ j ≤ 2 * 2 ^ m, expanded[j * (stride * 2)]? = some ((w ^ 2) ^ j) := by
        intro j hj
        have := hE (2 * j) (by omega)
        rw [show j * (stride * 2) = 2 * j * stride by ring, this, ← pow_mul]
      have hR' : ∀ j ≤ 2 * 2 ^ m, reverse[j * (stride * 2)]? = some ((w ^ 2)⁻¹ ^ j) := by
        intro j hj
        have := hR (2 * j) (by omega)
        rw [show j * (stride * 2) = 2 * j * stride by ring, this, ← inv_pow, ← pow_mul]
      obtain ⟨lo, hlo, hlol, hlov⟩ := ih f (o.take h) (stride * 2) (w ^ 2) (fun j => 2 * c (2 * j))
        (by omega) (by simp; omega) (pow_ne_zero 2 hw) hneg' hE' hR' (by
          intro i hi
          rw [List.getD_eq_getElem?_getD, List.getElem?_take, if_pos (by omega), (hov i hi).1]
          exact hvA i hi)
      rw [hlo, bind_ok, sliceFrom, if_pos (by omega), bind_ok]
      obtain ⟨hi', hhi, hhil, hhiv⟩ := ih f (o.drop h) (stride * 2) (w ^ 2)
        (fun j => 2 * c (2 * j + 1))
        (by omega) (by simp; omega) (pow_ne_zero 2 hw) hneg' hE' hR' (by
          intro i hi
          rw [List.getD_eq_getElem?_getD, List.getElem?_drop, (hov i hi).2]
          exact hvB i hi)
      rw [hhi, bind_ok]
      refine Sat.mono (dasLast_spec expanded h stride (lo ++ hi') (by simp; omega)
        (fun i => w ^ (1 + 2 * i)) (fun i hi => hE _ (by omega))) ?_
      rintro r ⟨hrl, hrv⟩
      refine ⟨hrl, ?_⟩
      intro i hi
      have key : ∀ i < h, (lo ++ hi').getD i 0 = lo.getD i 0 ∧
          (lo ++ hi').getD (h + i) 0 = hi'.getD i 0 := by
        intro i hi
        constructor
        · rw [List.getD_eq_getElem?_getD, List.getElem?_append_left (by omega),
            ← List.getD_eq_getElem?_getD]
        · rw [List.getD_eq_getElem?_getD, List.getElem?_append_right (by omega), hlol,
            Nat.add_sub_cancel_left, ← List.getD_eq_getElem?_getD]
      by_cases hih : i < h
      · rw [getD_of_getElem? (hrv i hih).1, (key i hih).1, (key i hih).2]
        exact (final _ _ i hih (hlov i hih) (hhiv i hih)).1
      · obtain ⟨j, rfl⟩ : ∃ j, i = h + j := ⟨i - h, by omega⟩
        have hj : j < h := by omega
        rw [getD_of_getElem? (hrv j hj).2, (key j hj).1, (key j hj).2]
        exact (final _ _ j hj (hlov j hj) (hhiv j hj)).2

theorem FFTSettings.WF.das_spec {fs : FFTSettings F} {k : Nat} (hwf : fs.WF k) {m : Nat} (hm : m + 1 ≤ k)
    (ev : List F) (hl : ev.length = 2 ^ m) (p : F[X]) (hp : p.degree < (2 ^ m : Nat))
    (hv : ∀ i < 2 ^ m, ev.getD i 0 = p.eval (fs.omega (2 ^ (m + 1)) ^ (2 * i))) :
    fs.dasFftExtension ev = .ok ((List.range (2 ^ m)).map
      fun i => p.eval (fs.omega (2 ^ (m + 1)) ^ (2 * i + 1))) := by
  have hpos : 0 < 2 ^ m := by positivity
  have hle : 2 ^ (m + 1) ≤ 2 ^ k := Nat.pow_le_pow_right (by omega) hm
  have hprim := hwf.omega_prim hm
  have hevs : ∀ x, evs p.coeff (2 ^ m) x = p.eval x := by
    intro x
    have := dft_coeff hp x 1
    rw [pow_one] at this
    rw [← this, dft, evs]
    exact sum_congr rfl fun j _ => by rw [mul_one, smul_eq_mul, mul_comm]
  unfold FFTSettings.dasFftExtension
  have hne : ev ≠ [] := by rintro rfl; simp at hl; omega
  rw [if_neg (by simpa using hne), hl, isPowerOfTwo_two_pow, if_neg (by simp), hwf.width,
    ← pow_succ, if_neg (by omega)]
  simp only
  have hs : 2 ^ k / 2 ^ (m + 1) * 2 ^ (m + 1) = 2 ^ k := by
    rw [Nat.pow_div hm (by omega), ← pow_add]; congr 1; omega
  have hom : fs.omega (2 ^ (m + 1)) = fs.rootOfUnity ^ (2 ^ k / 2 ^ (m + 1)) := by
    rw [FFTSettings.omega, hwf.width]
  have hjs : ∀ j ≤ 2 * 2 ^ m, j * (2 ^ k / 2 ^ (m + 1)) ≤ 2 ^ k := by
    intro j hj
    calc j * (2 ^ k / 2 ^ (m + 1)) ≤ 2 ^ (m + 1) * (2 ^ k / 2 ^ (m + 1)) :=
          Nat.mul_le_mul_right _ (by rw [pow_succ]; omega)
      _ = 2 ^ k := by rw [mul_comm]; exact hs
  obtain ⟨o, ho, hol, hov⟩ := dasStride_spec fs.expandedRoots fs.reverseRoots m (2 ^ m + 1) ev
    (2 ^ k / 2 ^ (m + 1)) (fs.omega (2 ^ (m + 1))) p.coeff (by omega) hl
    (hprim.ne_zero (by positivity))
    (fun n hn => FFTSettings.WF.half_neg hprim m rfl) (by
      intro j hj
      rw [hwf.exp _ (hjs j hj),
        hom, ← pow_mul, mul_comm]) (by
      intro j hj
      rw [hwf.rev _ (hjs j hj),
        hom, ← inv_pow, ← pow_mul, mul_comm]) (by
      intro i hi
      rw [hv i hi, hevs])
  rw [ho, bind_ok, hol]
  congr 1
  apply List.ext_getElem?
  intro i
  rw [List.getElem?_map]
  by_cases hi : i < 2 ^ m
  · rw [getElem?_eq_some_getD 0 (by omega : i < o.length), Option.map_some, List.getElem?_map,
      List.getElem?_range hi, Option.map_some, hov i hi, hevs]
    have hn := hwf.cast_ne (show m ≤ k by omega)
    congr 1
    field_simp
  · rw [List.getElem?_eq_none (by omega), List.getElem?_eq_none (by simp; omega)]; rfl

end Kzg
