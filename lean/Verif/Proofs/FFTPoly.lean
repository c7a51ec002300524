import Verif.Proofs.Poly
/-!
# Field transforms in terms of polynomials
-/

set_option linter.unusedSectionVars false

namespace Kzg
open Res Polynomial Finset

variable {F : Type} [Field F]

theorem dft_coeff {p : F[X]} {n : Nat} (h : p.degree < n) (w : F) (k : Nat) :
    dft w n p.coeff k = p.eval (w ^ k) := by
  by_cases hn : n = 0
  · subst hn
    have : p = 0 := by simpa using h
    simp [this, dft]
  have hd : p.natDegree < n := by
    by_cases hp : p = 0
    · subst hp; simp; omega
    · exact (natDegree_lt_iff_degree_lt hp).mpr h
  rw [eval_eq_sum_range' hd, dft]
  refine sum_congr rfl fun i _ => ?_
  rw [smul_eq_mul, mul_comm, ← pow_mul, mul_comm k i]

theorem dft_list {l : List F} {n : Nat} (h : l.length = n) (w : F) (k : Nat) :
    dft w n (fun j => l.getD j 0) k = (polyOf l).eval (w ^ k) := by
  rw [← dft_coeff (n := n) (by rw [← h]; exact degree_polyOf_lt l)]
  congr 1
  funext j
  rw [coeff_polyOf]

namespace FFTSettings.WF
variable {fs : FFTSettings F} {k : Nat}

/-- Forward transform: evaluation at the powers of the root. -/
theorem fft_eval (h : fs.WF k) {m : Nat} (hm : m ≤ k) (data : List F) (hd : data.length = 2 ^ m) :
    fs.fft data false = .ok ((List.range (2 ^ m)).map
      fun i => (polyOf data).eval (fs.omega (2 ^ m) ^ i)) := by
  obtain ⟨r, hr, hl, hv⟩ := h.fft_forward hm data hd
  rw [hr]
  congr 1
  apply List.ext_getElem?
  intro i
  by_cases hi : i < 2 ^ m
  · rw [hv i hi, List.getElem?_map, List.getElem?_range hi, dft_list hd]; rfl
  · rw [List.getElem?_eq_none (by omega), List.getElem?_eq_none (by simp; omega)]

/-- Inverse transform: interpolation. -/
theorem fft_interp (h : fs.WF k) {m : Nat} (hm : m ≤ k) (data : List F) (hd : data.length = 2 ^ m)
    (p : F[X]) (hp : p.degree < (2 ^ m : Nat))
    (hv : ∀ i < 2 ^ m, data.getD i 0 = p.eval (fs.omega (2 ^ m) ^ i)) :
    fs.fft data true = .ok ((List.range (2 ^ m)).map p.coeff) := by
  obtain ⟨r, hr, hl, hrv⟩ := h.fft_backward hm data hd
  rw [hr]
  congr 1
  apply List.ext_getElem?
  intro i
  by_cases hi : i < 2 ^ m
  · rw [hrv i hi, List.getElem?_map, List.getElem?_range hi, Option.map_some]
    congr 1
    exact inv_dft (by positivity) (h.omega_prim hm) (h.cast_ne hm) p.coeff _
      (fun j hj => by rw [hv j hj, dft_coeff hp]) hi
  · rw [List.getElem?_eq_none (by omega), List.getElem?_eq_none (by simp; omega)]

end FFTSettings.WF

theorem polyOf_map_coeff {p : F[X]} {n : Nat} (hp : p.degree < n) :
    polyOf ((List.range n).map p.coeff) = p := by
  ext i
  rw [polyOf_map_range]
  split
  · rfl
  · next h => exact ((degree_lt_iff_coeff_zero p n).mp hp i (by omega)).symm

theorem degree_mul_lt {a b : F[X]} {m n : Nat} (ha : a.degree < m) (hb : b.degree < n)
    {N : Nat} (h : m + n ≤ N + 1) : (a * b).degree < N := by
  by_cases ha0 : a = 0
  · subst ha0; rw [zero_mul, degree_zero]; exact WithBot.bot_lt_coe N
  by_cases hb0 : b = 0
  · subst hb0; rw [mul_zero, degree_zero]; exact WithBot.bot_lt_coe N
  have h1 := (natDegree_lt_iff_degree_lt ha0).mpr ha
  have h2 := (natDegree_lt_iff_degree_lt hb0).mpr hb
  rw [← natDegree_lt_iff_degree_lt (mul_ne_zero ha0 hb0), natDegree_mul ha0 hb0]
  omega

section
variable [DecidableEq F] [FrTable F] [LawfulFr F]

theorem mulPointwise_spec (a b : List F) (n : Nat) (ha : n ≤ a.length) (hb : n ≤ b.length) :
    mulPointwise a b n = .ok ((List.range n).map fun i => a.getD i 0 * b.getD i 0) := by
  unfold mulPointwise
  refine fill_loop (v := List.replicate n (0 : F)) (by simp) _ ?_
  intro i s hi _ _ _
  rw [rd_getD 0 (by omega : i < a.length), bind_ok, rd_getD 0 (by omega : i < b.length), bind_ok]

omit [DecidableEq F] [FrTable F] [LawfulFr F] in
theorem polyOf_pad {a : List F} {n : Nat} (h : a.length ≤ n) :
    polyOf ((List.range n).map fun i => a.getD i 0) = polyOf a := by
  ext i
  rw [polyOf_map_range, coeff_polyOf]
  split
  · rfl
  · rw [List.getD_eq_default _ _ (by omega)]

theorem mulFft_spec (a b : List F) (ha : a ≠ []) (hb : b ≠ [])
    (hlen : a.length + b.length ≤ 2 ^ 31 + 1) (n : Nat) :
    mulFft a b n = .ok ((List.range n).map (polyOf a * polyOf b).coeff) := by
  have ha' : 0 < a.length := List.length_pos_iff.mpr ha
  have hb' : 0 < b.length := List.length_pos_iff.mpr hb
  unfold mulFft
  have hs63 : a.length + b.length - 1 ≤ 2 ^ 63 := by
    have : 2 ^ 31 ≤ 2 ^ 63 := Nat.pow_le_pow_right (by omega) (by omega)
    omega
  rw [subU_of_le (by omega), bind_ok, nextPowerOfTwo_eq (by omega) hs63, bind_ok]
  set t := bitLen (a.length + b.length - 1 - 1) with ht
  have hN : a.length + b.length - 1 ≤ 2 ^ t := le_two_pow_bitLen_pred
  have ht31 : t ≤ 31 := by
    apply bitLen_le_of_lt; omega
  simp only [log2Pow2_all t (by omega)]
  obtain ⟨fs, hfs, hwf⟩ := new_spec (F := F) (show t < 32 by omega)
  rw [hfs, unwrap_ok, bind_ok, polyPad_spec, bind_ok, polyPad_spec, bind_ok]
  rw [FFTSettings.fftFr, hwf.fft_eval le_rfl _ (by simp), unwrap_ok, bind_ok]
  rw [FFTSettings.fftFr, hwf.fft_eval le_rfl _ (by simp), unwrap_ok, bind_ok]
  rw [mulPointwise_spec _ _ _ (by simp) (by simp), bind_ok]
  rw [polyOf_pad (by omega), polyOf_pad (by omega)]
  have hdeg : (polyOf a * polyOf b).degree < (2 ^ t : Nat) :=
    degree_mul_lt (degree_polyOf_lt a) (degree_polyOf_lt b) (by omega)
  rw [FFTSettings.fftFr, hwf.fft_interp le_rfl _ (by simp) (polyOf a * polyOf b) hdeg (by
    intro i hi
    rw [getD_range_map, if_pos hi, getD_range_map, if_pos hi, getD_range_map, if_pos hi, eval_mul]),
    unwrap_ok, bind_ok, minU64_eq, sliceTo, if_pos (by simp), bind_ok, sliceTo,
    if_pos (by simp), bind_ok]
  congr 1
  apply List.ext_getElem?
  intro i
  by_cases hin : i < n
  · rw [List.getElem?_map, List.getElem?_range hin, Option.map_some]
    by_cases hiN : i < 2 ^ t
    · rw [List.getElem?_append_left (by simp; omega), List.getElem?_take, if_pos (by omega),
        List.getElem?_map, List.getElem?_range hiN]; rfl
    · rw [List.getElem?_append_right (by simp; omega), List.getElem?_drop,
        List.getElem?_replicate_of_lt (by simp; omega)]
      rw [((degree_lt_iff_coeff_zero _ _).mp hdeg i (by omega))]
  · rw [List.getElem?_eq_none (by simp; omega), List.getElem?_eq_none (by simp; omega)]

theorem polyMul_spec (a b : List F) (ha : a ≠ []) (hb : b ≠ [])
    (hlen : a.length + b.length ≤ 2 ^ 31 + 1) (n : Nat) :
    polyMul a b n = .ok ((List.range n).map (polyOf a * polyOf b).coeff) := by
  unfold polyMul
  split
  · exact mulDirect_spec a b ha hb n
  · exact mulFft_spec a b ha hb hlen n

end
end Kzg
