import Verif.Model.Mcl.Poly
import Verif.Proofs.Mcl.Settings
import Verif.Proofs.Mcl.FFT
import Verif.Proofs.PolyInverse
/-!
# Polynomials of mcl-kzg: proofs
-/

namespace Kzg.Mcl
open Kzg Kzg.Res Polynomial Finset

set_option linter.unusedSectionVars false

variable {F : Type} [Field F] [DecidableEq F]

theorem evalAt_eq (c : List F) (x : F) : evalAt c x = (polyOf c).eval x := by
  induction c with
  | nil => simp [evalAt, polyOf_nil]
  | cons a l ih =>
    have : polyOf (a :: l) = C a + X * polyOf l := by
      ext k
      rw [coeff_polyOf]
      cases k with
      | zero => simp
      | succ k => simp [coeff_X_mul, coeff_polyOf]
    rw [this, eval_add, eval_C, eval_mul, eval_X, ← ih]
    rfl

/-! ## Direct multiplication -/

theorem mulDirectInner_spec (a b : List F) (outLen i : Nat)
    (hi : i < a.length) : ∀ (n j : Nat) (ret : List F), n = b.length - j → j ≤ b.length →
      ret.length = outLen →
      Sat (mulDirectInner a b outLen i j ret) (fun r => r.length = outLen ∧
        ∀ k < outLen, r.getD k 0 = ret.getD k 0 + if i + j ≤ k then rowTerm a b i k else 0) := by
  intro n
  induction n with
  | zero =>
    intro j ret hn hj hl
    unfold mulDirectInner
    rw [if_neg (by omega)]
    refine Sat.ok ⟨hl, fun k hk => ?_⟩
    split
    · next h =>
      rw [rowTerm, if_pos (by omega), List.getD_eq_default b _ (by omega)]; simp
    · simp
  | succ n ih =>
    intro j ret hn hj hl
    unfold mulDirectInner
    by_cases hout : i + j < outLen
    · rw [if_pos ⟨by omega, hout⟩, rd_getD 0 hi, bind_ok, rd_getD 0 (by omega : j < b.length),
        bind_ok, rd_getD 0 (by omega : i + j < ret.length), bind_ok, wr_of_lt (by omega), bind_ok]
      refine Sat.mono (ih (j + 1) _ (by omega) (by omega) (by simp [hl])) ?_
      rintro r ⟨hrl, hr⟩
      refine ⟨hrl, fun k hk => ?_⟩
      rw [hr k hk, List.getD_eq_getElem?_getD, getElem?_set_of_lt (by omega)]
      by_cases hk1 : k = i + j
      · subst hk1
        rw [if_pos rfl, if_neg (by omega), if_pos (by omega), rowTerm, if_pos (by omega)]
        simp
      · rw [if_neg hk1, ← List.getD_eq_getElem?_getD]
        by_cases hk2 : i + j ≤ k
        · rw [if_pos (by omega), if_pos hk2]
        · rw [if_neg (by omega), if_neg hk2]
    · rw [if_neg (by omega)]
      refine Sat.ok ⟨hl, fun k hk => ?_⟩
      rw [if_neg (by omega)]; simp

theorem mulDirect_spec (a b : List F) (n : Nat) :
    mulDirect a b n = .ok ((List.range n).map (polyOf a * polyOf b).coeff) := by
  unfold mulDirect
  obtain ⟨r, hr, hl, hv⟩ := forRange_inv (lo := 0) (hi := a.length)
    (s := List.replicate n (0 : F)) (body := fun i ret => mulDirectInner a b n i 0 ret)
    (fun i s => s.length = n ∧ ∀ k < n, s.getD k 0 = ∑ i' ∈ range i, rowTerm a b i' k)
    (Nat.zero_le _) ⟨by simp, fun k hk => by simp [hk]⟩ (by
      rintro i s _ hi ⟨hl, hs⟩
      refine Sat.mono (mulDirectInner_spec a b n i hi _ 0 s rfl (by omega) hl) ?_
      rintro r ⟨hrl, hr⟩
      refine ⟨hrl, fun k hk => ?_⟩
      rw [hr k hk, hs k hk, sum_range_succ]
      congr 1
      rw [rowTerm]; simp only [Nat.add_zero]; split <;> simp)
  rw [hr]
  congr 1
  rw [eq_map_getD r 0, hl]
  apply List.map_congr_left
  intro k hk
  rw [hv k (by simpa using hk), sum_rowTerm]

/-! ## Long division -/

variable [Lib F]

theorem frDiv_of_ne {x y : F} (h : y ≠ 0) : frDiv x y = .ok (x * y⁻¹) := if_neg h
theorem frInv_of_ne {x : F} (h : x ≠ 0) : frInv x = .ok x⁻¹ := if_neg h

/-- The inner loop takes away a multiple of the divisor without its highest term. -/
theorem longDivInner_spec (b : List F) (bPos : Nat) (hb : b.length = bPos + 1) (diff : Nat)
    (out a : List F) (q : F) (hq : out[diff]? = some q) (ha : diff + bPos < a.length) :
    Sat (forRange 0 bPos a fun i a => do
      let o ← rd out diff
      let d ← rd b i
      let c ← rd a (diff + i)
      wr a (diff + i) (c - o * d))
    (fun r => r.length = a.length ∧ polyOf r = polyOf a - C q * X ^ diff * polyOf (b.take bPos)) := by
  refine forRange_inv (lo := 0) (hi := bPos) (s := a)
    (fun i r => r.length = a.length ∧ polyOf r = polyOf a - C q * X ^ diff * polyOf (b.take i))
    (Nat.zero_le _) ⟨rfl, by simp [polyOf_nil]⟩ ?_
  rintro i s _ hi ⟨hl, hs⟩
  rw [rd_of_getElem? hq, bind_ok, rd_getD 0 (by omega : i < b.length), bind_ok,
    rd_getD 0 (by omega : diff + i < s.length), bind_ok, wr_of_lt (by omega)]
  refine Sat.ok ⟨by simp [hl], ?_⟩
  rw [polyOf_set (by omega), hs, polyOf_take_succ (by omega)]
  simp only [sub_sub_cancel_left, C_neg, C_mul, pow_add]
  ring

/-- The loop does what the one of blst-from-scratch does, up to the entries above the current position. -/
theorem longDivLoop_rel (b : List F) (bPos : Nat) (hb : b.length = bPos + 1) (hlead : b.getD bPos 0 ≠ 0) :
    ∀ (diff : Nat) (a a' out : List F), bPos + diff < a.length → a.length = a'.length → diff < out.length →
    (∀ k ≤ bPos + diff, a.getD k 0 = a'.getD k 0) →
    ∃ a1 a1' out1, longDivLoop b bPos diff (bPos + diff) a out = .ok (bPos, a1, out1) ∧
      Kzg.longDivLoop b bPos diff (bPos + diff) a' out = .ok (bPos, a1', out1) ∧
      a1.length = a.length ∧ a1'.length = a.length ∧ a1.getD bPos 0 = a1'.getD bPos 0 := by
  intro diff
  induction diff with
  | zero =>
    intro a a' out h1 h2 h3 h4
    exact ⟨a, a', out, rfl, rfl, rfl, h2.symm, h4 _ le_rfl⟩
  | succ diff ih =>
    intro a a' out h1 h2 h3 h4
    simp only [longDivLoop, Kzg.longDivLoop]
    rw [rd_getD 0 h1, bind_ok, rd_getD 0 (by omega : bPos < b.length), bind_ok, frDiv_of_ne hlead, bind_ok,
      wr_of_lt h3, bind_ok, rd_getD 0 (by omega : bPos + (diff + 1) < a'.length), bind_ok, bind_ok,
      ← h4 _ le_rfl, wr_of_lt h3, bind_ok]
    set q := a.getD (bPos + (diff + 1)) 0 * (b.getD bPos 0)⁻¹ with hq
    have hg : (out.set (diff + 1) q)[diff + 1]? = some q := by rw [getElem?_set_of_lt h3, if_pos rfl]
    obtain ⟨r, hr, hl, hp⟩ := longDivInner_spec b bPos hb (diff + 1) (out.set (diff + 1) q) a q hg (by omega)
    obtain ⟨r', hr', hl', hp'⟩ := Kzg.longDivInner_spec b bPos hb (diff + 1) (out.set (diff + 1) q) a' q hg
      (by omega)
    rw [hr, bind_ok, hr', bind_ok, subU_of_le (by omega), bind_ok, bind_ok]
    have e : bPos + (diff + 1) - 1 = bPos + diff := by omega
    rw [e]
    have hc : ∀ k ≤ bPos + diff, r.getD k 0 = r'.getD k 0 := by
      intro k hk
      have g := congrArg (fun p => p.coeff k) hp
      have g' := congrArg (fun p => p.coeff k) hp'
      simp only [coeff_polyOf, coeff_sub, mul_assoc, coeff_C_mul, coeff_X_pow_mul'] at g g'
      rw [g, g', h4 k (by omega)]
      split
      · next h =>
        have : (b.take bPos).getD (k - (diff + 1)) 0 = b.getD (k - (diff + 1)) 0 := by
          rw [List.getD_eq_getElem?_getD, List.getElem?_take, if_pos (by omega), ← List.getD_eq_getElem?_getD]
        rw [this]
      · rfl
    obtain ⟨a1, a1', o1, g1, g2, g3, g4, g5⟩ := ih r r' (out.set (diff + 1) q) (by omega) (by omega)
      (by simp; omega) hc
    exact ⟨a1, a1', o1, g1, g2, by omega, by omega, g5⟩

theorem getLast?_getD {b : List F} (hb : b ≠ []) : b.getLast? = some (b.getD (b.length - 1) 0) := by
  have : 0 < b.length := List.length_pos_iff.mpr hb
  rw [List.getLast?_eq_getElem?, List.getD_eq_getElem _ _ (by omega), List.getElem?_eq_getElem (by omega)]

/-- Long division gives what the one of blst-from-scratch gives. -/
theorem longDivision_eq (a b : List F) (hb : b ≠ []) (hlead : b.getD (b.length - 1) 0 ≠ 0) :
    longDivision a b = Kzg.longDiv a b := by
  have hbl : 0 < b.length := List.length_pos_iff.mpr hb
  unfold longDivision Kzg.longDiv
  rw [getLast?_getD hb]
  simp only [hlead, if_false]
  rw [if_neg (show ¬ b.isEmpty = true by simpa using hb), subU_of_le (show 1 ≤ b.length by omega), bind_ok,
    rd_getD 0 (by omega), bind_ok, if_neg hlead]
  have e : polyQuotientLength a b = Kzg.polyQuotientLength a b := rfl
  rw [e]
  by_cases hlen : b.length ≤ a.length
  · have hql : Kzg.polyQuotientLength a b = a.length - b.length + 1 := by
      rw [Kzg.polyQuotientLength, if_pos hlen]
    simp only [hql]
    rw [if_neg (by omega), if_neg (by omega), subU_of_le (show 1 ≤ a.length by omega), bind_ok, bind_ok,
      bind_ok, bind_ok, subU_of_le (show b.length - 1 ≤ a.length - 1 by omega), bind_ok, bind_ok]
    obtain ⟨a1, a1', o1, g1, g2, g3, g4, g5⟩ := longDivLoop_rel b (b.length - 1) (by omega) hlead
      (a.length - 1 - (b.length - 1)) a a (List.replicate (a.length - b.length + 1) (0 : F))
      (by omega) rfl (by simp; omega) (fun _ _ => rfl)
    rw [show b.length - 1 + (a.length - 1 - (b.length - 1)) = a.length - 1 by omega] at g1 g2
    rw [g1, bind_ok, g2, bind_ok]
    simp only
    rw [rd_getD 0 (by omega), bind_ok, rd_getD 0 (by omega), bind_ok, frDiv_of_ne hlead, bind_ok,
      rd_getD 0 (by omega), bind_ok, bind_ok, g5]
  · have hql : Kzg.polyQuotientLength a b = 0 := by rw [Kzg.polyQuotientLength, if_neg (by omega)]
    simp [hql]

theorem longDivision_empty (a : List F) : longDivision a [] = .err "Dividing by zero is undefined" := rfl

theorem longDivision_lead (a b : List F) (hb : b ≠ []) (hlead : b.getD (b.length - 1) 0 = 0) :
    longDivision a b = .err "The divisor's highest coefficient must be non-zero" := by
  unfold longDivision
  rw [getLast?_getD hb, hlead]
  exact if_pos rfl

/-! ## Multiplication with transforms -/

theorem polyOf_take_dvd (a : List F) (n : Nat) : X ^ n ∣ polyOf a - polyOf (a.take n) := by
  rw [X_pow_dvd_iff]
  intro d hd
  rw [coeff_sub, coeff_polyOf, coeff_polyOf, List.getD_eq_getElem?_getD, List.getD_eq_getElem?_getD,
    List.getElem?_take, if_pos hd, sub_self]

/-- Coefficients below `n` of a product do not see the higher coefficients of the factors. -/
theorem coeff_mul_take (a b : List F) {n k : Nat} (hk : k < n) :
    (polyOf (a.take n) * polyOf (b.take n)).coeff k = (polyOf a * polyOf b).coeff k := by
  have h : X ^ n ∣ polyOf a * polyOf b - polyOf (a.take n) * polyOf (b.take n) := by
    have e : polyOf a * polyOf b - polyOf (a.take n) * polyOf (b.take n) =
      (polyOf a - polyOf (a.take n)) * polyOf b + polyOf (a.take n) * (polyOf b - polyOf (b.take n)) := by ring
    rw [e]
    exact dvd_add ((polyOf_take_dvd a n).mul_right _) ((polyOf_take_dvd b n).mul_left _)
  have := X_pow_dvd_iff.mp h k hk
  rw [coeff_sub, sub_eq_zero] at this
  exact this.symm

theorem padCoeffs_length (a : List F) (len n : Nat) : (padCoeffs a (min a.length len) n).length = n := by
  simp only [padCoeffs, List.length_append, List.length_take, List.length_replicate]; omega

theorem padCoeffs_polyOf (a : List F) (len n : Nat) (h : min a.length len ≤ n) :
    polyOf (padCoeffs a (min a.length len) n) = polyOf (a.take len) := by
  have e : a.take (min (min a.length len) n) = a.take len := by
    rw [min_eq_left h]
    by_cases h1 : a.length ≤ len
    · rw [min_eq_left h1, List.take_length, List.take_of_length_le h1]
    · rw [min_eq_right (by omega)]
  simp only [padCoeffs]
  rw [polyOf_append_zeros, e]

theorem pointwise_loop (a b : List F) (n : Nat) (ha : a.length = n) (hb : n ≤ b.length) :
    (forRange 0 n a fun i ab => do
      let x ← rd ab i
      let y ← rd b i
      wr ab i (x * y)) = .ok ((List.range n).map fun i => a.getD i 0 * b.getD i 0) := by
  refine fill_loop ha.symm _ ?_
  intro i s hi hl _ h2
  rw [rd_of_getElem? (by rw [h2 i le_rfl, getElem?_eq_some_getD 0 (by omega)]), bind_ok,
    rd_getD 0 (by omega : i < b.length), bind_ok]

variable [Tables F] [LawfulTables F]

/-- The settings a multiplication uses: those given, or new ones. -/
def Fits (ft : Option (FFTSettings F)) (n : Nat) : Prop := ∀ fs, ft = some fs → ∃ k, fs.WF k ∧ n ≤ 2 ^ k

theorem fits_none (n : Nat) : Fits (F := F) none n := fun _ h => by cases h

/-- What the multiplication does before the last transform. -/
theorem mulFft_reduce (a b : List F) (ft : Option (FFTSettings F)) (len : Nat)
    (h0 : 0 < min a.length len + min b.length len)
    (hlen : min a.length len + min b.length len ≤ 2 ^ 31 + 1)
    (hft : Fits ft (min a.length len + min b.length len - 1)) :
    ∃ (t k : Nat) (fs : FFTSettings F) (ab : List F), t = bitLen (min a.length len + min b.length len - 1 - 1) ∧
      fs.WF k ∧ t ≤ k ∧ ab.length = 2 ^ t ∧
      fs.fft ab true = .ok ((List.range (2 ^ t)).map (polyOf (a.take len) * polyOf (b.take len)).coeff) ∧
      mulFft a b ft len = (do
        let ab ← (fft fs ab true).unwrap
        if len > 2 ^ t then .ok (ab ++ List.replicate (len - 2 ^ t) 0) else .ok (ab.take len)) := by
  set aLen := min a.length len with haL
  set bLen := min b.length len with hbL
  set t := bitLen (aLen + bLen - 1 - 1) with ht
  have hN : aLen + bLen - 1 ≤ 2 ^ t := le_two_pow_bitLen_pred
  have hp : 0 < 2 ^ t := by positivity
  have ht31 : t ≤ 31 := bitLen_le_of_le (by omega)
  have h63 : aLen + bLen - 1 ≤ 2 ^ 63 := by
    have : 2 ^ 31 ≤ 2 ^ 63 := Nat.pow_le_pow_right (by omega) (by omega)
    omega
  obtain ⟨tf, htf, hwt⟩ := new5_spec (F := F) (show t < 32 by omega)
  obtain ⟨k, hwf, htk⟩ : ∃ k, (ft.getD tf).WF k ∧ t ≤ k := by
    cases ft with
    | none => exact ⟨t, hwt, le_rfl⟩
    | some fs =>
      obtain ⟨k, hk, hle⟩ := hft fs rfl
      exact ⟨k, hk, bitLen_le_of_le hle⟩
  have hal := padCoeffs_length a len (2 ^ t)
  have hbl := padCoeffs_length b len (2 ^ t)
  rw [← haL] at hal
  rw [← hbL] at hbl
  set aPad := padCoeffs a aLen (2 ^ t) with haP
  set bPad := padCoeffs b bLen (2 ^ t) with hbP
  have hprod : polyOf aPad * polyOf bPad = polyOf (a.take len) * polyOf (b.take len) := by
    by_cases ha0 : aLen = 0
    · have e1 : a.take len = [] := by rw [List.take_eq_nil_iff]; rcases Nat.le_total a.length len with h | h
                                      · right; exact List.length_eq_zero_iff.mp (by omega)
                                      · left; omega
      have e2 : polyOf aPad = 0 := by
        rw [haP, ha0, padCoeffs, Nat.zero_min, List.take_zero, List.nil_append, Nat.sub_zero]
        exact polyOf_replicate_zero _
      rw [e1, e2, polyOf_nil, zero_mul, zero_mul]
    by_cases hb0 : bLen = 0
    · have e1 : b.take len = [] := by rw [List.take_eq_nil_iff]; rcases Nat.le_total b.length len with h | h
                                      · right; exact List.length_eq_zero_iff.mp (by omega)
                                      · left; omega
      have e2 : polyOf bPad = 0 := by
        rw [hbP, hb0, padCoeffs, Nat.zero_min, List.take_zero, List.nil_append, Nat.sub_zero]
        exact polyOf_replicate_zero _
      rw [e1, e2, polyOf_nil, mul_zero, mul_zero]
    rw [haP, hbP, haL, hbL, padCoeffs_polyOf a len _ (by omega), padCoeffs_polyOf b len _ (by omega)]
  set fs := ft.getD tf with hfs
  have hle : 2 ^ t ≤ 2 ^ k := Nat.pow_le_pow_right (by omega) htk
  set u := (List.range (2 ^ t)).map (fun i => (polyOf aPad).eval (fs.omega (2 ^ t) ^ i)) with hu
  set v := (List.range (2 ^ t)).map (fun i => (polyOf bPad).eval (fs.omega (2 ^ t) ^ i)) with hv
  have hul : u.length = 2 ^ t := by rw [hu, List.length_map, List.length_range]
  have hvl : v.length = 2 ^ t := by rw [hv, List.length_map, List.length_range]
  have hdeg : (polyOf (a.take len) * polyOf (b.take len)).degree < (2 ^ t : Nat) := by
    refine degree_mul_lt (degree_polyOf_lt _) (degree_polyOf_lt _) ?_
    simp only [List.length_take]; omega
  refine ⟨t, k, fs, (List.range (2 ^ t)).map fun i => u.getD i 0 * v.getD i 0, rfl, hwf, htk,
    by rw [List.length_map, List.length_range], ?_, ?_⟩
  · refine hwf.fft_interp htk _ (by rw [List.length_map, List.length_range]) _ hdeg ?_
    intro i hi
    rw [getD_range_map, if_pos hi, hu, hv, getD_range_map, if_pos hi, getD_range_map, if_pos hi, ← hprod, eval_mul]
  · unfold mulFft
    dsimp only
    rw [← haL, ← hbL, subU_of_le (by omega), bind_ok, nextPowOf2_eq h63, bind_ok, ← ht, log2_two_pow (by omega),
      htf, bind_ok, ← hfs]
    rw [← haP, ← hbP, if_neg (by rw [hwf.width]; omega), fft_eq hwf htk hal false (by simp), hwf.fft_eval htk _ hal, unwrap_ok,
      bind_ok, fft_eq hwf htk hbl false (by simp), hwf.fft_eval htk _ hbl, unwrap_ok, bind_ok,
      ← hu, ← hv, pointwise_loop u v (2 ^ t) hul hvl.ge, bind_ok]

/-- The final shape: exactly `len` coefficients. -/
theorem shape {p : F[X]} {N : Nat} (hp : p.degree < N) (len : Nat) :
    (if len > N then (.ok ((List.range N).map p.coeff ++ List.replicate (len - N) 0) : Res (List F))
      else .ok (((List.range N).map p.coeff).take len)) = .ok ((List.range len).map p.coeff) := by
  split
  · next h =>
    congr 1
    apply List.ext_getElem?
    intro i
    by_cases hin : i < len
    · rw [List.getElem?_map, List.getElem?_range hin, Option.map_some]
      by_cases hiN : i < N
      · rw [List.getElem?_append_left (by simpa using hiN), List.getElem?_map, List.getElem?_range hiN]; rfl
      · rw [List.getElem?_append_right (by simp; omega), List.getElem?_replicate_of_lt (by simp; omega),
          (degree_lt_iff_coeff_zero _ _).mp hp i (by omega)]
    · rw [List.getElem?_eq_none (by simp; omega), List.getElem?_eq_none (by simp; omega)]
  · next h =>
    congr 1
    rw [← List.map_take, List.take_range, min_eq_left (by omega)]

theorem mulFft_spec (a b : List F) (ft : Option (FFTSettings F)) (len : Nat)
    (h0 : 0 < min a.length len + min b.length len)
    (hlen : min a.length len + min b.length len ≤ 2 ^ 30 + 1)
    (hft : Fits ft (min a.length len + min b.length len - 1)) :
    mulFft a b ft len = .ok ((List.range len).map (polyOf a * polyOf b).coeff) := by
  obtain ⟨t, k, fs, ab, ht, hwf, htk, habl, hab, hr⟩ := mulFft_reduce a b ft len h0 (by omega) hft
  have ht30 : t ≤ 30 := by rw [ht]; exact bitLen_le_of_le (by omega)
  have hN : min a.length len + min b.length len - 1 ≤ 2 ^ t := by rw [ht]; exact le_two_pow_bitLen_pred
  rw [hr, fft_eq hwf htk habl true (fun _ => ht30), hab, unwrap_ok, bind_ok, shape]
  · congr 1
    apply List.map_congr_left
    intro k hk
    exact coeff_mul_take a b (by simpa using hk)
  · refine degree_mul_lt (degree_polyOf_lt _) (degree_polyOf_lt _) ?_
    simp only [List.length_take]; omega

/-- Between `2^30` and `2^31` the product comes out negated. -/
theorem mulFft_31 (a b : List F) (len : Nat)
    (h0 : 2 ^ 30 + 1 < min a.length len + min b.length len)
    (hlen : min a.length len + min b.length len ≤ 2 ^ 31 + 1) :
    mulFft a b none len = .ok ((List.range len).map fun k => -(polyOf a * polyOf b).coeff k) := by
  obtain ⟨t, k, fs, ab, ht, hwf, htk, habl, hab, hr⟩ := mulFft_reduce a b none len (by omega) hlen (fits_none _)
  have ht31 : t = 31 := by
    have h1 : t ≤ 31 := by rw [ht]; exact bitLen_le_of_le (by omega)
    have h2 : ¬ t ≤ 30 := by
      intro h
      have h3 : min a.length len + min b.length len - 1 ≤ 2 ^ t := by rw [ht]; exact le_two_pow_bitLen_pred
      have := Nat.pow_le_pow_right (show 0 < 2 by omega) h
      omega
    omega
  have hk : k = 31 := by have := hwf.lt; omega
  have hdeg : (polyOf (a.take len) * polyOf (b.take len)).degree < (2 ^ t : Nat) := by
    refine degree_mul_lt (degree_polyOf_lt _) (degree_polyOf_lt _) ?_
    have h3 : min a.length len + min b.length len - 1 ≤ 2 ^ t := by rw [ht]; exact le_two_pow_bitLen_pred
    simp only [List.length_take]; omega
  have h31 := fft_31 (hk ▸ hwf) ab (ht31 ▸ habl)
  generalize 2 ^ t = N at hdeg hab hr habl
  have hneg : ((List.range N).map (polyOf (a.take len) * polyOf (b.take len)).coeff).map (fun x => -x) =
      (List.range N).map (-(polyOf (a.take len) * polyOf (b.take len))).coeff := by
    rw [List.map_map]
    apply List.map_congr_left
    intro i _
    simp only [Function.comp, coeff_neg]
  rw [hr, h31, hab, bind_ok, hneg, unwrap_ok, bind_ok, shape (by rw [degree_neg]; exact hdeg)]
  congr 1
  apply List.map_congr_left
  intro k hk
  rw [coeff_neg, coeff_mul_take a b (by simpa using hk)]

theorem polyMul_spec (a b : List F) (ft : Option (FFTSettings F)) (len : Nat)
    (hlen : min a.length len + min b.length len ≤ 2 ^ 30 + 1)
    (hft : Fits ft (min a.length len + min b.length len - 1)) :
    polyMul a b ft len = .ok ((List.range len).map (polyOf a * polyOf b).coeff) := by
  unfold polyMul
  split
  · exact mulDirect_spec a b len
  · exact mulFft_spec a b ft len (by omega) hlen hft

/-! ## The inverse power series -/

/-- The first `min m s` coefficients of a product of length at most `s` agree with it below `m`. -/
theorem trunc_min_dvd {p : F[X]} {m s : Nat} (hp : p.degree < s) :
    X ^ m ∣ polyOf ((List.range (min m s)).map p.coeff) - p := by
  by_cases h : m ≤ s
  · rw [min_eq_left h]; exact trunc_dvd p m
  · rw [min_eq_right (by omega), polyOf_map_coeff hp, sub_self]; exact dvd_zero _

theorem invLoop_spec (a : List F) (ha : a ≠ []) (n : Nat) (hn : 0 < n) (hlen : n + n / 2 ≤ 2 ^ 30)
    (fs : FFTSettings F) {k : Nat} (hwf : fs.WF k) (hk : 2 * n - 1 ≤ 2 ^ k) :
    ∀ (j : Nat) (out : List F), out.length = (n - 1) / 2 ^ j + 1 →
      X ^ ((n - 1) / 2 ^ j + 1) ∣ polyOf a * polyOf out - 1 →
      Sat (invLoop a fs (n - 1) (if j = 0 then 0 else 2 ^ (j - 1)) ((n - 1) / 2 ^ j) out)
        (fun r => r.1 = n - 1 ∧ r.2.length = n ∧ X ^ n ∣ polyOf a * polyOf r.2 - 1) := by
  have ha' : 0 < a.length := List.length_pos_iff.mpr ha
  intro j
  induction j with
  | zero =>
    intro ret hl hd
    unfold invLoop
    rw [if_pos rfl, dif_pos rfl]
    have e : n - 1 + 1 = n := by omega
    exact Sat.ok ⟨by simp, by simpa [e] using hl, by simpa [e] using hd⟩
  | succ j ih =>
    intro ret hl hd
    unfold invLoop
    rw [if_neg (by omega), dif_neg (by simp)]
    simp only [Nat.add_sub_cancel]
    rw [next_d]
    have hstep : (n - 1) / 2 ^ j + 1 ≤ 2 * ((n - 1) / 2 ^ (j + 1) + 1) := by
      have := next_d (n - 1) j
      split at this <;> omega
    have hhalf : (n - 1) / 2 ^ (j + 1) ≤ (n - 1) / 2 := Nat.div_le_div_left
      (by rw [pow_succ]; have : 0 < 2 ^ j := by positivity
          omega) (by omega)
    have hdn : (n - 1) / 2 ^ j ≤ n - 1 := Nat.div_le_self _ _
    generalize (n - 1) / 2 ^ j = d at hstep hdn ih ⊢
    generalize (n - 1) / 2 ^ (j + 1) = d0 at hstep hl hd hhalf
    have hmask : 2 ^ j >>> 1 = if j = 0 then 0 else 2 ^ (j - 1) := by
      split
      · next h => subst h; rfl
      · next h =>
        rw [Nat.shiftRight_eq_div_pow, pow_one]
        obtain ⟨i, rfl⟩ : ∃ i, j = i + 1 := ⟨j - 1, by omega⟩
        rw [pow_succ]; simp
    rw [hmask]
    set s := a.length + ret.length - 1 with hs
    have hsd : (polyOf a * polyOf ret).degree < s :=
      degree_mul_lt (degree_polyOf_lt _) (degree_polyOf_lt _) (by omega)
    set T := min (d + 1) s with hT
    have hT0 : 0 < T := by omega
    rw [subU_of_le (by omega), bind_ok, ← hs, ← hT,
      polyMul_spec a ret (some fs) T (by omega)
        (fun fs' e => ⟨k, by cases e; exact hwf, by omega⟩), unwrap_ok, bind_ok]
    set t := (List.range T).map (polyOf a * polyOf ret).coeff with ht
    have htl : t.length = T := by simp [ht]
    have hnl : (forRange 0 T t fun i t => do
        let x ← rd t i
        wr t i (-x)) = .ok ((List.range t.length).map fun i => -(t.getD i 0)) := by
      conv_lhs => rw [← htl]
      refine fill_loop rfl _ ?_
      intro i s hi hl _ h2
      rw [rd_of_getElem? (by rw [h2 i le_rfl, getElem?_eq_some_getD 0 hi]), bind_ok]
    rw [hnl, bind_ok]
    set t2 := (List.range t.length).map (fun i => -(t.getD i 0)) with ht2
    have ht2l : t2.length = T := by simp [ht2, htl]
    rw [rd_getD 0 (show 0 < t2.length by omega), bind_ok, wr_of_lt (show 0 < t2.length by omega), bind_ok]
    have hpt2 : polyOf t2 = - polyOf t := by
      ext i
      rw [coeff_neg, coeff_polyOf, coeff_polyOf, ht2, getD_range_map]
      split
      · rfl
      · rw [List.getD_eq_default t _ (by omega)]; simp
    set t3 := t2.set 0 (t2.getD 0 0 + 2) with ht3
    have ht3l : t3.length = T := by simp [ht3, ht2l]
    have hpt3 : polyOf t3 = 2 - polyOf t := by
      rw [ht3, polyOf_set (by omega), hpt2]
      simp only [add_sub_cancel_left, pow_zero, mul_one]
      rw [show (C (2 : F)) = 2 from rfl]; ring
    rw [polyMul_spec ret t3 (some fs) (d + 1) (by omega)
        (fun fs' e => ⟨k, by cases e; exact hwf, by omega⟩), unwrap_ok, bind_ok]
    refine ih _ (by simp) ?_
    refine newton_step (polyOf a) (polyOf ret) (d0 + 1) (d + 1) hstep hd
        (polyOf t3) _ ?_ (trunc_dvd _ _)
    rw [hpt3, show (2 : F[X]) - polyOf t - (2 - polyOf a * polyOf ret) =
      -(polyOf t - polyOf a * polyOf ret) by ring]
    exact (dvd_neg).mpr (trunc_min_dvd hsd)

theorem polyOf_one {a : List F} (h : a.length = 1) : polyOf a = C (a.getD 0 0) := by
  ext k
  rw [coeff_polyOf, coeff_C]
  split
  · next h => rw [h]
  · rw [List.getD_eq_default _ _ (by omega)]

theorem polyInverse_spec (a : List F) (n : Nat) (hn : 0 < n) (ha : a ≠ []) (h0 : a.getD 0 0 ≠ 0)
    (hlen : n + n / 2 ≤ 2 ^ 30) :
    Sat (polyInverse a n) (fun r => r.length = n ∧ X ^ n ∣ polyOf a * polyOf r - 1) := by
  have ha' : 0 < a.length := List.length_pos_iff.mpr ha
  unfold polyInverse
  rw [if_neg (by omega), rd_getD 0 ha', bind_ok, if_neg h0]
  split
  · next h1 =>
    rw [frInv_of_ne h0, bind_ok]
    refine Sat.ok ⟨by simp; omega, ?_⟩
    have e : (a.getD 0 0)⁻¹ :: List.replicate (n - 1) (0 : F) = [(a.getD 0 0)⁻¹] ++ List.replicate (n - 1) 0 := rfl
    rw [e, polyOf_append_zeros, polyOf_one h1, polyOf_one (a := [(a.getD 0 0)⁻¹]) rfl, List.getD_cons_zero,
      ← C_mul, mul_inv_cancel₀ h0, C_1, sub_self]
    exact dvd_zero _
  · set t := bitLen (2 * n - 1 - 1) with ht
    have hN : 2 * n - 1 ≤ 2 ^ t := le_two_pow_bitLen_pred
    have ht31 : t ≤ 31 := bitLen_le_of_le (by omega)
    have h63 : 2 * n - 1 ≤ 2 ^ 63 := by
      have : 2 ^ 31 ≤ 2 ^ 63 := Nat.pow_le_pow_right (by omega) (by omega)
      omega
    obtain ⟨fs, hfs, hwf⟩ := new5_spec (F := F) (show t < 32 by omega)
    have h64 : n - 1 < 2 ^ 64 := by
      have : 2 ^ 31 ≤ 2 ^ 64 := Nat.pow_le_pow_right (by omega) (by omega)
      omega
    rw [subU_of_le (by omega), bind_ok, subU_of_le (by omega), bind_ok, nextPowOf2_eq h63, bind_ok, ← ht,
      log2_two_pow (by omega), hfs, bind_ok, frInv_of_ne h0, bind_ok]
    have hj : (1 <<< log2 (n - 1)) = if Nat.log2 (n - 1) + 1 = 0 then 0 else
        2 ^ (Nat.log2 (n - 1) + 1 - 1) := by
      rw [if_neg (by omega), log2_eq h64, Nat.shiftLeft_eq]; simp
    have hd0 : (n - 1) / 2 ^ (Nat.log2 (n - 1) + 1) = 0 := Nat.div_eq_of_lt Nat.lt_log2_self
    have := invLoop_spec a ha n hn hlen fs hwf hN (Nat.log2 (n - 1) + 1) [(a.getD 0 0)⁻¹] (by simp [hd0]) (by
      rw [hd0, polyOf_one (a := [(a.getD 0 0)⁻¹]) rfl]
      exact dvd_C_mul (coeff_polyOf a 0) h0)
    rw [hd0, ← hj] at this
    obtain ⟨⟨d, r⟩, hr, g1, g2, g3⟩ := this
    simp only at g1 g2 g3
    rw [hr, bind_ok]
    simp only
    rw [if_neg (by omega)]
    exact Sat.ok ⟨g2, g3⟩

theorem polyInverse_zero (a : List F) (n : Nat) (h : a = [] ∨ n = 0) : polyInverse a n = .ok [] := by
  unfold polyInverse
  rw [if_pos (by rcases h with rfl | rfl <;> simp)]

theorem polyInverse_err (a : List F) (n : Nat) (hn : 0 < n) (ha : a ≠ []) (h0 : a.getD 0 0 = 0) :
    polyInverse a n = .err "The constant term of self must be nonzero." := by
  have ha' : 0 < a.length := List.length_pos_iff.mpr ha
  unfold polyInverse
  rw [if_neg (by omega), rd_getD 0 ha', bind_ok, if_pos h0]

/-! ## Division -/

theorem push_loop {α : Type} (f : Nat → α) (n : Nat) (body : Nat → List α → Res (List α))
    (hb : ∀ i < n, ∀ out, body i out = .ok (out ++ [f i])) :
    forRange 0 n [] body = .ok ((List.range n).map f) := by
  obtain ⟨r, hr, e⟩ := forRange_inv (lo := 0) (hi := n) (s := ([] : List α)) (body := body)
    (fun i s => s = (List.range i).map f) (Nat.zero_le _) rfl (by
      rintro i s _ hi rfl
      rw [hb i hi]
      exact Sat.ok (by rw [List.range_succ, List.map_append, List.map_singleton]))
  rw [hr, e]

/-- The reversed quotient is the product of the reversed dividend and the inverse of the reversed divisor. -/
theorem reverse_quotient {a b q v : List F} {k : Nat} (hbl : 0 < b.length) (hk : k = a.length + 1 - b.length)
    (hk0 : 0 < k) (hqk : q.length = k)
    (hdeg : (polyOf a - polyOf q * polyOf b).degree < ((b.length - 1 : Nat) : WithBot Nat))
    (hvd : X ^ k ∣ polyOf b.reverse * polyOf v - 1) :
    (List.range k).map (polyOf a.reverse * polyOf v).coeff = q.reverse := by
  apply polyOf_inj (by simp; omega)
  ext i
  rw [polyOf_map_range]
  by_cases hi : i < k
  · rw [if_pos hi]
    have h1 : X ^ k ∣ polyOf a.reverse - polyOf q.reverse * polyOf b.reverse := by
      rw [polyOf_reverse, polyOf_reverse, polyOf_reverse,
        ← reflect_mul _ _ (natDegree_polyOf_le q) (natDegree_polyOf_le b),
        show q.length - 1 + (b.length - 1) = a.length - 1 by omega]
      rw [X_pow_dvd_iff]
      intro d hd
      rw [coeff_sub, coeff_reflect, coeff_reflect, revAt_le (by omega), ← coeff_sub]
      exact (degree_lt_iff_coeff_zero _ _).mp hdeg _ (by omega)
    have h2 : X ^ k ∣ polyOf a.reverse * polyOf v - polyOf q.reverse := by
      have e : polyOf a.reverse * polyOf v - polyOf q.reverse =
          (polyOf a.reverse - polyOf q.reverse * polyOf b.reverse) * polyOf v +
          polyOf q.reverse * (polyOf b.reverse * polyOf v - 1) := by ring
      rw [e]
      exact dvd_add (h1.mul_right _) (hvd.mul_left _)
    have := X_pow_dvd_iff.mp h2 i hi
    rw [coeff_sub, sub_eq_zero] at this
    exact this
  · rw [if_neg hi, coeff_polyOf, List.getD_eq_default _ _ (by simp; omega)]

theorem fastDiv_eq (a b : List F) (hb : b ≠ []) (hlead : b.getD (b.length - 1) 0 ≠ 0)
    (hlen : b.length = 1 ∨ a.length + 1 - b.length ≤ 2 ^ 29) : fastDiv a b = Kzg.longDiv a b := by
  have hbl : 0 < b.length := List.length_pos_iff.mpr hb
  obtain ⟨q, hq, hql, hdeg⟩ := longDiv_spec a b hb hlead
  rw [hq]
  unfold fastDiv
  rw [getLast?_getD hb]
  simp only [hlead, if_false]
  by_cases hnm : a.length < b.length
  · rw [if_pos (by rw [polyQuotientLength, if_neg (by omega)])]
    have : q = [] := List.length_eq_zero_iff.mp (by omega)
    rw [this]
  have hol : polyQuotientLength a b = a.length + 1 - b.length := by
    rw [polyQuotientLength, if_pos (by omega)]; omega
  rw [hol, if_neg (by omega)]
  by_cases hb1 : b.length = 1
  · have hlead' : b.getD 0 0 ≠ 0 := by simpa [hb1] using hlead
    rw [if_pos hb1, push_loop (fun i => a.getD i 0 * (b.getD 0 0)⁻¹) a.length _ (by
      intro i hi out
      rw [rd_getD 0 hi, bind_ok, rd_getD 0 (by omega), bind_ok, frDiv_of_ne hlead', bind_ok])]
    congr 1
    symm
    have h0 : polyOf a - polyOf q * polyOf b = 0 := by
      rw [hb1] at hdeg
      simpa using hdeg
    apply polyOf_inj (by simp; omega)
    ext i
    rw [polyOf_map_range]
    have := congrArg (fun p => p.coeff i) (sub_eq_zero.mp h0)
    simp only [polyOf_one hb1, coeff_mul_C, coeff_polyOf] at this
    rw [coeff_polyOf]
    split
    · rw [this, mul_assoc, mul_inv_cancel₀ hlead', mul_one]
    · rw [List.getD_eq_default q _ (by omega)]
  rw [if_neg hb1]
  set k := a.length + 1 - b.length with hk
  have hk29 : k ≤ 2 ^ 29 := by omega
  have hrevb : b.reverse ≠ [] := by simpa using hb
  have hb0 : b.reverse.getD 0 0 ≠ 0 := by
    rw [List.getD_eq_getElem _ _ (by simpa using hbl), List.getElem_reverse]
    rw [List.getD_eq_getElem _ _ (by omega)] at hlead
    simpa using hlead
  obtain ⟨v, hv, hvl, hvd⟩ := polyInverse_spec b.reverse k (by omega) hrevb hb0 (by omega)
  rw [flip, flip, hv, unwrap_ok, bind_ok, polyMul_spec _ _ none k (by omega) (fits_none _), unwrap_ok, bind_ok, flip,
    reverse_quotient hbl hk (by omega) hql hdeg hvd, List.reverse_reverse]

/-- Above `2^29` coefficients the quotient comes out with the wrong sign. -/
theorem fastDiv_negated (a b : List F) (hb : 64 ≤ b.length) (hlead : b.getD (b.length - 1) 0 ≠ 0)
    (h1 : 2 ^ 29 < a.length + 1 - b.length) (h2 : a.length + 1 - b.length + (a.length + 1 - b.length) / 2 ≤ 2 ^ 30) :
    fastDiv a b = (Kzg.longDiv a b >>= fun q => .ok (q.map fun x => -x)) := by
  have hbn : b ≠ [] := by rintro rfl; simp at hb
  obtain ⟨q, hq, hql, hdeg⟩ := longDiv_spec a b hbn hlead
  rw [hq, bind_ok]
  unfold fastDiv
  rw [getLast?_getD hbn]
  simp only [hlead, if_false]
  have hol : polyQuotientLength a b = a.length + 1 - b.length := by
    rw [polyQuotientLength, if_pos (by omega)]; omega
  rw [hol, if_neg (by omega), if_neg (by omega)]
  set k := a.length + 1 - b.length with hk
  have hrevb : b.reverse ≠ [] := by simpa using hbn
  have hb0 : b.reverse.getD 0 0 ≠ 0 := by
    rw [List.getD_eq_getElem _ _ (by simp; omega), List.getElem_reverse]
    rw [List.getD_eq_getElem _ _ (by omega)] at hlead
    simpa using hlead
  obtain ⟨v, hv, hvl, hvd⟩ := polyInverse_spec b.reverse k (by omega) hrevb hb0 (by omega)
  have hrq := reverse_quotient (show 0 < b.length by omega) hk (by omega) hql hdeg hvd
  have hneg : (List.range k).map (fun i => -(polyOf a.reverse * polyOf v).coeff i) = (q.map fun x => -x).reverse := by
    rw [← List.map_reverse, ← hrq, List.map_map]
    rfl
  have hm : polyMul a.reverse v none k = mulFft a.reverse v none k := by
    rw [polyMul, if_neg]
    rw [List.length_reverse]
    omega
  rw [flip, flip, hv, unwrap_ok, bind_ok, hm, mulFft_31 _ _ k (by rw [List.length_reverse]; omega)
    (by rw [List.length_reverse]; omega), unwrap_ok, bind_ok, flip, hneg, List.reverse_reverse]

/-! ## Normalisation -/

theorem normaliseLen_le (a : List F) (n : Nat) : normaliseLen a n ≤ n := by
  induction n with
  | zero => rfl
  | succ n ih => unfold normaliseLen; split <;> omega

theorem normaliseLen_zero (a : List F) (n i : Nat) (h1 : normaliseLen a n ≤ i) (h2 : i < n) : a.getD i 0 = 0 := by
  induction n with
  | zero => omega
  | succ n ih =>
    unfold normaliseLen at h1
    split at h1
    · next h =>
      by_cases hi : i = n
      · rw [hi]; exact h
      · exact ih h1 (by omega)
    · omega

theorem normaliseLen_top (a : List F) (n : Nat) (h : normaliseLen a n ≠ 0) :
    a.getD (normaliseLen a n - 1) 0 ≠ 0 := by
  induction n with
  | zero => simp [normaliseLen] at h
  | succ n ih =>
    unfold normaliseLen at h ⊢
    split
    · next h' => rw [if_pos h'] at h; exact ih h
    · next h' => simpa using h'

theorem polyOf_normalise (a : List F) : polyOf (normalise a) = polyOf a := by
  apply polyOf_congr
  intro i
  rw [normalise, List.getD_eq_getElem?_getD, List.getElem?_take]
  split
  · rw [← List.getD_eq_getElem?_getD]
  · next h =>
    by_cases hi : i < a.length
    · rw [normaliseLen_zero a a.length i (by omega) hi]; rfl
    · rw [List.getD_eq_default _ _ (by omega)]; rfl

theorem normalise_length (a : List F) : (normalise a).length = normaliseLen a a.length := by
  rw [normalise, List.length_take, min_eq_left (normaliseLen_le _ _)]

theorem normalise_lead (a : List F) (h : normalise a ≠ []) :
    (normalise a).getD ((normalise a).length - 1) 0 ≠ 0 := by
  have hl : normaliseLen a a.length ≠ 0 := by
    rw [← normalise_length]; simpa using h
  have := normaliseLen_top a a.length hl
  rw [normalise_length, normalise, List.getD_eq_getElem?_getD, List.getElem?_take, if_pos (by omega),
    ← List.getD_eq_getElem?_getD]
  exact this

theorem normalise_eq_nil (a : List F) : normalise a = [] ↔ polyOf a = 0 := by
  constructor
  · intro h; rw [← polyOf_normalise, h, polyOf_nil]
  · intro h
    by_contra hne
    have := normalise_lead a hne
    rw [← coeff_polyOf, polyOf_normalise, h] at this
    simp at this

theorem normalise_length_eq (a : List F) (h : polyOf a ≠ 0) :
    (normalise a).length = (polyOf a).natDegree + 1 := by
  have hne : normalise a ≠ [] := fun e => h ((normalise_eq_nil a).mp e)
  obtain ⟨g, _⟩ := natDegree_of_lead hne (normalise_lead a hne)
  have : 0 < (normalise a).length := List.length_pos_iff.mpr hne
  rw [polyOf_normalise] at g
  omega

/-- The division chooses between the two methods and gives the same in either case. -/
theorem polyDiv_eq (a b : List F) (hb : polyOf b ≠ 0) (hlen : a.length ≤ 2 ^ 29) :
    polyDiv a b = Kzg.longDiv a (normalise b) := by
  have hne : normalise b ≠ [] := fun e => hb ((normalise_eq_nil b).mp e)
  have hlead := normalise_lead b hne
  have : 0 < (normalise b).length := List.length_pos_iff.mpr hne
  unfold polyDiv
  simp only
  split
  · exact longDivision_eq a _ hne hlead
  · exact fastDiv_eq a _ hne hlead (Or.inr (by omega))

theorem polyDiv_spec (a b : List F) (hb : polyOf b ≠ 0) (hlen : a.length ≤ 2 ^ 29) :
    Sat (polyDiv a b) (fun q => q.length = a.length - (polyOf b).natDegree ∧ polyOf q = polyOf a / polyOf b) := by
  have hne : normalise b ≠ [] := fun e => hb ((normalise_eq_nil b).mp e)
  rw [polyDiv_eq a b hb hlen]
  refine Sat.mono (longDiv_div a _ hne (normalise_lead b hne)) ?_
  rintro q ⟨h1, h2⟩
  rw [polyOf_normalise] at h2
  rw [normalise_length_eq b hb] at h1
  exact ⟨by omega, h2⟩

theorem polyDiv_zero (a b : List F) (hb : polyOf b = 0) :
    polyDiv a b = .err "Dividing by zero is undefined" := by
  unfold polyDiv
  rw [(normalise_eq_nil b).mpr hb]
  simp only [List.length_nil]
  rw [if_pos (by omega)]
  rfl

end Kzg.Mcl
