import Verif.Proofs.Mcl.Poly
/-!
# Inverse power series and fast division of mcl-kzg for all lengths: proofs

The last step of the iteration is the only one whose products can have more than `2^30` coefficients. Each of its two products comes out
with the right sign or with the wrong one.
-/

namespace Kzg.Mcl
open Kzg Kzg.Res Polynomial Finset

set_option linter.unusedSectionVars false

variable {F : Type} [Field F] [DecidableEq F] [Lib F] [Tables F] [LawfulTables F]

/-- As `mulFft_31`, with settings. -/
theorem mulFft_31' (a b : List F) (ft : Option (FFTSettings F)) (len : Nat)
    (h0 : 2 ^ 30 + 1 < min a.length len + min b.length len)
    (hlen : min a.length len + min b.length len ≤ 2 ^ 31 + 1)
    (hft : Fits ft (min a.length len + min b.length len - 1)) :
    mulFft a b ft len = .ok ((List.range len).map fun k => -(polyOf a * polyOf b).coeff k) := by
  obtain ⟨t, k, fs, ab, ht, hwf, htk, habl, hab, hr⟩ := mulFft_reduce a b ft len (by omega) hlen hft
  obtain ⟨t', k', fs', ab', ht', hwf', htk', habl', hab', hr'⟩ :=
    mulFft_reduce a b none len (by omega) hlen (fits_none _)
  rw [← mulFft_31 a b len h0 hlen, hr, hr']
  have ht31 : t = 31 := by
    have h1 : t ≤ 31 := by rw [ht]; exact bitLen_le_of_le (by omega)
    have h2 : ¬ t ≤ 30 := by
      intro h
      have h3 : min a.length len + min b.length len - 1 ≤ 2 ^ t := by rw [ht]; exact le_two_pow_bitLen_pred
      have := Nat.pow_le_pow_right (show 0 < 2 by omega) h
      omega
    omega
  have ht31' : t' = 31 := by rw [ht', ← ht, ht31]
  have hk : k = 31 := by have := hwf.lt; omega
  have hk' : k' = 31 := by have := hwf'.lt; omega
  have h31 := fft_31 (hk ▸ hwf) ab (ht31 ▸ habl)
  have h31' := fft_31 (hk' ▸ hwf') ab' (ht31' ▸ habl')
  rw [h31, h31', hab, hab', ht31, ht31']

theorem polyMul_one (a b : List F) (ft : Option (FFTSettings F)) (len : Nat)
    (hlen : (a.length < 64 ∨ b.length < 64 ∨ len < 128) ∨ min a.length len + min b.length len ≤ 2 ^ 30 + 1)
    (hft : Fits ft (min a.length len + min b.length len - 1)) :
    polyMul a b ft len = .ok ((List.range len).map fun k => 1 * (polyOf a * polyOf b).coeff k) := by
  have : polyMul a b ft len = .ok ((List.range len).map (polyOf a * polyOf b).coeff) := by
    rcases hlen with h | h
    · rw [polyMul, if_pos h]; exact mulDirect_spec a b len
    · exact polyMul_spec a b ft len h hft
  rw [this]
  congr 1
  apply List.map_congr_left
  intro i _
  rw [one_mul]

theorem polyMul_neg (a b : List F) (ft : Option (FFTSettings F)) (len : Nat)
    (ha : 64 ≤ a.length) (hb : 64 ≤ b.length) (hl : 128 ≤ len)
    (h0 : 2 ^ 30 + 1 < min a.length len + min b.length len)
    (hlen : min a.length len + min b.length len ≤ 2 ^ 31 + 1)
    (hft : Fits ft (min a.length len + min b.length len - 1)) :
    polyMul a b ft len = .ok ((List.range len).map fun k => -1 * (polyOf a * polyOf b).coeff k) := by
  rw [polyMul, if_neg (by omega), mulFft_31' a b ft len h0 hlen hft]
  congr 1
  apply List.map_congr_left
  intro i _
  rw [neg_one_mul]

theorem trunc_min_dvd_C {p : F[X]} {m s : Nat} (e : F) (hp : p.degree < s) :
    X ^ m ∣ polyOf ((List.range (min m s)).map fun k => e * p.coeff k) - C e * p := by
  have h : (fun k => e * p.coeff k) = (C e * p).coeff := by
    funext k; rw [coeff_C_mul]
  rw [h]
  refine trunc_min_dvd (lt_of_le_of_lt ?_ hp)
  calc (C e * p).degree ≤ (C e).degree + p.degree := degree_mul_le _ _
    _ ≤ 0 + p.degree := by gcongr; exact degree_C_le
    _ = p.degree := zero_add _

theorem trunc_dvd_C (p : F[X]) (e : F) (n : Nat) :
    X ^ n ∣ polyOf ((List.range n).map fun k => e * p.coeff k) - C e * p := by
  have h : (fun k => e * p.coeff k) = (C e * p).coeff := by
    funext k; rw [coeff_C_mul]
  rw [h]
  exact trunc_dvd _ _

/-- One step of the iteration, given what the two products give. -/
theorem invLoop_step (a : List F) (ha : a ≠ []) (n j : Nat) (fs : FFTSettings F) (ret : List F)
    (hl : ret.length = (n - 1) / 2 ^ (j + 1) + 1) (e1 e2 : F)
    (hp1 : polyMul a ret (some fs) (min ((n - 1) / 2 ^ j + 1) (a.length + ret.length - 1)) =
      .ok ((List.range (min ((n - 1) / 2 ^ j + 1) (a.length + ret.length - 1))).map fun k =>
        e1 * (polyOf a * polyOf ret).coeff k))
    (hp2 : ∀ t : List F, t.length = min ((n - 1) / 2 ^ j + 1) (a.length + ret.length - 1) →
      polyMul ret t (some fs) ((n - 1) / 2 ^ j + 1) =
        .ok ((List.range ((n - 1) / 2 ^ j + 1)).map fun k => e2 * (polyOf ret * polyOf t).coeff k)) :
    ∃ out : List F, out.length = (n - 1) / 2 ^ j + 1 ∧
      X ^ ((n - 1) / 2 ^ j + 1) ∣ polyOf out - C e2 * (polyOf ret * (2 - C e1 * (polyOf a * polyOf ret))) ∧
      invLoop a fs (n - 1) (2 ^ j) ((n - 1) / 2 ^ (j + 1)) ret =
        invLoop a fs (n - 1) (if j = 0 then 0 else 2 ^ (j - 1)) ((n - 1) / 2 ^ j) out := by
  have ha' : 0 < a.length := List.length_pos_iff.mpr ha
  conv in invLoop a fs (n - 1) (2 ^ j) ((n - 1) / 2 ^ (j + 1)) ret => unfold invLoop
  have hp : 2 ^ j ≠ 0 := by positivity
  rw [dif_neg hp]
  dsimp only
  rw [next_d]
  generalize (n - 1) / 2 ^ j = d at hp1 hp2 ⊢
  generalize (n - 1) / 2 ^ (j + 1) = d0 at hl
  have hmask : 2 ^ j >>> 1 = if j = 0 then 0 else 2 ^ (j - 1) := by
    split
    · next h => subst h; rfl
    · next h =>
      rw [Nat.shiftRight_eq_div_pow, pow_one]
      obtain ⟨i, rfl⟩ : ∃ i, j = i + 1 := ⟨j - 1, by omega⟩
      rw [pow_succ]; simp
  rw [hmask]
  set s := a.length + ret.length - 1 with hs
  have hsd : (polyOf a * polyOf ret).degree < s :=
    degree_mul_lt (degree_polyOf_lt _) (degree_polyOf_lt _) (by omega)
  set T := min (d + 1) s with hT
  have hT0 : 0 < T := by omega
  rw [subU_of_le (by omega), bind_ok, ← hs, ← hT, hp1, unwrap_ok, bind_ok]
  set t := (List.range T).map (fun k => e1 * (polyOf a * polyOf ret).coeff k) with ht
  have htl : t.length = T := by simp [ht]
  have hnl : (forRange 0 T t fun i t => do
      let x ← rd t i
      wr t i (-x)) = .ok ((List.range t.length).map fun i => -(t.getD i 0)) := by
    conv_lhs => rw [← htl]
    refine fill_loop rfl _ ?_
    intro i s hi hl _ h2
    rw [rd_of_getElem? (by rw [h2 i le_rfl, getElem?_eq_some_getD 0 hi]), bind_ok]
  rw [hnl, bind_ok]
  set t2 := (List.range t.length).map (fun i => -(t.getD i 0)) with ht2
  have ht2l : t2.length = T := by simp [ht2, htl]
  rw [rd_getD 0 (show 0 < t2.length by omega), bind_ok, wr_of_lt (show 0 < t2.length by omega), bind_ok]
  have hpt2 : polyOf t2 = - polyOf t := by
    ext i
    rw [coeff_neg, coeff_polyOf, coeff_polyOf, ht2, getD_range_map]
    split
    · rfl
    · rw [List.getD_eq_default t _ (by omega)]; simp
  set t3 := t2.set 0 (t2.getD 0 0 + 2) with ht3
  have ht3l : t3.length = T := by simp [ht3, ht2l]
  have hpt3 : polyOf t3 = 2 - polyOf t := by
    rw [ht3, polyOf_set (by omega), hpt2]
    simp only [add_sub_cancel_left, pow_zero, mul_one]
    rw [show (C (2 : F)) = 2 from rfl]; ring
  rw [hp2 t3 ht3l, unwrap_ok, bind_ok]
  refine ⟨_, by simp, ?_, rfl⟩
  have h1 := trunc_dvd_C (polyOf ret * polyOf t3) e2 (d + 1)
  have h2 : X ^ (d + 1) ∣ polyOf t - C e1 * (polyOf a * polyOf ret) := trunc_min_dvd_C e1 hsd
  rw [hpt3] at h1 ⊢
  have e : ∀ o : F[X], o - C e2 * (polyOf ret * (2 - C e1 * (polyOf a * polyOf ret))) =
      (o - C e2 * (polyOf ret * (2 - polyOf t))) -
        C e2 * polyOf ret * (polyOf t - C e1 * (polyOf a * polyOf ret)) := fun o => by ring
  rw [e]
  exact dvd_sub h1 (h2.mul_left _)

/-- All steps but the last. -/
theorem invLoop_front (a : List F) (ha : a ≠ []) (n : Nat) (hn : 0 < n) (hlen : n ≤ 2 ^ 30)
    (fs : FFTSettings F) {k : Nat} (hwf : fs.WF k) (hk : 2 * n - 1 ≤ 2 ^ k) :
    ∀ (j : Nat) (out : List F), out.length = (n - 1) / 2 ^ (j + 1) + 1 →
      X ^ ((n - 1) / 2 ^ (j + 1) + 1) ∣ polyOf a * polyOf out - 1 →
      ∃ ret : List F, ret.length = (n - 1) / 2 + 1 ∧ X ^ ((n - 1) / 2 + 1) ∣ polyOf a * polyOf ret - 1 ∧
        invLoop a fs (n - 1) (2 ^ j) ((n - 1) / 2 ^ (j + 1)) out = invLoop a fs (n - 1) 1 ((n - 1) / 2) ret := by
  intro j
  induction j with
  | zero => intro out hl hd; exact ⟨out, by simpa using hl, by simpa using hd, by simp⟩
  | succ j ih =>
    intro out hl hd
    have ha' : 0 < a.length := List.length_pos_iff.mpr ha
    have hd1 : (n - 1) / 2 ^ (j + 1) ≤ (n - 1) / 2 := Nat.div_le_div_left
      (by rw [pow_succ]; have : 0 < 2 ^ j := by positivity
          omega) (by omega)
    have hd2 : (n - 1) / 2 ^ (j + 1 + 1) ≤ (n - 1) / 2 ^ (j + 1) := Nat.div_le_div_left
      (Nat.pow_le_pow_right (by omega) (by omega)) (by positivity)
    have hstep : (n - 1) / 2 ^ (j + 1) + 1 ≤ 2 * ((n - 1) / 2 ^ (j + 1 + 1) + 1) := by
      have := next_d (n - 1) (j + 1)
      split at this <;> omega
    have hd3 : (n - 1) / 2 ^ (j + 1 + 1) ≤ (n - 1) / 4 := Nat.div_le_div_left
      (by rw [pow_succ, pow_succ]; have : 0 < 2 ^ j := by positivity
          omega) (by omega)
    obtain ⟨o, ol, od, oe⟩ := invLoop_step a ha n (j + 1) fs out hl 1 1
      (polyMul_one a out _ _ (.inr (by omega)) fun fs' e => ⟨k, by cases e; exact hwf, by omega⟩)
      (fun t ht => polyMul_one out t _ _ (.inr (by omega)) fun fs' e => ⟨k, by cases e; exact hwf, by omega⟩)
    rw [oe, if_neg (by omega), Nat.add_sub_cancel]
    refine ih o ol ?_
    refine newton_step (polyOf a) (polyOf out) _ _ hstep hd (2 - polyOf a * polyOf out) _ (by simp) ?_
    simpa using od

/-- What `inverse` returns, in terms of the inverse of half the length and the signs of the last two products. -/
theorem polyInverse_last (a : List F) (n : Nat) (hn : 0 < n) (ha : 2 ≤ a.length) (h0 : a.getD 0 0 ≠ 0)
    (hlen : n ≤ 2 ^ 30) :
    ∃ (fs : FFTSettings F) (k : Nat) (ret : List F), fs.WF k ∧ 2 * n - 1 ≤ 2 ^ k ∧ ret.length = (n - 1) / 2 + 1 ∧
      X ^ ((n - 1) / 2 + 1) ∣ polyOf a * polyOf ret - 1 ∧
      ∀ e1 e2 : F,
        polyMul a ret (some fs) (min n (a.length + (n - 1) / 2)) =
          .ok ((List.range (min n (a.length + (n - 1) / 2))).map fun k => e1 * (polyOf a * polyOf ret).coeff k) →
        (∀ t : List F, t.length = min n (a.length + (n - 1) / 2) →
          polyMul ret t (some fs) n = .ok ((List.range n).map fun k => e2 * (polyOf ret * polyOf t).coeff k)) →
        ∃ out : List F, polyInverse a n = .ok out ∧ out.length = n ∧
          X ^ n ∣ polyOf out - C e2 * (polyOf ret * (2 - C e1 * (polyOf a * polyOf ret))) := by
  have hane : a ≠ [] := by rintro rfl; simp at ha
  set t := bitLen (2 * n - 1 - 1) with ht
  have hN : 2 * n - 1 ≤ 2 ^ t := le_two_pow_bitLen_pred
  have ht31 : t ≤ 31 := bitLen_le_of_le (by omega)
  have h63 : 2 * n - 1 ≤ 2 ^ 63 := by
    have : 2 ^ 31 ≤ 2 ^ 63 := Nat.pow_le_pow_right (by omega) (by omega)
    omega
  obtain ⟨fs, hfs, hwf⟩ := new5_spec (F := F) (show t < 32 by omega)
  have h64 : n - 1 < 2 ^ 64 := by
    have : 2 ^ 31 ≤ 2 ^ 64 := Nat.pow_le_pow_right (by omega) (by omega)
    omega
  have hd0 : (n - 1) / 2 ^ (Nat.log2 (n - 1) + 1) = 0 := Nat.div_eq_of_lt Nat.lt_log2_self
  obtain ⟨ret, rl, rd', re⟩ := invLoop_front a hane n hn hlen fs hwf hN (Nat.log2 (n - 1)) [(a.getD 0 0)⁻¹]
    (by simp [hd0]) (by
      rw [hd0, polyOf_one (a := [(a.getD 0 0)⁻¹]) rfl]
      exact dvd_C_mul (coeff_polyOf a 0) h0)
  refine ⟨fs, t, ret, hwf, hN, rl, rd', ?_⟩
  intro e1 e2 hp1 hp2
  have hT : min ((n - 1) / 2 ^ 0 + 1) (a.length + ret.length - 1) = min n (a.length + (n - 1) / 2) := by
    rw [rl, pow_zero, Nat.div_one]; congr 1; omega
  have hn1 : (n - 1) / 2 ^ 0 + 1 = n := by rw [pow_zero, Nat.div_one]; omega
  obtain ⟨out, ol, od, oe⟩ := invLoop_step a hane n 0 fs ret (by simpa using rl) e1 e2
    (by rw [hT]; exact hp1) (by rw [hT, hn1]; exact hp2)
  rw [hn1] at ol od
  refine ⟨out, ?_, ol, od⟩
  unfold polyInverse
  rw [if_neg (by omega), rd_getD 0 (by omega), bind_ok, if_neg h0, if_neg (by omega),
    subU_of_le (by omega), bind_ok, subU_of_le (by omega), bind_ok, nextPowOf2_eq h63, bind_ok, ← ht,
    log2_two_pow (by omega), hfs, bind_ok, frInv_of_ne h0, bind_ok, log2_eq h64, Nat.shiftLeft_eq, one_mul]
  rw [hd0] at re
  rw [re]
  have oe' : invLoop a fs (n - 1) 1 ((n - 1) / 2) ret = invLoop a fs (n - 1) 0 (n - 1) out := by
    simpa using oe
  rw [oe']
  unfold invLoop
  rw [dif_pos rfl, bind_ok]
  dsimp only
  rw [if_neg (by omega)]

/-- The three cases, and `3` in the last. -/
theorem polyInverse_cases (a : List F) (n : Nat) (hn : 0 < n) (ha : 2 ≤ a.length) (h0 : a.getD 0 0 ≠ 0)
    (hlen : n ≤ 2 ^ 30) :
    (min n (a.length + (n - 1) / 2) + (n - 1) / 2 ≤ 2 ^ 30 →
      ∃ out : List F, polyInverse a n = .ok out ∧ out.length = n ∧ X ^ n ∣ polyOf a * polyOf out - 1) ∧
    (2 ^ 30 < min n (a.length + (n - 1) / 2) + (n - 1) / 2 →
      (a.length < 64 ∨ min a.length n + (n - 1) / 2 ≤ 2 ^ 30) →
      ∃ out : List F, polyInverse a n = .ok out ∧ out.length = n ∧ X ^ n ∣ polyOf a * polyOf out + 1) ∧
    (64 ≤ a.length → 2 ^ 30 < min a.length n + (n - 1) / 2 →
      ∃ out : List F, polyInverse a n = .ok out ∧ out.length = n ∧
        X ^ ((n - 1) / 2 + 1) ∣ polyOf a * polyOf out + 3) := by
  obtain ⟨fs, k, ret, hwf, hk, rl, rd', hout⟩ := polyInverse_last a n hn ha h0 hlen
  have fit : ∀ N, N ≤ 2 * n - 1 → Fits (some fs) N := fun N h fs' e => ⟨k, by cases e; exact hwf, by omega⟩
  obtain ⟨w, hw⟩ := rd'
  have hsq : (X : F[X]) ^ n ∣ (polyOf a * polyOf ret - 1) * (polyOf a * polyOf ret - 1) := by
    rw [hw]
    exact (pow_dvd_pow X (show n ≤ ((n - 1) / 2 + 1) + ((n - 1) / 2 + 1) by omega)).trans
      (by rw [pow_add]; exact ⟨w * w, by ring⟩)
  refine ⟨fun h => ?_, fun h h' => ?_, fun h h' => ?_⟩
  · obtain ⟨out, h1, h2, h3⟩ := hout 1 1
      (polyMul_one a ret _ _ (.inr (by omega)) (fit _ (by omega)))
      (fun t ht => polyMul_one ret t _ _ (.inr (by omega)) (fit _ (by omega)))
    refine ⟨out, h1, h2, ?_⟩
    rw [C_1, one_mul, one_mul] at h3
    have e : polyOf a * polyOf out - 1 = polyOf a * (polyOf out - polyOf ret * (2 - polyOf a * polyOf ret)) -
        (polyOf a * polyOf ret - 1) * (polyOf a * polyOf ret - 1) := by ring
    rw [e]
    exact dvd_sub (h3.mul_left _) hsq
  · obtain ⟨out, h1, h2, h3⟩ := hout 1 (-1)
      (polyMul_one a ret _ _ (by omega) (fit _ (by omega)))
      (fun t ht => polyMul_neg ret t _ _ (by omega) (by omega) (by omega) (by omega) (by omega) (fit _ (by omega)))
    refine ⟨out, h1, h2, ?_⟩
    rw [C_1, one_mul, C_neg, C_1] at h3
    have e : polyOf a * polyOf out + 1 = polyOf a * (polyOf out - -1 * (polyOf ret * (2 - polyOf a * polyOf ret))) +
        (polyOf a * polyOf ret - 1) * (polyOf a * polyOf ret - 1) := by ring
    rw [e]
    exact dvd_add (h3.mul_left _) hsq
  · obtain ⟨out, h1, h2, h3⟩ := hout (-1) (-1)
      (polyMul_neg a ret _ _ (by omega) (by omega) (by omega) (by omega) (by omega) (fit _ (by omega)))
      (fun t ht => polyMul_neg ret t _ _ (by omega) (by omega) (by omega) (by omega) (by omega) (fit _ (by omega)))
    refine ⟨out, h1, h2, ?_⟩
    rw [C_neg, C_1] at h3
    have e : polyOf a * polyOf out + 3 =
        polyOf a * (polyOf out - -1 * (polyOf ret * (2 - -1 * (polyOf a * polyOf ret)))) -
        (polyOf a * polyOf ret - 1) * (polyOf a * polyOf ret + 3) := by ring
    rw [e, hw]
    exact dvd_sub (((pow_dvd_pow X (by omega)).trans h3).mul_left _) ⟨w * (polyOf a * polyOf ret + 3), by ring⟩

theorem polyInverse_panic (a : List F) (n : Nat) (ha : 2 ≤ a.length) (h0 : a.getD 0 0 ≠ 0)
    (hlen : 2 ^ 30 < n) (hmax : n ≤ 2 ^ 62) : polyInverse a n = .panic := by
  have hN : 2 * n - 1 ≤ 2 ^ bitLen (2 * n - 1 - 1) := le_two_pow_bitLen_pred
  have ht32 : 32 ≤ bitLen (2 * n - 1 - 1) := by
    by_contra h
    have := Nat.pow_le_pow_right (show 0 < 2 by omega) (show bitLen (2 * n - 1 - 1) ≤ 31 by omega)
    omega
  have ht63 : bitLen (2 * n - 1 - 1) ≤ 63 := bitLen_le_of_le (by omega)
  unfold polyInverse
  rw [if_neg (by omega), rd_getD 0 (by omega), bind_ok, if_neg h0, if_neg (by omega),
    subU_of_le (by omega), bind_ok, subU_of_le (by omega), bind_ok, nextPowOf2_eq (by omega), bind_ok,
    log2_two_pow (by omega), FFTSettings.new5, newPR5_panic start_inv ht32]
  rfl

/-- The constant: any length. -/
theorem polyInverse_const (a : List F) (n : Nat) (hn : 0 < n) (ha : a.length = 1) (h0 : a.getD 0 0 ≠ 0) :
    polyInverse a n = .ok ((a.getD 0 0)⁻¹ :: List.replicate (n - 1) 0) := by
  unfold polyInverse
  rw [if_neg (by omega), rd_getD 0 (by omega), bind_ok, if_neg h0, if_pos ha, frInv_of_ne h0, bind_ok]

/-! ## Fast division -/

theorem fastDiv_unfold (a b : List F) (hb : 2 ≤ b.length) (hlead : b.getD (b.length - 1) 0 ≠ 0) (hk : b.length ≤ a.length) :
    fastDiv a b = (do
      let v ← (polyInverse b.reverse (a.length + 1 - b.length)).unwrap
      let q ← (polyMul a.reverse v none (a.length + 1 - b.length)).unwrap
      .ok q.reverse) := by
  have hbn : b ≠ [] := by rintro rfl; simp at hb
  unfold fastDiv
  rw [getLast?_getD hbn]
  simp only [hlead, if_false]
  have hol : polyQuotientLength a b = a.length + 1 - b.length := by
    rw [polyQuotientLength, if_pos (by omega)]; omega
  rw [hol, if_neg (by omega), if_neg (by omega)]
  rfl

/-- The product of the reversed dividend with a multiple of the inverse, up to `m ≤ k` coefficients. -/
theorem reverse_quotient_mod {a b q v : List F} {k m : Nat} (hk : k = a.length + 1 - b.length)
    (hk0 : 0 < k) (hb : 0 < b.length) (hqk : q.length = k) (hm : m ≤ k) (c : F)
    (hdeg : (polyOf a - polyOf q * polyOf b).degree < ((b.length - 1 : Nat) : WithBot Nat))
    (hvd : X ^ m ∣ polyOf b.reverse * polyOf v - C c) (i : Nat) (hi : i < m) :
    (polyOf a.reverse * polyOf v).coeff i = c * q.reverse.getD i 0 := by
  have h1 : X ^ m ∣ polyOf a.reverse - polyOf q.reverse * polyOf b.reverse := by
    refine (pow_dvd_pow X hm).trans ?_
    rw [polyOf_reverse, polyOf_reverse, polyOf_reverse,
      ← reflect_mul _ _ (natDegree_polyOf_le q) (natDegree_polyOf_le b),
      show q.length - 1 + (b.length - 1) = a.length - 1 by omega]
    rw [X_pow_dvd_iff]
    intro d hd
    rw [coeff_sub, coeff_reflect, coeff_reflect, revAt_le (by omega), ← coeff_sub]
    exact (degree_lt_iff_coeff_zero _ _).mp hdeg _ (by omega)
  have h2 : X ^ m ∣ polyOf a.reverse * polyOf v - C c * polyOf q.reverse := by
    have e : polyOf a.reverse * polyOf v - C c * polyOf q.reverse =
        (polyOf a.reverse - polyOf q.reverse * polyOf b.reverse) * polyOf v +
        polyOf q.reverse * (polyOf b.reverse * polyOf v - C c) := by ring
    rw [e]
    exact dvd_add (h1.mul_right _) (hvd.mul_left _)
  have := X_pow_dvd_iff.mp h2 i hi
  rw [coeff_sub, sub_eq_zero, coeff_C_mul, coeff_polyOf] at this
  exact this

/-- Quotients of more than `2^29` coefficients. -/
theorem fastDiv_cases (a b : List F) (hb : 2 ≤ b.length) (hlead : b.getD (b.length - 1) 0 ≠ 0) (k : Nat)
    (hk : k = a.length + 1 - b.length) (h1 : 2 ^ 29 < k) (h2 : k ≤ 2 ^ 30) :
    ∃ q r : List F, Kzg.longDiv a b = .ok q ∧ q.length = k ∧ fastDiv a b = .ok r ∧ r.length = k ∧
    (min k (b.length + (k - 1) / 2) + (k - 1) / 2 ≤ 2 ^ 30 → r = q.map fun x => -x) ∧
    (2 ^ 30 < min k (b.length + (k - 1) / 2) + (k - 1) / 2 →
      (b.length < 64 ∨ min b.length k + (k - 1) / 2 ≤ 2 ^ 30) → r = q) ∧
    (64 ≤ b.length → 2 ^ 30 < min b.length k + (k - 1) / 2 →
      ∀ i, i ≤ (k - 1) / 2 → r.getD (k - 1 - i) 0 = 3 * q.getD (k - 1 - i) 0) := by
  have hbn : b ≠ [] := by rintro rfl; simp at hb
  obtain ⟨q, hq, hql, hdeg⟩ := longDiv_spec a b hbn hlead
  have hb0 : b.reverse.getD 0 0 ≠ 0 := by
    rw [List.getD_eq_getElem _ _ (by simp; omega), List.getElem_reverse]
    rw [List.getD_eq_getElem _ _ (by omega)] at hlead
    simpa using hlead
  have hbr : b.reverse.length = b.length := List.length_reverse
  have hmul : ∀ v : List F, v.length = k → polyMul a.reverse v none k =
      .ok ((List.range k).map fun i => -1 * (polyOf a.reverse * polyOf v).coeff i) := fun v hv =>
    polyMul_neg _ _ _ _ (by rw [List.length_reverse]; omega) (by omega) (by omega)
      (by rw [List.length_reverse]; omega) (by rw [List.length_reverse]; omega) (fits_none _)
  have hdiv : ∀ v : List F, polyInverse b.reverse k = .ok v → v.length = k →
      fastDiv a b = .ok ((List.range k).map fun i => -1 * (polyOf a.reverse * polyOf v).coeff i).reverse := by
    intro v hv hvl
    rw [fastDiv_unfold a b hb hlead (by omega), ← hk, hv, unwrap_ok, bind_ok, hmul v hvl, unwrap_ok, bind_ok]
  have whole : ∀ (v : List F) (c : F), v.length = k → X ^ k ∣ polyOf b.reverse * polyOf v - C c →
      ((List.range k).map fun i => -1 * (polyOf a.reverse * polyOf v).coeff i).reverse = q.map fun x => -(c * x) := by
    intro v c hv hvd
    have : ((List.range k).map fun i => -1 * (polyOf a.reverse * polyOf v).coeff i) =
        (q.map fun x => -(c * x)).reverse := by
      rw [← List.map_reverse]
      apply List.ext_getElem
      · simp; omega
      · intro i hi1 hi2
        have hik : i < k := by simpa using hi1
        rw [List.getElem_map, List.getElem_range, List.getElem_map,
          reverse_quotient_mod hk (by omega) (by omega) (by omega) le_rfl c hdeg hvd i hik,
          List.getD_eq_getElem _ _ (by simp; omega), neg_one_mul]
    rw [this, List.reverse_reverse]
  obtain ⟨c1, c2, c3⟩ := polyInverse_cases b.reverse k (by omega) (by omega) hb0 h2
  rw [hbr] at c1 c2 c3
  by_cases d1 : min k (b.length + (k - 1) / 2) + (k - 1) / 2 ≤ 2 ^ 30
  · obtain ⟨v, hv, hvl, hvd⟩ := c1 d1
    clear c1 c2 c3
    refine ⟨q, _, hq, by omega, hdiv v hv hvl, by simp, fun _ => ?_, fun h => absurd d1 (by omega), fun _ h => ?_⟩
    · rw [whole v 1 hvl (by rw [C_1]; exact hvd)]
      simp only [one_mul]
    · exact absurd d1 (by omega)
  · by_cases d2 : b.length < 64 ∨ min b.length k + (k - 1) / 2 ≤ 2 ^ 30
    · obtain ⟨v, hv, hvl, hvd⟩ := c2 (not_le.mp d1) d2
      clear c1 c2 c3
      refine ⟨q, _, hq, by omega, hdiv v hv hvl, by simp, fun h => absurd h d1, fun _ _ => ?_, fun h h' => ?_⟩
      · rw [whole v (-1) hvl (by rw [C_neg, C_1, sub_neg_eq_add]; exact hvd)]
        simp
      · rcases d2 with d | d
        · exact absurd d (by omega)
        · exact absurd d (by omega)
    · obtain ⟨v, hv, hvl, hvd⟩ := c3 (not_lt.mp fun h => d2 (.inl h)) (not_le.mp fun h => d2 (.inr h))
      clear c1 c2 c3
      refine ⟨q, _, hq, by omega, hdiv v hv hvl, by simp, fun h => absurd h d1, fun _ h => absurd h d2, fun _ _ => ?_⟩
      intro i hi
      have hvd' : X ^ ((k - 1) / 2 + 1) ∣ polyOf b.reverse * polyOf v - C (-3) := by
        rw [C_neg, sub_neg_eq_add, show (C (3 : F)) = 3 from rfl]; exact hvd
      have := reverse_quotient_mod hk (by omega) (by omega) (by omega) (by omega) (-3) hdeg hvd' i (by omega)
      rw [List.getD_eq_getElem _ _ (by simp; omega), List.getElem_reverse, List.getElem_map, List.getElem_range]
      have e : ((List.range k).map fun i => -1 * (polyOf a.reverse * polyOf v).coeff i).length - 1 - (k - 1 - i) = i := by
        simp; omega
      rw [e, this, List.getD_eq_getElem _ _ (by simp; omega), List.getElem_reverse,
        List.getD_eq_getElem _ _ (by omega)]
      have e2 : q.length - 1 - i = k - 1 - i := by omega
      simp only [e2]
      ring

theorem fastDiv_panic (a b : List F) (hb : 2 ≤ b.length) (hlead : b.getD (b.length - 1) 0 ≠ 0)
    (h1 : 2 ^ 30 < a.length + 1 - b.length) (h2 : a.length + 1 - b.length ≤ 2 ^ 62) : fastDiv a b = .panic := by
  have hb0 : b.reverse.getD 0 0 ≠ 0 := by
    rw [List.getD_eq_getElem _ _ (by simp; omega), List.getElem_reverse]
    rw [List.getD_eq_getElem _ _ (by omega)] at hlead
    simpa using hlead
  rw [fastDiv_unfold a b hb hlead (by omega),
    polyInverse_panic _ _ (by rw [List.length_reverse]; omega) hb0 h1 h2]
  rfl

end Kzg.Mcl
