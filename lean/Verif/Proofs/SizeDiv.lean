import Verif.Proofs.PolyInverse
import Verif.Proofs.Zk.Poly
/-!
# Division of polynomials: the exact sizes

The products inside the fast division are computed directly up to 127 coefficients of the result, and with a transform beyond, for
which the lengths of the operands together are limited by the largest domain, `2^31`. The statements of `Verif.Proofs.PolyInverse`
have simpler bounds; these ones say exactly for which lengths division succeeds.
-/

set_option linter.unusedSectionVars false

namespace Kzg
open Res Polynomial Finset

variable {F : Type} [Field F] [DecidableEq F] [FrTable F] [LawfulFr F]

theorem polyMul_sized (a b : List F) (ha : a ≠ []) (hb : b ≠ []) (n : Nat) (hlen : n < 128 ∨ a.length + b.length ≤ 2 ^ 31 + 1) :
    polyMul a b n = .ok ((List.range n).map (polyOf a * polyOf b).coeff) := by
  rcases hlen with h | h
  · rw [polyMul, if_pos (.inr (.inr h))]
    exact mulDirect_spec a b ha hb n
  · exact polyMul_spec a b ha hb h n

theorem invLoop_sized (a : List F) (ha : a ≠ []) (n : Nat) (hn : 0 < n)
    (hlen : n < 128 ∨ a.length + n ≤ 2 ^ 31 + 1 ∧ 2 * n ≤ 2 ^ 31 + 1) :
    ∀ (j : Nat) (ret : List F), ret.length = n →
      (∀ i, (n - 1) / 2 ^ j < i → ret.getD i 0 = 0) →
      X ^ ((n - 1) / 2 ^ j + 1) ∣ polyOf a * polyOf ret - 1 →
      Sat (invLoop a n (n - 1) (if j = 0 then 0 else 2 ^ (j - 1)) ((n - 1) / 2 ^ j) ret)
        (fun r => r.1 = n - 1 ∧ r.2.length = n ∧ X ^ n ∣ polyOf a * polyOf r.2 - 1) := by
  have ha' : 0 < a.length := List.length_pos_iff.mpr ha
  intro j
  induction j with
  | zero =>
    intro ret hl _ hd
    unfold invLoop
    rw [if_pos rfl, dif_pos rfl]
    refine Sat.ok ⟨by simp, hl, ?_⟩
    simpa [show n - 1 + 1 = n by omega] using hd
  | succ j ih =>
    intro ret hl hz hd
    unfold invLoop
    rw [if_neg (by omega)]
    rw [dif_neg (by simp)]
    simp only [Nat.add_sub_cancel]
    rw [next_d]
    have hdd2 : (n - 1) / 2 ^ (j + 1) ≤ (n - 1) / 2 ^ j :=
      Nat.div_le_div_left (Nat.pow_le_pow_right (by omega) (by omega)) (by positivity)
    have hstep : (n - 1) / 2 ^ j + 1 ≤ 2 * ((n - 1) / 2 ^ (j + 1) + 1) := by
      have := next_d (n - 1) j
      split at this <;> omega
    have hdn : (n - 1) / 2 ^ j ≤ n - 1 := Nat.div_le_self _ _
    generalize (n - 1) / 2 ^ j = d at hdd2 hstep hdn ih ⊢
    generalize (n - 1) / 2 ^ (j + 1) = d0 at hdd2 hstep hz hd
    have hmask : 2 ^ j >>> 1 = if j = 0 then 0 else 2 ^ (j - 1) := by
      split
      · next h => subst h; rfl
      · next h =>
        rw [Nat.shiftRight_eq_div_pow, pow_one]
        obtain ⟨i, rfl⟩ : ∃ i, j = i + 1 := ⟨j - 1, by omega⟩
        rw [pow_succ]; simp
    rw [hmask]
    have hretne : ret ≠ [] := by intro h; rw [h] at hl; simp at hl; omega
    rw [subU_of_le (show 1 ≤ a.length + n by omega), bind_ok, minU64_eq,
      min_eq_left (show d + 1 ≤ a.length + n - 1 by omega),
      polyMul_sized a ret ha hretne _ (by omega), unwrap_ok, bind_ok]
    set t := (List.range (d + 1)).map (polyOf a * polyOf ret).coeff with ht
    have htl : t.length = d + 1 := by simp [ht]
    rw [neg_loop, bind_ok]
    set t2 := (List.range t.length).map (fun i => -(t.getD i 0)) with ht2
    have ht2l : t2.length = d + 1 := by simp [ht2, htl]
    rw [rd_getD 0 (show 0 < t2.length by omega), bind_ok,
      wr_of_lt (show 0 < t2.length by omega), bind_ok]
    have hpt2 : polyOf t2 = - polyOf t := by
      ext i
      rw [coeff_neg, coeff_polyOf, coeff_polyOf, ht2, getD_range_map]
      split
      · rfl
      · rw [List.getD_eq_default t _ (by omega)]; simp
    set t3 := t2.set 0 (t2.getD 0 0 + 2) with ht3
    have ht3l : t3.length = d + 1 := by simp [ht3, ht2l]
    have hpt3 : polyOf t3 = 2 - polyOf t := by
      rw [ht3, polyOf_set (by omega), hpt2]
      simp only [add_sub_cancel_left, pow_zero, mul_one]
      rw [show (C (2 : F)) = 2 from rfl]; ring
    have ht3ne : t3 ≠ [] := by intro h; rw [h] at ht3l; simp at ht3l
    rw [polyMul_sized ret t3 hretne ht3ne _ (by omega), unwrap_ok, bind_ok]
    set u := (List.range (d + 1)).map (polyOf ret * polyOf t3).coeff with hu
    have hul : u.length = d + 1 := by simp [hu]
    obtain ⟨r, hr, hrl, hrp⟩ := copy_loop u ret (by omega) (fun i hi => hz i (by omega))
    rw [hr, bind_ok]
    refine ih r (by omega) ?_ ?_
    · intro i hi
      rw [← coeff_polyOf, hrp, coeff_polyOf, List.getD_eq_default _ _ (by omega)]
    · rw [hrp]
      refine newton_step (polyOf a) (polyOf ret) (d0 + 1) (d + 1) hstep hd
        (polyOf t3) _ ?_ (trunc_dvd _ _)
      · rw [hpt3, show (2 : F[X]) - polyOf t - (2 - polyOf a * polyOf ret) =
          -(polyOf t - polyOf a * polyOf ret) by ring]
        exact (dvd_neg).mpr (trunc_dvd _ _)

theorem polyInverse_sized (a : List F) (n : Nat) (hn : 0 < n) (ha : a ≠ []) (h0 : a.getD 0 0 ≠ 0)
    (hlen : n < 128 ∨ a.length + n ≤ 2 ^ 31 + 1 ∧ 2 * n ≤ 2 ^ 31 + 1) :
    Sat (polyInverse a n) (fun r => r.length = n ∧ X ^ n ∣ polyOf a * polyOf r - 1) := by
  have ha' : 0 < a.length := List.length_pos_iff.mpr ha
  unfold polyInverse
  rw [if_neg (by omega), if_neg (by simpa using ha), rd_getD 0 ha', bind_ok, if_neg h0]
  simp only
  rw [wr_of_lt (by simpa using hn), bind_ok]
  set ret := (List.replicate n (0 : F)).set 0 (a.getD 0 0)⁻¹ with hret
  have hretl : ret.length = n := by simp [hret]
  have hretp : polyOf ret = C (a.getD 0 0)⁻¹ := by
    rw [hret, polyOf_set (by simpa using hn), polyOf_replicate_zero, List.getD_replicate _ hn]
    simp
  split
  · next h1 =>
    refine Sat.ok ⟨hretl, ?_⟩
    have hc : polyOf a = C (a.getD 0 0) := by
      ext k
      rw [coeff_polyOf, coeff_C]
      split
      · next h => rw [h]
      · rw [List.getD_eq_default _ _ (by omega)]
    rw [hretp, hc, ← C_mul, mul_inv_cancel₀ h0]; simp
  · rw [subU_of_le (by omega), bind_ok]
    have hj : (1 <<< log2U64 (n - 1)) = if Nat.log2 (n - 1) + 1 = 0 then 0 else
        2 ^ (Nat.log2 (n - 1) + 1 - 1) := by
      rw [if_neg (by omega), log2U64_eq, Nat.shiftLeft_eq]; simp
    have hd0 : (n - 1) / 2 ^ (Nat.log2 (n - 1) + 1) = 0 := Nat.div_eq_of_lt Nat.lt_log2_self
    have := invLoop_sized a ha n hn hlen (Nat.log2 (n - 1) + 1) ret hretl (by
      intro i hi
      rw [hd0] at hi
      rw [← coeff_polyOf, hretp, coeff_C, if_neg (by omega)]) (by
      rw [hd0, hretp]
      exact dvd_C_mul (coeff_polyOf a 0) h0)
    rw [hd0, ← hj] at this
    obtain ⟨⟨d, r⟩, hr, g1, g2, g3⟩ := this
    simp only at g1 g2 g3
    rw [hr, bind_ok]
    simp only
    rw [if_neg (by omega)]
    exact Sat.ok ⟨g2, g3⟩

theorem fastDiv_sized (a b : List F) (ha : a ≠ []) (hb : b ≠ [])
    (hlead : b.getD (b.length - 1) 0 ≠ 0) 
    (hlen : a.length + 1 - b.length < 128 ∨ 2 * a.length ≤ 2 ^ 31 + b.length) :
    fastDiv a b = longDiv a b := by
  have hal : 0 < a.length := List.length_pos_iff.mpr ha
  have hbl : 0 < b.length := List.length_pos_iff.mpr hb
  obtain ⟨q, hq, hql, hdeg⟩ := longDiv_spec a b hb hlead
  rw [hq]
  unfold fastDiv
  rw [if_neg (by simpa using hb), subU_of_le hbl, bind_ok, rd_getD 0 (by omega), bind_ok,
    if_neg hlead, subU_of_le hal, bind_ok, bind_ok]
  by_cases hnm : b.length - 1 > a.length - 1
  · rw [if_pos hnm]
    have : q = [] := List.length_eq_zero_iff.mp (by omega)
    rw [this]
  rw [if_neg hnm]
  by_cases hb1 : b.length = 1
  · rw [if_pos hb1, fill_loop (by simp) (fun i => a.getD i 0 * (b.getD 0 0)⁻¹) (by
      intro i s hi _ _ _
      rw [rd_getD 0 (by simpa using hi), bind_ok, rd_getD 0 (by omega), bind_ok])]
    congr 1
    symm
    have hlead' : b.getD 0 0 ≠ 0 := by simpa [hb1] using hlead
    have h0 : polyOf a - polyOf q * polyOf b = 0 := by
      rw [hb1] at hdeg
      simpa using hdeg
    have hbC : polyOf b = C (b.getD 0 0) := by
      ext k
      rw [coeff_polyOf, coeff_C]
      split
      · next h => rw [h]
      · rw [List.getD_eq_default _ _ (by omega)]
    apply polyOf_inj (by simp; omega)
    ext i
    rw [polyOf_map_range]
    have := congrArg (fun p => p.coeff i) (sub_eq_zero.mp h0)
    simp only [hbC, coeff_mul_C, coeff_polyOf] at this
    rw [coeff_polyOf]
    split
    · rw [this, mul_assoc, mul_inv_cancel₀ hlead', mul_one]
    · rw [List.getD_eq_default q _ (by omega)]
  rw [if_neg hb1, polyFlip_spec, unwrap_ok, bind_ok, polyFlip_spec, unwrap_ok, bind_ok,
    subU_of_le (by omega), bind_ok]
  set k := a.length - 1 - (b.length - 1) + 1 with hk
  have hrevb : b.reverse ≠ [] := by simpa using hb
  have hreva : a.reverse ≠ [] := by simpa using ha
  have hb0 : b.reverse.getD 0 0 ≠ 0 := by
    rw [List.getD_eq_getElem _ _ (by simpa using hbl), List.getElem_reverse]
    rw [List.getD_eq_getElem _ _ (by omega)] at hlead
    simpa using hlead
  obtain ⟨v, hv, hvl, hvd⟩ := polyInverse_sized b.reverse k (by omega) hrevb hb0
    (by rw [List.length_reverse]; omega)
  have hvne : v ≠ [] := by intro h; rw [h] at hvl; simp at hvl
  rw [hv, unwrap_ok, bind_ok, polyMul_sized _ _ hreva hvne _ (by rw [List.length_reverse]; omega), unwrap_ok, bind_ok,
    polyFlip_spec, unwrap_ok]
  congr 1
  rw [List.reverse_eq_iff]
  -- the reversed quotient
  apply polyOf_inj (by simp; omega)
  ext i
  rw [polyOf_map_range]
  have hqk : q.length = k := by omega
  by_cases hi : i < k
  · rw [if_pos hi]
    -- rev a = rev q * rev b + (multiple of X^k)
    have h1 : X ^ k ∣ polyOf a.reverse - polyOf q.reverse * polyOf b.reverse := by
      rw [polyOf_reverse, polyOf_reverse, polyOf_reverse,
        ← reflect_mul _ _ (natDegree_polyOf_le q) (natDegree_polyOf_le b),
        show q.length - 1 + (b.length - 1) = a.length - 1 by omega]
      rw [X_pow_dvd_iff]
      intro d hd
      rw [coeff_sub, coeff_reflect, coeff_reflect, revAt_le (by omega), ← coeff_sub]
      exact (degree_lt_iff_coeff_zero _ _).mp hdeg _ (by omega)
    have h2 : X ^ k ∣ polyOf a.reverse * polyOf v - polyOf q.reverse := by
      have e : polyOf a.reverse * polyOf v - polyOf q.reverse =
          (polyOf a.reverse - polyOf q.reverse * polyOf b.reverse) * polyOf v +
          polyOf q.reverse * (polyOf b.reverse * polyOf v - 1) := by ring
      rw [e]
      exact dvd_add (h1.mul_right _) (hvd.mul_left _)
    have := X_pow_dvd_iff.mp h2 i hi
    rw [coeff_sub, sub_eq_zero] at this
    exact this
  · rw [if_neg hi, coeff_polyOf, List.getD_eq_default _ _ (by simp; omega)]


/-! ## Lengths beyond -/

/-- The masks of `log2_pow2` have 32 bits: larger powers of two give 0. -/
theorem log2Pow2_large : ∀ k < 64, 32 ≤ k → log2Pow2 (2 ^ k) = 0 := by decide +kernel

/-- So the settings for the product have one point, and refuse the padded lists. -/
theorem mulFft_beyond (a b : List F) (n : Nat) (h1 : 2 ^ 31 + 1 < a.length + b.length) (h2 : a.length + b.length ≤ 2 ^ 63) :
    mulFft a b n = .panic := by
  have ht : 32 ≤ bitLen (a.length + b.length - 1 - 1) := by
    by_contra hc
    have := le_two_pow_bitLen_pred (v := a.length + b.length - 1)
    have h3 : 2 ^ bitLen (a.length + b.length - 1 - 1) ≤ 2 ^ 31 := Nat.pow_le_pow_right (by omega) (by omega)
    omega
  have ht' : bitLen (a.length + b.length - 1 - 1) ≤ 63 := bitLen_le_of_lt (by omega)
  unfold mulFft
  rw [subU_of_le (by omega), bind_ok, nextPowerOfTwo_eq (by omega) (by omega), bind_ok]
  obtain ⟨fs, hfs, hwf⟩ := new_spec (F := F) (show 0 < 32 by omega)
  have hw : fs.maxWidth < 2 ^ bitLen (a.length + b.length - 1 - 1) := by
    rw [hwf.width]; exact Nat.pow_lt_pow_right (by omega) (by omega)
  simp only [log2Pow2_large _ (show bitLen (a.length + b.length - 1 - 1) < 64 by omega) ht]
  rw [hfs, unwrap_ok, bind_ok, polyPad_spec, bind_ok, polyPad_spec, bind_ok, FFTSettings.fftFr, FFTSettings.fft, if_pos (by simpa using hw),
    unwrap_err, bind_panic]

theorem polyMul_beyond (a b : List F) (n : Nat) (ha : 64 ≤ a.length) (hb : 64 ≤ b.length) (hn : 128 ≤ n)
    (h1 : 2 ^ 31 + 1 < a.length + b.length) (h2 : a.length + b.length ≤ 2 ^ 63) : polyMul a b n = .panic := by
  rw [polyMul, if_neg (by omega)]
  exact mulFft_beyond a b n h1 h2

omit [DecidableEq F] [FrTable F] [LawfulFr F] in
theorem wr_length {s r : List F} {i : Nat} {x : F} (h : wr s i x = .ok r) : r.length = s.length := by
  by_cases hi : i < s.length
  · rw [wr_of_lt hi] at h
    cases h
    simp
  · rw [wr_of_ge (by omega)] at h
    cases h

omit [DecidableEq F] [FrTable F] [LawfulFr F] in
theorem copyLoop_length (u : List F) : ∀ (n lo : Nat) (s r : List F), (forLoop (fun i t => do
      let x ← rd u i
      wr t i x) n lo s) = .ok r → r.length = s.length := by
  intro n
  induction n with
  | zero => intro lo s r h; cases h; rfl
  | succ n ih =>
    intro lo s r h
    rw [forLoop] at h
    cases e : rd u lo with
    | ok x =>
      rw [e, bind_ok] at h
      cases e' : wr s lo x with
      | ok t =>
        rw [e', bind_ok] at h
        rw [ih _ _ _ h, wr_length e']
      | err m => rw [e'] at h; cases h
      | panic => rw [e'] at h; cases h
    | err m => rw [e] at h; cases h
    | panic => rw [e] at h; cases h

omit [DecidableEq F] [FrTable F] [LawfulFr F] in
theorem bind_ok_inv {α β : Type} {x : Res α} {f : α → Res β} {r : β} (h : (x >>= f) = .ok r) : ∃ v, x = .ok v ∧ f v = .ok r := by
  cases x with
  | ok v => exact ⟨v, rfl, h⟩
  | err m => cases h
  | panic => cases h

theorem invLoop_length (a : List F) (n maxd mask : Nat) : ∀ (d : Nat) (ret : List F) (d' : Nat) (r : List F),
    invLoop a n maxd mask d ret = .ok (d', r) → r.length = ret.length := by
  induction mask using Nat.strongRecOn with
  | ind mask ih =>
    intro d ret d' r h
    unfold invLoop at h
    split at h
    · cases h; rfl
    · next hm =>
      obtain ⟨v1, -, h⟩ := bind_ok_inv h
      obtain ⟨v2, -, h⟩ := bind_ok_inv h
      obtain ⟨v3, -, h⟩ := bind_ok_inv h
      obtain ⟨v4, -, h⟩ := bind_ok_inv h
      obtain ⟨v5, -, h⟩ := bind_ok_inv h
      obtain ⟨v6, -, h⟩ := bind_ok_inv h
      obtain ⟨v7, e7, h⟩ := bind_ok_inv h
      have hlt : mask >>> 1 < mask := by
        simp only [Nat.shiftRight_eq_div_pow, Nat.pow_one]; omega
      rw [ih _ hlt _ _ _ _ h]
      exact copyLoop_length _ _ _ _ _ e7

theorem polyInverse_length (a : List F) (n : Nat) {r : List F} (h : polyInverse a n = .ok r) : r.length = n := by
  unfold polyInverse at h
  split at h
  · cases h
  split at h
  · cases h
  obtain ⟨c, -, h⟩ := bind_ok_inv h
  split at h
  · cases h
  obtain ⟨s, e, h⟩ := bind_ok_inv h
  have hs : s.length = n := by rw [wr_length e]; simp
  split at h
  · cases h; exact hs
  obtain ⟨m, -, h⟩ := bind_ok_inv h
  obtain ⟨⟨d, t⟩, e, h⟩ := bind_ok_inv h
  simp only at h
  split at h
  · cases h
  cases h
  rw [invLoop_length _ _ _ _ _ _ _ _ e, hs]

theorem fastDiv_beyond (a b : List F) (hb : 64 ≤ b.length) (hlead : b.getD (b.length - 1) 0 ≠ 0) (hk : 128 ≤ a.length + 1 - b.length)
    (h1 : 2 ^ 31 + b.length < 2 * a.length) (h2 : a.length ≤ 2 ^ 62) : fastDiv a b = .panic := by
  have hbn : b ≠ [] := by rintro rfl; simp at hb
  unfold fastDiv
  rw [if_neg (by simpa using hbn), subU_of_le (by omega), bind_ok, rd_getD 0 (by omega), bind_ok, if_neg hlead, subU_of_le (by omega),
    bind_ok, bind_ok, if_neg (by omega), if_neg (by omega), polyFlip_spec, unwrap_ok, bind_ok, polyFlip_spec, unwrap_ok, bind_ok,
    subU_of_le (by omega), bind_ok]
  cases hv : polyInverse b.reverse (a.length - 1 - (b.length - 1) + 1) with
  | ok v =>
    have hl := polyInverse_length _ _ hv
    rw [unwrap_ok, bind_ok, polyMul_beyond _ _ _ (by rw [List.length_reverse]; omega) (by omega) (by omega)
      (by rw [List.length_reverse]; omega) (by rw [List.length_reverse]; omega)]
    rfl
  | err e => rfl
  | panic => rfl

/-- Division by a polynomial with nonzero last coefficient, for exactly the lengths for which it succeeds. -/
theorem polyDiv_sized (a b : List F) (hlead : b.getD (b.length - 1) 0 ≠ 0) :
    (b.length < 128 ∨ a.length < b.length + 127 ∨ 2 * a.length ≤ 2 ^ 31 + b.length → polyDiv a b = longDiv a b) ∧
    (128 ≤ b.length → b.length + 127 ≤ a.length → 2 ^ 31 + b.length < 2 * a.length → a.length ≤ 2 ^ 62 → polyDiv a b = .panic) := by
  have hb : b ≠ [] := by rintro rfl; simp at hlead
  constructor
  · intro h
    unfold polyDiv
    split
    · rfl
    · next hc =>
      have ha : a ≠ [] := by rintro rfl; simp at hc
      exact fastDiv_sized a b ha hb hlead (by omega)
  · intro h1 h2 h3 h4
    rw [polyDiv, if_neg (by omega)]
    exact fastDiv_beyond a b (by omega) hlead (by omega) h3 h4

end Kzg

namespace Kzg.ZkP
open Res Polynomial

variable {F : Type} [Field F] [DecidableEq F] [FrTable F] [LawfulFr F]

omit [LawfulFr F] in
theorem fastDiv_eq_blst (a b : List F) (ha : a ≠ []) (hlead : b.getD (b.length - 1) 0 ≠ 0) : fastDiv a b = Kzg.fastDiv a b := by
  have hal : 0 < a.length := List.length_pos_iff.mpr ha
  have hb : b ≠ [] := by rintro rfl; simp at hlead
  have hbl : 0 < b.length := List.length_pos_iff.mpr hb
  unfold fastDiv Kzg.fastDiv
  rw [if_neg (by simpa using hb), if_neg (by simpa using hb), subU_of_le hal, subU_of_le hbl]
  simp only [bind_ok]
  rw [rd_getD (l := b) (i := b.length - Nat.succ 0) 0 (by omega), bind_ok, if_neg hlead]
  split
  · rfl
  · simp only [frDiv_eq, bind_ok, polyFlip_eq, polyFlip_spec, unwrap_ok, polyMul_eq]
    split
    · rfl
    · rw [subU_of_le (by omega), bind_ok, bind_ok, polyInverse_unwrap _ _ (by omega)]

/-- The same for zkcrypto, which removes zeros at the top first. -/
theorem polyDiv_sized (a b : List F) (ha : polyOf a ≠ 0) (hb : polyOf b ≠ 0) {A n : Nat} (hA : (polyOf a).natDegree = A)
    (hn : (polyOf b).natDegree = n) :
    (n < 127 ∨ A < n + 127 ∨ 2 * A + 1 ≤ 2 ^ 31 + n → polyDiv a b = Kzg.longDiv (polyNorm a) (polyNorm b)) ∧
    (127 ≤ n → n + 127 ≤ A → 2 ^ 31 + n < 2 * A + 1 → A < 2 ^ 62 → polyDiv a b = .panic) := by
  have hna : polyNorm a ≠ [] := fun h => ha ((polyNorm_nil_iff a).1 h)
  have hnb : polyNorm b ≠ [] := fun h => hb ((polyNorm_nil_iff b).1 h)
  have hl := polyNorm_natDegree a ha
  have hl' := polyNorm_natDegree b hb
  rw [hA] at hl
  rw [hn] at hl'
  have hlead := polyNorm_lead b hnb
  obtain ⟨h1, h2⟩ := Kzg.polyDiv_sized (polyNorm a) (polyNorm b) hlead
  have e : polyDiv a b = Kzg.polyDiv (polyNorm a) (polyNorm b) := by
    unfold polyDiv Kzg.polyDiv
    simp only
    split
    · rw [longDiv_eq _ _ hna hlead]
    · exact fastDiv_eq_blst _ _ hna hlead
  rw [e]
  exact ⟨fun h => h1 (by omega), fun h3 h4 h5 h6 => h2 (by omega) (by omega) (by omega) (by omega)⟩

end Kzg.ZkP
