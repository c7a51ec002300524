import Verif.Proofs.Zk.Msm
import Mathlib.Algebra.BigOperators.Ring.List
/-!
# Signed digits
-/

namespace Kzg.Zk.Msm
open Kzg Kzg.Res

/-! ## Digits -/

/-- Reading the bits of an integer from its words. -/
theorem bitBuf_spec {s : Scalar} (hs : Scalar.Words s) {w i : Nat} (hw : w ≤ 8) (hi : i * w < 256) :
    Sat (bitBuf [s.l0, s.l1, s.l2, s.l3] w i) (fun b => b % 2 ^ w = Scalar.val s / 2 ^ (i * w) % 2 ^ w) := by
  obtain ⟨h0, h1, h2, h3⟩ := hs
  unfold bitBuf
  have hu : i * w / 64 < 4 := by omega
  have hb : i * w % 64 < 64 := Nat.mod_lt _ (by norm_num)
  have hoff : i * w = 64 * (i * w / 64) + i * w % 64 := (Nat.div_add_mod _ _).symm
  simp only
  rw [hoff]
  have e1 : (64 * (i * w / 64) + i * w % 64) / 64 = i * w / 64 := by omega
  have e2 : (64 * (i * w / 64) + i * w % 64) % 64 = i * w % 64 := by omega
  rw [e1, e2]
  clear e1 e2 hoff hi
  generalize i * w / 64 = u at *
  generalize i * w % 64 = b at *
  -- the word at `u` and the rest above it
  have key : ∀ x z : Nat, x < W → Scalar.val s / 2 ^ (64 * u) = x + W * z →
      Scalar.val s / 2 ^ (64 * u + b) = x / 2 ^ b + 2 ^ (64 - b) * z := by
    intro x z hx e
    rw [pow_add, ← Nat.div_div_eq_div_mul, e, show W = 2 ^ b * 2 ^ (64 - b) by
      rw [← pow_add, W]; congr 1; omega, mul_assoc, Nat.add_mul_div_left _ _ (by positivity)]
  have hval : ∀ v, v < 4 → ∃ x z, [s.l0, s.l1, s.l2, s.l3][v]? = some x ∧ x < W ∧
      Scalar.val s / 2 ^ (64 * v) = x + W * z ∧ (v = 3 → z = 0) ∧
      (v < 3 → ∃ y z', [s.l0, s.l1, s.l2, s.l3][1 + v]? = some y ∧ y < W ∧ z = y + W * z') := by
    intro v hv
    have hW : 0 < W := by simp [W]
    have d0 : Scalar.val s = s.l0 + W * (s.l1 + W * (s.l2 + W * s.l3)) := by
      simp only [Scalar.val]
      ring
    have dv : ∀ a c : Nat, a < W → (a + W * c) / W = c := by
      intro a c ha
      rw [Nat.add_mul_div_left _ _ hW, Nat.div_eq_of_lt ha, zero_add]
    have p1 : 2 ^ (64 * 1) = W := rfl
    have p2 : 2 ^ (64 * 2) = W * W := by norm_num [W]
    have p3 : 2 ^ (64 * 3) = W * W * W := by norm_num [W]
    interval_cases v
    · exact ⟨s.l0, _, rfl, h0, by simp [d0], by simp, fun _ => ⟨s.l1, s.l2 + W * s.l3, rfl, h1, rfl⟩⟩
    · refine ⟨s.l1, _, rfl, h1, ?_, by simp, fun _ => ⟨s.l2, s.l3, rfl, h2, rfl⟩⟩
      rw [p1, d0, dv _ _ h0]
    · refine ⟨s.l2, s.l3, rfl, h2, ?_, by simp, fun _ => ⟨s.l3, 0, rfl, h3, by simp⟩⟩
      rw [p2, ← Nat.div_div_eq_div_mul, d0, dv _ _ h0, dv _ _ h1]
    · refine ⟨s.l3, 0, rfl, h3, ?_, by simp, by simp⟩
      rw [p3, ← Nat.div_div_eq_div_mul, ← Nat.div_div_eq_div_mul, d0, dv _ _ h0, dv _ _ h1, dv _ _ h2]
      simp
  obtain ⟨x, z, hx, hxW, e, hz, hnext⟩ := hval u hu
  have hkey := key x z hxW e
  by_cases hc : b < 64 - w ∨ u = 3
  · rw [if_pos hc, rd_of_getElem? hx, bind_ok]
    refine ⟨_, rfl, ?_⟩
    rw [hkey, shr]
    rcases hc with hc | hc
    · obtain ⟨k, hk⟩ : 2 ^ w ∣ 2 ^ (64 - b) := pow_dvd_pow 2 (by omega)
      rw [hk, mul_assoc, Nat.add_mul_mod_self_left]
    · rw [hz hc]
      simp
  · rw [if_neg hc]
    have hc' : ¬ (b < 64 - w) ∧ u ≠ 3 := not_or.1 hc
    obtain ⟨y, z', hy, hyW, ez⟩ := hnext (by omega)
    rw [rd_of_getElem? hx, bind_ok, rd_of_getElem? hy, bind_ok]
    refine ⟨_, rfl, ?_⟩
    rw [hkey, Scalar.shift_word (by omega) hxW]
    -- both sides agree modulo 2 ^ (64 - b) * 2 ^ b = W
    have hy2 : y % 2 ^ b + 2 ^ b * (y / 2 ^ b) = y := Nat.mod_add_div _ _
    have hWb : W = 2 ^ (64 - b) * 2 ^ b := by
      rw [← pow_add, W]
      congr 1
      omega
    have : x / 2 ^ b + 2 ^ (64 - b) * z = x / 2 ^ b + 2 ^ (64 - b) * (y % 2 ^ b)
        + W * (y / 2 ^ b + 2 ^ (64 - b) * z') := by
      rw [ez, hWb]
      conv_lhs => rw [← hy2]
      ring
    rw [this]
    obtain ⟨k, hk⟩ : 2 ^ w ∣ W := by rw [W]; exact pow_dvd_pow 2 (by omega)
    rw [hk, mul_assoc, Nat.add_mul_mod_self_left]

theorem asI8_eq {x : Int} (h : -128 ≤ x) (h' : x ≤ 127) : asI8 x = x := by
  rw [asI8, Int.bmod_eq_of_le (by omega) (by omega)]

/-- The integer of a list of signed digits in base `2^w`. -/
def digitsVal (w : Nat) (ds : List Int) : Int := ((List.range ds.length).map fun i => 2 ^ (w * i) * ds.getD i 0).sum

theorem recenter {t c d : Nat} (ht : 0 < t) (hc : c ≤ 1) (hd : d < 2 * t) :
    (c + d + t) / (2 * t) ≤ 1 ∧
    -(t : Int) ≤ ((c + d : Nat) : Int) - ((c + d + t) / (2 * t) * (2 * t) : Nat) ∧
    ((c + d : Nat) : Int) - ((c + d + t) / (2 * t) * (2 * t) : Nat) < t := by
  have h1 : (c + d + t) / (2 * t) ≤ 1 := by
    have := Nat.div_lt_of_lt_mul (m := c + d + t) (n := 2 * t) (k := 2) (by omega)
    omega
  have h2 := Nat.div_add_mod (c + d + t) (2 * t)
  have h3 := Nat.mod_lt (c + d + t) (show 0 < 2 * t by omega)
  generalize (c + d + t) / (2 * t) = q at *
  generalize (c + d + t) % (2 * t) = r at *
  have : q = 0 ∨ q = 1 := by omega
  rcases this with rfl | rfl
  · simp only [Nat.mul_zero, Nat.zero_mul] at *
    refine ⟨by omega, by omega, by omega⟩
  · simp only [Nat.mul_one, Nat.one_mul] at *
    refine ⟨by omega, by omega, by omega⟩

/-- The loop of `to_radix_2w`. -/
structure RadixInv (w x i : Nat) (st : Nat × List Int) : Prop where
  len : st.2.length = 43
  carry : st.1 ≤ 1
  last : 0 < i → st.1 ≤ (x / 2 ^ (w * (i - 1)) % 2 ^ w + 1 + 2 ^ (w - 1)) / 2 ^ w
  range : ∀ j, -2 ^ (w - 1) ≤ st.2.getD j 0 ∧ st.2.getD j 0 < 2 ^ (w - 1)
  rest : ∀ j, i ≤ j → st.2.getD j 0 = 0
  value : ((List.range i).map fun j => 2 ^ (w * j) * st.2.getD j 0).sum + st.1 * 2 ^ (w * i) = ((x % 2 ^ (w * i) : Nat) : Int)

theorem radixStep_spec {s : Scalar} (hs : Scalar.Words s) {w i : Nat} (h1 : 1 ≤ w) (hw : w ≤ 8) (hi : i * w < 256)
    (hi' : i < 43) {st : Nat × List Int} (h : RadixInv w (Scalar.val s) i st) :
    Sat (radixStep [s.l0, s.l1, s.l2, s.l3] w i st) (RadixInv w (Scalar.val s) (i + 1)) := by
  obtain ⟨buf, hbuf, eb⟩ := bitBuf_spec hs hw hi
  obtain ⟨c, ds⟩ := st
  obtain ⟨hl, hc, hlast, hr, hrest, hv⟩ := h
  simp only at hl hc hr hrest hv
  generalize Scalar.val s = x at *
  rw [radixStep, hbuf, bind_ok, Nat.and_two_pow_sub_one_eq_mod, eb]
  simp only
  rw [wr_of_lt (by rw [hl]; exact hi'), bind_ok]
  set d := x / 2 ^ (i * w) % 2 ^ w with hd
  have hdlt : d < 2 ^ w := Nat.mod_lt _ (by positivity)
  obtain ⟨v, rfl⟩ : ∃ v, w = v + 1 := ⟨w - 1, by omega⟩
  have hhalf : 2 ^ (v + 1) / 2 = 2 ^ v := by rw [pow_succ]; omega
  have hpow : 2 ^ (v + 1) = 2 * 2 ^ v := by rw [pow_succ]; ring
  rw [hhalf, shr]
  set c' := (c + d + 2 ^ v) / 2 ^ (v + 1) with hc'
  have hvpos : 0 < 2 ^ v := by positivity
  have hv128 : 2 ^ v ≤ 2 ^ 7 := Nat.pow_le_pow_right (by norm_num) (by omega)
  obtain ⟨hc1, hrange⟩ := recenter hvpos hc (by rw [← hpow]; exact hdlt)
  rw [← hpow, ← hc'] at hc1 hrange
  set e : Int := (c + d : Nat) - (c' * 2 ^ (v + 1) : Nat) with he
  have h2 : ((2 ^ v : Nat) : Int) = 2 ^ v := by push_cast; rfl
  rw [h2] at hrange
  have hr128 : -128 ≤ e ∧ e ≤ 127 := by
    have h3 : (2 : Int) ^ v ≤ 128 := by exact_mod_cast hv128
    omega
  rw [asI8_eq hr128.1 hr128.2]
  refine ⟨_, rfl, ?_⟩
  have hget : ∀ j, (ds.set i e).getD j 0 = if j = i then e else ds.getD j 0 := by
    intro j
    by_cases hj : j = i
    · subst hj
      simp [List.getD, hl, hi']
    · rw [if_neg hj]
      simp [List.getD, List.getElem?_set_ne (Ne.symm hj)]
  constructor
  · simpa using hl
  · exact hc1
  · intro _
    simp only [Nat.add_sub_cancel]
    rw [show (v + 1) * i = i * (v + 1) by ring, ← hd, hc']
    exact Nat.div_le_div_right (by omega)
  · intro j
    simp only [Nat.add_sub_cancel]
    simp only [Nat.add_sub_cancel] at hr
    rw [hget]
    split
    · exact hrange
    · exact hr j
  · intro j hj
    simp only
    rw [hget, if_neg (by omega)]
    exact hrest j (by omega)
  · simp only
    rw [List.range_succ, List.map_append, List.sum_append]
    have hsame : ((List.range i).map fun j => 2 ^ ((v + 1) * j) * (ds.set i e).getD j 0)
        = (List.range i).map fun j => 2 ^ ((v + 1) * j) * ds.getD j 0 := by
      apply List.map_congr_left
      intro j hj
      rw [hget, if_neg (by have := List.mem_range.1 hj; omega)]
    rw [hsame]
    simp only [List.map_cons, List.map_nil, List.sum_cons, List.sum_nil, add_zero]
    rw [hget, if_pos rfl, Nat.mul_succ, pow_add _ _ (v + 1), pow_add _ _ (v + 1), Nat.mod_mul, show (v + 1) * i = i * (v + 1) by ring, ← hd]
    rw [show (v + 1) * i = i * (v + 1) by ring] at hv
    rw [Nat.cast_add, ← hv, he]
    push_cast
    ring

theorem toBytes_words {s : Scalar} {x : Fr} (hs : Scalar.Rep s x) :
    [fromLe ((Scalar.toBytes s).take 8), fromLe (((Scalar.toBytes s).drop 8).take 8),
      fromLe (((Scalar.toBytes s).drop 16).take 8), fromLe (((Scalar.toBytes s).drop 24).take 8)]
      = [(Scalar.reduce s).l0, (Scalar.reduce s).l1, (Scalar.reduce s).l2, (Scalar.reduce s).l3] := by
  obtain ⟨⟨h0, h1, h2, h3⟩, -⟩ := Scalar.reduce_rep hs
  have hb : Scalar.toBytes s = toLe 8 (Scalar.reduce s).l0 ++ (toLe 8 (Scalar.reduce s).l1
      ++ (toLe 8 (Scalar.reduce s).l2 ++ toLe 8 (Scalar.reduce s).l3)) := by
    rw [Scalar.toBytes, ← Scalar.reduce]
    simp only [List.append_assoc]
  have e8 : (256 : Nat) ^ 8 = W := by norm_num [W]
  have a1 : ∀ (n : Nat) (l : List Nat), (toLe 8 n ++ l).take 8 = toLe 8 n := fun n l => by
    rw [List.take_left' (toLe_length 8 n)]
  have a2 : ∀ (n : Nat) (l : List Nat), (toLe 8 n ++ l).drop 8 = l := fun n l => by
    rw [List.drop_left' (toLe_length 8 n)]
  have d2 : ∀ l : List Nat, l.drop 16 = (l.drop 8).drop 8 := fun l => by rw [List.drop_drop]
  have d3 : ∀ l : List Nat, l.drop 24 = ((l.drop 8).drop 8).drop 8 := fun l => by rw [List.drop_drop, List.drop_drop]
  rw [hb, d2, d3]
  simp only [a1, a2]
  rw [List.take_of_length_le (by rw [toLe_length])]
  simp only [fromLe_toLe, e8, Nat.mod_eq_of_lt h0, Nat.mod_eq_of_lt h1, Nat.mod_eq_of_lt h2, Nat.mod_eq_of_lt h3]

/-- Recoding into signed digits keeps the value, for the three digit widths in use. -/
theorem toRadix2w_spec {s : Scalar} {x : Fr} (hs : Scalar.Rep s x) {w : Nat} (hw : w = 6 ∨ w = 7 ∨ w = 8) :
    Sat (toRadix2w s w) (fun ds => ds.length = 43 ∧ (∀ j, -2 ^ (w - 1) ≤ ds.getD j 0 ∧ ds.getD j 0 < 2 ^ (w - 1)) ∧
      (∀ j, (256 + w - 1) / w ≤ j → ds.getD j 0 = 0) ∧
      ((List.range ((256 + w - 1) / w)).map fun j => 2 ^ (w * j) * ds.getD j 0).sum = (x.val : Int)) := by
  obtain ⟨hwd, ev⟩ := Scalar.reduce_rep hs
  rw [toRadix2w]
  simp only
  rw [toBytes_words hs]
  set n := (256 + w - 1) / w with hn
  have hw1 : 1 ≤ w := by omega
  have hw8 : w ≤ 8 := by omega
  have hn43 : n ≤ 43 := by rcases hw with rfl | rfl | rfl <;> simp [hn]
  have hn1 : 0 < n := by rcases hw with rfl | rfl | rfl <;> simp [hn]
  have hnw : ∀ i, i < n → i * w < 256 := by
    intro i hi
    rcases hw with rfl | rfl | rfl <;> simp [hn] at hi <;> omega
  have h0 : RadixInv w (Scalar.val (Scalar.reduce s)) 0 (0, List.replicate 43 0) := by
    have hg : ∀ j, (List.replicate 43 (0 : Int)).getD j 0 = 0 := by
      intro j
      rw [List.getD, List.getElem?_replicate]
      split <;> rfl
    refine ⟨by simp, by simp, by simp, fun j => ?_, fun j _ => hg j, by simp [Nat.mod_one]⟩
    simp only [hg]
    constructor
    · simp
    · positivity
  obtain ⟨⟨c, ds⟩, e, hinv⟩ := forRange_inv (RadixInv w (Scalar.val (Scalar.reduce s))) (Nat.zero_le n) h0
    (fun i st _ hi hst => radixStep_spec hwd hw1 hw8 (hnw i hi) (by omega) hst)
  rw [e, bind_ok]
  obtain ⟨hl, hc, hlast, hr, hrest, hv⟩ := hinv
  rw [ev] at hlast hv
  simp only at hl hc hlast hr hrest hv ⊢
  have hx : x.val < frModulus := ZMod.val_lt x
  have hc0 : c = 0 := by
    have := hlast hn1
    rcases hw with rfl | rfl | rfl
    · have h1 : x.val / 2 ^ (6 * (n - 1)) < 8 := by
        rw [hn, Nat.div_lt_iff_lt_mul (by positivity)]
        exact lt_of_lt_of_le hx (by simp [frModulus])
      simp only [Nat.reducePow, Nat.reduceSub] at this
      clear hlast
      generalize x.val / 2 ^ (6 * (n - 1)) = z at h1 this
      omega
    · have h1 : x.val / 2 ^ (7 * (n - 1)) < 8 := by
        rw [hn, Nat.div_lt_iff_lt_mul (by positivity)]
        exact lt_of_lt_of_le hx (by simp [frModulus])
      simp only [Nat.reducePow, Nat.reduceSub] at this
      clear hlast
      generalize x.val / 2 ^ (7 * (n - 1)) = z at h1 this
      omega
    · have h1 : x.val / 2 ^ (8 * (n - 1)) < 116 := by
        rw [hn, Nat.div_lt_iff_lt_mul (by positivity)]
        exact lt_of_lt_of_le hx (by simp [frModulus])
      simp only [Nat.reducePow, Nat.reduceSub] at this
      clear hlast
      generalize x.val / 2 ^ (8 * (n - 1)) = z at h1 this
      omega
  subst hc0
  have hmod : x.val % 2 ^ (w * n) = x.val := by
    apply Nat.mod_eq_of_lt
    refine lt_of_lt_of_le hx ?_
    calc frModulus ≤ 2 ^ 255 := by simp [frModulus]
      _ ≤ 2 ^ (w * n) := Nat.pow_le_pow_right (by norm_num) (by rcases hw with rfl | rfl | rfl <;> simp [hn])
  rw [hmod] at hv
  simp only [Nat.cast_zero, zero_mul, add_zero] at hv
  have hset : ∀ k, k < 43 → ∀ d : Int, d = ds.getD k 0 → ds.set k d = ds := by
    intro k hk d hd
    subst hd
    apply List.ext_getElem?
    intro j
    by_cases hj : k = j
    · subst hj
      simp [hl, hk, List.getD]
    · rw [List.getElem?_set_ne hj]
  have hrd : ∀ k, k < 43 → rd ds k = .ok (ds.getD k 0) := by
    intro k hk
    rw [rd_of_lt (by rw [hl]; exact hk)]
    simp [List.getD, hl, hk]
  have h127 : ∀ j, -128 ≤ ds.getD j 0 ∧ ds.getD j 0 ≤ 127 := by
    intro j
    have h1 := hr j
    generalize ds.getD j 0 = d at h1 ⊢
    clear hlast hrest hv hr
    rcases hw with rfl | rfl | rfl <;> norm_num at h1 <;> omega
  have hz : asI8 ((0 : Nat) : Int) = 0 := rfl
  by_cases h8 : w = 8
  · have hn32 : n = 32 := by subst h8; simp [hn]
    rw [if_pos h8, hrd n (by omega), bind_ok, hz, addI8, if_pos (by simpa using h127 n), bind_ok,
      wr_of_lt (by omega), hset n (by omega) _ (by simp)]
    exact ⟨ds, rfl, hl, hr, hrest, hv⟩
  · rw [if_neg h8, hrd (n - 1) (by omega), bind_ok, zero_mul, hz, addI8, if_pos (by simpa using h127 (n - 1)), bind_ok,
      wr_of_lt (by omega), hset (n - 1) (by omega) _ (by simp)]
    exact ⟨ds, rfl, hl, hr, hrest, hv⟩

/-! ## Columns -/

section
variable {G : Type} [AddCommGroup G]

/-- What one digit position contributes. -/
def columnVal (i : Nat) : List (List Int × G) → G
  | [] => 0
  | (ds, p) :: rest => ds.getD i 0 • p + columnVal i rest

theorem fillSigned_spec {k i : Nat} (pairs : List (List Int × G))
    (h : ∀ q ∈ pairs, i < q.1.length ∧ -(k : Int) ≤ q.1.getD i 0 ∧ q.1.getD i 0 ≤ k) :
    ∀ buckets : List G, buckets.length = k →
      Sat (fillSigned i pairs buckets) (fun bs => bs.length = k ∧ wsum bs = wsum buckets + columnVal i pairs) := by
  induction pairs with
  | nil => intro buckets hb; exact ⟨_, rfl, hb, by simp [columnVal]⟩
  | cons q rest ih =>
    intro buckets hb
    obtain ⟨ds, p⟩ := q
    have ih := ih fun q hq => h q (by simp [hq])
    obtain ⟨h1, h2, h3⟩ := h (ds, p) (by simp)
    simp only at h1 h2 h3
    have hrd : rd ds i = .ok (ds.getD i 0) := by
      rw [rd_of_lt h1]
      simp [List.getD, h1]
    rw [fillSigned, hrd, bind_ok]
    simp only [columnVal]
    generalize ds.getD i 0 = d at *
    by_cases hd : d > 0
    · have hlt : (d - 1).toNat < buckets.length := by omega
      rw [if_pos hd, rd_of_lt hlt, bind_ok, wr_of_lt hlt, bind_ok]
      refine (ih _ (by simpa using hb)).mono fun bs hbs => ⟨hbs.1, ?_⟩
      rw [hbs.2, wsum_set, add_assoc]
      congr 2
      rw [← natCast_zsmul]
      congr 1
      omega
    · rw [if_neg hd]
      by_cases hd' : d < 0
      · have hlt : (-d - 1).toNat < buckets.length := by omega
        rw [if_pos hd', rd_of_lt hlt, bind_ok, wr_of_lt hlt, bind_ok]
        refine (ih _ (by simpa using hb)).mono fun bs hbs => ⟨hbs.1, ?_⟩
        rw [hbs.2, sub_eq_add_neg buckets[(-d - 1).toNat] p, wsum_set, add_assoc]
        congr 2
        rw [← natCast_zsmul, smul_neg, ← neg_smul]
        congr 1
        omega
      · rw [if_neg hd']
        refine (ih buckets hb).mono fun bs hbs => ⟨hbs.1, ?_⟩
        have : d = 0 := by omega
        rw [hbs.2, this]
        simp

theorem wsum_append (bs : List G) (b : G) : wsum (bs ++ [b]) = wsum bs + (bs.length + 1) • b := by
  induction bs with
  | nil => simp [wsum]
  | cons a bs ih =>
    rw [List.cons_append, wsum, ih, wsum, List.sum_append, List.length_cons, succ_nsmul (n := bs.length + 1)]
    simp only [List.sum_cons, List.sum_nil, add_zero]
    abel

theorem column_spec {k i : Nat} (hk : 0 < k) (pairs : List (List Int × G))
    (h : ∀ q ∈ pairs, i < q.1.length ∧ -(k : Int) ≤ q.1.getD i 0 ∧ q.1.getD i 0 ≤ k) :
    column k pairs i = .ok (columnVal i pairs) := by
  obtain ⟨bs, e, hl, hv⟩ := fillSigned_spec pairs h (List.replicate k 0) (by simp)
  rw [wsum_replicate, zero_add] at hv
  have hk' : k - 1 < bs.length := by omega
  rw [column, e, bind_ok, subU_of_le hk, bind_ok, rd_of_lt hk', bind_ok, sliceTo, if_pos (by omega), bind_ok,
    sumStep_foldl]
  simp only
  rw [← hv]
  have hsplit : bs = bs.take (k - 1) ++ [bs[k - 1]] := by
    rw [List.take_append_getElem, Nat.sub_add_cancel hk, List.take_of_length_le (by omega)]
  have hw : wsum bs = wsum (bs.take (k - 1)) + k • bs[k - 1] := by
    conv_lhs => rw [hsplit, wsum_append]
    rw [List.length_take, Nat.min_eq_left (by omega), Nat.sub_add_cancel hk]
  rw [hw, List.length_take, Nat.min_eq_left (by omega)]
  generalize bs[k - 1] = b
  have hs : k • b = (k - 1) • b + b := by
    rw [← succ_nsmul, Nat.sub_add_cancel hk]
  rw [hs]
  congr 1
  abel

theorem mulByPow2_eq {k : Nat} (hk : 0 < k) (p : G) : mulByPow2 p k = 2 ^ k • p := by
  rw [mulByPow2, doubles_eq, ← two_nsmul, smul_smul]
  congr 1
  conv_rhs => rw [show k = k - 1 + 1 by omega, pow_succ']

theorem foldColumns_spec {k w : Nat} (hk : 0 < k) (hw : 0 < w) (pairs : List (List Int × G)) :
    ∀ (n : Nat) (total : G), (∀ i, i < n → ∀ q ∈ pairs, i < q.1.length ∧ -(k : Int) ≤ q.1.getD i 0 ∧ q.1.getD i 0 ≤ k) →
      foldColumns k w pairs (List.range n).reverse total
        = .ok (2 ^ (w * n) • total + ((List.range n).map fun i => 2 ^ (w * i) • columnVal i pairs).sum) := by
  intro n
  induction n with
  | zero => intro total _; simp [foldColumns]
  | succ n ih =>
    intro total h
    rw [List.range_succ, List.reverse_append, List.reverse_singleton, List.singleton_append, foldColumns,
      column_spec hk pairs (h n (by omega)), bind_ok, ih _ fun i hi => h i (by omega), mulByPow2_eq hw]
    congr 1
    rw [List.map_append, List.sum_append, smul_add, smul_smul, ← pow_add, Nat.mul_succ]
    simp only [List.map_cons, List.map_nil, List.sum_cons, List.sum_nil, add_zero]
    abel

theorem radixAll_spec {w : Nat} (hw : w = 6 ∨ w = 7 ∨ w = 8) {scalars : List Scalar} {xs : List Fr}
    (h : List.Forall₂ Scalar.Rep scalars xs) :
    Sat (radixAll w scalars) (fun dss => List.Forall₂ (fun ds (x : Fr) => ds.length = 43 ∧
      (∀ j, -2 ^ (w - 1) ≤ ds.getD j 0 ∧ ds.getD j 0 < 2 ^ (w - 1)) ∧ (∀ j, (256 + w - 1) / w ≤ j → ds.getD j 0 = 0) ∧
      ((List.range ((256 + w - 1) / w)).map fun j => 2 ^ (w * j) * ds.getD j 0).sum = (x.val : Int)) dss xs) := by
  induction h with
  | nil => exact ⟨_, rfl, .nil⟩
  | cons hs _ ih =>
    obtain ⟨ds, e, hd⟩ := toRadix2w_spec hs hw
    obtain ⟨dss, e', hds⟩ := ih
    rw [radixAll, e, bind_ok, e', bind_ok]
    exact ⟨_, rfl, .cons hd hds⟩

theorem columns_total (w n : Nat) {dss : List (List Int)} {xs : List Fr}
    (h : List.Forall₂ (fun ds (x : Fr) => ((List.range n).map fun j => 2 ^ (w * j) * ds.getD j 0).sum = (x.val : Int))
      dss xs) (points : List G) :
    ((List.range n).map fun i => 2 ^ (w * i) • columnVal i (dss.zip points)).sum
      = (List.zipWith (fun (x : Fr) p => x.val • p) xs points).sum := by
  induction h generalizing points with
  | nil => simp [columnVal]
  | @cons ds x dss xs hd _ ih =>
    cases points with
    | nil => simp [columnVal]
    | cons p ps =>
      simp only [List.zip_cons_cons, columnVal, List.zipWith_cons_cons, List.sum_cons]
      rw [← ih]
      have h1 : ((List.range n).map fun i => 2 ^ (w * i) • (ds.getD i 0 • p + columnVal i (dss.zip ps))).sum
          = ((List.range n).map fun i => 2 ^ (w * i) • ds.getD i 0 • p).sum
            + ((List.range n).map fun i => 2 ^ (w * i) • columnVal i (dss.zip ps)).sum := by
        rw [← List.sum_map_add]
        simp only [smul_add]
      rw [h1]
      congr 1
      rw [← natCast_zsmul, ← hd, List.sum_smul, List.map_map]
      congr 2
      funext i
      simp only [Function.comp_apply]
      rw [mul_smul, ← natCast_zsmul]
      push_cast
      rfl

theorem forall₂_mem {α β : Type} {R : α → β → Prop} {as : List α} {bs : List β} (h : List.Forall₂ R as bs) {a : α}
    (ha : a ∈ as) : ∃ b ∈ bs, R a b := by
  induction h with
  | nil => simp at ha
  | cons h1 _ ih =>
    rcases List.mem_cons.1 ha with rfl | ha
    · exact ⟨_, List.mem_cons_self, h1⟩
    · obtain ⟨b, hb, hr⟩ := ih ha
      exact ⟨b, List.mem_cons_of_mem _ hb, hr⟩

theorem pippenger_spec {scalars : List Scalar} {xs : List Fr} (h : List.Forall₂ Scalar.Rep scalars xs)
    (points : List G) :
    pippenger points scalars = .ok (List.zipWith (fun (x : Fr) p => x.val • p) xs points).sum := by
  rw [pippenger]
  simp only
  have hw : digitWidth scalars.length = 6 ∨ digitWidth scalars.length = 7 ∨ digitWidth scalars.length = 8 := by
    unfold digitWidth
    split
    · simp
    · split <;> simp
  generalize digitWidth scalars.length = w at *
  obtain ⟨n, hn, hn43, hn1, hle⟩ : ∃ n, radixSizeHint w = .ok n ∧ n ≤ 43 ∧ 0 < n ∧ (256 + w - 1) / w ≤ n := by
    rcases hw with rfl | rfl | rfl
    · exact ⟨43, rfl, by simp⟩
    · exact ⟨37, rfl, by simp⟩
    · exact ⟨33, rfl, by simp⟩
  obtain ⟨dss, e, hd⟩ := radixAll_spec hw h
  rw [hn, bind_ok, e, bind_ok]
  have hk : 0 < 2 ^ w / 2 := by rcases hw with rfl | rfl | rfl <;> norm_num
  have hmem : ∀ q ∈ dss.zip points, q.1.length = 43 ∧ ∀ j, -2 ^ (w - 1) ≤ q.1.getD j 0 ∧ q.1.getD j 0 < 2 ^ (w - 1) := by
    intro q hq
    have hq' := (List.of_mem_zip hq).1
    generalize q.1 = ds at hq' ⊢
    obtain ⟨x, -, hx⟩ := forall₂_mem hd hq'
    exact ⟨hx.1, hx.2.1⟩
  have hbound : ∀ i, i < n → ∀ q ∈ dss.zip points, i < q.1.length ∧ -((2 ^ w / 2 : Nat) : Int) ≤ q.1.getD i 0 ∧
      q.1.getD i 0 ≤ ((2 ^ w / 2 : Nat) : Int) := by
    intro i hi q hq
    obtain ⟨h1, h2⟩ := hmem q hq
    have h3 := h2 i
    refine ⟨by omega, ?_⟩
    generalize q.1.getD i 0 = d at h3 ⊢
    rcases hw with rfl | rfl | rfl <;> norm_num at h3 ⊢ <;> omega
  obtain ⟨m, rfl⟩ : ∃ m, n = m + 1 := ⟨n - 1, by omega⟩
  rw [List.range_succ, List.reverse_append, List.reverse_singleton, List.singleton_append]
  simp only
  rw [column_spec hk _ (hbound m (by omega)), bind_ok,
    foldColumns_spec hk (by omega) _ m _ (fun i hi => hbound i (by omega))]
  congr 1
  rw [← columns_total w (m + 1) (dss := dss) (xs := xs)]
  · rw [List.range_succ, List.map_append, List.sum_append]
    simp only [List.map_cons, List.map_nil, List.sum_cons, List.sum_nil, add_zero]
    abel
  · refine hd.imp fun ds x hx => ?_
    rw [← hx.2.2.2]
    generalize (256 + w - 1) / w = n' at *
    obtain ⟨t, ht⟩ : ∃ t, m + 1 = n' + t := ⟨m + 1 - n', by omega⟩
    rw [ht, List.range_add, List.map_append, List.sum_append, List.map_map]
    have : ((List.range t).map ((fun j => 2 ^ (w * j) * ds.getD j 0) ∘ fun x => n' + x)).sum = 0 := by
      apply List.sum_eq_zero
      intro y hy
      simp only [List.mem_map, Function.comp_apply] at hy
      obtain ⟨j, -, rfl⟩ := hy
      rw [hx.2.2.1 (n' + j) (by omega), mul_zero]
    rw [this, add_zero]

end
end Kzg.Zk.Msm
