import Verif.Proofs.Zk.Scalar
import Verif.Proofs.FrPrime
import Mathlib.FieldTheory.Finite.Basic
/-!
# The words of zkcrypto's scalar field compute in the field
-/

namespace Kzg.Zk.Scalar

theorem natCast_eq_of_mod {m n : Nat} (h : m % frModulus = n % frModulus) : (m : Fr) = (n : Fr) :=
  (ZMod.natCast_eq_natCast_iff' m n frModulus).2 h

/-- `2^256` is invertible. -/
theorem two_pow_ne_zero : (2 : Fr) ^ 256 ≠ 0 := by
  apply pow_ne_zero
  intro h
  have h2 : ((2 : Nat) : Fr) = 0 := by exact_mod_cast h
  rw [ZMod.natCast_eq_zero_iff] at h2
  have := Nat.le_of_dvd (by norm_num) h2
  simp [frModulus] at this

theorem natCast_two_pow (k : Nat) : ((2 ^ k : Nat) : Fr) = 2 ^ k := by push_cast; rfl

theorem W4 : ((W ^ 4 : Nat) : Fr) = 2 ^ 256 := by
  rw [show (W ^ 4 : Nat) = 2 ^ 256 by norm_num [W], natCast_two_pow]

theorem rep_unique {s : Scalar} {x y : Fr} (hx : Rep s x) (hy : Rep s y) : x = y := by
  have h := hx.2.symm.trans hy.2
  exact mul_right_cancel₀ two_pow_ne_zero h

theorem rep_inj {s t : Scalar} {x : Fr} (hs : Rep s x) (ht : Rep t x) : s = t := by
  apply val_inj hs.1.1 ht.1.1
  have h := hs.2.trans ht.2.symm
  rw [ZMod.natCast_eq_natCast_iff', Nat.mod_eq_of_lt hs.1.2, Nat.mod_eq_of_lt ht.1.2] at h
  exact h

/-- The words of an integer below `2^256`. -/
def ofNat (n : Nat) : Scalar := ⟨n % W, n / W % W, n / W ^ 2 % W, n / W ^ 3⟩

theorem words_ofNat {n : Nat} (h : n < W ^ 4) : Words (ofNat n) := by
  simp only [Words, ofNat, W] at *
  omega

theorem val_ofNat (n : Nat) : val (ofNat n) = n := by
  simp only [val, ofNat, W]
  omega

theorem rep_exists (x : Fr) : ∃ s, Rep s x := by
  have hl : (x * 2 ^ 256).val < frModulus := ZMod.val_lt _
  refine ⟨ofNat (x * 2 ^ 256).val, ⟨words_ofNat ?_, ?_⟩, ?_⟩
  · exact hl.trans (by simp [frModulus, W])
  · rw [val_ofNat]; exact hl
  · rw [val_ofNat, ZMod.natCast_zmod_val]

/-- Every reduced vector represents an element. -/
theorem red_rep {s : Scalar} (h : Red s) : ∃ x, Rep s x :=
  ⟨(val s : Fr) * ((2 : Fr) ^ 256)⁻¹, h, by rw [mul_assoc, inv_mul_cancel₀ two_pow_ne_zero, mul_one]⟩

theorem add_rep {s t : Scalar} {x y : Fr} (hs : Rep s x) (ht : Rep t y) : Rep (add s t) (x + y) := by
  have h1 := hs.1.2
  have h2 := ht.1.2
  obtain ⟨r, e⟩ := add_spec hs.1.1 ht.1.1 (by omega)
  refine ⟨r, ?_⟩
  rw [e, ZMod.natCast_mod, Nat.cast_add, hs.2, ht.2]
  ring

theorem double_rep {s : Scalar} {x : Fr} (hs : Rep s x) : Rep (double s) (2 * x) := by
  rw [two_mul]
  exact add_rep hs hs

theorem sub_rep {s t : Scalar} {x y : Fr} (hs : Rep s x) (ht : Rep t y) : Rep (sub s t) (x - y) := by
  obtain ⟨r, e⟩ := sub_red hs.1 ht.1
  refine ⟨r, ?_⟩
  rw [e, ZMod.natCast_mod, Nat.cast_add, Nat.cast_sub ht.1.2.le, hs.2, ht.2, ZMod.natCast_self]
  ring

theorem neg_rep {s : Scalar} {x : Fr} (hs : Rep s x) : Rep (neg s) (-x) := by
  obtain ⟨r, e⟩ := neg_red hs.1
  refine ⟨r, ?_⟩
  rw [e, ZMod.natCast_mod, Nat.cast_sub hs.1.2.le, hs.2, ZMod.natCast_self]
  ring

/-- Product of arbitrary word vectors (not only reduced ones), the form used by the conversions. -/
theorem mul_words {s t : Scalar} (hs : Words s) (ht : Red t) :
    Red (mul s t) ∧ (val (mul s t) : Fr) * 2 ^ 256 = (val s : Fr) * (val t : Fr) := by
  obtain ⟨r, e⟩ := mul_spec hs ht.1 (Nat.mul_lt_mul'' (val_lt hs) ht.2)
  refine ⟨r, ?_⟩
  have := natCast_eq_of_mod e
  rw [Nat.cast_mul, W4, Nat.cast_mul] at this
  rw [← this]
  ring

theorem mul_rep {s t : Scalar} {x y : Fr} (hs : Rep s x) (ht : Rep t y) : Rep (mul s t) (x * y) := by
  obtain ⟨r, e⟩ := mul_words hs.1.1 ht.1
  refine ⟨r, ?_⟩
  rw [hs.2, ht.2] at e
  apply mul_right_cancel₀ two_pow_ne_zero
  rw [e]
  ring

theorem square_rep {s : Scalar} {x : Fr} (hs : Rep s x) : Rep (square s) (x * x) := by
  obtain ⟨r, e⟩ := square_spec hs.1.1
    (Nat.mul_lt_mul'' (val_lt hs.1.1) hs.1.2)
  refine ⟨r, ?_⟩
  have := natCast_eq_of_mod e
  rw [Nat.cast_mul, W4, Nat.cast_mul, hs.2] at this
  apply mul_left_cancel₀ two_pow_ne_zero
  rw [this]
  ring

theorem zero_rep : Rep zero 0 := by
  refine ⟨⟨by simp [Words, zero, W], by simp [val, zero, frModulus]⟩, by simp [val, zero]⟩

theorem one_rep : Rep one 1 := by
  refine ⟨⟨by simp [Words, one, R, W], by simp [val, one, R, frModulus, W]⟩, ?_⟩
  rw [one_mul, ← natCast_two_pow]
  apply natCast_eq_of_mod
  decide +kernel

theorem R2_rep : Rep R2 (2 ^ 256) := by
  refine ⟨⟨by simp [Words, R2, W], by simp [val, R2, frModulus, W]⟩, ?_⟩
  rw [← natCast_two_pow, ← Nat.cast_mul]
  apply natCast_eq_of_mod
  decide +kernel

theorem R3_rep : Rep R3 (2 ^ 512) := by
  refine ⟨⟨by simp [Words, R3, W], by simp [val, R3, frModulus, W]⟩, ?_⟩
  rw [← natCast_two_pow, ← natCast_two_pow, ← Nat.cast_mul]
  apply natCast_eq_of_mod
  decide +kernel

theorem generator_rep : Rep generator 7 := by
  refine ⟨⟨by simp [Words, generator, W], by simp [val, generator, frModulus, W]⟩, ?_⟩
  rw [← natCast_two_pow, show (7 : Fr) = ((7 : Nat) : Fr) by norm_num, ← Nat.cast_mul]
  apply natCast_eq_of_mod
  decide +kernel

/-- Conversion of an arbitrary 256-bit integer. -/
theorem fromRaw_rep {a b c d : Nat} (ha : a < W) (hb : b < W) (hc : c < W) (hd : d < W) :
    Rep (fromRaw a b c d) (val ⟨a, b, c, d⟩ : Fr) := by
  obtain ⟨r, e⟩ := mul_words (s := ⟨a, b, c, d⟩) ⟨ha, hb, hc, hd⟩ R2_rep.1
  refine ⟨r, ?_⟩
  rw [R2_rep.2] at e
  apply mul_right_cancel₀ two_pow_ne_zero
  rw [fromRaw, e]
  ring

theorem ofU64_rep {v : Nat} (hv : v < W) : Rep (ofU64 v) (v : Fr) := by
  have h := fromRaw_rep hv (by simp [W] : 0 < W) (by simp [W] : 0 < W) (by simp [W] : 0 < W)
  simpa [val, fromRaw, ofU64] using h

theorem fromU512_rep {a b c d e f g h : Nat} (ha : a < W) (hb : b < W) (hc : c < W) (hd : d < W)
    (he : e < W) (hf : f < W) (hg : g < W) (hh : h < W) :
    Rep (fromU512 a b c d e f g h) ((val ⟨a, b, c, d⟩ + 2 ^ 256 * val ⟨e, f, g, h⟩ : Nat) : Fr) := by
  have h1 := fromRaw_rep ha hb hc hd
  obtain ⟨r, q⟩ := mul_words (s := ⟨e, f, g, h⟩) ⟨he, hf, hg, hh⟩ R3_rep.1
  have h2 : Rep (mul ⟨e, f, g, h⟩ R3) ((val ⟨e, f, g, h⟩ : Fr) * 2 ^ 256) := by
    refine ⟨r, ?_⟩
    rw [R3_rep.2] at q
    apply mul_right_cancel₀ two_pow_ne_zero
    rw [q, show (512 : Nat) = 256 + 256 from rfl, pow_add]
    ring
  have h3 := add_rep h1 h2
  rw [Nat.cast_add, Nat.cast_mul, natCast_two_pow, mul_comm ((2 : Fr) ^ 256)]
  exact h3

/-- Out of Montgomery form. -/
theorem reduce_spec {s : Scalar} (hs : Words s) :
    Red (reduce s) ∧ (val (reduce s) : Fr) * 2 ^ 256 = (val s : Fr) := by
  have hz : 0 < W := by simp [W]
  have hl : val s < W ^ 4 * frModulus := by
    have := val_lt hs
    calc val s < W ^ 4 := this
      _ ≤ W ^ 4 * frModulus := Nat.le_mul_of_pos_right _ (by simp [frModulus])
  obtain ⟨r, e⟩ := montgomeryReduce_spec hs.1 hs.2.1 hs.2.2.1 hs.2.2.2 hz hz hz hz (by simpa [val] using hl)
  refine ⟨r, ?_⟩
  have := natCast_eq_of_mod e
  rw [Nat.cast_mul, W4] at this
  rw [reduce, mul_comm, this]
  simp [val]

/-- The integer behind `reduce` of a representative is the canonical value. -/
theorem reduce_rep {s : Scalar} {x : Fr} (hs : Rep s x) : Words (reduce s) ∧ val (reduce s) = x.val := by
  obtain ⟨r, e⟩ := reduce_spec hs.1.1
  refine ⟨r.1, ?_⟩
  rw [hs.2] at e
  have := mul_right_cancel₀ two_pow_ne_zero e
  rw [← this, ZMod.val_natCast, Nat.mod_eq_of_lt r.2]

theorem ctEq_iff {s t : Scalar} : ctEq s t = true ↔ s = t := by
  cases s; cases t
  simp [ctEq, and_assoc]

theorem ctEq_rep {s t : Scalar} {x y : Fr} (hs : Rep s x) (ht : Rep t y) : ctEq s t = decide (x = y) := by
  by_cases h : x = y
  · subst h
    rw [rep_inj hs ht]
    simp [ctEq]
  · rw [decide_eq_false h, Bool.eq_false_iff]
    intro e
    rw [ctEq_iff] at e
    exact h (rep_unique hs (e ▸ ht))

theorem select_eq (a b : Scalar) (c : Bool) : select a b c = if c then b else a := by
  cases c <;> rfl

theorem square_pow' {s : Scalar} {x : Fr} {m : Nat} (hs : Rep s (x ^ m)) : Rep (square s) (x ^ (2 * m)) := by
  rw [two_mul, pow_add]
  exact square_rep hs

theorem mul_pow' {s t : Scalar} {x : Fr} {m n : Nat} (hs : Rep s (x ^ m)) (ht : Rep t (x ^ n)) :
    Rep (mul s t) (x ^ (m + n)) := by
  rw [pow_add]
  exact mul_rep hs ht

theorem squareMulti_pow (k : Nat) {s : Scalar} {x : Fr} {m : Nat} (hs : Rep s (x ^ m)) :
    Rep (squareMulti s k) (x ^ (2 ^ k * m)) := by
  induction k generalizing s m with
  | zero => simpa [squareMulti] using hs
  | succ k ih =>
    rw [squareMulti, pow_succ, mul_assoc]
    exact ih (square_pow' hs)

theorem chain_sq {s : Scalar} {x : Fr} {m n : Nat} (hs : Rep s (x ^ m)) (h : n = 2 * m) :
    Rep (square s) (x ^ n) := h ▸ square_pow' hs

theorem chain_mul {s t : Scalar} {x : Fr} {m n k : Nat} (hs : Rep s (x ^ m)) (ht : Rep t (x ^ n))
    (h : k = m + n) : Rep (mul s t) (x ^ k) := h ▸ mul_pow' hs ht

theorem chain_sqmul (j : Nat) {s t : Scalar} {x : Fr} {m n k : Nat} (hs : Rep s (x ^ m)) (ht : Rep t (x ^ n))
    (h : k = 2 ^ j * m + n) : Rep (mul (squareMulti s j) t) (x ^ k) := h ▸ mul_pow' (squareMulti_pow j hs) ht

theorem bit_lt (e i : Nat) : (shr e i &&& 1) = e / 2 ^ i % 2 := by
  rw [shr, Nat.and_one_is_mod]

theorem pow_step (e n : Nat) : e % 2 ^ (n + 1) = e / 2 ^ n % 2 * 2 ^ n + e % 2 ^ n := by
  rw [pow_succ, Nat.mod_mul, mul_comm (2 ^ n)]
  omega

theorem powVarWord_rep {a : Scalar} {x : Fr} (ha : Rep a x) (e n : Nat) {s : Scalar} {m : Nat}
    (hs : Rep s (x ^ m)) : Rep (powVarWord a e n s) (x ^ (m * 2 ^ n + e % 2 ^ n)) := by
  have ha' : Rep a (x ^ 1) := by rwa [pow_one]
  induction n generalizing s m with
  | zero => simpa [powVarWord, Nat.mod_one] using hs
  | succ n ih =>
    rw [powVarWord, bit_lt, pow_step]
    rcases Nat.mod_two_eq_zero_or_one (e / 2 ^ n) with h | h
    · rw [h]
      have := ih (square_pow' hs)
      simp only [zero_ne_one, if_false]
      convert this using 2
      rw [pow_succ]
      ring
    · rw [h]
      have := ih (mul_pow' (square_pow' hs) ha')
      simp only [if_true]
      convert this using 2
      rw [pow_succ]
      ring

theorem powWord_eq (a : Scalar) (e n : Nat) (s : Scalar) : powWord a e n s = powVarWord a e n s := by
  induction n generalizing s with
  | zero => rfl
  | succ n ih =>
    simp only [powWord, powVarWord, ih, select_eq, bit_lt]
    rcases Nat.mod_two_eq_zero_or_one (e / 2 ^ n) with h | h <;> simp [h]

theorem powVartime_rep {a : Scalar} {x : Fr} (ha : Rep a x) {b0 b1 b2 b3 : Nat} (h0 : b0 < W) (h1 : b1 < W)
    (h2 : b2 < W) (h3 : b3 < W) : Rep (powVartime a b0 b1 b2 b3) (x ^ val ⟨b0, b1, b2, b3⟩) := by
  have hone : Rep one (x ^ 0) := by
    rw [pow_zero]
    exact one_rep
  have := powVarWord_rep ha b0 64 (powVarWord_rep ha b1 64 (powVarWord_rep ha b2 64
    (powVarWord_rep ha b3 64 hone)))
  rw [Nat.mod_eq_of_lt h0, Nat.mod_eq_of_lt h1, Nat.mod_eq_of_lt h2, Nat.mod_eq_of_lt h3] at this
  have e : val ⟨b0, b1, b2, b3⟩ = (((0 * 2 ^ 64 + b3) * 2 ^ 64 + b2) * 2 ^ 64 + b1) * 2 ^ 64 + b0 := by
    simp only [val, W]
    ring
  rw [e]
  exact this

theorem pow_eq (a : Scalar) (b0 b1 b2 b3 : Nat) : pow a b0 b1 b2 b3 = powVartime a b0 b1 b2 b3 := by
  simp only [Scalar.pow, powVartime, powWord_eq]

set_option maxRecDepth 8000 in
/-- The addition chain of `invert` computes the power `q - 2`. -/
theorem invert_chain {a : Scalar} {x : Fr} (ha : Rep a x) :
    ∃ t, Rep t (x ^ (frModulus - 2)) ∧ invert a = if ctEq a zero then none else some t := by
  have h : Rep a (x ^ 1) := by rwa [pow_one]
  unfold invert
  extract_lets v1 v2 v3 v4 v5 v6 v7 v8 v9 v10 v11 v12 v13 v14 v15 v16 v17 v18 v19 v20 v21 v22 v23 v24 v25 v26 v27 v28 v29 v30 v31 v32 v33 v34 v35 v36 v37 v38 v39 v40 v41 v42 v43 v44 v45 v46 v47 v48 v49 v50 v51 v52 v53 v54 v55 v56 v57
  have h1 : Rep v1 (x ^ 2) := chain_sq h (by norm_num)
  have h2 : Rep v2 (x ^ 3) := chain_mul h1 h (by norm_num)
  have h3 : Rep v3 (x ^ 4) := chain_sq h1 (by norm_num)
  have h4 : Rep v4 (x ^ 8) := chain_sq h3 (by norm_num)
  have h5 : Rep v5 (x ^ 10) := chain_mul h4 h1 (by norm_num)
  have h6 : Rep v6 (x ^ 12) := chain_mul h4 h3 (by norm_num)
  have h7 : Rep v7 (x ^ 14) := chain_mul h5 h3 (by norm_num)
  have h8 : Rep v8 (x ^ 16) := chain_sq h4 (by norm_num)
  have h9 : Rep v9 (x ^ 18) := chain_mul h5 h4 (by norm_num)
  have h10 : Rep v10 (x ^ 22) := chain_mul h6 h5 (by norm_num)
  have h11 : Rep v11 (x ^ 28) := chain_sq h7 (by norm_num)
  have h12 : Rep v12 (x ^ 31) := chain_mul h2 h11 (by norm_num)
  have h13 : Rep v13 (x ^ 34) := chain_mul h9 h8 (by norm_num)
  have h14 : Rep v14 (x ^ 59) := chain_mul h12 h11 (by norm_num)
  have h15 : Rep v15 (x ^ 75) := chain_mul h14 h8 (by norm_num)
  have h16 : Rep v16 (x ^ 77) := chain_mul h14 h9 (by norm_num)
  have h17 : Rep v17 (x ^ 85) := chain_mul h15 h5 (by norm_num)
  have h18 : Rep v18 (x ^ 103) := chain_mul h15 h11 (by norm_num)
  have h19 : Rep v19 (x ^ 105) := chain_mul h16 h11 (by norm_num)
  have h20 : Rep v20 (x ^ 107) := chain_mul h17 h10 (by norm_num)
  have h21 : Rep v21 (x ^ 117) := chain_mul h18 h7 (by norm_num)
  have h22 : Rep v22 (x ^ 131) := chain_mul h18 h11 (by norm_num)
  have h23 : Rep v23 (x ^ 153) := chain_mul h10 h22 (by norm_num)
  have h24 : Rep v24 (x ^ 157) := chain_mul h3 h23 (by norm_num)
  have h25 : Rep v25 (x ^ 191) := chain_mul h13 h24 (by norm_num)
  have h26 : Rep v26 (x ^ 219) := chain_mul h11 h25 (by norm_num)
  have h27 : Rep v27 (x ^ 231) := chain_mul h6 h26 (by norm_num)
  have h28 : Rep v28 (x ^ 239) := chain_mul h4 h27 (by norm_num)
  have h29 : Rep v29 (x ^ 255) := chain_mul h8 h28 (by norm_num)
  have h30 : Rep v30 (x ^ 59355) := chain_sqmul 8 h27 h26 (by norm_num)
  have h31 : Rep v31 (x ^ 30389917) := chain_sqmul 9 h30 h24 (by norm_num)
  have h32 : Rep v32 (x ^ 15559637657) := chain_sqmul 9 h31 h23 (by norm_num)
  have h33 : Rep v33 (x ^ 7966534480537) := chain_sqmul 9 h32 h23 (by norm_num)
  have h34 : Rep v34 (x ^ 1019716413508843) := chain_sqmul 7 h33 h20 (by norm_num)
  have h35 : Rep v35 (x ^ 130523700929132021) := chain_sqmul 7 h34 h21 (by norm_num)
  have h36 : Rep v36 (x ^ 133656269751431189635) := chain_sqmul 10 h35 h22 (by norm_num)
  have h37 : Rep v37 (x ^ 68432010112732769093223) := chain_sqmul 9 h36 h18 (by norm_num)
  have h38 : Rep v38 (x ^ 17518594588859588887865147) := chain_sqmul 8 h37 h14 (by norm_num)
  have h39 : Rep v39 (x ^ 4484760214748054755293477633) := chain_sqmul 8 h38 h (by norm_num)
  have h40 : Rep v40 (x ^ 73478311358432129110728337539149) := chain_sqmul 14 h39 h16 (by norm_num)
  have h41 : Rep v41 (x ^ 75241790831034500209385817640088635) := chain_sqmul 10 h40 h14 (by norm_num)
  have h42 : Rep v42 (x ^ 2465523001951338502861154472430424391765) := chain_sqmul 15 h41 h17 (by norm_num)
  have h43 : Rep v43 (x ^ 2524695553998170626929822179768754577167599) := chain_sqmul 10 h42 h28 (by norm_num)
  have h44 : Rep v44 (x ^ 646322061823531680494034478020801171754905449) := chain_sqmul 8 h43 h19 (by norm_num)
  have h45 : Rep v45 (x ^ 42357362643666972212857043551571225592129483505855) := chain_sqmul 16 h44 h25 (by norm_num)
  have h46 : Rep v46 (x ^ 10843484836778744886491403149202233751585147777499135) := chain_sqmul 8 h45 h29 (by norm_num)
  have h47 : Rep v47 (x ^ 1387966059107679345470899603097885920202898915519889355) := chain_sqmul 7 h46 h15 (by norm_num)
  have h48 : Rep v48 (x ^ 710638622263131824881100596786117591143884244746183350015) := chain_sqmul 9 h47 h29 (by norm_num)
  have h49 : Rep v49 (x ^ 181923487299361747169561752777246103332834366655022937604031) := chain_sqmul 8 h48 h25 (by norm_num)
  have h50 : Rep v50 (x ^ 46572412748636607275407808710975002453205597863685872026632191) := chain_sqmul 8 h49 h29 (by norm_num)
  have h51 : Rep v51 (x ^ 11922537663650971462504399030009600628020633053103583238817841151) := chain_sqmul 8 h50 h29 (by norm_num)
  have h52 : Rep v52 (x ^ 3052169641894648694401126151682457760773282061594517309137367334911) := chain_sqmul 8 h51 h29 (by norm_num)
  have h53 : Rep v53 (x ^ 781355428325030065766688294830709186757960207768196431139166037737407) := chain_sqmul 8 h52 h25 (by norm_num)
  have h54 : Rep v54 (x ^ 200026989651207696836272203476661551810037813188658286371626505660776447) := chain_sqmul 8 h53 h29 (by norm_num)
  have h55 : Rep v55 (x ^ 51206909350709170390085684090025357263369680176296521311136385449158770687) := chain_sqmul 8 h54 h29 (by norm_num)
  have h56 : Rep v56 (x ^ 1638621099222693452482741890880811432427829765641488681956364334373080662015) := chain_sqmul 5 h55 h12 (by norm_num)
  have h57 : Rep v57 (x ^ 52435875175126190479447740508185965837690552500527637822603658699938581184511) := chain_sqmul 5 h56 h12 (by norm_num)
  exact ⟨v57, h57, rfl⟩

theorem invert_rep {a : Scalar} {x : Fr} (ha : Rep a x) (hx : x ≠ 0) :
    ∃ t, invert a = some t ∧ Rep t x⁻¹ := by
  obtain ⟨t, ht, e⟩ := invert_chain ha
  refine ⟨t, ?_, ?_⟩
  · rw [e, ctEq_rep ha zero_rep]
    simp [hx]
  · have h1 : x ^ (frModulus - 2) * x = 1 := by
      rw [← pow_succ, show frModulus - 2 + 1 = frModulus - 1 by simp [frModulus]]
      exact ZMod.pow_card_sub_one_eq_one hx
    rw [← eq_inv_of_mul_eq_one_left h1]
    exact ht

theorem invert_zero {a : Scalar} (ha : Rep a 0) : invert a = none := by
  obtain ⟨t, -, e⟩ := invert_chain ha
  rw [e, ctEq_rep ha zero_rep]
  simp

end Kzg.Zk.Scalar
