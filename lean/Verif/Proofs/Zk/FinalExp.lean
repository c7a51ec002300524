import Verif.Model.Zk.FinalExp
import Verif.Proofs.Zk.TowerFrob
import Verif.Proofs.Zk.ScalarBytes
import Verif.Proofs.Zk.Bits
import Mathlib.Tactic.LinearCombination
/-!
# The final exponentiation and the target group
-/

set_option exponentiation.threshold 1000
set_option linter.unusedSectionVars false

namespace Kzg.Zk.Gt
open Kzg

local notation "p" => fpModulus
local notation "r" => frModulus

/-! ## Two Frobenius maps -/

/-- A primitive sixth root of one. -/
def omega : Fp2 FpW := Fp2.xi ^ ((p ^ 2 - 1) / 6)

theorem omega_sq : omega * omega = omega - 1 := by
  have h := N2.pow_cast 768 ⟨1, 1⟩ ((p ^ 2 - 1) / 6) ⟨1, 0⟩ (by decide +kernel)
  rw [N2.one_cast, one_mul, ← xi_cast] at h
  rw [omega, ← h, ← N2.mul_cast, eq_sub_iff_add_eq, ← N2.one_cast]
  generalize e : N2.pow 768 ⟨1, 1⟩ ((p ^ 2 - 1) / 6) ⟨1, 0⟩ = t
  have h1 : (N2.add (N2.mul t t) ⟨1, 0⟩).cast = t.cast := by
    rw [← e]
    exact N2.cast_eq_of_mod (by decide +kernel) (by decide +kernel)
  rw [N2.add_cast] at h1
  exact h1

theorem omega_ne : omega ≠ 0 := fun h => by
  have := omega_sq
  rw [h] at this
  simp at this

theorem w_pow_p2 : (Fp12.w : Fp12 FpW) ^ p ^ 2 = Fp12.ofHom (Fp6.ofHom omega) * Fp12.w := by
  rw [omega, map_pow, map_pow, ← Fp12.w_pow_six, ← pow_mul, ← pow_succ,
    show 6 * ((p ^ 2 - 1) / 6) + 1 = p ^ 2 by decide +kernel]

/-- The square of the Frobenius map on the six coefficients. -/
def frob2 {K : Type} [Field K] [DecidableEq K] (o : Fp2 K) (f : Fp12 K) : Fp12 K :=
  ⟨⟨f.c0.c0, (o - 1) * f.c0.c1, -o * f.c0.c2⟩, ⟨o * f.c1.c0, -f.c1.c1, (1 - o) * f.c1.c2⟩⟩

theorem frob2_alg {R : Type} [CommRing R] (φ : R →+* R) {o v w a0 a1 a2 b0 b1 b2 : R} (h2 : o * o = o - 1)
    (hv : φ v = o * o * v) (hw : φ w = o * w) (h0 : φ a0 = a0) (h1 : φ a1 = a1) (h3 : φ a2 = a2) (k0 : φ b0 = b0)
    (k1 : φ b1 = b1) (k2 : φ b2 = b2) :
    φ (a0 + a1 * v + a2 * (v * v) + (b0 + b1 * v + b2 * (v * v)) * w) =
    a0 + (o - 1) * a1 * v + -o * a2 * (v * v) + (o * b0 + -b1 * v + (1 - o) * b2 * (v * v)) * w := by
  simp only [map_add, map_mul, hv, hw, h0, h1, h3, k0, k1, k2]
  linear_combination (a1 * v + a2 * v ^ 2 * o * (o + 1) + b1 * v * w * (o + 1) +
    b2 * v ^ 2 * w * (o ^ 2 * (o + 1) - 1)) * h2

/-- The constants. -/
def inc {K : Type} [Field K] [DecidableEq K] : Fp2 K →+* Fp12 K := Fp12.ofHom.comp Fp6.ofHom

theorem eq_add6 {K : Type} [Field K] [DecidableEq K] (f : Fp12 K) : f = inc f.c0.c0 + inc f.c0.c1 * Fp12.ofHom Fp6.v +
    inc f.c0.c2 * (Fp12.ofHom Fp6.v * Fp12.ofHom Fp6.v) + (inc f.c1.c0 + inc f.c1.c1 * Fp12.ofHom Fp6.v +
    inc f.c1.c2 * (Fp12.ofHom Fp6.v * Fp12.ofHom Fp6.v)) * Fp12.w := by
  conv_lhs => rw [Fp12.eq_add f, Fp6.eq_add f.c0, Fp6.eq_add f.c1]
  rw [map_add, map_add, map_add, map_add, map_mul, map_mul, map_mul, map_mul, map_mul,
    map_mul]
  have e : ∀ a : Fp2 K, inc a = Fp12.ofHom (Fp6.ofHom a) := fun _ => rfl
  rw [e, e, e, e, e, e]

theorem frob2_eq {K : Type} [Field K] [DecidableEq K] (o : Fp2 K) (h2 : o * o = o - 1) (φ : Fp12 K →+* Fp12 K)
    (hc : ∀ a, φ (inc a) = inc a) (hw : φ Fp12.w = inc o * Fp12.w) (f : Fp12 K) : φ f = frob2 o f := by
  have hv : φ (Fp12.ofHom Fp6.v) = inc o * inc o * Fp12.ofHom Fp6.v := by
    rw [← Fp12.w_sq, map_mul, hw]; ring
  have h2' : (inc o : Fp12 K) * inc o = inc o - 1 := by
    rw [← map_mul, h2, map_sub, map_one]
  conv_lhs => rw [eq_add6 f]
  rw [frob2_alg φ h2' hv hw (hc _) (hc _) (hc _) (hc _) (hc _) (hc _)]
  conv_rhs => rw [eq_add6 (frob2 o f)]
  rw [frob2]
  rw [map_mul inc, map_mul inc, map_mul inc, map_mul inc, map_neg inc, map_neg inc, map_sub inc, map_sub inc,
    map_one inc]

theorem pow_p2 (f : Fp12 FpW) : f ^ p ^ 2 = frob2 omega f :=
  frob2_eq omega omega_sq (iterateFrobenius (Fp12 FpW) p 2)
    (fun a => by rw [iterateFrobenius_def, ← map_pow, Fp2.pow_p2]) w_pow_p2 f

/-- The cyclotomic subgroup. -/
def Cyc (f : Fp12 FpW) : Prop := f ^ p ^ 4 * f = f ^ p ^ 2

/-- The fourth power of the Frobenius map on the six coefficients. -/
def frob4 {K : Type} [Field K] [DecidableEq K] (o : Fp2 K) (f : Fp12 K) : Fp12 K :=
  ⟨⟨f.c0.c0, -o * f.c0.c1, (o - 1) * f.c0.c2⟩, ⟨(o - 1) * f.c1.c0, f.c1.c1, -o * f.c1.c2⟩⟩

theorem frob2_frob2 {K : Type} [Field K] [DecidableEq K] {o : Fp2 K} (h2 : o * o = o - 1) (f : Fp12 K) :
    frob2 o (frob2 o f) = frob4 o f := by
  ext1 <;> ext1 <;> simp only [frob2, frob4]
  · linear_combination f.c0.c1 * h2
  · linear_combination f.c0.c2 * h2
  · linear_combination f.c1.c0 * h2
  · ring
  · linear_combination f.c1.c2 * h2

theorem cyclotomicSquare_alg {K : Type} [Field K] [DecidableEq K] [LawfulTower K] {o : Fp2 K} (h2 : o * o = o - 1)
    (hn : o ≠ 0) {f : Fp12 K} (h : frob2 o (frob2 o f) * f = frob2 o f) : cyclotomicSquare f = f * f := by
  rw [frob2_frob2 h2] at h
  obtain ⟨⟨g0, g2, g4⟩, ⟨g1, g3, g5⟩⟩ := f
  have e0 := congrArg (fun x => x.c0.c0) h
  have e2 := congrArg (fun x => x.c0.c1) h
  have e4 := congrArg (fun x => x.c0.c2) h
  have e1 := congrArg (fun x => x.c1.c0) h
  have e3 := congrArg (fun x => x.c1.c1) h
  have e5 := congrArg (fun x => x.c1.c2) h
  simp only [frob2, frob4, Fp12.mul_c0, Fp12.mul_c1, Fp6.mul_c0, Fp6.mul_c1, Fp6.mul_c2, Fp6.add_c0, Fp6.add_c1, Fp6.add_c2,
    Fp6.v_c0, Fp6.v_c1, Fp6.v_c2] at e0 e1 e2 e3 e4 e5
  have hn' : o - 1 ≠ 0 := by rw [← h2]; exact mul_ne_zero hn hn
  ext1 <;> ext1
  all_goals simp only [cyclotomicSquare, fp4Square, Fp2.square_eq, Fp2.mulByNonresidue_eq, Fp12.mul_c0, Fp12.mul_c1,
    Fp6.mul_c0, Fp6.mul_c1, Fp6.mul_c2, Fp6.add_c0, Fp6.add_c1, Fp6.add_c2, Fp6.v_c0, Fp6.v_c1, Fp6.v_c2]
  all_goals generalize (Fp2.xi : Fp2 K) = x at *
  · linear_combination 2 * e0
  · apply mul_left_cancel₀ hn'
    linear_combination 2 * e2
  · apply mul_left_cancel₀ hn
    linear_combination (-2) * e4
  · apply mul_left_cancel₀ hn
    linear_combination (-2) * e1
  · linear_combination 2 * e3
  · apply mul_left_cancel₀ hn'
    linear_combination 2 * e5

theorem cyclotomicSquare_eq {f : Fp12 FpW} (h : Cyc f) : cyclotomicSquare f = f * f := by
  rw [Cyc, show p ^ 4 = p ^ 2 * p ^ 2 by rw [← pow_add], pow_mul, pow_p2, pow_p2] at h
  exact cyclotomicSquare_alg omega_sq omega_ne h

/-! ## The cyclotomic subgroup -/

theorem Cyc.one : Cyc 1 := by rw [Cyc, one_pow, one_pow, one_mul]

theorem Cyc.mul {a b : Fp12 FpW} (ha : Cyc a) (hb : Cyc b) : Cyc (a * b) := by
  unfold Cyc at *
  rw [mul_pow, mul_pow, ← ha, ← hb]; ring

theorem Cyc.pow {a : Fp12 FpW} (ha : Cyc a) (n : Nat) : Cyc (a ^ n) := by
  unfold Cyc at *
  rw [← pow_mul, ← pow_mul, mul_comm n, mul_comm n, pow_mul, pow_mul, ← ha, mul_pow]

theorem Cyc.inv {a : Fp12 FpW} (ha : Cyc a) : Cyc a⁻¹ := by
  unfold Cyc at *
  rw [inv_pow, inv_pow, ← ha, mul_inv]

theorem Cyc.zpow {a : Fp12 FpW} (ha : Cyc a) (n : Int) : Cyc (a ^ n) := by
  obtain ⟨m, rfl | rfl⟩ := n.eq_nat_or_neg
  · rw [zpow_natCast]; exact ha.pow m
  · rw [zpow_neg, zpow_natCast]; exact (ha.pow m).inv

theorem cyc_iff {a : Fp12 FpW} (h : a ≠ 0) : Cyc a ↔ a ^ (p ^ 4 - p ^ 2 + 1) = 1 := by
  have h2 : a ^ p ^ 2 ≠ 0 := pow_ne_zero _ h
  have e : a ^ (p ^ 4 - p ^ 2 + 1) * a ^ p ^ 2 = a ^ p ^ 4 * a := by
    rw [← pow_add, ← pow_succ, show p ^ 4 - p ^ 2 + 1 + p ^ 2 = p ^ 4 + 1 by decide +kernel]
  rw [Cyc, ← e]
  constructor
  · intro h'
    apply mul_right_cancel₀ h2
    rw [h', one_mul]
  · intro h'
    rw [h', one_mul]

/-- In the cyclotomic subgroup the conjugate is the inverse. -/
theorem Cyc.conjugate {a : Fp12 FpW} (ha : Cyc a) (h : a ≠ 0) : a.conjugate = a⁻¹ := by
  apply eq_inv_of_mul_eq_one_left
  rw [Fp12.conjugate_eq, ← pow_succ,
    show p ^ 6 + 1 = (p ^ 4 - p ^ 2 + 1) * (p ^ 2 + 1) by decide +kernel, pow_mul, (cyc_iff h).1 ha, one_pow]

theorem cyclotomicExpLoop_eq {f : Fp12 FpW} (hf : Cyc f) (x n : Nat) (fo : Bool) (k : Nat) (hk : fo = false → k = 0) :
    cyclotomicExpLoop f x n (f ^ k) fo = f ^ (k * 2 ^ n + x % 2 ^ n) := by
  induction n generalizing k fo with
  | zero => rw [cyclotomicExpLoop, pow_zero, mul_one, Nat.mod_one, add_zero]
  | succ n ih =>
    have hsq : (if fo then cyclotomicSquare (f ^ k) else f ^ k) = f ^ (2 * k) := by
      cases fo
      · rw [hk rfl]; simp
      · rw [if_pos rfl, cyclotomicSquare_eq (hf.pow k), ← pow_add, two_mul]
    have hm : x % 2 ^ (n + 1) = x % 2 ^ n + 2 ^ n * (x / 2 ^ n % 2) := by rw [pow_succ, Nat.mod_mul]
    rw [cyclotomicExpLoop, Fp.bit_lt, hsq, hm]
    by_cases hb : x / 2 ^ n % 2 = 1
    · have : (if decide (x / 2 ^ n % 2 = 1) = true then f ^ (2 * k) * f else f ^ (2 * k)) = f ^ (2 * k + 1) := by
        rw [if_pos (by simpa using hb), pow_succ]
      rw [this, ih _ _ (by intro h; revert h; cases fo <;> simp [hb]), hb]
      congr 1; ring
    · have hb0 : x / 2 ^ n % 2 = 0 := by omega
      have : (if decide (x / 2 ^ n % 2 = 1) = true then f ^ (2 * k) * f else f ^ (2 * k)) = f ^ (2 * k) := by
        rw [if_neg (by simpa using hb)]
      rw [this, ih _ _ (by intro h; cases fo <;> simp_all), hb0]
      congr 1; ring

theorem cyclotomicExp_eq {f : Fp12 FpW} (hf : Cyc f) (h : f ≠ 0) : cyclotomicExp f = f ^ (-(blsX : Int)) := by
  have := cyclotomicExpLoop_eq hf blsX 64 false 0 (fun _ => rfl)
  rw [pow_zero, zero_mul, zero_add, Nat.mod_eq_of_lt (by decide)] at this
  rw [cyclotomicExp, this, (hf.pow _).conjugate (pow_ne_zero _ h), zpow_neg, zpow_natCast]

/-! ## The final exponentiation -/

theorem frob_zpow {m : Fp12 FpW} (n : Int) : (m ^ n).frobeniusMap = m ^ (n * p) := by
  rw [Fp12.frobenius_eq, ← zpow_natCast, ← zpow_mul]

theorem conj_zpow {m : Fp12 FpW} (hm : Cyc m) (h : m ≠ 0) (n : Int) : (m ^ n).conjugate = m ^ (-n) := by
  rw [(hm.zpow n).conjugate (zpow_ne_zero _ h), zpow_neg]

theorem exp_zpow {m : Fp12 FpW} (hm : Cyc m) (h : m ≠ 0) (n : Int) :
    cyclotomicExp (m ^ n) = m ^ (n * -(blsX : Int)) := by
  rw [cyclotomicExp_eq (hm.zpow n) (zpow_ne_zero _ h), ← zpow_mul]

theorem sq_zpow {m : Fp12 FpW} (hm : Cyc m) (h : m ≠ 0) (n : Int) : cyclotomicSquare (m ^ n) = m ^ (n + n) := by
  rw [cyclotomicSquare_eq (hm.zpow n), ← zpow_add₀ h]

theorem finalExpBody_eq {f : Fp12 FpW} (h : f ≠ 0) : finalExpBody (f ^ p ^ 6) f⁻¹ = f ^ (3 * ((p ^ 12 - 1) / r)) := by
  have hm1 : f ^ p ^ 6 * f⁻¹ = f ^ (p ^ 6 - 1) := by
    rw [← div_eq_mul_inv, div_eq_iff h, ← pow_succ, Nat.sub_add_cancel (by decide +kernel)]
  have hm2 : (f ^ (p ^ 6 - 1)).frobeniusMap.frobeniusMap * f ^ (p ^ 6 - 1) = f ^ ((p ^ 6 - 1) * (p ^ 2 + 1)) := by
    rw [Fp12.frobenius_eq, Fp12.frobenius_eq, ← pow_mul, ← pow_mul, ← pow_add]
    exact congrArg (f ^ ·) (by decide +kernel)
  have hc : Cyc (f ^ ((p ^ 6 - 1) * (p ^ 2 + 1))) := by
    rw [cyc_iff (pow_ne_zero _ h), ← pow_mul,
      show (p ^ 6 - 1) * (p ^ 2 + 1) * (p ^ 4 - p ^ 2 + 1) = p ^ 12 - 1 by decide +kernel, Fp12.pow_card h]
  have hE : f ^ (3 * ((p ^ 12 - 1) / r)) = (f ^ ((p ^ 6 - 1) * (p ^ 2 + 1))) ^
      ((3 * ((p ^ 4 - p ^ 2 + 1) / r) : Nat) : Int) := by
    rw [zpow_natCast, ← pow_mul,
      show (p ^ 6 - 1) * (p ^ 2 + 1) * (3 * ((p ^ 4 - p ^ 2 + 1) / r)) = 3 * ((p ^ 12 - 1) / r) by decide +kernel]
  rw [hE, finalExpBody, hm1, hm2]
  have hn := pow_ne_zero ((p ^ 6 - 1) * (p ^ 2 + 1)) h
  generalize f ^ ((p ^ 6 - 1) * (p ^ 2 + 1)) = m at *
  have key : ∀ a b : Int, m ^ a * m ^ b = m ^ (a + b) := fun a b => (zpow_add₀ hn a b).symm
  generalize hM : m ^ ((3 * ((p ^ 4 - p ^ 2 + 1) / r) : Nat) : Int) = M
  have e1 : m = m ^ (1 : Int) := (zpow_one m).symm
  rw [show cyclotomicSquare m = m ^ (2 : Int) by rw [cyclotomicSquare_eq hc, zpow_ofNat, pow_two],
    show cyclotomicExp m = m ^ (-(blsX : Int)) from cyclotomicExp_eq hc hn,
    show m.conjugate = m ^ (-1 : Int) by rw [hc.conjugate hn, zpow_neg_one]]
  have key1 : ∀ a : Int, m ^ a * m = m ^ (a + 1) := fun a => (zpow_add_one₀ hn a).symm
  simp only [sq_zpow hc hn, exp_zpow hc hn, conj_zpow hc hn, frob_zpow, key, key1]
  rw [← hM]
  exact congrArg (m ^ ·) (by decide +kernel)

theorem six_frobenius (f : Fp12 FpW) :
    f.frobeniusMap.frobeniusMap.frobeniusMap.frobeniusMap.frobeniusMap.frobeniusMap = f ^ p ^ 6 := by
  rw [Fp12.frobenius_eq, Fp12.frobenius_eq, Fp12.frobenius_eq, Fp12.frobenius_eq, Fp12.frobenius_eq,
    Fp12.frobenius_eq, ← pow_mul, ← pow_mul, ← pow_mul, ← pow_mul, ← pow_mul,
    show p * (p * (p * (p * (p * p)))) = p ^ 6 by decide +kernel]

theorem finalExponentiation_some {f t : Fp12 FpW} (h : f.invert = some t) :
    finalExponentiation f = .ok (finalExpBody (f ^ p ^ 6) t) := by
  rw [← six_frobenius]
  exact congrArg (fun o => Option.elim o Res.panic fun t1 => Res.ok (finalExpBody
    f.frobeniusMap.frobeniusMap.frobeniusMap.frobeniusMap.frobeniusMap.frobeniusMap t1)) h

theorem finalExponentiation_eq {f : Fp12 FpW} (h : f ≠ 0) :
    finalExponentiation f = .ok (f ^ (3 * ((p ^ 12 - 1) / r))) := by
  rw [finalExponentiation_some (t := f⁻¹) (by rw [Fp12.invert_eq, if_neg h]), finalExpBody_eq h]

theorem finalExponentiation_none {f : Fp12 FpW} (h : f.invert = none) : finalExponentiation f = .panic :=
  congrArg (fun o => Option.elim o Res.panic fun t1 => Res.ok (finalExpBody
    f.frobeniusMap.frobeniusMap.frobeniusMap.frobeniusMap.frobeniusMap.frobeniusMap t1)) h

theorem finalExponentiation_zero {f : Fp12 FpW} (h : f = 0) : finalExponentiation f = .panic :=
  finalExponentiation_none (by rw [Fp12.invert_eq, if_pos h])

/-! ## The target group -/

theorem finalPow_r {f : Fp12 FpW} (h : f ≠ 0) : (f ^ (3 * ((p ^ 12 - 1) / r))) ^ r = 1 := by
  rw [← pow_mul, show 3 * ((p ^ 12 - 1) / r) * r = (p ^ 12 - 1) * 3 by decide +kernel, pow_mul, Fp12.pow_card h,
    one_pow]

theorem cyc_of_order {a : Fp12 FpW} (h : a ^ r = 1) : a ≠ 0 ∧ Cyc a := by
  have h0 : a ≠ 0 := by
    intro e
    rw [e, zero_pow (by decide +kernel)] at h
    exact zero_ne_one h
  refine ⟨h0, (cyc_iff h0).2 ?_⟩
  rw [show p ^ 4 - p ^ 2 + 1 = r * ((p ^ 4 - p ^ 2 + 1) / r) by decide +kernel, pow_mul, h, one_pow]

theorem neg_eq {a : Fp12 FpW} (h : a ^ r = 1) : neg a = a⁻¹ := by
  obtain ⟨h0, hc⟩ := cyc_of_order h
  exact hc.conjugate h0

theorem mul_eq (a : Fp12 FpW) {s : Scalar} {x : Fr} (hs : Scalar.Rep s x) : mul a s = a ^ x.val := by
  obtain ⟨hl, hb, hv⟩ := Scalar.toBytes_spec hs
  have hx : x.val < 2 ^ 255 := lt_trans (ZMod.val_lt x) (by decide +kernel)
  have hd := bitsVal_drop _ hb
  rw [hl, hv, show 8 * 32 - 1 = 255 from rfl, Nat.mod_eq_of_lt hx] at hd
  rw [← hd]
  refine double_and_add (fun acc n => acc = a ^ n) _ ?_ _ (pow_zero a).symm
  intro acc n b e
  show Fp12.select (double acc) (add (double acc) a) b = _
  rw [Fp12.select_eq, double, Fp12.square_eq, e, add, ← pow_add, ← two_mul]
  cases b
  · rfl
  · rw [if_pos rfl, ← pow_succ]; rfl

theorem sum_eq (l : List (Fp12 FpW)) : sum l = l.prod := by
  rw [sum, List.prod_eq_foldl]; rfl

end Kzg.Zk.Gt
