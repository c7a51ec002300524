import Verif.Proofs.Zk.Tower
import Mathlib.Algebra.CharP.Lemmas
import Mathlib.Algebra.CharP.Algebra
/-!
# The extension fields over the words: Frobenius maps and square roots
-/

set_option exponentiation.threshold 1000
set_option linter.unusedSectionVars false

namespace Kzg.Zk
open G1

local notation "p" => fpModulus

/-! ## The base field -/

theorem FpW.pow_p (x : FpW) : x ^ p = x := by
  by_cases h : x = 0
  · rw [h, zero_pow (by decide +kernel)]
  · rw [show p = p - 1 + 1 by decide +kernel, pow_succ, pow_card h, one_mul]

instance : CharP FpW p := charP_of_injective_ringHom (f := FpW.elEquiv.symm.toRingHom) FpW.elEquiv.symm.injective p

theorem FpW.not_power {a k : Nat} (ha : a % p ≠ 0) (hk : p - 1 = k * ((p - 1) / k))
    (h : powMod p 384 a ((p - 1) / k) 1 ≠ 1) (hlt : powMod p 384 a ((p - 1) / k) 1 < p) (x : FpW) : x ^ k ≠ (a : Nat) := by
  intro e
  have hx : x ≠ 0 := by
    rintro rfl
    have hk0 : k ≠ 0 := by
      rintro rfl
      rw [zero_mul] at hk
      exact absurd hk (by decide +kernel)
    rw [zero_pow hk0] at e
    exact natCast_ne (m := 0) (n := a) (by rw [Nat.zero_mod]; exact ha.symm) (by rw [← e, Nat.cast_zero])
  have h1 := pow_card hx
  rw [hk, pow_mul, e, pow_eq (fuel := 384) (lt_of_le_of_lt (Nat.div_le_self _ _) (by decide +kernel)) rfl] at h1
  have := natCast_inj_lt (n := 1) (h1.trans Nat.cast_one.symm)
  rw [Nat.mod_eq_of_lt hlt, Nat.mod_eq_of_lt (by decide +kernel)] at this
  exact h this

instance : LawfulTower FpW where
  neg_one x := by
    have := FpW.not_power (a := p - 1) (k := 2) (by decide +kernel) (by decide +kernel) (by decide +kernel)
      (by decide +kernel) x
    rwa [Nat.cast_sub (by decide +kernel), FpW.modulus_cast, Nat.cast_one, zero_sub] at this
  two_sq x := by
    have := FpW.not_power (a := 2) (k := 2) (by decide +kernel) (by decide +kernel) (by decide +kernel)
      (by decide +kernel) x
    exact_mod_cast this
  two_cube x := by
    have := FpW.not_power (a := 2) (k := 3) (by decide +kernel) (by decide +kernel) (by decide +kernel)
      (by decide +kernel) x
    exact_mod_cast this

/-- The partial inverse of the model is the one on the words. -/
theorem FpW.invertK_eq (a : FpW) : (invertK a).map (·.1) = Fp.invert a.1 := by
  rw [invertK]
  split
  · next h =>
    rw [h]
    exact (Fp.invert_zero Fp.zero_rep).symm
  · next h =>
    obtain ⟨t, ht, hr⟩ := Fp.invert_rep (FpW.el_rep a) (fun h0 => h (FpW.el_inj (h0.trans FpW.el_zero.symm)))
    have e : (a⁻¹).1 = (Fp.invert a.1).getD Fp.zero := rfl
    rw [ht, Option.map_some, e, ht]; rfl

/-! ## Integer pairs -/

/-- Integers standing for an element of Fp2. -/
structure N2 where
  a : Nat
  b : Nat
deriving DecidableEq

/-- The element. -/
def N2.cast (x : N2) : Fp2 FpW := ⟨(x.a : FpW), (x.b : FpW)⟩

/-- The product of integer pairs. -/
def N2.mul (x y : N2) : N2 := ⟨nsub (x.a * y.a) (x.b * y.b) % p, (x.a * y.b + x.b * y.a) % p⟩

theorem N2.mul_cast (x y : N2) : (x.mul y).cast = x.cast * y.cast := by
  ext
  · simp only [N2.mul, N2.cast, Fp2.mul_c0, natCast_mod, nsub_cast]; push_cast; rfl
  · simp only [N2.mul, N2.cast, Fp2.mul_c1, natCast_mod]; push_cast; rfl

/-- Power by repeated squaring, `acc * x ^ n`. -/
def N2.pow : (fuel : Nat) → (x : N2) → (n : Nat) → (acc : N2) → N2
  | 0, _, _, acc => acc
  | fuel + 1, x, n, acc => N2.pow fuel (x.mul x) (n / 2) (if n % 2 = 1 then acc.mul x else acc)

theorem N2.pow_cast (fuel : Nat) (x : N2) (n : Nat) (acc : N2) (h : n < 2 ^ fuel) :
    (N2.pow fuel x n acc).cast = acc.cast * x.cast ^ n := by
  induction fuel generalizing x n acc with
  | zero =>
    obtain rfl : n = 0 := by simpa using h
    rw [N2.pow, pow_zero, mul_one]
  | succ f ih =>
    rw [N2.pow, ih _ _ _ (by rw [pow_succ] at h; omega), N2.mul_cast]
    have e : x.cast ^ n = (x.cast * x.cast) ^ (n / 2) * x.cast ^ (n % 2) := by
      rw [← pow_two, ← pow_mul, ← pow_add, Nat.div_add_mod]
    rw [e]
    split
    · next h1 => rw [h1, N2.mul_cast]; ring
    · next h1 => rw [show n % 2 = 0 by omega]; ring

/-- The sum of integer pairs. -/
def N2.add (x y : N2) : N2 := ⟨x.a + y.a, x.b + y.b⟩

theorem N2.add_cast (x y : N2) : (x.add y).cast = x.cast + y.cast := by
  ext <;> simp [N2.add, N2.cast]

theorem N2.one_cast : (N2.cast ⟨1, 0⟩) = 1 := by ext <;> simp [N2.cast]

theorem N2.cast_eq_of_mod {x y : N2} (h0 : x.a % p = y.a % p) (h1 : x.b % p = y.b % p) : x.cast = y.cast := by
  rw [N2.cast, N2.cast, natCast_eq_of_mod h0, natCast_eq_of_mod h1]

theorem N2.cast_inj {x y : N2} (h : x.cast = y.cast) : x.a % p = y.a % p ∧ x.b % p = y.b % p :=
  ⟨natCast_inj_lt (congrArg Fp2.c0 h), natCast_inj_lt (congrArg Fp2.c1 h)⟩

/-- Words of two constants that hold the Montgomery forms of a pair of integers. -/
theorem N2.eq_cast {s t : Fp} (hs : Fp.Red s) (ht : Fp.Red t) {x : N2} (e0 : Fp.val s % p = x.a * 2 ^ 384 % p)
    (e1 : Fp.val t % p = x.b * 2 ^ 384 % p) : (⟨⟨s, hs⟩, ⟨t, ht⟩⟩ : Fp2 FpW) = x.cast := by
  rw [N2.cast, FpW.eq_natCast hs e0, FpW.eq_natCast ht e1]

theorem xi_cast : (Fp2.xi : Fp2 FpW) = N2.cast ⟨1, 1⟩ := by ext <;> simp [N2.cast]

theorem xi_pow {n : Nat} {r : N2} (hn : n < 2 ^ 384) (h : N2.pow 384 ⟨1, 1⟩ n ⟨1, 0⟩ = r) :
    (Fp2.xi : Fp2 FpW) ^ n = r.cast := by
  rw [xi_cast, ← h, N2.pow_cast _ _ _ _ hn, N2.one_cast, one_mul]

/-! ## Fp2 -/

namespace Fp2

theorem ofHom_inj : Function.Injective (ofHom : FpW →+* Fp2 FpW) := (ofHom : FpW →+* Fp2 FpW).injective

instance : CharP (Fp2 FpW) p := charP_of_injective_ringHom ofHom_inj p

theorem u_pow_p : (u : Fp2 FpW) ^ p = -u := by
  rw [show p = 2 * ((p - 1) / 2) + 1 by decide +kernel, pow_succ, pow_mul, pow_two, u_sq,
    Odd.neg_one_pow (by decide +kernel), neg_one_mul]

/-- The conjugate is the power of the prime. -/
theorem frobenius_eq (a : Fp2 FpW) : a.frobeniusMap = a ^ p := by
  have : Fact (Nat.Prime p) := inferInstance
  conv_rhs => rw [eq_add a, add_pow_char, mul_pow, ← map_pow, ← map_pow, FpW.pow_p, FpW.pow_p, u_pow_p]
  ext <;> simp [frobeniusMap, conjugate]

theorem norm_eq_pow (a : Fp2 FpW) : ofHom (norm a) = a ^ (p + 1) := by
  rw [← mul_conjugate, pow_succ, ← frobenius_eq, mul_comm]; rfl

theorem pow_card {a : Fp2 FpW} (h : a ≠ 0) : a ^ (p ^ 2 - 1) = 1 := by
  rw [show p ^ 2 - 1 = (p + 1) * (p - 1) by decide +kernel, pow_mul, ← norm_eq_pow, ← map_pow,
    G1.pow_card (norm_ne h), map_one]

/-! ### Powers -/

theorem powVarWord_spec (a : Fp2 FpW) (e : Nat) (i : Nat) (res : Fp2 FpW) :
    powVarWord a e i res = res ^ 2 ^ i * a ^ (e % 2 ^ i) := by
  induction i generalizing res with
  | zero => simp [powVarWord, Nat.mod_one]
  | succ i ih =>
    rw [powVarWord, ih, square_eq, Fp.bit_lt]
    have hm : e % 2 ^ (i + 1) = e % 2 ^ i + 2 ^ i * (e / 2 ^ i % 2) := by
      rw [pow_succ, Nat.mod_mul]
    rw [hm, pow_add a, pow_mul a (2 ^ i)]
    split
    · next h => rw [h, pow_one, mul_pow, ← pow_two, ← pow_mul, pow_succ']; ring
    · next h =>
      rw [show e / 2 ^ i % 2 = 0 by omega, pow_zero, ← pow_two, ← pow_mul, pow_succ']; ring

theorem powVartime_eq (a : Fp2 FpW) {b0 b1 b2 b3 b4 b5 : Nat} (h0 : b0 < W) (h1 : b1 < W) (h2 : b2 < W)
    (h3 : b3 < W) (h4 : b4 < W) (h5 : b5 < W) :
    powVartime a b0 b1 b2 b3 b4 b5 =
      a ^ (b0 + W * b1 + W ^ 2 * b2 + W ^ 3 * b3 + W ^ 4 * b4 + W ^ 5 * b5) := by
  have hW : W = 2 ^ 64 := by decide
  rw [powVartime]
  simp only [powVarWord_spec]
  rw [← hW]
  generalize W = w at *
  rw [Nat.mod_eq_of_lt h0, Nat.mod_eq_of_lt h1, Nat.mod_eq_of_lt h2, Nat.mod_eq_of_lt h3,
    Nat.mod_eq_of_lt h4, Nat.mod_eq_of_lt h5, one_pow, one_mul]
  simp only [← pow_mul, ← pow_add]
  congr 1
  ring

/-! ### Square roots -/

theorem sqrtCandidate_sq {b : Fp2 FpW} (hb : b ≠ 0) : square (sqrtCandidate (b * b)) = b * b := by
  have hp := FpW.pow_p
  have e1 : ∀ a : Fp2 FpW, powVartime a 0xee7fbfffffffeaaa 0x07aaffffac54ffff 0xd9cc34a83dac3d89 0xd91dd2e13ce144af
      0x92c6e9ed90d2eb35 0x0680447a8e5ff9a6 = a ^ ((p - 3) / 4) := fun a => by
    rw [powVartime_eq a (by decide) (by decide) (by decide) (by decide) (by decide) (by decide)]
    congr 1
  have e2 : ∀ a : Fp2 FpW, powVartime a 0xdcff7fffffffd555 0x0f55ffff58a9ffff 0xb39869507b587b12 0xb23ba5c279c2895f
      0x258dd3db21a5d66b 0x0d0088f51cbff34d = a ^ ((p - 1) / 2) := fun a => by
    rw [powVartime_eq a (by decide) (by decide) (by decide) (by decide) (by decide) (by decide)]
    congr 1
  have hal : square ((b * b) ^ ((p - 3) / 4)) * (b * b) = b ^ (p - 1) := by
    rw [square_eq, ← pow_two, ← pow_two, ← pow_mul, ← pow_mul, ← pow_add]
    congr 1
  have hx0 : ((b * b) ^ ((p - 3) / 4) * (b * b)) ^ 2 = b ^ (p - 1) * (b * b) := by
    rw [← hal, square_eq]; ring
  rw [sqrtCandidate, e1, e2, hal]
  generalize hxe : (b * b) ^ ((p - 3) / 4) * (b * b) = x0 at hx0
  have hcard : (b ^ (p - 1)) ^ p * b ^ (p - 1) = 1 := by
    rw [← pow_mul, ← pow_add, ← pow_card hb]
    congr 1
  generalize b ^ (p - 1) = al at hcard hx0
  split
  · next h =>
    rw [ctEq_iff] at h
    have : (⟨-x0.c1, x0.c0⟩ : Fp2 FpW) = u * x0 := by ext <;> simp
    rw [this, square_eq, show u * x0 * (u * x0) = u * u * x0 ^ 2 by ring, u_sq, hx0, h]
    ring
  · next h =>
    rw [ctEq_iff] at h
    have h1 : al + 1 ≠ 0 := fun h0 => h (eq_neg_of_add_eq_zero_left h0)
    rw [square_eq, show (al + 1) ^ ((p - 1) / 2) * x0 * ((al + 1) ^ ((p - 1) / 2) * x0) =
      ((al + 1) ^ ((p - 1) / 2)) ^ 2 * x0 ^ 2 by ring, hx0, ← pow_mul]
    apply mul_left_cancel₀ h1
    have h2 : (al + 1) * (al + 1) ^ ((p - 1) / 2 * 2) = (al + 1) ^ p := by
      rw [← pow_succ']
      congr 1
    rw [← mul_assoc, h2, add_pow_char, one_pow]
    linear_combination (b * b) * hcard

theorem sqrt_some {a b : Fp2 FpW} (h : sqrt a = some b) : b * b = a := by
  rw [sqrt] at h
  split at h
  · next h0 =>
    rw [isZero_iff] at h0
    rw [← Option.some.inj h, h0, zero_mul]
  · split at h
    · next h1 =>
      rw [ctEq_iff, square_eq] at h1
      rw [← Option.some.inj h, h1]
    · cases h

theorem sqrt_isSome (b : Fp2 FpW) : (sqrt (b * b)).isSome := by
  rw [sqrt]
  split
  · rfl
  · next h =>
    rw [isZero_iff] at h
    rw [if_pos]
    · rfl
    · rw [ctEq_iff]
      exact sqrtCandidate_sq (fun h0 => h (by rw [h0, zero_mul]))

/-! ### The order of the roots -/

theorem lexLargest_iff (a : Fp2 FpW) : lexLargest a = true ↔
    (p - 1) / 2 < a.c1.el.val ∨ (a.c1 = 0 ∧ (p - 1) / 2 < a.c0.el.val) := by
  rw [lexLargest, Bool.or_eq_true, Bool.and_eq_true, Fp.lexLargest_spec (FpW.el_rep _),
    Fp.lexLargest_spec (FpW.el_rep _), Fp.isZero_rep (FpW.el_rep _), decide_eq_true_iff, decide_eq_true_iff,
    decide_eq_true_iff]
  have : a.c1.el = 0 ↔ a.c1 = 0 := ⟨fun h => FpW.el_inj (h.trans FpW.el_zero.symm), fun h => by rw [h, FpW.el_zero]⟩
  rw [this]

end Fp2

/-! ## Fp6 -/

namespace Fp6

theorem ofHom_inj : Function.Injective (ofHom : Fp2 FpW →+* Fp6 FpW) := (ofHom : Fp2 FpW →+* Fp6 FpW).injective

instance : CharP (Fp6 FpW) p := charP_of_injective_ringHom ofHom_inj p

theorem xi_pow_third : (Fp2.xi : Fp2 FpW) ^ ((p - 1) / 3) = ⟨0, frobC1⟩ := by
  rw [xi_pow (r := ⟨0, 4002409555221667392624310435006688643935503118305586438271171395842971157480381377015405980053539358417135540939436⟩)
    (by decide +kernel) (by decide +kernel)]
  rw [N2.cast, frobC1, FpW.raw]
  rw [FpW.eq_natCast (n := 4002409555221667392624310435006688643935503118305586438271171395842971157480381377015405980053539358417135540939436) _ (by decide +kernel), Nat.cast_zero]

theorem xi_pow_two_thirds : (Fp2.xi : Fp2 FpW) ^ (2 * ((p - 1) / 3)) = ⟨frobC2, 0⟩ := by
  rw [xi_pow (r := ⟨4002409555221667392624310435006688643935503118305586438271171395842971157480381377015405980053539358417135540939437, 0⟩)
    (by decide +kernel) (by decide +kernel)]
  rw [N2.cast, frobC2, FpW.raw]
  rw [FpW.eq_natCast (n := 4002409555221667392624310435006688643935503118305586438271171395842971157480381377015405980053539358417135540939437) _ (by decide +kernel), Nat.cast_zero]

theorem v_pow_p : (v : Fp6 FpW) ^ p = ofHom ⟨0, frobC1⟩ * v := by
  rw [← xi_pow_third, map_pow, ← v_cube, show v * v * v = (v : Fp6 FpW) ^ 3 by ring, ← pow_mul, ← pow_succ]
  congr 1

theorem v_sq_pow_p : (v * v : Fp6 FpW) ^ p = ofHom ⟨frobC2, 0⟩ * (v * v) := by
  rw [← xi_pow_two_thirds, map_pow, ← v_cube, show v * v * v = (v : Fp6 FpW) ^ 3 by ring, ← pow_mul, ← pow_two,
    ← pow_mul, ← pow_add]
  congr 1

theorem frobenius_eq (a : Fp6 FpW) : a.frobeniusMap = a ^ p := by
  conv_rhs => rw [eq_add a, add_pow_char, add_pow_char, mul_pow, mul_pow, ← map_pow, ← map_pow, ← map_pow, v_pow_p,
    v_sq_pow_p, ← Fp2.frobenius_eq, ← Fp2.frobenius_eq, ← Fp2.frobenius_eq]
  ext1 <;> simp [frobeniusMap]

end Fp6

/-! ## Fp12 -/

namespace Fp12

theorem ofHom_inj : Function.Injective (ofHom : Fp6 FpW →+* Fp12 FpW) := (ofHom : Fp6 FpW →+* Fp12 FpW).injective

instance : CharP (Fp12 FpW) p := charP_of_injective_ringHom ofHom_inj p

theorem xi_pow_sixth : (Fp2.xi : Fp2 FpW) ^ ((p - 1) / 6) = frobC := by
  rw [xi_pow (r := ⟨3850754370037169011952147076051364057158807420970682438676050522613628423219637725072182697113062777891589506424760,
      151655185184498381465642749684540099398075398968325446656007613510403227271200139370504932015952886146304766135027⟩)
    (by decide +kernel) (by decide +kernel)]
  rw [N2.cast, frobC, FpW.raw, FpW.raw]
  rw [FpW.eq_natCast (n := 3850754370037169011952147076051364057158807420970682438676050522613628423219637725072182697113062777891589506424760) _ (by decide +kernel),
    FpW.eq_natCast (n := 151655185184498381465642749684540099398075398968325446656007613510403227271200139370504932015952886146304766135027) _ (by decide +kernel)]

theorem w_pow_six : (w : Fp12 FpW) ^ 6 = ofHom (Fp6.ofHom Fp2.xi) := by
  rw [← Fp6.v_cube, map_mul, map_mul, ← w_sq]; ring

theorem w_pow_p : (w : Fp12 FpW) ^ p = ofHom (Fp6.ofHom frobC) * w := by
  rw [← xi_pow_sixth, map_pow, map_pow, ← w_pow_six, ← pow_mul, ← pow_succ]
  congr 1

theorem frobenius_eq (a : Fp12 FpW) : a.frobeniusMap = a ^ p := by
  conv_rhs => rw [eq_add a, add_pow_char, mul_pow, ← map_pow, ← map_pow, w_pow_p, ← Fp6.frobenius_eq,
    ← Fp6.frobenius_eq]
  ext1
  · simp [frobeniusMap]
  · simp [frobeniusMap, Fp6.ofHom_apply]

end Fp12

/-! ## The powers by the orders -/

theorem Fp2.pow_p2 (a : Fp2 FpW) : a ^ p ^ 2 = a := by
  rw [pow_two, pow_mul, ← frobenius_eq, ← frobenius_eq]
  ext <;> simp [frobeniusMap, conjugate]

theorem Fp2.pow_p2_iter (a : Fp2 FpW) (k : Nat) : a ^ (p ^ 2) ^ k = a := by
  induction k with
  | zero => rw [pow_zero, pow_one]
  | succ k ih => rw [pow_succ, pow_mul, ih, pow_p2]

theorem Fp2.xi_pow_half : (xi : Fp2 FpW) ^ ((p ^ 2 - 1) / 2) = -1 := by
  rw [xi_cast]
  have h := N2.pow_cast 768 ⟨1, 1⟩ ((p ^ 2 - 1) / 2) ⟨1, 0⟩ (by decide +kernel)
  rw [N2.one_cast, one_mul] at h
  rw [← h, show N2.pow 768 ⟨1, 1⟩ ((p ^ 2 - 1) / 2) ⟨1, 0⟩ = ⟨p - 1, 0⟩ by decide +kernel, N2.cast,
    Nat.cast_sub (by decide +kernel), FpW.modulus_cast]
  ext <;> simp

theorem Fp6.v_pow_p6 : (v : Fp6 FpW) ^ p ^ 6 = v := by
  have h : (ofHom Fp2.xi : Fp6 FpW) ^ ((p ^ 2 - 1) * ((p ^ 4 + p ^ 2 + 1) / 3)) = 1 := by
    rw [pow_mul, ← map_pow, Fp2.pow_card Fp2.xi_ne, map_one, one_pow]
  rw [← v_cube, show v * v * v = (v : Fp6 FpW) ^ 3 by ring, ← pow_mul] at h
  rw [show p ^ 6 = 3 * ((p ^ 2 - 1) * ((p ^ 4 + p ^ 2 + 1) / 3)) + 1 by decide +kernel, pow_succ, h, one_mul]

theorem Fp6.pow_p6 (a : Fp6 FpW) : a ^ p ^ 6 = a := by
  have e : ∀ x : Fp2 FpW, x ^ p ^ 6 = x := fun x => by
    rw [show p ^ 6 = (p ^ 2) ^ 3 by rw [← pow_mul], Fp2.pow_p2_iter]
  conv_lhs => rw [eq_add a, add_pow_char_pow, add_pow_char_pow, mul_pow, mul_pow, mul_pow, ← map_pow, ← map_pow,
    ← map_pow, v_pow_p6, e, e, e]
  exact (eq_add a).symm

theorem Fp12.w_pow_p6 : (w : Fp12 FpW) ^ p ^ 6 = -w := by
  have h : (ofHom (Fp6.ofHom Fp2.xi) : Fp12 FpW) ^ ((p ^ 2 - 1) / 2 * ((p ^ 4 + p ^ 2 + 1) / 3)) = -1 := by
    rw [pow_mul, ← map_pow ofHom, ← map_pow Fp6.ofHom, Fp2.xi_pow_half, map_neg, map_neg, map_one, map_one,
      Odd.neg_one_pow (by decide +kernel)]
  rw [← w_pow_six, ← pow_mul] at h
  rw [show p ^ 6 = 6 * ((p ^ 2 - 1) / 2 * ((p ^ 4 + p ^ 2 + 1) / 3)) + 1 by decide +kernel, pow_succ, h, neg_one_mul]

/-- The conjugate is six Frobenius maps. -/
theorem Fp12.conjugate_eq (a : Fp12 FpW) : a.conjugate = a ^ p ^ 6 := by
  conv_rhs => rw [eq_add a, add_pow_char_pow, mul_pow, ← map_pow, ← map_pow, w_pow_p6, Fp6.pow_p6, Fp6.pow_p6]
  ext1 <;> simp [conjugate]

theorem Fp12.pow_p12 (a : Fp12 FpW) : a ^ p ^ 12 = a := by
  rw [show p ^ 12 = p ^ 6 * p ^ 6 by rw [← pow_add], pow_mul, ← conjugate_eq, ← conjugate_eq]
  ext1 <;> simp [conjugate]

theorem Fp12.pow_card {a : Fp12 FpW} (h : a ≠ 0) : a ^ (p ^ 12 - 1) = 1 := by
  apply mul_right_cancel₀ h
  rw [← pow_succ, Nat.sub_add_cancel (by decide +kernel), pow_p12, one_mul]

end Kzg.Zk
