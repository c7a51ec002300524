import Verif.Model.Zk.G1
import Verif.Proofs.Zk.GlvMul
/-!
# The constants of the first group
-/

set_option exponentiation.threshold 1000

namespace Kzg.Zk.G1
open CurveConsts

theorem b_eq : (b : FpW) = 4 := by
  have := FpW.eq_natCast (n := 4) (s := ⟨0xaa270000000cfff3, 0x53cc0032fc34000a, 0x478fe97a6b0a807f, 0xb1d37ebee6ba24d7,
    0x8ec9733bbf78ab2f, 0x09d645513d83de7e⟩) (by decide +kernel) (by decide +kernel)
  exact_mod_cast this

theorem natCast_mod (n : Nat) : ((n % fpModulus : Nat) : FpW) = n := by
  conv_rhs => rw [← Nat.mod_add_div n fpModulus, Nat.cast_add, Nat.cast_mul, FpW.modulus_cast, zero_mul, add_zero]

theorem natCast_inj_lt {m n : Nat} (h : (m : FpW) = n) : m % fpModulus = n % fpModulus := by
  have := congrArg FpW.el h
  rw [FpW.el_natCast, FpW.el_natCast] at this
  exact (ZMod.natCast_eq_natCast_iff' m n fpModulus).1 this

theorem natCast_ne {m n : Nat} (h : m % fpModulus ≠ n % fpModulus) : (m : FpW) ≠ n := fun e => h (natCast_inj_lt e)

theorem pow_eq {fuel a n c : Nat} (hn : n < 2 ^ fuel) (h : powMod fpModulus fuel a n 1 = c) :
    ((a : Nat) : FpW) ^ n = (c : Nat) := by
  apply FpW.el_inj
  rw [FpW.el_pow, FpW.el_natCast, FpW.el_natCast]
  exact zmod_pow_eq hn h

theorem pow_card {x : FpW} (h : x ≠ 0) : x ^ (fpModulus - 1) = 1 := by
  apply FpW.el_inj
  rw [FpW.el_pow, FpW.el_one]
  apply ZMod.pow_card_sub_one_eq_one
  intro e
  exact h (FpW.el_inj (e.trans FpW.el_zero.symm))

theorem no_root (x : FpW) : x ^ 3 + 4 ≠ 0 := by
  intro h
  have e : x ^ 3 = ((fpModulus - 4 : Nat) : FpW) := by
    rw [Nat.cast_sub (by decide +kernel), FpW.modulus_cast]
    push_cast
    linear_combination h
  have hx : x ≠ 0 := by
    rintro rfl
    rw [zero_pow (by norm_num)] at e
    have : ((0 : Nat) : FpW) = ((fpModulus - 4 : Nat) : FpW) := by rw [← e]; simp
    exact natCast_ne (by decide +kernel) this
  have h1 := pow_card hx
  rw [show fpModulus - 1 = 3 * ((fpModulus - 1) / 3) by decide +kernel, pow_mul, e,
    pow_eq (fuel := 384) (by decide +kernel) rfl] at h1
  have : ((powMod fpModulus 384 (fpModulus - 4) ((fpModulus - 1) / 3) 1 : Nat) : FpW) = ((1 : Nat) : FpW) := by
    rw [h1]; simp
  revert this
  exact natCast_ne (by decide +kernel)

instance : LawfulCurve FpW where
  mul3b_eq a := by
    rw [b_eq]
    show (a + a + (a + a)) + (a + a + (a + a)) + (a + a + (a + a)) = _
    ring
  two_ne := by
    have := natCast_ne (m := 2) (n := 0) (by decide +kernel)
    exact_mod_cast this
  three_ne := by
    have := natCast_ne (m := 3) (n := 0) (by decide +kernel)
    exact_mod_cast this
  no_root x := by rw [b_eq]; exact no_root x

/-- The integer of `BETA`. -/
def betaNat : Nat :=
  0x1a0111ea397fe699ec02408663d4de85aa0d857d89759ad4897d29650fb85f9b409427eb4f49fffd8bfd00000000aaac

/-- The integers of the generator. -/
def gxNat : Nat :=
  0x17f1d3a73197d7942695638c4fa9ac0fc3688c4f9774b905a14e3a3f171bac586c55e83ff97a1aeffb3af00adb22c6bb

@[inherit_doc gxNat] def gyNat : Nat :=
  0x8b3f481e3aaa0f1a09e30ed741d8ae4fcf5e095d5d00af600db18cb2c04b3edd03cc744a2888ae40caa232946c5e7e1

theorem beta_eq : beta = (betaNat : FpW) := FpW.eq_natCast (by decide +kernel) (by decide +kernel)
theorem gx_eq : generatorX = (gxNat : FpW) := FpW.eq_natCast (by decide +kernel) (by decide +kernel)
theorem gy_eq : generatorY = (gyNat : FpW) := FpW.eq_natCast (by decide +kernel) (by decide +kernel)

theorem natCast_eq_of_mod {m n : Nat} (h : m % fpModulus = n % fpModulus) : (m : FpW) = n := by
  rw [← natCast_mod m, h, natCast_mod]

theorem beta_omega : Omega beta where
  eq := by
    rw [beta_eq]
    have := natCast_eq_of_mod (m := betaNat ^ 2 + betaNat + 1) (n := 0) (by decide +kernel)
    exact_mod_cast this

/-! ## Computing with points on integers -/

/-- Integer coordinates. -/
structure NPt where
  x : Nat
  y : Nat
  z : Nat

/-- The point as the words hold it. -/
def NPt.cast (p : NPt) : Proj := ⟨p.x, p.y, p.z⟩

/-- Subtraction modulo the prime. -/
def nsub (a b : Nat) : Nat := a + (fpModulus - b % fpModulus)

theorem nsub_cast (a b : Nat) : (nsub a b : FpW) = a - b := by
  have h := Nat.mod_lt b (show 0 < fpModulus by decide +kernel)
  rw [nsub, Nat.cast_add, Nat.cast_sub (by omega), FpW.modulus_cast, natCast_mod]
  ring

/-- Addition of integer coordinates. -/
def nadd (p q : NPt) : NPt :=
  ⟨nsub ((p.x * q.y + q.x * p.y) * nsub (p.y * q.y) (12 * p.z * q.z))
      (12 * (p.y * q.z + q.y * p.z) * (p.x * q.z + q.x * p.z)) % fpModulus,
    ((p.y * q.y + 12 * p.z * q.z) * nsub (p.y * q.y) (12 * p.z * q.z) +
      36 * p.x * q.x * (p.x * q.z + q.x * p.z)) % fpModulus,
    ((p.y * q.z + q.y * p.z) * (p.y * q.y + 12 * p.z * q.z) + 3 * p.x * q.x * (p.x * q.y + q.x * p.y)) % fpModulus⟩

theorem nadd_cast (p q : NPt) : (nadd p q).cast = p.cast.add q.cast := by
  simp only [NPt.cast, nadd, Projective.add, LawfulCurve.mul3b_eq, b_eq, natCast_mod, nsub_cast]
  rw [Projective.mk.injEq]
  push_cast [nsub_cast]
  refine ⟨by ring, by ring, by ring⟩

/-- `acc + k·p` by double and add. -/
def nmul : (fuel k : Nat) → (p acc : NPt) → NPt
  | 0, _, _, acc => acc
  | f + 1, k, p, acc => nmul f (k / 2) (nadd p p) (if k % 2 = 1 then nadd acc p else acc)

local notation "E" => curve (b : FpW)

theorem nmul_is (f k : Nat) (hk : k < 2 ^ f) {p acc : NPt} {P A : (E).Point} (hp : Projective.Is b p.cast P)
    (ha : Projective.Is b acc.cast A) : Projective.Is b (nmul f k p acc).cast (A + k • P) := by
  induction f generalizing k p acc P A with
  | zero =>
    obtain rfl : k = 0 := by simpa using hk
    simpa [nmul] using ha
  | succ f ih =>
    have hd : Projective.Is b (nadd p p).cast (P + P) := by rw [nadd_cast]; exact add_is hp hp
    have hkd : k / 2 < 2 ^ f := by rw [pow_succ] at hk; omega
    rw [nmul]
    split
    · next h1 =>
      have := ih (k / 2) hkd hd (acc := nadd acc p) (A := A + P) (by rw [nadd_cast]; exact add_is ha hp)
      convert this using 1
      conv_lhs => rw [show k = 2 * (k / 2) + 1 by omega]
      module
    · next h1 =>
      have := ih (k / 2) hkd hd ha
      convert this using 1
      conv_lhs => rw [show k = 2 * (k / 2) by omega]
      module

/-- The integer coordinates of the generator. -/
def ng : NPt := ⟨gxNat, gyNat, 1⟩

theorem generator_nonsingular : (E).Nonsingular generatorX generatorY := by
  rw [nonsingular_iff, gx_eq, gy_eq, b_eq]
  have := natCast_eq_of_mod (m := gyNat ^ 2) (n := gxNat ^ 3 + 4) (by decide +kernel)
  exact_mod_cast this

/-- The generator as a point of the curve. -/
def gen : (E).Point := .some generatorX generatorY generator_nonsingular

theorem generator_is : Affine.Is b generator gen := .finite _

theorem generatorProj_is : Projective.Is b generatorProj gen := ofAffine_is generator_is

theorem ng_is : Projective.Is b ng.cast gen := by
  have : ng.cast = generatorProj := by
    simp only [ng, NPt.cast, generatorProj, gx_eq, gy_eq, Nat.cast_one]
  rw [this]
  exact generatorProj_is

theorem nzero_is : Projective.Is b (NPt.cast ⟨0, 1, 0⟩) (0 : (E).Point) := by
  simp only [NPt.cast, Nat.cast_zero, Nat.cast_one]
  exact identity_is

/-- Equality of points by cross multiplication of integers. -/
def neq (p q : NPt) : Bool :=
  p.z % fpModulus != 0 && q.z % fpModulus != 0 && (p.x * q.z % fpModulus == q.x * p.z % fpModulus) &&
    (p.y * q.z % fpModulus == q.y * p.z % fpModulus)

theorem eq_of_neq {p q : NPt} {P Q : (E).Point} (hp : Projective.Is b p.cast P) (hq : Projective.Is b q.cast Q)
    (h : neq p q = true) : P = Q := by
  simp only [neq, Bool.and_eq_true, bne_iff_ne, beq_iff_eq] at h
  obtain ⟨⟨⟨h1, h2⟩, h3⟩, h4⟩ := h
  rw [← ctEq_iff hp hq]
  have z1 := natCast_ne (m := p.z) (n := 0) (by simpa using h1)
  have z2 := natCast_ne (m := q.z) (n := 0) (by simpa using h2)
  have e3 := natCast_eq_of_mod h3
  have e4 := natCast_eq_of_mod h4
  push_cast at z1 z2 e3 e4
  simp [Projective.ctEq, NPt.cast, z1, z2, e3, e4]

/-- The endomorphism multiplies the generator by `λ`. -/
theorem phi_gen : phi beta_omega gen = Glv.lambda • gen := by
  have h1 := nmul_is 128 Glv.lambda (by decide +kernel) ng_is nzero_is
  rw [zero_add] at h1
  have h2 : Projective.Is b (NPt.cast ⟨betaNat * gxNat, gyNat, 1⟩) (phi beta_omega gen) := by
    have := phi_is beta_omega ng_is
    simp only [NPt.cast, Nat.cast_mul, ← beta_eq]
    exact this
  exact eq_of_neq h2 h1 (by decide +kernel)

end Kzg.Zk.G1
