import Verif.Proofs.Zk.FinalExp
import Mathlib.RingTheory.RootsOfUnity.PrimitiveRoots
/-!
# Integers standing for elements of Fp12, for evaluation in the kernel
-/

set_option exponentiation.threshold 1000

namespace Kzg.Zk
open G1

local notation "p" => fpModulus
local notation "r" => frModulus

theorem Fp12.mul_coeffs {K : Type} [Field K] [DecidableEq K] (a0 a1 a2 a3 a4 a5 b0 b1 b2 b3 b4 b5 : Fp2 K) :
    (⟨⟨a0, a2, a4⟩, ⟨a1, a3, a5⟩⟩ : Fp12 K) * ⟨⟨b0, b2, b4⟩, ⟨b1, b3, b5⟩⟩ =
    ⟨⟨a0 * b0 + Fp2.xi * (a1 * b5 + a2 * b4 + a3 * b3 + a4 * b2 + a5 * b1),
      a0 * b2 + a1 * b1 + a2 * b0 + Fp2.xi * (a3 * b5 + a4 * b4 + a5 * b3),
      a0 * b4 + a1 * b3 + a2 * b2 + a3 * b1 + a4 * b0 + Fp2.xi * (a5 * b5)⟩,
     ⟨a0 * b1 + a1 * b0 + Fp2.xi * (a2 * b5 + a3 * b4 + a4 * b3 + a5 * b2),
      a0 * b3 + a1 * b2 + a2 * b1 + a3 * b0 + Fp2.xi * (a4 * b5 + a5 * b4),
      a0 * b5 + a1 * b4 + a2 * b3 + a3 * b2 + a4 * b1 + a5 * b0⟩⟩ := by
  ext1 <;> ext1
  all_goals simp only [Fp12.mul_c0, Fp12.mul_c1, Fp6.mul_c0, Fp6.mul_c1, Fp6.mul_c2, Fp6.add_c0, Fp6.add_c1,
    Fp6.add_c2, Fp6.v_c0, Fp6.v_c1, Fp6.v_c2]
  all_goals ring

/-- Integers standing for an element of Fp12, by powers of `w`. -/
structure N12 where
  a0 : N2
  a1 : N2
  a2 : N2
  a3 : N2
  a4 : N2
  a5 : N2
deriving DecidableEq

namespace N12

/-- The element. -/
def cast (x : N12) : Fp12 FpW :=
  ⟨⟨x.a0.cast, x.a2.cast, x.a4.cast⟩, ⟨x.a1.cast, x.a3.cast, x.a5.cast⟩⟩

def xi : N2 := ⟨1, 1⟩

/-- The product. -/
def mul (a b : N12) : N12 :=
  ⟨(a.a0.mul b.a0).add (xi.mul (((((a.a1.mul b.a5).add (a.a2.mul b.a4)).add (a.a3.mul b.a3)).add (a.a4.mul b.a2)).add
      (a.a5.mul b.a1))),
    ((a.a0.mul b.a1).add (a.a1.mul b.a0)).add (xi.mul ((((a.a2.mul b.a5).add (a.a3.mul b.a4)).add
      (a.a4.mul b.a3)).add (a.a5.mul b.a2))),
    (((a.a0.mul b.a2).add (a.a1.mul b.a1)).add (a.a2.mul b.a0)).add (xi.mul (((a.a3.mul b.a5).add
      (a.a4.mul b.a4)).add (a.a5.mul b.a3))),
    ((((a.a0.mul b.a3).add (a.a1.mul b.a2)).add (a.a2.mul b.a1)).add (a.a3.mul b.a0)).add (xi.mul ((a.a4.mul b.a5).add
      (a.a5.mul b.a4))),
    (((((a.a0.mul b.a4).add (a.a1.mul b.a3)).add (a.a2.mul b.a2)).add (a.a3.mul b.a1)).add (a.a4.mul b.a0)).add
      (xi.mul (a.a5.mul b.a5)),
    (((((a.a0.mul b.a5).add (a.a1.mul b.a4)).add (a.a2.mul b.a3)).add (a.a3.mul b.a2)).add (a.a4.mul b.a1)).add
      (a.a5.mul b.a0)⟩

theorem mul_cast (a b : N12) : (a.mul b).cast = a.cast * b.cast := by
  rw [cast, cast, cast, Fp12.mul_coeffs, mul]
  simp only [N2.add_cast, N2.mul_cast, xi, xi_cast]

/-- Power by repeated squaring, `acc * x ^ n`. -/
def pow : (fuel : Nat) → (x : N12) → (n : Nat) → (acc : N12) → N12
  | 0, _, _, acc => acc
  | fuel + 1, x, n, acc => pow fuel (x.mul x) (n / 2) (if n % 2 = 1 then acc.mul x else acc)

theorem pow_step {R : Type} [CommMonoid R] (x a : R) (n : Nat) :
    (if n % 2 = 1 then a * x else a) * (x * x) ^ (n / 2) = a * x ^ n := by
  have e : x ^ n = (x * x) ^ (n / 2) * x ^ (n % 2) := by
    rw [← pow_two, ← pow_mul, ← pow_add, Nat.div_add_mod]
  rw [e]
  split
  · next h1 => rw [h1, pow_one, mul_assoc, mul_comm x]
  · next h1 => rw [show n % 2 = 0 by omega, pow_zero, mul_one]

theorem pow_cast (fuel : Nat) (x : N12) (n : Nat) (acc : N12) (h : n < 2 ^ fuel) :
    (pow fuel x n acc).cast = acc.cast * x.cast ^ n := by
  induction fuel generalizing x n acc with
  | zero =>
    obtain rfl : n = 0 := by simpa using h
    rw [pow, pow_zero, mul_one]
  | succ f ih =>
    rw [pow, ih _ _ _ (by rw [pow_succ] at h; omega), mul_cast, ← pow_step x.cast acc.cast n]
    split
    · rw [mul_cast]
    · rfl

def one : N12 := ⟨⟨1, 0⟩, ⟨0, 0⟩, ⟨0, 0⟩, ⟨0, 0⟩, ⟨0, 0⟩, ⟨0, 0⟩⟩

theorem one_cast : one.cast = 1 := by
  have h0 : (N2.cast ⟨0, 0⟩) = 0 := by ext <;> simp [N2.cast]
  rw [one, cast, N2.one_cast, h0]; rfl

/-- The residues agree. -/
def Cong (x y : N12) : Bool :=
  (x.a0.a % p == y.a0.a % p) && (x.a0.b % p == y.a0.b % p) && (x.a1.a % p == y.a1.a % p) && (x.a1.b % p == y.a1.b % p) &&
  (x.a2.a % p == y.a2.a % p) && (x.a2.b % p == y.a2.b % p) && (x.a3.a % p == y.a3.a % p) && (x.a3.b % p == y.a3.b % p) &&
  (x.a4.a % p == y.a4.a % p) && (x.a4.b % p == y.a4.b % p) && (x.a5.a % p == y.a5.a % p) && (x.a5.b % p == y.a5.b % p)

theorem cast_eq_of_cong {x y : N12} (h : Cong x y = true) : x.cast = y.cast := by
  simp only [Cong, Bool.and_eq_true, beq_iff_eq] at h
  obtain ⟨⟨⟨⟨⟨⟨⟨⟨⟨⟨⟨h1, h2⟩, h3⟩, h4⟩, h5⟩, h6⟩, h7⟩, h8⟩, h9⟩, h10⟩, h11⟩, h12⟩ := h
  rw [cast, cast, N2.cast_eq_of_mod h1 h2, N2.cast_eq_of_mod h3 h4, N2.cast_eq_of_mod h5 h6, N2.cast_eq_of_mod h7 h8,
    N2.cast_eq_of_mod h9 h10, N2.cast_eq_of_mod h11 h12]

/-- The integers of the generator of the target group. -/
def gen : N12 :=
  ⟨⟨0x1250ebd871fc0a92a7b2d83168d0d727272d441befa15c503dd8e90ce98db3e7b6d194f60839c508a84305aaca1789b6,
      0x89a1c5b46e5110b86750ec6a532348868a84045483c92b7af5af689452eafabf1a8943e50439f1d59882a98eaa0170f⟩,
    ⟨0x19f26337d205fb469cd6bd15c3d5a04dc88784fbb3d0b2dbdea54d43b2b73f2cbb12d58386a8703e0f948226e47ee89d,
      0x6fba23eb7c5af0d9f80940ca771b6ffd5857baaf222eb95a7d2809d61bfe02e1bfd1b68ff02f0b8102ae1c2d5d5ab1a⟩,
    ⟨0x1368bb445c7c2d209703f239689ce34c0378a68e72a6b3b216da0e22a5031b54ddff57309396b38c881c4c849ec23e87,
      0x193502b86edb8857c273fa075a50512937e0794e1e65a7617c90d8bd66065b1fffe51d7a579973b1315021ec3c19934f⟩,
    ⟨0x11b8b424cd48bf38fcef68083b0b0ec5c81a93b330ee1a677d0d15ff7b984e8978ef48881e32fac91b93b47333e2ba57,
      0x3350f55a7aefcd3c31b4fcb6ce5771cc6a0e9786ab5973320c806ad360829107ba810c5a09ffdd9be2291a0c25a99a2⟩,
    ⟨0x1b2f522473d171391125ba84dc4007cfbf2f8da752f7c74185203fcca589ac719c34dffbbaad8431dad1c1fb597aaa5,
      0x18107154f25a764bd3c79937a45b84546da634b8f6be14a8061e55cceba478b23f7dacaa35c8ca78beae9624045b4b6⟩,
    ⟨0x4c581234d086a9902249b64728ffd21a189e87935a954051c7cdba7b3872629a4fafc05066245cb9108f0242d0fe3ef,
      0xf41e58663bf08cf068672cbd01a7ec73baca4d72ca93544deff686bfd6df543d48eaa24afe47e1efde449383b676631⟩⟩

theorem gen_cast : Gt.generator = gen.cast := by
  unfold Gt.generator cast gen
  refine Fp12.ext (Fp6.ext ?_ ?_ ?_) (Fp6.ext ?_ ?_ ?_) <;>
    exact N2.eq_cast _ _ (by decide +kernel) (by decide +kernel)

theorem gen_pow : Gt.generator ^ r = 1 := by
  have h := pow_cast 256 gen r one (by decide +kernel)
  rw [one_cast, one_mul] at h
  rw [gen_cast, ← h, ← one_cast]
  exact cast_eq_of_cong (by decide +kernel)

theorem gen_ne : Gt.generator ≠ 1 := by
  intro h
  have h := congrArg (fun x => x.c1.c0) h
  rw [gen_cast] at h
  have h0 : (0 : Fp2 FpW) = N2.cast ⟨0, 0⟩ := by ext <;> simp [N2.cast]
  have h2 : N2.cast gen.a1 = N2.cast ⟨0, 0⟩ := h.trans h0
  exact absurd (N2.cast_inj h2).1 (by decide +kernel)

theorem gen_primitive : IsPrimitiveRoot Gt.generator r := by
  have hp : Fact (Nat.Prime r) := inferInstance
  have ho : orderOf Gt.generator = r := orderOf_eq_prime gen_pow gen_ne
  rw [← ho]
  exact IsPrimitiveRoot.orderOf _

theorem gen_generates {a : Fp12 FpW} (h : a ^ r = 1) : ∃ n < r, Gt.generator ^ n = a := by
  have hp : Fact (Nat.Prime r) := inferInstance
  have : NeZero r := ⟨hp.out.ne_zero⟩
  exact gen_primitive.eq_pow_of_pow_eq_one h

theorem gen_inj {m n : Nat} (hm : m < r) (hn : n < r) (h : Gt.generator ^ m = Gt.generator ^ n) : m = n :=
  gen_primitive.pow_inj hm hn h

end N12
end Kzg.Zk
