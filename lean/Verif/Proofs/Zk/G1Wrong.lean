import Verif.Proofs.Zk.G1Bytes
import Verif.Proofs.Zk.G1Cofactor
/-!
# Scalars and points for which scalar multiplication in the first group is wrong
-/

namespace Kzg.Zk
namespace G1
open Kzg Glv CurveConsts LawfulCurve

local notation "E" => curve (CurveConsts.b (K := FpW))

theorem multiply_panic {k : List Nat} (hl : k.length = 32) (hb : ∀ c ∈ k, c < 256) (hc : ¬ NoCarry (fromLe k))
    (p : Proj) : multiply true beta p k = .panic := by
  rw [multiply, glvRecoding_panic hl hb hc, Res.bind_panic]

/-- `2^64·λ`. -/
def badNat : Nat := 0xac45a4010001a40200000000ffffffff0000000000000000

/-- The digits of the first half scalar. -/
def badDigits : List Int :=
  [-15, -15, -15, -15, -15, -15, -15, -15, -15, -15, -15, -15, -15, -15, -15, 1, 15, 15, 15, 15, 15,
   15, 15, -1, -15, -15, -15, -15, -15, -15, -15, -15, 3]

/-- The digits of the second half scalar, which is zero. -/
def zeroDigits : List Int :=
  [-15, -15, -15, -15, -15, -15, -15, -15, -15, -15, -15, -15, -15, -15, -15, -15, -15, -15, -15, -15,
   -15, -15, -15, -15, -15, -15, -15, -15, -15, -15, -15, -15, 1]

/-- Without overflow checks the rounded quotient wraps to zero, so the whole scalar is left to the first
recoding, which has room for 128 bits only. -/
theorem bad_split : glvRecoding false (toLe 32 badNat) = .ok (0, toLe 32 badNat, 0, toLe 32 0) := by decide +kernel

theorem bad_recoding : regularRecoding false (makeOdd (toLe 32 badNat)) = .ok badDigits ∧
    regularRecoding false (makeOdd (toLe 32 0)) = .ok zeroDigits ∧ badDigits.length = zeroDigits.length ∧
    (∀ d ∈ badDigits, -15 ≤ d ∧ d ≤ 15 ∧ d % 2 = 1) ∧ (∀ d ∈ zeroDigits, -15 ≤ d ∧ d ≤ 15 ∧ d % 2 = 1) ∧
    digitSum zeroDigits = 1 := by decide +kernel

theorem bad_sum : ((digitSum badDigits - 1 - badNat) : Int) % frModulus ≠ 0 := by decide +kernel

/-- What multiplication by `2^64·λ` returns instead. -/
theorem multiply_bad {p : Proj} {P : (E).Point} (hp : Projective.Is b p P) :
    ∃ q, multiply false beta p (toLe 32 badNat) = .ok q ∧ Projective.Is b q ((digitSum badDigits - 1) • P) := by
  obtain ⟨e1, e2, hl, h1, h2, hz⟩ := bad_recoding
  have hk : fromLe (toLe 32 badNat) = badNat := by decide +kernel
  have hk0 : fromLe (toLe 32 0) = 0 := by decide +kernel
  obtain ⟨q, e, hq⟩ := multiply_of false beta_omega hp (s := 0) (by simpa using bad_split) (by omega)
    (toLe_length ..) (toLe_bytes _ _) (toLe_length ..) (toLe_bytes _ _) e1 e2 hl h1 h2
  rw [hk, hk0, hz, show badNat % 2 = 0 by decide +kernel] at hq
  simp only [signed, Nat.cast_zero, neg_zero, if_true, Nat.sub_zero, Nat.zero_mod, Nat.cast_one, sub_self, zero_smul,
    add_zero] at hq
  exact ⟨q, e, hq⟩

theorem multiply_wrong : ∃ q Q, multiply false beta generatorProj (toLe 32 badNat) = .ok q ∧ Projective.Is b q Q ∧
    Q ≠ badNat • gen := by
  obtain ⟨q, e, hq⟩ := multiply_bad generatorProj_is
  refine ⟨q, _, e, hq, fun heq => ?_⟩
  rw [← natCast_zsmul, ← sub_eq_zero, ← sub_smul] at heq
  have hd := (addOrderOf_dvd_iff_zsmul_eq_zero).2 heq
  have : Fact (Nat.Prime frModulus) := inferInstance
  rw [addOrderOf_eq_prime order_gen gen_ne] at hd
  exact bad_sum (Int.emod_eq_zero_of_dvd hd)

/-- The point `(0, 2)` of order three, which the endomorphism fixes. -/
theorem three_wrong (chk : Bool) : ∃ (p : Proj) (P : (E).Point) (q : Proj), Projective.Is b p P ∧
    lambda • P = 0 ∧ P ≠ 0 ∧ multiply chk beta p (toLe 32 lambda) = .ok q ∧ Projective.Is b q P := by
  obtain ⟨P, hne, hp⟩ := npt_exists 0 2 (by decide +kernel)
  have h3 := eq_zero_of_z (nmul_is 2 3 (by norm_num) hp nzero_is) (by decide +kernel)
  rw [zero_add] at h3
  have hphi : phi beta_omega P = P := by
    have := nphi_is hp
    rw [mul_zero] at this
    exact is_unique this hp
  have hl : fromLe (toLe 32 lambda) = lambda := by decide +kernel
  obtain ⟨q, e, hq⟩ := multiply_is chk beta_omega hp (k := toLe 32 lambda) (toLe_length ..) (toLe_bytes _ _)
    (by rw [hl]; decide +kernel) (by rw [hl]; decide +kernel)
  refine ⟨_, P, q, hp, ?_, hne, e, ?_⟩
  · rw [show lambda = (lambda / 3) * 3 by decide +kernel, mul_nsmul', h3]; exact nsmul_zero _
  · convert hq using 1
    rw [hphi, hl, show (quot lambda) = 1 by decide +kernel]
    simp

end G1
end Kzg.Zk
