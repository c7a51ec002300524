import Verif.Proofs.Zk.Kzg
import Verif.Proofs.Zk.FK20Rel
/-!
# Transforms of points and amortised proofs of zkcrypto on coordinates
-/

set_option linter.unusedSectionVars false

namespace Kzg.Zk.Top
open Kzg Kzg.Res Kzg.Zk CurveConsts Polynomial ScW Props ZkP

local notation "r" => frModulus

theorem at1_addOrDbl {chk : Bool} {p q : G1.Proj} {x y : ScW} (hp : At1 p x) (hq : At1 q y) :
    At1 ((g1Ops chk).addOrDbl p q) (x + y) := by
  show At1 (if p.ctEq q then p.double else p.add q) (x + y)
  split
  case isTrue h => rw [← (at1_ctEq hp hq).1 h]; exact at1_double hp
  case isFalse h => exact at1_add hp hq

/-- In a debug build the operations are right or panic. -/
theorem opsDebug : OpsRel (M := ScW) True At1 (fun _ => True) (g1Ops true) where
  zero := at1_zero
  add hp hq := at1_addOrDbl hp hq
  sub hp hq := at1_sub hp hq
  mul {p a s} hp _ := by
    by_cases hs : Good s
    · obtain ⟨q, e, hq⟩ := at1_mul true hp hs
      rw [show (g1Ops true).mul p s = .ok q from e]
      exact hq
    · rw [show (g1Ops true).mul p s = .panic from at1_mul_panic hp hs]
      exact trivial

/-- In either build the operations are right for the scalars whose rounding does not overflow. -/
theorem opsAny (chk : Bool) : OpsRel (M := ScW) False At1 Good (g1Ops chk) where
  zero := at1_zero
  add hp hq := at1_addOrDbl hp hq
  sub hp hq := at1_sub hp hq
  mul {p a s} hp hs := by
    obtain ⟨q, e, hq⟩ := at1_mul chk hp hs
    rw [show (g1Ops chk).mul p s = .ok q from e]
    exact hq

/-! ## Roots of unity whose rounding does not overflow -/

/-- No power of `k` from `x` on overflows, for `n` powers. -/
def powersOk (k : Nat) : Nat → Nat → Bool
  | 0, _ => true
  | n + 1, x => !((x * glvMu / 2 ^ 256 % 2 ^ 64).beq (2 ^ 64 - 1) && (x * glvMu / 2 ^ 255 % 2).beq 1) &&
    powersOk k n (x * k % r)

theorem powersOk_spec (k : Nat) : ∀ n j, powersOk k n (k ^ j % r) = true →
    ∀ i < n, ¬ RoundingOverflows (k ^ (j + i) % r) := by
  intro n
  induction n with
  | zero => intro j _ i hi; omega
  | succ n ih =>
    intro j h i hi
    rw [powersOk, Nat.mod_mul_mod, ← pow_succ, Bool.and_eq_true] at h
    cases i with
    | zero =>
      rintro ⟨h1, h2⟩
      rw [Nat.add_zero] at h1 h2
      rw [h1, h2] at h
      exact absurd h.1 (by decide)
    | succ i =>
      have := ih (j + 1) h.2 i (by omega)
      rwa [Nat.add_right_comm j 1 i] at this

/-- `x^(2^n)` modulo the group order. -/
def sqMod : Nat → Nat → Nat
  | 0, x => x
  | n + 1, x => sqMod n (x * x % r)

theorem sqMod_mod (n x : Nat) : sqMod n x % r = x ^ 2 ^ n % r := by
  induction n generalizing x with
  | zero => rw [sqMod, pow_zero, pow_one]
  | succ n ih => rw [sqMod, ih, ← Nat.pow_mod, ← pow_two, ← pow_mul, pow_succ']

/-- The `2^16`-th root of unity. -/
def root16 : Nat := 0x2155379d12180caa88f39a78f1aeb57867a665ae1fcadc91d7118f85cd96b8ad

theorem root16_prim : IsPrimitiveRoot (root16 : Fr) (2 ^ 16) := by
  have : Fact (Nat.Prime 2) := ⟨Nat.prime_two⟩
  have e1 : sqMod 16 root16 % r = 1 := by decide +kernel
  have e0 : sqMod 15 root16 % r ≠ 1 := by decide +kernel
  rw [sqMod_mod] at e0 e1
  have h1 : (root16 : Fr) ^ 2 ^ 16 = 1 := by
    rw [← Nat.cast_pow, ← ZMod.natCast_mod, e1, Nat.cast_one]
  have h0 : ¬ (root16 : Fr) ^ 2 ^ 15 = 1 := by
    intro h
    rw [← Nat.cast_pow] at h
    have := congrArg ZMod.val h
    rw [ZMod.val_natCast, Msm.val_one] at this
    exact e0 this
  have := orderOf_eq_prime_pow h0 h1
  rw [← this]
  exact IsPrimitiveRoot.orderOf _

theorem root16_quarter (j : Nat) (hj : j < 4) : powersOk root16 16384 (sqMod 14 (sqMod 0 root16 ^ j) % r) = true := by
  have : ∀ j < 4, powersOk root16 16384 (sqMod 14 (sqMod 0 root16 ^ j) % r) = true := by decide +kernel
  exact this j hj

theorem root16_ok {i : Nat} (hi : i < 2 ^ 16) : ¬ RoundingOverflows (root16 ^ i % r) := by
  have h := root16_quarter (i / 16384) (by omega)
  rw [sqMod_mod, sqMod, ← pow_mul] at h
  have := powersOk_spec root16 16384 _ h (i % 16384) (Nat.mod_lt _ (by norm_num))
  rwa [show i / 16384 * 2 ^ 14 + i % 16384 = i by omega] at this

/-- Every `2^16`-th root of unity is good. -/
theorem good_of_root {w : ScW} (h : w ^ 2 ^ 16 = 1) : Good w := by
  have h1 : el w ^ 2 ^ 16 = 1 := by rw [← el_pow, h, el_one]
  obtain ⟨i, hi, e⟩ := root16_prim.eq_pow_of_pow_eq_one h1
  unfold Good
  rw [← e, ← Nat.cast_pow, ZMod.val_natCast]
  exact root16_ok hi

theorem half_ok {k : Nat} (hk : k < 32) : ¬ RoundingOverflows (((r + 1) / 2) ^ k % r) := by
  have h : powersOk ((r + 1) / 2) 32 (((r + 1) / 2) ^ 0 % r) = true := by decide +kernel
  have := powersOk_spec ((r + 1) / 2) 32 0 h k hk
  rwa [Nat.zero_add] at this

theorem good_inv {k : Nat} (hk : k < 32) : Good (((2 ^ k : Nat) : ScW)⁻¹) := by
  have h2 : ((2 : Nat) : Fr) * (((r + 1) / 2 : Nat) : Fr) = 1 := by
    rw [← Nat.cast_mul, show 2 * ((r + 1) / 2) = r + 1 by decide +kernel, Nat.cast_add, CharP.cast_eq_zero, zero_add,
      Nat.cast_one]
  have h : el (((2 ^ k : Nat) : ScW)⁻¹) = (((r + 1) / 2) ^ k : Nat) := by
    have h1 : el (((2 ^ k : Nat) : ScW)⁻¹) = (el ((2 ^ k : Nat) : ScW))⁻¹ := map_inv₀ elHom _
    rw [h1, el_natCast]
    apply inv_eq_of_mul_eq_one_right
    rw [← Nat.cast_mul, ← mul_pow, Nat.cast_pow, Nat.cast_mul, h2, one_pow]
  unfold Good
  rw [h, ZMod.val_natCast]
  exact half_ok hk

theorem fsT_good {fs : FFTSettings ScW} {k : Nat} (h : fs.WF k) (hr : ∀ i ≤ 2 ^ k, Good (fs.rootOfUnity ^ i)) : FsT Good fs where
  fwd w hw := by
    obtain ⟨i, hi⟩ := List.getElem?_of_mem hw
    have hlt : i < fs.expandedRoots.length := (List.getElem?_eq_some_iff.1 hi).1
    rw [h.elen] at hlt
    rw [h.exp i (by omega)] at hi
    rw [← Option.some.inj hi]
    exact hr i (by omega)
  bwd w hw := by
    obtain ⟨i, hi⟩ := List.getElem?_of_mem hw
    have hlt : i < fs.reverseRoots.length := (List.getElem?_eq_some_iff.1 hi).1
    rw [h.rlen] at hlt
    rw [h.rev i (by omega)] at hi
    rw [← Option.some.inj hi]
    have : fs.rootOfUnity⁻¹ ^ i = fs.rootOfUnity ^ (2 ^ k - i) := by
      rw [inv_pow]
      apply inv_eq_of_mul_eq_one_right
      rw [← pow_add, Nat.add_sub_cancel' (by omega), h.prim.pow_eq_one]
    rw [this]
    exact hr _ (Nat.sub_le _ _)
  inv j hj := good_inv (by
    rw [h.width] at hj
    have := (Nat.pow_le_pow_iff_right (by norm_num)).mp hj
    have := h.lt
    omega)

theorem fsT_small {fs : FFTSettings ScW} {k : Nat} (h : fs.WF k) (hk : k ≤ 16) : FsT Good fs :=
  fsT_good h fun i _ => good_of_root (by
    rw [← pow_mul, mul_comm, show 16 = k + (16 - k) by omega, pow_add, pow_mul, pow_mul, h.prim.pow_eq_one, one_pow,
      one_pow])

theorem fsT_all (fs : FFTSettings ScW) : FsT (fun _ => True) fs := ⟨fun _ _ => trivial, fun _ _ => trivial, fun _ _ => trivial⟩

end Kzg.Zk.Top
