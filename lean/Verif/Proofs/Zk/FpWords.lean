import Verif.Proofs.Zk.FpBytes
import Mathlib.Algebra.Field.Basic
import Mathlib.Algebra.Ring.Equiv
/-!
# The words of fp.rs as a field

`FpW` is the type of reduced six-word vectors, the values a Rust `Fp` can hold (its words are private and
every operation returns reduced words, C42). Its field operations are the word operations of the model;
`el` is the field element a vector stands for, and is an isomorphism onto the integers modulo the prime.
-/

set_option exponentiation.threshold 1000

namespace Kzg.Zk
open Fp

/-- A value of the Rust type `Fp`. -/
def FpW : Type := { s : Fp // Red s }

namespace FpW

instance : DecidableEq FpW := inferInstanceAs (DecidableEq { s : Fp // Red s })

/-- The field element the words stand for. -/
noncomputable def el (s : FpW) : Fq := (red_rep s.2).choose

theorem el_rep (s : FpW) : Rep s.1 (el s) := (red_rep s.2).choose_spec

theorem el_eq {s : FpW} {x : Fq} (h : Rep s.1 x) : el s = x := rep_unique (el_rep s) h

theorem el_inj {s t : FpW} (h : el s = el t) : s = t := by
  have := el_rep s
  rw [h] at this
  exact Subtype.ext (rep_inj this (el_rep t))

theorem el_surj (x : Fq) : ∃ s, el s = x := by
  obtain ⟨s, hs⟩ := rep_exists x
  exact ⟨⟨s, hs.1⟩, el_eq hs⟩

instance : Zero FpW := ⟨⟨Fp.zero, zero_rep.1⟩⟩
instance : One FpW := ⟨⟨Fp.one, one_rep.1⟩⟩
instance : Add FpW := ⟨fun a b => ⟨Fp.add a.1 b.1, (add_rep (el_rep a) (el_rep b)).1⟩⟩
instance : Sub FpW := ⟨fun a b => ⟨Fp.sub a.1 b.1, (sub_rep (el_rep a) (el_rep b)).1⟩⟩
instance : Mul FpW := ⟨fun a b => ⟨Fp.mul a.1 b.1, (mul_rep (el_rep a) (el_rep b)).1⟩⟩
instance : Neg FpW := ⟨fun a => ⟨Fp.neg a.1, (neg_rep (el_rep a)).1⟩⟩

theorem el_zero : el 0 = 0 := el_eq zero_rep
theorem el_one : el 1 = 1 := el_eq one_rep
theorem el_add (a b : FpW) : el (a + b) = el a + el b := el_eq (add_rep (el_rep a) (el_rep b))
theorem el_sub (a b : FpW) : el (a - b) = el a - el b := el_eq (sub_rep (el_rep a) (el_rep b))
theorem el_mul (a b : FpW) : el (a * b) = el a * el b := el_eq (mul_rep (el_rep a) (el_rep b))
theorem el_neg (a : FpW) : el (-a) = -el a := el_eq (neg_rep (el_rep a))

theorem red_invert (a : FpW) : Red ((Fp.invert a.1).getD Fp.zero) := by
  by_cases h : el a = 0
  · have := el_rep a
    rw [h] at this
    rw [invert_zero this]
    exact zero_rep.1
  · obtain ⟨t, ht, hr⟩ := invert_rep (el_rep a) h
    rw [ht]
    exact hr.1

/-- `invert().unwrap_or(Fp::zero())`. -/
instance : Inv FpW := ⟨fun a => ⟨(Fp.invert a.1).getD Fp.zero, red_invert a⟩⟩

theorem el_inv (a : FpW) : el a⁻¹ = (el a)⁻¹ := by
  apply el_eq
  show Rep ((Fp.invert a.1).getD Fp.zero) _
  by_cases h : el a = 0
  · have := el_rep a
    rw [h] at this
    rw [invert_zero this, h, inv_zero]
    exact zero_rep
  · obtain ⟨t, ht, hr⟩ := invert_rep (el_rep a) h
    rw [ht]
    exact hr

instance : CommRing FpW where
  add_assoc a b c := el_inj (by simp only [el_add, add_assoc])
  zero_add a := el_inj (by simp only [el_add, el_zero, zero_add])
  add_zero a := el_inj (by simp only [el_add, el_zero, add_zero])
  add_comm a b := el_inj (by simp only [el_add, add_comm])
  mul_assoc a b c := el_inj (by simp only [el_mul, mul_assoc])
  one_mul a := el_inj (by simp only [el_mul, el_one, one_mul])
  mul_one a := el_inj (by simp only [el_mul, el_one, mul_one])
  mul_comm a b := el_inj (by simp only [el_mul, mul_comm])
  left_distrib a b c := el_inj (by simp only [el_mul, el_add, mul_add])
  right_distrib a b c := el_inj (by simp only [el_mul, el_add, add_mul])
  zero_mul a := el_inj (by simp only [el_mul, el_zero, zero_mul])
  mul_zero a := el_inj (by simp only [el_mul, el_zero, mul_zero])
  neg_add_cancel a := el_inj (by simp only [el_add, el_neg, el_zero, neg_add_cancel])
  sub_eq_add_neg a b := el_inj (by simp only [el_add, el_neg, el_sub, sub_eq_add_neg])
  nsmul := nsmulRec
  zsmul := zsmulRec

instance : Field FpW where
  exists_pair_ne := ⟨0, 1, fun h => by
    have := congrArg el h
    rw [el_zero, el_one] at this
    exact zero_ne_one this⟩
  mul_inv_cancel a ha := el_inj (by
    rw [el_mul, el_inv, el_one]
    exact mul_inv_cancel₀ (fun h => ha (el_inj (h.trans el_zero.symm))))
  inv_zero := el_inj (by rw [el_inv, el_zero, inv_zero])
  nnqsmul := _
  nnqsmul_def := fun _ _ => rfl
  qsmul := _
  qsmul_def := fun _ _ => rfl

/-- The element of a vector, as a ring homomorphism. -/
noncomputable def elHom : FpW →+* Fq where
  toFun := el
  map_one' := el_one
  map_mul' := el_mul
  map_zero' := el_zero
  map_add' := el_add

theorem elHom_apply (a : FpW) : elHom a = el a := rfl

/-- The words and the integers modulo the prime are the same field. -/
noncomputable def elEquiv : FpW ≃+* Fq :=
  RingEquiv.ofBijective elHom ⟨fun _ _ h => el_inj h, fun x => el_surj x⟩

theorem elEquiv_apply (a : FpW) : elEquiv a = el a := rfl

theorem el_natCast (n : Nat) : el (n : FpW) = (n : Fq) := map_natCast elHom n

theorem el_pow (a : FpW) (n : Nat) : el (a ^ n) = el a ^ n := map_pow elHom a n

/-- Words that hold the Montgomery form of the integer `n` are the element `n`. -/
theorem eq_natCast {s : Fp} (h : Red s) {n : Nat} (e : val s % fpModulus = n * 2 ^ 384 % fpModulus) :
    (⟨s, h⟩ : FpW) = (n : FpW) := by
  apply el_inj
  rw [el_natCast]
  apply el_eq
  refine ⟨h, ?_⟩
  have := natCast_eq_of_mod e
  rw [this, Nat.cast_mul, natCast_two_pow]

theorem modulus_cast : (fpModulus : FpW) = 0 := by
  apply el_inj
  rw [el_natCast, el_zero]
  exact ZMod.natCast_self _

end FpW
end Kzg.Zk
