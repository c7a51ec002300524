import Verif.Proofs.KZG
import Verif.Proofs.Mcl.Kzg
import Verif.Proofs.Ark.Kzg
import Mathlib.Algebra.Module.ZMod
/-!
# The points of order `r` as a module over the scalar field

`Tors A` are the elements of an additive group that `r` annihilates; `unitOf` is a unit of a monoid as an element of its group of
units. `lawful_of` shows that such groups with a pairing into the powers of one element satisfy what is assumed of the libraries.
-/

set_option linter.unusedSectionVars false

namespace Kzg

/-- The elements whose order divides the group order. -/
def Tors (A : Type) [AddCommGroup A] : AddSubgroup A where
  carrier := {x | frModulus • x = 0}
  zero_mem' := nsmul_zero _
  add_mem' {x y} hx hy := by
    have hx' : frModulus • x = 0 := hx
    have hy' : frModulus • y = 0 := hy
    show frModulus • (x + y) = 0
    rw [nsmul_add, hx', hy', add_zero]
  neg_mem' {x} hx := by
    have hx' : frModulus • x = 0 := hx
    show frModulus • (-x) = 0
    rw [neg_nsmul, hx', neg_zero]

section
variable {A : Type} [AddCommGroup A]

instance : Module Fr (Tors A) := AddCommGroup.zmodModule (n := frModulus) fun x => Subtype.ext (by
  rw [AddSubgroup.coe_nsmul]
  exact x.2)

theorem tors_smul (c : Fr) (x : Tors A) : ((c • x : Tors A) : A) = c.val • (x : A) := by
  rw [← ZMod.natCast_zmod_val c, Nat.cast_smul_eq_nsmul, AddSubgroup.coe_nsmul, ZMod.natCast_zmod_val]

end

open Classical in
/-- A unit as an element of the group of units; other elements give 1. -/
noncomputable def unitOf {M : Type} [CommMonoid M] (x : M) : Mˣ := if h : IsUnit x then h.unit else 1

theorem unitOf_val {M : Type} [CommMonoid M] {x : M} (h : IsUnit x) : (unitOf x : M) = x := by
  rw [unitOf, dif_pos h]
  rfl

/-- Cyclic groups of order `r` with a pairing into the powers of an element of order `r`. -/
structure PairingGroups (A B M : Type) [AddCommGroup A] [AddCommGroup B] [CommMonoid M] (g1 : Tors A) (g2 : Tors B)
    (e : A → B → M) (u : M) : Prop where
  ne : g1 ≠ 0
  gen : ∀ P : A, frModulus • P = 0 → ∃ n : Nat, P = n • (g1 : A)
  gen2 : ∀ P : B, frModulus • P = 0 → ∃ n : Nat, P = n • (g2 : B)
  pair : ∀ m n : Nat, e (m • (g1 : A)) (n • (g2 : B)) = u ^ (m * n)
  ord : orderOf u = frModulus

namespace PairingGroups
variable {A B M : Type} [AddCommGroup A] [AddCommGroup B] [CommMonoid M] [DecidableEq M] {g1 : Tors A} {g2 : Tors B}
  {e : A → B → M} {u : M}

theorem gen' (h : PairingGroups A B M g1 g2 e u) (P : Tors A) : ∃ a : Fr, P = a • g1 := by
  obtain ⟨n, hn⟩ := h.gen P P.2
  exact ⟨(n : Fr), Subtype.ext (by rw [hn, Nat.cast_smul_eq_nsmul, AddSubgroup.coe_nsmul])⟩

theorem gen2' (h : PairingGroups A B M g1 g2 e u) (P : Tors B) : ∃ a : Fr, P = a • g2 := by
  obtain ⟨n, hn⟩ := h.gen2 P P.2
  exact ⟨(n : Fr), Subtype.ext (by rw [hn, Nat.cast_smul_eq_nsmul, AddSubgroup.coe_nsmul])⟩

theorem isUnit (h : PairingGroups A B M g1 g2 e u) : IsUnit u := by
  refine IsUnit.of_pow_eq_one (n := frModulus) ?_ (NeZero.ne _)
  rw [← h.ord, pow_orderOf_eq_one]

theorem orderOf_unit (h : PairingGroups A B M g1 g2 e u) : orderOf h.isUnit.unit = frModulus := by
  rw [← orderOf_units, IsUnit.unit_spec, h.ord]

/-- Powers with exponents in the scalar field. -/
noncomputable def expo (h : PairingGroups A B M g1 g2 e u) (a : Fr) : Mˣ := h.isUnit.unit ^ a.val

theorem expo_add (h : PairingGroups A B M g1 g2 e u) (a b : Fr) : h.expo (a + b) = h.expo a * h.expo b := by
  rw [expo, expo, expo, ← pow_add, pow_eq_pow_iff_modEq, h.orderOf_unit, ZMod.val_add]
  exact Nat.mod_modEq _ _

theorem expo_eq_one (h : PairingGroups A B M g1 g2 e u) (a : Fr) : h.expo a = 1 ↔ a = 0 := by
  rw [expo, ← orderOf_dvd_iff_pow_eq_one, h.orderOf_unit]
  constructor
  · intro hd
    rw [← ZMod.val_eq_zero]
    exact Nat.eq_zero_of_dvd_of_lt hd (ZMod.val_lt a)
  · rintro rfl
    rw [ZMod.val_zero]
    exact dvd_zero _

theorem expo_nsmul (h : PairingGroups A B M g1 g2 e u) (c : Fr) (a : Fr) : h.expo a ^ c.val = h.expo (c * a) := by
  rw [expo, expo, ← pow_mul, pow_eq_pow_iff_modEq, h.orderOf_unit, ZMod.val_mul, mul_comm]
  exact (Nat.mod_modEq _ _).symm

theorem pairing_eq (h : PairingGroups A B M g1 g2 e u) (a b : Fr) :
    unitOf (e (a • g1 : Tors A) (b • g2 : Tors B)) = h.expo (a * b) := by
  have h1 : e (a • g1 : Tors A) (b • g2 : Tors B) = u ^ (a.val * b.val) := by rw [tors_smul, tors_smul, h.pair]
  apply Units.ext
  rw [h1, unitOf_val (h.isUnit.pow _), expo]
  have : h.isUnit.unit ^ (a.val * b.val) = h.isUnit.unit ^ (a * b).val := by
    rw [pow_eq_pow_iff_modEq, h.orderOf_unit, ZMod.val_mul]
    exact (Nat.mod_modEq _ _).symm
  rw [← this, Units.val_pow_eq_pow_val, IsUnit.unit_spec]

theorem zero_right (h : PairingGroups A B M g1 g2 e u) (P : Tors A) : unitOf (e P (0 : Tors B)) = 1 := by
  obtain ⟨a, rfl⟩ := h.gen' P
  have := h.pairing_eq a 0
  rw [zero_smul, mul_zero] at this
  rw [this, h.expo_eq_one]

/-- The library of blst-from-scratch. -/
noncomputable def blst (e : A → B → M) : Backend (Tors A) (Tors B) Mˣ where
  pippenger pts scalars := (List.zipWith (fun P c => c • P) pts scalars).sum
  pairing P Q := unitOf (e P Q)

theorem blst_lawful (h : PairingGroups A B M g1 g2 e u) : (blst e).Lawful g1 g2 where
  ne := h.ne
  gen := h.gen'
  msm _ _ _ _ := rfl
  pair := ⟨h.expo, h.expo_add, h.expo_eq_one, fun a b _ => h.pairing_eq a b⟩

theorem blst_msmTotal : (blst (A := A) (B := B) (M := M) e).MsmTotal := fun _ _ _ => rfl

theorem blst_pairTotal (h : PairingGroups A B M g1 g2 e u) : (blst e).PairTotal := h.zero_right

/-- The library of mcl-kzg; a final exponentiation of a value in the target group is a power. -/
noncomputable def mcl (e : A → B → M) (k : Nat) : Mcl.Backend (Tors A) (Tors B) Mˣ where
  mulVec pts scalars := (List.zipWith (fun P c => c • P) pts scalars).sum
  pairing P Q := unitOf (e P Q)
  finalExp x := x ^ k

theorem mcl_lawful (h : PairingGroups A B M g1 g2 e u) {k : Nat} (hk : (k : Fr) ≠ 0) : (mcl e k).Lawful g1 g2 where
  ne := h.ne
  gen := h.gen'
  mulVec _ _ _ := rfl
  pair := ⟨h.expo, (k : Fr), hk, h.expo_add, h.expo_eq_one, h.pairing_eq, fun a => by
    show h.expo a ^ k = h.expo (k * a)
    rw [← h.expo_nsmul, ZMod.val_natCast, expo, ← pow_mul, ← pow_mul, pow_eq_pow_iff_modEq, h.orderOf_unit]
    exact Nat.ModEq.mul_left _ (Nat.mod_modEq _ _).symm⟩

/-- The libraries of the Arkworks backend, with points for coordinates. The words of a coordinate, the generator of random numbers and
the parameters for tests are arbitrary. -/
noncomputable def ark (e : A → B → M) (g1 : Tors A) (limbs : Tors A → List Nat) (rng : List Nat → Fr × Tors A)
    (params : Ark.Params (Tors A) (Tors B)) : Ark.Backend (Tors A) (Tors A) (Tors B) Mˣ where
  val := id
  mulGen c := c • g1
  mulInf _ := 0
  xLimbs := limbs
  rng := rng
  testParams := params
  pairing P Q := unitOf (e P Q)

theorem ark_lawful (h : PairingGroups A B M g1 g2 e u) {limbs : Tors A → List Nat} (hl : ∀ p, (limbs p).length = 6)
    (rng : List Nat → Fr × Tors A) (params : Ark.Params (Tors A) (Tors B)) : (ark e g1 limbs rng params).Lawful g1 g2 where
  ne := h.ne
  gen := h.gen'
  mulGen _ := rfl
  mulInf _ := rfl
  inf := rfl
  limbs := hl
  pair := ⟨h.expo, h.expo_add, h.expo_eq_one, h.pairing_eq⟩

end PairingGroups

end Kzg
