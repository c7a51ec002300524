import Verif.Proofs.Zk.ScalarField
import Verif.Proofs.FrLawful
import Mathlib.Algebra.Ring.Equiv
/-!
# The words of scalar.rs as a field

`ScW` is the type of reduced four-word vectors, the values a Rust `Scalar` can hold. Its field operations
are the word operations of the model, so everything proved about the polynomial and commitment layer over
an arbitrary field holds for the layer running on these words; `el` is the isomorphism onto the integers
modulo the group order.
-/

set_option exponentiation.threshold 1000

namespace Kzg.Zk
open Scalar

/-- A value of the Rust type `Scalar`. -/
def ScW : Type := { s : Scalar // Red s }

namespace ScW

instance : DecidableEq ScW := inferInstanceAs (DecidableEq { s : Scalar // Red s })

/-- The field element the words stand for. -/
noncomputable def el (s : ScW) : Fr := (red_rep s.2).choose

theorem el_rep (s : ScW) : Rep s.1 (el s) := (red_rep s.2).choose_spec

theorem el_eq {s : ScW} {x : Fr} (h : Rep s.1 x) : el s = x := rep_unique (el_rep s) h

theorem el_inj {s t : ScW} (h : el s = el t) : s = t := by
  have := el_rep s
  rw [h] at this
  exact Subtype.ext (rep_inj this (el_rep t))

theorem el_surj (x : Fr) : ∃ s, el s = x := by
  obtain ⟨s, hs⟩ := rep_exists x
  exact ⟨⟨s, hs.1⟩, el_eq hs⟩

instance : Zero ScW := ⟨⟨Scalar.zero, zero_rep.1⟩⟩
instance : One ScW := ⟨⟨Scalar.one, one_rep.1⟩⟩
instance : Add ScW := ⟨fun a b => ⟨Scalar.add a.1 b.1, (add_rep (el_rep a) (el_rep b)).1⟩⟩
instance : Sub ScW := ⟨fun a b => ⟨Scalar.sub a.1 b.1, (sub_rep (el_rep a) (el_rep b)).1⟩⟩
instance : Mul ScW := ⟨fun a b => ⟨Scalar.mul a.1 b.1, (mul_rep (el_rep a) (el_rep b)).1⟩⟩
instance : Neg ScW := ⟨fun a => ⟨Scalar.neg a.1, (neg_rep (el_rep a)).1⟩⟩

theorem el_zero : el 0 = 0 := el_eq zero_rep
theorem el_one : el 1 = 1 := el_eq one_rep
theorem el_add (a b : ScW) : el (a + b) = el a + el b := el_eq (add_rep (el_rep a) (el_rep b))
theorem el_sub (a b : ScW) : el (a - b) = el a - el b := el_eq (sub_rep (el_rep a) (el_rep b))
theorem el_mul (a b : ScW) : el (a * b) = el a * el b := el_eq (mul_rep (el_rep a) (el_rep b))
theorem el_neg (a : ScW) : el (-a) = -el a := el_eq (neg_rep (el_rep a))

theorem red_invert (a : ScW) : Red ((Scalar.invert a.1).getD Scalar.zero) := by
  by_cases h : el a = 0
  · have := el_rep a
    rw [h] at this
    rw [invert_zero this]
    exact zero_rep.1
  · obtain ⟨t, ht, hr⟩ := invert_rep (el_rep a) h
    rw [ht]
    exact hr.1

/-- `invert().unwrap_or(Scalar::zero())`. -/
instance : Inv ScW := ⟨fun a => ⟨(Scalar.invert a.1).getD Scalar.zero, red_invert a⟩⟩

theorem el_inv (a : ScW) : el a⁻¹ = (el a)⁻¹ := by
  apply el_eq
  show Rep ((Scalar.invert a.1).getD Scalar.zero) _
  by_cases h : el a = 0
  · have := el_rep a
    rw [h] at this
    rw [invert_zero this, h, inv_zero]
    exact zero_rep
  · obtain ⟨t, ht, hr⟩ := invert_rep (el_rep a) h
    rw [ht]
    exact hr

instance : CommRing ScW where
  add_assoc a b c := el_inj (by simp only [el_add, add_assoc])
  zero_add a := el_inj (by simp only [el_add, el_zero, zero_add])
  add_zero a := el_inj (by simp only [el_add, el_zero, add_zero])
  add_comm a b := el_inj (by simp only [el_add, add_comm])
  mul_assoc a b c := el_inj (by simp only [el_mul, mul_assoc])
  one_mul a := el_inj (by simp only [el_mul, el_one, one_mul])
  mul_one a := el_inj (by simp only [el_mul, el_one, mul_one])
  mul_comm a b := el_inj (by simp only [el_mul, mul_comm])
  left_distrib a b c := el_inj (by simp only [el_mul, el_add, mul_add])
  right_distrib a b c := el_inj (by simp only [el_mul, el_add, add_mul])
  zero_mul a := el_inj (by simp only [el_mul, el_zero, zero_mul])
  mul_zero a := el_inj (by simp only [el_mul, el_zero, mul_zero])
  neg_add_cancel a := el_inj (by simp only [el_add, el_neg, el_zero, neg_add_cancel])
  sub_eq_add_neg a b := el_inj (by simp only [el_add, el_neg, el_sub, sub_eq_add_neg])
  nsmul := nsmulRec
  zsmul := zsmulRec

instance : Field ScW where
  exists_pair_ne := ⟨0, 1, fun h => by
    have := congrArg el h
    rw [el_zero, el_one] at this
    exact zero_ne_one this⟩
  mul_inv_cancel a ha := el_inj (by
    rw [el_mul, el_inv, el_one]
    exact mul_inv_cancel₀ (fun h => ha (el_inj (h.trans el_zero.symm))))
  inv_zero := el_inj (by rw [el_inv, el_zero, inv_zero])
  nnqsmul := _
  nnqsmul_def := fun _ _ => rfl
  qsmul := _
  qsmul_def := fun _ _ => rfl

/-- The element of a vector, as a ring homomorphism. -/
noncomputable def elHom : ScW →+* Fr where
  toFun := el
  map_one' := el_one
  map_mul' := el_mul
  map_zero' := el_zero
  map_add' := el_add

theorem elHom_apply (a : ScW) : elHom a = el a := rfl

/-- The words and the integers modulo the group order are the same field. -/
noncomputable def elEquiv : ScW ≃+* Fr :=
  RingEquiv.ofBijective elHom ⟨fun _ _ h => el_inj h, fun x => el_surj x⟩

theorem el_natCast (n : Nat) : el (n : ScW) = (n : Fr) := map_natCast elHom n

theorem el_pow (a : ScW) (n : Nat) : el (a ^ n) = el a ^ n := map_pow elHom a n

theorem el_ofNat (n : Nat) [n.AtLeastTwo] : el (OfNat.ofNat n : ScW) = (OfNat.ofNat n : Fr) :=
  map_ofNat elHom n

/-- `blsScalar::from_u64(v)` (zkcrypto/src/zkfr.rs:69-71) for a word `v` is the number `v` of the field. -/
theorem ofU64_eq {v : Nat} (hv : v < W) : (⟨Scalar.ofU64 v, (ofU64_rep hv).1⟩ : ScW) = (v : ScW) := by
  apply el_inj
  rw [el_natCast]
  exact el_eq (ofU64_rep hv)

/-- Inverting with `unwrap` (`eucl_inverse` and `inverse`, zkcrypto/src/zkfr.rs:110-114 and 146-149):
panics exactly on zero. -/
theorem invert_words (a : ScW) :
    Scalar.invert a.1 = if a = 0 then none else some (a⁻¹).1 := by
  by_cases h : a = 0
  · rw [if_pos h]
    apply invert_zero
    rw [h, ← el_zero]
    exact el_rep 0
  · rw [if_neg h]
    have h' : el a ≠ 0 := fun e => h (el_inj (e.trans el_zero.symm))
    obtain ⟨t, ht, hr⟩ := invert_rep (el_rep a) h'
    show _ = some ((Scalar.invert a.1).getD Scalar.zero)
    rw [ht]; rfl

/-- One row of the table: `blsScalar::from_u64_arr(&SCALE2_ROOT_OF_UNITY[scale])`,
zkcrypto/src/fftsettings.rs:191 and zkcrypto/src/zkfr.rs:50-53 (`from_raw`). The words of the table
are below `2^64` (`rows_lt`); the modulus is the identity on them. -/
def ofRow (l : List Nat) : ScW :=
  ⟨Scalar.fromRaw (l.getD 0 0 % W) (l.getD 1 0 % W) (l.getD 2 0 % W) (l.getD 3 0 % W),
    (fromRaw_rep (Nat.mod_lt _ (by simp [W])) (Nat.mod_lt _ (by simp [W])) (Nat.mod_lt _ (by simp [W]))
      (Nat.mod_lt _ (by simp [W]))).1⟩

theorem rows_lt : ∀ l ∈ scale2RootWords, l.length = 4 ∧ ∀ w ∈ l, w < W := by decide +kernel

/-- `SCALE2_ROOT_OF_UNITY` of zkcrypto/src/consts.rs:8-40, the same 32 rows as
blst-from-scratch/src/consts.rs:17-50. -/
instance : FrTable ScW where
  rootTable := scale2RootWords.map ofRow

theorem el_ofRow {l : List Nat} (h : l ∈ scale2RootWords) : el (ofRow l) = frFromWords l := by
  obtain ⟨hl, hw⟩ := rows_lt l h
  obtain ⟨a, b, c, d, rfl⟩ : ∃ a b c d, l = [a, b, c, d] := by
    match l, hl with
    | [a, b, c, d], _ => exact ⟨a, b, c, d, rfl⟩
  have ha := hw a (by simp)
  have hb := hw b (by simp)
  have hc := hw c (by simp)
  have hd := hw d (by simp)
  apply el_eq
  simp only [ofRow, List.getD_cons_zero, List.getD_cons_succ, Nat.mod_eq_of_lt ha, Nat.mod_eq_of_lt hb,
    Nat.mod_eq_of_lt hc, Nat.mod_eq_of_lt hd]
  have := fromRaw_rep ha hb hc hd
  convert this using 1
  rw [frFromWords]
  congr 1
  simp only [wordsVal, List.foldr, Scalar.val, W]
  ring

instance : LawfulFr ScW where
  len := by simp [FrTable.rootTable, table_len]
  prim := by
    intro i h
    have h' : i < scale2RootWords.length := by simpa [FrTable.rootTable] using h
    have hF := (inferInstance : LawfulFr Fr).prim i (by simpa [FrTable.rootTable] using h')
    have e : elHom ((FrTable.rootTable (F := ScW))[i]) = (FrTable.rootTable (F := Fr))[i]'(by
        simpa [FrTable.rootTable] using h') := by
      simp only [FrTable.rootTable, List.getElem_map, elHom_apply]
      exact el_ofRow (List.getElem_mem _)
    rw [← e] at hF
    exact hF.of_map_of_injective (f := elHom) (fun _ _ h => el_inj h)
  five_ne := by
    intro h
    apply (inferInstance : LawfulFr Fr).five_ne
    have := congrArg elHom h
    rwa [map_ofNat, map_zero] at this
  five_pow := by
    intro h
    apply (inferInstance : LawfulFr Fr).five_pow
    have := congrArg elHom h
    rwa [map_pow, map_ofNat, map_one] at this

end ScW
end Kzg.Zk
