import Mathlib.Data.List.GetD
import Verif.Proofs.FrPrime
import Verif.Proofs.Settings
/-!
# The concrete scalar field satisfies the assumptions of the generic development
-/

namespace Kzg

theorem five_pow_check : powMod frModulus 32 5 (2 ^ 31) 1 ≠ 1 := by decide +kernel

theorem fr_natCast_inj {a b : Nat} (ha : a < frModulus) (hb : b < frModulus)
    (h : (a : Fr) = (b : Fr)) : a = b := by
  rw [ZMod.natCast_eq_natCast_iff', Nat.mod_eq_of_lt ha, Nat.mod_eq_of_lt hb] at h
  exact h

theorem frModulus_pos : 0 < frModulus := by decide +kernel

instance : LawfulFr Fr where
  len := by simp [FrTable.rootTable, table_len]
  prim := by
    intro i h
    have h' : i < 32 := by simpa [FrTable.rootTable, table_len] using h
    have : (FrTable.rootTable (F := Fr))[i] = tableRow i := by
      simp only [FrTable.rootTable, List.getElem_map, tableRow]
      rw [List.getD_eq_getElem _ _ (by rw [table_len]; exact h')]
    refine Eq.subst (motive := fun x => IsPrimitiveRoot x (2 ^ i)) this.symm ?_
    exact tableRow_primitive h'
  five_ne := by
    intro h
    have := fr_natCast_inj (a := 5) (b := 0) (by decide +kernel) frModulus_pos (by simpa using h)
    omega
  five_pow := by
    intro h
    have h5 : (5 : Fr) = ((5 : Nat) : Fr) := by norm_num
    rw [h5, zmod_pow_eq (fuel := 32) (by norm_num) rfl] at h
    exact five_pow_check (fr_natCast_inj (powMod_lt _ _ frModulus_pos _ _ _) (by decide +kernel)
      (by simpa using h))

end Kzg
