import Mathlib.NumberTheory.LucasPrimality
import Mathlib.Tactic.NormNum.Prime
import Mathlib.RingTheory.RootsOfUnity.PrimitiveRoots
import Verif.Model.Fr
import Verif.Proofs.PowMod
/-!
# The group order is prime; the root table holds primitive roots
-/

namespace Kzg

/-- Prime factors of `frModulus - 1`. -/
def frFactors : List Nat :=
  [2, 3, 11, 19, 10177, 125527, 859267, 906349, 2508409, 2529403, 52437899, 254760293]

theorem frFactors_prime : ∀ q ∈ frFactors, Nat.Prime q := by
  intro q hq
  simp only [frFactors, List.mem_cons, List.not_mem_nil, or_false] at hq
  rcases hq with rfl | rfl | rfl | rfl | rfl | rfl | rfl | rfl | rfl | rfl | rfl | rfl <;> norm_num

theorem frModulus_sub_one : frModulus - 1 = 2 ^ 32 * 3 * 11 * 19 * 10177 * 125527 * 859267 *
    906349 ^ 2 * 2508409 * 2529403 * 52437899 * 254760293 ^ 2 := by
  decide +kernel

theorem mem_frFactors {q : Nat} (hq : q.Prime) (h : q ∣ frModulus - 1) : q ∈ frFactors := by
  rw [frModulus_sub_one] at h
  simp only [hq.dvd_mul] at h
  have aux : ∀ {p k : Nat}, p ∈ frFactors → q ∣ p ^ k → q ∈ frFactors := by
    intro p k hp hd
    have := hq.dvd_of_dvd_pow hd
    rw [(Nat.prime_dvd_prime_iff_eq hq (frFactors_prime p hp)).mp this]; exact hp
  have aux1 : ∀ {p : Nat}, p ∈ frFactors → q ∣ p → q ∈ frFactors := by
    intro p hp hd
    rw [(Nat.prime_dvd_prime_iff_eq hq (frFactors_prime p hp)).mp hd]; exact hp
  rcases h with ((((((((((h | h) | h) | h) | h) | h) | h) | h) | h) | h) | h) | h
  · exact aux (by simp [frFactors]) h
  · exact aux1 (by simp [frFactors]) h
  · exact aux1 (by simp [frFactors]) h
  · exact aux1 (by simp [frFactors]) h
  · exact aux1 (by simp [frFactors]) h
  · exact aux1 (by simp [frFactors]) h
  · exact aux1 (by simp [frFactors]) h
  · exact aux (by simp [frFactors]) h
  · exact aux1 (by simp [frFactors]) h
  · exact aux1 (by simp [frFactors]) h
  · exact aux1 (by simp [frFactors]) h
  · exact aux (by simp [frFactors]) h

theorem lucas_check : powMod frModulus 256 7 (frModulus - 1) 1 = 1 ∧
    ∀ q ∈ frFactors, powMod frModulus 256 7 ((frModulus - 1) / q) 1 ≠ 1 := by
  decide +kernel

theorem frModulus_lt : frModulus < 2 ^ 255 := by decide +kernel

theorem powMod_lt (m fuel : Nat) (hm : 0 < m) : ∀ a n acc, powMod m fuel a n acc < m := by
  induction fuel with
  | zero => intro a n acc; exact Nat.mod_lt _ hm
  | succ f ih => intro a n acc; rw [powMod]; exact ih _ _ _

theorem frModulus_prime : frModulus.Prime := by
  have hlt := frModulus_lt
  refine lucas_primality frModulus ((7 : Nat) : ZMod frModulus) ?_ ?_
  · rw [zmod_pow_eq (fuel := 256) (by omega) lucas_check.1]; simp
  · intro q hq hd h1
    have hm := mem_frFactors hq hd
    have hne := lucas_check.2 q hm
    have hle : (frModulus - 1) / q ≤ frModulus - 1 := Nat.div_le_self _ _
    rw [zmod_pow_eq (fuel := 256) (by omega) rfl] at h1
    have h0 : 0 < frModulus := by decide +kernel
    have h1' : (1 : ZMod frModulus) = ((1 : Nat) : ZMod frModulus) := by simp
    rw [h1', ZMod.natCast_eq_natCast_iff', Nat.mod_eq_of_lt (powMod_lt _ _ h0 _ _ _),
      Nat.mod_eq_of_lt (by decide +kernel)] at h1
    exact hne h1

instance : Fact frModulus.Prime := ⟨frModulus_prime⟩

theorem table_squares : ∀ i < 31,
    (wordsVal (scale2RootWords.getD (i + 1) [])) ^ 2 % frModulus =
      wordsVal (scale2RootWords.getD i []) := by
  decide +kernel

theorem table_zero : wordsVal (scale2RootWords.getD 0 []) = 1 := by decide +kernel
theorem table_one : wordsVal (scale2RootWords.getD 1 []) = frModulus - 1 := by decide +kernel
theorem table_len : scale2RootWords.length = 32 := by decide +kernel

/-- Row `i` of the table as a field element. -/
def tableRow (i : Nat) : Fr := frFromWords (scale2RootWords.getD i [])

theorem tableRow_zero : tableRow 0 = 1 := by rw [tableRow, frFromWords, table_zero]; simp

theorem tableRow_one : tableRow 1 = -1 := by
  have h : 1 ≤ frModulus := by decide +kernel
  rw [tableRow, frFromWords, table_one, Nat.cast_sub h]; simp

theorem tableRow_sq {i : Nat} (h : i < 31) : tableRow (i + 1) ^ 2 = tableRow i := by
  rw [tableRow, frFromWords, tableRow, frFromWords, ← Nat.cast_pow, ← table_squares i h]
  simp

theorem tableRow_pow {i : Nat} : ∀ j, i + j < 32 → tableRow (i + j) ^ (2 ^ j) = tableRow i := by
  intro j
  induction j with
  | zero => intro _; simp
  | succ j ih =>
    intro h
    rw [pow_succ, mul_comm, pow_mul, ← add_assoc, tableRow_sq (by omega), ih (by omega)]

theorem tableRow_primitive {i : Nat} (h : i < 32) : IsPrimitiveRoot (tableRow i) (2 ^ i) := by
  rcases i with _ | i
  · simp [tableRow_zero]
  · have h1 : tableRow (i + 1) ^ (2 ^ i) = -1 := by
      have := tableRow_pow (i := 1) i (by omega)
      rw [add_comm, this, tableRow_one]
    have h2 : tableRow (i + 1) ^ (2 ^ (i + 1)) = 1 := by
      rw [pow_succ, pow_mul, h1]; simp
    have hne : (-1 : Fr) ≠ 1 := by
      rw [← tableRow_one, tableRow, frFromWords, table_one]
      intro h
      have h1' : (1 : ZMod frModulus) = ((1 : Nat) : ZMod frModulus) := by simp
      rw [h1', ZMod.natCast_eq_natCast_iff'] at h
      revert h
      decide +kernel
    have := orderOf_eq_prime_pow (x := tableRow (i + 1)) (p := 2) (n := i) (by rw [h1]; exact hne) h2
    rw [← this]; exact IsPrimitiveRoot.orderOf _

end Kzg
