import Verif.Props.ArkKzg

/-! C126: the seed from which Arkworks draws the secret. -/

namespace Kzg.Props
open Kzg Ark

variable {P G1 G2 GT : Type} [AddCommGroup G1] [Module Fr G1] [AddCommGroup G2] [Module Fr G2]
  [CommGroup GT] [DecidableEq GT]

/-- The number that eight bytes of `l`, from `k` on, are, most significant first. -/
def bigEndianAt (l : List Nat) (k : Nat) : Nat := (List.range 8).foldl (fun n i => 256 * n + l.getD (k + i) 0) 0

theorem be_bytes (a : Nat) : toBe64 a = [a / 256 ^ 7 % 256, a / 256 ^ 6 % 256, a / 256 ^ 5 % 256, a / 256 ^ 4 % 256, a / 256 ^ 3 % 256,
    a / 256 ^ 2 % 256, a / 256 % 256, a % 256] := by
  simp [toBe64, List.range_succ]

theorem be_value (a : Nat) (h : a < 2 ^ 64) : 256 * (256 * (256 * (256 * (256 * (256 * (256 * (256 * 0 + a / 256 ^ 7 % 256) + a / 256 ^ 6 % 256) +
    a / 256 ^ 5 % 256) + a / 256 ^ 4 % 256) + a / 256 ^ 3 % 256) + a / 256 ^ 2 % 256) + a / 256 % 256) + a % 256 = a := by
  norm_num at h ⊢
  omega

/-- C126 (seed): the seed consists of 32 bytes, which are the first four words of the `x` coordinate of the last point, in this order, each
with its most significant byte first. So two setups have the same seed exactly if these words agree. -/
theorem C126_seed {B : Ark.Backend P G1 G2 GT} {g1 : G1} {g2 : G2} (hB : B.Lawful g1 g2) (v : List P) (last : P)
    (hv : v.getLast? = some last) (hw : ∀ w ∈ B.xLimbs last, w < 2 ^ 64) :
    ∃ seed, rngSeed B v = .ok seed ∧ seed.length = 32 ∧ (∀ b ∈ seed, b < 256) ∧
      ∀ j < 4, (B.xLimbs last)[j]? = some (bigEndianAt seed (8 * j)) := by
  have hne : v ≠ [] := by rintro rfl; simp at hv
  rw [List.getLast?_eq_some_getLast hne] at hv
  cases hv
  refine ⟨_, rngSeed_eq hB hne, ?_⟩
  have h6 := hB.limbs (v.getLast hne)
  match hx : B.xLimbs (v.getLast hne), h6 with
  | [a, b, c, d, e, f], _ =>
    rw [hx] at hw
    have ha := hw a (by simp)
    have hb := hw b (by simp)
    have hc := hw c (by simp)
    have hd := hw d (by simp)
    refine ⟨by simp [toBe64, List.range_succ], ?_, ?_⟩
    · intro x hm
      have hm := List.mem_of_mem_take hm
      rw [List.mem_flatMap] at hm
      obtain ⟨y, -, hm⟩ := hm
      unfold toBe64 at hm
      rw [List.mem_map] at hm
      obtain ⟨i, -, rfl⟩ := hm
      exact Nat.mod_lt _ (by norm_num)
    · intro j hj
      simp only [List.flatMap_cons, be_bytes]
      have h8 : List.range 8 = [0, 1, 2, 3, 4, 5, 6, 7] := rfl
      interval_cases j
      · exact congrArg some (be_value a ha).symm
      · exact congrArg some (be_value b hb).symm
      · exact congrArg some (be_value c hc).symm
      · exact congrArg some (be_value d hd).symm

theorem C126_seed_iff {B : Ark.Backend P G1 G2 GT} {g1 : G1} {g2 : G2} (hB : B.Lawful g1 g2) (v v' : List P) (last last' : P)
    (hv : v.getLast? = some last) (hv' : v'.getLast? = some last') (hw : ∀ w ∈ B.xLimbs last, w < 2 ^ 64)
    (hw' : ∀ w ∈ B.xLimbs last', w < 2 ^ 64) :
    rngSeed B v = rngSeed B v' ↔ ∀ j < 4, (B.xLimbs last)[j]? = (B.xLimbs last')[j]? := by
  obtain ⟨s, h1, -, -, h2⟩ := C126_seed hB v last hv hw
  obtain ⟨s', h1', -, -, h2'⟩ := C126_seed hB v' last' hv' hw'
  constructor
  · intro h j hj
    rw [h1, h1'] at h
    cases h
    rw [h2 j hj, h2' j hj]
  · intro h
    have n1 : v ≠ [] := by rintro rfl; simp at hv
    have n2 : v' ≠ [] := by rintro rfl; simp at hv'
    rw [List.getLast?_eq_some_getLast n1] at hv
    rw [List.getLast?_eq_some_getLast n2] at hv'
    cases hv; cases hv'
    rw [rngSeed_eq hB n1, rngSeed_eq hB n2]
    have l1 := hB.limbs (v.getLast n1)
    have l2 := hB.limbs (v'.getLast n2)
    have key : ∀ l : List Nat, l.length = 6 → (l.flatMap toBe64).take 32 = (l.take 4).flatMap toBe64 := by
      intro l hl
      match l, hl with
      | [a, b, c, d, e, f], _ => simp [toBe64, List.range_succ]
    rw [key _ l1, key _ l2]
    congr 2
    apply List.ext_getElem?
    intro j
    by_cases hj : j < 4
    · rw [List.getElem?_take_of_lt hj, List.getElem?_take_of_lt hj, h j hj]
    · rw [List.getElem?_eq_none (by simp; omega), List.getElem?_eq_none (by simp; omega)]

/-- The word `0x0102030405060708` gives the bytes one to eight. -/
example : toBe64 0x0102030405060708 = [1, 2, 3, 4, 5, 6, 7, 8] ∧ bigEndianAt [1, 2, 3, 4, 5, 6, 7, 8] 0 = 0x0102030405060708 := by decide

end Kzg.Props
