import Verif.Model.Zk.Encoding
import Verif.Props.ZkCurve
import Verif.Props.ZkG1Bytes
import Verif.Props.ZkG2
/-!
# Property C174: encodings of projective points of zkcrypto

`Projective.Is b p P` says that the coordinates `p` stand for the point `P`; `frModulus • P = 0` that it lies in the prime order
subgroup.
-/

namespace Kzg.Props
open Kzg Kzg.Zk CurveConsts

section G1
open Kzg.Zk.G1
local notation "E" => curve (CurveConsts.b (K := FpW))

/-- C174: two points of the first group have the same bytes exactly if they compare equal, whatever their coordinates. -/
theorem C174_g1_bytes {p q : Proj} {P Q : (E).Point} (hp : Projective.Is b p P) (hq : Projective.Is b q Q) :
    (projToBytes p = projToBytes q ↔ p.ctEq q = true) ∧ (p.ctEq q = true ↔ P = Q) := by
  have h := C53_eq hp hq
  refine ⟨?_, h⟩
  rw [h]
  constructor
  · exact C58_canonical (ofProjective_is hp) (ofProjective_is hq)
  · rintro rfl
    rw [projToBytes, projToBytes, affine_is_inj (ofProjective_is hp) (ofProjective_is hq)]

/-- C174: reading back the bytes of a point of the subgroup gives the point, with last coordinate 0 or 1; without the test this holds
for every point of the curve. -/
theorem C174_g1_round_trip (chk : Bool) {p : Proj} {P : (E).Point} (hp : Projective.Is b p P) :
    ∃ q, Projective.Is b q P ∧ q.ctEq p = true ∧ (q.z = 0 ∨ q.z = 1) ∧
      projFromBytesUnchecked (projToBytes p) = some q ∧
      (frModulus • P = 0 → projFromBytes chk (projToBytes p) = .ok (some q)) := by
  have ha := ofProjective_is hp
  have hq := ofAffine_is ha
  refine ⟨Projective.ofAffine (Affine.ofProjective p), hq, (C53_eq hq hp).2 rfl, ?_, ?_, fun ht => ?_⟩
  · rw [Projective.ofAffine]; dsimp only; split <;> simp
  · obtain ⟨h1, h2⟩ := toCompressed_length (Affine.ofProjective p)
    have := (C58_unchecked h1 h2).2 ⟨⟨P, ha⟩, rfl⟩
    rw [projFromBytesUnchecked, projToBytes, affFromBytesUnchecked, affToBytes, this]; rfl
  · rw [projFromBytes, projToBytes, affFromBytes, affToBytes, C58_round_trip chk ha ht]; rfl

/-- C174: reading 48 bytes never panics; what it accepts is a point of the subgroup whose bytes are those read. -/
theorem C174_g1_decode (chk : Bool) {bs : List Nat} (hl : bs.length = 48) (hb : ∀ c ∈ bs, c < 256) :
    ∃ o, projFromBytes chk bs = .ok o ∧
      (∀ q, o = some q → (∃ P, Projective.Is b q P ∧ frModulus • P = 0) ∧ projToBytes q = bs) ∧
      (o = none → ∀ p P, Projective.Is b p P → frModulus • P = 0 → projToBytes p ≠ bs) := by
  obtain ⟨o, e, h⟩ := C58_decode chk hl hb
  refine ⟨o.map Projective.ofAffine, by rw [projFromBytes, affFromBytes, e]; rfl, fun q hq => ?_, fun ho p P hp ht hbs => ?_⟩
  · obtain ⟨a, ha, rfl⟩ := Option.map_eq_some_iff.mp hq
    obtain ⟨⟨P, hP, ht⟩, hbs⟩ := (h a).1 ha
    refine ⟨⟨P, ofAffine_is hP, ht⟩, ?_⟩
    rw [projToBytes, affToBytes, affine_is_inj (ofProjective_is (ofAffine_is hP)) hP, hbs]
  · have := (h (Affine.ofProjective p)).2 ⟨⟨P, ofProjective_is hp, ht⟩, hbs⟩
    rw [this] at ho
    simp at ho

example (chk : Bool) : ∃ q, projFromBytes chk (projToBytes generatorProj.double) = .ok (some q) ∧
    q.ctEq generatorProj.double = true := by
  have hd : Projective.Is b generatorProj.double (gen + gen) := double_is generatorProj_is
  obtain ⟨q, _, h2, _, _, h5⟩ := C174_g1_round_trip chk hd
  exact ⟨q, h5 (by rw [nsmul_add, order_gen, add_zero]), h2⟩

end G1

section G2
open Kzg.Zk.G2
local notation "E" => curve (CurveConsts.b (K := Fp2 FpW))

/-- C174: the same for the second group. -/
theorem C174_g2_bytes {p q : Proj} {P Q : (E).Point} (hp : Projective.Is b p P) (hq : Projective.Is b q Q) :
    (projToBytes p = projToBytes q ↔ p.ctEq q = true) ∧ (p.ctEq q = true ↔ P = Q) := by
  have h := C53_eq hp hq
  refine ⟨?_, h⟩
  rw [h]
  constructor
  · intro e
    obtain ⟨h1, h2⟩ := toCompressed_length (Affine.ofProjective p)
    have e1 := (fromCompressedUnchecked_iff h1 h2).2 ⟨⟨P, ofProjective_is hp⟩, rfl⟩
    have e2 := (fromCompressedUnchecked_iff h1 h2).2 ⟨⟨Q, ofProjective_is hq⟩, e.symm⟩
    have e3 := Option.some.inj (e1.symm.trans e2)
    exact affine_is_unique (ofProjective_is hp) (e3 ▸ ofProjective_is hq)
  · rintro rfl
    rw [projToBytes, projToBytes, affine_is_inj (ofProjective_is hp) (ofProjective_is hq)]

/-- C174: reading back the bytes of a point of the second group. -/
theorem C174_g2_round_trip {p : Proj} {P : (E).Point} (hp : Projective.Is b p P) :
    ∃ q, Projective.Is b q P ∧ q.ctEq p = true ∧ (q.z = 0 ∨ q.z = 1) ∧
      projFromBytesUnchecked (projToBytes p) = some q ∧
      (frModulus • P = 0 → projFromBytes (projToBytes p) = some q) := by
  have ha := ofProjective_is hp
  have hq := ofAffine_is ha
  obtain ⟨h1, h2⟩ := toCompressed_length (Affine.ofProjective p)
  refine ⟨Projective.ofAffine (Affine.ofProjective p), hq, (C53_eq hq hp).2 rfl, ?_, ?_, fun ht => ?_⟩
  · rw [Projective.ofAffine]; dsimp only; split <;> simp
  · have := (fromCompressedUnchecked_iff h1 h2).2 ⟨⟨P, ha⟩, rfl⟩
    rw [projFromBytesUnchecked, projToBytes, affFromBytesUnchecked, affToBytes, this]; rfl
  · rw [projFromBytes, projToBytes, affFromBytes, affToBytes, (C80_round_trip ha ht).1]; rfl

/-- C174: what is read from 96 bytes is a point of the subgroup whose bytes are those read. -/
theorem C174_g2_decode {bs : List Nat} (hl : bs.length = 96) (hb : ∀ c ∈ bs, c < 256) :
    (∀ q, projFromBytes bs = some q → (∃ P, Projective.Is b q P ∧ frModulus • P = 0) ∧ projToBytes q = bs) ∧
      (projFromBytes bs = none → ∀ p P, Projective.Is b p P → frModulus • P = 0 → projToBytes p ≠ bs) := by
  refine ⟨fun q hq => ?_, fun ho p P hp ht hbs => ?_⟩
  · obtain ⟨a, ha, rfl⟩ := Option.map_eq_some_iff.mp hq
    obtain ⟨⟨P, hP, ht⟩, hbs⟩ := (C80_decode_compressed hl hb).1 ha
    refine ⟨⟨P, ofAffine_is hP, ht⟩, ?_⟩
    rw [projToBytes, affToBytes, affine_is_inj (ofProjective_is (ofAffine_is hP)) hP, hbs]
  · have := (C80_decode_compressed hl hb).2 ⟨⟨P, ofProjective_is hp, ht⟩, hbs⟩
    rw [projFromBytes, affFromBytes, this] at ho
    simp at ho

example : ∃ q, projFromBytes (projToBytes generatorProj.double) = some q ∧ q.ctEq generatorProj.double = true := by
  have hd : Projective.Is b generatorProj.double (gen + gen) := double_is generatorProj_is
  obtain ⟨q, _, h2, _, _, h5⟩ := C174_g2_round_trip hd
  exact ⟨q, h5 (by rw [nsmul_add, order_gen, add_zero]), h2⟩

end G2

/-! ### Recommended window sizes -/

theorem wnafLoop_eq (n : Nat) : ∀ (rs : List Nat), rs.Pairwise (· < ·) → ∀ ret,
    wnafLoop n rs ret = ret + (rs.filter (· < n)).length
  | [], _, ret => by simp [wnafLoop]
  | r :: rs, h, ret => by
    rw [List.pairwise_cons] at h
    rw [wnafLoop]
    by_cases hn : n > r
    · rw [if_pos hn, wnafLoop_eq n rs h.2, List.filter_cons_of_pos (by simpa using hn), List.length_cons]
      omega
    · rw [if_neg hn, List.filter_cons_of_neg (by simpa using hn), List.filter_eq_nil_iff.mpr, List.length_nil, add_zero]
      intro a ha
      have := h.1 a ha
      simp only [decide_eq_true_eq]
      omega

/-- C174: the recommended window is 4 plus the number of thresholds exceeded: it never shrinks as the number of scalars grows, and
stays between 4 and 16 in the first group and between 4 and 15 in the second. -/
theorem C174_wnaf (n m : Nat) (h : n ≤ m) :
    (recommendedWnaf G1.recommendations n = 4 + (G1.recommendations.filter (· < n)).length ∧
      recommendedWnaf G2.recommendations n = 4 + (G2.recommendations.filter (· < n)).length) ∧
    (recommendedWnaf G1.recommendations n ≤ recommendedWnaf G1.recommendations m ∧
      recommendedWnaf G2.recommendations n ≤ recommendedWnaf G2.recommendations m) ∧
    recommendedWnaf G1.recommendations n ≤ 16 ∧ recommendedWnaf G2.recommendations n ≤ 15 := by
  have h1 := fun n => wnafLoop_eq n G1.recommendations (by decide) 4
  have h2 := fun n => wnafLoop_eq n G2.recommendations (by decide) 4
  have mono : ∀ rs : List Nat, (rs.filter (· < n)).length ≤ (rs.filter (· < m)).length := by
    intro rs
    refine (List.monotone_filter_right rs fun a ha => ?_).length_le
    simp only [decide_eq_true_eq] at ha ⊢
    omega
  have l1 := List.length_filter_le (fun x => decide (x < n)) G1.recommendations
  have l2 := List.length_filter_le (fun x => decide (x < n)) G2.recommendations
  have m1 := mono G1.recommendations
  have m2 := mono G2.recommendations
  rw [show G1.recommendations.length = 12 from rfl] at l1
  rw [show G2.recommendations.length = 11 from rfl] at l2
  simp only [recommendedWnaf, h1, h2]
  refine ⟨by simp, ⟨?_, ?_⟩, ?_, ?_⟩ <;> omega

example : recommendedWnaf G1.recommendations 1 = 4 ∧ recommendedWnaf G1.recommendations 100 = 9 ∧
    recommendedWnaf G2.recommendations 1000000 = 15 := by decide

end Kzg.Props
