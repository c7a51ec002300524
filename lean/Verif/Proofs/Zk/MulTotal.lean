import Verif.Proofs.Zk.G1Bytes
/-!
# Without overflow checks the multiplication of the first group always returns

The value may be wrong (C54), but there is always one: nothing in `multiply` panics apart from overflows.
-/

namespace Kzg.Zk.Glv
open Kzg

set_option linter.unusedSectionVars false

theorem addU64_release (a b : Nat) : ∃ c, addU64 false a b = .ok c := by
  unfold addU64
  split
  · exact ⟨_, rfl⟩
  · exact ⟨_, rfl⟩

theorem subI8_release (a b : Int) : ∃ c, subI8 false a b = .ok c := by
  unfold subI8
  split
  · exact ⟨_, rfl⟩
  · exact ⟨_, rfl⟩

theorem recode_release (n : Nat) : ∀ sc : List Nat, 0 < sc.length → ∃ ds, recode false n sc = .ok ds := by
  induction n with
  | zero =>
    intro sc hl
    obtain ⟨c, rest, rfl⟩ := List.exists_cons_of_length_pos hl
    exact ⟨_, rfl⟩
  | succ n ih =>
    intro sc hl
    obtain ⟨c, rest, rfl⟩ := List.exists_cons_of_length_pos hl
    obtain ⟨d, hd⟩ := subI8_release (asI8 (c &&& 31)) 16
    obtain ⟨e, he⟩ := subI8_release (asI8 c) d
    obtain ⟨ds, hds⟩ := ih (shiftBytes (setFirst (c :: rest) (asU8 e))) (by
      rw [shiftBytes_length, setFirst, List.length_set]; exact hl)
    refine ⟨d :: ds, ?_⟩
    rw [recode, show rd (c :: rest) 0 = .ok c from rfl, Res.bind_ok, hd, Res.bind_ok, he, Res.bind_ok, hds, Res.bind_ok]
    rfl

theorem scalar_toBytes_pos (s : Scalar) : 0 < (makeOdd (Scalar.toBytes s)).length := by
  rw [makeOdd, List.length_set, Scalar.toBytes]
  simp [toLe_length]

theorem glvRecoding_release (k : List Nat) :
    ∃ (s1 : Int) (a : Scalar) (s2 : Int) (b : Scalar), glvRecoding false k = .ok (s1, Scalar.toBytes a, s2, Scalar.toBytes b) := by
  unfold glvRecoding
  simp only
  obtain ⟨h, hh⟩ := addU64_release
    (mulShort (fromLe (k.take 8)) (fromLe ((k.drop 8).take 8)) (fromLe ((k.drop 16).take 8)) (fromLe ((k.drop 24).take 8))
      0x63f6e522f6cfee2f 0x7c6becf1e01faadd 1).r4
    (shr (mulShort (fromLe (k.take 8)) (fromLe ((k.drop 8).take 8)) (fromLe ((k.drop 16).take 8)) (fromLe ((k.drop 24).take 8))
      0x63f6e522f6cfee2f 0x7c6becf1e01faadd 1).r3 63)
  rw [hh, Res.bind_ok]
  exact ⟨_, _, _, _, rfl⟩

variable {K : Type} [Field K] [DecidableEq K] [LawfulCurve K]

theorem digitPoint_release (table : List (Affine K)) (d s : Int) : ∃ t, digitPoint false table d s = .ok t := by
  unfold digitPoint
  simp only
  obtain ⟨a, ha⟩ := subI8_release (xorI8 d (if d < 0 then -1 else 0)) (if d < 0 then -1 else 0)
  rw [ha, Res.bind_ok]
  exact ⟨_, rfl⟩

theorem multiplyLoop_release (β : K) (table : List (Affine K)) (s1 s2 : Int) (ds : List (Int × Int)) (acc : Projective K) :
    ∃ q, multiplyLoop false β table s1 s2 ds acc = .ok q := by
  induction ds with
  | nil => exact ⟨acc, rfl⟩
  | cons d ds ih =>
    obtain ⟨q, hq⟩ := ih
    obtain ⟨d1, d2⟩ := d
    obtain ⟨t, ht⟩ := digitPoint_release table d1 s1
    obtain ⟨u, hu⟩ := digitPoint_release table d2 s2
    rw [multiplyLoop, hq, Res.bind_ok, multiplyStep]
    simp only
    rw [ht, Res.bind_ok, hu, Res.bind_ok]
    exact ⟨_, rfl⟩

/-- Whatever the point and the bytes. -/
theorem multiply_release (β : K) (p : Projective K) (k : List Nat) : ∃ q, multiply false β p k = .ok q := by
  obtain ⟨s1, a, s2, b, e⟩ := glvRecoding_release k
  obtain ⟨t, ts, et⟩ := precompute_ok p
  obtain ⟨d1, h1⟩ := recode_release 32 _ (scalar_toBytes_pos a)
  obtain ⟨d2, h2⟩ := recode_release 32 _ (scalar_toBytes_pos b)
  obtain ⟨q, hq⟩ := multiplyLoop_release β (t :: ts) s1 s2 (d1.zip d2) Projective.identity
  rw [multiply, e, Res.bind_ok]
  simp only
  rw [et, Res.bind_ok, regularRecoding, h1, Res.bind_ok, regularRecoding, h2, Res.bind_ok, hq, Res.bind_ok,
    show rd (t :: ts) 0 = .ok t from rfl, Res.bind_ok]
  exact ⟨_, rfl⟩

end Kzg.Zk.Glv
