import Verif.Proofs.Zk.Pippenger
/-!
# Properties C41 and C51: multi-scalar multiplication of zkcrypto

The points range over an arbitrary commutative group; in particular nothing is assumed about their
order. `x.val • p` adds `p` to itself as often as the canonical integer of the scalar says.
-/

namespace Kzg.Props
open Kzg Kzg.Zk Kzg.Zk.Msm

/-- C41: the bucket method returns the linear combination, for all lists of scalars and points; the
shorter list decides. It never panics. -/
theorem C41_msm_variable_base {G : Type} [AddCommGroup G] {scalars : List Scalar} {xs : List Fr}
    (h : List.Forall₂ Scalar.Rep scalars xs) (points : List G) :
    msmVariableBase (fun t => t + t) points scalars = .ok (List.zipWith (fun (x : Fr) p => x.val • p) xs points).sum :=
  msmVariableBase_spec h points

/-- C41: in a group whose order divides the scalar field size, this is the linear combination over the
scalar field. -/
theorem C41_msm_module {G : Type} [AddCommGroup G] [Module Fr G] {scalars : List Scalar} {xs : List Fr}
    (h : List.Forall₂ Scalar.Rep scalars xs) (points : List G) :
    msmVariableBase (fun t => t + t) points scalars = .ok (List.zipWith (fun (x : Fr) p => x • p) xs points).sum := by
  rw [msmVariableBase_spec h points]
  congr 3
  funext x p
  rw [← Nat.cast_smul_eq_nsmul Fr, ZMod.natCast_zmod_val]

/-- C41: the result is right for every window width from 1 to 64, not only the one picked from the
length. -/
theorem C41_every_width {G : Type} [AddCommGroup G] {c : Nat} (h0 : 0 < c) (hc : c ≤ 64) {scalars : List Scalar}
    {xs : List Fr} (h : List.Forall₂ Scalar.Rep scalars xs) (points : List G) :
    (do let sums ← windowSums c points scalars (windowStarts c)
        let lowest ← rd sums 0
        let rest ← sliceFrom sums 1
        .ok (rest.reverse.foldl (fun total s => doubles (fun t => t + t) c (total + s)) 0 + lowest))
      = .ok (List.zipWith (fun (x : Fr) p => x.val • p) xs points).sum := msm_any_width h0 hc h points

/-- C51: recoding a scalar into signed digits of 6, 7 or 8 bits keeps its value, each digit lies in
`[-2^(w-1), 2^(w-1))`, and no arithmetic on 8-bit integers overflows. -/
theorem C51_radix {s : Scalar} {x : Fr} (hs : Scalar.Rep s x) {w : Nat} (hw : w = 6 ∨ w = 7 ∨ w = 8) :
    ∃ ds, toRadix2w s w = .ok ds ∧ ds.length = 43 ∧
      (∀ d ∈ ds, -2 ^ (w - 1) ≤ d ∧ d < 2 ^ (w - 1)) ∧
      ((List.range 43).map fun j => 2 ^ (w * j) * ds.getD j 0).sum = (x.val : Int) := by
  obtain ⟨ds, e, hl, hr, hz, hv⟩ := toRadix2w_spec hs hw
  refine ⟨ds, e, hl, ?_, ?_⟩
  · intro d hd
    obtain ⟨j, hj, rfl⟩ := List.mem_iff_getElem.1 hd
    have := hr j
    rwa [List.getD_eq_getElem _ _ hj] at this
  · rw [← hv]
    obtain ⟨t, ht⟩ : ∃ t, 43 = (256 + w - 1) / w + t :=
      ⟨43 - (256 + w - 1) / w, by rcases hw with rfl | rfl | rfl <;> simp⟩
    rw [ht, List.range_add, List.map_append, List.sum_append, List.map_map]
    have : ((List.range t).map ((fun j => 2 ^ (w * j) * ds.getD j 0) ∘ fun x => (256 + w - 1) / w + x)).sum = 0 := by
      apply List.sum_eq_zero
      intro y hy
      simp only [List.mem_map, Function.comp_apply] at hy
      obtain ⟨j, -, rfl⟩ := hy
      rw [hz _ (by omega), mul_zero]
    rw [this, add_zero]

/-- C51: Pippenger's method with signed digits returns the linear combination. -/
theorem C51_pippenger {G : Type} [AddCommGroup G] {scalars : List Scalar} {xs : List Fr}
    (h : List.Forall₂ Scalar.Rep scalars xs) (points : List G) :
    pippenger points scalars = .ok (List.zipWith (fun (x : Fr) p => x.val • p) xs points).sum :=
  pippenger_spec h points

/-- C51: both methods agree. -/
theorem C51_agree {G : Type} [AddCommGroup G] {scalars : List Scalar} (h : ∀ s ∈ scalars, Scalar.Red s)
    (points : List G) : pippenger points scalars = msmVariableBase (fun t => t + t) points scalars := by
  have : ∃ xs, List.Forall₂ Scalar.Rep scalars xs := by
    induction scalars with
    | nil => exact ⟨[], .nil⟩
    | cons s ss ih =>
      obtain ⟨x, hx⟩ := Scalar.red_rep (h s (by simp))
      obtain ⟨xs, hxs⟩ := ih fun t ht => h t (by simp [ht])
      exact ⟨x :: xs, .cons hx hxs⟩
  obtain ⟨xs, hxs⟩ := this
  rw [pippenger_spec hxs, msmVariableBase_spec hxs]

/-- `5 · 7 + 1 · 100 + 0 · 9`, with more scalars than points; `1` and `0` take their own branches. -/
example : msmVariableBase (fun t => t + t) [(7 : Int), 100, 9] [Scalar.ofU64 5, Scalar.one, Scalar.zero, Scalar.ofU64 3] = .ok 135 := by
  have h : List.Forall₂ Scalar.Rep [Scalar.ofU64 5, Scalar.one, Scalar.zero, Scalar.ofU64 3]
      [((5 : Nat) : Fr), 1, 0, ((3 : Nat) : Fr)] :=
    .cons (Scalar.ofU64_rep (by simp [W])) (.cons Scalar.one_rep (.cons Scalar.zero_rep
      (.cons (Scalar.ofU64_rep (by simp [W])) .nil)))
  rw [C41_msm_variable_base h]
  have h5 : ((5 : Nat) : Fr).val = 5 := by rw [ZMod.val_natCast]; simp [frModulus]
  simp only [List.zipWith_cons_cons, List.zipWith_nil_right, List.sum_cons, List.sum_nil, h5, val_one, ZMod.val_zero]
  norm_num

/-- Digits of `2^64 - 1` with width 6: minus one, then a carry up to bit 64. -/
example : (toRadix2w (Scalar.ofU64 0xffffffffffffffff) 6).unwrap
    = .ok ([-1, 0, 0, 0, 0, 0, 0, 0, 0, 0, 16] ++ List.replicate 32 0) := by decide +kernel

end Kzg.Props
