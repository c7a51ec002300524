import Verif.Model.PolyInterface
import Verif.Props.Poly
import Verif.Props.InteropFFT
import Verif.Props.ArkRecover
/-!
# Properties C154 to C156: the polynomial interface of the backends
-/

set_option linter.unusedSectionVars false

namespace Kzg.Props
open Kzg Kzg.Res Kzg.Zk Kzg.Zk.ScW Kzg.Iface Polynomial

/-! ## C154: storage -/

/-- What the functions that store and read coefficients are to do; `z` is the zero of the coefficients. -/
structure Stores {E : Type} (P : PolyTrait E) (z : E) : Prop where
  new : ∀ n, ∃ p, P.new n = .ok p ∧ p.length = n ∧ ∀ x ∈ p, x = z
  get : ∀ p i x, p[i]? = some x → P.getCoeffAt p i = .ok x
  get_out : ∀ p i, p.length ≤ i → P.getCoeffAt p i = .panic
  set : ∀ p i x, i < p.length → ∃ q, P.setCoeffAt p i x = .ok q ∧ q.length = p.length ∧ q[i]? = some x ∧
    ∀ j, j ≠ i → q[j]? = p[j]?
  set_out : ∀ p i x, p.length ≤ i → P.setCoeffAt p i x = .panic
  coeffs : ∀ p, P.getCoeffs p = .ok p
  len : ∀ p, P.len p = .ok p.length

theorem stores_of {E : Type} {P : PolyTrait E} {z : E} (h1 : ∀ n, P.new n = .ok (List.replicate n z))
    (h2 : ∀ p i, P.getCoeffAt p i = rd p i) (h3 : ∀ p i x, P.setCoeffAt p i x = wr p i x)
    (h4 : ∀ p, P.getCoeffs p = .ok p) (h5 : ∀ p, P.len p = .ok p.length) : Stores P z where
  new := fun n => ⟨_, h1 n, List.length_replicate, fun x hx => List.eq_of_mem_replicate hx⟩
  get := fun p i x h => by rw [h2, rd, h]
  get_out := fun p i h => by rw [h2]; exact rd_of_ge h
  set := fun p i x h => by
    refine ⟨p.set i x, by rw [h3, wr, if_pos h], List.length_set, List.getElem?_set_self h, fun j hj => ?_⟩
    exact List.getElem?_set_ne (Ne.symm hj)
  set_out := fun p i x h => by rw [h3, wr, if_neg (by omega)]
  coeffs := h4
  len := h5

/-- C154 (storage): in every backend a new polynomial has the requested number of coefficients, all zero; reading returns what
is stored; writing changes one coefficient and nothing else; both panic outside the list. -/
theorem C154_storage [Mcl.Lib Fr] :
    Stores blstPoly 0 ∧ Stores (zkPoly (F := ScW)) 0 ∧ Stores mclPoly 0 ∧ Stores arkPoly 0 :=
  ⟨stores_of (fun _ => rfl) (fun _ _ => rfl) (fun _ _ _ => rfl) (fun _ => rfl) fun _ => rfl,
    stores_of (fun _ => rfl) (fun _ _ => rfl) (fun _ _ _ => rfl) (fun _ => rfl) fun _ => rfl,
    stores_of (fun _ => rfl) (fun _ _ => rfl) (fun _ _ _ => rfl) (fun _ => rfl) fun _ => rfl,
    stores_of (fun _ => rfl) (fun _ _ => rfl) (fun _ _ _ => rfl) (fun _ => rfl) fun _ => rfl⟩

/-- C154 (default): the default polynomial is zero; it has no coefficient, in Arkworks one. -/
theorem C154_default [Mcl.Lib Fr] :
    blstPoly.default = .ok [] ∧ (zkPoly (F := ScW)).default = .ok [] ∧ mclPoly.default = .ok [] ∧
      arkPoly.default = .ok [0] ∧ ∀ x, arkPoly.eval [0] x = .ok 0 := by
  refine ⟨rfl, rfl, rfl, rfl, fun x => ?_⟩
  have h := C117_eval [0] x
  rw [List.length_singleton, Finset.sum_range_one, List.getD_cons_zero, zero_mul] at h
  exact congrArg Res.ok h

/-- C154 (history): after any sequence of writes within the list, every coefficient is the last value written to it, or zero
if there was none. -/
theorem C154_writes {E : Type} {P : PolyTrait E} {z : E} (hP : Stores P z) (n : Nat) (ws : List (Nat × E))
    (hw : ∀ w ∈ ws, w.1 < n) :
    ∃ p, (do let p ← P.new n; ws.foldlM (fun p (w : Nat × E) => P.setCoeffAt p w.1 w.2) p) = .ok p ∧ p.length = n ∧
      ∀ i < n, P.getCoeffAt p i = .ok (((ws.reverse.find? fun w => w.1 == i).map Prod.snd).getD z) := by
  obtain ⟨p0, h0, hl0, hz⟩ := hP.new n
  rw [h0, bind_ok]
  suffices H : ∀ (ws : List (Nat × E)) (p : List E), (∀ w ∈ ws, w.1 < n) → p.length = n →
      ∃ q, ws.foldlM (fun p (w : Nat × E) => P.setCoeffAt p w.1 w.2) p = .ok q ∧ q.length = n ∧
        ∀ i < n, q[i]? = ((ws.reverse.find? fun w => w.1 == i).map Prod.snd).or p[i]? by
    obtain ⟨q, h1, h2, h3⟩ := H ws p0 hw hl0
    refine ⟨q, h1, h2, fun i hi => hP.get _ _ _ ?_⟩
    rw [h3 i hi]
    have : p0[i]? = some z := by
      rw [List.getElem?_eq_getElem (by omega), hz _ (List.getElem_mem _)]
    rw [this]
    cases ws.reverse.find? fun w => w.1 == i <;> rfl
  intro ws
  induction ws with
  | nil => intro p _ hp; exact ⟨p, rfl, hp, fun i _ => by simp⟩
  | cons w ws ih =>
    intro p hw hp
    obtain ⟨q, h1, h2, h3, h4⟩ := hP.set p w.1 w.2 (by have := hw w (by simp); omega)
    obtain ⟨r', h5, h6, h7⟩ := ih q (fun w' h' => hw w' (by simp [h'])) (by omega)
    refine ⟨r', by rw [List.foldlM_cons, h1]; exact h5, h6, fun i hi => ?_⟩
    rw [h7 i hi, List.reverse_cons, List.find?_append]
    cases hf : ws.reverse.find? fun w => w.1 == i with
    | some v => simp
    | none =>
      by_cases hiw : w.1 = i
      · subst hiw; simp [h3]
      · rw [h4 i (Ne.symm hiw)]
        simp [hiw]

example : (do let p ← blstPoly.new 3; let p ← blstPoly.setCoeffAt p 1 7; blstPoly.getCoeffs p) = .ok [0, 7, 0] := rfl

/-! ## C155: scaling -/

/-- Scaling replaces `x` by `x / 5` and unscaling `x` by `5 x`, without changing the number of coefficients. -/
def Scales {E : Type} [Field E] (P : PolyTrait E) : Prop :=
  ∀ p : List E, (∃ q, P.scale p = .ok q ∧ q.length = p.length ∧ ∀ x, (polyOf q).eval x = (polyOf p).eval (x / 5)) ∧
    ∃ q, P.unscale p = .ok q ∧ q.length = p.length ∧ ∀ x, (polyOf q).eval x = (polyOf p).eval (5 * x)

theorem eval_scaled {E : Type} [Field E] [DecidableEq E] (p : List E) (f x c : E) :
    (polyOf ((List.range p.length).map fun i => p.getD i 0 * (c * f ^ i))).eval x = c * (polyOf p).eval (f * x) := by
  rw [eval_polyOf, eval_polyOf, List.length_map, List.length_range, Finset.mul_sum]
  refine Finset.sum_congr rfl fun i hi => ?_
  rw [List.getD_eq_getElem?_getD, List.getElem?_map, List.getElem?_range (Finset.mem_range.mp hi)]
  simp only [Option.map_some, Option.getD_some]
  ring

/-- C155 (partial): Arkworks. Missing from the full statement: the other backends, for which it is false
(`C155_extra_factor`, `C155_mcl_panics`). -/
theorem C155_ark_partial : Scales arkPoly := by
  intro p
  have h5 : (5 : Fr) ≠ 0 := LawfulFr.five_ne
  refine ⟨⟨_, Ark.scalePoly_eq h5 p, by simp [ZkP.scaled], fun x => ?_⟩,
    ⟨_, Ark.unscalePoly_eq p, by simp [ZkP.scaled], fun x => ?_⟩⟩
  · have h := eval_scaled p (5 : Fr)⁻¹ x 1
    simp only [one_mul] at h
    rw [ZkP.scaled, h, mul_comm, ← div_eq_mul_inv]
  · have h := eval_scaled p (5 : Fr) x 1
    simp only [one_mul] at h
    rw [ZkP.scaled, h]

theorem scaleBy_eval {E : Type} [Field E] [DecidableEq E] (f : E) (p : List E) :
    ∃ q, polyScaleBy f p = .ok q ∧ q.length = p.length ∧ ∀ x, (polyOf q).eval x = f * (polyOf p).eval (f * x) := by
  refine ⟨_, polyScaleBy_spec f p, by simp, fun x => ?_⟩
  rw [← eval_scaled p f x f]
  congr 2
  refine List.map_congr_left fun i _ => ?_
  rw [pow_succ']

/-- C155 (blst-from-scratch and zkcrypto): the result of scaling is `p(x/5) / 5`, that of unscaling `5 p(5x)`. -/
theorem C155_extra_factor (p : List Fr) (pz : List ScW) :
    (∃ q, blstPoly.scale p = .ok q ∧ q.length = p.length ∧ ∀ x, (polyOf q).eval x = (polyOf p).eval (x / 5) / 5) ∧
    (∃ q, blstPoly.unscale p = .ok q ∧ q.length = p.length ∧ ∀ x, (polyOf q).eval x = 5 * (polyOf p).eval (5 * x)) ∧
    (∃ q, zkPoly.scale pz = .ok q ∧ q.length = pz.length ∧ ∀ x, (polyOf q).eval x = (polyOf pz).eval (x / 5) / 5) ∧
    (∃ q, zkPoly.unscale pz = .ok q ∧ q.length = pz.length ∧ ∀ x, (polyOf q).eval x = 5 * (polyOf pz).eval (5 * x)) := by
  have inv : ∀ {E : Type} [Field E] [DecidableEq E] (p : List E),
      ∃ q, polyScale p = .ok q ∧ q.length = p.length ∧ ∀ x, (polyOf q).eval x = (polyOf p).eval (x / 5) / 5 := by
    intro E _ _ p
    obtain ⟨q, h1, h2, h3⟩ := scaleBy_eval (5 : E)⁻¹ p
    refine ⟨q, h1, h2, fun x => ?_⟩
    rw [h3, div_eq_mul_inv x, mul_comm x, div_eq_mul_inv, mul_comm]
  exact ⟨inv p, scaleBy_eval 5 p, inv pz, scaleBy_eval 5 pz⟩

/-- C155 (negation): neither backend replaces `x` by `x / 5`. -/
theorem C155_full_statement_false : ¬ Scales blstPoly ∧ ¬ Scales (zkPoly (F := ScW)) := by
  have key : ∀ {E : Type} [Field E] (P : PolyTrait E), (5 : E) ≠ 0 → (4 : E) ≠ 0 →
      (∃ q, P.unscale [1] = .ok q ∧ ∀ x, (polyOf q).eval x = 5 * (polyOf [(1 : E)]).eval (5 * x)) → ¬ Scales P := by
    intro E _ P h5 h4 ⟨q, h1, h2⟩ h
    obtain ⟨q', h3, _, h6⟩ := (h [1]).2
    rw [h1] at h3
    cases h3
    have e := (h2 0).symm.trans (h6 0)
    rw [eval_polyOf, List.length_singleton, Finset.sum_range_one] at e
    simp only [List.getD_cons_zero, pow_zero, mul_one] at e
    exact h4 (by linear_combination e)
  have h := C155_extra_factor [1] [1]
  refine ⟨key _ LawfulFr.five_ne (by decide +kernel) ?_, key _ LawfulFr.five_ne ?_ ?_⟩
  · obtain ⟨q, h1, _, h2⟩ := h.2.1
    exact ⟨q, h1, h2⟩
  · intro e
    have e' := congrArg el e
    rw [el_ofNat, el_zero] at e'
    revert e'
    decide +kernel
  · obtain ⟨q, h1, _, h2⟩ := h.2.2.2
    exact ⟨q, h1, h2⟩

/-- C155 (mcl-kzg): both functions panic. -/
theorem C155_mcl_panics [Mcl.Lib Fr] (p : List Fr) : mclPoly.scale p = .panic ∧ mclPoly.unscale p = .panic := ⟨rfl, rfl⟩

/-- C155 (round trips): where the functions return, each undoes the other. -/
theorem C155_roundtrip (p : List Fr) (pz : List ScW) :
    (do let q ← blstPoly.scale p; blstPoly.unscale q) = .ok p ∧ (do let q ← blstPoly.unscale p; blstPoly.scale q) = .ok p ∧
    (do let q ← arkPoly.scale p; arkPoly.unscale q) = .ok p ∧ (do let q ← arkPoly.unscale p; arkPoly.scale q) = .ok p ∧
    (do let q ← zkPoly.scale pz; zkPoly.unscale q) = .ok pz ∧ (do let q ← zkPoly.unscale pz; zkPoly.scale q) = .ok pz := by
  have by_eval : ∀ {E : Type} [Field E] [DecidableEq E] {f g c d : E}, f * g = 1 → c * d = 1 →
      ∀ p : List E, (List.range ((List.range p.length).map fun i => p.getD i 0 * (c * f ^ i)).length).map (fun i =>
        ((List.range p.length).map fun i => p.getD i 0 * (c * f ^ i)).getD i 0 * (d * g ^ i)) = p := by
    intro E _ _ f g c d hfg hcd p
    apply List.ext_getElem?
    intro i
    rw [List.length_map, List.length_range, List.getElem?_map]
    by_cases hi : i < p.length
    · rw [List.getElem?_range hi, List.getElem?_eq_getElem hi]
      simp only [Option.map_some, List.getD_eq_getElem?_getD, List.getElem?_map, List.getElem?_range hi, Option.getD_some,
        List.getElem?_eq_getElem hi]
      rw [mul_assoc, show c * f ^ i * (d * g ^ i) = c * d * (f * g) ^ i by rw [mul_pow]; ring, hfg, hcd, one_pow, mul_one,
        mul_one]
    · rw [List.getElem?_eq_none (by simpa using hi), List.getElem?_eq_none (by omega)]
      rfl
  have s : ∀ {E : Type} [Field E] [DecidableEq E] (f g : E), f * g = 1 → ∀ p : List E,
      (do let q ← polyScaleBy f p; polyScaleBy g q) = .ok p := by
    intro E _ _ f g h p
    rw [polyScaleBy_spec, bind_ok, polyScaleBy_spec]
    simp only [pow_succ']
    exact congrArg Res.ok (by_eval h h p)
  have h5 : (5 : Fr) ≠ 0 := LawfulFr.five_ne
  have h5z : (5 : ScW) ≠ 0 := LawfulFr.five_ne
  refine ⟨s _ _ (inv_mul_cancel₀ h5) p, s _ _ (mul_inv_cancel₀ h5) p, ?_, ?_, s _ _ (inv_mul_cancel₀ h5z) pz,
    s _ _ (mul_inv_cancel₀ h5z) pz⟩
  · show (do let q ← Ark.scalePoly p; Ark.unscalePoly q) = .ok p
    rw [Ark.scalePoly_eq h5, bind_ok, Ark.unscalePoly_eq]
    have := by_eval (inv_mul_cancel₀ h5) (one_mul (1 : Fr)) p
    simp only [one_mul] at this
    exact congrArg Res.ok this
  · show (do let q ← Ark.unscalePoly p; Ark.scalePoly q) = .ok p
    rw [Ark.unscalePoly_eq, bind_ok, Ark.scalePoly_eq h5]
    have := by_eval (mul_inv_cancel₀ h5) (one_mul (1 : Fr)) p
    simp only [one_mul] at this
    exact congrArg Res.ok this

/-- `1 + x` unscaled: `1 + 5x` in Arkworks, `5 + 25x` in blst-from-scratch. -/
example : arkPoly.unscale [1, 1] = .ok [1, 5] ∧ blstPoly.unscale [1, 1] = .ok [5, 25] := by
  constructor <;> decide +kernel

end Kzg.Props
