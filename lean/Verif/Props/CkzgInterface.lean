import Verif.Spec.CkzgInterface
import Verif.Props.Interface
import Verif.Props.GroupInterface
/-!
# Properties C141 (what holds of ckzg) and C161: the field elements and groups of ckzg
-/

namespace Kzg.Props
open Kzg Kzg.Iface Kzg.Zk Kzg.Consts CurveConsts

local notation "E1" => curve (CurveConsts.b (K := FpW))
local notation "E2" => curve (CurveConsts.b (K := Fp2 FpW))

/-- C141 (what holds of ckzg): if the C library does what its functions are named for, everything but subtraction and
the two inverses, also for words from the modulus on, division by zero and null. -/
theorem C141_ckzg_partial {E : Type} {C : CFr E} {Rep : E → Fr → Prop} (h : CFrRight C Rep) : Consts (Iface.ckzg C) Rep ∧
    FromU64 (Iface.ckzg C) Rep ∧ FromAllWords (Iface.ckzg C) Rep ∧ ToWords (Iface.ckzg C) Rep ∧
    Tests (Iface.ckzg C) Rep ∧ Iface.Ring (Iface.ckzg C) Rep ∧ Iface.Pow (Iface.ckzg C) Rep ∧
    Iface.Div (Iface.ckzg C) Rep ∧ DivZero (Iface.ckzg C) Rep ∧ NullIsNull (Iface.ckzg C) ∧
    NullIsNone (Iface.ckzg C) Rep := by
  refine ⟨⟨⟨_, rfl, h.zeroed⟩, ⟨_, rfl, ?_⟩, ⟨_, rfl, ?_⟩⟩, fun v hv => ⟨_, rfl, h.fromUint64 v hv⟩,
    fun u hu => ⟨_, rfl, h.fromUint64s u hu⟩, fun e x he => ⟨_, rfl, h.toUint64s e x he⟩, fun e x he => ⟨?_, ?_, ?_⟩,
    fun e x he => ⟨⟨_, rfl, h.sqr e x he⟩, ⟨_, rfl, h.negate e x he⟩, fun f y hf =>
      ⟨⟨_, rfl, h.mul e x f y he hf⟩, ⟨_, rfl, h.add e x f y he hf⟩⟩⟩, fun e x he n hn => ⟨_, rfl, h.pow e x n he hn⟩,
    fun e x f y he hf _ => ⟨_, rfl, h.div e x f y he hf⟩, fun e x f he hf => ⟨_, rfl, ?_⟩,
    ⟨_, rfl, congrArg Res.ok h.isNull.1⟩, fun e x he => congrArg Res.ok (h.isNull.2 e x he)⟩
  · have := h.fromUint64 0 (by norm_num)
    rwa [Nat.cast_zero] at this
  · have := h.fromUint64 1 (by norm_num)
    rwa [Nat.cast_one] at this
  · exact congrArg Res.ok (h.isOne e x he)
  · exact congrArg Res.ok (h.isZero e x he)
  · exact fun f y hf => congrArg Res.ok (h.equal e x f y he hf)
  · have := h.div e x f 0 he hf
    rwa [div_zero] at this

/-- The value of a call that returns. -/
def valueOf (r : Res Scalar) : Scalar :=
  match r with
  | .ok e => e
  | _ => Scalar.zero

theorem valueOf_rep {r : Res Scalar} {x : Fr} (h : Gives Scalar.Rep r x) : Scalar.Rep (valueOf r) x := by
  obtain ⟨e, rfl, he⟩ := h
  exact he

/-- A library for the field elements of ckzg exists: the words are those of zkcrypto, so its functions will do. -/
def toyCFr : CFr Scalar where
  zeroed := Scalar.zero
  ones := Scalar.null
  fromUint64 v := valueOf (Iface.zk.fromU64 v)
  fromUint64s u := valueOf (Iface.zk.fromU64Arr u)
  toUint64s e := match Iface.zk.toU64Arr e with | .ok u => u | _ => []
  isZero e := Scalar.ctEq e Scalar.zero
  isNull e := Scalar.ctEq e Scalar.null
  isOne e := Scalar.ctEq e Scalar.one
  equal e f := Scalar.ctEq e f
  negate := Scalar.neg
  pow e n := valueOf (Iface.zk.pow e n)
  div e f := valueOf (Iface.zk.div e f)
  add := Scalar.add
  sqr := Scalar.square
  mul := Scalar.mul

theorem toyCFr_right : CFrRight toyCFr Scalar.Rep where
  onto := C138_contract.onto
  zeroed := C36_constants.1
  fromUint64 v hv := valueOf_rep (C138_contract.fromU64 v hv)
  fromUint64s u hu := valueOf_rep (C138_contract.fromAllWords u hu)
  toUint64s e x h := by
    obtain ⟨u, hu, h'⟩ := C138_contract.toWords e x h
    show Words4 (match Iface.zk.toU64Arr e with | .ok u => u | _ => []) ∧
      wordsVal (match Iface.zk.toU64Arr e with | .ok u => u | _ => []) = _
    rw [hu]
    exact h'
  isZero e x h := ctEq_decide h C36_constants.1
  isOne e x h := ctEq_decide h C36_constants.2.1
  isNull := ⟨by decide +kernel, fun e x h => C46_null_is_no_value h.1⟩
  equal e x f y h h' := ctEq_decide h h'
  negate e x h := C36_neg h
  pow e x n h hn := valueOf_rep (C138_contract.pow e x h n hn)
  div e x f y h h' := by
    rcases eq_or_ne y 0 with rfl | hy
    · rw [div_zero]; exact valueOf_rep (C138_contract.divZero e x f h h')
    · exact valueOf_rep (C138_contract.div e x f y h h' hy)
  add e x f y h h' := C36_add h h'
  sqr e x h := by rw [pow_two]; exact C37_square h
  mul e x f y h h' := C37_mul h h'

/-- C161: the first group of ckzg keeps the whole contract if the C library does what its functions are named for. -/
theorem C161_g1 {S : Type} {SRep : S → Fr → Prop} {L : CGroup S BlstP1} (hL : CGroupRight L Jac1 SRep G1.gen) :
    G1Contract (ckzgG1 L) Jac1 SRep G1.gen where
  default := ⟨_, rfl, C133_identity.1⟩
  identity := ⟨_, rfl, C133_identity.1⟩
  generator := ⟨_, rfl, hL.generator⟩
  negativeGenerator := ⟨_, rfl, C133_g1_negative.2.1⟩
  addRight e P f Q h h' := ⟨_, _, rfl, by rw [add_comm]; exact hL.addOrDbl f Q e P h' h⟩
  addKeeps _ _ _ _ _ _ _ _ h := (Prod.mk.inj (Res.ok.inj h)).1.symm
  isInf e P h := ⟨_, rfl, hL.isInf e P h⟩
  dbl e P h := ⟨_, rfl, hL.dbl e P h⟩
  sub e P f Q h h' := ⟨_, rfl, hL.sub e P f Q h h'⟩
  equals e P f Q h h' := ⟨_, rfl, hL.equal e P f Q h h'⟩
  mul e P s x h hP hs := ⟨_, rfl, hL.mul e P s x h hP hs⟩

/-- C161: so does the second group. -/
theorem C161_g2 {S : Type} {SRep : S → Fr → Prop} {L : CGroup S BlstP2} (hL : CGroupRight L Jac2 SRep G2.gen) :
    G2Contract (ckzgG2 L) Jac2 SRep G2.gen where
  default := ⟨_, rfl, ⟨0, 0, 0, rfl, .infinity _ _⟩⟩
  generator := ⟨_, rfl, hL.generator⟩
  negativeGenerator := ⟨_, rfl, C133_g2_negative.2.1⟩
  addRight e P f Q h h' := ⟨_, _, rfl, hL.addOrDbl e P f Q h h'⟩
  addKeeps _ _ _ _ _ _ _ _ h := (Prod.mk.inj (Res.ok.inj h)).1.symm
  dbl e P h := ⟨_, rfl, hL.dbl e P h⟩
  sub e P f Q h h' := ⟨_, rfl, hL.sub e P f Q h h'⟩
  equals e P f Q h h' := ⟨_, rfl, hL.equal e P f Q h h'⟩
  mul e P s x h hP hs := ⟨_, rfl, hL.mul e P s x h hP hs⟩

/-- C161: a random point is a multiple of the generator, and every multiple can come out. -/
theorem C161_rand {S : Type} {SRep : S → Fr → Prop} {C : CFr S} (hC : CFrRight C SRep) {L : CGroup S BlstP1}
    (hL : CGroupRight L Jac1 SRep G1.gen) :
    (∀ u, Words4 u → Jac1 (ckzgG1Rand C L u) (wordsVal u • G1.gen)) ∧
    (∀ n : Nat, ∃ u, Words4 u ∧ Jac1 (ckzgG1Rand C L u) (n • G1.gen)) := by
  have ho : frModulus • G1.gen = 0 := by rw [← C56_generator.2.2]; exact addOrderOf_nsmul_eq_zero _
  have hm : ∀ n : Nat, (n : Fr).val • G1.gen = n • G1.gen := by
    intro n
    rw [ZMod.val_natCast]
    conv_rhs => rw [← Nat.mod_add_div n frModulus, add_nsmul, mul_nsmul, ho, nsmul_zero, add_zero]
  have h1 : ∀ u, Words4 u → Jac1 (ckzgG1Rand C L u) (wordsVal u • G1.gen) := by
    intro u hu
    rw [← hm]
    exact hL.mul _ _ _ _ hL.generator ho (hC.fromUint64s u hu)
  refine ⟨h1, fun n => ⟨uint64FromFr n, (canonical_words _).1, ?_⟩⟩
  rw [← hm, ← (canonical_words (n : Fr)).2]
  exact h1 _ (canonical_words _).1

/-- A library for the points exists: choose any coordinates of the right point. -/
theorem cgroup_exists {S E G : Type} [AddCommGroup G] {Rep : E → G → Prop} {SRep : S → Fr → Prop}
    (hex : ∀ P, ∃ e, Rep e P) (hu : ∀ e P Q, Rep e P → Rep e Q → P = Q) (hs : ∀ s x y, SRep s x → SRep s y → x = y)
    (g : G) : ∃ L : CGroup S E, CGroupRight L Rep SRep g := by
  classical
  choose r hr using hex
  let pt : E → G := fun e => if h : ∃ P, Rep e P then h.choose else 0
  have hpt : ∀ e P, Rep e P → pt e = P := by
    intro e P h
    have hex : ∃ P, Rep e P := ⟨P, h⟩
    show (if h : ∃ P, Rep e P then h.choose else 0) = P
    rw [dif_pos hex]
    exact hu _ _ _ hex.choose_spec h
  let sc : S → Fr := fun s => if h : ∃ x, SRep s x then h.choose else 0
  have hsc : ∀ s x, SRep s x → sc s = x := by
    intro s x h
    have hex : ∃ x, SRep s x := ⟨x, h⟩
    show (if h : ∃ x, SRep s x then h.choose else 0) = x
    rw [dif_pos hex]
    exact hs _ _ _ hex.choose_spec h
  refine ⟨⟨r g, fun e f => r (pt e + pt f), fun e f => decide (pt e = pt f), fun e s => r ((sc s).val • pt e),
    fun e => r (pt e + pt e), fun e f => r (pt e - pt f), fun e => decide (pt e = 0)⟩, hr g, ?_, ?_, ?_, ?_, ?_, ?_⟩
  · intro e P f Q h h'; simp only [hpt e P h, hpt f Q h']; exact hr _
  · intro e P f Q h h'; simp [hpt e P h, hpt f Q h']
  · intro e P s x h _ h'; simp only [hpt e P h, hsc s x h']; exact hr _
  · intro e P h; simp only [hpt e P h]; exact hr _
  · intro e P f Q h h'; simp only [hpt e P h, hpt f Q h']; exact hr _
  · intro e P h; simp [hpt e P h]

theorem jac1_exists (P : (E1).Point) : ∃ p, Jac1 p P := by
  cases P with
  | zero => exact ⟨_, C133_identity.1⟩
  | some x y h => exact ⟨_, x, y, 1, rfl, jac_one h⟩

/-- With such a library the contract is not empty: adding the generator of the source and its negative gives the point at
infinity, and the answer says so. -/
example : ∃ L : CGroup Scalar BlstP1, CGroupRight L Jac1 Scalar.Rep G1.gen ∧ ∃ r,
    (ckzgG1 L).addOrDbl L.generator ckzgG1NegativeGenerator = .ok (L.generator, r) ∧ (ckzgG1 L).isInf r = .ok true ∧
    (ckzgG1 L).isInf L.generator = .ok false := by
  obtain ⟨L, hL⟩ := cgroup_exists (S := Scalar) (SRep := Scalar.Rep) jac1_exists (fun _ _ _ => C133_unique)
    (fun _ _ _ => Scalar.rep_unique) G1.gen
  have C := C161_g1 hL
  obtain ⟨s, r, h, hr⟩ := C.addRight _ _ _ _ hL.generator C133_g1_negative.2.1
  rw [add_neg_cancel] at hr
  have e := C.addKeeps _ _ _ _ _ _ hL.generator C133_g1_negative.2.1 h
  subst e
  obtain ⟨a, ha, hi⟩ := C.isInf _ _ hr
  obtain ⟨a', ha', hi'⟩ := C.isInf _ _ hL.generator
  refine ⟨L, hL, r, h, by rw [ha, hi.2 rfl], ?_⟩
  rw [ha']
  have hne : G1.gen ≠ 0 := by
    intro h0
    have := C56_generator.2.2
    rw [h0, addOrderOf_zero] at this
    exact absurd this (by decide +kernel)
  exact congrArg Res.ok (Bool.eq_false_iff.2 fun h => hne (hi'.1 h))

end Kzg.Props
