import Verif.Model.BenchLocal
import Verif.Props.BenchFft
import Verif.Props.BenchPoly
import Verif.Props.MclRecover
/-!
# Property C204: the local tests that are switched off
-/

set_option linter.unusedSectionVars false

namespace Kzg.Props
open Kzg Kzg.Res Kzg.Bench Kzg.Zk Kzg.Iface CurveConsts ScW

section
variable {F : Type} [Field F] [DecidableEq F]

theorem rootsRepeat_eq {new : Nat → Res (FFTSettings F)} {scale : Nat} {fs1 fs2 fs3 : FFTSettings F} (e1 : new scale = .ok fs1)
    (e2 : new (scale + 1) = .ok fs2) (e3 : new (scale + 2) = .ok fs3) (h1 : fs1.WF scale) (h2 : fs2.WF (scale + 1)) (h3 : fs3.WF (scale + 2)) :
    rootsRepeat new scale = passIf (fs1.omega (2 ^ scale) = fs2.omega (2 ^ scale) ∧ fs1.omega (2 ^ scale) = fs3.omega (2 ^ scale)) := by
  have o1 : fs1.omega (2 ^ scale) = fs1.rootOfUnity := by
    rw [FFTSettings.omega, h1.width, Nat.div_self (by positivity), pow_one]
  have o2 : fs2.omega (2 ^ scale) = fs2.rootOfUnity ^ 2 := by
    rw [FFTSettings.omega, h2.width, Nat.pow_div (by omega) (by omega), Nat.add_sub_cancel_left, pow_one]
  have o3 : fs3.omega (2 ^ scale) = fs3.rootOfUnity ^ 4 := by
    rw [FFTSettings.omega, h3.width, Nat.pow_div (by omega) (by omega), Nat.add_sub_cancel_left]
  have p1 : 2 ^ (scale + 1) = 2 * 2 ^ scale := by rw [pow_succ, mul_comm]
  have p2 : 2 ^ (scale + 2) = 4 * 2 ^ scale := by rw [pow_add, mul_comm]; norm_num
  rw [o1, o2, o3]
  unfold rootsRepeat
  rw [e1, unwrap_ok, bind_ok, e2, unwrap_ok, bind_ok, e3, unwrap_ok, bind_ok, h1.width]
  have hb : ∀ i < 2 ^ scale, (do
      let a ← rd fs1.expandedRoots i
      let b ← rd fs2.expandedRoots (i * 2)
      assertT (a == b)
      let a ← rd fs1.expandedRoots i
      let c ← rd fs3.expandedRoots (i * 4)
      assertT (a == c)) =
      assertT (decide (fs1.rootOfUnity ^ i = (fs2.rootOfUnity ^ 2) ^ i ∧ fs1.rootOfUnity ^ i = (fs3.rootOfUnity ^ 4) ^ i)) := by
    intro i hi
    rw [rd_of_getElem? (h1.exp i (by omega)), bind_ok, rd_of_getElem? (h2.exp (i * 2) (by omega)), bind_ok, bind_ok,
      rd_of_getElem? (h3.exp (i * 4) (by omega)), bind_ok, ← pow_mul, ← pow_mul, mul_comm 2 i, mul_comm 4 i]
    by_cases ha : fs1.rootOfUnity ^ i = fs2.rootOfUnity ^ (i * 2)
    · rw [assertT_true (by simpa using ha), bind_ok]
      congr 1
      rw [beq_eq_decide]
      simp [ha]
    · have : (fs1.rootOfUnity ^ i == fs2.rootOfUnity ^ (i * 2)) = false := by simpa using ha
      rw [this, decide_eq_false (fun h => ha h.1)]
      rfl
  by_cases h : fs1.rootOfUnity = fs2.rootOfUnity ^ 2 ∧ fs1.rootOfUnity = fs3.rootOfUnity ^ 4
  · rw [passIf_true h]
    refine each_ok fun i hi => (hb i hi).trans (assertT_true (decide_eq_true ⟨by rw [← h.1], by rw [← h.2]⟩))
  · rw [passIf_false h]
    have hs : 1 ≤ scale := by
      by_contra hc
      obtain rfl : scale = 0 := by omega
      apply h
      have a := h1.prim.pow_eq_one
      have b := h2.prim.pow_eq_one
      have c := h3.prim.pow_eq_one
      rw [pow_zero, pow_one] at a
      rw [show 2 ^ (0 + 1) = 2 from rfl] at b
      rw [show 2 ^ (0 + 2) = 4 from rfl] at c
      exact ⟨by rw [a, b], by rw [a, c]⟩
    refine each_panic hb ⟨1, Nat.one_lt_two_pow (by omega), decide_eq_false ?_⟩
    simpa using h

end

/-- C204 (roots, blst-from-scratch, Arkworks and zkcrypto): `roots_of_unity_repeat_at_stride` passes at every scale whose settings exist up to
two scales further, and panics otherwise. -/
theorem C204_roots_repeat (scale : Nat) :
    rootsRepeat (F := Fr) FFTSettings.new scale = passIf (scale < 30) ∧ rootsRepeat (F := Fr) Ark.settingsNew scale = passIf (scale < 30) ∧
    rootsRepeat (F := ScW) FFTSettings.new scale = passIf (scale < 30) := by
  have gen : ∀ {F : Type} [Field F] [DecidableEq F] {A : FftApi F F}, AllOk A Eq → rootsRepeat A.new scale = passIf (scale < 30) := by
    intro F _ _ A hA
    by_cases h : scale < 30
    · obtain ⟨f1, h1⟩ := hA.ok scale (by omega)
      obtain ⟨f2, h2⟩ := hA.ok (scale + 1) (by omega)
      obtain ⟨f3, h3⟩ := hA.ok (scale + 2) (by omega)
      rw [passIf_true h, rootsRepeat_eq h1.new h2.new h3.new h1.wf h2.wf h3.wf, passIf_true]
      exact ⟨hA.same h1.new h2.new le_rfl (by omega), hA.same h1.new h3.new le_rfl (by omega)⟩
    · rw [passIf_false h]
      unfold rootsRepeat
      by_cases a : scale < 32
      · obtain ⟨f1, h1⟩ := hA.ok scale a
        rw [h1.newU, bind_ok]
        by_cases b : scale + 1 < 32
        · obtain ⟨f2, h2⟩ := hA.ok (scale + 1) b
          rw [h2.newU, bind_ok, hA.err (scale + 2) (by omega)]; rfl
        · rw [hA.err (scale + 1) (by omega)]; rfl
      · rw [hA.err scale (by omega)]; rfl
  exact ⟨gen blst_all, gen ark_all, gen zk_all⟩

/-- C204 (roots, mcl-kzg): there the test fails exactly at the scales 5 and 6, because another table of roots is used from scale 7 on. -/
theorem C204_roots_repeat_mcl [Mcl.Lib Fr] {scale : Nat} (h : scale < 30) :
    rootsRepeat (F := Fr) Mcl.FFTSettings.new7 scale = passIf (scale ≠ 5 ∧ scale ≠ 6) := by
  obtain ⟨f1, k1, m1⟩ := mcl_made (size := scale) (by omega)
  obtain ⟨f2, k2, m2⟩ := mcl_made (size := scale + 1) (by omega)
  obtain ⟨f3, k3, m3⟩ := mcl_made (size := scale + 2) (by omega)
  rw [rootsRepeat_eq k1 k2 k3 m1.wf m2.wf m3.wf]
  have a := mcl_same_iff (by omega) (by omega) k1 k2 (by omega)
  have b := mcl_same_iff (by omega) (by omega) k1 k3 (by omega)
  by_cases c : scale ≠ 5 ∧ scale ≠ 6
  · rw [passIf_true c, passIf_true ⟨a.2 (by omega), b.2 (by omega)⟩]
  · rw [passIf_false c, passIf_false fun h => ?_]
    have := b.1 h.2
    omega

/-- C204 (padding): whatever is drawn, `poly_pad_works_rand` passes exactly if the polynomial is not longer than what it is padded to. -/
theorem C204_pad (n outLength : Nat) (x : Nat → Fr) : padWorks blstPoly n outLength x = passIf (n ≤ outLength) := by
  unfold padWorks
  rw [fillPoly_eq blst_polyGood.plain, bind_ok, polyPad_spec, bind_ok]
  have hget : ∀ i < n, ((List.range n).map x).getD i 0 = x i := fun i hi => by
    rw [List.getD_eq_getElem?_getD, List.getElem?_map, List.getElem?_range hi]; rfl
  have hpad : ∀ i < outLength, ((List.range outLength).map fun i => ((List.range n).map x).getD i 0)[i]? =
      some (((List.range n).map x).getD i 0) := fun i hi => by rw [List.getElem?_map, List.getElem?_range hi]; rfl
  have hb : ∀ i < n, (do
      let a ← blstPoly.getCoeffAt ((List.range outLength).map fun i => ((List.range n).map x).getD i 0) i
      let b ← blstPoly.getCoeffAt ((List.range n).map x) i
      assertT (a == b)) = assertT (decide (i < outLength)) := by
    intro i hi
    rw [blst_polyGood.plain.get, blst_polyGood.plain.get]
    by_cases ho : i < outLength
    · rw [rd_of_getElem? (hpad i ho), bind_ok, rd_of_getElem? (x := x i) (by rw [List.getElem?_map, List.getElem?_range hi]; rfl), bind_ok,
        hget i hi]
      simp [ho]
    · rw [rd, List.getElem?_eq_none (by simpa using ho), decide_eq_false ho]; rfl
  by_cases h : n ≤ outLength
  · rw [passIf_true h, each_ok fun i hi => (hb i hi).trans (assertT_true (decide_eq_true (by omega))), bind_ok]
    refine eachFrom_ok h fun i h1 h2 => ?_
    rw [blst_polyGood.plain.get, rd_of_getElem? (hpad i h2), bind_ok]
    refine assertT_true ?_
    rw [List.getD_eq_getElem?_getD, List.getElem?_eq_none (by simpa using h1)]
    simp
  · rw [passIf_false h, each_panic hb ⟨outLength, by omega, by simp⟩]; rfl

/-! ### Examples -/

/-- The scale of the test, and the one at which mcl-kzg fails it; a polynomial of length 7 padded to 1000. -/
example [Mcl.Lib Fr] (x : Nat → Fr) : rootsRepeat (F := Fr) FFTSettings.new 15 = .ok () ∧ rootsRepeat (F := Fr) Mcl.FFTSettings.new7 15 = .ok () ∧
    rootsRepeat (F := Fr) Mcl.FFTSettings.new7 5 = .panic ∧ padWorks blstPoly 7 1000 x = .ok () ∧ padWorks blstPoly 1001 1000 x = .panic := by
  refine ⟨?_, ?_, ?_, ?_, ?_⟩
  · rw [(C204_roots_repeat 15).1, passIf_true (by norm_num)]
  · rw [C204_roots_repeat_mcl (by norm_num), passIf_true (by norm_num)]
  · rw [C204_roots_repeat_mcl (by norm_num), passIf_false (by norm_num)]
  · rw [C204_pad, passIf_true (by norm_num)]
  · rw [C204_pad, passIf_false (by norm_num)]

end Kzg.Props
