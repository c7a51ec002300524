import Verif.Model.BenchDivCommit
import Verif.Props.BenchPoly
import Verif.Props.KZG
import Verif.Props.MclKzg
import Verif.Props.ArkKzg
import Verif.Props.ZkKzg
/-!
# Property C202: the benchmarks of division and of commitments
-/

set_option linter.unusedSectionVars false

namespace Kzg.Props
open Kzg Kzg.Res Kzg.Bench Kzg.Zk Kzg.Iface Polynomial

/-- The coefficients drawn, with a one for a zero at the top. -/
def toppedUp {F : Type} [Field F] [DecidableEq F] (n : Nat) (x : Nat → F) : List F :=
  (List.range n).map fun i => if i + 1 = n ∧ x i = 0 then 1 else x i

theorem fixLead_toppedUp {F : Type} [Field F] [DecidableEq F] {T : PolyTrait F} (hT : Plain T) {n : Nat} (hn : 1 ≤ n) (x : Nat → F) :
    fixLead T ((List.range n).map x) = .ok (toppedUp n x) ∧ Lead (toppedUp n x) ∧ (toppedUp n x).length = n := by
  obtain ⟨k, rfl⟩ : ∃ k, n = k + 1 := ⟨n - 1, by omega⟩
  have hl : ((List.range (k + 1)).map x).length = k + 1 := by simp
  have hl' : (toppedUp (k + 1) x).length = k + 1 := by simp [toppedUp]
  refine ⟨?_, ⟨fun h => ?_, ?_⟩, hl'⟩
  · rw [fixLead, hT.len, bind_ok, hl, subU_of_le (by omega), bind_ok, hT.get, Nat.add_sub_cancel,
      rd_of_getElem? (x := x k) (by rw [List.getElem?_map, List.getElem?_range (by omega)]; rfl), bind_ok]
    by_cases h0 : x k = 0
    · rw [if_pos h0, hT.set, wr_of_lt (by omega)]
      congr 1
      apply List.ext_getElem?
      intro i
      rw [List.getElem?_set, toppedUp, List.getElem?_map, List.getElem?_map, hl]
      by_cases hi : k = i
      · subst hi
        rw [if_pos rfl, if_pos (by omega), List.getElem?_range (by omega), Option.map_some, if_pos ⟨rfl, h0⟩]
      · rw [if_neg hi]
        by_cases hlt : i < k + 1
        · rw [List.getElem?_range hlt, Option.map_some, Option.map_some, if_neg (by omega)]
        · rw [List.getElem?_eq_none (by simpa using hlt)]; rfl
    · rw [if_neg h0]
      congr 1
      apply List.map_congr_left
      intro i _
      rw [if_neg]
      rintro ⟨h1, h2⟩
      obtain rfl : i = k := by omega
      exact h0 h2
  · rw [h] at hl'; simp at hl'
  · rw [hl', Nat.add_sub_cancel, List.getD_eq_getElem?_getD, toppedUp, List.getElem?_map, List.getElem?_range (by omega), Option.map_some,
      Option.getD_some]
    by_cases h0 : x k = 0
    · rw [if_pos ⟨rfl, h0⟩]; exact one_ne_zero
    · rw [if_neg (fun h => h0 h.2)]; exact h0

/-- C202 (division): in all four backends, at every scale from 1 to 29 and whatever is drawn, the benchmark of division times a division
that returns the Euclidean quotient, with `n / 2 + 1` coefficients. -/
theorem C202_div [Mcl.Lib Fr] {scale : Nat} (h1 : 1 ≤ scale) (h29 : scale ≤ 29) :
    InAll fun F _ _ T => ∀ x y : Nat → F, ∃ q, benchPolyDiv T scale x y = .ok q ∧ q.length = 2 ^ (scale - 1) + 1 ∧
      polyOf q = polyOf (toppedUp (2 ^ scale) x) / polyOf (toppedUp (2 ^ (scale - 1)) y) := by
  refine inAll fun F _ _ T hT x y => ?_
  obtain ⟨k, rfl⟩ : ∃ k, scale = k + 1 := ⟨scale - 1, by omega⟩
  have hp : 2 ^ (k + 1) = 2 * 2 ^ k := by rw [pow_succ, mul_comm]
  have hle : 2 ^ (k + 1) ≤ 2 ^ 29 := Nat.pow_le_pow_right (by norm_num) h29
  obtain ⟨ea, La, la⟩ := fixLead_toppedUp hT.plain (n := 2 ^ (k + 1)) Nat.one_le_two_pow x
  obtain ⟨eb, Lb, lb⟩ := fixLead_toppedUp hT.plain (n := 2 ^ k) Nat.one_le_two_pow y
  obtain ⟨q, -, -, e, hl, hq⟩ := hT.div _ _ La Lb (by rw [la]; exact hle)
  have hd : 2 ^ (k + 1) / 2 = 2 ^ k := by omega
  rw [Nat.add_sub_cancel]
  refine ⟨q, ?_, by rw [hl, la, lb]; omega, hq⟩
  unfold benchPolyDiv
  simp only
  rw [hd, fillPoly_eq hT.plain, bind_ok, fillPoly_eq hT.plain, bind_ok, ea, bind_ok, eb, bind_ok, e, unwrap_ok]

theorem benchCommit_eq {F P : Type} [Field F] [DecidableEq F] {T : PolyTrait F} (hT : Plain T) {commit : List F → Res P} {n : Nat}
    {x : Nat → F} {c : P} (h : commit ((List.range n).map x) = .ok c) : benchCommit T commit n x = .ok c := by
  rw [benchCommit, fillPoly_eq hT, bind_ok, h, unwrap_ok]

section
variable {G1 G2 GT : Type} [AddCommGroup G1] [Module Fr G1] [AddCommGroup G2] [Module Fr G2] [CommGroup GT] [DecidableEq GT]

/-- C202 (commitments, blst-from-scratch): the setup has as many points as the polynomial coefficients, which is just enough; the benchmark
times a commitment to what was drawn. -/
theorem C202_commit_blst {B : Backend G1 G2 GT} {g1 : G1} {g2 : G2} (hB : B.Lawful g1 g2) {ks : KZGSettings Fr G1 G2} {scale : Nat} {s : Fr}
    (h : MadeFrom ks g1 g2 (2 ^ scale) scale s) (hinf : s ≠ 0 ∨ 2 ^ scale < 8 ∨ B.MsmTotal) (x : Nat → Fr) :
    benchCommit blstPoly (ks.commitToPoly B) ks.fs.maxWidth x = .ok ((polyOf ((List.range (2 ^ scale)).map x)).eval s • g1) := by
  rw [h.wf.fs.width]
  exact benchCommit_eq blst_polyGood.plain (C25_commit hB h _ (by simp) (by simpa using hinf))

/-- C202 (commitments, mcl-kzg). -/
theorem C202_commit_mcl [Mcl.Lib Fr] {B : Mcl.Backend G1 G2 GT} {g1 : G1} {g2 : G2} (hB : B.Lawful g1 g2) {ks : KZGSettings Fr G1 G2}
    {scale : Nat} {s : Fr} (h : MclMade ks g1 g2 (2 ^ scale) scale s) (x : Nat → Fr) :
    benchCommit mclPoly (Mcl.commit B ks.secretG1) ks.fs.maxWidth x = .ok ((polyOf ((List.range (2 ^ scale)).map x)).eval s • g1) := by
  rw [h.wf.fs.width]
  exact benchCommit_eq mcl_polyGood.plain ((C108_commit hB h _).1 (by simp))

/-- C202 (commitments, Arkworks). -/
theorem C202_commit_ark {P : Type} {B : Ark.Backend P G1 G2 GT} {g1 : G1} {g2 : G2} (hB : B.Lawful g1 g2) {ks : Ark.Settings P G1 G2}
    {scale : Nat} {s : Fr} (h : ArkMade B ks g1 g2 (2 ^ scale) scale s) (x : Nat → Fr) :
    benchCommit arkPoly ks.commit ks.fs.maxWidth x = .ok ((polyOf ((List.range (2 ^ scale)).map x)).eval s • g1) := by
  rw [(h.wf hB).fs.toWF.width]
  exact benchCommit_eq ark_polyGood.plain ((C127_commit hB h _).1 Nat.one_le_two_pow (by simp))

end

/-- C202 (commitments, zkcrypto): in either build. -/
theorem C202_commit_zk {chk : Bool} {ks : Top.Settings} {scale : Nat} {s : ScW} (h : ZkMadeFrom chk ks (2 ^ scale) scale s) (x : Nat → ScW) :
    ∃ c, benchCommit zkPoly (Top.commitToPoly ks) ks.fs.maxWidth x = .ok c ∧ Top.At1 c ((polyOf ((List.range (2 ^ scale)).map x)).eval s) := by
  rw [h.setup.2.width]
  obtain ⟨c, e, hc⟩ := C87_commit h ((List.range (2 ^ scale)).map x) (by simp)
  exact ⟨c, benchCommit_eq zk_polyGood.plain e, hc⟩

/-! ### Examples -/

/-- Scale 1 of either benchmark: `(1 + 3X) / 2`, and a commitment to `1 + 3X` at the secret 3 in the toy group. -/
example [Mcl.Lib Fr] :
    (∃ q, benchPolyDiv blstPoly 1 (fun i => if i = 0 then 1 else 3) (fun _ => (2 : Fr)) = .ok q ∧ q.length = 2) ∧
    ∃ ks : KZGSettings Fr Fr Fr, benchCommit blstPoly (ks.commitToPoly toyBackend) ks.fs.maxWidth (fun i => if i = 0 then 1 else 3) = .ok 10 := by
  refine ⟨?_, ?_⟩
  · obtain ⟨q, e, hl, -⟩ := (C202_div (scale := 1) le_rfl (by norm_num)).1 (fun i => if i = 0 then 1 else 3) (fun _ => (2 : Fr))
    exact ⟨q, e, hl⟩
  · obtain ⟨ks, h⟩ := madeFrom_exists (1 : Fr) (1 : Fr) 1 2 (by norm_num) (by norm_num) [3]
    refine ⟨ks, (C202_commit_blst toyBackend_lawful h (Or.inr (Or.inl (by norm_num))) _).trans ?_⟩
    congr 1
    simp [polyOf, List.range_succ, bytesVal, Finset.sum_range_succ]
    norm_num

end Kzg.Props
