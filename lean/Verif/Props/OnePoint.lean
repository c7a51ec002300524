import Verif.Props.ZkKzg
import Verif.Props.MclKzg
import Verif.Props.ArkKzg
/-!
# Property C210: a coset of one point

With `n = 1` the coset is the point itself. The functions for many points and the functions for a single point are separate code in the
backends; at `n = 1` they have to agree.
-/

set_option linter.unusedSectionVars false

namespace Kzg.Props
open Kzg Kzg.Res Polynomial

/-- Two checks that answer, and accept the same, are equal. -/
theorem answers_eq {a b : Res Bool} {p : Prop} (ha : a = .ok true ∨ a = .ok false) (hb : b = .ok true ∨ b = .ok false)
    (ia : a = .ok true ↔ p) (ib : b = .ok true ↔ p) : a = b := by
  have hab := ia.trans ib.symm
  rcases ha with ha | ha <;> rcases hb with hb | hb <;> simp_all

section backends
variable {G1 G2 GT P : Type} [AddCommGroup G1] [Module Fr G1] [AddCommGroup G2] [Module Fr G2]
  [CommGroup GT] [DecidableEq GT]

theorem const_degree {K : Type} [Field K] (y : K) : (C y : K[X]).degree < ((2 ^ 0 : Nat) : WithBot Nat) :=
  lt_of_le_of_lt degree_C_le (by norm_num)

theorem const_value {K : Type} [Field K] (x y w : K) :
    ∀ i < 2 ^ 0, [y][i]? = some ((C y : K[X]).eval (x * w ^ i)) := by
  intro i hi
  obtain rfl : i = 0 := by simpa using hi
  simp

/-- C210 (blst-from-scratch): for every commitment, proof, value and nonzero point, `check_proof_multi` with the one value
answers what `check_proof_single` answers. -/
theorem C210_blst_check {B : Backend G1 G2 GT} {g1 : G1} {g2 : G2} (hB : B.Lawful g1 g2)
    {ks : KZGSettings Fr G1 G2} {N scale : Nat} {s : Fr} (h : MadeFrom ks g1 g2 N scale s) (hN : 2 ≤ N)
    (com proof : G1) (x y : Fr) (hx0 : x ≠ 0) (hx : x ≠ s ∨ B.PairTotal) :
    ks.checkProofMulti B g2 com proof x [y] 1 = ks.checkProofSingle B g1 g2 com proof x y := by
  have hm := C29_multi_accepts_iff hB h (m := 0) (Nat.zero_le _) (by omega) com proof x hx0 [y] rfl
    (Or.inr (Or.inl (by norm_num))) (by simpa using hx) (C y) (const_degree y) (const_value x y _)
  have hs := C27_single_accepts_iff hB h hN com proof x y hx
  simp only [pow_zero, pow_one, eval_C] at hm
  exact answers_eq hm.1 hs.1 hm.2 hs.2

/-- C210 (Arkworks): the same, from settings of any length but zero. -/
theorem C210_ark_check {B : Ark.Backend P G1 G2 GT} {g1 : G1} {g2 : G2} (hB : B.Lawful g1 g2)
    {ks : Ark.Settings P G1 G2} {L scale : Nat} {s : Fr} (h : ArkMade B ks g1 g2 L scale s) (hL : 1 ≤ L)
    (com proof : G1) (x y : Fr) (hx0 : x ≠ 0) :
    ks.checkMulti B com proof x [y] 1 = ks.checkSingle B com proof x y := by
  have hm := C128_multi_accepts_iff hB h (m := 0) (Nat.zero_le _) (by simpa using hL) com proof x hx0 [y] rfl
    (C y) (const_degree y) (const_value x y _)
  have hs := C127_single_accepts_iff hB h hL com proof x y
  simp only [pow_zero, pow_one, eval_C] at hm
  exact answers_eq hm.1 hs.1 hm.2 hs.2

/-- C210 (Arkworks): the proof for one point computed by division is the one the library opens with. -/
theorem C210_ark_proof {B : Ark.Backend P G1 G2 GT} {g1 : G1} {g2 : G2} (hB : B.Lawful g1 g2)
    {ks : Ark.Settings P G1 G2} {L scale : Nat} {s : Fr} (h : ArkMade B ks g1 g2 L scale s) (hL : 1 ≤ L)
    (p : List Fr) (hp : p.length ≤ L) (hp' : p.length ≤ 2 ^ 30) (x : Fr) :
    ks.computeMulti p x 1 = ks.computeSingle p x := by
  rw [C127_single_proof hB h hL p hp x,
    C128_multi_proof hB h hL (n := 1) Nat.one_pos p (by omega) hp' x (fun _ => Or.inl (by norm_num)), pow_one, pow_one]

/-- C210 (mcl-kzg): the same check. -/
theorem C210_mcl_check [Mcl.Lib Fr] {B : Mcl.Backend G1 G2 GT} {g1 : G1} {g2 : G2} (hB : B.Lawful g1 g2)
    {ks : KZGSettings Fr G1 G2} {N scale : Nat} {s : Fr} (h : MclMade ks g1 g2 N scale s) (hN : 2 ≤ N)
    (com proof : G1) (x y : Fr) (hx0 : x ≠ 0) :
    Mcl.checkProofMulti B g2 ks com proof x [y] 1 = Mcl.checkProofSingle B g1 g2 ks com proof x y := by
  have hm := C109_multi_accepts_iff hB h (m := 0) (Nat.zero_le _) (by norm_num) (by omega) com proof x hx0 [y] rfl
    (C y) (const_degree y) (const_value x y _)
  have hs := C108_single_accepts_iff hB h hN com proof x y
  simp only [pow_zero, pow_one, eval_C] at hm
  exact answers_eq hm.1 hs.1 hm.2 hs.2

/-- C210 (mcl-kzg): the proof by long division and the proof by the schoolbook recursion of `gen_proof_at` agree. -/
theorem C210_mcl_proof [Mcl.Lib Fr] {B : Mcl.Backend G1 G2 GT} {g1 : G1} {g2 : G2} (hB : B.Lawful g1 g2)
    {ks : KZGSettings Fr G1 G2} {N scale : Nat} {s : Fr} (h : MclMade ks g1 g2 N scale s)
    (p : List Fr) (hp : p.length ≤ N + 1) (hp' : p.length ≤ 2 ^ 29) (x : Fr) :
    Mcl.computeProofMulti B ks p x 1 = Mcl.genProofAt B ks.secretG1 p x := by
  have hm := (C109_multi_proof hB h 0 p hp' x).1 (by simpa using hp)
  simp only [pow_zero, pow_one] at hm
  rw [hm, C108_single_proof_partial hB h p hp x]

/-- In a setup made by mcl-kzg, the two checks of a true opening accept it and the two checks of a false one do not. -/
example [Mcl.Lib Fr] : ∃ (ks : KZGSettings Fr Fr Fr) (proof : Fr), MclMade ks 1 1 4 2 5 ∧
    Mcl.computeProofMulti mclToy ks [1, 2, 3] 7 1 = .ok proof ∧
    Mcl.genProofAt mclToy ks.secretG1 [1, 2, 3] 7 = .ok proof ∧
    ∃ com, Mcl.commit mclToy ks.secretG1 [1, 2, 3] = .ok com ∧
    Mcl.checkProofMulti mclToy 1 ks com proof 7 [162] 1 = .ok true ∧
    Mcl.checkProofMulti mclToy 1 ks com proof 7 [163] 1 = .ok false := by
  obtain ⟨ks, h⟩ := mclMade_exists (G1 := Fr) (G2 := Fr) 1 1 2 4 (by norm_num) 5
  obtain ⟨com, proof, h1, h2, h3⟩ := C108_single_complete mclToy_lawful h (by norm_num) [1, 2, 3] (by norm_num) 7
  have h7 : (7 : Fr) ≠ 0 := by
    have := fr_natCast_inj (a := 7) (b := 0) (by decide +kernel) frModulus_pos
    intro h; exact absurd (this (by exact_mod_cast h)) (by norm_num)
  have e : (polyOf [(1 : Fr), 2, 3]).eval 7 = 162 := by
    rw [eval_polyOf]; simp [Finset.sum_range_succ]; norm_num
  have hne : (163 : Fr) ≠ 162 := by
    intro h
    have : (1 : Fr) = 0 := by linear_combination h
    exact one_ne_zero this
  refine ⟨ks, proof, h, ?_, h2, com, h1, ?_, ?_⟩
  · rw [C210_mcl_proof mclToy_lawful h _ (by norm_num) (by norm_num), h2]
  · rw [C210_mcl_check mclToy_lawful h (by norm_num) _ _ _ _ h7]
    obtain ⟨b, hb, hi⟩ := h3 162
    rw [hb, hi.2 e.symm]
  · rw [C210_mcl_check mclToy_lawful h (by norm_num) _ _ _ _ h7]
    obtain ⟨b, hb, hi⟩ := h3 163
    rw [hb]
    cases b
    · rfl
    · exact absurd ((hi.1 rfl).trans e) hne

end backends

section zk
open Kzg.Zk Kzg.Zk.Top ScW

/-- C210 (zkcrypto): the two checks agree at every value for which the multiplication by it does not overflow.
Missing from the full statement: the other values, where they differ (`C210_zk_overflow`). -/
theorem C210_zk_check_partial {chk : Bool} {ks : Settings} {N scale : Nat} {s : ScW} (h : ZkMadeFrom chk ks N scale s)
    (hN : 2 ≤ N) {com proof : G1.Proj} {c π : ScW} (hc : At1 com c) (hp : At1 proof π) (x y : ScW) (hx0 : x ≠ 0)
    (hy : ¬ RoundingOverflows (el y).val) :
    checkProofMulti ks com proof x [y] 1 = checkProofSingle chk ks com proof x y := by
  have hm := C89_accepts_iff h (m := 0) (Nat.zero_le _) (by omega) hc hp x hx0 [y] rfl (C y) (const_degree y)
    (const_value x y _)
  simp only [pow_zero, pow_one, eval_C] at hm
  rw [hm, C88_accepts_iff h hN hc hp x y hy]

/-- C210 (zkcrypto, debug): at the other values they differ. The check of many points answers, and the check of a single point
panics: only that one uses the multiplication that overflows. -/
theorem C210_zk_overflow {chk : Bool} {ks : Settings} {N scale : Nat} {s : ScW} (h : ZkMadeFrom chk ks N scale s)
    (hN : 2 ≤ N) {com proof : G1.Proj} {c π : ScW} (hc : At1 com c) (hp : At1 proof π) (x y : ScW) (hx0 : x ≠ 0)
    (hy : RoundingOverflows (el y).val) :
    checkProofMulti ks com proof x [y] 1 = .ok (decide (c - y = π * (s - x))) ∧
      checkProofSingle true ks com proof x y = .panic := by
  have hm := C89_accepts_iff h (m := 0) (Nat.zero_le _) (by omega) hc hp x hx0 [y] rfl (C y) (const_degree y)
    (const_value x y _)
  simp only [pow_zero, pow_one, eval_C] at hm
  exact ⟨hm, C88_debug_panics h hN com proof x y hy⟩

/-- C210 fails for zkcrypto in a release build: a true opening of a constant, with the proof computed for it, is accepted as
a coset of one point and rejected as a single point. -/
theorem C210_zk_release {ks : Settings} {N scale : Nat} {s : ScW} {chk : Bool} (h : ZkMadeFrom chk ks N scale s)
    (hN : 2 ≤ N) (x : ScW) (hx0 : x ≠ 0) : ∃ y com proof, commitToPoly ks [y] = .ok com ∧
      computeProofSingle ks [y] x = .ok proof ∧ checkProofMulti ks com proof x [y] 1 = .ok true ∧
      checkProofSingle false ks com proof x y = .ok false := by
  obtain ⟨y, com, proof, -, e, hc, e', hp, hr⟩ := C88_refuted_release h hN x
  refine ⟨y, com, proof, e, e', ?_, hr⟩
  have hm := C89_accepts_iff h (m := 0) (Nat.zero_le _) (by omega) hc hp x hx0 [y] rfl (C y) (const_degree y)
    (const_value x y _)
  simp only [pow_zero, pow_one, eval_C] at hm
  rw [hm, sub_self, zero_mul, decide_eq_true rfl]

example (chk : Bool) : ∃ (ks : Settings) (y : ScW) (com proof : G1.Proj), commitToPoly ks [y] = .ok com ∧
    checkProofMulti ks com proof 1 [y] 1 = .ok true ∧ checkProofSingle false ks com proof 1 y = .ok false := by
  obtain ⟨ks, s, h, -⟩ := zkMadeFrom_exists chk (N := 4) (scale := 2) (by norm_num) (by norm_num)
  obtain ⟨y, com, proof, e, -, hm, hr⟩ := C210_zk_release h (by norm_num) 1 one_ne_zero
  exact ⟨ks, y, com, proof, e, hm, hr⟩

end zk
end Kzg.Props
