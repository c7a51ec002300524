import Verif.Model.KZG
import Verif.Proofs.FrLawful
import Verif.Proofs.FrOps
import Verif.Proofs.PolyInverse
import Verif.Proofs.Scale
import Verif.Proofs.FFTPoly
import Mathlib.Algebra.BigOperators.GroupWithZero.Action
import Mathlib.Algebra.Module.BigOperators
import Mathlib.LinearAlgebra.Lagrange
/-!
# KZG: proofs
-/

set_option linter.unusedSectionVars false

namespace Kzg
open Res Polynomial Finset

variable {G1 G2 GT : Type} [AddCommGroup G1] [Module Fr G1] [AddCommGroup G2] [Module Fr G2]
  [CommGroup GT] [DecidableEq GT]

/-- What is assumed of the foreign functions and of the generators: `G1` is generated by `g1 ≠ 0`; the
multi-scalar multiplication is right on points other than the identity; the pairing is bilinear and
non-degenerate (the exponent of `e(g1, g2)` is an injective homomorphism `E`) for every second
argument other than the identity. Nothing is assumed for the identity in these two places, since the
affine conversion of blst treats it specially. -/
structure Backend.Lawful (B : Backend G1 G2 GT) (g1 : G1) (g2 : G2) : Prop where
  ne : g1 ≠ 0
  gen : ∀ P : G1, ∃ a : Fr, P = a • g1
  msm : ∀ (pts : List G1) (scalars : List Fr), pts.length = scalars.length → (∀ P ∈ pts, P ≠ 0) →
    B.pippenger pts scalars = (List.zipWith (fun P c => c • P) pts scalars).sum
  pair : ∃ E : Fr → GT, (∀ a b, E (a + b) = E a * E b) ∧ (∀ a, E a = 1 ↔ a = 0) ∧
    ∀ a b : Fr, b ≠ 0 → B.pairing (a • g1) (b • g2) = E (a * b)

/-- The multi-scalar multiplication is right on all inputs, the identity included. -/
def Backend.MsmTotal (B : Backend G1 G2 GT) : Prop :=
  ∀ (pts : List G1) (scalars : List Fr), pts.length = scalars.length →
    B.pippenger pts scalars = (List.zipWith (fun P c => c • P) pts scalars).sum

/-- The pairing with the identity of the second group is one. -/
def Backend.PairTotal (B : Backend G1 G2 GT) : Prop := ∀ P : G1, B.pairing P 0 = 1

theorem smul_ne_zero' {F G : Type} [Field F] [AddCommGroup G] [Module F G] {a : F} {g : G} (ha : a ≠ 0) (hg : g ≠ 0) :
    a • g ≠ 0 := by
  intro h
  apply hg
  rw [← one_smul F g, ← inv_mul_cancel₀ ha, mul_smul, h, smul_zero]

theorem smul_inj' {F G : Type} [Field F] [AddCommGroup G] [Module F G] {a b : F} {g : G} (hg : g ≠ 0) :
    a • g = b • g ↔ a = b := by
  constructor
  · intro h
    by_contra hne
    exact smul_ne_zero' (sub_ne_zero.mpr hne) hg (by rw [sub_smul, h, sub_self])
  · rintro rfl; rfl

/-! ### Setup -/

section
variable {F G1 G2 : Type} [Field F] [AddCommGroup G1] [Module F G1] [AddCommGroup G2] [Module F G2]

theorem setupLoop_spec (g1 : G1) (g2 : G2) (s : F) (n : Nat) : ∀ (k : Nat) (acc : List G1 × List G2),
    acc = ((List.range k).map fun i => s ^ i • g1, (List.range k).map fun i => s ^ i • g2) →
    setupLoop g1 g2 s n (s ^ k) acc =
      ((List.range (k + n)).map fun i => s ^ i • g1, (List.range (k + n)).map fun i => s ^ i • g2) := by
  induction n with
  | zero => intro k acc h; rw [setupLoop, h, Nat.add_zero]
  | succ n ih =>
    intro k acc h
    obtain ⟨s1, s2⟩ := acc
    rw [setupLoop, ← pow_succ, ih (k + 1)]
    · rw [show k + 1 + n = k + (n + 1) by omega]
    · obtain ⟨h1, h2⟩ := Prod.mk.inj h
      rw [h1, h2, List.range_succ, List.map_append, List.map_append]; rfl

end

theorem generateTrustedSetup_spec (g1 : G1) (g2 : G2) (n : Nat) (secret : List Nat) :
    generateTrustedSetup g1 g2 n secret =
      ((List.range n).map fun i => frFromScalar secret ^ i • g1,
        (List.range n).map fun i => frFromScalar secret ^ i • g2) := by
  have := setupLoop_spec g1 g2 (frFromScalar secret) n 0 ([], []) rfl
  rw [pow_zero, Nat.zero_add] at this
  exact this

section
variable {F G1 G2 : Type} [Field F] [AddCommGroup G1] [Module F G1] [AddCommGroup G2] [Module F G2]

/-- Settings made from the secret `s`. -/
structure KZGSettings.WF (ks : KZGSettings F G1 G2) (g1 : G1) (g2 : G2) (s : F) (N K : Nat) : Prop where
  fs : ks.fs.WF K
  le : 2 ^ K ≤ N
  s1 : ks.secretG1 = (List.range N).map fun i => s ^ i • g1
  s2 : ks.secretG2 = (List.range N).map fun i => s ^ i • g2

end

theorem kzgNew_loop (a : List G1) (b : List G2) (n : Nat) (ha : n ≤ a.length) (hb : n ≤ b.length) :
    forRange 0 n (([], []) : List G1 × List G2) (fun i s => do
      let x ← rd a i
      let y ← rd b i
      .ok (s.1 ++ [x], s.2 ++ [y])) = .ok (a.take n, b.take n) := by
  obtain ⟨r, hr, h⟩ := forRange_inv (lo := 0) (hi := n) (s := (([], []) : List G1 × List G2))
    (body := fun i s => do
      let x ← rd a i
      let y ← rd b i
      .ok (s.1 ++ [x], s.2 ++ [y])) (fun i s => s = (a.take i, b.take i)) (Nat.zero_le _) rfl (by
      intro i s _ hi hs
      rw [rd_of_lt (by omega), bind_ok, rd_of_lt (by omega), bind_ok]
      refine Sat.ok ?_
      rw [hs, List.take_add_one, List.take_add_one, List.getElem?_eq_getElem (by omega),
        List.getElem?_eq_getElem (by omega)]; rfl)
  rw [hr, h]

theorem kzgNew_ok {a : List G1} {b : List G2} {n : Nat} {fs : FFTSettings Fr}
    (ha : n ≤ a.length) (hb : n ≤ b.length) (hn : fs.maxWidth ≤ n) :
    KZGSettings.new a b n fs = .ok ⟨fs, a.take n, b.take n⟩ := by
  unfold KZGSettings.new
  rw [if_neg (by omega), if_neg (by omega), if_neg (by omega), kzgNew_loop a b n ha hb, bind_ok]

theorem kzg_wf {g1 : G1} {g2 : G2} {N scale : Nat} {secret : List Nat} {fs : FFTSettings Fr}
    {ks : KZGSettings Fr G1 G2} (hfs : FFTSettings.new scale = .ok fs)
    (h : KZGSettings.new (generateTrustedSetup g1 g2 N secret).1 (generateTrustedSetup g1 g2 N secret).2 N fs
      = .ok ks) : ks.WF g1 g2 (frFromScalar secret) N scale := by
  have hwf := wf_of_new hfs
  rw [generateTrustedSetup_spec] at h
  by_cases hN : fs.maxWidth ≤ N
  · rw [kzgNew_ok (by simp) (by simp) hN] at h
    cases h
    refine ⟨hwf, by rw [← hwf.width]; exact hN, ?_, ?_⟩
    · simp only; rw [List.take_of_length_le (by simp)]
    · simp only; rw [List.take_of_length_le (by simp)]
  · unfold KZGSettings.new at h
    rw [if_pos (by simpa using hN)] at h
    cases h

/-! ### Commitment -/

theorem linCombDirect_spec (p : List G1) (c : List Fr) (n : Nat) (hp : n ≤ p.length) (hc : n ≤ c.length) :
    linCombDirect p c n = .ok (∑ i ∈ range n, c.getD i 0 • p.getD i 0) := by
  obtain ⟨r, hr, h⟩ := forRange_inv (lo := 0) (hi := n) (s := (0 : G1))
    (body := fun i out => do
      let x ← rd p i
      let c ← rd c i
      .ok (out + c • x)) (fun i s => s = ∑ i ∈ range i, c.getD i 0 • p.getD i 0) (Nat.zero_le _) (by simp) (by
      intro i s _ hi hs
      rw [rd_getD 0 (by omega), bind_ok, rd_getD 0 (by omega), bind_ok]
      refine Sat.ok ?_
      rw [hs, sum_range_succ])
  rw [linCombDirect, hr, h]

theorem pushLoop (c : List Fr) (n : Nat) (hc : n ≤ c.length) :
    forRange 0 n ([] : List Fr) (fun i acc => do
      let x ← rd c i
      .ok (acc ++ [x])) = .ok (c.take n) := by
  obtain ⟨r, hr, h⟩ := forRange_inv (lo := 0) (hi := n) (s := ([] : List Fr))
    (body := fun i acc => do
      let x ← rd c i
      .ok (acc ++ [x])) (fun i s => s = c.take i) (Nat.zero_le _) rfl (by
      intro i s _ hi hs
      rw [rd_of_lt (by omega), bind_ok]
      refine Sat.ok ?_
      rw [hs, List.take_add_one, List.getElem?_eq_getElem (by omega)]; rfl)
  rw [hr, h]

/-- The commitment to a polynomial of the given length does not touch unspecified behaviour. -/
def MsmOk (B : Backend G1 G2 GT) (s : Fr) (len : Nat) : Prop := s ≠ 0 ∨ len < 8 ∨ B.MsmTotal

theorem MsmOk.mono {B : Backend G1 G2 GT} {s : Fr} {a b : Nat} (h : MsmOk B s b) (hab : a ≤ b) :
    MsmOk B s a := by
  rcases h with h | h | h
  · exact Or.inl h
  · exact Or.inr (Or.inl (by omega))
  · exact Or.inr (Or.inr h)

section
variable {F G1 G2 : Type} [Field F] [AddCommGroup G1] [Module F G1] [AddCommGroup G2] [Module F G2]

theorem zipWith_sum (s : F) (g : G1) (c : List F) :
    (List.zipWith (fun P c => c • P) ((List.range c.length).map fun i => s ^ i • g) c).sum =
      (polyOf c).eval s • g := by
  have h : List.zipWith (fun P c => c • P) ((List.range c.length).map fun i => s ^ i • g) c =
      (List.range c.length).map fun i => (c.getD i 0 * s ^ i) • g := by
    apply List.ext_getElem?
    intro i
    rw [List.getElem?_zipWith, List.getElem?_map, List.getElem?_map]
    by_cases hi : i < c.length
    · rw [List.getElem?_range hi, getElem?_eq_some_getD 0 hi]
      simp only [Option.map_some]
      rw [mul_smul]
    · rw [List.getElem?_eq_none (l := List.range c.length) (by simp; omega),
        List.getElem?_eq_none (l := c) (by omega)]
      rfl
  rw [h, eval_polyOf, Finset.sum_smul]
  rfl

end

theorem KZGSettings.WF.commit {B : Backend G1 G2 GT} {g1 : G1} {g2 : G2} (hB : B.Lawful g1 g2)
    {ks : KZGSettings Fr G1 G2} {s : Fr} {N K : Nat} (h : ks.WF g1 g2 s N K) (p : List Fr)
    (hp : p.length ≤ N) (hm : MsmOk B s p.length) :
    ks.commitToPoly B p = .ok ((polyOf p).eval s • g1) := by
  have hl : ks.secretG1.length = N := by rw [h.s1]; simp
  unfold KZGSettings.commitToPoly
  rw [if_neg (by omega)]
  unfold g1LinearCombination
  split
  · rw [linCombDirect_spec _ _ _ (by omega) le_rfl, eval_polyOf, Finset.sum_smul]
    congr 1
    refine sum_congr rfl fun i hi => ?_
    rw [h.s1, getD_range_map, if_pos (by have := mem_range.mp hi; omega), mul_smul]
  · next h8 =>
    have htake : ks.secretG1.take p.length = (List.range p.length).map fun i => s ^ i • g1 := by
      rw [h.s1, ← List.map_take, List.take_range, Nat.min_eq_left hp]
    rw [sliceTo, if_pos (by omega), bind_ok, pushLoop p _ le_rfl, bind_ok, List.take_length, htake]
    congr 1
    rw [← zipWith_sum]
    rcases hm with hm | hm | hm
    · refine hB.msm _ _ (by simp) ?_
      intro P hP
      obtain ⟨i, _, rfl⟩ := List.mem_map.mp hP
      exact smul_ne_zero' (pow_ne_zero _ hm) hB.ne
    · exact absurd hm h8
    · exact hm _ _ (by simp)

/-! ### Proofs -/

section
variable {F G1 G2 : Type} [Field F] [AddCommGroup G1] [Module F G1] [AddCommGroup G2] [Module F G2]

theorem cosetDivisor_spec (x : F) (n : Nat) (hn : 0 < n) :
    ∃ d, cosetDivisor x n = .ok d ∧ d.length = n + 1 ∧ polyOf d = X ^ n - C (x ^ n) ∧
      d.getD (d.length - 1) 0 = 1 := by
  obtain ⟨r, hr, h⟩ := forRange_inv (lo := 1) (hi := n) (s := [-(frPow x n)])
    (body := fun _ d => .ok (d ++ [0])) (fun i d => d = -(x ^ n) :: List.replicate (i - 1) 0) hn (by
      rw [frPow, frPowLoop_spec, one_mul]; rfl) (by
      intro i s h1 _ hs
      refine Sat.ok ?_
      rw [hs, show i + 1 - 1 = (i - 1) + 1 by omega, List.replicate_succ']; rfl)
  refine ⟨r ++ [1], by rw [cosetDivisor, hr, bind_ok], by rw [h]; simp; omega, ?_, ?_⟩
  · ext i
    rw [coeff_polyOf, h, coeff_sub, coeff_X_pow, coeff_C, List.cons_append]
    cases i with
    | zero =>
      rw [List.getD_cons_zero, if_neg (by omega), if_pos rfl, zero_sub]
    | succ i =>
      rw [List.getD_cons_succ, if_neg (Nat.succ_ne_zero i), sub_zero]
      by_cases h1 : i < n - 1
      · rw [List.getD_append _ _ _ _ (by simpa using h1), if_neg (by omega), List.getD_replicate _ h1]
      · rw [List.getD_append_right _ _ _ _ (by simpa using h1)]
        by_cases h2 : i + 1 = n
        · rw [if_pos h2, List.length_replicate, show i - (n - 1) = 0 by omega]; rfl
        · rw [if_neg h2, List.length_replicate, List.getD_eq_default _ _ (by simp; omega)]
  · rw [List.length_append, List.length_singleton, Nat.add_sub_cancel,
      List.getD_append_right _ _ _ _ le_rfl, Nat.sub_self]; rfl

end

/-- The multi proof is the commitment to the quotient by `X^n - x^n`. -/
theorem KZGSettings.WF.computeMulti {B : Backend G1 G2 GT} {g1 : G1} {g2 : G2} (hB : B.Lawful g1 g2)
    {ks : KZGSettings Fr G1 G2} {s : Fr} {N K : Nat} (h : ks.WF g1 g2 s N K) (p : List Fr)
    (hp : p.length ≤ N) (hm : MsmOk B s p.length) (x : Fr) {m : Nat}
    (hlen : 2 ^ m < 127 ∨ p.length ≤ 2 ^ 30) :
    ks.computeProofMulti B p x (2 ^ m) =
      .ok ((polyOf p / (X ^ 2 ^ m - C (x ^ 2 ^ m))).eval s • g1) := by
  obtain ⟨d, hd, hdl, hdp, hlead⟩ := cosetDivisor_spec x (2 ^ m) (by positivity)
  have hdne : d ≠ [] := by intro h'; rw [h'] at hdl; simp at hdl
  have hdiv : polyDiv p d = longDiv p d := by
    rcases hlen with hlen | hlen
    · unfold polyDiv; rw [if_pos (by omega)]
    · exact polyDiv_eq p d (by omega)
  obtain ⟨q, hq, hql, hqd⟩ := longDiv_spec p d hdne (by rw [hlead]; exact one_ne_zero)
  obtain ⟨hnd, hd0⟩ := natDegree_of_lead hdne (by rw [hlead]; exact one_ne_zero)
  have hqeq := quotient_unique hd0 (p := polyOf p) (q := polyOf q)
    (by rw [degree_eq_natDegree hd0, hnd]; exact hqd)
  have hd1 : 1 ≤ d.length := by rw [hdl]; exact Nat.le_add_left _ _
  have hql' : q.length ≤ p.length := by
    clear hlen hm
    omega
  unfold KZGSettings.computeProofMulti
  rw [isPowerOfTwo_two_pow, if_neg (by simp), hd, bind_ok, hdiv, hq, unwrap_ok, bind_ok,
    h.commit hB q (hql'.trans hp) (hm.mono hql'), unwrap_ok, hqeq, hdp]

theorem pairingsVerify_spec {B : Backend G1 G2 GT} {g1 : G1} {g2 : G2} (hB : B.Lawful g1 g2)
    (a c : G1) (b : Fr) (hb : b ≠ 0 ∨ B.PairTotal) :
    (pairingsVerify B a g2 c (b • g2) = true ↔ a = b • c) := by
  obtain ⟨E, hE1, hE2, hE3⟩ := hB.pair
  obtain ⟨x, rfl⟩ := hB.gen a
  obtain ⟨y, rfl⟩ := hB.gen c
  have h0 : B.pairing (y • g1) (b • g2) = E (y * b) := by
    by_cases hb0 : b = 0
    · rw [hb0, zero_smul, mul_zero, (hE2 0).mpr rfl]
      exact (hb.resolve_left (by simpa using hb0)) _
    · exact hE3 _ _ hb0
  have h1 : B.pairing (-(x • g1)) g2 = E (-x) := by
    have := hE3 (-x) 1 one_ne_zero
    rwa [one_smul, mul_one, neg_smul] at this
  rw [pairingsVerify, decide_eq_true_iff, h0, h1, ← hE1, hE2, smul_smul, smul_inj' hB.ne]
  constructor
  · intro h; linear_combination -h
  · rintro rfl; ring

theorem KZGSettings.WF.checkSingle {B : Backend G1 G2 GT} {g1 : G1} {g2 : G2} (hB : B.Lawful g1 g2)
    {ks : KZGSettings Fr G1 G2} {s : Fr} {N K : Nat} (h : ks.WF g1 g2 s N K) (hN : 2 ≤ N) (com proof : G1)
    (x y : Fr) (hx : x ≠ s ∨ B.PairTotal) :
    ∃ b, ks.checkProofSingle B g1 g2 com proof x y = .ok b ∧
      (b = true ↔ com - y • g1 = (s - x) • proof) := by
  have hs : ks.secretG2[1]? = some (s ^ 1 • g2) := by
    rw [h.s2, List.getElem?_map, List.getElem?_range (by omega)]; rfl
  refine ⟨_, by rw [checkProofSingle, rd_of_getElem? hs, bind_ok], ?_⟩
  rw [pow_one, ← sub_smul]
  refine pairingsVerify_spec hB _ _ _ (hx.imp (fun h => ?_) id)
  exact sub_ne_zero.mpr h.symm

section
variable {F G1 G2 : Type} [Field F] [AddCommGroup G1] [Module F G1] [AddCommGroup G2] [Module F G2]

theorem cosetScale_spec (c : List F) (z : F) (n : Nat) (hc : c.length = n) (hn : 0 < n) :
    cosetScale c z n = .ok ((List.range c.length).map fun i => c.getD i 0 * z ^ i, z ^ n) := by
  obtain ⟨r, hr, h1, h2, h3, h4⟩ := forRange_inv (lo := 1) (hi := n) (s := (c, z))
    (body := fun i s => do
      let x ← rd s.1 i
      let cs ← wr s.1 i (x * s.2)
      .ok (cs, s.2 * z))
    (fun i s => s.1.length = n ∧ s.2 = z ^ i ∧ (∀ j < i, s.1[j]? = some (c.getD j 0 * z ^ j)) ∧
      ∀ j, i ≤ j → s.1[j]? = c[j]?) hn
    ⟨hc, (pow_one z).symm, by
      intro j hj
      have : j = 0 := by omega
      subst this
      rw [pow_zero, mul_one]; exact getElem?_eq_some_getD 0 (hc ▸ hn), fun _ _ => rfl⟩ (by
      rintro i ⟨cs, w⟩ h1 hi ⟨hl, hw, hlt, hge⟩
      simp only at hl hw hlt hge ⊢
      have hx : cs[i]? = some (c.getD i 0) := by
        rw [hge i le_rfl]; exact getElem?_eq_some_getD 0 (by omega)
      rw [rd_of_getElem? hx, bind_ok, wr_of_lt (by omega), bind_ok]
      refine Sat.ok ⟨by simpa using hl, by rw [hw, pow_succ], ?_, ?_⟩
      · intro j hj
        by_cases hji : j = i
        · subst hji
          simp only
          rw [List.getElem?_set_self (by omega), hw]
        · simp only
          rw [List.getElem?_set_ne (by omega)]
          exact hlt j (by omega)
      · intro j hj
        simp only
        rw [List.getElem?_set_ne (by omega)]
        exact hge j (by omega))
  rw [cosetScale, hr]
  congr 1
  refine Prod.ext ?_ h2
  apply List.ext_getElem?
  intro i
  by_cases hi : i < n
  · rw [h3 i hi, List.getElem?_map, List.getElem?_range (by omega)]; rfl
  · rw [List.getElem?_eq_none (by omega), List.getElem?_eq_none (by simp; omega)]

end

/-- The multi check: `I` is the interpolant on the coset. -/
theorem KZGSettings.WF.checkMulti {B : Backend G1 G2 GT} {g1 : G1} {g2 : G2} (hB : B.Lawful g1 g2)
    {ks : KZGSettings Fr G1 G2} {s : Fr} {N K : Nat} (h : ks.WF g1 g2 s N K) {m : Nat} (hm : m ≤ K)
    (hN : 2 ^ m < N) (com proof : G1) (x : Fr) (hx0 : x ≠ 0) (ys : List Fr) (hys : ys.length = 2 ^ m)
    (hmsm : MsmOk B s (2 ^ m)) (hx : x ^ 2 ^ m ≠ s ^ 2 ^ m ∨ B.PairTotal) :
    ∃ I : Fr[X], I.degree < (2 ^ m : Nat) ∧
      (∀ i < 2 ^ m, ys[i]? = some (I.eval (x * ks.fs.omega (2 ^ m) ^ i))) ∧
    ∃ b, ks.checkProofMulti B g2 com proof x ys (2 ^ m) = .ok b ∧
      (b = true ↔ com - I.eval s • g1 = (s ^ 2 ^ m - x ^ 2 ^ m) • proof) := by
  have hpos : 0 < 2 ^ m := by positivity
  obtain ⟨c, hc, hcl, _⟩ := h.fs.fft_backward hm ys hys
  have hcv := h.fs.fft_roundtrip' hm ys hys
  rw [hc, bind_ok, h.fs.fft_eval hm c hcl] at hcv
  have hcs := cosetScale_spec c x⁻¹ (2 ^ m) hcl hpos
  set cs := (List.range c.length).map fun i => c.getD i 0 * x⁻¹ ^ i with hcsdef
  have hcsl : cs.length = 2 ^ m := by rw [hcsdef]; simp [hcl]
  have hev : ∀ y, (polyOf cs).eval (x * y) = (polyOf c).eval y := by
    intro y
    rw [hcsdef, eval_scaled, ← mul_assoc, inv_mul_cancel₀ hx0, one_mul]
  refine ⟨polyOf cs, by rw [← hcsl]; exact degree_polyOf_lt cs, ?_, ?_⟩
  · intro i hi
    rw [hev, ← Res.ok.inj hcv, List.getElem?_map, List.getElem?_range hi]; rfl
  · have hs : ks.secretG2[2 ^ m]? = some (s ^ 2 ^ m • g2) := by
      rw [h.s2, List.getElem?_map, List.getElem?_range (by omega)]; rfl
    refine ⟨_, by
      rw [checkProofMulti, isPowerOfTwo_two_pow, if_neg (by simp), show ks.fs.fftFr ys true = _ from hc,
        bind_ok, hcs, bind_ok]
      simp only
      rw [rd_of_getElem? hs, bind_ok, h.commit hB cs (by omega) (by rw [hcsl]; exact hmsm), unwrap_ok,
        bind_ok], ?_⟩
    rw [inv_pow, inv_inv, ← sub_smul]
    refine pairingsVerify_spec hB _ _ _ (hx.imp (fun h => ?_) id)
    exact sub_ne_zero.mpr h.symm

end Kzg
