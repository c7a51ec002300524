import Verif.Model.Mcl.Kzg
import Verif.Proofs.KZG
import Verif.Proofs.FK20
import Verif.Proofs.Mcl.Poly
/-!
# Settings, commitments and proofs of mcl-kzg: proofs
-/

set_option linter.unusedSectionVars false

namespace Kzg.Mcl
open Kzg Kzg.Res Polynomial Finset

variable {G1 G2 GT : Type} [AddCommGroup G1] [Module Fr G1] [AddCommGroup G2] [Module Fr G2]
  [CommGroup GT] [DecidableEq GT]

/-- What is assumed of the groups and the library: G1 is generated by `g1 ≠ 0`; `mulVec` is the linear
combination; the pairing is bilinear and non-degenerate on the generated groups (`E` is its exponential), and the
final exponentiation raises to a power that the group order does not divide. -/
structure Backend.Lawful (B : Backend G1 G2 GT) (g1 : G1) (g2 : G2) : Prop where
  ne : g1 ≠ 0
  gen : ∀ P : G1, ∃ a : Fr, P = a • g1
  mulVec : ∀ (pts : List G1) (c : List Fr), pts.length = c.length →
    B.mulVec pts c = (List.zipWith (fun P c => c • P) pts c).sum
  pair : ∃ (E : Fr → GT) (e : Fr), e ≠ 0 ∧ (∀ a b, E (a + b) = E a * E b) ∧ (∀ a, E a = 1 ↔ a = 0) ∧
    (∀ a b, B.pairing (a • g1) (b • g2) = E (a * b)) ∧ ∀ a, B.finalExp (E a) = E (e * a)

/-! ### Setup -/

theorem powersLoop_eq (g1 : G1) (g2 : G2) (s : Fr) (n : Nat) :
    powersLoop g1 g2 s n =
      .ok ((List.range n).map fun i => s ^ i • g1, (List.range n).map fun i => s ^ i • g2) := by
  obtain ⟨r, hr, h1, h2, h3, h4, h5⟩ := forRange_inv (lo := 0) (hi := n)
    (s := (List.replicate n (0 : G1), List.replicate n (0 : G2), (1 : Fr)))
    (body := fun i s' => do
      let a ← wr s'.1 i (s'.2.2 • g1)
      let b ← wr s'.2.1 i (s'.2.2 • g2)
      .ok (a, b, s'.2.2 * s))
    (fun i t => t.1.length = n ∧ t.2.1.length = n ∧ t.2.2 = s ^ i ∧
      (∀ j < i, t.1[j]? = some (s ^ j • g1)) ∧ ∀ j < i, t.2.1[j]? = some (s ^ j • g2)) (Nat.zero_le _)
    ⟨by simp, by simp, by simp, by simp, by simp⟩ (by
      rintro i ⟨a, b, w⟩ _ hi ⟨hl, hl', hw, ha, hb⟩
      simp only at hl hl' hw ha hb ⊢
      rw [wr_of_lt (by omega), bind_ok, wr_of_lt (by omega), bind_ok]
      refine Sat.ok ⟨by simpa using hl, by simpa using hl', by simp only; rw [hw, pow_succ], ?_, ?_⟩
      · intro j hj
        rw [getElem?_set_of_lt (by omega)]
        split
        · next e => rw [e, hw]
        · exact ha j (by omega)
      · intro j hj
        rw [getElem?_set_of_lt (by omega)]
        split
        · next e => rw [e, hw]
        · exact hb j (by omega))
  rw [powersLoop, hr, bind_ok]
  obtain ⟨a, b, w⟩ := r
  simp only at h1 h2 h4 h5 ⊢
  congr 2
  · apply List.ext_getElem?
    intro i
    by_cases hi : i < n
    · rw [h4 i hi, List.getElem?_map, List.getElem?_range hi]; rfl
    · rw [List.getElem?_eq_none (by omega), List.getElem?_eq_none (by simp; omega)]
  · apply List.ext_getElem?
    intro i
    by_cases hi : i < n
    · rw [h5 i hi, List.getElem?_map, List.getElem?_range hi]; rfl
    · rw [List.getElem?_eq_none (by omega), List.getElem?_eq_none (by simp; omega)]

theorem copyPoints_ok {a : List G1} {b : List G2} {n : Nat} (ha : n ≤ a.length) (hb : n ≤ b.length) :
    copyPoints a b n = .ok (a.take n, b.take n) := kzgNew_loop a b n ha hb

theorem copyPoints_panic {a : List G1} {b : List G2} {n : Nat} (h : a.length < n ∨ b.length < n) :
    copyPoints a b n = .panic := by
  unfold copyPoints
  refine forRange_panic (min a.length b.length) (fun _ _ => True) (by omega) (by omega) trivial ?_ ?_
  · intro i s _ hi _
    rw [rd_of_lt (by omega), Res.bind_ok, rd_of_lt (by omega), Res.bind_ok]
    exact Res.Sat.ok trivial
  · intro s _
    by_cases hab : a.length ≤ b.length
    · rw [rd_of_ge (by omega), Res.bind_panic]
    · rw [rd_of_lt (by omega), Res.bind_ok, rd_of_ge (by omega), Res.bind_panic]

theorem new_ok {a : List G1} {b : List G2} {n : Nat} {fs : FFTSettings Fr}
    (ha : n ≤ a.length) (hb : n ≤ b.length) (hn : fs.maxWidth ≤ n) :
    KZGSettings.new a b n fs = .ok ⟨fs, a.take n, b.take n⟩ := by
  unfold KZGSettings.new
  rw [if_neg (by omega), if_neg (by omega), if_neg (by omega), copyPoints_ok ha hb, bind_ok]
  simp only
  rw [copyPoints_ok (by simp; omega) (by simp; omega), bind_ok]
  simp

/-- Settings made from the secret `s` with `N` points. -/
structure WF (ks : KZGSettings Fr G1 G2) (g1 : G1) (g2 : G2) (s : Fr) (N K : Nat) : Prop where
  fs : ks.fs.WF K
  s1 : ks.secretG1 = (List.range N).map fun i => s ^ i • g1
  s2 : ks.secretG2 = (List.range N).map fun i => s ^ i • g2

/-! ### Commitments and single proofs -/

/-- The linear combination of the first points with as many coefficients. -/
theorem mulVec_eq {B : Backend G1 G2 GT} {g1 : G1} {g2 : G2} (hB : B.Lawful g1 g2)
    {ks : KZGSettings Fr G1 G2} {s : Fr} {N K : Nat} (h : WF ks g1 g2 s N K) (p : List Fr) :
    B.mulVec (ks.secretG1.take (min ks.secretG1.length p.length)) (p.take (min ks.secretG1.length p.length)) =
      (polyOf (p.take N)).eval s • g1 := by
  have hl : ks.secretG1.length = N := by rw [h.s1]; simp
  have e : p.take (min N p.length) = p.take N := by
    rw [← List.take_take, List.take_length]
  have e' : ks.secretG1.take (min N p.length) = (List.range (p.take N).length).map fun i => s ^ i • g1 := by
    rw [h.s1, ← List.map_take, List.take_range, List.length_take]
    congr 2; omega
  rw [hl, e, e', hB.mulVec _ _ (by simp), zipWith_sum]

theorem WF.commit {B : Backend G1 G2 GT} {g1 : G1} {g2 : G2} (hB : B.Lawful g1 g2)
    {ks : KZGSettings Fr G1 G2} {s : Fr} {N K : Nat} (h : WF ks g1 g2 s N K) (p : List Fr) (hp : p.length ≤ N) :
    Mcl.commit B ks.secretG1 p = .ok ((polyOf p).eval s • g1) := by
  have hl : ks.secretG1.length = N := by rw [h.s1]; simp
  unfold Mcl.commit
  rw [if_neg (by omega)]
  simp only
  rw [mulVec_eq hB h, List.take_of_length_le hp]

theorem WF.commit_err {B : Backend G1 G2 GT} {g1 : G1} {g2 : G2}
    {ks : KZGSettings Fr G1 G2} {s : Fr} {N K : Nat} (h : WF ks g1 g2 s N K) (p : List Fr) (hp : N < p.length) :
    Mcl.commit B ks.secretG1 p = .err "Provided polynomial is longer than G1!" := by
  unfold Mcl.commit
  rw [if_pos (by rw [h.s1]; simpa using hp)]

theorem polyOf_linear (x : Fr) : polyOf [-x, 1] = X - C x := by
  ext i
  rw [coeff_polyOf, coeff_sub, coeff_X, coeff_C]
  rcases i with _ | _ | i <;> simp

/-- The single proof: the first `N` coefficients of the quotient. -/
theorem WF.genProof [Lib Fr] {B : Backend G1 G2 GT} {g1 : G1} {g2 : G2} (hB : B.Lawful g1 g2)
    {ks : KZGSettings Fr G1 G2} {s : Fr} {N K : Nat} (h : WF ks g1 g2 s N K) (p : List Fr) (x : Fr) :
    ∃ q : List Fr, q.length = p.length - 1 ∧ polyOf q = polyOf p / (X - C x) ∧
      genProofAt B ks.secretG1 p x = .ok ((polyOf (q.take N)).eval s • g1) := by
  have hlead : ([-x, 1] : List Fr).getD (([-x, 1] : List Fr).length - 1) 0 ≠ 0 := one_ne_zero
  obtain ⟨q, hq, hql, hqd⟩ := longDiv_div p [-x, 1] (by simp) hlead
  refine ⟨q, by simpa using hql, by rw [hqd, polyOf_linear], ?_⟩
  unfold genProofAt
  simp only
  rw [longDivision_eq p _ (by simp) hlead, hq, unwrap_ok, bind_ok]
  rw [mulVec_eq hB h]

theorem verifyPairing_spec {B : Backend G1 G2 GT} {g1 : G1} {g2 : G2} (hB : B.Lawful g1 g2)
    (a c : G1) (b : Fr) : (verifyPairing B a g2 c (b • g2) = true ↔ a = b • c) := by
  obtain ⟨E, e, he, hE1, hE2, hE3, hE4⟩ := hB.pair
  obtain ⟨x, rfl⟩ := hB.gen a
  obtain ⟨y, rfl⟩ := hB.gen c
  have h1 : B.pairing (x • g1) g2 = E x := by
    have := hE3 x 1
    rwa [one_smul, mul_one] at this
  have hinv : (E x)⁻¹ = E (-x) := by
    rw [inv_eq_iff_mul_eq_one, ← hE1, add_neg_cancel]
    exact (hE2 0).mpr rfl
  unfold verifyPairing
  simp only
  rw [decide_eq_true_iff, h1, hE3, hinv, ← hE1, hE4, hE2, smul_smul, smul_inj' hB.ne]
  constructor
  · intro h
    have := (mul_eq_zero.mp h).resolve_left he
    linear_combination -this
  · rintro rfl; ring

theorem WF.checkSingle {B : Backend G1 G2 GT} {g1 : G1} {g2 : G2} (hB : B.Lawful g1 g2)
    {ks : KZGSettings Fr G1 G2} {s : Fr} {N K : Nat} (h : WF ks g1 g2 s N K) (hN : 2 ≤ N) (com proof : G1)
    (x y : Fr) : ∃ b, checkProofSingle B g1 g2 ks com proof x y = .ok b ∧
      (b = true ↔ com - y • g1 = (s - x) • proof) := by
  have hs : ks.secretG2[1]? = some (s ^ 1 • g2) := by
    rw [h.s2, List.getElem?_map, List.getElem?_range (by omega)]; rfl
  refine ⟨_, by rw [checkProofSingle, rd_of_getElem? hs, bind_ok], ?_⟩
  rw [pow_one, ← sub_smul]
  exact verifyPairing_spec hB _ _ _

/-! ### Proofs for several points -/

theorem frPow_eq (x : Fr) (n : Nat) (hn : 0 < n) : Mcl.frPow x n = .ok (x ^ n) := by
  obtain ⟨r, hr, h⟩ := forRange_inv (lo := 1) (hi := n) (s := x) (body := fun _ r => .ok (r * x))
    (fun i r => r = x ^ i) hn (pow_one x).symm (by
      intro i s _ _ hs
      exact Sat.ok (by rw [hs, pow_succ]))
  rw [Mcl.frPow, hr, h]

/-- The divisor is the one of blst-from-scratch. -/
theorem divisor_spec (x : Fr) (n : Nat) (hn : 0 < n) :
    ∃ d d', forRange 1 n [-(x ^ n)] (fun _ d => .ok (d ++ [0])) = .ok d ∧ d' = d ++ [1] ∧ d'.length = n + 1 ∧
      polyOf d' = X ^ n - C (x ^ n) := by
  obtain ⟨d', hd, hl, hp, _⟩ := cosetDivisor_spec x n hn
  unfold cosetDivisor at hd
  rw [show Kzg.frPow x n = x ^ n by rw [Kzg.frPow, frPowLoop_spec, one_mul]] at hd
  obtain ⟨d, hd1⟩ : ∃ d, forRange 1 n [-(x ^ n)] (fun _ d => .ok (d ++ [0])) = .ok d := by
    cases e : forRange 1 n [-(x ^ n)] (fun _ d => .ok (d ++ [0])) with
    | ok d => exact ⟨d, rfl⟩
    | err m => rw [e] at hd; cases hd
    | panic => rw [e] at hd; cases hd
  rw [hd1, bind_ok] at hd
  exact ⟨d, d', hd1, (Res.ok.inj hd).symm, hl, hp⟩

/-- The multi proof is the commitment to the quotient by `X^n - x^n`; it panics if the quotient has more
coefficients than there are points. -/
theorem WF.computeMulti [Lib Fr] {B : Backend G1 G2 GT} {g1 : G1} {g2 : G2} (hB : B.Lawful g1 g2)
    {ks : KZGSettings Fr G1 G2} {s : Fr} {N K : Nat} (h : WF ks g1 g2 s N K) (p : List Fr)
    (hlen : p.length ≤ 2 ^ 29) (x : Fr) {m : Nat} :
    computeProofMulti B ks p x (2 ^ m) =
      if p.length ≤ N + 2 ^ m then .ok ((polyOf p / (X ^ 2 ^ m - C (x ^ 2 ^ m))).eval s • g1) else .panic := by
  have hpos : 0 < 2 ^ m := by positivity
  obtain ⟨d, d', hd, hd', hdl, hdp⟩ := divisor_spec x (2 ^ m) hpos
  have hd0 : polyOf d' ≠ 0 := by rw [hdp]; exact X_pow_sub_C_ne_zero hpos _
  obtain ⟨q, hq, hql, hqp⟩ := polyDiv_spec p d' hd0 hlen
  rw [hdp, natDegree_X_pow_sub_C] at hql
  unfold computeProofMulti
  rw [isPowerOf2_eq (by omega), bind_ok, isPowerOfTwo_two_pow]
  simp only [Bool.not_true, Bool.false_eq_true, if_false]
  rw [frPow_eq x _ hpos, bind_ok, hd, bind_ok, ← hd', hq, unwrap_ok, bind_ok]
  split
  · rw [h.commit hB q (by omega), unwrap_ok, hqp, hdp]
  · rw [h.commit_err q (by omega)]; rfl

/-- What the check does with values: `I` is the interpolant on the coset. -/
theorem WF.checkMulti [Lib Fr] {B : Backend G1 G2 GT} {g1 : G1} {g2 : G2} (hB : B.Lawful g1 g2)
    {ks : KZGSettings Fr G1 G2} {s : Fr} {N K : Nat} (h : WF ks g1 g2 s N K) {m : Nat} (hm : m ≤ K) (hm30 : m ≤ 30)
    (hN : 2 ^ m < N) (com proof : G1) (x : Fr) (hx0 : x ≠ 0) (ys : List Fr) (hys : ys.length = 2 ^ m) :
    ∃ I : Fr[X], I.degree < (2 ^ m : Nat) ∧
      (∀ i < 2 ^ m, ys[i]? = some (I.eval (x * ks.fs.omega (2 ^ m) ^ i))) ∧
    ∃ b, checkProofMulti B g2 ks com proof x ys (2 ^ m) = .ok b ∧
      (b = true ↔ com - I.eval s • g1 = (s ^ 2 ^ m - x ^ 2 ^ m) • proof) := by
  have hpos : 0 < 2 ^ m := by positivity
  obtain ⟨c, hc, hcl, _⟩ := h.fs.fft_backward hm ys hys
  have hcv := h.fs.fft_roundtrip' hm ys hys
  rw [hc, bind_ok, h.fs.fft_eval hm c hcl] at hcv
  have hcs := cosetScale_spec c x⁻¹ (2 ^ m) hcl hpos
  set cs := (List.range c.length).map fun i => c.getD i 0 * x⁻¹ ^ i with hcsdef
  have hcsl : cs.length = 2 ^ m := by rw [hcsdef]; simp [hcl]
  have hev : ∀ y, (polyOf cs).eval (x * y) = (polyOf c).eval y := by
    intro y
    rw [hcsdef, eval_scaled, ← mul_assoc, inv_mul_cancel₀ hx0, one_mul]
  refine ⟨polyOf cs, by rw [← hcsl]; exact degree_polyOf_lt cs, ?_, ?_⟩
  · intro i hi
    rw [hev, ← Res.ok.inj hcv, List.getElem?_map, List.getElem?_range hi]; rfl
  · have hs : ks.secretG2[2 ^ m]? = some (s ^ 2 ^ m • g2) := by
      rw [h.s2, List.getElem?_map, List.getElem?_range (by omega)]; rfl
    refine ⟨_, by
      rw [checkProofMulti, isPowerOf2_eq (by omega), bind_ok, isPowerOfTwo_two_pow]
      simp only [Bool.not_true, Bool.false_eq_true, if_false]
      rw [fft_eq h.fs hm hys true (fun _ => hm30), hc, unwrap_ok, bind_ok, frInv_of_ne hx0, bind_ok, hcs, bind_ok]
      simp only
      rw [frInv_of_ne (pow_ne_zero _ (inv_ne_zero hx0)), bind_ok, rd_of_getElem? hs, bind_ok,
        h.commit hB cs (by omega), unwrap_ok, bind_ok], ?_⟩
    rw [inv_pow, inv_inv, ← sub_smul]
    exact verifyPairing_spec hB _ _ _

/-- Too few G2 points. -/
theorem WF.checkMulti_panic [Lib Fr] {B : Backend G1 G2 GT} {g1 : G1} {g2 : G2}
    {ks : KZGSettings Fr G1 G2} {s : Fr} {N K : Nat} (h : WF ks g1 g2 s N K) {m : Nat} (hm : m ≤ K) (hm30 : m ≤ 30)
    (hN : N ≤ 2 ^ m) (com proof : G1) (x : Fr) (hx0 : x ≠ 0) (ys : List Fr) (hys : ys.length = 2 ^ m) :
    checkProofMulti B g2 ks com proof x ys (2 ^ m) = .panic := by
  have hpos : 0 < 2 ^ m := by positivity
  obtain ⟨c, hc, hcl, _⟩ := h.fs.fft_backward hm ys hys
  rw [checkProofMulti, isPowerOf2_eq (by omega), bind_ok, isPowerOfTwo_two_pow]
  simp only [Bool.not_true, Bool.false_eq_true, if_false]
  rw [fft_eq h.fs hm hys true (fun _ => hm30), hc, unwrap_ok, bind_ok, frInv_of_ne hx0, bind_ok,
    cosetScale_spec c x⁻¹ (2 ^ m) hcl hpos, bind_ok]
  simp only
  rw [frInv_of_ne (pow_ne_zero _ (inv_ne_zero hx0)), bind_ok, rd_of_ge (by rw [h.s2]; simpa using hN), bind_panic]

/-- Missing values count as zeros as long as more than half are given. -/
theorem WF.checkMulti_padded [Lib Fr] {B : Backend G1 G2 GT} {g1 : G1} {g2 : G2}
    {ks : KZGSettings Fr G1 G2} {s : Fr} {N K : Nat} (h : WF ks g1 g2 s N K) (com proof : G1) (x : Fr)
    (ys : List Fr) (hys : ys.length ≤ 2 ^ K) (hys30 : ys.length ≤ 2 ^ 30) (n : Nat) :
    checkProofMulti B g2 ks com proof x ys n = checkProofMulti B g2 ks com proof x (padded ys) n := by
  have hb : bitLen (ys.length - 1) ≤ K := bitLen_le_of_le hys
  have hb' : bitLen (ys.length - 1) ≤ 30 := bitLen_le_of_le hys30
  have : fft ks.fs ys true = fft ks.fs (padded ys) true := by
    rw [fft_padded h.fs hys true (fun _ => hys30), fft_eq h.fs hb (padded_length ys) true (fun _ => hb')]
  unfold checkProofMulti
  rw [this]

end Kzg.Mcl
