import Verif.Model.Mcl.FK20
import Verif.Proofs.FK20
import Verif.Proofs.Mcl.Kzg
/-!
# FK20 of mcl-kzg: proofs
-/

set_option linter.unusedSectionVars false

namespace Kzg.Mcl
open Kzg Res Polynomial Finset

variable {G1 G2 GT : Type} [AddCommGroup G1] [Module Fr G1] [AddCommGroup G2] [Module Fr G2]
  [Lib Fr]

theorem toeplitzStrided_spec (p : List Fr) {k l o : Nat} (hp : p.length = k * l) (hk : 0 < k) (ho : o < l) :
    toeplitzCoeffsStrided p o l = .ok ((List.range (k * 2)).map (tcoef p k l o)) := by
  have hl : 0 < l := by omega
  have hkl : l ≤ k * l := Nat.le_mul_of_pos_left l hk
  unfold toeplitzCoeffsStrided
  simp only
  rw [divU, if_neg (by omega), bind_ok, hp, Nat.mul_div_cancel _ hl]
  rw [subU_of_le (show 1 ≤ k * l by omega), bind_ok, subU_of_le (show o ≤ k * l - 1 by omega), bind_ok,
    rd_getD 0 (by omega), bind_ok, wr_of_lt (by simp; omega), bind_ok, subU_of_le (show o ≤ l * 2 by omega), bind_ok,
    subU_of_le (show 1 ≤ l * 2 - o by omega), bind_ok, toeplitzFill]
  by_cases hk2 : k + 2 ≤ k * 2
  · obtain ⟨r, hr, h1, h2, h3⟩ := forRange_inv (lo := k + 2) (hi := k * 2)
      (s := ((List.replicate (k * 2) (0 : Fr)).set 0 (p.getD (k * l - 1 - o) 0), l * 2 - o - 1))
      (body := fun i s => do
        let c ← rd p s.2
        let t ← wr s.1 i c
        .ok (t, s.2 + l))
      (fun t s => s.1.length = k * 2 ∧ s.2 = (t - k) * l - 1 - o ∧ ∀ i < k * 2,
        s.1[i]? = some (if k + 2 ≤ i ∧ t ≤ i then 0 else tcoef p k l o i)) hk2
      ⟨by simp, by simp only; rw [show k + 2 - k = 2 by omega]; omega, by
        intro i hi
        by_cases h0 : i = 0
        · subst h0
          rw [if_neg (by omega), List.getElem?_set_self (by simpa using hi), tcoef, if_pos rfl]
        · rw [List.getElem?_set_ne (by omega), List.getElem?_replicate, if_pos hi]
          congr 1
          split
          · rfl
          · rw [tcoef, if_neg h0, if_neg (by omega)]⟩ (by
      rintro t ⟨v, j⟩ ht1 ht2 ⟨e1, e2, e3⟩
      simp only at e1 e2 e3
      have f1 : (t - k) * l ≤ k * l := Nat.mul_le_mul_right l (by omega)
      have f2 : 2 * l ≤ (t - k) * l := Nat.mul_le_mul_right l (by omega)
      have f3 : (t + 1 - k) * l = (t - k) * l + l := by
        rw [show t + 1 - k = (t - k) + 1 by omega, Nat.succ_mul]
      simp only
      rw [e2, rd_getD 0 (by omega), bind_ok, wr_of_lt (by omega), bind_ok]
      refine Sat.ok ⟨by simpa using e1, by simp only; omega, ?_⟩
      intro i hi
      simp only
      by_cases hit : i = t
      · subst hit
        rw [List.getElem?_set_self (by omega), if_neg (by omega), tcoef, if_neg (by omega), if_pos (by omega)]
      · rw [List.getElem?_set_ne (by omega), e3 i hi]
        congr 1
        by_cases hc : k + 2 ≤ i ∧ t ≤ i
        · rw [if_pos hc, if_pos (by omega)]
        · rw [if_neg hc, if_neg (by omega)])
    rw [hr, bind_ok]
    congr 1
    apply List.ext_getElem?
    intro i
    by_cases hi : i < k * 2
    · rw [h3 i hi, if_neg (by omega), List.getElem?_map, List.getElem?_range hi]; rfl
    · rw [List.getElem?_eq_none (by omega), List.getElem?_eq_none (by simp; omega)]
  · have hk1 : k = 1 := by omega
    subst hk1
    rw [forRange, show 1 * 2 - (1 + 2) = 0 by omega, forLoop, bind_ok]
    simp [tcoef, List.range_succ, List.replicate]

/-! ### Parts -/

theorem part1_spec {fs : FFTSettings Fr} {K : Nat} (hwf : fs.WF K) {m : Nat} (hm : m + 1 ≤ K) (x : Nat → G1)
    (hx : ∀ i, 2 ^ m ≤ i → x i = 0) :
    toeplitzPart1 fs ((List.range (2 ^ m)).map x) =
      .ok ((List.range (2 ^ (m + 1))).map (dft (fs.omega (2 ^ (m + 1))) (2 ^ (m + 1)) x)) := by
  have e : (List.range (2 ^ m)).map x ++ List.replicate (2 ^ m) 0 = (List.range (2 ^ (m + 1))).map x := by
    rw [← List.length_range (n := 2 ^ m), ← List.map_const', List.length_range, range_map_append,
      show 2 ^ m + 2 ^ m = 2 ^ (m + 1) by rw [pow_succ]; omega]
    refine List.map_congr_left fun i _ => ?_
    split
    · rfl
    · rw [hx i (by omega)]
  unfold toeplitzPart1
  simp only [List.length_map, List.length_range]
  rw [e, fftG1_eq hwf hm (by simp) false (by simp), fft_range hwf hm x]

theorem part2_spec {fs : FFTSettings Fr} {K : Nat} (hwf : fs.WF K) {m : Nat} (hm : m ≤ K) (c : Nat → Fr)
    (x : Nat → G1) :
    toeplitzPart2 fs ((List.range (2 ^ m)).map c)
        ((List.range (2 ^ m)).map (dft (fs.omega (2 ^ m)) (2 ^ m) x)) =
      .ok ((List.range (2 ^ m)).map (dft (fs.omega (2 ^ m)) (2 ^ m) (cyc (2 ^ m) c x))) := by
  unfold toeplitzPart2
  rw [fft_eq hwf hm (by simp) false (by simp), fft_range hwf hm c, unwrap_ok, bind_ok, List.zipWith_map,
    List.zipWith_self]
  congr 1
  refine List.map_congr_left fun i _ => ?_
  rw [dft_cyc (hwf.omega_prim hm).pow_eq_one]

/-- The sign of inverse transforms: wrong at size `2^31`. -/
def sgn (m : Nat) : Fr := if m = 31 then -1 else 1

theorem sgn_of_le {m : Nat} (h : m ≤ 30) : sgn m = 1 := if_neg (by omega)

theorem part3_spec {fs : FFTSettings Fr} {K : Nat} (hwf : fs.WF K) {m : Nat} (hm : m + 1 ≤ K)
    (h : Nat → G1) :
    toeplitzPart3 fs ((List.range (2 ^ (m + 1))).map (dft (fs.omega (2 ^ (m + 1))) (2 ^ (m + 1)) h)) =
      .ok ((List.range (2 ^ (m + 1))).map fun i => if i < 2 ^ m then sgn (m + 1) • h i else 0) := by
  have hinv : fftG1 fs ((List.range (2 ^ (m + 1))).map (dft (fs.omega (2 ^ (m + 1))) (2 ^ (m + 1)) h)) true =
      .ok ((List.range (2 ^ (m + 1))).map fun i => sgn (m + 1) • h i) := by
    by_cases h30 : m + 1 ≤ 30
    · rw [fftG1_eq hwf hm (by simp) true (fun _ => h30), ifft_range hwf hm h, sgn_of_le h30]
      simp only [one_smul]
    · have hlt := hwf.lt
      have hK : K = 31 := by omega
      have hm31 : m + 1 = 31 := by omega
      rw [hK] at hwf
      rw [fftG1_31 hwf _ (by rw [List.length_map, List.length_range, hm31]), ifft_range hwf (by omega) h, bind_ok,
        List.map_map, show sgn (m + 1) = -1 from if_pos hm31]
      refine congrArg _ (List.map_congr_left fun i _ => ?_)
      rw [Function.comp, neg_smul, one_smul]
  have hp1 : 2 ^ (m + 1) = 2 ^ m * 2 := pow_succ _ _
  unfold toeplitzPart3
  rw [hinv]
  simp only [unwrap_ok, bind_ok, List.length_map, List.length_range, Nat.min_self]
  have := clearRange_spec (d := fun i => sgn (m + 1) • h i) (n := 2 ^ m)
  rw [← hp1] at this
  unfold clearRange at this
  rw [if_pos ⟨by omega, by simp⟩] at this
  rw [show 2 ^ (m + 1) / 2 = 2 ^ m by omega]
  exact this

/-! ### Single proofs -/

section
variable {ks : KZGSettings Fr G1 G2} {g1 : G1} {g2 : G2} {s : Fr} {N K : Nat}

theorem single_new (hw : WF ks g1 g2 s N K) {m : Nat} (hm : m + 1 ≤ K) (hN : 2 ^ m ≤ N + 1) :
    FK20Single.new ks (2 ^ (m + 1)) = .ok ⟨ks, (List.range (2 ^ (m + 1))).map
      (dft (ks.fs.omega (2 ^ (m + 1))) (2 ^ (m + 1)) (selPt g1 s (2 ^ m) 1 0))⟩ := by
  have hle : 2 ^ (m + 1) ≤ 2 ^ K := Nat.pow_le_pow_right (by omega) hm
  have hpos : 0 < 2 ^ m := by positivity
  have hp1 : 2 ^ (m + 1) = 2 ^ m * 2 := pow_succ _ _
  unfold FK20Single.new
  simp only
  rw [isPowerOf2_eq (by omega), bind_ok, isPowerOfTwo_two_pow, if_neg (by simp), if_neg (by omega),
    if_neg (by rw [hw.fs.width]; omega),
    show 2 ^ (m + 1) / 2 = 2 ^ m by omega, subU_of_le (show 1 ≤ 2 ^ m by omega), bind_ok,
    push_loop' (fun i => s ^ (2 ^ m - 2 - i) • g1) (by
      intro i acc hi
      rw [subU_of_le (show 2 ≤ 2 ^ m by omega), bind_ok, subU_of_le (show i ≤ 2 ^ m - 2 by omega), bind_ok,
        hw.s1, rd_getD 0 (by simp; omega), bind_ok, getD_range_map, if_pos (by omega)]), bind_ok]
  have : (List.range (2 ^ m - 1)).map (fun i => s ^ (2 ^ m - 2 - i) • g1) ++ [0] =
      (List.range (2 ^ m)).map (selPt g1 s (2 ^ m) 1 0) := by
    have e : List.range (2 ^ m) = List.range (2 ^ m - 1) ++ [2 ^ m - 1] := by
      rw [← List.range_succ]; congr 1; omega
    rw [e, List.map_append]
    congr 1
    · refine List.map_congr_left fun i hi => ?_
      rw [selPt, if_pos (List.mem_range.mp hi)]
      congr 2
      omega
    · rw [List.map_singleton, selPt, if_neg (by omega)]
  rw [this, part1_spec hw.fs hm _ (fun i hi => by rw [selPt, if_neg (by omega)]), unwrap_ok, bind_ok]

theorem single_new_short (hw : WF ks g1 g2 s N K) {m : Nat} (hm : m + 1 ≤ K) (hN : N + 1 < 2 ^ m) :
    FK20Single.new ks (2 ^ (m + 1)) = .panic := by
  have hle : 2 ^ (m + 1) ≤ 2 ^ K := Nat.pow_le_pow_right (by omega) hm
  have hp1 : 2 ^ (m + 1) = 2 ^ m * 2 := pow_succ _ _
  unfold FK20Single.new
  simp only
  rw [isPowerOf2_eq (by omega), bind_ok, isPowerOfTwo_two_pow, if_neg (by simp), if_neg (by omega),
    if_neg (by rw [hw.fs.width]; omega),
    show 2 ^ (m + 1) / 2 = 2 ^ m by omega, subU_of_le (show 1 ≤ 2 ^ m by omega), bind_ok]
  obtain ⟨t, ht⟩ : ∃ t, 2 ^ m - 1 = t + 1 := ⟨2 ^ m - 2, by omega⟩
  rw [ht, forRange, Nat.sub_zero, forLoop, subU_of_le (show 2 ≤ 2 ^ m by omega), bind_ok, subU_of_le (Nat.zero_le _),
    bind_ok, hw.s1, rd_of_ge (by simp; omega), bind_panic, bind_panic, bind_panic]

theorem single_opt (hw : WF ks g1 g2 s N K) {m : Nat} (hm : m + 1 ≤ K) {fk : FK20Single Fr G1 G2}
    (hfk : FK20Single.new ks (2 ^ (m + 1)) = .ok fk) (p : List Fr) (hp : p.length = 2 ^ m) :
    FK20Single.daOptimized fk p = .ok ((List.range (2 ^ (m + 1))).map fun j =>
      sgn (m + 1) • (polyOf p / (X ^ 1 - C (ks.fs.omega (2 ^ (m + 1)) ^ j))).eval s • g1) := by
  have hN : 2 ^ m ≤ N + 1 := by
    by_contra hc
    rw [single_new_short hw hm (by omega)] at hfk
    cases hfk
  rw [single_new hw hm hN] at hfk
  cases hfk
  have hle : 2 ^ (m + 1) ≤ 2 ^ K := Nat.pow_le_pow_right (by omega) hm
  have hp1 : 2 ^ (m + 1) = 2 ^ m * 2 := pow_succ _ _
  have hpos : 0 < 2 ^ m := by positivity
  have hpl : p.length = 2 ^ m * 1 := by omega
  unfold FK20Single.daOptimized
  simp only
  rw [hp, ← hp1, isPowerOf2_eq (by omega), bind_ok, isPowerOfTwo_two_pow, if_neg (by simp),
    if_neg (by rw [hw.fs.width]; omega),
    toeplitzStrided_spec p hpl hpos (by omega), bind_ok, ← hp1,
    part2_spec hw.fs hm, unwrap_ok, bind_ok, part3_spec hw.fs hm, unwrap_ok, bind_ok,
    fftG1_eq hw.fs hm (by simp) false (by simp), fft_range hw.fs hm _]
  congr 1
  refine List.map_congr_left fun j _ => ?_
  rw [hp1, ← dft_hvec p g1 s _ hpl (by omega) j]
  unfold dft
  rw [smul_sum]
  refine sum_congr rfl fun i _ => ?_
  rw [smul_comm (sgn (m + 1))]
  congr 1
  beta_reduce
  split
  · next hi =>
    rw [← cyc_hvec p g1 s hpl hi, sum_range_one]
  · rw [smul_zero]

theorem single_da (hw : WF ks g1 g2 s N K) {m : Nat} (hm : m + 1 ≤ K) {fk : FK20Single Fr G1 G2}
    (hfk : FK20Single.new ks (2 ^ (m + 1)) = .ok fk) (p : List Fr) (hp : p.length = 2 ^ m) :
    FK20Single.da fk p = (do let r ← FK20Single.daOptimized fk p; orderByRevBitOrder r) := by
  have hopt := single_opt hw hm hfk p hp
  have hN : 2 ^ m ≤ N + 1 := by
    by_contra hc
    rw [single_new_short hw hm (by omega)] at hfk
    cases hfk
  rw [single_new hw hm hN] at hfk
  cases hfk
  have hle : 2 ^ (m + 1) ≤ 2 ^ K := Nat.pow_le_pow_right (by omega) hm
  have hp1 : 2 ^ (m + 1) = 2 ^ m * 2 := pow_succ _ _
  have h0 : 0 < 2 ^ m := by positivity
  unfold FK20Single.da
  simp only
  rw [hp, ← hp1, isPowerOf2_eq (by omega), bind_ok, isPowerOfTwo_two_pow, if_neg (by simp),
    if_neg (by rw [hw.fs.width]; omega), hopt]
  rfl

/-! ### Multi proofs -/

theorem precompute_spec (hw : WF ks g1 g2 s N K) {m l o : Nat} (hm : m + 1 ≤ K) (ho : o < l)
    (hN : (2 ^ m - 1) * l ≤ N) :
    xExtFftPrecompute ks (2 ^ m * l) (2 ^ m) l o = .ok ((List.range (2 ^ (m + 1))).map
        (dft (ks.fs.omega (2 ^ (m + 1))) (2 ^ (m + 1)) (selPt g1 s (2 ^ m) l o))) := by
  have hk : 0 < 2 ^ m := by positivity
  rw [← part1_spec hw.fs hm _ (fun i hi => by rw [selPt, if_neg (by omega)])]
  generalize 2 ^ m = k at *
  unfold xExtFftPrecompute
  simp only
  rcases Nat.lt_or_ge 1 k with h1 | h1
  · have hkl : 2 * l ≤ k * l := Nat.mul_le_mul_right l h1
    have e0 : k * l = (k - 1) * l + l := by rw [← Nat.succ_mul]; congr 1; omega
    rw [if_pos (by omega)]
    obtain ⟨r, hr, h2, h3, h4⟩ := forRange_inv (lo := 0) (hi := k - 1)
      (s := (List.replicate k (0 : G1), k * l - (l + 1 + o) + l))
      (body := fun i s => do
        let j ← subU s.2 l
        let v ← rd ks.secretG1 j
        let x ← wr s.1 i v
        .ok (x, j))
      (fun t st => st.1.length = k ∧ st.2 = (k - 1 - t) * l + l - 1 - o ∧ ∀ i < k,
        st.1[i]? = some (if i < t then selPt g1 s k l o i else 0)) (Nat.zero_le _)
      ⟨by simp, by simp only; rw [Nat.sub_zero]; omega, by
        intro i hi
        rw [List.getElem?_replicate, if_pos hi, if_neg (by omega)]⟩ (by
      rintro t ⟨v, j⟩ _ ht ⟨e1, e2, e3⟩
      simp only at e1 e2 e3
      have f1 : (k - 1 - t) * l ≤ (k - 1) * l := Nat.mul_le_mul_right l (by omega)
      have f2 : (k - 1 - t) * l = (k - 1 - (t + 1)) * l + l := by
        rw [← Nat.succ_mul]; congr 1; omega
      simp only
      rw [subU_of_le (by omega), bind_ok, hw.s1, rd_getD 0 (by simp; omega), bind_ok, getD_range_map,
        if_pos (by omega), wr_of_lt (by omega), bind_ok]
      refine Sat.ok ⟨by simpa using e1, by simp only; omega, ?_⟩
      intro i hi
      simp only
      by_cases hit : i = t
      · subst hit
        rw [List.getElem?_set_self (by omega), if_pos (by omega), selPt, if_pos ht]
        congr 3
        omega
      · rw [List.getElem?_set_ne (by omega), e3 i hi]
        congr 1
        by_cases hc : i < t
        · rw [if_pos hc, if_pos (by omega)]
        · rw [if_neg hc, if_neg (by omega)])
    rw [hr, bind_ok]
    rw [subU_of_le (by omega), bind_ok, wr_of_lt (by omega), bind_ok]
    congr 1
    apply List.ext_getElem?
    intro i
    by_cases hi : i < k
    · rw [List.getElem?_map, List.getElem?_range hi, Option.map_some]
      by_cases hl : i = k - 1
      · subst hl
        rw [List.getElem?_set_self (by omega), selPt, if_neg (by omega)]
      · rw [List.getElem?_set_ne (by omega), h4 i hi, if_pos (by omega)]
    · rw [List.getElem?_eq_none (by simp; omega), List.getElem?_eq_none (by simp; omega)]
  · have hk1 : k = 1 := by omega
    subst hk1
    rw [show 1 - 1 = 0 from rfl, forRange_zero_zero, bind_ok]
    simp only
    rw [subU_of_le le_rfl, bind_ok, wr_of_lt (by simp), bind_ok]
    congr 1

theorem multi_new (hw : WF ks g1 g2 s N K) {m c : Nat} (hm : m + c + 1 ≤ K) (hN : (2 ^ m - 1) * 2 ^ c ≤ N) :
    FK20Multi.new ks (2 ^ (m + c + 1)) (2 ^ c) = .ok ⟨ks, 2 ^ c, (List.range (2 ^ c)).map fun o =>
      (List.range (2 ^ (m + 1))).map
        (dft (ks.fs.omega (2 ^ (m + 1))) (2 ^ (m + 1)) (selPt g1 s (2 ^ m) (2 ^ c) o))⟩ := by
  have hle : 2 ^ (m + c + 1) ≤ 2 ^ K := Nat.pow_le_pow_right (by omega) hm
  have hpos : 0 < 2 ^ m := by positivity
  have hposc : 0 < 2 ^ c := by positivity
  have hp1 : 2 ^ (m + c + 1) = 2 ^ (m + c) * 2 := pow_succ _ _
  have hp2 : 2 ^ (m + c) = 2 ^ m * 2 ^ c := pow_add _ _ _
  have hcl : 2 ^ c ≤ 2 ^ (m + c) := Nat.pow_le_pow_right (by omega) (by omega)
  unfold FK20Multi.new
  simp only
  rw [divU, if_neg (by omega), bind_ok, isPowerOf2_eq (by omega), bind_ok, isPowerOfTwo_two_pow, if_neg (by simp),
    isPowerOf2_eq (by omega), bind_ok, isPowerOfTwo_two_pow, if_neg (by simp), if_neg (by omega),
    if_neg (by rw [hw.fs.width]; omega), if_neg (by rw [hw.fs.width]; omega),
    show 2 ^ (m + c + 1) / 2 = 2 ^ (m + c) by omega, if_neg (by omega), hp2, Nat.mul_div_cancel _ hposc,
    push_loop' (fun o => (List.range (2 ^ (m + 1))).map
        (dft (ks.fs.omega (2 ^ (m + 1))) (2 ^ (m + 1)) (selPt g1 s (2 ^ m) (2 ^ c) o))) (by
      intro o acc ho
      rw [precompute_spec hw (by omega) ho hN, unwrap_ok, bind_ok]), bind_ok]

theorem precompute_short (hw : WF ks g1 g2 s N K) {k l : Nat} (hk : 1 < k) (hl : 0 < l)
    (hN : N < (k - 1) * l) : xExtFftPrecompute ks (k * l) k l 0 = .panic := by
  have hkl : 2 * l ≤ k * l := Nat.mul_le_mul_right l hk
  have e0 : k * l = (k - 1) * l + l := by rw [← Nat.succ_mul]; congr 1; omega
  unfold xExtFftPrecompute
  simp only
  rw [if_pos (by omega)]
  obtain ⟨t, ht⟩ : ∃ t, k - 1 = t + 1 := ⟨k - 2, by omega⟩
  rw [ht, forRange, Nat.sub_zero, forLoop]
  simp only
  rw [subU_of_le (by omega), bind_ok, hw.s1, rd_of_ge (by simp; omega), bind_panic, bind_panic, bind_panic]

theorem multi_new_short (hw : WF ks g1 g2 s N K) {m c : Nat} (hm : m + c + 1 ≤ K) (hN : N < (2 ^ m - 1) * 2 ^ c) :
    FK20Multi.new ks (2 ^ (m + c + 1)) (2 ^ c) = .panic := by
  have hle : 2 ^ (m + c + 1) ≤ 2 ^ K := Nat.pow_le_pow_right (by omega) hm
  have hpos : 0 < 2 ^ m := by positivity
  have hposc : 0 < 2 ^ c := by positivity
  have hp1 : 2 ^ (m + c + 1) = 2 ^ (m + c) * 2 := pow_succ _ _
  have hp2 : 2 ^ (m + c) = 2 ^ m * 2 ^ c := pow_add _ _ _
  have hcl : 2 ^ c ≤ 2 ^ (m + c) := Nat.pow_le_pow_right (by omega) (by omega)
  have hk : 1 < 2 ^ m := by
    by_contra hc
    rw [show 2 ^ m - 1 = 0 by omega] at hN
    omega
  unfold FK20Multi.new
  simp only
  rw [divU, if_neg (by omega), bind_ok, isPowerOf2_eq (by omega), bind_ok, isPowerOfTwo_two_pow, if_neg (by simp),
    isPowerOf2_eq (by omega), bind_ok, isPowerOfTwo_two_pow, if_neg (by simp), if_neg (by omega),
    if_neg (by rw [hw.fs.width]; omega), if_neg (by rw [hw.fs.width]; omega),
    show 2 ^ (m + c + 1) / 2 = 2 ^ (m + c) by omega, if_neg (by omega), hp2, Nat.mul_div_cancel _ hposc]
  obtain ⟨t, ht⟩ : ∃ t, 2 ^ c = t + 1 := ⟨2 ^ c - 1, by omega⟩
  have hs := precompute_short hw hk hposc hN
  rw [forRange, Nat.sub_zero]
  generalize 2 ^ c = l at *
  subst ht
  rw [forLoop, hs]
  rfl

theorem multi_N (hw : WF ks g1 g2 s N K) {m c : Nat} (hm : m + c + 1 ≤ K) {fk : FK20Multi Fr G1 G2}
    (hfk : FK20Multi.new ks (2 ^ (m + c + 1)) (2 ^ c) = .ok fk) : (2 ^ m - 1) * 2 ^ c ≤ N := by
  by_contra hc
  rw [multi_new_short hw hm (by omega)] at hfk
  cases hfk

theorem accumulate_spec (hw : WF ks g1 g2 s N K) {m c : Nat} (hm : m + c + 1 ≤ K) {fk : FK20Multi Fr G1 G2}
    (hfk : FK20Multi.new ks (2 ^ (m + c + 1)) (2 ^ c) = .ok fk)
    (p : List Fr) (hp : p.length = 2 ^ m * 2 ^ c) :
    FK20Multi.accumulate fk p (2 ^ m * 2) = .ok ((List.range (2 ^ (m + 1))).map
      (dft (ks.fs.omega (2 ^ (m + 1))) (2 ^ (m + 1)) fun i => ∑ o ∈ range (2 ^ c),
        cyc (2 ^ (m + 1)) (tcoef p (2 ^ m) (2 ^ c) o) (selPt g1 s (2 ^ m) (2 ^ c) o) i)) := by
  have hN := multi_N hw hm hfk
  rw [multi_new hw hm hN] at hfk
  cases hfk
  have hpos : 0 < 2 ^ m := by positivity
  have hp1 : 2 ^ (m + 1) = 2 ^ m * 2 := pow_succ _ _
  unfold FK20Multi.accumulate
  simp only
  rw [← hp1]
  obtain ⟨r, hr, h⟩ := forRange_inv (lo := 0) (hi := 2 ^ c) (s := List.replicate (2 ^ (m + 1)) (0 : G1))
    (body := fun i hExtFft => do
      let coeffs ← toeplitzCoeffsStrided p i (2 ^ c)
      let f ← rd ((List.range (2 ^ c)).map fun o => (List.range (2 ^ (m + 1))).map
        (dft (ks.fs.omega (2 ^ (m + 1))) (2 ^ (m + 1)) (selPt g1 s (2 ^ m) (2 ^ c) o))) i
      let file ← (toeplitzPart2 ks.fs coeffs f).unwrap
      forRange 0 (2 ^ (m + 1)) hExtFft fun j acc => do
        let a ← rd acc j
        let b ← rd file j
        wr acc j (a + b))
    (fun t acc => acc = (List.range (2 ^ (m + 1))).map
      fun i => ∑ o ∈ range t, dft (ks.fs.omega (2 ^ (m + 1))) (2 ^ (m + 1))
        (cyc (2 ^ (m + 1)) (tcoef p (2 ^ m) (2 ^ c) o) (selPt g1 s (2 ^ m) (2 ^ c) o)) i) (Nat.zero_le _)
    (by simp [List.map_const']) (by
      intro o acc _ ho hacc
      rw [toeplitzStrided_spec p hp hpos ho, bind_ok, rd_getD [] (by simpa using ho), bind_ok, getD_range_map,
        if_pos ho, ← hp1, part2_spec hw.fs (by omega), unwrap_ok, bind_ok,
        fill_loop (by rw [hacc]; simp) (fun i => ∑ o ∈ range (o + 1),
          dft (ks.fs.omega (2 ^ (m + 1))) (2 ^ (m + 1))
          (cyc (2 ^ (m + 1)) (tcoef p (2 ^ m) (2 ^ c) o) (selPt g1 s (2 ^ m) (2 ^ c) o)) i) (by
          intro i st hi hl _ h2
          have : st[i]? = some _ := (h2 i le_rfl).trans (getElem?_eq_some_getD 0 (by rw [hacc]; simpa using hi))
          rw [rd_of_getElem? this, bind_ok, rd_getD 0 (by simpa using hi), bind_ok, hacc, getD_range_map,
            if_pos hi, getD_range_map, if_pos hi, sum_range_succ])]
      exact Sat.ok rfl)
  rw [hr, h]
  congr 1
  refine List.map_congr_left fun i _ => ?_
  rw [dft_sum]

/-- The optimised computation on a polynomial of twice the length: only the first half counts. -/
theorem multi_opt (hw : WF ks g1 g2 s N K) {m c : Nat} (hm : m + c + 1 ≤ K) {fk : FK20Multi Fr G1 G2}
    (hfk : FK20Multi.new ks (2 ^ (m + c + 1)) (2 ^ c) = .ok fk)
    (q : List Fr) (hq : q.length / 2 = 2 ^ (m + c)) :
    FK20Multi.daOptimized fk q = .ok ((List.range (2 ^ (m + 1))).map fun j =>
      sgn (m + 1) •
        (polyOf (q.take (2 ^ (m + c))) / (X ^ 2 ^ c - C (ks.fs.omega (2 ^ (m + 1)) ^ j))).eval s • g1) := by
  have hp2 : 2 ^ (m + c) = 2 ^ m * 2 ^ c := pow_add _ _ _
  have hp : (q.take (2 ^ (m + c))).length = 2 ^ (m + c) := by rw [List.length_take]; omega
  have hacc := accumulate_spec hw hm hfk (q.take (2 ^ (m + c))) (by omega)
  have hN := multi_N hw hm hfk
  rw [multi_new hw hm hN] at hfk
  cases hfk
  have hle : 2 ^ (m + c + 1) ≤ 2 ^ K := Nat.pow_le_pow_right (by omega) hm
  have hp1 : 2 ^ (m + 1) = 2 ^ m * 2 := pow_succ _ _
  have hp3 : 2 ^ (m + c + 1) = 2 ^ (m + c) * 2 := pow_succ _ _
  have hpos : 0 < 2 ^ m := by positivity
  have hposc : 0 < 2 ^ c := by positivity
  have hpos3 : 0 < 2 ^ (m + c + 1) := by positivity
  have hm1 : m + 1 ≤ K := by omega
  have htail : ∀ f : Nat → G1, ((List.range (2 ^ (m + 1))).map fun i => if i < 2 ^ m then f i else 0).take (2 ^ m) ++
      List.replicate (2 ^ m) 0 = (List.range (2 ^ (m + 1))).map fun i => if i < 2 ^ m then f i else 0 := by
    intro f
    have := clearRange_spec (d := fun i => if i < 2 ^ m then f i else 0) (n := 2 ^ m)
    unfold clearRange at this
    rw [if_pos ⟨by omega, by simp⟩, ← hp1, List.drop_of_length_le (by simp), List.append_nil,
      show 2 ^ (m + 1) - 2 ^ m = 2 ^ m by omega] at this
    rw [Res.ok.inj this]
    refine List.map_congr_left fun i _ => ?_
    split <;> rfl
  unfold FK20Multi.daOptimized
  simp only
  rw [hq, divU, if_neg (by omega), bind_ok, ← hp3, isPowerOf2_eq (by omega), bind_ok, isPowerOfTwo_two_pow,
    if_neg (by simp), if_neg (by rw [hw.fs.width]; omega)]
  generalize List.take (2 ^ (m + c)) q = p at *
  rw [hp2, Nat.mul_div_cancel _ hposc, hacc, bind_ok, part3_spec hw.fs hm1, unwrap_ok, bind_ok, htail,
    fftG1_eq hw.fs hm1 (by simp) false (by simp), fft_range hw.fs hm1 _]
  congr 1
  refine List.map_congr_left fun j _ => ?_
  rw [hp1, ← dft_hvec p g1 s _ (hp.trans hp2) hposc j]
  unfold dft
  rw [smul_sum]
  refine sum_congr rfl fun i _ => ?_
  rw [smul_comm (sgn (m + 1))]
  congr 1
  beta_reduce
  split
  · next hi => rw [cyc_hvec p g1 s (hp.trans hp2) hi]
  · rw [smul_zero]

theorem multi_da (hw : WF ks g1 g2 s N K) {m c : Nat} (hm : m + c + 1 ≤ K) {fk : FK20Multi Fr G1 G2}
    (hfk : FK20Multi.new ks (2 ^ (m + c + 1)) (2 ^ c) = .ok fk) (p : List Fr) (hp : p.length = 2 ^ (m + c)) :
    FK20Multi.da fk p =
      (do let r ← FK20Multi.daOptimized fk (p ++ List.replicate (2 ^ (m + c)) 0); orderByRevBitOrder r) := by
  have hp3 : 2 ^ (m + c + 1) = 2 ^ (m + c) * 2 := pow_succ _ _
  have hpos3 : 0 < 2 ^ (m + c) := by positivity
  have hopt := multi_opt hw hm hfk (p ++ List.replicate (2 ^ (m + c)) 0) (by simp; omega)
  have hN := multi_N hw hm hfk
  rw [multi_new hw hm hN] at hfk
  cases hfk
  have hle : 2 ^ (m + c + 1) ≤ 2 ^ K := Nat.pow_le_pow_right (by omega) hm
  unfold FK20Multi.da
  simp only
  rw [hp, ← hp3, isPowerOf2_eq (by omega), bind_ok, isPowerOfTwo_two_pow, if_neg (by simp),
    if_neg (by rw [hw.fs.width]; omega), extend, if_neg (by omega), hp,
    show 2 ^ (m + c + 1) - 2 ^ (m + c) = 2 ^ (m + c) by omega, hopt]
  rfl

end

end Kzg.Mcl
