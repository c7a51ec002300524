import Verif.Model.Ark.FK20
import Verif.Proofs.Ark.Kzg
/-!
# FK20 of the Arkworks backend: proofs
-/

set_option linter.unusedSectionVars false

namespace Kzg.Ark
open Kzg Res Polynomial Finset

variable {P G1 G2 GT : Type} [AddCommGroup G1] [Module Fr G1] [AddCommGroup G2] [Module Fr G2]
  [CommGroup GT] [DecidableEq GT]

theorem toeplitzStride_spec (p : List Fr) {k l o : Nat} (hp : p.length = k * l) (hk : 0 < k) (ho : o < l) :
    toeplitzCoeffsStride p o l (k * 2) = .ok ((List.range (k * 2)).map (tcoef p k l o)) := by
  have hl : 0 < l := by omega
  have hkl : l ≤ k * l := Nat.le_mul_of_pos_left l hk
  unfold toeplitzCoeffsStride
  simp only
  rw [if_neg (by omega), hp, Nat.mul_div_cancel _ hl, if_neg (by omega)]
  obtain ⟨z, hz, hz1, hz2⟩ := forRange_inv (lo := 1) (hi := min (k + 2) (k * 2))
    (s := (List.replicate (k * 2) (0 : Fr)).set 0 (p.getD (k * l - 1 - o) 0)) (body := fun i out => wr out i 0)
    (fun _ d => d.length = k * 2 ∧ ∀ j < k * 2, d[j]? = some (if j = 0 then p.getD (k * l - 1 - o) 0 else 0))
    (by omega) ⟨by simp, by
      intro j hj
      by_cases h0 : j = 0
      · subst h0; rw [List.getElem?_set_self (by simpa using hj), if_pos rfl]
      · rw [List.getElem?_set_ne (by omega), List.getElem?_replicate, if_pos hj, if_neg h0]⟩ (by
      rintro i d h1 h2 ⟨hl, hd⟩
      rw [wr_of_lt (by omega)]
      refine Sat.ok ⟨by simpa using hl, ?_⟩
      intro j hj
      by_cases hji : j = i
      · subst hji; rw [List.getElem?_set_self (by omega), if_neg (by omega)]
      · rw [List.getElem?_set_ne (by omega), hd j hj])
  rw [subU_of_le (show 1 ≤ k * l by omega), bind_ok, subU_of_le (show o ≤ k * l - 1 by omega), bind_ok,
    rd_getD 0 (by omega), bind_ok, wr_of_lt (by simp; omega), bind_ok, hz, bind_ok,
    subU_of_le (show o ≤ 2 * l by omega), bind_ok, subU_of_le (show 1 ≤ 2 * l - o by omega), bind_ok]
  by_cases hk2 : k + 2 ≤ k * 2
  · obtain ⟨r, hr, h1, h2, h3⟩ := forRange_inv (lo := k + 2) (hi := k * 2)
      (s := (z, 2 * l - o - 1))
      (body := fun i s => do
        let c ← rd p s.2
        let out ← wr s.1 i c
        .ok (out, s.2 + l))
      (fun t s => s.1.length = k * 2 ∧ s.2 = (t - k) * l - 1 - o ∧ ∀ i < k * 2,
        s.1[i]? = some (if k + 2 ≤ i ∧ t ≤ i then 0 else tcoef p k l o i)) hk2
      ⟨hz1, by simp only; rw [show k + 2 - k = 2 by omega]; omega, by
        intro i hi
        simp only
        rw [hz2 i hi]
        by_cases h0 : i = 0
        · subst h0
          rw [if_pos rfl, if_neg (show ¬ (k + 2 ≤ 0 ∧ k + 2 ≤ 0) by omega), tcoef, if_pos rfl]
        · rw [if_neg h0]
          congr 1
          split
          · rfl
          · rw [tcoef, if_neg h0, if_neg (by omega)]⟩ (by
      rintro t ⟨v, j⟩ ht1 ht2 ⟨e1, e2, e3⟩
      simp only at e1 e2 e3
      have f1 : (t - k) * l ≤ k * l := Nat.mul_le_mul_right l (by omega)
      have f2 : 2 * l ≤ (t - k) * l := Nat.mul_le_mul_right l (by omega)
      have f3 : (t + 1 - k) * l = (t - k) * l + l := by
        rw [show t + 1 - k = (t - k) + 1 by omega, Nat.succ_mul]
      simp only
      rw [e2, rd_getD 0 (by omega), bind_ok, wr_of_lt (by omega), bind_ok]
      refine Sat.ok ⟨by simpa using e1, by simp only; omega, ?_⟩
      intro i hi
      simp only
      by_cases hit : i = t
      · subst hit
        rw [List.getElem?_set_self (by omega), if_neg (by omega), tcoef, if_neg (by omega), if_pos (by omega)]
      · rw [List.getElem?_set_ne (by omega), e3 i hi]
        congr 1
        by_cases hc : k + 2 ≤ i ∧ t ≤ i
        · rw [if_pos hc, if_pos (by omega)]
        · rw [if_neg hc, if_neg (by omega)])
    rw [hr, bind_ok]
    congr 1
    apply List.ext_getElem?
    intro i
    by_cases hi : i < k * 2
    · rw [h3 i hi, if_neg (by omega), List.getElem?_map, List.getElem?_range hi]; rfl
    · rw [List.getElem?_eq_none (by omega), List.getElem?_eq_none (by simp; omega)]
  · have hk1 : k = 1 := by omega
    subst hk1
    rw [forRange, show 1 * 2 - (1 + 2) = 0 by omega, forLoop, bind_ok]
    congr 1
    apply List.ext_getElem?
    intro i
    by_cases hi : i < 1 * 2
    · rw [hz2 i hi, List.getElem?_map, List.getElem?_range hi, Option.map_some, tcoef]
      congr 1
      split
      · rfl
      · rw [if_neg (by omega)]
    · rw [List.getElem?_eq_none (by show z.length ≤ i; omega), List.getElem?_eq_none (by simp; omega)]

/-! ### Parts -/

theorem part1_spec {fs : FFTSettings Fr} {K : Nat} (hwf : fs.WF K) {m : Nat} (hm : m + 1 ≤ K) (x : Nat → G1)
    (hx : ∀ i, 2 ^ m ≤ i → x i = 0) :
    toeplitzPart1 fs ((List.range (2 ^ m)).map x) =
      .ok ((List.range (2 ^ (m + 1))).map (dft (fs.omega (2 ^ (m + 1))) (2 ^ (m + 1)) x)) := by
  have e : (List.range (2 ^ m)).map x ++ List.replicate (2 ^ m * 2 - 2 ^ m) 0 = (List.range (2 ^ (m + 1))).map x := by
    rw [show 2 ^ m * 2 - 2 ^ m = 2 ^ m by omega,
      ← List.length_range (n := 2 ^ m), ← List.map_const', List.length_range, range_map_append,
      show 2 ^ m + 2 ^ m = 2 ^ (m + 1) by rw [pow_succ]; omega]
    refine List.map_congr_left fun i _ => ?_
    split
    · rfl
    · rw [hx i (by omega)]
  unfold toeplitzPart1
  simp only [List.length_map, List.length_range]
  rw [e, fftG1_eq hwf hm _ (by simp) false, fft_range hwf hm x]

theorem part2_spec {fs : FFTSettings Fr} {K : Nat} (hwf : Made fs K) {m : Nat} (hm : m ≤ K) (c : Nat → Fr)
    (x : Nat → G1) :
    toeplitzPart2 fs ((List.range (2 ^ m)).map c)
        ((List.range (2 ^ m)).map (dft (fs.omega (2 ^ m)) (2 ^ m) x)) =
      .ok ((List.range (2 ^ m)).map (dft (fs.omega (2 ^ m)) (2 ^ m) (cyc (2 ^ m) c x))) := by
  unfold toeplitzPart2
  rw [fftFr_eq hwf hm _ (by simp) false, fft_range hwf.toWF hm c, unwrap_ok, bind_ok, List.length_map,
    List.length_range]
  refine push_loop' _ ?_
  intro i acc hi
  rw [rd_getD 0 (by simpa using hi), bind_ok, rd_getD 0 (by simpa using hi), bind_ok, getD_range_map, if_pos hi,
    getD_range_map, if_pos hi, dft_cyc (hwf.toWF.omega_prim hm).pow_eq_one]

theorem clear_spec {n : Nat} (d : Nat → G1) :
    clearTakeSkip ((List.range (n * 2)).map d) n (n * 2) =
      (List.range (n * 2)).map fun i => if i < n then d i else 0 := by
  have := clearRange_spec (d := d) (n := n)
  unfold clearRange at this
  rw [if_pos ⟨by omega, by simp⟩] at this
  rw [← Res.ok.inj this]
  unfold clearTakeSkip
  rw [List.length_map, List.length_range, min_self, min_eq_left (by omega : n ≤ n * 2)]

theorem part3_spec {fs : FFTSettings Fr} {K : Nat} (hwf : fs.WF K) {m : Nat} (hm : m + 1 ≤ K)
    (h : Nat → G1) :
    toeplitzPart3 fs ((List.range (2 ^ (m + 1))).map (dft (fs.omega (2 ^ (m + 1))) (2 ^ (m + 1)) h)) =
      .ok ((List.range (2 ^ (m + 1))).map fun i => if i < 2 ^ m then h i else 0) := by
  have hp1 : 2 ^ (m + 1) = 2 ^ m * 2 := pow_succ _ _
  unfold toeplitzPart3
  rw [fftG1_eq hwf hm _ (by simp) true, ifft_range hwf hm h]
  simp only [unwrap_ok, bind_ok, List.length_map, List.length_range]
  rw [show 2 ^ (m + 1) / 2 = 2 ^ m by omega, hp1, clear_spec]

/-! ### Single proofs -/

section
variable {B : Backend P G1 G2 GT} {ks : Settings P G1 G2} {g1 : G1} {g2 : G2} {s : Fr} {L K : Nat}

/-- The settings kept in the FK20 settings. -/
def keptSettings (B : Backend P G1 G2 GT) (ks : Settings P G1 G2) : Settings P G1 G2 :=
  { defaultSettings B with fs := ks.fs }

theorem rd_secret (hB : B.Lawful g1 g2) (hw : KWF B ks g1 g2 s L K) {j : Nat} (hj : j ≤ L) :
    ∃ v, rd ks.secretG1 j = .ok v ∧ B.val v = s ^ j • g1 := by
  refine ⟨B.mulGen (s ^ j), ?_, hB.mulGen _⟩
  rw [hw.s1]
  exact rd_of_getElem? (by rw [List.getElem?_map, List.getElem?_range (by omega)]; rfl)

theorem single_new (hB : B.Lawful g1 g2) (hw : KWF B ks g1 g2 s L K) {m : Nat} (hm : m + 1 ≤ K) (hL : 2 ^ m ≤ L + 2) :
    FKSingle.new B ks (2 ^ (m + 1)) = .ok ⟨keptSettings B ks, (List.range (2 ^ (m + 1))).map
      (dft (ks.fs.omega (2 ^ (m + 1))) (2 ^ (m + 1)) (selPt g1 s (2 ^ m) 1 0)), 2 ^ (m + 1)⟩ := by
  have hle : 2 ^ (m + 1) ≤ 2 ^ K := Nat.pow_le_pow_right (by omega) hm
  have hpos : 0 < 2 ^ m := by positivity
  have hp1 : 2 ^ (m + 1) = 2 ^ m * 2 := pow_succ _ _
  unfold FKSingle.new
  simp only
  rw [if_neg (by rw [hw.fs.toWF.width]; omega), isPowerOfTwo_two_pow, if_neg (by simp), if_neg (by omega),
    show 2 ^ (m + 1) / 2 = 2 ^ m by omega, subU_of_le (show 1 ≤ 2 ^ m by omega), bind_ok,
    push_loop' (fun i => s ^ (2 ^ m - 2 - i) • g1) (by
      intro i acc hi
      obtain ⟨v, hv, he⟩ := rd_secret hB hw (j := 2 ^ m - 2 - i) (by omega)
      rw [subU_of_le (show 2 ≤ 2 ^ m by omega), bind_ok, subU_of_le (show i ≤ 2 ^ m - 2 by omega), bind_ok,
        hv, bind_ok, he]), bind_ok, settingsClone_eq, bind_ok]
  have : (List.range (2 ^ m - 1)).map (fun i => s ^ (2 ^ m - 2 - i) • g1) ++ [0] =
      (List.range (2 ^ m)).map (selPt g1 s (2 ^ m) 1 0) := by
    have e : List.range (2 ^ m) = List.range (2 ^ m - 1) ++ [2 ^ m - 1] := by
      rw [← List.range_succ]; congr 1; omega
    rw [e, List.map_append]
    congr 1
    · refine List.map_congr_left fun i hi => ?_
      rw [selPt, if_pos (List.mem_range.mp hi)]
      congr 2
      omega
    · rw [List.map_singleton, selPt, if_neg (by omega)]
  rw [this, part1_spec hw.fs.toWF hm _ (fun i hi => by rw [selPt, if_neg (by omega)]), unwrap_ok, bind_ok]
  rfl

theorem single_new_short (hw : KWF B ks g1 g2 s L K) {m : Nat} (hm : m + 1 ≤ K) (hL : L + 2 < 2 ^ m) :
    FKSingle.new B ks (2 ^ (m + 1)) = .panic := by
  have hle : 2 ^ (m + 1) ≤ 2 ^ K := Nat.pow_le_pow_right (by omega) hm
  have hp1 : 2 ^ (m + 1) = 2 ^ m * 2 := pow_succ _ _
  unfold FKSingle.new
  simp only
  rw [if_neg (by rw [hw.fs.toWF.width]; omega), isPowerOfTwo_two_pow, if_neg (by simp), if_neg (by omega),
    show 2 ^ (m + 1) / 2 = 2 ^ m by omega, subU_of_le (show 1 ≤ 2 ^ m by omega), bind_ok]
  obtain ⟨t, ht⟩ : ∃ t, 2 ^ m - 1 = t + 1 := ⟨2 ^ m - 2, by omega⟩
  rw [ht, forRange, Nat.sub_zero, forLoop, subU_of_le (show 2 ≤ 2 ^ m by omega), bind_ok, subU_of_le (Nat.zero_le _),
    bind_ok, hw.s1, rd_of_ge (by simp; omega), bind_panic, bind_panic, bind_panic]

theorem single_L (hw : KWF B ks g1 g2 s L K) {m : Nat} (hm : m + 1 ≤ K) {fk : FKSingle P G1 G2}
    (hfk : FKSingle.new B ks (2 ^ (m + 1)) = .ok fk) : 2 ^ m ≤ L + 2 := by
  by_contra hc
  rw [single_new_short hw hm (by omega)] at hfk
  cases hfk

theorem single_opt (hB : B.Lawful g1 g2) (hw : KWF B ks g1 g2 s L K) {m : Nat} (hm : m + 1 ≤ K)
    {fk : FKSingle P G1 G2} (hfk : FKSingle.new B ks (2 ^ (m + 1)) = .ok fk) (p : List Fr) (hp : p.length = 2 ^ m) :
    fk.daOptimized p = .ok ((List.range (2 ^ (m + 1))).map fun j =>
      (polyOf p / (X ^ 1 - C (ks.fs.omega (2 ^ (m + 1)) ^ j))).eval s • g1) := by
  rw [single_new hB hw hm (single_L hw hm hfk)] at hfk
  cases hfk
  have hle : 2 ^ (m + 1) ≤ 2 ^ K := Nat.pow_le_pow_right (by omega) hm
  have hp1 : 2 ^ (m + 1) = 2 ^ m * 2 := pow_succ _ _
  have hpos : 0 < 2 ^ m := by positivity
  have hpl : p.length = 2 ^ m * 1 := by omega
  unfold FKSingle.daOptimized toeplitzCoeffsStep
  simp only
  rw [if_neg (by simp only [keptSettings]; rw [hp, hw.fs.toWF.width]; omega), hp, isPowerOfTwo_two_pow,
    if_neg (by simp)]
  simp only [keptSettings]
  rw [show 2 * 2 ^ m = 2 ^ m * 2 by omega,
    toeplitzStride_spec p hpl hpos (by omega), unwrap_ok, bind_ok, ← hp1,
    part2_spec hw.fs hm, unwrap_ok, bind_ok, part3_spec hw.fs.toWF hm, unwrap_ok, bind_ok,
    fftG1_eq hw.fs.toWF hm _ (by simp) false, fft_range hw.fs.toWF hm _]
  congr 1
  refine List.map_congr_left fun j _ => ?_
  rw [hp1, ← dft_hvec p g1 s _ hpl (by omega) j]
  unfold dft
  refine sum_congr rfl fun i _ => ?_
  congr 1
  beta_reduce
  split
  · next hi =>
    rw [← cyc_hvec p g1 s hpl hi, sum_range_one]
  · rfl

theorem single_da (hB : B.Lawful g1 g2) (hw : KWF B ks g1 g2 s L K) {m : Nat} (hm : m + 1 ≤ K)
    {fk : FKSingle P G1 G2} (hfk : FKSingle.new B ks (2 ^ (m + 1)) = .ok fk) (p : List Fr) (hp : p.length = 2 ^ m) :
    fk.da p = (do let r ← fk.daOptimized p; reverseBitOrder r) := by
  have hopt := single_opt hB hw hm hfk p hp
  rw [single_new hB hw hm (single_L hw hm hfk)] at hfk
  cases hfk
  have hle : 2 ^ (m + 1) ≤ 2 ^ K := Nat.pow_le_pow_right (by omega) hm
  have hp1 : 2 ^ (m + 1) = 2 ^ m * 2 := pow_succ _ _
  unfold FKSingle.da
  simp only
  rw [if_neg (by simp only [keptSettings]; rw [hp, hw.fs.toWF.width]; omega), hp, isPowerOfTwo_two_pow,
    if_neg (by simp), hopt]
  rfl

/-! ### Multi proofs -/

theorem select_spec (hB : B.Lawful g1 g2) (hw : KWF B ks g1 g2 s L K) {k l o : Nat} (hk : 0 < k) (ho : o < l)
    (hL : (k - 1) * l ≤ L + 1) :
    multiSelect B ks (k * l) k l o = .ok ((List.range k).map (selPt g1 s k l o)) := by
  unfold multiSelect
  simp only
  rw [subU_of_le (show 1 ≤ k by omega), bind_ok]
  rcases Nat.lt_or_ge 1 k with h1 | h1
  · have hkl : 2 * l ≤ k * l := Nat.mul_le_mul_right l h1
    have e0 : k * l = (k - 1) * l + l := by rw [← Nat.succ_mul]; congr 1; omega
    rw [if_pos (by omega)]
    obtain ⟨r, hr, h2, h3, h4⟩ := forRange_inv (lo := 0) (hi := k - 1)
      (s := (List.replicate k (0 : G1), k * l - l - 1 - o))
      (body := fun i s => do
        let v ← rd ks.secretG1 s.2
        let x ← wr s.1 i (B.val v)
        .ok (x, if s.2 ≥ l then s.2 - l else 0))
      (fun t st => st.1.length = k ∧ (t < k - 1 → st.2 = (k - 1 - t) * l - 1 - o) ∧ ∀ i < k,
        st.1[i]? = some (if i < t then selPt g1 s k l o i else 0)) (Nat.zero_le _)
      ⟨by simp, by simp only; rw [Nat.sub_zero]; omega, by
        intro i hi
        rw [List.getElem?_replicate, if_pos hi, if_neg (by omega)]⟩ (by
      rintro t ⟨v, j⟩ _ ht ⟨e1, e2, e3⟩
      simp only at e1 e2 e3
      have e2 := e2 ht
      have f1 : (k - 1 - t) * l ≤ (k - 1) * l := Nat.mul_le_mul_right l (by omega)
      have f2 : (k - 1 - t) * l = (k - 1 - (t + 1)) * l + l := by
        rw [← Nat.succ_mul]; congr 1; omega
      obtain ⟨w, hv, he⟩ := rd_secret hB hw (j := j) (by omega)
      simp only
      rw [hv, bind_ok, he, wr_of_lt (by omega), bind_ok]
      refine Sat.ok ⟨by simpa using e1, ?_, ?_⟩
      · intro ht'
        have f3 : 1 * l ≤ (k - 1 - (t + 1)) * l := Nat.mul_le_mul_right l (by omega)
        simp only
        rw [if_pos (by omega)]
        omega
      intro i hi
      simp only
      by_cases hit : i = t
      · subst hit
        rw [List.getElem?_set_self (by omega), if_pos (by omega), selPt, if_pos ht]
        congr 3
      · rw [List.getElem?_set_ne (by omega), e3 i hi]
        congr 1
        by_cases hc : i < t
        · rw [if_pos hc, if_pos (by omega)]
        · rw [if_neg hc, if_neg (by omega)])
    rw [hr, bind_ok]
    rw [bind_ok, wr_of_lt (by omega)]
    congr 1
    apply List.ext_getElem?
    intro i
    by_cases hi : i < k
    · rw [List.getElem?_map, List.getElem?_range hi, Option.map_some]
      by_cases hl : i = k - 1
      · subst hl
        rw [List.getElem?_set_self (by omega), selPt, if_neg (by omega)]
      · rw [List.getElem?_set_ne (by omega), h4 i hi, if_pos (by omega)]
    · rw [List.getElem?_eq_none (by simp; omega), List.getElem?_eq_none (by simp; omega)]
  · have hk1 : k = 1 := by omega
    subst hk1
    rw [show 1 - 1 = 0 from rfl, forRange_zero_zero, bind_ok]
    simp only
    rw [bind_ok, wr_of_lt (by simp)]
    congr 1

theorem multi_new (hB : B.Lawful g1 g2) (hw : KWF B ks g1 g2 s L K) {m c : Nat} (hm : m + c + 1 ≤ K)
    (hL : (2 ^ m - 1) * 2 ^ c ≤ L + 1) :
    FKMulti.new B ks (2 ^ (m + c + 1)) (2 ^ c) = .ok ⟨keptSettings B ks, 2 ^ c, (List.range (2 ^ c)).map fun o =>
      (List.range (2 ^ (m + 1))).map
        (dft (ks.fs.omega (2 ^ (m + 1))) (2 ^ (m + 1)) (selPt g1 s (2 ^ m) (2 ^ c) o)), 2 ^ (m + c)⟩ := by
  have hle : 2 ^ (m + c + 1) ≤ 2 ^ K := Nat.pow_le_pow_right (by omega) hm
  have hpos : 0 < 2 ^ m := by positivity
  have hposc : 0 < 2 ^ c := by positivity
  have hp1 : 2 ^ (m + c + 1) = 2 ^ (m + c) * 2 := pow_succ _ _
  have hp2 : 2 ^ (m + c) = 2 ^ m * 2 ^ c := pow_add _ _ _
  have hcl : 2 ^ c ≤ 2 ^ (m + c) := Nat.pow_le_pow_right (by omega) (by omega)
  unfold FKMulti.new
  simp only
  rw [if_neg (by rw [hw.fs.toWF.width]; omega), isPowerOfTwo_two_pow, if_neg (by simp), if_neg (by omega),
    show 2 ^ (m + c + 1) / 2 = 2 ^ (m + c) by omega, if_neg (by omega), isPowerOfTwo_two_pow, if_neg (by simp),
    if_neg (by omega), hp2, Nat.mul_div_cancel _ hposc,
    push_loop' (fun o => (List.range (2 ^ (m + 1))).map
        (dft (ks.fs.omega (2 ^ (m + 1))) (2 ^ (m + 1)) (selPt g1 s (2 ^ m) (2 ^ c) o))) (by
      intro o acc ho
      rw [select_spec hB hw hpos ho hL, bind_ok,
        part1_spec hw.fs.toWF (by omega) _ (fun i hi => by rw [selPt, if_neg (by omega)]), unwrap_ok, bind_ok]),
    bind_ok, settingsClone_eq, bind_ok]
  rfl

theorem select_short (hw : KWF B ks g1 g2 s L K) {k l : Nat} (hk : 1 < k) (hl : 0 < l)
    (hL : L + 1 < (k - 1) * l) : multiSelect B ks (k * l) k l 0 = .panic := by
  have hkl : 2 * l ≤ k * l := Nat.mul_le_mul_right l hk
  have e0 : k * l = (k - 1) * l + l := by rw [← Nat.succ_mul]; congr 1; omega
  unfold multiSelect
  simp only
  rw [subU_of_le (show 1 ≤ k by omega), bind_ok, if_pos (by omega)]
  obtain ⟨t, ht⟩ : ∃ t, k - 1 = t + 1 := ⟨k - 2, by omega⟩
  rw [ht, forRange, Nat.sub_zero, forLoop]
  simp only
  rw [hw.s1, rd_of_ge (by simp; omega), bind_panic, bind_panic, bind_panic]

theorem multi_new_short (hw : KWF B ks g1 g2 s L K) {m c : Nat} (hm : m + c + 1 ≤ K)
    (hL : L + 1 < (2 ^ m - 1) * 2 ^ c) : FKMulti.new B ks (2 ^ (m + c + 1)) (2 ^ c) = .panic := by
  have hle : 2 ^ (m + c + 1) ≤ 2 ^ K := Nat.pow_le_pow_right (by omega) hm
  have hposc : 0 < 2 ^ c := by positivity
  have hp1 : 2 ^ (m + c + 1) = 2 ^ (m + c) * 2 := pow_succ _ _
  have hp2 : 2 ^ (m + c) = 2 ^ m * 2 ^ c := pow_add _ _ _
  have hcl : 2 ^ c ≤ 2 ^ (m + c) := Nat.pow_le_pow_right (by omega) (by omega)
  have hk : 1 < 2 ^ m := by
    by_contra hc
    rw [show 2 ^ m - 1 = 0 by omega] at hL
    omega
  have hs := select_short hw hk hposc hL
  unfold FKMulti.new
  simp only
  rw [if_neg (by rw [hw.fs.toWF.width]; omega), isPowerOfTwo_two_pow, if_neg (by simp), if_neg (by omega),
    show 2 ^ (m + c + 1) / 2 = 2 ^ (m + c) by omega, if_neg (by omega), isPowerOfTwo_two_pow, if_neg (by simp),
    if_neg (by omega), hp2, Nat.mul_div_cancel _ hposc]
  obtain ⟨t, ht⟩ : ∃ t, 2 ^ c = t + 1 := ⟨2 ^ c - 1, by omega⟩
  rw [forRange, Nat.sub_zero]
  generalize 2 ^ c = l at *
  subst ht
  rw [forLoop, hs]
  rfl

theorem multi_L (hw : KWF B ks g1 g2 s L K) {m c : Nat} (hm : m + c + 1 ≤ K) {fk : FKMulti P G1 G2}
    (hfk : FKMulti.new B ks (2 ^ (m + c + 1)) (2 ^ c) = .ok fk) : (2 ^ m - 1) * 2 ^ c ≤ L + 1 := by
  by_contra hc
  rw [multi_new_short hw hm (by omega)] at hfk
  cases hfk

theorem accumulate_spec (hB : B.Lawful g1 g2) (hw : KWF B ks g1 g2 s L K) {m c : Nat} (hm : m + c + 1 ≤ K)
    {fk : FKMulti P G1 G2} (hfk : FKMulti.new B ks (2 ^ (m + c + 1)) (2 ^ c) = .ok fk)
    (p : List Fr) (hp : p.length = 2 ^ m * 2 ^ c) :
    fk.accumulate p (2 ^ m * 2) (2 ^ m * 2) = .ok ((List.range (2 ^ (m + 1))).map
      (dft (ks.fs.omega (2 ^ (m + 1))) (2 ^ (m + 1)) fun i => ∑ o ∈ range (2 ^ c),
        cyc (2 ^ (m + 1)) (tcoef p (2 ^ m) (2 ^ c) o) (selPt g1 s (2 ^ m) (2 ^ c) o) i)) := by
  rw [multi_new hB hw hm (multi_L hw hm hfk)] at hfk
  cases hfk
  have hpos : 0 < 2 ^ m := by positivity
  have hp1 : 2 ^ (m + 1) = 2 ^ m * 2 := pow_succ _ _
  unfold FKMulti.accumulate
  simp only [keptSettings]
  rw [← hp1]
  obtain ⟨r, hr, h⟩ := forRange_inv (lo := 0) (hi := 2 ^ c) (s := List.replicate (2 ^ (m + 1)) (0 : G1))
    (body := fun i hExtFft => do
      let coeffs ← (toeplitzCoeffsStride p i (2 ^ c) (2 ^ (m + 1))).unwrap
      let f ← rd ((List.range (2 ^ c)).map fun o => (List.range (2 ^ (m + 1))).map
        (dft (ks.fs.omega (2 ^ (m + 1))) (2 ^ (m + 1)) (selPt g1 s (2 ^ m) (2 ^ c) o))) i
      let file ← (toeplitzPart2 ks.fs coeffs f).unwrap
      forRange 0 (2 ^ (m + 1)) hExtFft fun j acc => do
        let a ← rd acc j
        let b ← rd file j
        wr acc j (a + b))
    (fun t acc => acc = (List.range (2 ^ (m + 1))).map
      fun i => ∑ o ∈ range t, dft (ks.fs.omega (2 ^ (m + 1))) (2 ^ (m + 1))
        (cyc (2 ^ (m + 1)) (tcoef p (2 ^ m) (2 ^ c) o) (selPt g1 s (2 ^ m) (2 ^ c) o)) i) (Nat.zero_le _)
    (by simp [List.map_const']) (by
      intro o acc _ ho hacc
      have ht := toeplitzStride_spec p hp hpos ho
      rw [← hp1] at ht
      rw [ht, unwrap_ok, bind_ok, rd_getD [] (by simpa using ho), bind_ok, getD_range_map,
        if_pos ho, part2_spec hw.fs (by omega), unwrap_ok, bind_ok,
        fill_loop (by rw [hacc]; simp) (fun i => ∑ o ∈ range (o + 1),
          dft (ks.fs.omega (2 ^ (m + 1))) (2 ^ (m + 1))
          (cyc (2 ^ (m + 1)) (tcoef p (2 ^ m) (2 ^ c) o) (selPt g1 s (2 ^ m) (2 ^ c) o)) i) (by
          intro i st hi hl _ h2
          have : st[i]? = some _ := (h2 i le_rfl).trans (getElem?_eq_some_getD 0 (by rw [hacc]; simpa using hi))
          rw [rd_of_getElem? this, bind_ok, rd_getD 0 (by simpa using hi), bind_ok, hacc, getD_range_map,
            if_pos hi, getD_range_map, if_pos hi, sum_range_succ])]
      exact Sat.ok rfl)
  rw [hr, h]
  congr 1
  refine List.map_congr_left fun i _ => ?_
  rw [dft_sum]

theorem multi_opt (hB : B.Lawful g1 g2) (hw : KWF B ks g1 g2 s L K) {m c : Nat} (hm : m + c + 1 ≤ K)
    {fk : FKMulti P G1 G2} (hfk : FKMulti.new B ks (2 ^ (m + c + 1)) (2 ^ c) = .ok fk)
    (p : List Fr) (hp : p.length = 2 ^ (m + c)) :
    fk.daOptimized p = .ok ((List.range (2 ^ (m + 1))).map fun j =>
      (polyOf p / (X ^ 2 ^ c - C (ks.fs.omega (2 ^ (m + 1)) ^ j))).eval s • g1) := by
  have hp2 : 2 ^ (m + c) = 2 ^ m * 2 ^ c := pow_add _ _ _
  have hacc := accumulate_spec hB hw hm hfk p (by omega)
  rw [multi_new hB hw hm (multi_L hw hm hfk)] at hfk
  cases hfk
  have hle : 2 ^ (m + c + 1) ≤ 2 ^ K := Nat.pow_le_pow_right (by omega) hm
  have hp1 : 2 ^ (m + 1) = 2 ^ m * 2 := pow_succ _ _
  have hp3 : 2 ^ (m + c + 1) = 2 ^ (m + c) * 2 := pow_succ _ _
  have hposc : 0 < 2 ^ c := by positivity
  have hm1 : m + 1 ≤ K := by omega
  unfold FKMulti.daOptimized
  simp only
  rw [if_neg (by simp only [keptSettings]; rw [hp, hw.fs.toWF.width]; omega), hp, isPowerOfTwo_two_pow,
    if_neg (by simp), show 2 ^ (m + c) * 2 / 2 = 2 ^ (m + c) by omega, divU, if_neg (by omega), bind_ok,
    divU, if_neg (by omega), bind_ok, show 2 ^ (m + c) * 2 / 2 ^ c = 2 ^ m * 2 by
      rw [hp2, mul_right_comm, Nat.mul_div_cancel _ hposc],
    show 2 ^ (m + c) / 2 ^ c = 2 ^ m by rw [hp2, Nat.mul_div_cancel _ hposc], hacc, bind_ok]
  simp only [keptSettings]
  rw [part3_spec hw.fs.toWF hm1, unwrap_ok, bind_ok, hp1, clear_spec, ← hp1,
    fftG1_eq hw.fs.toWF hm1 _ (by simp) false, fft_range hw.fs.toWF hm1 _]
  congr 1
  refine List.map_congr_left fun j _ => ?_
  rw [hp1, ← dft_hvec p g1 s _ (hp.trans hp2) hposc j]
  unfold dft
  refine sum_congr rfl fun i _ => ?_
  congr 1
  beta_reduce
  split
  · next hi =>
    rw [← cyc_hvec p g1 s (hp.trans hp2) hi]
  · rfl

theorem multi_da (hB : B.Lawful g1 g2) (hw : KWF B ks g1 g2 s L K) {m c : Nat} (hm : m + c + 1 ≤ K)
    {fk : FKMulti P G1 G2} (hfk : FKMulti.new B ks (2 ^ (m + c + 1)) (2 ^ c) = .ok fk)
    (p : List Fr) (hp : p.length = 2 ^ (m + c)) :
    fk.da p = (do let r ← fk.daOptimized p; reverseBitOrder r) := by
  have hopt := multi_opt hB hw hm hfk p hp
  rw [multi_new hB hw hm (multi_L hw hm hfk)] at hfk
  cases hfk
  have hle : 2 ^ (m + c + 1) ≤ 2 ^ K := Nat.pow_le_pow_right (by omega) hm
  have hp1 : 2 ^ (m + c + 1) = 2 ^ (m + c) * 2 := pow_succ _ _
  unfold FKMulti.da
  simp only
  rw [if_neg (by simp only [keptSettings]; rw [hp, hw.fs.toWF.width]; omega), hp, isPowerOfTwo_two_pow,
    if_neg (by simp), hopt]
  rfl

/-! ### Other sizes -/

/-- A polynomial longer than the settings were made for: reading past the end of the precomputed points. -/
theorem part2_short {fs : FFTSettings Fr} {K : Nat} (hwf : Made fs K) {m : Nat} (hm : m ≤ K) (c : List Fr)
    (hc : c.length = 2 ^ m) (x : List G1) (hx : x.length < 2 ^ m) : toeplitzPart2 fs c x = .panic := by
  obtain ⟨r, hr, hrl, _⟩ := hwf.toWF.fft_forward hm c hc
  unfold toeplitzPart2
  rw [fftFr_eq hwf hm _ hc false, hr, unwrap_ok, bind_ok, hc]
  refine forRange_panic x.length (fun _ _ => True) (by omega) hx trivial ?_ ?_
  · intro i s _ hi _
    rw [rd_of_lt (by omega), bind_ok, rd_of_lt (by omega), bind_ok]
    exact Sat.ok trivial
  · intro s _
    rw [rd_of_ge le_rfl, bind_panic]

/-- More chunk points than coefficients: the first coefficient of the last chunk does not exist. -/
theorem stride_offset_panic (p : List Fr) {l o outlen : Nat} (hp : p.length < l) (ho : p.length ≤ o) :
    (toeplitzCoeffsStride p o l outlen).unwrap = .panic := by
  unfold toeplitzCoeffsStride
  simp only
  rw [if_neg (by omega), Nat.div_eq_of_lt hp, if_neg (by omega)]
  rcases Nat.eq_zero_or_pos p.length with h | h
  · rw [h]; rfl
  · rw [subU_of_le h, bind_ok, subU, if_neg (by omega)]
    rfl

end
end Kzg.Ark
