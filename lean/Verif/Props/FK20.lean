import Verif.Proofs.FK20
import Verif.Props.KZG
import Verif.Props.Utils
/-!
# Properties C30, C31, C43: FK20 amortised proofs
-/

set_option linter.unusedSectionVars false

namespace Kzg.Props
open Kzg Polynomial

variable {G1 G2 GT : Type} [AddCommGroup G1] [Module Fr G1] [AddCommGroup G2] [Module Fr G2]
  [CommGroup GT] [DecidableEq GT]

/-! ## C30 -/

/-- C30 (settings): settings for size `n2` can be made exactly for powers of two from 2 to the width;
everything else is an error. -/
theorem C30_settings_new {ks : KZGSettings Fr G1 G2} {g1 : G1} {g2 : G2} {N scale : Nat} {s : Fr}
    (h : MadeFrom ks g1 g2 N scale s) (n2 : Nat) :
    ((∃ m, m < scale ∧ n2 = 2 ^ (m + 1)) → ∃ fk, FK20Single.new ks n2 = .ok fk ∧ fk.ks = ks) ∧
    (¬ (∃ m, m < scale ∧ n2 = 2 ^ (m + 1)) → ∃ msg, FK20Single.new ks n2 = .err msg) := by
  constructor
  · rintro ⟨m, hm, rfl⟩
    exact ⟨_, single_new h.wf hm, rfl⟩
  · intro hn
    unfold FK20Single.new
    simp only
    by_cases h1 : n2 > ks.fs.maxWidth
    · rw [if_pos h1]; exact ⟨_, rfl⟩
    rw [if_neg h1]
    by_cases h2 : isPowerOfTwo n2 = true
    · rw [h2, if_neg (by simp)]
      by_cases h3 : n2 < 2
      · rw [if_pos h3]; exact ⟨_, rfl⟩
      · obtain ⟨k, rfl⟩ := exists_of_isPowerOfTwo h2
        exfalso
        apply hn
        have hk : k ≠ 0 := by rintro rfl; simp at h3
        rw [h.wf.fs.width] at h1
        have : k ≤ scale := (Nat.pow_le_pow_iff_right (by norm_num)).mp (not_lt.mp h1)
        exact ⟨k - 1, by omega, by congr 1; omega⟩
    · rw [if_pos (by simp [h2])]; exact ⟨_, rfl⟩

/-- C30: for every polynomial of `n = 2^m` coefficients, with settings made for `2n`, the amortised
computation returns `2n` proofs, and proof `j` is the one computed for the point `ω^j` alone, `ω` the
`2n`-th root. -/
theorem C30_fk20_single {B : Backend G1 G2 GT} {g1 : G1} {g2 : G2} (hB : B.Lawful g1 g2)
    {ks : KZGSettings Fr G1 G2} {N scale : Nat} {s : Fr} (h : MadeFrom ks g1 g2 N scale s) {m : Nat}
    (hm : m < scale) {fk : FK20Single Fr G1 G2} (hfk : FK20Single.new ks (2 ^ (m + 1)) = .ok fk)
    (p : List Fr) (hp : p.length = 2 ^ m) (hinf : s ≠ 0 ∨ p.length < 8 ∨ B.MsmTotal) :
    ∃ proofs, fk.daOptimized p = .ok proofs ∧ proofs.length = 2 ^ (m + 1) ∧
      ∀ j < 2 ^ (m + 1), ∃ proof, proofs[j]? = some proof ∧
        ks.computeProofSingle B p (cosetRoot ks scale (m + 1) ^ j) = .ok proof := by
  have hle : 2 ^ m ≤ 2 ^ scale := Nat.pow_le_pow_right (by omega) (by omega)
  have hN := h.wf.le
  refine ⟨_, single_opt h.wf hm hfk p hp, by simp, ?_⟩
  intro j hj
  refine ⟨_, by rw [List.getElem?_map, List.getElem?_range hj]; rfl, ?_⟩
  have hc := h.wf.computeMulti hB p (by omega) hinf (cosetRoot ks scale (m + 1) ^ j) (m := 0)
    (Or.inl (by norm_num))
  rw [pow_zero] at hc
  rw [KZGSettings.computeProofSingle, hc, cosetRoot_eq h hm, pow_one (_ ^ j)]

/-- C30 (public order): `data_availability` returns the same proofs in bit-reversed order. -/
theorem C30_fk20_single_order {ks : KZGSettings Fr G1 G2} {g1 : G1} {g2 : G2} {N scale : Nat} {s : Fr}
    (h : MadeFrom ks g1 g2 N scale s) {m : Nat} (hm : m < scale) {fk : FK20Single Fr G1 G2}
    (hfk : FK20Single.new ks (2 ^ (m + 1)) = .ok fk) (p : List Fr) (hp : p.length = 2 ^ m) :
    ∃ proofs out, fk.daOptimized p = .ok proofs ∧ fk.da p = .ok out ∧ out.length = 2 ^ (m + 1) ∧
      ∀ j < 2 ^ (m + 1), ∃ r, IsBitReversal (m + 1) j r ∧ out[r]? = proofs[j]? := by
  have hsc := h.wf.fs.lt
  have ho := single_opt h.wf hm hfk p hp
  obtain ⟨out, h1, h2, _, h4⟩ := C32_reverse_bit_order
    ((List.range (2 ^ (m + 1))).map fun j =>
      (polyOf p / (X ^ 1 - C (ks.fs.omega (2 ^ (m + 1)) ^ j))).eval s • g1) (m + 1) (by omega) (by simp)
  refine ⟨_, out, ho, ?_, by simpa using h2, by simpa using h4⟩
  rw [single_da h.wf hm hfk p hp, ho, Res.bind_ok, h1]

/-- C30 (rejection): lengths that are not half of a power of two within the width are an error. -/
theorem C30_rejects {ks : KZGSettings Fr G1 G2} {g1 : G1} {g2 : G2} {N scale : Nat} {s : Fr}
    (h : MadeFrom ks g1 g2 N scale s) {n2 : Nat} {fk : FK20Single Fr G1 G2}
    (hfk : FK20Single.new ks n2 = .ok fk) (p : List Fr)
    (hp : ¬ ∃ m, m < scale ∧ p.length = 2 ^ m) :
    (∃ msg, fk.daOptimized p = .err msg) ∧ ∃ msg, fk.da p = .err msg := by
  have hks : fk.ks = ks := by
    by_cases hn : ∃ m, m < scale ∧ n2 = 2 ^ (m + 1)
    · obtain ⟨fk', h1, h2⟩ := (C30_settings_new h n2).1 hn
      rw [h1] at hfk; cases hfk; exact h2
    · obtain ⟨msg, h1⟩ := (C30_settings_new h n2).2 hn
      rw [h1] at hfk; cases hfk
  unfold FK20Single.daOptimized FK20Single.da
  simp only
  rw [hks]
  by_cases h1 : p.length * 2 > ks.fs.maxWidth
  · rw [if_pos h1, if_pos h1]; exact ⟨⟨_, rfl⟩, _, rfl⟩
  rw [if_neg h1, if_neg h1]
  by_cases h2 : isPowerOfTwo (p.length * 2) = true
  · exfalso
    obtain ⟨k, hk⟩ := exists_of_isPowerOfTwo h2
    apply hp
    rw [h.wf.fs.width, hk] at h1
    have hle : k ≤ scale := (Nat.pow_le_pow_iff_right (by norm_num)).mp (not_lt.mp h1)
    have hk0 : k ≠ 0 := by rintro rfl; simp at hk
    obtain ⟨k, rfl⟩ : ∃ j, k = j + 1 := ⟨k - 1, by omega⟩
    exact ⟨k, by omega, by rw [pow_succ] at hk; omega⟩
  · rw [if_pos (by simp [h2]), if_pos (by simp [h2])]; exact ⟨⟨_, rfl⟩, _, rfl⟩

/-! ## C31 -/

/-- C31 (settings): settings for size `n2` and chunk length `l` can be made exactly for powers of two
with `2 ≤ n2 ≤` width and `2 l ≤ n2`. -/
theorem C31_settings_new {ks : KZGSettings Fr G1 G2} {g1 : G1} {g2 : G2} {N scale : Nat} {s : Fr}
    (h : MadeFrom ks g1 g2 N scale s) (n2 l : Nat) :
    ((∃ m c, m + c < scale ∧ n2 = 2 ^ (m + c + 1) ∧ l = 2 ^ c) →
      ∃ fk, FK20Multi.new ks n2 l = .ok fk ∧ fk.ks = ks ∧ fk.chunkLen = l) ∧
    (¬ (∃ m c, m + c < scale ∧ n2 = 2 ^ (m + c + 1) ∧ l = 2 ^ c) →
      ∃ msg, FK20Multi.new ks n2 l = .err msg) := by
  constructor
  · rintro ⟨m, c, hm, rfl, rfl⟩
    exact ⟨_, multi_new h.wf hm, rfl, rfl⟩
  · intro hn
    unfold FK20Multi.new
    by_cases h1 : n2 > ks.fs.maxWidth
    · rw [if_pos h1]; exact ⟨_, rfl⟩
    rw [if_neg h1]
    by_cases h2 : isPowerOfTwo n2 = true
    · rw [h2, if_neg (by simp)]
      by_cases h3 : n2 < 2
      · rw [if_pos h3]; exact ⟨_, rfl⟩
      rw [if_neg h3]
      by_cases h4 : l > n2 / 2
      · rw [if_pos h4]; exact ⟨_, rfl⟩
      rw [if_neg h4]
      by_cases h5 : isPowerOfTwo l = true
      · exfalso
        obtain ⟨k, rfl⟩ := exists_of_isPowerOfTwo h2
        obtain ⟨c, rfl⟩ := exists_of_isPowerOfTwo h5
        apply hn
        have hk : k ≠ 0 := by rintro rfl; simp at h3
        obtain ⟨k, rfl⟩ : ∃ j, k = j + 1 := ⟨k - 1, by omega⟩
        rw [h.wf.fs.width] at h1
        have : k + 1 ≤ scale := (Nat.pow_le_pow_iff_right (by norm_num)).mp (not_lt.mp h1)
        have hc : c ≤ k := by
          rw [pow_succ, Nat.mul_div_cancel _ (by norm_num)] at h4
          exact (Nat.pow_le_pow_iff_right (by norm_num)).mp (not_lt.mp h4)
        exact ⟨k - c, c, by omega, by congr 1; omega, rfl⟩
      · rw [if_pos (by simp [h5])]; exact ⟨_, rfl⟩
    · rw [if_pos (by simp [h2])]; exact ⟨_, rfl⟩

/-- C31: for every polynomial of `n = 2^(m+c)` coefficients, with settings made for `2n` and chunk
length `l = 2^c`, the amortised computation returns `2n/l` proofs, and proof `j` is the multi proof
for `l` values computed for `ω^j` alone, `ω` the `2n`-th root. -/
theorem C31_fk20_multi {B : Backend G1 G2 GT} {g1 : G1} {g2 : G2} (hB : B.Lawful g1 g2)
    {ks : KZGSettings Fr G1 G2} {N scale : Nat} {s : Fr} (h : MadeFrom ks g1 g2 N scale s) {m c : Nat}
    (hm : m + c < scale) {fk : FK20Multi Fr G1 G2}
    (hfk : FK20Multi.new ks (2 ^ (m + c + 1)) (2 ^ c) = .ok fk)
    (p : List Fr) (hp : p.length = 2 ^ (m + c)) (hinf : s ≠ 0 ∨ p.length < 8 ∨ B.MsmTotal) :
    ∃ proofs, fk.daOptimized p = .ok proofs ∧ proofs.length = 2 ^ (m + c + 1) / 2 ^ c ∧
      ∀ j < proofs.length, ∃ proof, proofs[j]? = some proof ∧
        ks.computeProofMulti B p (cosetRoot ks scale (m + c + 1) ^ j) (2 ^ c) = .ok proof := by
  have hle : 2 ^ (m + c) ≤ 2 ^ scale := Nat.pow_le_pow_right (by omega) (by omega)
  have hN := h.wf.le
  have hsc := h.wf.fs.lt
  have hp30 : 2 ^ (m + c) ≤ 2 ^ 30 := Nat.pow_le_pow_right (by omega) (by omega)
  have hdiv : 2 ^ (m + c + 1) / 2 ^ c = 2 ^ (m + 1) := by
    rw [Nat.pow_div (by omega) (by omega)]; congr 1; omega
  refine ⟨_, multi_opt h.wf hm hfk p hp, by simp [hdiv], ?_⟩
  intro j hj
  rw [List.length_map, List.length_range] at hj
  refine ⟨_, by rw [List.getElem?_map, List.getElem?_range hj]; rfl, ?_⟩
  rw [h.wf.computeMulti hB p (by omega) hinf (cosetRoot ks scale (m + c + 1) ^ j) (m := c)
    (Or.inr (hp ▸ hp30)), cosetRoot_eq h (show m + 1 ≤ scale by omega)]
  have e : (cosetRoot ks scale (m + c + 1) ^ j) ^ 2 ^ c = cosetRoot ks scale (m + 1) ^ j := by
    rw [← pow_mul, mul_comm, pow_mul]
    congr 1
    rw [cosetRoot, ← pow_mul, ← pow_add, cosetRoot]
    congr 2
    omega
  rw [e]

/-- C31 (public order). -/
theorem C31_fk20_multi_order {ks : KZGSettings Fr G1 G2} {g1 : G1} {g2 : G2} {N scale : Nat} {s : Fr}
    (h : MadeFrom ks g1 g2 N scale s) {m c : Nat} (hm : m + c < scale) {fk : FK20Multi Fr G1 G2}
    (hfk : FK20Multi.new ks (2 ^ (m + c + 1)) (2 ^ c) = .ok fk) (p : List Fr)
    (hp : p.length = 2 ^ (m + c)) :
    ∃ proofs out, fk.daOptimized p = .ok proofs ∧ fk.da p = .ok out ∧ out.length = 2 ^ (m + 1) ∧
      ∀ j < 2 ^ (m + 1), ∃ r, IsBitReversal (m + 1) j r ∧ out[r]? = proofs[j]? := by
  have hsc := h.wf.fs.lt
  have ho := multi_opt h.wf hm hfk p hp
  obtain ⟨out, h1, h2, _, h4⟩ := C32_reverse_bit_order
    ((List.range (2 ^ (m + 1))).map fun j =>
      (polyOf p / (X ^ 2 ^ c - C (ks.fs.omega (2 ^ (m + 1)) ^ j))).eval s • g1) (m + 1) (by omega) (by simp)
  refine ⟨_, out, ho, ?_, by simpa using h2, by simpa using h4⟩
  rw [multi_da h.wf hm hfk p hp, ho, Res.bind_ok, h1]

/-- Settings and polynomials as in C30 and C31 exist: four coefficients, chunks of two. -/
example : ∃ (ks : KZGSettings Fr Fr Fr) (f1 : FK20Single Fr Fr Fr) (f2 : FK20Multi Fr Fr Fr), MadeFrom ks 1 1 16 4 5 ∧
    FK20Single.new ks 8 = .ok f1 ∧ FK20Multi.new ks 8 2 = .ok f2 ∧
    (∃ ps, f1.daOptimized [1, 2, 3, 4] = .ok ps ∧ ps.length = 8) ∧
    ∃ ps, f2.daOptimized [1, 2, 3, 4] = .ok ps ∧ ps.length = 4 := by
  obtain ⟨ks, h⟩ := madeFrom_exists (G1 := Fr) (G2 := Fr) 1 1 4 16 (by norm_num) (by norm_num) [5]
  have h5 : ((bytesVal [5] : Nat) : Fr) = 5 := by norm_num [bytesVal]
  rw [h5] at h
  obtain ⟨f1, hf1, -⟩ := (C30_settings_new h 8).1 ⟨2, by norm_num, by norm_num⟩
  obtain ⟨f2, hf2, -, -⟩ := (C31_settings_new h 8 2).1 ⟨1, 1, by norm_num, by norm_num, by norm_num⟩
  obtain ⟨p1, h1, l1, -⟩ := C30_fk20_single toyBackend_lawful h (m := 2) (by norm_num) hf1 [1, 2, 3, 4]
    (by norm_num) (Or.inr (Or.inl (by norm_num)))
  obtain ⟨p2, h2, l2, -⟩ := C31_fk20_multi toyBackend_lawful h (m := 1) (c := 1) (by norm_num) hf2 [1, 2, 3, 4]
    (by norm_num) (Or.inr (Or.inl (by norm_num)))
  exact ⟨ks, f1, f2, h, hf1, hf2, ⟨p1, h1, l1⟩, p2, h2, l2⟩

/-! ## C43 -/

/-- C43 (partial): the lists returned are the proofs, for polynomials of the length the settings were
made for. Missing: other lengths, for which the statement is false (next theorems). -/
theorem C43_right_size_partial {B : Backend G1 G2 GT} {g1 : G1} {g2 : G2} (hB : B.Lawful g1 g2)
    {ks : KZGSettings Fr G1 G2} {N scale : Nat} {s : Fr} (h : MadeFrom ks g1 g2 N scale s) {n2 : Nat}
    {fk : FK20Single Fr G1 G2} (hfk : FK20Single.new ks n2 = .ok fk)
    (p : List Fr) (hp : 2 * p.length = n2) (hinf : s ≠ 0 ∨ B.MsmTotal) :
    ∃ proofs m, fk.daOptimized p = .ok proofs ∧ n2 = 2 ^ m ∧ proofs.length = n2 ∧
      ∀ j < n2, ∃ proof, proofs[j]? = some proof ∧
        ks.computeProofSingle B p (cosetRoot ks scale m ^ j) = .ok proof := by
  by_cases hn : ∃ m, m < scale ∧ n2 = 2 ^ (m + 1)
  · obtain ⟨m, hm, rfl⟩ := hn
    obtain ⟨ps, h1, h2, h3⟩ := C30_fk20_single hB h hm hfk p (by rw [pow_succ] at hp; omega)
      (hinf.imp id Or.inr)
    exact ⟨ps, m + 1, h1, rfl, h2, h3⟩
  · obtain ⟨msg, h1⟩ := (C30_settings_new h n2).2 hn
    rw [h1] at hfk; cases hfk

/-- C43 (longer polynomials): a polynomial longer than the settings were made for makes the call
panic. -/
theorem C43_longer_panics {ks : KZGSettings Fr G1 G2} {g1 : G1} {g2 : G2} {N scale : Nat} {s : Fr}
    (h : MadeFrom ks g1 g2 N scale s) {m m' : Nat} (hm : m < m') (hm' : m' < scale) {fk : FK20Single Fr G1 G2}
    (hfk : FK20Single.new ks (2 ^ (m + 1)) = .ok fk) (p : List Fr) (hp : p.length = 2 ^ m') :
    fk.daOptimized p = .panic := by
  rw [single_new h.wf (by omega)] at hfk
  cases hfk
  have hle : 2 ^ (m' + 1) ≤ 2 ^ scale := Nat.pow_le_pow_right (by omega) hm'
  have hlt : 2 ^ (m + 1) < 2 ^ (m' + 1) := Nat.pow_lt_pow_right (by omega) (by omega)
  have hp1 : 2 ^ (m' + 1) = 2 ^ m' * 2 := pow_succ _ _
  have hpos : 0 < 2 ^ m' := by positivity
  unfold FK20Single.daOptimized
  simp only
  rw [hp, ← hp1, if_neg (by rw [h.wf.fs.width]; omega), isPowerOfTwo_two_pow, if_neg (by simp),
    toeplitzCoeffsStep, toeplitzCoeffs_spec p (k := 2 ^ m') (l := 1) (by omega) hpos (by omega), Res.bind_ok,
    ← hp1]
  have : ks.fs.toeplitzPart2 ((List.range (2 ^ (m' + 1))).map (tcoef p (2 ^ m') 1 0))
      ((List.range (2 ^ (m + 1))).map
        (dft (ks.fs.omega (2 ^ (m + 1))) (2 ^ (m + 1)) (selPt g1 s (2 ^ m) 1 0))) = .panic := by
    unfold FFTSettings.toeplitzPart2
    rw [show ks.fs.fftFr _ false = _ from fft_range h.wf.fs hm' _]
    simp only [Res.unwrap_ok, Res.bind_ok, List.length_map, List.length_range]
    refine forRange_panic (2 ^ (m + 1)) (fun _ _ => True) (Nat.zero_le _) hlt trivial ?_ ?_
    · intro i st _ hi _
      rw [rd_getD 0 (by simpa using hi), Res.bind_ok, rd_getD 0 (by simp; omega), Res.bind_ok]
      exact Res.Sat.ok trivial
    · intro st _
      rw [rd_of_ge (by simp), Res.bind_panic]
  rw [this, Res.bind_panic]

/-- C43 (shorter polynomials): with settings made for two coefficients, a polynomial of a single
coefficient `c` is accepted and the call returns the list `[c·g1, c·g1]`, while the proof at every
point is the identity. -/
theorem C43_shorter_wrong {B : Backend G1 G2 GT} {g1 : G1} {g2 : G2} (hB : B.Lawful g1 g2)
    {ks : KZGSettings Fr G1 G2} {N scale : Nat} {s : Fr} (h : MadeFrom ks g1 g2 N scale s) (hsc : 2 ≤ scale)
    {fk : FK20Single Fr G1 G2} (hfk : FK20Single.new ks 4 = .ok fk) (c : Fr) :
    fk.daOptimized [c] = .ok [c • g1, c • g1] ∧
    ∀ x, ks.computeProofSingle B [c] x = .ok 0 := by
  constructor
  · have hfk' : FK20Single.new ks (2 ^ (1 + 1)) = .ok fk := hfk
    rw [single_new h.wf (by omega)] at hfk'
    cases hfk'
    have hle : 2 ^ 2 ≤ 2 ^ scale := Nat.pow_le_pow_right (by omega) hsc
    have hx : ∀ (w : Fr) (n i : Nat), dft w (n + 1) (selPt g1 s (2 ^ 1) 1 0) i = g1 := by
      intro w n i
      unfold dft
      rw [Finset.sum_range_succ', Finset.sum_eq_zero, zero_add]
      · simp [selPt]
      · intro j _
        rw [selPt, if_neg (by omega), smul_zero]
    have hpart2 : ks.fs.toeplitzPart2 [c, 0] ((List.range (2 ^ (1 + 1))).map
          (dft (ks.fs.omega (2 ^ (1 + 1))) (2 ^ (1 + 1)) (selPt g1 s (2 ^ 1) 1 0))) =
        .ok [c • g1, c • g1] := by
      have e1 : (List.range (2 ^ (1 + 1))).map
          (dft (ks.fs.omega (2 ^ (1 + 1))) (2 ^ (1 + 1)) (selPt g1 s (2 ^ 1) 1 0)) = [g1, g1, g1, g1] := by
        simp only [show 2 ^ (1 + 1) = 3 + 1 from rfl]
        rw [List.map_congr_left (g := fun _ => g1) fun i _ => hx _ 3 i]; rfl
      have e2 : [c, 0] = (List.range (2 ^ 1)).map (fun i => if i = 0 then c else 0) := rfl
      have e3 : ks.fs.fftFr [c, 0] false = .ok [c, c] := by
        rw [e2]
        rw [show ks.fs.fftFr _ false = _ from fft_range h.wf.fs (m := 1) (by omega) _]
        congr 1
        simp [dft, List.range_succ]
      unfold FFTSettings.toeplitzPart2
      rw [e1, e3]
      rfl
    have hdft : ∀ w : Fr, (List.range (2 ^ (0 + 1))).map
        (dft w (2 ^ (0 + 1)) (fun i => if i = 0 then c • g1 else 0)) = [c • g1, c • g1] := by
      intro w
      simp [dft, List.range_succ]
    unfold FK20Single.daOptimized
    simp only
    rw [show [c].length * 2 = 2 ^ 1 from rfl, if_neg (by rw [h.wf.fs.width]; omega), isPowerOfTwo_two_pow,
      if_neg (by simp), toeplitzCoeffsStep, toeplitzCoeffs_spec [c] (k := 1) (l := 1) rfl (by omega) (by omega),
      Res.bind_ok]
    have e4 : (List.range (1 * 2)).map (tcoef [c] 1 1 0) = [c, 0] := by
      simp [List.range_succ, tcoef]
    rw [e4, hpart2, Res.bind_ok, ← hdft (ks.fs.omega (2 ^ (0 + 1))), part3_spec h.wf.fs (by omega), Res.bind_ok]
    have e5 : (List.range (2 ^ (0 + 1))).map
        (fun i => if i < 2 ^ 0 then (if i = 0 then c • g1 else 0) else 0) =
        (List.range (2 ^ (0 + 1))).map (fun i => if i = 0 then c • g1 else 0) := by
      refine List.map_congr_left fun i _ => ?_
      by_cases hi : i = 0
      · subst hi; simp
      · rw [if_neg (by omega), if_neg hi]
    rw [e5, show ks.fs.fftG1 _ false = _ from fft_range h.wf.fs (m := 0 + 1) (by omega) _, Res.unwrap_ok]
  · intro x
    have hN := h.wf.le
    have h1 : 1 ≤ 2 ^ scale := Nat.one_le_two_pow
    have hc := h.wf.computeMulti hB [c] (by simp; omega) (Or.inr (Or.inl (by norm_num))) x (m := 0)
      (Or.inl (by norm_num))
    rw [pow_zero] at hc
    have h0 : polyOf [c] / (X ^ 1 - C (x ^ 1)) = 0 := by
      rw [Polynomial.div_eq_zero_iff (X_pow_sub_C_ne_zero one_pos _), degree_X_pow_sub_C one_pos]
      have := degree_polyOf_lt [c]
      simpa using this
    rw [KZGSettings.computeProofSingle, hc, h0, eval_zero, zero_smul]

/-- C43 (negation): not every accepted polynomial gets its proofs. -/
theorem C43_full_statement_false :
    ¬ ∀ (N scale n2 : Nat) (ks : KZGSettings Fr Fr Fr) (s : Fr) (fk : FK20Single Fr Fr Fr), MadeFrom ks 1 1 N scale s →
      FK20Single.new ks n2 = .ok fk → ∀ (p proofs : List Fr), fk.daOptimized p = .ok proofs →
      ∀ j : Nat, ∃ x, ∀ proof, proofs[j]? = some proof → ks.computeProofSingle toyBackend p x = .ok proof := by
  intro hall
  obtain ⟨ks, h⟩ := madeFrom_exists (G1 := Fr) (G2 := Fr) 1 1 2 4 (by norm_num) le_rfl [5]
  obtain ⟨fk, hfk, -⟩ := (C30_settings_new h 4).1 ⟨1, by norm_num, by norm_num⟩
  obtain ⟨h1, h2⟩ := C43_shorter_wrong toyBackend_lawful h (by norm_num) hfk 1
  obtain ⟨x, hx⟩ := hall _ _ 4 ks _ fk h hfk [1] _ h1 0
  have := hx _ rfl
  rw [h2 x] at this
  have := Res.ok.inj this
  simp at this

end Kzg.Props
