import Verif.Props.MclKzg
import Verif.Props.Utils
import Verif.Proofs.Mcl.FK20
/-!
# Properties C110–C112: FK20 amortised proofs of mcl-kzg
-/

set_option linter.unusedSectionVars false

namespace Kzg.Props
open Kzg Kzg.Mcl Polynomial

variable {G1 G2 GT : Type} [AddCommGroup G1] [Module Fr G1] [AddCommGroup G2] [Module Fr G2]
  [CommGroup GT] [DecidableEq GT] [Lib Fr]

theorem pow_within {scale k : Nat} (h : ¬ 2 ^ k > 2 ^ scale) : k ≤ scale :=
  (Nat.pow_le_pow_iff_right (by norm_num)).mp (not_lt.mp h)

/-! ## C110: single proofs -/

/-- C110 (settings): for powers of two from 2 to the width settings are made if the setup has the points needed, and
the call panics otherwise; size 0 panics too, every other size is an error. -/
theorem C110_settings_new {ks : KZGSettings Fr G1 G2} {g1 : G1} {g2 : G2} {N scale : Nat} {s : Fr}
    (h : MclMade ks g1 g2 N scale s) (n2 : Nat) :
    (∀ m, m < scale → n2 = 2 ^ (m + 1) →
      (2 ^ m ≤ N + 1 → ∃ fk, Mcl.FK20Single.new ks n2 = .ok fk ∧ fk.ks = ks) ∧
      (N + 1 < 2 ^ m → Mcl.FK20Single.new ks n2 = .panic)) ∧
    (n2 = 0 → Mcl.FK20Single.new ks n2 = .panic) ∧
    (n2 ≠ 0 → (¬ ∃ m, m < scale ∧ n2 = 2 ^ (m + 1)) → ∃ msg, Mcl.FK20Single.new ks n2 = .err msg) := by
  refine ⟨?_, ?_, ?_⟩
  · rintro m hm rfl
    exact ⟨fun hN => ⟨_, Mcl.single_new h.wf hm hN, rfl⟩, fun hN => single_new_short h.wf hm hN⟩
  · rintro rfl
    rfl
  · intro h0 hn
    unfold Mcl.FK20Single.new
    simp only
    rw [isPowerOf2_eq h0, Res.bind_ok]
    by_cases h2 : isPowerOfTwo n2 = true
    · rw [h2, if_neg (by simp)]
      by_cases h3 : n2 < 2
      · rw [if_pos h3]; exact ⟨_, rfl⟩
      rw [if_neg h3]
      by_cases h1 : n2 > ks.fs.maxWidth
      · rw [if_pos h1]; exact ⟨_, rfl⟩
      · obtain ⟨k, rfl⟩ := exists_of_isPowerOfTwo h2
        exfalso
        apply hn
        have hk : k ≠ 0 := by rintro rfl; simp at h3
        rw [h.wf.fs.width] at h1
        have := pow_within h1
        exact ⟨k - 1, by omega, by congr 1; omega⟩
    · rw [if_pos (by simp [h2])]; exact ⟨_, rfl⟩

/-- The list for one polynomial: proof `j` is the one for `ω^j`, up to the sign of inverse transforms of `2^31`. -/
theorem single_lists {B : Mcl.Backend G1 G2 GT} {g1 : G1} {g2 : G2} (hB : B.Lawful g1 g2)
    {ks : KZGSettings Fr G1 G2} {N scale : Nat} {s : Fr} (h : MclMade ks g1 g2 N scale s) {m : Nat}
    (hm : m < scale) {fk : FK20Single Fr G1 G2} (hfk : Mcl.FK20Single.new ks (2 ^ (m + 1)) = .ok fk)
    (p : List Fr) (hp : p.length = 2 ^ m) :
    ∃ proofs, Mcl.FK20Single.daOptimized fk p = .ok proofs ∧ proofs.length = 2 ^ (m + 1) ∧
      ∀ j < 2 ^ (m + 1), ∃ proof, proofs[j]? = some (sgn (m + 1) • proof) ∧
        Mcl.genProofAt B ks.secretG1 p (cosetRoot ks scale (m + 1) ^ j) = .ok proof := by
  have hN : 2 ^ m ≤ N + 1 := by
    by_contra hc
    rw [single_new_short h.wf hm (by omega)] at hfk
    cases hfk
  refine ⟨_, Mcl.single_opt h.wf hm hfk p hp, by simp, ?_⟩
  intro j hj
  refine ⟨_, by rw [List.getElem?_map, List.getElem?_range hj]; rfl, ?_⟩
  rw [C108_single_proof_partial hB h p (by omega), mcl_omega h hm, pow_one X]

/-- C110 (partial): for every polynomial of `n = 2^m` coefficients, with settings made for `2n ≤ 2^30`, the amortised
computation returns `2n` proofs, and proof `j` is the one computed for `ω^j` alone, `ω` the `2n`-th root. Missing:
`2n = 2^31`, for which the statement is false (`C110_largest_negated`). -/
theorem C110_fk20_single_partial {B : Mcl.Backend G1 G2 GT} {g1 : G1} {g2 : G2} (hB : B.Lawful g1 g2)
    {ks : KZGSettings Fr G1 G2} {N scale : Nat} {s : Fr} (h : MclMade ks g1 g2 N scale s) {m : Nat}
    (hm : m < scale) (hm30 : m + 1 ≤ 30) {fk : FK20Single Fr G1 G2}
    (hfk : Mcl.FK20Single.new ks (2 ^ (m + 1)) = .ok fk) (p : List Fr) (hp : p.length = 2 ^ m) :
    ∃ proofs, Mcl.FK20Single.daOptimized fk p = .ok proofs ∧ proofs.length = 2 ^ (m + 1) ∧
      ∀ j < 2 ^ (m + 1), ∃ proof, proofs[j]? = some proof ∧
        Mcl.genProofAt B ks.secretG1 p (cosetRoot ks scale (m + 1) ^ j) = .ok proof := by
  obtain ⟨ps, h1, h2, h3⟩ := single_lists hB h hm hfk p hp
  refine ⟨ps, h1, h2, fun j hj => ?_⟩
  obtain ⟨π, h4, h5⟩ := h3 j hj
  exact ⟨π, by rw [h4, sgn_of_le hm30, one_smul], h5⟩

/-- C110 (largest size): for `2n = 2^31` every entry is the negation of the proof. -/
theorem C110_largest_negated {B : Mcl.Backend G1 G2 GT} {g1 : G1} {g2 : G2} (hB : B.Lawful g1 g2)
    {ks : KZGSettings Fr G1 G2} {N : Nat} {s : Fr} (h : MclMade ks g1 g2 N 31 s)
    {fk : FK20Single Fr G1 G2} (hfk : Mcl.FK20Single.new ks (2 ^ 31) = .ok fk) (p : List Fr) (hp : p.length = 2 ^ 30) :
    ∃ proofs, Mcl.FK20Single.daOptimized fk p = .ok proofs ∧ proofs.length = 2 ^ 31 ∧
      ∀ j < 2 ^ 31, ∃ proof, proofs[j]? = some (-proof) ∧
        Mcl.genProofAt B ks.secretG1 p (cosetRoot ks 31 31 ^ j) = .ok proof := by
  obtain ⟨ps, h1, h2, h3⟩ := single_lists hB h (m := 30) (by norm_num) hfk p hp
  refine ⟨ps, h1, h2, fun j hj => ?_⟩
  obtain ⟨π, h4, h5⟩ := h3 j hj
  exact ⟨π, by rw [h4, show sgn (30 + 1) = -1 from if_pos rfl, neg_smul, one_smul], h5⟩

/-- C110 (public order): `data_availability` returns the same proofs in bit-reversed order. -/
theorem C110_fk20_single_order {ks : KZGSettings Fr G1 G2} {g1 : G1} {g2 : G2} {N scale : Nat} {s : Fr}
    (h : MclMade ks g1 g2 N scale s) {m : Nat} (hm : m < scale) {fk : FK20Single Fr G1 G2}
    (hfk : Mcl.FK20Single.new ks (2 ^ (m + 1)) = .ok fk) (p : List Fr) (hp : p.length = 2 ^ m) :
    ∃ proofs out, Mcl.FK20Single.daOptimized fk p = .ok proofs ∧ Mcl.FK20Single.da fk p = .ok out ∧
      out.length = 2 ^ (m + 1) ∧ ∀ j < 2 ^ (m + 1), ∃ r, IsBitReversal (m + 1) j r ∧ out[r]? = proofs[j]? := by
  have hsc := h.wf.fs.lt
  have ho := Mcl.single_opt h.wf hm hfk p hp
  obtain ⟨out, h1, h2, _, h4⟩ := C94_order_by_rev_bit_order_partial
    ((List.range (2 ^ (m + 1))).map fun j =>
      sgn (m + 1) • (polyOf p / (X ^ 1 - C (ks.fs.omega (2 ^ (m + 1)) ^ j))).eval s • g1) (m + 1) (by omega) (by omega)
      (by simp)
  refine ⟨_, out, ho, by rw [Mcl.single_da h.wf hm hfk p hp, ho, Res.bind_ok, h1], by simpa using h2, fun j hj => ?_⟩
  obtain ⟨r, h5, h6, h7⟩ := h4 j (by simpa using hj)
  exact ⟨r, ⟨h5, h6⟩, h7⟩

/-- C110 (rejection): nonempty polynomials whose length is not half of a power of two within the width are an error,
the empty one panics, whatever the settings were made for. -/
theorem C110_rejects {ks : KZGSettings Fr G1 G2} {g1 : G1} {g2 : G2} {N scale : Nat} {s : Fr}
    (h : MclMade ks g1 g2 N scale s) {fk : FK20Single Fr G1 G2} (hks : fk.ks = ks) (p : List Fr) :
    (p ≠ [] → (¬ ∃ m, m < scale ∧ p.length = 2 ^ m) →
      (∃ msg, Mcl.FK20Single.daOptimized fk p = .err msg) ∧ ∃ msg, Mcl.FK20Single.da fk p = .err msg) ∧
    (p = [] → Mcl.FK20Single.daOptimized fk p = .panic ∧ Mcl.FK20Single.da fk p = .panic) := by
  constructor
  · intro h0 hp
    have h0' : p.length ≠ 0 := by simpa using h0
    unfold Mcl.FK20Single.daOptimized Mcl.FK20Single.da
    simp only
    rw [hks, isPowerOf2_eq (by omega), Res.bind_ok, Res.bind_ok]
    by_cases h2 : isPowerOfTwo (p.length * 2) = true
    · simp only [h2, Bool.not_true, Bool.false_eq_true, if_false]
      by_cases h1 : p.length * 2 > ks.fs.maxWidth
      · rw [if_pos h1, if_pos h1]; exact ⟨⟨_, rfl⟩, _, rfl⟩
      exfalso
      obtain ⟨k, hk⟩ := exists_of_isPowerOfTwo h2
      apply hp
      rw [h.wf.fs.width, hk] at h1
      have hle := pow_within h1
      have hk0 : k ≠ 0 := by rintro rfl; simp at hk
      obtain ⟨k, rfl⟩ : ∃ j, k = j + 1 := ⟨k - 1, by omega⟩
      exact ⟨k, by omega, by rw [pow_succ] at hk; omega⟩
    · rw [if_pos (by simp [h2]), if_pos (by simp [h2])]; exact ⟨⟨_, rfl⟩, _, rfl⟩
  · rintro rfl
    exact ⟨rfl, rfl⟩

/-! ## C111: multi proofs -/

/-- C111 (settings): made exactly for powers of two with `2 ≤ n2 ≤` width and `2 l ≤ n2`, if the setup has the points
needed (otherwise a panic); chunk length or size 0 panics, everything else is an error. -/
theorem C111_settings_new {ks : KZGSettings Fr G1 G2} {g1 : G1} {g2 : G2} {N scale : Nat} {s : Fr}
    (h : MclMade ks g1 g2 N scale s) (n2 l : Nat) :
    (∀ m c, m + c < scale → n2 = 2 ^ (m + c + 1) → l = 2 ^ c →
      ((2 ^ m - 1) * 2 ^ c ≤ N → ∃ fk, Mcl.FK20Multi.new ks n2 l = .ok fk ∧ fk.ks = ks ∧ fk.chunkLen = l) ∧
      (N < (2 ^ m - 1) * 2 ^ c → Mcl.FK20Multi.new ks n2 l = .panic)) ∧
    (n2 = 0 ∨ l = 0 → Mcl.FK20Multi.new ks n2 l = .panic) ∧
    (n2 ≠ 0 → l ≠ 0 → (¬ ∃ m c, m + c < scale ∧ n2 = 2 ^ (m + c + 1) ∧ l = 2 ^ c) →
      ∃ msg, Mcl.FK20Multi.new ks n2 l = .err msg) := by
  refine ⟨?_, ?_, ?_⟩
  · rintro m c hm rfl rfl
    exact ⟨fun hN => ⟨_, Mcl.multi_new h.wf hm hN, rfl, rfl⟩, fun hN => multi_new_short h.wf hm hN⟩
  · intro h0
    unfold Mcl.FK20Multi.new
    by_cases hl : l = 0
    · subst hl; rfl
    · obtain rfl : n2 = 0 := by omega
      simp only
      rw [divU, if_neg hl, Res.bind_ok, isPowerOf2_zero, Res.bind_panic]
  · intro h0 hl hn
    unfold Mcl.FK20Multi.new
    simp only
    rw [divU, if_neg hl, Res.bind_ok, isPowerOf2_eq h0, Res.bind_ok]
    by_cases h2 : isPowerOfTwo n2 = true
    · rw [h2, if_neg (by simp), isPowerOf2_eq hl, Res.bind_ok]
      by_cases h5 : isPowerOfTwo l = true
      · rw [h5, if_neg (by simp)]
        by_cases h3 : n2 < 2
        · rw [if_pos h3]; exact ⟨_, rfl⟩
        rw [if_neg h3]
        by_cases h1 : n2 > ks.fs.maxWidth
        · rw [if_pos h1]; exact ⟨_, rfl⟩
        rw [if_neg h1, if_neg h1]
        by_cases h4 : l > n2 / 2
        · rw [if_pos h4]; exact ⟨_, rfl⟩
        exfalso
        obtain ⟨k, rfl⟩ := exists_of_isPowerOfTwo h2
        obtain ⟨c, rfl⟩ := exists_of_isPowerOfTwo h5
        apply hn
        have hk : k ≠ 0 := by rintro rfl; simp at h3
        rw [h.wf.fs.width] at h1
        have hks := pow_within h1
        have hck : c ≤ k - 1 := by
          rw [show 2 ^ k / 2 = 2 ^ (k - 1) by
            rw [show k = k - 1 + 1 by omega, pow_succ]; simp] at h4
          exact pow_within h4
        exact ⟨k - 1 - c, c, by omega, by congr 1; omega, rfl⟩
      · rw [if_pos (by simp [h5])]; exact ⟨_, rfl⟩
    · rw [if_pos (by simp [h2])]; exact ⟨_, rfl⟩

/-- C111 (partial): for every polynomial of `n = 2^(m+c) ≤ 2^29` coefficients, with settings made for `2n` and chunk
length `l = 2^c`, and with any `n` coefficients after it, the optimised computation returns `2n/l` proofs, and proof
`j` is the multi proof for `l` values computed for `ω^j` alone, `ω` the `2n`-th root. Missing: `n = 2^30`. -/
theorem C111_fk20_multi_partial {B : Mcl.Backend G1 G2 GT} {g1 : G1} {g2 : G2} (hB : B.Lawful g1 g2)
    {ks : KZGSettings Fr G1 G2} {N scale : Nat} {s : Fr} (h : MclMade ks g1 g2 N scale s) {m c : Nat}
    (hm : m + c < scale) (hm29 : m + c ≤ 29) {fk : FK20Multi Fr G1 G2}
    (hfk : Mcl.FK20Multi.new ks (2 ^ (m + c + 1)) (2 ^ c) = .ok fk)
    (p rest : List Fr) (hp : p.length = 2 ^ (m + c)) (hr : rest.length = 2 ^ (m + c)) :
    ∃ proofs, Mcl.FK20Multi.daOptimized fk (p ++ rest) = .ok proofs ∧ proofs.length = 2 ^ (m + c + 1) / 2 ^ c ∧
      ∀ j < proofs.length, ∃ proof, proofs[j]? = some proof ∧
        Mcl.computeProofMulti B ks p (cosetRoot ks scale (m + c + 1) ^ j) (2 ^ c) = .ok proof := by
  have hN := multi_N h.wf hm hfk
  have hp29 : 2 ^ (m + c) ≤ 2 ^ 29 := Nat.pow_le_pow_right (by omega) hm29
  have hdiv : 2 ^ (m + c + 1) / 2 ^ c = 2 ^ (m + 1) := by
    rw [Nat.pow_div (by omega) (by omega)]; congr 1; omega
  have hlen : p.length ≤ N + 2 ^ c := by
    have h1 : 2 ^ (m + c) = (2 ^ m - 1) * 2 ^ c + 2 ^ c := by
      rw [pow_add, ← Nat.succ_mul]
      congr 1
      have : 0 < 2 ^ m := by positivity
      omega
    omega
  have hopt := Mcl.multi_opt h.wf hm hfk (p ++ rest) (by rw [List.length_append]; omega)
  rw [List.take_left' hp, sgn_of_le (by omega)] at hopt
  refine ⟨_, hopt, by simp [hdiv], ?_⟩
  intro j hj
  rw [List.length_map, List.length_range] at hj
  refine ⟨_, by rw [List.getElem?_map, List.getElem?_range hj]; rfl, ?_⟩
  rw [(C109_multi_proof hB h c p (hp ▸ hp29) _).1 hlen, mcl_omega h (show m + 1 ≤ scale by omega)]
  have e : (cosetRoot ks scale (m + c + 1) ^ j) ^ 2 ^ c = cosetRoot ks scale (m + 1) ^ j := by
    rw [← pow_mul, mul_comm, pow_mul]
    congr 1
    rw [cosetRoot, ← pow_mul, ← pow_add, cosetRoot]
    congr 2
    omega
  beta_reduce
  rw [e, one_smul]

/-- C111 (values): entry `j` is the commitment to the quotient by `X^l - (ω^j)^l`, for all sizes but a single
coefficient per chunk at size `2^31`. -/
theorem C111_fk20_multi_values {ks : KZGSettings Fr G1 G2} {g1 : G1} {g2 : G2} {N scale : Nat} {s : Fr}
    (h : MclMade ks g1 g2 N scale s) {m c : Nat} (hm : m + c < scale) (hm30 : m + c < 30 ∨ 0 < c)
    {fk : FK20Multi Fr G1 G2} (hfk : Mcl.FK20Multi.new ks (2 ^ (m + c + 1)) (2 ^ c) = .ok fk)
    (p rest : List Fr) (hp : p.length = 2 ^ (m + c)) (hr : rest.length = 2 ^ (m + c)) :
    ∃ proofs, Mcl.FK20Multi.daOptimized fk (p ++ rest) = .ok proofs ∧ proofs.length = 2 ^ (m + 1) ∧
      ∀ j < 2 ^ (m + 1), proofs[j]? =
        some ((polyOf p / (X ^ 2 ^ c - C ((cosetRoot ks scale (m + c + 1) ^ j) ^ 2 ^ c))).eval s • g1) := by
  have hsc := h.wf.fs.lt
  have hopt := Mcl.multi_opt h.wf hm hfk (p ++ rest) (by rw [List.length_append]; omega)
  rw [List.take_left' hp, sgn_of_le (by omega)] at hopt
  refine ⟨_, hopt, by simp, ?_⟩
  intro j hj
  have e : (cosetRoot ks scale (m + c + 1) ^ j) ^ 2 ^ c = cosetRoot ks scale (m + 1) ^ j := by
    rw [← pow_mul, mul_comm, pow_mul]
    congr 1
    rw [cosetRoot, ← pow_mul, ← pow_add, cosetRoot]
    congr 2
    omega
  rw [List.getElem?_map, List.getElem?_range hj, Option.map_some, one_smul, e,
    mcl_omega h (show m + 1 ≤ scale by omega)]

/-- C111 (public order): `data_availability` takes the polynomial itself and returns the proofs in bit-reversed
order. -/
theorem C111_fk20_multi_order {ks : KZGSettings Fr G1 G2} {g1 : G1} {g2 : G2} {N scale : Nat} {s : Fr}
    (h : MclMade ks g1 g2 N scale s) {m c : Nat} (hm : m + c < scale) {fk : FK20Multi Fr G1 G2}
    (hfk : Mcl.FK20Multi.new ks (2 ^ (m + c + 1)) (2 ^ c) = .ok fk) (p rest : List Fr)
    (hp : p.length = 2 ^ (m + c)) (hr : rest.length = 2 ^ (m + c)) :
    ∃ proofs out, Mcl.FK20Multi.daOptimized fk (p ++ rest) = .ok proofs ∧ Mcl.FK20Multi.da fk p = .ok out ∧
      out.length = 2 ^ (m + 1) ∧ ∀ j < 2 ^ (m + 1), ∃ r, IsBitReversal (m + 1) j r ∧ out[r]? = proofs[j]? := by
  have hsc := h.wf.fs.lt
  have ho := Mcl.multi_opt h.wf hm hfk (p ++ rest) (by rw [List.length_append]; omega)
  have ho' := Mcl.multi_opt h.wf hm hfk (p ++ List.replicate (2 ^ (m + c)) 0)
    (by rw [List.length_append, List.length_replicate]; omega)
  rw [List.take_left' hp] at ho ho'
  obtain ⟨out, h1, h2, _, h4⟩ := C94_order_by_rev_bit_order_partial
    ((List.range (2 ^ (m + 1))).map fun j =>
      sgn (m + 1) • (polyOf p / (X ^ 2 ^ c - C (ks.fs.omega (2 ^ (m + 1)) ^ j))).eval s • g1) (m + 1) (by omega)
      (by omega) (by simp)
  refine ⟨_, out, ho, by rw [Mcl.multi_da h.wf hm hfk p hp, ho', Res.bind_ok, h1], by simpa using h2, fun j hj => ?_⟩
  obtain ⟨r, h5, h6, h7⟩ := h4 j (by simpa using hj)
  exact ⟨r, ⟨h5, h6⟩, h7⟩

/-- C111 (rejection by `data_availability`). -/
theorem C111_rejects {ks : KZGSettings Fr G1 G2} {g1 : G1} {g2 : G2} {N scale : Nat} {s : Fr}
    (h : MclMade ks g1 g2 N scale s) {fk : FK20Multi Fr G1 G2} (hks : fk.ks = ks) (p : List Fr) :
    (p ≠ [] → (¬ ∃ m, m < scale ∧ p.length = 2 ^ m) → ∃ msg, Mcl.FK20Multi.da fk p = .err msg) ∧
    (p = [] → Mcl.FK20Multi.da fk p = .panic) := by
  constructor
  · intro h0 hp
    have h0' : p.length ≠ 0 := by simpa using h0
    unfold Mcl.FK20Multi.da
    simp only
    rw [hks, isPowerOf2_eq (by omega), Res.bind_ok]
    by_cases h2 : isPowerOfTwo (p.length * 2) = true
    · rw [h2, if_neg (by simp)]
      by_cases h1 : p.length * 2 > ks.fs.maxWidth
      · rw [if_pos h1]; exact ⟨_, rfl⟩
      exfalso
      obtain ⟨k, hk⟩ := exists_of_isPowerOfTwo h2
      apply hp
      rw [h.wf.fs.width, hk] at h1
      have hle := pow_within h1
      have hk0 : k ≠ 0 := by rintro rfl; simp at hk
      obtain ⟨k, rfl⟩ : ∃ j, k = j + 1 := ⟨k - 1, by omega⟩
      exact ⟨k, by omega, by rw [pow_succ] at hk; omega⟩
    · rw [if_pos (by simp [h2])]; exact ⟨_, rfl⟩
  · rintro rfl
    rfl

/-- Settings and polynomials as in C110 and C111 exist: four coefficients, chunks of two. -/
example : ∃ (ks : KZGSettings Fr Fr Fr) (f1 : FK20Single Fr Fr Fr) (f2 : FK20Multi Fr Fr Fr), MclMade ks 1 1 16 4 5 ∧
    Mcl.FK20Single.new ks 8 = .ok f1 ∧ Mcl.FK20Multi.new ks 8 2 = .ok f2 ∧
    (∃ ps, Mcl.FK20Single.daOptimized f1 [1, 2, 3, 4] = .ok ps ∧ ps.length = 8) ∧
    ∃ ps, Mcl.FK20Multi.daOptimized f2 [1, 2, 3, 4, 9, 9, 9, 9] = .ok ps ∧ ps.length = 4 := by
  obtain ⟨ks, h⟩ := mclMade_exists (G1 := Fr) (G2 := Fr) 1 1 4 16 (by norm_num) 5
  obtain ⟨f1, hf1, -⟩ := ((C110_settings_new h 8).1 2 (by norm_num) (by norm_num)).1 (by norm_num)
  obtain ⟨f2, hf2, -, -⟩ := ((C111_settings_new h 8 2).1 1 1 (by norm_num) (by norm_num) (by norm_num)).1 (by norm_num)
  obtain ⟨p1, h1, l1, -⟩ := C110_fk20_single_partial mclToy_lawful h (m := 2) (by norm_num) (by norm_num) hf1
    [1, 2, 3, 4] (by norm_num)
  obtain ⟨p2, h2, l2, -⟩ := C111_fk20_multi_partial mclToy_lawful h (m := 1) (c := 1) (by norm_num) (by norm_num) hf2
    [1, 2, 3, 4] [9, 9, 9, 9] (by norm_num) (by norm_num)
  exact ⟨ks, f1, f2, h, hf1, hf2, ⟨p1, h1, l1⟩, p2, h2, l2⟩

/-! ## C112: other lengths than the settings were made for -/

theorem fftG1_length {fs : FFTSettings Fr} {K m : Nat} (h : fs.WF K) (hm : m ≤ K) (hm30 : m ≤ 30) (v : List G1)
    (hv : v.length = 2 ^ m) (inv : Bool) : ∃ r, Mcl.fftG1 fs v inv = .ok r ∧ r.length = 2 ^ m := by
  rw [fftG1_eq h hm hv inv (fun _ => hm30)]
  cases inv
  · obtain ⟨r, hr, hl, _⟩ := h.fft_forward hm v hv
    exact ⟨r, hr, hl⟩
  · obtain ⟨r, hr, hl, _⟩ := h.fft_backward hm v hv
    exact ⟨r, hr, hl⟩

theorem part3_length {fs : FFTSettings Fr} {K m : Nat} (h : fs.WF K) (hm : m ≤ K) (hm30 : m ≤ 30) (v : List G1)
    (hv : v.length = 2 ^ m) : ∃ r, Mcl.toeplitzPart3 fs v = .ok r ∧ r.length = 2 ^ m := by
  obtain ⟨r, hr, hl⟩ := fftG1_length h hm hm30 v hv true
  unfold Mcl.toeplitzPart3
  simp only
  rw [hr, Res.unwrap_ok, Res.bind_ok]
  refine ⟨_, rfl, ?_⟩
  rw [hv, hl]
  simp only [List.length_append, List.length_take, List.length_replicate, List.length_drop, hl]
  omega

theorem part2_length {fs : FFTSettings Fr} {K m : Nat} (h : fs.WF K) (hm : m ≤ K) (c : Nat → Fr) (x : List G1) :
    ∃ r, Mcl.toeplitzPart2 fs ((List.range (2 ^ m)).map c) x = .ok r ∧ r.length = min x.length (2 ^ m) := by
  unfold Mcl.toeplitzPart2
  rw [fft_eq h hm (by simp) false (by simp), fft_range h hm c, Res.unwrap_ok, Res.bind_ok]
  exact ⟨_, rfl, by simp⟩

/-- C112 (partial): the lists returned are the proofs, for polynomials of the length the settings were made for (up to
`2^29` coefficients). Missing: other lengths, for which the statement is false (next theorems). -/
theorem C112_right_size_partial {B : Mcl.Backend G1 G2 GT} {g1 : G1} {g2 : G2} (hB : B.Lawful g1 g2)
    {ks : KZGSettings Fr G1 G2} {N scale : Nat} {s : Fr} (h : MclMade ks g1 g2 N scale s) {n2 : Nat}
    (hn : n2 ≤ 2 ^ 30) {fk : FK20Single Fr G1 G2} (hfk : Mcl.FK20Single.new ks n2 = .ok fk)
    (p : List Fr) (hp : 2 * p.length = n2) :
    ∃ proofs m, Mcl.FK20Single.daOptimized fk p = .ok proofs ∧ n2 = 2 ^ m ∧ proofs.length = n2 ∧
      ∀ j < n2, ∃ proof, proofs[j]? = some proof ∧
        Mcl.genProofAt B ks.secretG1 p (cosetRoot ks scale m ^ j) = .ok proof := by
  have h0 : n2 ≠ 0 := by
    rintro rfl
    rw [(C110_settings_new h 0).2.1 rfl] at hfk
    cases hfk
  by_cases hn2 : ∃ m, m < scale ∧ n2 = 2 ^ (m + 1)
  · obtain ⟨m, hm, rfl⟩ := hn2
    obtain ⟨ps, h1, h2, h3⟩ := C110_fk20_single_partial hB h hm (pow_within (not_lt.mpr hn)) hfk p
      (by rw [pow_succ] at hp; omega)
    exact ⟨ps, m + 1, h1, rfl, h2, h3⟩
  · obtain ⟨msg, h1⟩ := (C110_settings_new h n2).2.2 h0 hn2
    rw [h1] at hfk; cases hfk

/-- C112 (longer polynomials): a polynomial longer than the settings were made for is accepted and gets too few
proofs: as many as the settings were made for. -/
theorem C112_longer_too_few {ks : KZGSettings Fr G1 G2} {g1 : G1} {g2 : G2} {N scale : Nat} {s : Fr}
    (h : MclMade ks g1 g2 N scale s) {m m' : Nat} (hm : m < m') (hm' : m' < scale) {fk : FK20Single Fr G1 G2}
    (hfk : Mcl.FK20Single.new ks (2 ^ (m + 1)) = .ok fk) (p : List Fr) (hp : p.length = 2 ^ m') :
    ∃ out, Mcl.FK20Single.daOptimized fk p = .ok out ∧ out.length = 2 ^ (m + 1) ∧ out.length < 2 * p.length := by
  have hsc := h.wf.fs.lt
  have hN : 2 ^ m ≤ N + 1 := by
    by_contra hc
    rw [single_new_short h.wf (by omega) (by omega)] at hfk
    cases hfk
  rw [Mcl.single_new h.wf (by omega) hN] at hfk
  cases hfk
  have hle : 2 ^ (m' + 1) ≤ 2 ^ scale := Nat.pow_le_pow_right (by omega) hm'
  have hlt : 2 ^ (m + 1) < 2 ^ (m' + 1) := Nat.pow_lt_pow_right (by omega) (by omega)
  have hp1 : 2 ^ (m' + 1) = 2 ^ m' * 2 := pow_succ _ _
  have hpos : 0 < 2 ^ m' := by positivity
  obtain ⟨a, ha, hal⟩ := part2_length h.wf.fs (show m' + 1 ≤ scale by omega) (tcoef p (2 ^ m') 1 0)
    ((List.range (2 ^ (m + 1))).map (dft (ks.fs.omega (2 ^ (m + 1))) (2 ^ (m + 1)) (selPt g1 s (2 ^ m) 1 0)))
  rw [List.length_map, List.length_range, min_eq_left hlt.le] at hal
  obtain ⟨b, hb, hbl⟩ := part3_length h.wf.fs (show m + 1 ≤ scale by omega) (by omega) a hal
  obtain ⟨r, hr, hrl⟩ := fftG1_length h.wf.fs (show m + 1 ≤ scale by omega) (by omega) b hbl false
  refine ⟨r, ?_, hrl, by omega⟩
  unfold Mcl.FK20Single.daOptimized
  simp only
  rw [hp, ← hp1, isPowerOf2_eq (by omega), Res.bind_ok, isPowerOfTwo_two_pow, if_neg (by simp),
    if_neg (by rw [h.wf.fs.width]; omega), toeplitzStrided_spec p (k := 2 ^ m') (l := 1) (by omega) hpos (by omega),
    Res.bind_ok, ← hp1, ha, Res.unwrap_ok, Res.bind_ok, hb, Res.unwrap_ok, Res.bind_ok, hr]

/-- C112 (shorter polynomials): with settings made for two coefficients, a polynomial of a single coefficient `c` is
accepted and the call returns the list `[c·g1, c·g1]`, while the proof at every point is the identity. -/
theorem C112_shorter_wrong {B : Mcl.Backend G1 G2 GT} {g1 : G1} {g2 : G2} (hB : B.Lawful g1 g2)
    {ks : KZGSettings Fr G1 G2} {N scale : Nat} {s : Fr} (h : MclMade ks g1 g2 N scale s) (hsc : 2 ≤ scale)
    {fk : FK20Single Fr G1 G2} (hfk : Mcl.FK20Single.new ks 4 = .ok fk) (c : Fr) :
    Mcl.FK20Single.daOptimized fk [c] = .ok [c • g1, c • g1] ∧
    ∀ x, Mcl.genProofAt B ks.secretG1 [c] x = .ok 0 := by
  constructor
  · have hfk' : Mcl.FK20Single.new ks (2 ^ (1 + 1)) = .ok fk := hfk
    have hN : 2 ^ 1 ≤ N + 1 := by
      by_contra hc
      rw [single_new_short h.wf (by omega) (by omega)] at hfk'
      cases hfk'
    rw [Mcl.single_new h.wf (by omega) hN] at hfk'
    cases hfk'
    have hle : 2 ^ 2 ≤ 2 ^ scale := Nat.pow_le_pow_right (by omega) hsc
    have hx : ∀ (w : Fr) (n i : Nat), dft w (n + 1) (selPt g1 s (2 ^ 1) 1 0) i = g1 := by
      intro w n i
      unfold dft
      rw [Finset.sum_range_succ', Finset.sum_eq_zero, zero_add]
      · simp [selPt]
      · intro j _
        rw [selPt, if_neg (by omega), smul_zero]
    have hpart2 : Mcl.toeplitzPart2 ks.fs [c, 0] ((List.range (2 ^ (1 + 1))).map
          (dft (ks.fs.omega (2 ^ (1 + 1))) (2 ^ (1 + 1)) (selPt g1 s (2 ^ 1) 1 0))) =
        .ok [c • g1, c • g1] := by
      have e1 : (List.range (2 ^ (1 + 1))).map
          (dft (ks.fs.omega (2 ^ (1 + 1))) (2 ^ (1 + 1)) (selPt g1 s (2 ^ 1) 1 0)) = [g1, g1, g1, g1] := by
        simp only [show 2 ^ (1 + 1) = 3 + 1 from rfl]
        rw [List.map_congr_left (g := fun _ => g1) fun i _ => hx _ 3 i]; rfl
      have e2 : [c, 0] = (List.range (2 ^ 1)).map (fun i => if i = 0 then c else 0) := rfl
      have e3 : Mcl.fft ks.fs [c, 0] false = .ok [c, c] := by
        rw [fft_eq h.wf.fs (m := 1) (by omega) rfl false (by simp), e2, fft_range h.wf.fs (m := 1) (by omega) _]
        congr 1
        simp [dft, List.range_succ]
      unfold Mcl.toeplitzPart2
      rw [e1, e3]
      rfl
    have hdft : ∀ w : Fr, (List.range (2 ^ (0 + 1))).map
        (dft w (2 ^ (0 + 1)) (fun i => if i = 0 then c • g1 else 0)) = [c • g1, c • g1] := by
      intro w
      simp [dft, List.range_succ]
    unfold Mcl.FK20Single.daOptimized
    simp only
    rw [show [c].length * 2 = 2 ^ 1 from rfl, isPowerOf2_eq (by norm_num), Res.bind_ok, isPowerOfTwo_two_pow,
      if_neg (by simp), if_neg (by rw [h.wf.fs.width]; omega),
      toeplitzStrided_spec [c] (k := 1) (l := 1) rfl (by omega) (by omega), Res.bind_ok]
    have e4 : (List.range (1 * 2)).map (tcoef [c] 1 1 0) = [c, 0] := by
      simp [List.range_succ, tcoef]
    rw [e4, hpart2, Res.unwrap_ok, Res.bind_ok, ← hdft (ks.fs.omega (2 ^ (0 + 1))),
      Mcl.part3_spec h.wf.fs (by omega), Res.unwrap_ok, Res.bind_ok, sgn_of_le (by norm_num)]
    have e5 : (List.range (2 ^ (0 + 1))).map
        (fun i => if i < 2 ^ 0 then (1 : Fr) • (if i = 0 then c • g1 else 0) else 0) =
        (List.range (2 ^ (0 + 1))).map (fun i => if i = 0 then c • g1 else 0) := by
      refine List.map_congr_left fun i _ => ?_
      by_cases hi : i = 0
      · subst hi; simp
      · rw [if_neg (by omega), if_neg hi]
    rw [e5, fftG1_eq h.wf.fs (m := 0 + 1) (by omega) (by simp) false (by simp),
      fft_range h.wf.fs (m := 0 + 1) (by omega) _]
  · intro x
    rw [C108_single_proof_partial hB h [c] (by simp)]
    have h0 : polyOf [c] / (X - C x) = 0 := by
      rw [Polynomial.div_eq_zero_iff (X_sub_C_ne_zero x), degree_X_sub_C]
      have := degree_polyOf_lt [c]
      simpa using this
    rw [h0, eval_zero, zero_smul]

/-- C112 (negation): not every accepted polynomial gets its proofs. -/
theorem C112_full_statement_false :
    ¬ ∀ (N scale n2 : Nat) (ks : KZGSettings Fr Fr Fr) (s : Fr) (fk : FK20Single Fr Fr Fr), MclMade ks 1 1 N scale s →
      Mcl.FK20Single.new ks n2 = .ok fk → ∀ (p proofs : List Fr), Mcl.FK20Single.daOptimized fk p = .ok proofs →
      ∀ j : Nat, ∃ x, ∀ proof, proofs[j]? = some proof → Mcl.genProofAt mclToy ks.secretG1 p x = .ok proof := by
  intro hall
  obtain ⟨ks, h⟩ := mclMade_exists (G1 := Fr) (G2 := Fr) 1 1 2 4 (by norm_num) 5
  obtain ⟨fk, hfk, -⟩ := ((C110_settings_new h 4).1 1 (by norm_num) (by norm_num)).1 (by norm_num)
  obtain ⟨h1, h2⟩ := C112_shorter_wrong mclToy_lawful h (by norm_num) hfk 1
  obtain ⟨x, hx⟩ := hall _ _ 4 ks _ fk h hfk [1] _ h1 0
  have := hx _ rfl
  rw [h2 x] at this
  have := Res.ok.inj this
  simp at this

/-- C112 (multi proofs, longer): a polynomial with more chunks than the settings were made for panics. -/
theorem C112_multi_longer_panics {ks : KZGSettings Fr G1 G2} {g1 : G1} {g2 : G2} {N scale : Nat} {s : Fr}
    (h : MclMade ks g1 g2 N scale s) {m m' c : Nat} (hm : m < m') (hm' : m' + c < scale) {fk : FK20Multi Fr G1 G2}
    (hfk : Mcl.FK20Multi.new ks (2 ^ (m + c + 1)) (2 ^ c) = .ok fk) (p : List Fr) (hp : p.length = 2 ^ (m' + c)) :
    Mcl.FK20Multi.da fk p = .panic := by
  have hN := multi_N h.wf (by omega) hfk
  rw [Mcl.multi_new h.wf (by omega) hN] at hfk
  cases hfk
  have hle : 2 ^ (m' + c + 1) ≤ 2 ^ scale := Nat.pow_le_pow_right (by omega) hm'
  have hlt : 2 ^ (m + 1) < 2 ^ (m' + 1) := Nat.pow_lt_pow_right (by omega) (by omega)
  have hp3 : 2 ^ (m' + c + 1) = 2 ^ (m' + c) * 2 := pow_succ _ _
  have hp2 : 2 ^ (m' + c) = 2 ^ m' * 2 ^ c := pow_add _ _ _
  have hp1 : 2 ^ (m' + 1) = 2 ^ m' * 2 := pow_succ _ _
  have hpos3 : 0 < 2 ^ (m' + c) := by positivity
  have hpos : 0 < 2 ^ m' := by positivity
  have hposc : 0 < 2 ^ c := by positivity
  obtain ⟨a, ha, hal⟩ := part2_length h.wf.fs (show m' + 1 ≤ scale by omega) (tcoef p (2 ^ m') (2 ^ c) 0)
    ((List.range (2 ^ (m + 1))).map (dft (ks.fs.omega (2 ^ (m + 1))) (2 ^ (m + 1)) (selPt g1 s (2 ^ m) (2 ^ c) 0)))
  rw [List.length_map, List.length_range, min_eq_left hlt.le] at hal
  unfold Mcl.FK20Multi.da Mcl.FK20Multi.daOptimized Mcl.FK20Multi.accumulate
  simp only
  rw [hp, ← hp3, isPowerOf2_eq (by omega), Res.bind_ok, isPowerOfTwo_two_pow, if_neg (by simp),
    if_neg (by rw [h.wf.fs.width]; omega), Mcl.extend, if_neg (by omega), hp,
    show 2 ^ (m' + c + 1) - 2 ^ (m' + c) = 2 ^ (m' + c) by omega, List.length_append, List.length_replicate, hp,
    show (2 ^ (m' + c) + 2 ^ (m' + c)) / 2 = 2 ^ (m' + c) by omega, divU, if_neg (by omega), Res.bind_ok, ← hp3,
    isPowerOf2_eq (by omega), Res.bind_ok, isPowerOfTwo_two_pow, if_neg (by simp),
    if_neg (by rw [h.wf.fs.width]; omega), List.take_left' hp, hp2, Nat.mul_div_cancel _ hposc, ← hp1]
  rw [forRange_panic 0 (fun _ st => st.length = 2 ^ (m' + 1)) (Nat.zero_le _) hposc (by simp) (by omega) ?_]
  · rfl
  · intro st hst
    rw [toeplitzStrided_spec p (by omega) hpos hposc, Res.bind_ok, rd_getD [] (by simp), Res.bind_ok,
      getD_range_map, if_pos hposc, ← hp1, ha, Res.unwrap_ok, Res.bind_ok]
    refine forRange_panic (2 ^ (m + 1)) (fun _ st => st.length = 2 ^ (m' + 1)) (Nat.zero_le _) hlt hst ?_ ?_
    · intro i st _ hi hst
      rw [rd_getD 0 (by omega), Res.bind_ok, rd_getD 0 (by omega), Res.bind_ok, wr_of_lt (by omega)]
      exact Res.Sat.ok (by simpa using hst)
    · intro st hst
      rw [rd_getD 0 (by omega), Res.bind_ok, rd_of_ge (by omega), Res.bind_panic]

/-- C112 (multi proofs, less than a chunk): a polynomial shorter than the chunk length panics. -/
theorem C112_multi_below_chunk_panics {ks : KZGSettings Fr G1 G2} {g1 : G1} {g2 : G2} {N scale : Nat} {s : Fr}
    (h : MclMade ks g1 g2 N scale s) {m' : Nat} {fk : FK20Multi Fr G1 G2} (hks : fk.ks = ks)
    (hc : 2 ^ m' < fk.chunkLen) (hm : m' < scale) (p : List Fr) (hp : p.length = 2 ^ m') :
    Mcl.FK20Multi.da fk p = .panic := by
  have hle : 2 ^ (m' + 1) ≤ 2 ^ scale := Nat.pow_le_pow_right (by omega) hm
  have hp3 : 2 ^ (m' + 1) = 2 ^ m' * 2 := pow_succ _ _
  have hpos : 0 < 2 ^ m' := by positivity
  have hacc : Mcl.FK20Multi.accumulate fk p (0 * 2) = .panic := by
    unfold Mcl.FK20Multi.accumulate
    refine forRange_panic 0 (fun _ _ => True) (Nat.zero_le _) (by omega) trivial (by omega) ?_
    intro st _
    have : Mcl.toeplitzCoeffsStrided p 0 fk.chunkLen = .panic := by
      unfold Mcl.toeplitzCoeffsStrided
      simp only
      rw [divU, if_neg (by omega), Res.bind_ok, hp, Nat.div_eq_of_lt hc, subU_of_le (by omega), Res.bind_ok,
        subU_of_le (by omega), Res.bind_ok, rd_getD 0 (by omega), Res.bind_ok, wr_of_ge (by simp), Res.bind_panic]
    rw [this, Res.bind_panic]
  unfold Mcl.FK20Multi.da Mcl.FK20Multi.daOptimized
  simp only
  rw [hp, ← hp3, hks, isPowerOf2_eq (by omega), Res.bind_ok, isPowerOfTwo_two_pow, if_neg (by simp),
    if_neg (by rw [h.wf.fs.width]; omega), Mcl.extend, if_neg (by omega), hp,
    show 2 ^ (m' + 1) - 2 ^ m' = 2 ^ m' by omega, List.length_append, List.length_replicate, hp,
    show (2 ^ m' + 2 ^ m') / 2 = 2 ^ m' by omega, divU, if_neg (by omega), Res.bind_ok, ← hp3,
    isPowerOf2_eq (by omega), Res.bind_ok, isPowerOfTwo_two_pow, if_neg (by simp),
    if_neg (by rw [h.wf.fs.width]; omega), List.take_left' hp, Nat.div_eq_of_lt hc, hacc]
  rfl

/-- C112 (the optimised call of the other backends): given the polynomial itself instead of the extended one, the
optimised call returns only half of the entries, without an error (at least two chunks). -/
theorem C112_multi_unextended {ks : KZGSettings Fr G1 G2} {g1 : G1} {g2 : G2} {N scale : Nat} {s : Fr}
    (h : MclMade ks g1 g2 N scale s) {m c : Nat} (hm : m + 1 + c < scale) {fk : FK20Multi Fr G1 G2}
    (hfk : Mcl.FK20Multi.new ks (2 ^ (m + 1 + c + 1)) (2 ^ c) = .ok fk) (p : List Fr)
    (hp : p.length = 2 ^ (m + 1 + c)) :
    ∃ out, Mcl.FK20Multi.daOptimized fk p = .ok out ∧ 2 * out.length = 2 ^ (m + 1 + c + 1) / 2 ^ c := by
  have hsc := h.wf.fs.lt
  have hN := multi_N h.wf hm hfk
  rw [Mcl.multi_new h.wf hm hN] at hfk
  cases hfk
  have hle : 2 ^ (m + c + 1) ≤ 2 ^ scale := Nat.pow_le_pow_right (by omega) (by omega)
  have hp1 : 2 ^ (m + 1) = 2 ^ m * 2 := pow_succ _ _
  have hp2 : 2 ^ (m + c) = 2 ^ m * 2 ^ c := pow_add _ _ _
  have hp3 : 2 ^ (m + c + 1) = 2 ^ (m + c) * 2 := pow_succ _ _
  have hp4 : 2 ^ (m + 1 + c) = 2 ^ (m + c + 1) := by congr 1; omega
  have hp5 : 2 ^ (m + 1 + 1) = 2 ^ (m + 1) * 2 := pow_succ _ _
  have hpos : 0 < 2 ^ m := by positivity
  have hposc : 0 < 2 ^ c := by positivity
  have hposm : 0 < 2 ^ (m + c) := by positivity
  have hdiv : 2 ^ (m + 1 + c + 1) / 2 ^ c = 2 ^ (m + 1 + 1) := by
    rw [Nat.pow_div (by omega) (by omega)]; congr 1; omega
  have hq : (p.take (2 ^ (m + c))).length = 2 ^ (m + c) := by rw [List.length_take]; omega
  obtain ⟨b, hb, hbl⟩ : Res.Sat (Mcl.FK20Multi.accumulate
      (⟨ks, 2 ^ c, (List.range (2 ^ c)).map fun o => (List.range (2 ^ (m + 1 + 1))).map
        (dft (ks.fs.omega (2 ^ (m + 1 + 1))) (2 ^ (m + 1 + 1)) (selPt g1 s (2 ^ (m + 1)) (2 ^ c) o))⟩ : FK20Multi Fr G1 G2)
      (p.take (2 ^ (m + c))) (2 ^ m * 2)) (fun r => r.length = 2 ^ (m + 1)) := by
    unfold Mcl.FK20Multi.accumulate
    simp only
    rw [← hp1]
    refine forRange_inv (fun _ (st : List G1) => st.length = 2 ^ (m + 1)) (Nat.zero_le _) (by simp) ?_
    intro o st _ ho hst
    obtain ⟨a, ha, hal⟩ := part2_length h.wf.fs (show m + 1 ≤ scale by omega)
      (tcoef (p.take (2 ^ (m + c))) (2 ^ m) (2 ^ c) o) ((List.range (2 ^ (m + 1 + 1))).map
        (dft (ks.fs.omega (2 ^ (m + 1 + 1))) (2 ^ (m + 1 + 1)) (selPt g1 s (2 ^ (m + 1)) (2 ^ c) o)))
    rw [List.length_map, List.length_range, min_eq_right (by omega)] at hal
    rw [toeplitzStrided_spec _ (hq.trans hp2) hpos ho, Res.bind_ok, rd_getD [] (by simpa using ho), Res.bind_ok,
      getD_range_map, if_pos ho, ← hp1, ha, Res.unwrap_ok, Res.bind_ok]
    refine forRange_inv (fun _ (st : List G1) => st.length = 2 ^ (m + 1)) (Nat.zero_le _) hst ?_
    intro i st _ hi hst
    rw [rd_getD 0 (by omega), Res.bind_ok, rd_getD 0 (by omega), Res.bind_ok, wr_of_lt (by omega)]
    exact Res.Sat.ok (by simpa using hst)
  obtain ⟨d, hd, hdl⟩ := part3_length h.wf.fs (show m + 1 ≤ scale by omega) (by omega) b hbl
  obtain ⟨r, hr, hrl⟩ := fftG1_length h.wf.fs (show m + 1 ≤ scale by omega) (by omega)
    (d.take (2 ^ m) ++ List.replicate (2 ^ m) 0)
    (by rw [List.length_append, List.length_take, List.length_replicate]; omega) false
  refine ⟨r, ?_, by rw [hdiv]; omega⟩
  unfold Mcl.FK20Multi.daOptimized
  simp only
  rw [hp, show 2 ^ (m + 1 + c) / 2 = 2 ^ (m + c) by omega, divU, if_neg (by omega), Res.bind_ok, ← hp3,
    isPowerOf2_eq (by omega), Res.bind_ok, isPowerOfTwo_two_pow, if_neg (by simp),
    if_neg (by rw [h.wf.fs.width]; omega), show 2 ^ (m + c) / 2 ^ c = 2 ^ m by
      rw [hp2, Nat.mul_div_cancel _ hposc], hb, Res.bind_ok, hd, Res.unwrap_ok, Res.bind_ok, hr]

end Kzg.Props
