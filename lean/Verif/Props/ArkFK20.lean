import Verif.Props.ArkKzg
import Verif.Props.Utils
import Verif.Proofs.Ark.FK20
/-!
# Properties C129–C131: FK20 of the Arkworks backend
-/

set_option linter.unusedSectionVars false

namespace Kzg.Props
open Kzg Kzg.Ark Polynomial

variable {P G1 G2 GT : Type} [AddCommGroup G1] [Module Fr G1] [AddCommGroup G2] [Module Fr G2]
  [CommGroup GT] [DecidableEq GT]

theorem two_pow_within {scale k : Nat} (h : ¬ 2 ^ k > 2 ^ scale) : k ≤ scale :=
  (Nat.pow_le_pow_iff_right (by omega)).mp (not_lt.mp h)

/-! ## C129: single proofs -/

/-- C129 (settings): made exactly for powers of two with `2 ≤ n2 ≤` width, if the settings have the points needed
(otherwise a panic); every other size is an error. -/
theorem C129_settings_new {B : Ark.Backend P G1 G2 GT} {g1 : G1} {g2 : G2} (hB : B.Lawful g1 g2)
    {ks : Ark.Settings P G1 G2} {L scale : Nat} {s : Fr} (h : ArkMade B ks g1 g2 L scale s) (n2 : Nat) :
    (∀ m, m < scale → n2 = 2 ^ (m + 1) →
      (2 ^ m ≤ L + 2 → ∃ fk, Ark.FKSingle.new B ks n2 = .ok fk ∧ fk.ks.fs = ks.fs ∧ fk.xExtFftLen = n2) ∧
      (L + 2 < 2 ^ m → Ark.FKSingle.new B ks n2 = .panic)) ∧
    ((¬ ∃ m, m < scale ∧ n2 = 2 ^ (m + 1)) → ∃ msg, Ark.FKSingle.new B ks n2 = .err msg) := by
  have hw := h.wf hB
  constructor
  · rintro m hm rfl
    exact ⟨fun hL => ⟨_, Ark.single_new hB hw hm hL, rfl, rfl⟩, fun hL => Ark.single_new_short hw hm hL⟩
  · intro hn
    unfold Ark.FKSingle.new
    simp only
    by_cases h1 : n2 > ks.fs.maxWidth
    · rw [if_pos h1]; exact ⟨_, rfl⟩
    rw [if_neg h1]
    by_cases h2 : isPowerOfTwo n2 = true
    · rw [h2, if_neg (by simp)]
      by_cases h3 : n2 < 2
      · rw [if_pos h3]; exact ⟨_, rfl⟩
      exfalso
      obtain ⟨k, rfl⟩ := exists_of_isPowerOfTwo h2
      apply hn
      have hk : k ≠ 0 := by rintro rfl; simp at h3
      rw [hw.fs.toWF.width] at h1
      have hks := two_pow_within h1
      exact ⟨k - 1, by omega, by congr 1; omega⟩
    · rw [if_pos (by simp [h2])]; exact ⟨_, rfl⟩

/-- C129 (values): for every polynomial of `n = 2^m` coefficients, with settings made for `2n`, the amortised
computation returns `2n` entries, and entry `j` is the commitment to the quotient by `X - ω^j`, `ω` the `2n`-th
root. -/
theorem C129_fk20_single_values {B : Ark.Backend P G1 G2 GT} {g1 : G1} {g2 : G2} (hB : B.Lawful g1 g2)
    {ks : Ark.Settings P G1 G2} {L scale : Nat} {s : Fr} (h : ArkMade B ks g1 g2 L scale s) {m : Nat}
    (hm : m < scale) {fk : Ark.FKSingle P G1 G2} (hfk : Ark.FKSingle.new B ks (2 ^ (m + 1)) = .ok fk)
    (p : List Fr) (hp : p.length = 2 ^ m) :
    ∃ proofs, fk.daOptimized p = .ok proofs ∧ proofs.length = 2 ^ (m + 1) ∧
      ∀ j < 2 ^ (m + 1), proofs[j]? =
        some ((polyOf p / (X - C (domainRoot ks.fs scale (m + 1) ^ j))).eval s • g1) := by
  have hw := h.wf hB
  refine ⟨_, Ark.single_opt hB hw hm hfk p hp, by simp, fun j hj => ?_⟩
  rw [List.getElem?_map, List.getElem?_range hj, Option.map_some, pow_one X,
    omega_of_wf hw.fs.toWF (show m + 1 ≤ scale by omega)]

/-- C129: proof `j` is the one computed for `ω^j` alone and is accepted with the value of the polynomial there, for
every polynomial of `n = 2^m` coefficients that fits the settings. -/
theorem C129_fk20_single {B : Ark.Backend P G1 G2 GT} {g1 : G1} {g2 : G2} (hB : B.Lawful g1 g2)
    {ks : Ark.Settings P G1 G2} {L scale : Nat} {s : Fr} (h : ArkMade B ks g1 g2 L scale s) {m : Nat}
    (hm : m < scale) {fk : Ark.FKSingle P G1 G2} (hfk : Ark.FKSingle.new B ks (2 ^ (m + 1)) = .ok fk)
    (p : List Fr) (hp : p.length = 2 ^ m) (hL : 2 ^ m ≤ L) :
    ∃ com proofs, ks.commit p = .ok com ∧ fk.daOptimized p = .ok proofs ∧ proofs.length = 2 ^ (m + 1) ∧
      ∀ j < 2 ^ (m + 1), ∃ proof, proofs[j]? = some proof ∧
        ks.computeSingle p (domainRoot ks.fs scale (m + 1) ^ j) = .ok proof ∧
        ks.checkSingle B com proof (domainRoot ks.fs scale (m + 1) ^ j)
          ((polyOf p).eval (domainRoot ks.fs scale (m + 1) ^ j)) = .ok true := by
  have hpos : 0 < 2 ^ m := by positivity
  obtain ⟨proofs, h1, h2, h3⟩ := C129_fk20_single_values hB h hm hfk p hp
  have hc := (C127_commit hB h p).1 (by omega) (by omega)
  refine ⟨_, proofs, hc, h1, h2, fun j hj => ⟨_, h3 j hj, ?_, ?_⟩⟩
  · exact C127_single_proof hB h (by omega) p (by omega) _
  · obtain ⟨com, proof, h4, h5, h6⟩ := C127_single_complete hB h (by omega) p (by omega)
      (domainRoot ks.fs scale (m + 1) ^ j)
    rw [hc] at h4
    rw [C127_single_proof hB h (by omega) p (by omega)] at h5
    cases h4; cases h5
    obtain ⟨b, h7, h8⟩ := h6 ((polyOf p).eval (domainRoot ks.fs scale (m + 1) ^ j))
    rw [h7, h8.mpr rfl]

/-- C129 (public order): `data_availability` returns the same proofs in bit-reversed order. -/
theorem C129_fk20_single_order {B : Ark.Backend P G1 G2 GT} {g1 : G1} {g2 : G2} (hB : B.Lawful g1 g2)
    {ks : Ark.Settings P G1 G2} {L scale : Nat} {s : Fr} (h : ArkMade B ks g1 g2 L scale s) {m : Nat}
    (hm : m < scale) {fk : Ark.FKSingle P G1 G2} (hfk : Ark.FKSingle.new B ks (2 ^ (m + 1)) = .ok fk)
    (p : List Fr) (hp : p.length = 2 ^ m) :
    ∃ proofs out, fk.daOptimized p = .ok proofs ∧ fk.da p = .ok out ∧
      out.length = 2 ^ (m + 1) ∧ ∀ j < 2 ^ (m + 1), ∃ r, IsBitReversal (m + 1) j r ∧ out[r]? = proofs[j]? := by
  have hw := h.wf hB
  have hsc := hw.fs.toWF.lt
  obtain ⟨proofs, h1, h2, -⟩ := C129_fk20_single_values hB h hm hfk p hp
  obtain ⟨out, h3, h4, -, h5⟩ := C32_reverse_bit_order proofs (m + 1) (by omega) h2
  refine ⟨proofs, out, h1, by rw [Ark.single_da hB hw hm hfk p hp, h1, Res.bind_ok, h3], by omega, fun j hj => ?_⟩
  exact h5 j (by omega)

/-- C129 (rejection): a polynomial whose length is not half of a power of two within the width is an error, whatever
the settings were made for. -/
theorem C129_rejects {B : Ark.Backend P G1 G2 GT} {g1 : G1} {g2 : G2} (hB : B.Lawful g1 g2)
    {ks : Ark.Settings P G1 G2} {L scale : Nat} {s : Fr} (h : ArkMade B ks g1 g2 L scale s)
    {fk : Ark.FKSingle P G1 G2} (hks : fk.ks.fs = ks.fs) (p : List Fr) (hp : ¬ ∃ m, m < scale ∧ p.length = 2 ^ m) :
    (∃ msg, fk.daOptimized p = .err msg) ∧ ∃ msg, fk.da p = .err msg := by
  unfold Ark.FKSingle.daOptimized Ark.FKSingle.da
  simp only
  rw [hks]
  by_cases h1 : p.length * 2 > ks.fs.maxWidth
  · rw [if_pos h1, if_pos h1]; exact ⟨⟨_, rfl⟩, _, rfl⟩
  rw [if_neg h1, if_neg h1]
  by_cases h2 : isPowerOfTwo p.length = true
  · exfalso
    obtain ⟨k, hk⟩ := exists_of_isPowerOfTwo h2
    apply hp
    rw [(h.wf hB).fs.toWF.width, hk, ← pow_succ] at h1
    exact ⟨k, by have := two_pow_within h1; omega, hk⟩
  · rw [if_pos (by simp [h2]), if_pos (by simp [h2])]; exact ⟨⟨_, rfl⟩, _, rfl⟩

/-! ## C130: multi proofs -/

/-- C130 (settings): made exactly for powers of two with `2 ≤ n2 ≤` width and chunk length `l ≤ n2/2`, if the settings
have the points needed (otherwise a panic); everything else is an error. -/
theorem C130_settings_new {B : Ark.Backend P G1 G2 GT} {g1 : G1} {g2 : G2} (hB : B.Lawful g1 g2)
    {ks : Ark.Settings P G1 G2} {L scale : Nat} {s : Fr} (h : ArkMade B ks g1 g2 L scale s) (n2 l : Nat) :
    (∀ m c, m + c < scale → n2 = 2 ^ (m + c + 1) → l = 2 ^ c →
      ((2 ^ m - 1) * 2 ^ c ≤ L + 1 →
        ∃ fk, Ark.FKMulti.new B ks n2 l = .ok fk ∧ fk.ks.fs = ks.fs ∧ fk.chunkLen = l) ∧
      (L + 1 < (2 ^ m - 1) * 2 ^ c → Ark.FKMulti.new B ks n2 l = .panic)) ∧
    ((¬ ∃ m c, m + c < scale ∧ n2 = 2 ^ (m + c + 1) ∧ l = 2 ^ c) → ∃ msg, Ark.FKMulti.new B ks n2 l = .err msg) := by
  have hw := h.wf hB
  constructor
  · rintro m c hm rfl rfl
    exact ⟨fun hL => ⟨_, Ark.multi_new hB hw hm hL, rfl, rfl⟩, fun hL => Ark.multi_new_short hw hm hL⟩
  · intro hn
    unfold Ark.FKMulti.new
    by_cases h1 : n2 > ks.fs.maxWidth
    · rw [if_pos h1]; exact ⟨_, rfl⟩
    rw [if_neg h1]
    by_cases h2 : isPowerOfTwo n2 = true
    · rw [h2, if_neg (by simp)]
      by_cases h3 : n2 < 2
      · rw [if_pos h3]; exact ⟨_, rfl⟩
      rw [if_neg h3]
      by_cases h4 : l > n2 / 2
      · rw [if_pos h4]; exact ⟨_, rfl⟩
      rw [if_neg h4]
      by_cases h5 : isPowerOfTwo l = true
      · exfalso
        obtain ⟨k, rfl⟩ := exists_of_isPowerOfTwo h2
        obtain ⟨c, rfl⟩ := exists_of_isPowerOfTwo h5
        apply hn
        have hk : k ≠ 0 := by rintro rfl; simp at h3
        rw [hw.fs.toWF.width] at h1
        have hks := two_pow_within h1
        have hck : c ≤ k - 1 := by
          rw [show 2 ^ k / 2 = 2 ^ (k - 1) by
            rw [show k = k - 1 + 1 by omega, pow_succ]; simp] at h4
          exact two_pow_within h4
        exact ⟨k - 1 - c, c, by omega, by congr 1; omega, rfl⟩
      · rw [if_pos (by simp [h5])]; exact ⟨_, rfl⟩
    · rw [if_pos (by simp [h2])]; exact ⟨_, rfl⟩

/-- C130 (values): for every polynomial of `n = 2^(m+c)` coefficients, with settings made for `2n` and chunk length
`l = 2^c`, the amortised computation returns `2n/l` entries, and entry `j` is the commitment to the quotient by
`X^l - (ω^j)^l`, `ω` the `2n`-th root. -/
theorem C130_fk20_multi_values {B : Ark.Backend P G1 G2 GT} {g1 : G1} {g2 : G2} (hB : B.Lawful g1 g2)
    {ks : Ark.Settings P G1 G2} {L scale : Nat} {s : Fr} (h : ArkMade B ks g1 g2 L scale s) {m c : Nat}
    (hm : m + c < scale) {fk : Ark.FKMulti P G1 G2} (hfk : Ark.FKMulti.new B ks (2 ^ (m + c + 1)) (2 ^ c) = .ok fk)
    (p : List Fr) (hp : p.length = 2 ^ (m + c)) :
    ∃ proofs, fk.daOptimized p = .ok proofs ∧ proofs.length = 2 ^ (m + c + 1) / 2 ^ c ∧
      ∀ j < proofs.length, proofs[j]? = some ((polyOf p /
        (X ^ 2 ^ c - C ((domainRoot ks.fs scale (m + c + 1) ^ j) ^ 2 ^ c))).eval s • g1) := by
  have hw := h.wf hB
  have hdiv : 2 ^ (m + c + 1) / 2 ^ c = 2 ^ (m + 1) := by
    rw [Nat.pow_div (by omega) (by omega)]; congr 1; omega
  refine ⟨_, Ark.multi_opt hB hw hm hfk p hp, by simp [hdiv], fun j hj => ?_⟩
  rw [List.length_map, List.length_range] at hj
  have e : (domainRoot ks.fs scale (m + c + 1) ^ j) ^ 2 ^ c = domainRoot ks.fs scale (m + 1) ^ j := by
    rw [← pow_mul, mul_comm, pow_mul]
    congr 1
    rw [domainRoot, ← pow_mul, ← pow_add, domainRoot]
    congr 2
    omega
  rw [List.getElem?_map, List.getElem?_range hj, Option.map_some, e,
    omega_of_wf hw.fs.toWF (show m + 1 ≤ scale by omega)]

/-- C130: proof `j` is the multi proof for `l` points computed for `ω^j` alone and is accepted with the values of the
polynomial on its coset, for every polynomial of `n = 2^(m+c)` coefficients that fits the settings. -/
theorem C130_fk20_multi {B : Ark.Backend P G1 G2 GT} {g1 : G1} {g2 : G2} (hB : B.Lawful g1 g2)
    {ks : Ark.Settings P G1 G2} {L scale : Nat} {s : Fr} (h : ArkMade B ks g1 g2 L scale s) {m c : Nat}
    (hm : m + c < scale) {fk : Ark.FKMulti P G1 G2} (hfk : Ark.FKMulti.new B ks (2 ^ (m + c + 1)) (2 ^ c) = .ok fk)
    (p : List Fr) (hp : p.length = 2 ^ (m + c)) (hL : 2 ^ (m + c) ≤ L) :
    ∃ com proofs, ks.commit p = .ok com ∧ fk.daOptimized p = .ok proofs ∧ proofs.length = 2 ^ (m + c + 1) / 2 ^ c ∧
      ∀ j < proofs.length, ∃ proof, proofs[j]? = some proof ∧
        ks.computeMulti p (domainRoot ks.fs scale (m + c + 1) ^ j) (2 ^ c) = .ok proof ∧
        ks.checkMulti B com proof (domainRoot ks.fs scale (m + c + 1) ^ j)
          ((List.range (2 ^ c)).map fun i => (polyOf p).eval
            (domainRoot ks.fs scale (m + c + 1) ^ j * domainRoot ks.fs scale c ^ i)) (2 ^ c) = .ok true := by
  have hpos : 0 < 2 ^ (m + c) := by positivity
  have hsc := (h.wf hB).fs.toWF.lt
  have hp30 : p.length ≤ 2 ^ 30 := by rw [hp]; exact Nat.pow_le_pow_right (by omega) (by omega)
  have hcL : 2 ^ c ≤ L := (Nat.pow_le_pow_right (by omega) (by omega)).trans hL
  have hz : polyOf p = 0 → 2 ^ c < 127 ∨ p.length ≤ 2 ^ c + 1 ∨ 2 ^ c + 128 ≤ p.length := by
    intro _
    rw [hp]
    rcases Nat.eq_zero_or_pos m with rfl | hm0
    · right; left; rw [Nat.zero_add]; omega
    · by_cases hc : c < 7
      · left
        have : 2 ^ c ≤ 2 ^ 6 := Nat.pow_le_pow_right (by omega) (by omega)
        omega
      · right; right
        have h1 : 2 ^ 7 ≤ 2 ^ c := Nat.pow_le_pow_right (by omega) (by omega)
        have h2 : 2 ^ (c + 1) ≤ 2 ^ (m + c) := Nat.pow_le_pow_right (by omega) (by omega)
        rw [pow_succ] at h2
        omega
  have hx0 : ∀ j, domainRoot ks.fs scale (m + c + 1) ^ j ≠ 0 := fun j =>
    pow_ne_zero _ ((ark_root_prim hB h (show m + c + 1 ≤ scale by omega)).ne_zero (by positivity))
  obtain ⟨proofs, h1, h2, h3⟩ := C130_fk20_multi_values hB h hm hfk p hp
  have hc := (C127_commit hB h p).1 (by omega) (by omega)
  have hmp := fun x => C128_multi_proof hB h (by omega) (n := 2 ^ c) (by positivity) p
    (hp.trans_le (hL.trans (Nat.le_add_right _ _))) hp30 x hz
  refine ⟨_, proofs, hc, h1, h2, fun j hj => ⟨_, h3 j hj, hmp _, ?_⟩⟩
  obtain ⟨com, proof, h4, h5, h6⟩ := C128_multi_complete_partial hB h (m := c) (by omega) hcL p (by omega) hp30 _ (hx0 j) hz
  rw [hc] at h4
  rw [hmp] at h5
  cases h4; cases h5
  exact h6

/-- C130 (public order): `data_availability` returns the same proofs in bit-reversed order. -/
theorem C130_fk20_multi_order {B : Ark.Backend P G1 G2 GT} {g1 : G1} {g2 : G2} (hB : B.Lawful g1 g2)
    {ks : Ark.Settings P G1 G2} {L scale : Nat} {s : Fr} (h : ArkMade B ks g1 g2 L scale s) {m c : Nat}
    (hm : m + c < scale) {fk : Ark.FKMulti P G1 G2} (hfk : Ark.FKMulti.new B ks (2 ^ (m + c + 1)) (2 ^ c) = .ok fk)
    (p : List Fr) (hp : p.length = 2 ^ (m + c)) :
    ∃ proofs out, fk.daOptimized p = .ok proofs ∧ fk.da p = .ok out ∧
      out.length = 2 ^ (m + 1) ∧ ∀ j < 2 ^ (m + 1), ∃ r, IsBitReversal (m + 1) j r ∧ out[r]? = proofs[j]? := by
  have hw := h.wf hB
  have hsc := hw.fs.toWF.lt
  have hdiv : 2 ^ (m + c + 1) / 2 ^ c = 2 ^ (m + 1) := by
    rw [Nat.pow_div (by omega) (by omega)]; congr 1; omega
  obtain ⟨proofs, h1, h2, -⟩ := C130_fk20_multi_values hB h hm hfk p hp
  rw [hdiv] at h2
  obtain ⟨out, h3, h4, -, h5⟩ := C32_reverse_bit_order proofs (m + 1) (by omega) h2
  refine ⟨proofs, out, h1, by rw [Ark.multi_da hB hw hm hfk p hp, h1, Res.bind_ok, h3], by omega, fun j hj => ?_⟩
  exact h5 j (by omega)

/-- C130 (rejection): a polynomial whose length is not half of a power of two within the width is an error, whatever
the settings were made for. -/
theorem C130_rejects {B : Ark.Backend P G1 G2 GT} {g1 : G1} {g2 : G2} (hB : B.Lawful g1 g2)
    {ks : Ark.Settings P G1 G2} {L scale : Nat} {s : Fr} (h : ArkMade B ks g1 g2 L scale s)
    {fk : Ark.FKMulti P G1 G2} (hks : fk.ks.fs = ks.fs) (p : List Fr) (hp : ¬ ∃ m, m < scale ∧ p.length = 2 ^ m) :
    (∃ msg, fk.daOptimized p = .err msg) ∧ ∃ msg, fk.da p = .err msg := by
  unfold Ark.FKMulti.daOptimized Ark.FKMulti.da
  simp only
  rw [hks]
  by_cases h1 : p.length * 2 > ks.fs.maxWidth
  · rw [if_pos h1, if_pos h1]; exact ⟨⟨_, rfl⟩, _, rfl⟩
  rw [if_neg h1, if_neg h1]
  by_cases h2 : isPowerOfTwo p.length = true
  · exfalso
    obtain ⟨k, hk⟩ := exists_of_isPowerOfTwo h2
    apply hp
    rw [(h.wf hB).fs.toWF.width, hk, ← pow_succ] at h1
    exact ⟨k, by have := two_pow_within h1; omega, hk⟩
  · rw [if_pos (by simp [h2]), if_pos (by simp [h2])]; exact ⟨⟨_, rfl⟩, _, rfl⟩

/-- Settings and polynomials as in C129 and C130 exist: four coefficients, chunks of two. -/
example : ∃ (ks : Ark.Settings (Unit ⊕ Fr) Fr Fr) (f1 : Ark.FKSingle (Unit ⊕ Fr) Fr Fr)
    (f2 : Ark.FKMulti (Unit ⊕ Fr) Fr Fr) (s : Fr), ArkMade arkToy ks 1 1 8 4 s ∧
    Ark.FKSingle.new arkToy ks 8 = .ok f1 ∧ Ark.FKMulti.new arkToy ks 8 2 = .ok f2 ∧
    (∃ ps, f1.daOptimized [1, 2, 3, 4] = .ok ps ∧ ps.length = 8) ∧
    ∃ ps, f2.daOptimized [1, 2, 3, 4] = .ok ps ∧ ps.length = 4 := by
  obtain ⟨ks, h⟩ := arkMade_exists arkToy_lawful (Sum.inl ()) 4 8 (by norm_num)
  obtain ⟨f1, hf1, -⟩ := ((C129_settings_new arkToy_lawful h 8).1 2 (by norm_num) (by norm_num)).1 (by norm_num)
  obtain ⟨f2, hf2, -, -⟩ := ((C130_settings_new arkToy_lawful h 8 2).1 1 1 (by norm_num) (by norm_num)
    (by norm_num)).1 (by norm_num)
  obtain ⟨p1, h1, l1, -⟩ := C129_fk20_single_values arkToy_lawful h (m := 2) (by norm_num) hf1
    [1, 2, 3, 4] (by norm_num)
  obtain ⟨p2, h2, l2, -⟩ := C130_fk20_multi_values arkToy_lawful h (m := 1) (c := 1) (by norm_num) hf2
    [1, 2, 3, 4] (by norm_num)
  exact ⟨ks, f1, f2, _, h, hf1, hf2, ⟨p1, h1, l1⟩, p2, h2, l2⟩

/-! ## C131: other lengths than the settings were made for, clones and defaults -/

/-- C131 (partial): the lists returned are the proofs, for polynomials of the length the settings were made for.
Missing: other lengths, for which the statement is false (next theorems). -/
theorem C131_right_size_partial {B : Ark.Backend P G1 G2 GT} {g1 : G1} {g2 : G2} (hB : B.Lawful g1 g2)
    {ks : Ark.Settings P G1 G2} {L scale : Nat} {s : Fr} (h : ArkMade B ks g1 g2 L scale s) {n2 : Nat}
    {fk : Ark.FKSingle P G1 G2} (hfk : Ark.FKSingle.new B ks n2 = .ok fk) (p : List Fr) (hp : 2 * p.length = n2)
    (hL : p.length ≤ L) :
    ∃ proofs m, fk.daOptimized p = .ok proofs ∧ n2 = 2 ^ m ∧ proofs.length = n2 ∧
      ∀ j < n2, ∃ proof, proofs[j]? = some proof ∧
        ks.computeSingle p (domainRoot ks.fs scale m ^ j) = .ok proof := by
  by_cases hn2 : ∃ m, m < scale ∧ n2 = 2 ^ (m + 1)
  · obtain ⟨m, hm, rfl⟩ := hn2
    have hpl : p.length = 2 ^ m := by rw [pow_succ] at hp; omega
    obtain ⟨_, ps, -, h1, h2, h3⟩ := C129_fk20_single hB h hm hfk p hpl (by omega)
    refine ⟨ps, m + 1, h1, rfl, h2, fun j hj => ?_⟩
    obtain ⟨π, h4, h5, -⟩ := h3 j hj
    exact ⟨π, h4, h5⟩
  · obtain ⟨msg, h1⟩ := (C129_settings_new hB h n2).2 hn2
    rw [h1] at hfk; cases hfk

/-- C131 (longer polynomials): panic, in both functions. -/
theorem C131_longer_panics {B : Ark.Backend P G1 G2 GT} {g1 : G1} {g2 : G2} (hB : B.Lawful g1 g2)
    {ks : Ark.Settings P G1 G2} {L scale : Nat} {s : Fr} (h : ArkMade B ks g1 g2 L scale s) {m m' : Nat} (hm : m < m')
    (hm' : m' < scale) {fk : Ark.FKSingle P G1 G2} (hfk : Ark.FKSingle.new B ks (2 ^ (m + 1)) = .ok fk)
    (p : List Fr) (hp : p.length = 2 ^ m') : fk.daOptimized p = .panic ∧ fk.da p = .panic := by
  have hw := h.wf hB
  rw [Ark.single_new hB hw (by omega) (Ark.single_L hw (by omega) hfk)] at hfk
  cases hfk
  have hle : 2 ^ (m' + 1) ≤ 2 ^ scale := Nat.pow_le_pow_right (by omega) hm'
  have hlt : 2 ^ (m + 1) < 2 ^ (m' + 1) := Nat.pow_lt_pow_right (by omega) (by omega)
  have hp1 : 2 ^ (m' + 1) = 2 ^ m' * 2 := pow_succ _ _
  have hpos : 0 < 2 ^ m' := by positivity
  have key : Ark.FKSingle.daOptimized (⟨keptSettings B ks, (List.range (2 ^ (m + 1))).map
      (dft (ks.fs.omega (2 ^ (m + 1))) (2 ^ (m + 1)) (selPt g1 s (2 ^ m) 1 0)), 2 ^ (m + 1)⟩ : FKSingle P G1 G2) p =
      .panic := by
    unfold Ark.FKSingle.daOptimized Ark.toeplitzCoeffsStep
    simp only
    rw [if_neg (by simp only [keptSettings]; rw [hp, hw.fs.toWF.width]; omega), hp, isPowerOfTwo_two_pow,
      if_neg (by simp)]
    simp only [keptSettings]
    rw [show 2 * 2 ^ m' = 2 ^ m' * 2 by omega,
      Ark.toeplitzStride_spec p (k := 2 ^ m') (l := 1) (by omega) hpos (by omega), Res.unwrap_ok, Res.bind_ok, ← hp1,
      Ark.part2_short hw.fs (show m' + 1 ≤ scale by omega) _ (by simp) _ (by simpa using hlt)]
    rfl
  refine ⟨key, ?_⟩
  unfold Ark.FKSingle.da
  simp only
  rw [if_neg (by simp only [keptSettings]; rw [hp, hw.fs.toWF.width]; omega), hp, isPowerOfTwo_two_pow,
    if_neg (by simp), key]
  rfl

/-- C131 (shorter polynomials): with settings made for two coefficients, a polynomial of a single coefficient `c` is
accepted and the call returns the list `[c·g1, c·g1]`, while the proof at every point is the identity. -/
theorem C131_shorter_wrong {B : Ark.Backend P G1 G2 GT} {g1 : G1} {g2 : G2} (hB : B.Lawful g1 g2)
    {ks : Ark.Settings P G1 G2} {L scale : Nat} {s : Fr} (h : ArkMade B ks g1 g2 L scale s) (hL : 1 ≤ L)
    (hsc : 2 ≤ scale) {fk : Ark.FKSingle P G1 G2} (hfk : Ark.FKSingle.new B ks 4 = .ok fk) (c : Fr) :
    fk.daOptimized [c] = .ok [c • g1, c • g1] ∧ ∀ x, ks.computeSingle [c] x = .ok 0 := by
  have hw := h.wf hB
  constructor
  · have hfk' : Ark.FKSingle.new B ks (2 ^ (1 + 1)) = .ok fk := hfk
    rw [Ark.single_new hB hw (by omega) (Ark.single_L hw (by omega) hfk')] at hfk'
    cases hfk'
    have hle : 2 ^ 2 ≤ 2 ^ scale := Nat.pow_le_pow_right (by omega) hsc
    have hx : ∀ (w : Fr) (n i : Nat), dft w (n + 1) (selPt g1 s (2 ^ 1) 1 0) i = g1 := by
      intro w n i
      unfold dft
      rw [Finset.sum_range_succ', Finset.sum_eq_zero, zero_add]
      · simp [selPt]
      · intro j _
        rw [selPt, if_neg (by omega), smul_zero]
    have e1 : (List.range (2 ^ (1 + 1))).map
        (dft (ks.fs.omega (2 ^ (1 + 1))) (2 ^ (1 + 1)) (selPt g1 s (2 ^ 1) 1 0)) = [g1, g1, g1, g1] := by
      simp only [show 2 ^ (1 + 1) = 3 + 1 from rfl]
      rw [List.map_congr_left (g := fun _ => g1) fun i _ => hx _ 3 i]; rfl
    have hpart2 : Ark.toeplitzPart2 ks.fs [c, 0] [g1, g1, g1, g1] = .ok [c • g1, c • g1] := by
      have e2 : [c, 0] = (List.range (2 ^ 1)).map (fun i => if i = 0 then c else 0) := rfl
      have e3 : fftFr ks.fs [c, 0] false = .ok [c, c] := by
        rw [Ark.fftFr_eq hw.fs (m := 1) (by omega) _ rfl false, e2, fft_range hw.fs.toWF (m := 1) (by omega) _]
        congr 1
        simp [dft, List.range_succ]
      unfold Ark.toeplitzPart2
      rw [e3]
      rfl
    have hdft : ∀ w : Fr, (List.range (2 ^ (0 + 1))).map
        (dft w (2 ^ (0 + 1)) (fun i => if i = 0 then c • g1 else 0)) = [c • g1, c • g1] := by
      intro w
      simp [dft, List.range_succ]
    unfold Ark.FKSingle.daOptimized Ark.toeplitzCoeffsStep
    simp only
    rw [if_neg (by simp only [keptSettings]; rw [hw.fs.toWF.width]; simp only [List.length_singleton]; omega),
      show isPowerOfTwo [c].length = true from isPowerOfTwo_two_pow 0, if_neg (by simp)]
    simp only [keptSettings]
    have e4 : Ark.toeplitzCoeffsStride [c] 0 1 (2 * [c].length) = .ok [c, 0] := by
      have := Ark.toeplitzStride_spec [c] (k := 1) (l := 1) (o := 0) rfl (by omega) (by omega)
      rw [show 2 * [c].length = 1 * 2 from rfl, this]
      congr 1
    rw [e1, e4, Res.unwrap_ok, Res.bind_ok, hpart2, Res.unwrap_ok, Res.bind_ok, ← hdft (ks.fs.omega (2 ^ (0 + 1))),
      Ark.part3_spec hw.fs.toWF (by omega), Res.unwrap_ok, Res.bind_ok]
    have e5 : (List.range (2 ^ (0 + 1))).map
        (fun i => if i < 2 ^ 0 then (if i = 0 then c • g1 else 0) else 0) =
        (List.range (2 ^ (0 + 1))).map (fun i => if i = 0 then c • g1 else 0) := by
      refine List.map_congr_left fun i _ => ?_
      by_cases hi : i = 0
      · subst hi; simp
      · rw [if_neg (by omega), if_neg hi]
    rw [e5, Ark.fftG1_eq hw.fs.toWF (m := 0 + 1) (by omega) _ (by simp) false,
      fft_range hw.fs.toWF (m := 0 + 1) (by omega) _]
  · intro x
    rw [C127_single_proof hB h hL [c] (by simpa using hL)]
    have h0 : polyOf [c] / (X - C x) = 0 := by
      rw [Polynomial.div_eq_zero_iff (X_sub_C_ne_zero x), degree_X_sub_C]
      have := degree_polyOf_lt [c]
      simpa using this
    rw [h0, eval_zero, zero_smul]

/-- C131 (multi proofs, longer): a polynomial with more chunks than the settings were made for panics. -/
theorem C131_multi_longer_panics {B : Ark.Backend P G1 G2 GT} {g1 : G1} {g2 : G2} (hB : B.Lawful g1 g2)
    {ks : Ark.Settings P G1 G2} {L scale : Nat} {s : Fr} (h : ArkMade B ks g1 g2 L scale s) {m m' c : Nat}
    (hm : m < m') (hm' : m' + c < scale) {fk : Ark.FKMulti P G1 G2}
    (hfk : Ark.FKMulti.new B ks (2 ^ (m + c + 1)) (2 ^ c) = .ok fk) (p : List Fr) (hp : p.length = 2 ^ (m' + c)) :
    fk.daOptimized p = .panic := by
  have hw := h.wf hB
  rw [Ark.multi_new hB hw (by omega) (Ark.multi_L hw (by omega) hfk)] at hfk
  cases hfk
  have hle : 2 ^ (m' + c + 1) ≤ 2 ^ scale := Nat.pow_le_pow_right (by omega) hm'
  have hlt : 2 ^ (m + 1) < 2 ^ (m' + 1) := Nat.pow_lt_pow_right (by omega) (by omega)
  have hp1 : 2 ^ (m' + 1) = 2 ^ m' * 2 := pow_succ _ _
  have hp2 : 2 ^ (m' + c) = 2 ^ m' * 2 ^ c := pow_add _ _ _
  have hp3 : 2 ^ (m' + c + 1) = 2 ^ (m' + c) * 2 := pow_succ _ _
  have hpos : 0 < 2 ^ m' := by positivity
  have hposc : 0 < 2 ^ c := by positivity
  have hpl : p.length = 2 ^ m' * 2 ^ c := by omega
  unfold Ark.FKMulti.daOptimized Ark.FKMulti.accumulate
  simp only
  rw [if_neg (by simp only [keptSettings]; rw [hp, hw.fs.toWF.width]; omega), hp, isPowerOfTwo_two_pow,
    if_neg (by simp)]
  simp only [keptSettings]
  have hd1 : 2 ^ (m' + c) * 2 / 2 / 2 ^ c = 2 ^ m' := by
    rw [Nat.mul_div_cancel _ (by omega), hp2, Nat.mul_div_cancel _ hposc]
  have hd2 : 2 ^ (m' + c) * 2 / 2 ^ c = 2 ^ m' * 2 := by
    rw [hp2, mul_right_comm, Nat.mul_div_cancel _ hposc]
  rw [divU, if_neg (by omega), Res.bind_ok, divU, if_neg (by omega), Res.bind_ok, hd1, hd2]
  rw [forRange_panic 0 (fun _ _ => True) (Nat.zero_le _) hposc trivial (by omega) ?_]
  · rfl
  · intro st _
    rw [Ark.toeplitzStride_spec p hpl hpos hposc, Res.unwrap_ok, Res.bind_ok, rd_getD [] (by simp),
      Res.bind_ok, getD_range_map, if_pos hposc, ← hp1,
      Ark.part2_short hw.fs (show m' + 1 ≤ scale by omega) _ (by simp) _ (by simpa using hlt)]
    rfl

/-- C131 (multi proofs, less than a chunk): a polynomial shorter than the chunk length panics. -/
theorem C131_multi_below_chunk_panics {B : Ark.Backend P G1 G2 GT} {g1 : G1} {g2 : G2} (hB : B.Lawful g1 g2)
    {ks : Ark.Settings P G1 G2} {L scale : Nat} {s : Fr} (h : ArkMade B ks g1 g2 L scale s) {m m' c : Nat}
    (hc : m' < c) (hm : m + c < scale) {fk : Ark.FKMulti P G1 G2}
    (hfk : Ark.FKMulti.new B ks (2 ^ (m + c + 1)) (2 ^ c) = .ok fk) (p : List Fr) (hp : p.length = 2 ^ m') :
    fk.daOptimized p = .panic := by
  have hw := h.wf hB
  rw [Ark.multi_new hB hw (by omega) (Ark.multi_L hw (by omega) hfk)] at hfk
  cases hfk
  have hle : 2 ^ (m' + 1) ≤ 2 ^ scale := Nat.pow_le_pow_right (by omega) (by omega)
  have hlt : 2 ^ m' < 2 ^ c := Nat.pow_lt_pow_right (by omega) hc
  have hp3 : 2 ^ (m' + 1) = 2 ^ m' * 2 := pow_succ _ _
  have hpos : 0 < 2 ^ m' := by positivity
  unfold Ark.FKMulti.daOptimized Ark.FKMulti.accumulate
  simp only
  rw [if_neg (by simp only [keptSettings]; rw [hp, hw.fs.toWF.width]; omega), hp, isPowerOfTwo_two_pow,
    if_neg (by simp)]
  simp only [keptSettings]
  rw [divU, if_neg (by omega), Res.bind_ok, divU, if_neg (by omega), Res.bind_ok,
    Nat.mul_div_cancel _ (by omega), Nat.div_eq_of_lt hlt]
  have hstr : ∀ o, o < 2 ^ m' → 2 ^ m' * 2 / 2 ^ c = 1 → ∃ a, Ark.toeplitzCoeffsStride p o (2 ^ c) 1 = .ok [a] := by
    intro o ho _
    unfold Ark.toeplitzCoeffsStride
    simp only
    rw [if_neg (by omega), hp, Nat.div_eq_of_lt hlt, if_neg (by omega), subU_of_le (by omega), Res.bind_ok,
      subU_of_le (by omega), Res.bind_ok, rd_getD 0 (by omega), Res.bind_ok, wr_of_lt (by simp), Res.bind_ok]
    refine ⟨p.getD (2 ^ m' - 1 - o) 0, ?_⟩
    rw [show forRange 1 (min (0 + 2) (0 * 2)) _ _ = Res.ok _ from rfl, Res.bind_ok, subU_of_le (by omega), Res.bind_ok,
      subU_of_le (by omega), Res.bind_ok]
    rfl
  have hacc : forRange 0 (2 ^ c) (List.replicate (0 * 2) (0 : G1)) (fun i hExtFft => do
      let coeffs ← (Ark.toeplitzCoeffsStride p i (2 ^ c) (2 ^ m' * 2 / 2 ^ c)).unwrap
      let f ← rd ((List.range (2 ^ c)).map fun o => (List.range (2 ^ (m + 1))).map
        (dft (ks.fs.omega (2 ^ (m + 1))) (2 ^ (m + 1)) (selPt g1 s (2 ^ m) (2 ^ c) o))) i
      let file ← (Ark.toeplitzPart2 ks.fs coeffs f).unwrap
      forRange 0 (0 * 2) hExtFft fun j acc => do
        let a ← rd acc j
        let b ← rd file j
        wr acc j (a + b)) = .panic := by
    have hd : 2 ^ m' * 2 / 2 ^ c = 0 ∨ 2 ^ m' * 2 / 2 ^ c = 1 := by
      have : 2 ^ m' * 2 / 2 ^ c < 2 := (Nat.div_lt_iff_lt_mul (by omega)).mpr (by omega)
      generalize 2 ^ m' * 2 / 2 ^ c = q at this ⊢
      omega
    rcases hd with hd | hd
    · rw [hd]
      refine forRange_panic 0 (fun _ _ => True) (Nat.zero_le _) (by omega) trivial (by omega) ?_
      intro st _
      have : Ark.toeplitzCoeffsStride p 0 (2 ^ c) 0 = .panic := by
        unfold Ark.toeplitzCoeffsStride
        simp only
        rw [if_neg (by omega), hp, Nat.div_eq_of_lt hlt, if_neg (by omega), subU_of_le (by omega), Res.bind_ok,
          subU_of_le (by omega), Res.bind_ok, rd_getD 0 (by omega), Res.bind_ok, wr_of_ge (by simp), Res.bind_panic]
      rw [this]; rfl
    · rw [hd]
      refine forRange_panic (2 ^ m') (fun _ _ => True) (Nat.zero_le _) hlt trivial ?_ ?_
      · intro o st _ ho _
        obtain ⟨a, ha⟩ := hstr o ho hd
        have hfft : fftFr ks.fs [a] false = .ok [a] := by
          have e2 : [a] = (List.range (2 ^ 0)).map (fun _ => a) := rfl
          rw [Ark.fftFr_eq hw.fs (m := 0) (by omega) _ rfl false, e2, fft_range hw.fs.toWF (m := 0) (by omega) _]
          congr 1
          simp [dft]
        rw [ha, Res.unwrap_ok, Res.bind_ok, rd_getD [] (by simp; omega), Res.bind_ok, getD_range_map,
          if_pos (by omega)]
        have hp2 : ∃ r, Ark.toeplitzPart2 ks.fs [a] ((List.range (2 ^ (m + 1))).map
            (dft (ks.fs.omega (2 ^ (m + 1))) (2 ^ (m + 1)) (selPt g1 s (2 ^ m) (2 ^ c) o))) = .ok r := by
          unfold Ark.toeplitzPart2
          rw [hfft, Res.unwrap_ok, Res.bind_ok]
          rw [show [a].length = 0 + 1 from rfl, forRange_succ _ _ (by omega), rd_getD 0 (by simp),
            Res.bind_ok, rd_getD 0 (by simp), Res.bind_ok, Res.bind_ok]
          exact ⟨_, rfl⟩
        obtain ⟨r, hr⟩ := hp2
        rw [hr, Res.unwrap_ok, Res.bind_ok]
        exact ⟨st, rfl, trivial⟩
      · intro st _
        rw [Ark.stride_offset_panic p (by omega) (by omega), Res.bind_panic]
  rw [hacc]
  rfl

/-- C131 (clones): cloning FK20 settings panics, for every size they were made for. -/
theorem C131_clone_panics {B : Ark.Backend P G1 G2 GT} {g1 : G1} {g2 : G2} (hB : B.Lawful g1 g2)
    {ks : Ark.Settings P G1 G2} {L scale : Nat} {s : Fr} (h : ArkMade B ks g1 g2 L scale s) (n2 l : Nat) :
    (∀ fk, Ark.FKSingle.new B ks n2 = .ok fk → fk.clone B g1 g2 = .panic) ∧
    ∀ fk, Ark.FKMulti.new B ks n2 l = .ok fk → fk.clone B g1 g2 = .panic := by
  have hw := h.wf hB
  have key : (keptSettings B ks).clone B g1 g2 = .panic := by
    unfold Ark.Settings.clone
    rw [settingsClone_eq, Res.bind_ok]
    show (Ark.newSettings B g1 g2 [] _ _ _).unwrap = .panic
    rw [new_nil]; rfl
  constructor
  · intro fk hfk
    by_cases hn : ∃ m, m < scale ∧ n2 = 2 ^ (m + 1)
    · obtain ⟨m, hm, rfl⟩ := hn
      rw [Ark.single_new hB hw hm (Ark.single_L hw hm hfk)] at hfk
      cases hfk
      unfold Ark.FKSingle.clone
      rw [key, Res.bind_panic]
    · obtain ⟨msg, h1⟩ := (C129_settings_new hB h n2).2 hn
      rw [h1] at hfk; cases hfk
  · intro fk hfk
    by_cases hn : ∃ m c, m + c < scale ∧ n2 = 2 ^ (m + c + 1) ∧ l = 2 ^ c
    · obtain ⟨m, c, hm, rfl, rfl⟩ := hn
      rw [Ark.multi_new hB hw hm (Ark.multi_L hw hm hfk)] at hfk
      cases hfk
      unfold Ark.FKMulti.clone
      rw [key, Res.bind_panic]
    · obtain ⟨msg, h1⟩ := (C130_settings_new hB h n2 l).2 hn
      rw [h1] at hfk; cases hfk

/-- C131 (defaults): default settings refuse every polynomial with an error and panic when cloned. -/
theorem C131_defaults (B : Ark.Backend P G1 G2 GT) (g1 : G1) (g2 : G2) (p : List Fr) :
    (∃ msg, (Ark.FKSingle.default B).da p = .err msg) ∧ (∃ msg, (Ark.FKMulti.default B).da p = .err msg) ∧
      (Ark.FKSingle.default B).clone B g1 g2 = .panic ∧ (Ark.FKMulti.default B).clone B g1 g2 = .panic := by
  have key := (C126_default B g1 g2).2.2.2
  refine ⟨?_, ?_, ?_, ?_⟩
  · unfold Ark.FKSingle.da
    simp only
    cases p with
    | nil => exact ⟨_, rfl⟩
    | cons a p => rw [if_pos (by show 0 < _; simp)]; exact ⟨_, rfl⟩
  · unfold Ark.FKMulti.da
    simp only
    cases p with
    | nil => exact ⟨_, rfl⟩
    | cons a p => rw [if_pos (by show 0 < _; simp)]; exact ⟨_, rfl⟩
  · show (Ark.Settings.clone B g1 g2 (Ark.defaultSettings B) >>= _) = _
    rw [key]; rfl
  · show (Ark.Settings.clone B g1 g2 (Ark.defaultSettings B) >>= _) = _
    rw [key]; rfl

/-- C131 (defaults): they hold no points, in both kinds, and the default settings for commitments. -/
theorem C131_default_fields (B : Ark.Backend P G1 G2 GT) :
    Ark.FKSingle.default B = ⟨Ark.defaultSettings B, [], 0⟩ ∧
      Ark.FKMulti.default B = ⟨Ark.defaultSettings B, 0, [], 0⟩ := ⟨rfl, rfl⟩

/-- C131 (negation): not every accepted polynomial gets its proofs. -/
theorem C131_full_statement_false :
    ¬ ∀ (L scale n2 : Nat) (ks : Ark.Settings (Unit ⊕ Fr) Fr Fr) (s : Fr) (fk : Ark.FKSingle (Unit ⊕ Fr) Fr Fr),
      ArkMade arkToy ks 1 1 L scale s → Ark.FKSingle.new arkToy ks n2 = .ok fk → ∀ (p proofs : List Fr),
      fk.daOptimized p = .ok proofs →
      ∀ j : Nat, ∃ x, ∀ proof, proofs[j]? = some proof → ks.computeSingle p x = .ok proof := by
  intro hall
  obtain ⟨ks, h⟩ := arkMade_exists arkToy_lawful (Sum.inl ()) 2 4 (by norm_num)
  obtain ⟨fk, hfk, -⟩ := ((C129_settings_new arkToy_lawful h 4).1 1 (by norm_num) (by norm_num)).1 (by norm_num)
  obtain ⟨h1, h2⟩ := C131_shorter_wrong arkToy_lawful h (by norm_num) (by norm_num) hfk 1
  obtain ⟨x, hx⟩ := hall _ _ 4 ks _ fk h hfk [1] _ h1 0
  have := hx _ rfl
  rw [h2 x] at this
  have := Res.ok.inj this
  simp at this

end Kzg.Props
