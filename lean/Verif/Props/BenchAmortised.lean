import Verif.Model.BenchAmortised
import Verif.Props.FK20
import Verif.Props.MclFK20
import Verif.Props.ArkFK20
import Verif.Props.ZkFK20Short
/-!
# Property C200: the benchmarks of amortised proofs, and the polynomial they share with the tests
-/

set_option linter.unusedSectionVars false

namespace Kzg.Props
open Kzg Kzg.Res Kzg.Bench Kzg.Zk

/-! ### The polynomial -/

section
variable {F : Type} [Zero F] [Neg F]

/-- The coefficient at `k` for a counter `t`: the number `k mod 16` of the table, plus `t` in column 3, plus `t²` in column 5, negated in
columns 12 and 14. -/
def patternCoeff (fromU64 : Nat → F) (t k : Nat) : F :=
  let v := patternValues.getD (k % 16) 0
  if k % 16 = 3 then fromU64 ((v + t) % 2 ^ 64)
  else if k % 16 = 5 then fromU64 ((v + t * t) % 2 ^ 64)
  else if k % 16 = 12 ∨ k % 16 = 14 then -fromU64 v
  else fromU64 v

theorem patternStep_eq (fromU64 : Nat → F) (l i j : Nat) (p : List F) (hlt : i * l + j < p.length) :
    patternStep fromU64 l i j p = .ok (p.set (i * l + j) (patternCoeff fromU64 (i * l / 16) (i * l + j))) := by
  unfold patternStep patternCoeff
  generalize i * l / 16 = t
  generalize i * l + j = k at *
  have hk : k % 16 < 16 := Nat.mod_lt _ (by norm_num)
  have hv : rd patternValues (k % 16) = .ok (patternValues.getD (k % 16) 0) := by
    rw [rd_of_lt (by simpa [patternValues] using hk)]
    congr 1
    rw [List.getD_eq_getElem?_getD, List.getElem?_eq_getElem (by simpa [patternValues] using hk)]
    rfl
  simp only [hv, bind_ok]
  by_cases h3 : k % 16 = 3
  · simp [h3, wr_of_lt hlt]
  by_cases h5 : k % 16 = 5
  · simp [h5, wr_of_lt hlt]
  rw [if_neg h3, if_neg h5, if_neg h3, if_neg h5, wr_of_lt hlt, bind_ok]
  have hs : ∀ x : F, rd (p.set k x) k = .ok x := fun x => rd_of_getElem? (by rw [List.getElem?_set_self hlt])
  have hw : ∀ x y : F, wr (p.set k x) k y = .ok (p.set k y) := fun x y => by
    rw [wr_of_lt (by simpa using hlt), List.set_set]
  by_cases h12 : k % 16 = 12
  · rw [if_pos h12, hs, bind_ok, hw, bind_ok, if_neg (by omega), if_pos (Or.inl h12)]
  · rw [if_neg h12]
    by_cases h14 : k % 16 = 14
    · rw [if_pos h14, hs, bind_ok, hw, if_pos (Or.inr h14)]
    · rw [if_neg h14, if_neg (by omega)]

/-- C200 (polynomial): for a length `n` that is a multiple of `l ≥ 1` the loops give `n` coefficients, and the counter at place `k` is
the start of its chunk divided by 16. -/
theorem C200_pattern (fromU64 : Nat → F) {n l : Nat} (hl : 0 < l) (hn : l ∣ n) :
    ∃ p, patternPoly fromU64 n l = .ok p ∧ p.length = n ∧ ∀ k < n, p[k]? = some (patternCoeff fromU64 (k / l * l / 16) k) := by
  obtain ⟨c, rfl⟩ := hn
  have hd : l * c / l = c := Nat.mul_div_cancel_left _ hl
  unfold patternPoly
  have hdiv : divU (l * c) l = .ok c := by
    rw [divU, if_neg (by omega), hd]
  rw [hdiv, bind_ok]
  have h := forRange_inv (lo := 0) (hi := c) (s := List.replicate (l * c) (0 : F))
    (body := fun i p => forRange 0 l p fun j p => patternStep fromU64 l i j p)
    (fun i p => p.length = l * c ∧ ∀ k < i * l, p[k]? = some (patternCoeff fromU64 (k / l * l / 16) k))
    (Nat.zero_le _) ⟨List.length_replicate .., by simp⟩ ?_
  · obtain ⟨p, e, h1, h2⟩ := h
    exact ⟨p, e, h1, fun k hk => h2 k (by rwa [mul_comm] at hk)⟩
  · rintro i p - hi ⟨h1, h2⟩
    have hle : (i + 1) * l ≤ l * c := by rw [mul_comm l c]; exact Nat.mul_le_mul_right _ hi
    have h := forRange_inv (lo := 0) (hi := l) (s := p) (body := fun j p => patternStep fromU64 l i j p)
      (fun j p => p.length = l * c ∧ ∀ k < i * l + j, p[k]? = some (patternCoeff fromU64 (k / l * l / 16) k))
      (Nat.zero_le _) ⟨h1, by simpa using h2⟩ ?_
    · exact h.mono fun q hq => ⟨hq.1, by rw [add_mul, one_mul]; exact hq.2⟩
    · rintro j q - hj ⟨h3, h4⟩
      have hlt : i * l + j < q.length := by rw [h3]; rw [add_mul, one_mul] at hle; omega
      rw [patternStep_eq fromU64 l i j q hlt]
      refine Sat.ok ⟨by rw [List.length_set, h3], fun k hk => ?_⟩
      rcases Nat.lt_or_ge k (i * l + j) with hk' | hk'
      · rw [List.getElem?_set_ne (by omega)]
        exact h4 k hk'
      · have : k = i * l + j := by omega
        subst this
        rw [List.getElem?_set_self hlt]
        have : (i * l + j) / l = i := by
          rw [mul_comm, Nat.mul_add_div hl, Nat.div_eq_of_lt hj, add_zero]
        rw [this]

/-- C200 (partial): the polynomial does not depend on the chunk length, as its comment says, as long as that divides 16, which it does in
all the shared tests. Missing: longer chunks, for which the comment is wrong (`C200_pattern_depends`); the benchmarks take 32. -/
theorem C200_pattern_independent_partial (fromU64 : Nat → F) {n l : Nat} (hl : l ∣ 16) (hn : 16 ∣ n) :
    ∃ p, patternPoly fromU64 n l = .ok p ∧ p.length = n ∧ ∀ k < n, p[k]? = some (patternCoeff fromU64 (k / 16) k) := by
  obtain ⟨p, e, h1, h2⟩ := C200_pattern fromU64 (Nat.pos_of_dvd_of_pos hl (by norm_num)) (hl.trans hn)
  refine ⟨p, e, h1, fun k hk => ?_⟩
  rw [h2 k hk]
  obtain ⟨d, hd⟩ := hl
  have hl0 : 0 < l := Nat.pos_of_ne_zero (by rintro rfl; omega)
  have hle : l ≤ 16 := Nat.le_of_dvd (by norm_num) ⟨d, hd⟩
  have : k / l * l / 16 = k / 16 := by
    rw [hd, ← Nat.div_div_eq_div_mul, Nat.mul_div_cancel _ hl0, Nat.div_div_eq_div_mul]
  rw [this]

/-- C200 (polynomial of long chunks): with chunks of `16 · d` the counter stays the same over the whole chunk. -/
theorem C200_pattern_long (fromU64 : Nat → F) {n d : Nat} (hd : 0 < d) (hn : 16 * d ∣ n) :
    ∃ p, patternPoly fromU64 n (16 * d) = .ok p ∧ p.length = n ∧
      ∀ k < n, p[k]? = some (patternCoeff fromU64 (k / (16 * d) * d) k) := by
  obtain ⟨p, e, h1, h2⟩ := C200_pattern fromU64 (by omega) hn
  refine ⟨p, e, h1, fun k hk => ?_⟩
  rw [h2 k hk, show k / (16 * d) * (16 * d) / 16 = k / (16 * d) * d by
    rw [mul_left_comm, Nat.mul_div_cancel_left _ (by norm_num)]]

/-- C200 (refutation of the comment): with chunks of 32 the coefficient at 19 is the table's 4, with chunks of 16 it is 5. -/
theorem C200_pattern_depends (fromU64 : Nat → F) (h : fromU64 4 ≠ fromU64 5) {n : Nat} (hn : 32 ∣ n) (h0 : 0 < n) :
    patternPoly fromU64 n 32 ≠ patternPoly fromU64 n 16 := by
  obtain ⟨p, e, -, h1⟩ := C200_pattern_long fromU64 (d := 2) (by norm_num) hn
  obtain ⟨q, e', -, h2⟩ := C200_pattern_independent_partial fromU64 (l := 16) dvd_rfl ((by norm_num : 16 ∣ 32).trans hn)
  have hn32 := Nat.le_of_dvd h0 hn
  rw [e', show patternPoly fromU64 n 32 = _ from e]
  intro hpq
  cases hpq
  have := (h1 19 (by omega)).symm.trans (h2 19 (by omega))
  simp only [Option.some.injEq] at this
  exact h (by simpa [patternCoeff, patternValues] using this)

end

/-! ### The benchmarks -/

section
variable {F P S1 S2 : Type}

theorem fkSingleBench_ok {A : Nat → Nat → FkApi F P S1 S2} {m : Nat} {coeff : F} {fk : S1} {com : P} {proofs : List P} (timeOpt : Bool)
    (hn : (A (2 ^ (m + 1) + 1) (m + 1)).singleNew (2 ^ (m + 1)) = .ok fk)
    (hc : (A (2 ^ (m + 1) + 1) (m + 1)).commit (List.replicate (2 ^ m) coeff) = .ok com)
    (hd : (if timeOpt then (A (2 ^ (m + 1) + 1) (m + 1)).singleOpt fk (List.replicate (2 ^ m) coeff)
      else (A (2 ^ (m + 1) + 1) (m + 1)).singleDa fk (List.replicate (2 ^ m) coeff)) = .ok proofs) :
    fkSingleBench A timeOpt (m + 1) coeff = .ok proofs := by
  have h2 : 2 * 2 ^ m = 2 ^ (m + 1) := by rw [pow_succ]; ring
  unfold fkSingleBench
  simp only [subU_of_le (show 1 ≤ m + 1 by omega), Nat.add_sub_cancel, bind_ok, List.length_replicate, h2, le_refl, decide_true, assertT,
    if_true, hn, unwrap_ok, hc, hd]

theorem benchIsPow2_two_pow (k : Nat) : benchIsPow2 (2 ^ k) = .ok true := by
  unfold benchIsPow2
  rw [subU_of_le Nat.one_le_two_pow, bind_ok, Nat.and_two_pow_sub_one_eq_mod, Nat.mod_self]
  rfl

theorem fkMultiBench_ok [Zero F] [Neg F] {fromU64 : Nat → F} {A : Nat → Nat → FkApi F P S1 S2} {m c : Nat} (h4 : 4 ≤ m + c)
    (h31 : m + c + 1 < 32) {fk : S2} {p : List F} {com : P} {proofs : List P} (optimized : Bool)
    (hn : (A (2 ^ (m + c + 1)) (m + c + 1)).multiNew (2 ^ (m + c + 1)) (2 ^ c) = .ok fk)
    (hp : patternPoly fromU64 (2 ^ (m + c)) (2 ^ c) = .ok p)
    (hc : (A (2 ^ (m + c + 1)) (m + c + 1)).commit p = .ok com)
    (hd : (if optimized then (A (2 ^ (m + c + 1)) (m + c + 1)).multiOpt fk p
      else (A (2 ^ (m + c + 1)) (m + c + 1)).multiDa fk p) = .ok proofs) :
    fkMultiBench fromU64 A (2 ^ c) optimized (m + c) = .ok proofs := by
  have h2 : 2 * 2 ^ (m + c) = 2 ^ (m + c + 1) := by rw [pow_succ]; ring
  have h16 : 2 ^ (m + c) % 16 = 0 := Nat.mod_eq_zero_of_dvd (pow_dvd_pow 2 h4)
  have hle : 2 ^ c ≤ 2 ^ (m + c) := Nat.pow_le_pow_right (by norm_num) (by omega)
  have hlt : 2 ^ (m + c + 1) < 2 ^ 32 := Nat.pow_lt_pow_right (by norm_num) h31
  unfold fkMultiBench
  simp only [benchIsPow2_two_pow, bind_ok, assertT, if_true, h16, hle, decide_true, h2, Nat.mod_eq_of_lt hlt, C33_log2_pow2 _ h31, hn,
    unwrap_ok, hp, hc, hd]

/-- C200 (timed call): for every implementation, the benchmark named after the optimised call and chunks of 32 does what the plain one does. -/
theorem C200_same_benchmark [Zero F] [Neg F] (fromU64 : Nat → F) (A : Nat → Nat → FkApi F P S1 S2) (i : Nat) :
    fkMultiDaChunk32OptimizedBench fromU64 A i = fkMultiDaChunk32Bench fromU64 A i ∧
    fkMultiDaChunk32OptimizedBench fromU64 A i = fkMultiBench fromU64 A 32 false i := ⟨rfl, rfl⟩

/-- C200 (refutation): so it does not time the optimised call. Of an implementation whose plain call fails and whose optimised call answers it
sees the failure, at every scale from 5 to 30. -/
theorem C200_optimized_not_timed [Zero F] [Neg F] (fromU64 : Nat → F) (a : P) (t : S1) (u : S2) {i : Nat} (h5 : 5 ≤ i) (h30 : i ≤ 30) :
    ∃ A : Nat → Nat → FkApi F P S1 S2, fkMultiBench fromU64 A 32 true i = .ok [a] ∧
      fkMultiDaChunk32OptimizedBench fromU64 A i = .panic := by
  obtain ⟨m, rfl⟩ : ∃ m, i = m + 5 := ⟨i - 5, by omega⟩
  obtain ⟨p, hp, -, -⟩ := C200_pattern fromU64 (n := 2 ^ (m + 5)) (l := 2 ^ 5) (by norm_num) (pow_dvd_pow 2 (by omega))
  have h2 : 2 * 2 ^ (m + 5) = 2 ^ (m + 5 + 1) := by rw [pow_succ 2 (m + 5)]; ring
  have h16 : 2 ^ (m + 5) % 16 = 0 := Nat.mod_eq_zero_of_dvd (pow_dvd_pow 2 (show 4 ≤ m + 5 by omega))
  have hle : 2 ^ 5 ≤ 2 ^ (m + 5) := Nat.pow_le_pow_right (by norm_num) (by omega)
  let A : Nat → Nat → FkApi F P S1 S2 := fun _ _ =>
    { commit := fun _ => .ok a, singleNew := fun _ => .ok t, singleDa := fun _ _ => .panic, singleOpt := fun _ _ => .panic,
      multiNew := fun _ _ => .ok u, multiDa := fun _ _ => .panic, multiOpt := fun _ _ => .ok [a] }
  refine ⟨A, fkMultiBench_ok (c := 5) (fk := u) (com := a) (by omega) (by omega) true rfl hp rfl rfl, ?_⟩
  unfold fkMultiDaChunk32OptimizedBench
  rw [show (32 : Nat) = 2 ^ 5 by norm_num]
  unfold fkMultiBench
  simp only [benchIsPow2_two_pow, bind_ok, assertT, if_true, h16, hle, decide_true, hp]
  rfl

end

section
variable {G1 G2 GT : Type} [AddCommGroup G1] [Module Fr G1] [AddCommGroup G2] [Module Fr G2] [CommGroup GT] [DecidableEq GT]

theorem pow_le_setup (m : Nat) : 2 ^ m ≤ 2 ^ (m + 1) := Nat.pow_le_pow_right (by norm_num) (by omega)

theorem multi_setup (m c : Nat) : (2 ^ m - 1) * 2 ^ c ≤ 2 ^ (m + c + 1) := by
  have h : (2 ^ m - 1) * 2 ^ c ≤ 2 ^ m * 2 ^ c := Nat.mul_le_mul_right _ (Nat.sub_le _ _)
  rw [← pow_add] at h
  exact h.trans (pow_le_setup _)

/-- C200 (single, blst-from-scratch): at every scale and for every random number the two benchmarks end, each with `2^scale` proofs, and
those of the plain one are those of the optimised one in bit-reversed order. -/
theorem C200_single_blst {B : Backend G1 G2 GT} {g1 : G1} {g2 : G2} (hB : B.Lawful g1 g2) {ks : KZGSettings Fr G1 G2} {m : Nat} {s : Fr}
    (h : MadeFrom ks g1 g2 (2 ^ (m + 1) + 1) (m + 1) s) (hinf : s ≠ 0 ∨ B.MsmTotal)
    {A : Nat → Nat → FkApi Fr G1 (FK20Single Fr G1 G2) (FK20Multi Fr G1 G2)} (hA : A (2 ^ (m + 1) + 1) (m + 1) = blstFk B ks) (coeff : Fr) :
    ∃ proofs out, fkSingleDaOptimizedBench A (m + 1) coeff = .ok proofs ∧ fkSingleDaBench A (m + 1) coeff = .ok out ∧
      out.length = 2 ^ (m + 1) ∧ ∀ j < 2 ^ (m + 1), ∃ r, IsBitReversal (m + 1) j r ∧ out[r]? = proofs[j]? := by
  have hl : (List.replicate (2 ^ m) coeff).length = 2 ^ m := List.length_replicate ..
  obtain ⟨fk, hfk, -⟩ := (C30_settings_new h (2 ^ (m + 1))).1 ⟨m, by omega, rfl⟩
  obtain ⟨proofs, out, e1, e2, e3, e4⟩ := C30_fk20_single_order h (by omega) hfk _ hl
  have hc := C25_commit hB h (List.replicate (2 ^ m) coeff) (by have := pow_le_setup m; omega) (hinf.imp_right Or.inr)
  exact ⟨proofs, out, fkSingleBench_ok true (by rw [hA]; exact hfk) (by rw [hA]; exact hc) (by rw [hA]; exact e1),
    fkSingleBench_ok false (by rw [hA]; exact hfk) (by rw [hA]; exact hc) (by rw [hA]; exact e2), e3, e4⟩

/-- C200 (multi, blst-from-scratch): at every scale from 5 to 30 the two benchmarks of chunks of 32 end with the `2n / 32` proofs of the
plain call, which are those of the optimised call in bit-reversed order. -/
theorem C200_multi_blst {B : Backend G1 G2 GT} {g1 : G1} {g2 : G2} (hB : B.Lawful g1 g2) {ks : KZGSettings Fr G1 G2} {m : Nat} {s : Fr}
    (hm : m + 5 ≤ 30) (h : MadeFrom ks g1 g2 (2 ^ (m + 5 + 1)) (m + 5 + 1) s) (hinf : s ≠ 0 ∨ B.MsmTotal)
    {A : Nat → Nat → FkApi Fr G1 (FK20Single Fr G1 G2) (FK20Multi Fr G1 G2)} (hA : A (2 ^ (m + 5 + 1)) (m + 5 + 1) = blstFk B ks)
    (fromU64 : Nat → Fr) :
    ∃ proofs out, fkMultiBench fromU64 A 32 true (m + 5) = .ok proofs ∧ fkMultiDaChunk32Bench fromU64 A (m + 5) = .ok out ∧
      fkMultiDaChunk32OptimizedBench fromU64 A (m + 5) = .ok out ∧
      out.length = 2 ^ (m + 1) ∧ ∀ j < 2 ^ (m + 1), ∃ r, IsBitReversal (m + 1) j r ∧ out[r]? = proofs[j]? := by
  obtain ⟨p, hp, hl, -⟩ := C200_pattern fromU64 (n := 2 ^ (m + 5)) (l := 2 ^ 5) (by norm_num) (pow_dvd_pow 2 (by omega))
  obtain ⟨fk, hfk, -⟩ := (C31_settings_new h (2 ^ (m + 5 + 1)) (2 ^ 5)).1 ⟨m, 5, by omega, rfl, rfl⟩
  obtain ⟨proofs, out, e1, e2, e3, e4⟩ := C31_fk20_multi_order h (m := m) (c := 5) (by omega) hfk p hl
  have hc := C25_commit hB h p (by have := pow_le_setup (m + 5); omega) (hinf.imp_right Or.inr)
  have ho : fkMultiBench fromU64 A 32 false (m + 5) = .ok out :=
    fkMultiBench_ok (m := m) (c := 5) (by omega) (by omega) false (by rw [hA]; exact hfk) hp (by rw [hA]; exact hc) (by rw [hA]; exact e2)
  exact ⟨proofs, out, fkMultiBench_ok (m := m) (c := 5) (by omega) (by omega) true (by rw [hA]; exact hfk) hp (by rw [hA]; exact hc)
    (by rw [hA]; exact e1), ho, ho, e3, e4⟩

/-- C200 (single, mcl-kzg). -/
theorem C200_single_mcl [Mcl.Lib Fr] {B : Mcl.Backend G1 G2 GT} {g1 : G1} {g2 : G2} (hB : B.Lawful g1 g2) {ks : KZGSettings Fr G1 G2}
    {m : Nat} {s : Fr} (h : MclMade ks g1 g2 (2 ^ (m + 1) + 1) (m + 1) s)
    {A : Nat → Nat → FkApi Fr G1 (FK20Single Fr G1 G2) (FK20Multi Fr G1 G2)} (hA : A (2 ^ (m + 1) + 1) (m + 1) = mclFk B ks) (coeff : Fr) :
    ∃ proofs out, fkSingleDaOptimizedBench A (m + 1) coeff = .ok proofs ∧ fkSingleDaBench A (m + 1) coeff = .ok out ∧
      out.length = 2 ^ (m + 1) ∧ ∀ j < 2 ^ (m + 1), ∃ r, IsBitReversal (m + 1) j r ∧ out[r]? = proofs[j]? := by
  have hl : (List.replicate (2 ^ m) coeff).length = 2 ^ m := List.length_replicate ..
  have hle := pow_le_setup m
  obtain ⟨fk, hfk, -⟩ := ((C110_settings_new h (2 ^ (m + 1))).1 m (by omega) rfl).1 (by omega)
  obtain ⟨proofs, out, e1, e2, e3, e4⟩ := C110_fk20_single_order h (by omega) hfk _ hl
  have hc := (C108_commit hB h (List.replicate (2 ^ m) coeff)).1 (by omega)
  exact ⟨proofs, out, fkSingleBench_ok true (by rw [hA]; exact hfk) (by rw [hA]; exact hc) (by rw [hA]; exact e1),
    fkSingleBench_ok false (by rw [hA]; exact hfk) (by rw [hA]; exact hc) (by rw [hA]; exact e2), e3, e4⟩

/-- C200 (multi, mcl-kzg): both benchmarks end with the `2n / 32` proofs of the plain call. -/
theorem C200_multi_mcl [Mcl.Lib Fr] {B : Mcl.Backend G1 G2 GT} {g1 : G1} {g2 : G2} (hB : B.Lawful g1 g2) {ks : KZGSettings Fr G1 G2}
    {m : Nat} {s : Fr} (hm : m + 5 ≤ 30) (h : MclMade ks g1 g2 (2 ^ (m + 5 + 1)) (m + 5 + 1) s)
    {A : Nat → Nat → FkApi Fr G1 (FK20Single Fr G1 G2) (FK20Multi Fr G1 G2)} (hA : A (2 ^ (m + 5 + 1)) (m + 5 + 1) = mclFk B ks)
    (fromU64 : Nat → Fr) :
    ∃ out, fkMultiDaChunk32Bench fromU64 A (m + 5) = .ok out ∧ fkMultiDaChunk32OptimizedBench fromU64 A (m + 5) = .ok out ∧
      out.length = 2 ^ (m + 1) := by
  obtain ⟨p, hp, hl, -⟩ := C200_pattern fromU64 (n := 2 ^ (m + 5)) (l := 2 ^ 5) (by norm_num) (pow_dvd_pow 2 (by omega))
  obtain ⟨fk, hfk, -⟩ := ((C111_settings_new h (2 ^ (m + 5 + 1)) (2 ^ 5)).1 m 5 (by omega) rfl rfl).1 (multi_setup m 5)
  obtain ⟨-, out, -, e2, e3, -⟩ := C111_fk20_multi_order h (m := m) (c := 5) (by omega) hfk p (List.replicate (2 ^ (m + 5)) 0) hl
    (List.length_replicate ..)
  have hc := (C108_commit hB h p).1 (by have := pow_le_setup (m + 5); omega)
  have ho : fkMultiBench fromU64 A 32 false (m + 5) = .ok out :=
    fkMultiBench_ok (m := m) (c := 5) (by omega) (by omega) false (by rw [hA]; exact hfk) hp (by rw [hA]; exact hc) (by rw [hA]; exact e2)
  exact ⟨out, ho, ho, e3⟩

/-- C200 (single, Arkworks). -/
theorem C200_single_ark {P : Type} {B : Ark.Backend P G1 G2 GT} {g1 : G1} {g2 : G2} (hB : B.Lawful g1 g2) {ks : Ark.Settings P G1 G2}
    {m : Nat} {s : Fr} (h : ArkMade B ks g1 g2 (2 ^ (m + 1) + 1) (m + 1) s)
    {A : Nat → Nat → FkApi Fr G1 (Ark.FKSingle P G1 G2) (Ark.FKMulti P G1 G2)} (hA : A (2 ^ (m + 1) + 1) (m + 1) = arkFk B ks) (coeff : Fr) :
    ∃ proofs out, fkSingleDaOptimizedBench A (m + 1) coeff = .ok proofs ∧ fkSingleDaBench A (m + 1) coeff = .ok out ∧
      out.length = 2 ^ (m + 1) ∧ ∀ j < 2 ^ (m + 1), ∃ r, IsBitReversal (m + 1) j r ∧ out[r]? = proofs[j]? := by
  have hl : (List.replicate (2 ^ m) coeff).length = 2 ^ m := List.length_replicate ..
  have hle := pow_le_setup m
  obtain ⟨fk, hfk, -⟩ := ((C129_settings_new hB h (2 ^ (m + 1))).1 m (by omega) rfl).1 (by omega)
  obtain ⟨proofs, out, e1, e2, e3, e4⟩ := C129_fk20_single_order hB h (by omega) hfk _ hl
  have hc := (C127_commit hB h (List.replicate (2 ^ m) coeff)).1 (by omega) (by omega)
  exact ⟨proofs, out, fkSingleBench_ok true (by rw [hA]; exact hfk) (by rw [hA]; exact hc) (by rw [hA]; exact e1),
    fkSingleBench_ok false (by rw [hA]; exact hfk) (by rw [hA]; exact hc) (by rw [hA]; exact e2), e3, e4⟩

/-- C200 (multi, Arkworks). -/
theorem C200_multi_ark {P : Type} {B : Ark.Backend P G1 G2 GT} {g1 : G1} {g2 : G2} (hB : B.Lawful g1 g2) {ks : Ark.Settings P G1 G2}
    {m : Nat} {s : Fr} (hm : m + 5 ≤ 30) (h : ArkMade B ks g1 g2 (2 ^ (m + 5 + 1)) (m + 5 + 1) s)
    {A : Nat → Nat → FkApi Fr G1 (Ark.FKSingle P G1 G2) (Ark.FKMulti P G1 G2)} (hA : A (2 ^ (m + 5 + 1)) (m + 5 + 1) = arkFk B ks)
    (fromU64 : Nat → Fr) :
    ∃ proofs out, fkMultiBench fromU64 A 32 true (m + 5) = .ok proofs ∧ fkMultiDaChunk32Bench fromU64 A (m + 5) = .ok out ∧
      fkMultiDaChunk32OptimizedBench fromU64 A (m + 5) = .ok out ∧
      out.length = 2 ^ (m + 1) ∧ ∀ j < 2 ^ (m + 1), ∃ r, IsBitReversal (m + 1) j r ∧ out[r]? = proofs[j]? := by
  obtain ⟨p, hp, hl, -⟩ := C200_pattern fromU64 (n := 2 ^ (m + 5)) (l := 2 ^ 5) (by norm_num) (pow_dvd_pow 2 (by omega))
  have hle := pow_le_setup (m + 5)
  have hpos : 0 < 2 ^ (m + 5) := by positivity
  obtain ⟨fk, hfk, -⟩ := ((C130_settings_new hB h (2 ^ (m + 5 + 1)) (2 ^ 5)).1 m 5 (by omega) rfl rfl).1
    ((multi_setup m 5).trans (Nat.le_succ _))
  obtain ⟨proofs, out, e1, e2, e3, e4⟩ := C130_fk20_multi_order hB h (m := m) (c := 5) (by omega) hfk p hl
  have hc := (C127_commit hB h p).1 (by omega) (by omega)
  have ho : fkMultiBench fromU64 A 32 false (m + 5) = .ok out :=
    fkMultiBench_ok (m := m) (c := 5) (by omega) (by omega) false (by rw [hA]; exact hfk) hp (by rw [hA]; exact hc) (by rw [hA]; exact e2)
  exact ⟨proofs, out, fkMultiBench_ok (m := m) (c := 5) (by omega) (by omega) true (by rw [hA]; exact hfk) hp (by rw [hA]; exact hc)
    (by rw [hA]; exact e1), ho, ho, e3, e4⟩

end

/-- C200 (single, zkcrypto, release). -/
theorem C200_single_zk {chk : Bool} {ks : Top.Settings} {m : Nat} {s : ScW} (h : ZkMadeFrom chk ks (2 ^ (m + 1) + 1) (m + 1) s)
    {A : Nat → Nat → FkApi ScW G1.Proj (FK20Single ScW G1.Proj G2.Proj) (FK20Multi ScW G1.Proj G2.Proj)}
    (hA : A (2 ^ (m + 1) + 1) (m + 1) = zkFk false ks) (coeff : ScW) :
    ∃ proofs out, fkSingleDaOptimizedBench A (m + 1) coeff = .ok proofs ∧ fkSingleDaBench A (m + 1) coeff = .ok out ∧
      out.length = 2 ^ (m + 1) ∧ ∀ j < 2 ^ (m + 1), ∃ r, IsBitReversal (m + 1) j r ∧ out[r]? = proofs[j]? := by
  have hl : (List.replicate (2 ^ m) coeff).length = 2 ^ m := List.length_replicate ..
  have hle := pow_le_setup m
  have hlt := h.setup.2.lt
  obtain ⟨fk, proofs, hfk, e1, hl'⟩ := C91_release h (m := m) (by omega) (by omega) hl
  obtain ⟨out, e2, e3, e4⟩ := C91_order false fk (by omega) _ hl' e1
  obtain ⟨com, hc, -⟩ := C87_commit h (List.replicate (2 ^ m) coeff) (by omega)
  exact ⟨proofs, out, fkSingleBench_ok true (by rw [hA]; exact hfk) (by rw [hA]; exact hc) (by rw [hA]; exact e1),
    fkSingleBench_ok false (by rw [hA]; exact hfk) (by rw [hA]; exact hc) (by rw [hA]; exact e2), e3, e4⟩

/-- C200 (multi, zkcrypto, release). -/
theorem C200_multi_zk {chk : Bool} {ks : Top.Settings} {m : Nat} {s : ScW} (hm : m + 5 ≤ 30)
    (h : ZkMadeFrom chk ks (2 ^ (m + 5 + 1)) (m + 5 + 1) s)
    {A : Nat → Nat → FkApi ScW G1.Proj (FK20Single ScW G1.Proj G2.Proj) (FK20Multi ScW G1.Proj G2.Proj)}
    (hA : A (2 ^ (m + 5 + 1)) (m + 5 + 1) = zkFk false ks) (fromU64 : Nat → ScW) :
    ∃ proofs out, fkMultiBench fromU64 A 32 true (m + 5) = .ok proofs ∧ fkMultiDaChunk32Bench fromU64 A (m + 5) = .ok out ∧
      fkMultiDaChunk32OptimizedBench fromU64 A (m + 5) = .ok out ∧
      out.length = 2 ^ (m + 1) ∧ ∀ j < 2 ^ (m + 1), ∃ r, IsBitReversal (m + 1) j r ∧ out[r]? = proofs[j]? := by
  obtain ⟨p, hp, hl, -⟩ := C200_pattern fromU64 (n := 2 ^ (m + 5)) (l := 2 ^ 5) (by norm_num) (pow_dvd_pow 2 (by omega))
  have hle := pow_le_setup (m + 5)
  obtain ⟨fk, proofs, hfk, e1, hl'⟩ := C92_release h (m := m) (c := 5) (by omega) (multi_setup m 5) hl
  obtain ⟨out, e2, e3, e4⟩ := C92_order false fk (m := m) (by omega) p hl' e1
  obtain ⟨com, hc, -⟩ := C87_commit h p (by omega)
  have ho : fkMultiBench fromU64 A 32 false (m + 5) = .ok out :=
    fkMultiBench_ok (m := m) (c := 5) (by omega) (by omega) false (by rw [hA]; exact hfk) hp (by rw [hA]; exact hc) (by rw [hA]; exact e2)
  exact ⟨proofs, out, fkMultiBench_ok (m := m) (c := 5) (by omega) (by omega) true (by rw [hA]; exact hfk) hp (by rw [hA]; exact hc)
    (by rw [hA]; exact e1), ho, ho, e3, e4⟩

/-! ### Examples -/

/-- The scale 5 of the loops, in the toy group and in zkcrypto: 32 single proofs and two proofs of chunks. -/
example :
    (∃ (ks : KZGSettings Fr Fr Fr) (out : List Fr), fkSingleDaBench (fun _ _ => blstFk toyBackend ks) 5 7 = .ok out ∧ out.length = 32) ∧
    (∃ (ks : KZGSettings Fr Fr Fr) (out : List Fr),
      fkMultiDaChunk32OptimizedBench (fun n => (n : Fr)) (fun _ _ => blstFk toyBackend ks) 5 = .ok out ∧ out.length = 2) ∧
    ∃ ks out, fkSingleDaOptimizedBench (fun _ _ => zkFk false ks) 5 7 = .ok out ∧ fkSingleDaBench (fun _ _ => zkFk false ks) 5 7 ≠ .panic := by
  refine ⟨?_, ?_, ?_⟩
  · obtain ⟨ks, h⟩ := madeFrom_exists (1 : Fr) (1 : Fr) 5 33 (by norm_num) (by norm_num) [3]
    obtain ⟨-, out, -, e, hl, -⟩ := C200_single_blst (m := 4) toyBackend_lawful h (Or.inr fun _ _ _ => rfl)
      (A := fun _ _ => blstFk toyBackend ks) rfl 7
    exact ⟨ks, out, e, hl⟩
  · obtain ⟨ks, h⟩ := madeFrom_exists (1 : Fr) (1 : Fr) 6 64 (by norm_num) (by norm_num) [3]
    obtain ⟨-, out, -, -, e, hl, -⟩ := C200_multi_blst (m := 0) toyBackend_lawful (by norm_num) h (Or.inr fun _ _ _ => rfl)
      (A := fun _ _ => blstFk toyBackend ks) rfl fun n => (n : Fr)
    exact ⟨ks, out, e, hl⟩
  · obtain ⟨ks, s, h, -⟩ := zkMadeFrom_exists false (N := 33) (scale := 5) (by norm_num) (by norm_num)
    obtain ⟨proofs, out, e, e', -, -⟩ := C200_single_zk (m := 4) h (A := fun _ _ => zkFk false ks) rfl 7
    exact ⟨ks, proofs, e, by rw [e']; simp⟩

/-- The polynomial of the benchmark with chunks of 32 is not that of the tests with chunks of 16. -/
example : patternPoly (fun n => (n : Fr)) 512 32 ≠ patternPoly (fun n => (n : Fr)) 512 16 :=
  C200_pattern_depends _ (by simp only [ne_eq]; decide +kernel) (by norm_num) (by norm_num)

end Kzg.Props
