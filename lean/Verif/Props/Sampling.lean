import Verif.Props.Soundness
import Verif.Props.Recovery
import Verif.Props.ZkRecover
import Verif.Props.MclRecover
import Verif.Props.ArkRecover
/-!
# Properties C175 and C176: sampled chunks

Data of `2^n` values is cut into `2^(n-m)` chunks of `2^m`: chunk `j` has the values at `x·ω^i`, with `x` the `j`-th power of the root of
the data and `ω` the root of the chunks, which are the values at the positions `j + i·2^(n-m)`. Whoever receives chunks with proofs
checks each against the commitment, puts the values into their places and lets recovery fill the rest.
-/

set_option linter.unusedSectionVars false

namespace Kzg.Props
open Kzg Kzg.Res Polynomial

/-- The samples from received chunks: `a` chunks of `b` values, `none` for a chunk that is missing. -/
def samplesOf {F : Type} (a b : Nat) (chunks : Nat → Option (List F)) : List (Option F) :=
  (List.range (a * b)).map fun k => (chunks (k % a)).bind fun ys => ys[k / a]?

/-- The number of missing chunks. -/
def missingChunks {F : Type} (a : Nat) (chunks : Nat → Option (List F)) : Nat := (List.range a).countP fun j => (chunks j).isNone

/-- Six samples from three chunks of two, the second of which is missing. -/
example : samplesOf 3 2 (fun j => if j = 1 then none else some [10 * j + 1, 10 * j + 2]) =
    [some 1, none, some 21, some 2, none, some 22] := by decide

section
variable {K : Type} [Field K] [DecidableEq K]

theorem erased_samplesOf {a : Nat} (ha : 0 < a) (chunks : Nat → Option (List K)) (b : Nat)
    (hb : ∀ j < a, ∀ ys, chunks j = some ys → b ≤ ys.length) : erased (samplesOf a b chunks) = b * missingChunks a chunks := by
  unfold erased samplesOf missingChunks
  rw [List.countP_map]
  induction b with
  | zero => simp
  | succ b ih =>
    have ih := ih fun j hj ys hy => (Nat.le_succ b).trans (hb j hj ys hy)
    rw [Nat.mul_succ, List.range_add, List.countP_append, ih, Nat.succ_mul, List.countP_map]
    congr 1
    refine List.countP_congr fun j hj => ?_
    have hj' : j < a := by simpa using hj
    have e1 : (a * b + j) % a = j := by rw [Nat.mul_add_mod, Nat.mod_eq_of_lt hj']
    have e2 : (a * b + j) / a = b := by rw [Nat.mul_add_div ha, Nat.div_eq_of_lt hj', add_zero]
    simp only [Function.comp_apply, e1, e2]
    rcases hc : chunks j with _ | ys
    · simp
    · have : b < ys.length := hb j hj' ys hc
      simp [this]

theorem erasure_samplesOf {a : Nat} (ha : 0 < a) (chunks : Nat → Option (List K)) (b : Nat) (w : K) (f : K[X])
    (h : ∀ j < a, ∀ ys, chunks j = some ys → ∀ i < b, ys[i]? = some (f.eval (w ^ j * (w ^ a) ^ i))) :
    Erasure (codeword w (a * b) f) (samplesOf a b chunks) := by
  refine ⟨by simp [codeword, samplesOf], fun k v hv => ?_⟩
  have hk : k < a * b := by
    by_contra hk
    rw [List.getElem?_eq_none (by simp [samplesOf]; omega)] at hv
    cases hv
  rw [samplesOf, List.getElem?_map, List.getElem?_range hk, Option.map_some, Option.some_inj] at hv
  rw [codeword, List.getElem?_map, List.getElem?_range hk, Option.map_some, Option.some_inj]
  obtain ⟨ys, hy, hv⟩ := Option.bind_eq_some_iff.1 hv
  have := h (k % a) (Nat.mod_lt _ ha) ys hy (k / a) (Nat.div_lt_of_lt_mul hk)
  rw [hv, Option.some_inj] at this
  rw [this, ← pow_mul, ← pow_add, Nat.mod_add_div]

theorem degree_half {p : List K} {n : Nat} (hp : 2 * p.length ≤ 2 ^ n) : polyOf p = 0 ∨ 2 * (polyOf p).natDegree < 2 ^ n := by
  have hpos : 0 < 2 ^ n := by positivity
  right
  rcases Nat.eq_zero_or_pos p.length with h | h
  · rw [List.length_eq_zero_iff] at h
    subst h
    rw [polyOf_nil, natDegree_zero]
    omega
  · have := natDegree_polyOf_lt p (n := p.length - 1) (by omega)
    omega

theorem domainRoot_chunk (fs : FFTSettings K) {scale n m : Nat} (hm : m ≤ n) (hn : n ≤ scale) :
    domainRoot fs scale n ^ 2 ^ (n - m) = domainRoot fs scale m := by
  rw [domainRoot, domainRoot, ← pow_mul, ← pow_add]
  congr 2
  omega

/-- What is assumed of the received chunks: they have the right size, one is missing, and at least half of them have come. -/
structure Enough (n m : Nat) (chunks : Nat → Option (List K)) : Prop where
  length : ∀ j < 2 ^ (n - m), ∀ ys, chunks j = some ys → ys.length = 2 ^ m
  one : 1 ≤ missingChunks (2 ^ (n - m)) chunks
  half : 2 * missingChunks (2 ^ (n - m)) chunks ≤ 2 ^ (n - m)

theorem Enough.counts {n m : Nat} (hm : m ≤ n) {chunks : Nat → Option (List K)} (h : Enough n m chunks) :
    2 ^ (n - m) * 2 ^ m = 2 ^ n ∧ 1 ≤ erased (samplesOf (2 ^ (n - m)) (2 ^ m) chunks) ∧
      2 * erased (samplesOf (2 ^ (n - m)) (2 ^ m) chunks) ≤ 2 ^ n := by
  have e : 2 ^ (n - m) * 2 ^ m = 2 ^ n := by rw [← pow_add]; congr 1; omega
  rw [erased_samplesOf (by positivity) chunks (2 ^ m) fun j hj ys hy => (h.length j hj ys hy).ge]
  have hpos : 0 < 2 ^ m := by positivity
  refine ⟨e, Nat.mul_pos hpos h.one, ?_⟩
  rw [← e, mul_comm (2 ^ (n - m))]
  calc 2 * (2 ^ m * missingChunks (2 ^ (n - m)) chunks) = 2 ^ m * (2 * missingChunks (2 ^ (n - m)) chunks) := by ring
    _ ≤ _ := Nat.mul_le_mul_left _ h.half

/-- Either every received value is right, or some chunk has a wrong one. -/
theorem right_or_wrong (fs : FFTSettings K) {scale n m : Nat} (hm : m ≤ n) (hn : n ≤ scale) (chunks : Nat → Option (List K))
    (f : K[X]) :
    Erasure (codeword (domainRoot fs scale n) (2 ^ n) f) (samplesOf (2 ^ (n - m)) (2 ^ m) chunks) ∨
    ∃ j < 2 ^ (n - m), ∃ ys, chunks j = some ys ∧
      ∃ i < 2 ^ m, ys[i]? ≠ some (f.eval (domainRoot fs scale n ^ j * domainRoot fs scale m ^ i)) := by
  by_cases h : ∀ j < 2 ^ (n - m), ∀ ys, chunks j = some ys → ∀ i < 2 ^ m,
      ys[i]? = some (f.eval (domainRoot fs scale n ^ j * domainRoot fs scale m ^ i))
  · left
    have := erasure_samplesOf (a := 2 ^ (n - m)) (by positivity) chunks (2 ^ m) (domainRoot fs scale n) f (fun j hj ys hy i hi => by
      rw [domainRoot_chunk fs hm hn]; exact h j hj ys hy i hi)
    rwa [← pow_add, Nat.sub_add_cancel hm] at this
  · right
    push Not at h
    exact h

end

variable {G1 G2 GT P : Type} [AddCommGroup G1] [Module Fr G1] [AddCommGroup G2] [Module Fr G2]
  [CommGroup GT] [DecidableEq GT]

theorem MadeFrom.same_fs {ks : KZGSettings Fr G1 G2} {g1 : G1} {g2 : G2} {N scale : Nat} {s : Fr}
    (h : MadeFrom ks g1 g2 N scale s) {fs : FFTSettings Fr} (hfs : FFTSettings.new scale = .ok fs) : ks.fs = fs := by
  obtain ⟨fs', secret, hfs', -, hk⟩ := h
  cases hfs.symm.trans hfs'
  rw [generateTrustedSetup_spec] at hk
  by_cases hN : fs.maxWidth ≤ N
  · rw [kzgNew_ok (by simp) (by simp) hN] at hk
    cases hk
    rfl
  · unfold KZGSettings.new at hk
    rw [if_pos (by simpa using hN)] at hk
    cases hk

/-! ## C175: chunks that pass their checks -/

/-- The secrets with which blst-from-scratch accepts every received chunk of claimed values, with the commitment to `p` as commitment and
the commitment to `proofs j` as proof for chunk `j`, and recovery returns anything but the values of `p`. -/
def sampledWrong (B : Backend G1 G2 GT) (g1 : G1) (g2 : G2) (fs : FFTSettings Fr) (N scale n m : Nat) (p : List Fr)
    (chunks : Nat → Option (List Fr)) (proofs : Nat → List Fr) : Set Fr :=
  {s | ∃ ks com, MadeFrom ks g1 g2 N scale s ∧ ks.fs = fs ∧ ks.commitToPoly B p = .ok com ∧
    (∀ j < 2 ^ (n - m), ∀ ys, chunks j = some ys → ∃ proof, ks.commitToPoly B (proofs j) = .ok proof ∧
      ks.checkProofMulti B g2 com proof (domainRoot fs scale n ^ j) ys (2 ^ m) = .ok true) ∧
    fs.recoverOption (samplesOf (2 ^ (n - m)) (2 ^ m) chunks) ≠ .ok (codeword (domainRoot fs scale n) (2 ^ n) (polyOf p))}

/-- C175 (blst-from-scratch, partial): for polynomials and claimed values that were fixed before the setup, at most `N + 2^m - 1` secrets let
the received chunks, at least half of all, pass their checks without recovery returning the values of the committed polynomial. Missing
from the full statement: data of more than 65536 values, on which recovery panics (`C21_large_domain_panics`), and foreign functions
that treat the identity wrongly, for which the bound is `C175_blst_any`. -/
theorem C175_blst_partial {B : Backend G1 G2 GT} {g1 : G1} {g2 : G2} (hB : B.Lawful g1 g2) (hM : B.MsmTotal) (hP : B.PairTotal)
    {N scale n m : Nat} {fs : FFTSettings Fr} (hfs : FFTSettings.new scale = .ok fs) (hm : m ≤ n) (hn : n ≤ scale) (h16 : n ≤ 16)
    (hN : 2 ^ m < N) (p : List Fr) (hp : p.length ≤ N) (hp' : 2 * p.length ≤ 2 ^ n) (chunks : Nat → Option (List Fr))
    (hc : Enough n m chunks) (proofs : Nat → List Fr) (hq : ∀ j, (proofs j).length ≤ N) :
    (sampledWrong B g1 g2 fs N scale n m p chunks proofs).encard ≤ ((N + 2 ^ m - 1 : Nat) : ℕ∞) := by
  rcases right_or_wrong fs hm hn chunks (polyOf p) with h | ⟨j, hj, ys, hy, hbad⟩
  · obtain ⟨-, h1, h2⟩ := hc.counts hm
    have e := C21_recovery_partial hfs hn ((Nat.pow_le_pow_right (by norm_num) h16).trans (by norm_num)) (polyOf p) (degree_half hp') _ h h1 h2
    refine le_trans (le_of_eq (Set.encard_eq_zero.2 (Set.eq_empty_of_forall_notMem fun s hs => ?_))) (by simp)
    obtain ⟨-, -, -, -, -, -, hne⟩ := hs
    exact hne e
  · have hx : domainRoot fs scale n ^ j ≠ 0 := pow_ne_zero _ (by
      rw [← omega_eq hfs hn]; exact ((wf_of_new hfs).omega_prim hn).ne_zero (by positivity))
    refine (Set.encard_le_encard fun s hs => ?_).trans
      (C165_blst hB hM hP (hm.trans hn) hN (domainRoot fs scale m) _ p (proofs j) ys hp (hq j) hx (hc.length j hj ys hy) hbad)
    obtain ⟨ks, com, hk, rfl, ec, hall, -⟩ := hs
    obtain ⟨proof, e1, e2⟩ := hall j hj ys hy
    exact ⟨ks, com, proof, hk, rfl, ec, e1, e2⟩

/-- C175 (blst-from-scratch): at most `N + 2·2^m` secrets whatever the foreign functions do with the identity. -/
theorem C175_blst_any {B : Backend G1 G2 GT} {g1 : G1} {g2 : G2} (hB : B.Lawful g1 g2)
    {N scale n m : Nat} {fs : FFTSettings Fr} (hfs : FFTSettings.new scale = .ok fs) (hm : m ≤ n) (hn : n ≤ scale) (h16 : n ≤ 16)
    (hN : 2 ^ m < N) (p : List Fr) (hp : p.length ≤ N) (hp' : 2 * p.length ≤ 2 ^ n) (chunks : Nat → Option (List Fr))
    (hc : Enough n m chunks) (proofs : Nat → List Fr) (hq : ∀ j, (proofs j).length ≤ N) :
    (sampledWrong B g1 g2 fs N scale n m p chunks proofs).encard ≤ ((N + 2 * 2 ^ m : Nat) : ℕ∞) := by
  rcases right_or_wrong fs hm hn chunks (polyOf p) with h | ⟨j, hj, ys, hy, hbad⟩
  · obtain ⟨-, h1, h2⟩ := hc.counts hm
    have e := C21_recovery_partial hfs hn ((Nat.pow_le_pow_right (by norm_num) h16).trans (by norm_num)) (polyOf p) (degree_half hp') _ h h1 h2
    refine le_trans (le_of_eq (Set.encard_eq_zero.2 (Set.eq_empty_of_forall_notMem fun s hs => ?_))) (by simp)
    obtain ⟨-, -, -, -, -, -, hne⟩ := hs
    exact hne e
  · have hx : domainRoot fs scale n ^ j ≠ 0 := pow_ne_zero _ (by
      rw [← omega_eq hfs hn]; exact ((wf_of_new hfs).omega_prim hn).ne_zero (by positivity))
    refine (Set.encard_le_encard fun s hs => ?_).trans
      (C165_blst_any hB (hm.trans hn) hN (domainRoot fs scale m) _ p (proofs j) ys hp (hq j) hx (hc.length j hj ys hy) hbad)
    obtain ⟨ks, com, hk, rfl, ec, hall, -⟩ := hs
    obtain ⟨proof, e1, e2⟩ := hall j hj ys hy
    exact ⟨ks, com, proof, hk, rfl, ec, e1, e2⟩

/-- C175 (mcl): at most `N + 2^m - 1` secrets, for chunks of at most `2^30` values. -/
theorem C175_mcl [Mcl.Lib Fr] {B : Mcl.Backend G1 G2 GT} {g1 : G1} {g2 : G2} (hB : B.Lawful g1 g2)
    {N scale n m : Nat} {fs : FFTSettings Fr} (hfs : MadeSettings fs scale) (hm : m ≤ n) (hn : n ≤ scale) (h30 : m ≤ 30)
    (hN : 2 ^ m < N) (p : List Fr) (hp : p.length ≤ N) (hp' : 2 * p.length ≤ 2 ^ n) (chunks : Nat → Option (List Fr))
    (hc : Enough n m chunks) (proofs : Nat → List Fr) (hq : ∀ j, (proofs j).length ≤ N) :
    {s | ∃ ks com, MclMade ks g1 g2 N scale s ∧ ks.fs = fs ∧ Mcl.commit B ks.secretG1 p = .ok com ∧
      (∀ j < 2 ^ (n - m), ∀ ys, chunks j = some ys → ∃ proof, Mcl.commit B ks.secretG1 (proofs j) = .ok proof ∧
        Mcl.checkProofMulti B g2 ks com proof (domainRoot fs scale n ^ j) ys (2 ^ m) = .ok true) ∧
      Mcl.recover fs (samplesOf (2 ^ (n - m)) (2 ^ m) chunks) ≠ .ok (codeword (domainRoot fs scale n) (2 ^ n) (polyOf p))}.encard ≤
        ((N + 2 ^ m - 1 : Nat) : ℕ∞) := by
  rcases right_or_wrong fs hm hn chunks (polyOf p) with h | ⟨j, hj, ys, hy, hbad⟩
  · obtain ⟨-, h1, h2⟩ := hc.counts hm
    have e := C104_recovery hfs hn (polyOf p) (degree_half hp') _ h h1 h2
    refine le_trans (le_of_eq (Set.encard_eq_zero.2 (Set.eq_empty_of_forall_notMem fun s hs => ?_))) (by simp)
    obtain ⟨-, -, -, -, -, -, hne⟩ := hs
    exact hne e
  · have hx : domainRoot fs scale n ^ j ≠ 0 := pow_ne_zero _ (by
      rw [← omega_of_wf hfs.wf hn]; exact (hfs.wf.omega_prim hn).ne_zero (by positivity))
    refine (Set.encard_le_encard fun s hs => ?_).trans
      (C165_mcl hB (hm.trans hn) h30 hN (domainRoot fs scale m) _ p (proofs j) ys hp (hq j) hx (hc.length j hj ys hy) hbad)
    obtain ⟨ks, com, hk, rfl, ec, hall, -⟩ := hs
    obtain ⟨proof, e1, e2⟩ := hall j hj ys hy
    exact ⟨ks, com, proof, hk, rfl, ec, e1, e2⟩

/-- C175 (Arkworks): at most `N + 2^m - 1` secrets, for all sizes. -/
theorem C175_ark {B : Ark.Backend P G1 G2 GT} {g1 : G1} {g2 : G2} (hB : B.Lawful g1 g2)
    {N scale n m : Nat} {fs : FFTSettings Fr} (hfs : Ark.settingsNew scale = .ok fs) (hm : m ≤ n) (hn : n ≤ scale)
    (hN : 2 ^ m ≤ N) (p : List Fr) (hp : p.length ≤ N) (hp' : 2 * p.length ≤ 2 ^ n) (chunks : Nat → Option (List Fr))
    (hc : Enough n m chunks) (proofs : Nat → List Fr) (hq : ∀ j, (proofs j).length ≤ N) :
    {s | ∃ ks com, ArkMade B ks g1 g2 N scale s ∧ ks.fs = fs ∧ ks.commit p = .ok com ∧
      (∀ j < 2 ^ (n - m), ∀ ys, chunks j = some ys → ∃ proof, ks.commit (proofs j) = .ok proof ∧
        ks.checkMulti B com proof (domainRoot fs scale n ^ j) ys (2 ^ m) = .ok true) ∧
      Ark.recover fs (samplesOf (2 ^ (n - m)) (2 ^ m) chunks) ≠ .ok (codeword (domainRoot fs scale n) (2 ^ n) (polyOf p))}.encard ≤
        ((N + 2 ^ m - 1 : Nat) : ℕ∞) := by
  rcases right_or_wrong fs hm hn chunks (polyOf p) with h | ⟨j, hj, ys, hy, hbad⟩
  · obtain ⟨-, h1, h2⟩ := hc.counts hm
    have e := C120_recovery hfs hn (polyOf p) (degree_half hp') _ h h1 h2
    refine le_trans (le_of_eq (Set.encard_eq_zero.2 (Set.eq_empty_of_forall_notMem fun s hs => ?_))) (by simp)
    obtain ⟨-, -, -, -, -, -, hne⟩ := hs
    exact hne e
  · have hw := (Ark.made_of_new hfs).toWF
    have hx : domainRoot fs scale n ^ j ≠ 0 := pow_ne_zero _ (by
      rw [← omega_of_wf hw hn]; exact (hw.omega_prim hn).ne_zero (by positivity))
    refine (Set.encard_le_encard fun s hs => ?_).trans
      (C165_ark hB (hm.trans hn) hN (domainRoot fs scale m) _ p (proofs j) ys hp (hq j) hx (hc.length j hj ys hy) hbad)
    obtain ⟨ks, com, hk, rfl, ec, hall, -⟩ := hs
    obtain ⟨proof, e1, e2⟩ := hall j hj ys hy
    exact ⟨ks, com, proof, hk, rfl, ec, e1, e2⟩

open Kzg.Zk Kzg.Zk.Top Kzg.Zk.ScW in
/-- C175 (zkcrypto): at most `N + 2^m - 1` secrets, for all sizes and in either build. -/
theorem C175_zk (chk : Bool) {N scale n m : Nat} {fs : FFTSettings ScW} (hfs : FFTSettings.new scale = .ok fs) (hm : m ≤ n)
    (hn : n ≤ scale) (hN : 2 ^ m < N) (p : List ScW) (hp : p.length ≤ N) (hp' : 2 * p.length ≤ 2 ^ n)
    (chunks : Nat → Option (List ScW)) (hc : Enough n m chunks) (proofs : Nat → List ScW) (hq : ∀ j, (proofs j).length ≤ N) :
    {s | ∃ ks com, ZkMadeFrom chk ks N scale s ∧ ks.fs = fs ∧ commitToPoly ks p = .ok com ∧
      (∀ j < 2 ^ (n - m), ∀ ys, chunks j = some ys → ∃ proof, commitToPoly ks (proofs j) = .ok proof ∧
        checkProofMulti ks com proof (domainRoot fs scale n ^ j) ys (2 ^ m) = .ok true) ∧
      ZkP.recover fs (samplesOf (2 ^ (n - m)) (2 ^ m) chunks) ≠ .ok (codeword (domainRoot fs scale n) (2 ^ n) (polyOf p))}.encard ≤
        ((N + 2 ^ m - 1 : Nat) : ℕ∞) := by
  rcases right_or_wrong fs hm hn chunks (polyOf p) with h | ⟨j, hj, ys, hy, hbad⟩
  · obtain ⟨-, h1, h2⟩ := hc.counts hm
    have e := C66_recovery hfs hn (polyOf p) (degree_half hp') _ h h1 h2
    refine le_trans (le_of_eq (Set.encard_eq_zero.2 (Set.eq_empty_of_forall_notMem fun s hs => ?_))) (by simp)
    obtain ⟨-, -, -, -, -, -, hne⟩ := hs
    exact hne e
  · have hx : domainRoot fs scale n ^ j ≠ 0 := pow_ne_zero _ (by
      rw [← omega_eq hfs hn]; exact ((wf_of_new hfs).omega_prim hn).ne_zero (by positivity))
    refine (Set.encard_le_encard fun s hs => ?_).trans
      (C165_zk chk (hm.trans hn) hN (domainRoot fs scale m) _ p (proofs j) ys hp (hq j) hx (hc.length j hj ys hy) hbad)
    obtain ⟨ks, com, hk, rfl, ec, hall, -⟩ := hs
    obtain ⟨proof, e1, e2⟩ := hall j hj ys hy
    exact ⟨ks, com, proof, hk, rfl, ec, e1, e2⟩

/-- In the model of the assumptions: two values for each of two chunks are announced for `7 + 5x`, one of them wrong, and the second chunk
does not arrive. At most five secrets let the first pass. -/
example : ∃ fs : FFTSettings Fr, FFTSettings.new 2 = .ok fs ∧
    (sampledWrong toyBackend (1 : Fr) (1 : Fr) fs 4 2 2 1 [7, 5] (fun j => if j = 0 then some [12, 3] else none)
      fun _ => [5]).encard ≤ 5 := by
  obtain ⟨fs, hfs, -⟩ := new_spec (F := Fr) (k := 2) (by norm_num)
  refine ⟨fs, hfs, C175_blst_partial toyBackend_lawful toyBackend_total.1 toyBackend_total.2 hfs (m := 1) (by norm_num) (by norm_num) (by norm_num)
    (by norm_num) [7, 5] (by norm_num) (by norm_num) _ ⟨fun j hj ys hy => ?_, by decide, by decide⟩ _ (by simp)⟩
  split at hy
  · cases hy; rfl
  · cases hy

theorem polyOf_one' : polyOf [(1 : Fr)] = C 1 := by
  ext i
  rw [coeff_polyOf, coeff_C]
  cases i <;> simp

/-- C175 (refuted for blst-from-scratch): with more than 65536 values recovery fails for every secret, here on honest samples of the
constant one. -/
theorem C175_blst_large {B : Backend G1 G2 GT} {g1 : G1} {g2 : G2} (hB : B.Lawful g1 g2) (hM : B.MsmTotal) (hP : B.PairTotal)
    {N scale n m : Nat} {fs : FFTSettings Fr} (hfs : FFTSettings.new scale = .ok fs) (hm : m ≤ n) (hn : n ≤ scale) (h16 : 16 < n)
    (hN : 2 ^ m < N) (hw : 2 ^ scale ≤ N) (keep : Nat → Bool) :
    sampledWrong B g1 g2 fs N scale n m [1] (fun j => if keep j then some (List.replicate (2 ^ m) 1) else none) (fun _ => []) =
      Set.univ := by
  refine Set.eq_univ_of_forall fun s => ?_
  have hfw := wf_of_new hfs
  obtain ⟨ks, hks⟩ := madeFrom_exists g1 g2 scale N hfw.lt hw ((List.range 32).map fun i => s.val / 256 ^ i % 256)
  rw [bytesVal_digits, Nat.mod_eq_of_lt ((ZMod.val_lt s).trans (by decide +kernel)), ZMod.natCast_zmod_val] at hks
  have hx : ∀ j, domainRoot fs scale n ^ j ≠ 0 := fun j => pow_ne_zero _ (by
    rw [← omega_eq hfs hn]; exact (hfw.omega_prim hn).ne_zero (by positivity))
  refine ⟨ks, _, hks, MadeFrom.same_fs hks hfs, C25_commit hB hks _ (by have := Nat.one_le_two_pow (n := m); simp; omega) (.inr (.inr hM)),
    fun j _ ys hy => ?_, ?_⟩
  · refine ⟨_, C25_commit hB hks _ (by simp) (.inr (.inr hM)), ?_⟩
    beta_reduce at hy
    split at hy
    swap
    · cases hy
    cases hy
    rw [MadeFrom.same_fs hks hfs |>.symm] at hx ⊢
    refine (C29_multi_accepts_iff hB hks (hm.trans hn) hN _ _ _ (hx j) _ (by simp) (.inr (.inr hM)) (.inr hP) (C 1)
      (lt_of_le_of_lt degree_C_le (by exact_mod_cast Nat.pos_of_ne_zero (by positivity))) fun i hi => ?_).2.2 ?_
    · rw [List.getElem?_replicate, if_pos hi, eval_C]
    · rw [polyOf_one', polyOf_nil, eval_zero, zero_smul, smul_zero, sub_self]
  · rw [(C21_large_domain_panics hfs h16).1 _ (by simp [samplesOf, ← pow_add, Nat.sub_add_cancel hm])]
    nofun

/-- C175 in full is false for blst-from-scratch: with 131072 values, of which any half of the chunks has come, no secret does. -/
example : ∃ fs : FFTSettings Fr, FFTSettings.new 17 = .ok fs ∧
    sampledWrong toyBackend (1 : Fr) (1 : Fr) fs (2 ^ 17) 17 17 4 [1] (fun j => if j % 2 = 0 then some (List.replicate (2 ^ 4) 1) else none)
      (fun _ => []) = Set.univ := by
  obtain ⟨fs, hfs, -⟩ := new_spec (F := Fr) (k := 17) (by norm_num)
  refine ⟨fs, hfs, ?_⟩
  simpa using C175_blst_large toyBackend_lawful toyBackend_total.1 toyBackend_total.2 hfs (m := 4) (n := 17) (by norm_num) le_rfl (by norm_num)
    (by norm_num) le_rfl fun j => j % 2 = 0

/-! ## C176: honest chunks -/

/-- Chunk `j` of the values of `f`: those at `x·ω^i`, `x = w^j`. -/
def chunkOf {K : Type} [Field K] (w ω : K) (b : Nat) (f : K[X]) (j : Nat) : List K := (List.range b).map fun i => f.eval (w ^ j * ω ^ i)

/-- The chunks that arrive. -/
def kept {F : Type} (keep : Nat → Bool) (chunk : Nat → List F) (j : Nat) : Option (List F) := if keep j then some (chunk j) else none

theorem kept_enough {K : Type} [Field K] [DecidableEq K] {w ω : K} {n m : Nat} {f : K[X]} {keep : Nat → Bool}
    (h1 : 1 ≤ (List.range (2 ^ (n - m))).countP fun j => !keep j)
    (h2 : 2 * ((List.range (2 ^ (n - m))).countP fun j => !keep j) ≤ 2 ^ (n - m)) :
    Enough n m (kept keep (chunkOf w ω (2 ^ m) f)) := by
  have e : missingChunks (2 ^ (n - m)) (kept keep (chunkOf w ω (2 ^ m) f)) = (List.range (2 ^ (n - m))).countP fun j => !keep j := by
    refine List.countP_congr fun j _ => ?_
    unfold kept
    cases keep j <;> simp
  refine ⟨fun j _ ys hy => ?_, by rw [e]; exact h1, by rw [e]; exact h2⟩
  unfold kept at hy
  split at hy
  · cases hy; simp [chunkOf]
  · cases hy

theorem kept_erasure {K : Type} [Field K] [DecidableEq K] (fs : FFTSettings K) {scale n m : Nat} (hm : m ≤ n) (hn : n ≤ scale) (f : K[X])
    (keep : Nat → Bool) : Erasure (codeword (domainRoot fs scale n) (2 ^ n) f)
      (samplesOf (2 ^ (n - m)) (2 ^ m) (kept keep (chunkOf (domainRoot fs scale n) (domainRoot fs scale m) (2 ^ m) f))) := by
  rcases right_or_wrong fs hm hn (kept keep (chunkOf (domainRoot fs scale n) (domainRoot fs scale m) (2 ^ m) f)) f with
    h | ⟨j, -, ys, hy, i, hi, hbad⟩
  · exact h
  · refine absurd ?_ hbad
    unfold kept at hy
    split at hy
    · cases hy
      rw [chunkOf, List.getElem?_map, List.getElem?_range hi, Option.map_some]
    · cases hy

/-- C176 (blst-from-scratch, partial): a polynomial of at most half as many coefficients as there are values has a commitment and a proof
for every chunk; each chunk is accepted with its proof, and any half of the chunks gives all values back. Missing from the full statement:
more than 65536 values (recovery panics), chunks of as many values as the setup has points (the check panics, C28), and foreign functions
that treat the identity wrongly. -/
theorem C176_blst_partial {B : Backend G1 G2 GT} {g1 : G1} {g2 : G2} (hB : B.Lawful g1 g2) (hM : B.MsmTotal) (hP : B.PairTotal)
    {ks : KZGSettings Fr G1 G2} {N scale : Nat} {s : Fr} (h : MadeFrom ks g1 g2 N scale s) {n m : Nat}
    (hfs : FFTSettings.new scale = .ok ks.fs) (hm : m ≤ n) (hn : n ≤ scale) (h16 : n ≤ 16) (hN : 2 ^ m < N) (p : List Fr)
    (hp : p.length ≤ N) (hp' : 2 * p.length ≤ 2 ^ n) :
    ∃ com, ks.commitToPoly B p = .ok com ∧
      (∀ j < 2 ^ (n - m), ∃ proof, ks.computeProofMulti B p (domainRoot ks.fs scale n ^ j) (2 ^ m) = .ok proof ∧
        ks.checkProofMulti B g2 com proof (domainRoot ks.fs scale n ^ j)
          (chunkOf (domainRoot ks.fs scale n) (domainRoot ks.fs scale m) (2 ^ m) (polyOf p) j) (2 ^ m) = .ok true) ∧
      ∀ keep : Nat → Bool, 1 ≤ ((List.range (2 ^ (n - m))).countP fun j => !keep j) →
        2 * ((List.range (2 ^ (n - m))).countP fun j => !keep j) ≤ 2 ^ (n - m) →
        ks.fs.recoverOption (samplesOf (2 ^ (n - m)) (2 ^ m)
          (kept keep (chunkOf (domainRoot ks.fs scale n) (domainRoot ks.fs scale m) (2 ^ m) (polyOf p)))) =
            .ok (codeword (domainRoot ks.fs scale n) (2 ^ n) (polyOf p)) := by
  have hp16 : 2 ^ n ≤ 65536 := (Nat.pow_le_pow_right (by norm_num) h16).trans (by norm_num)
  have hx : ∀ j, domainRoot ks.fs scale n ^ j ≠ 0 := fun j => pow_ne_zero _ (by
    rw [← omega_eq hfs hn]; exact ((wf_of_new hfs).omega_prim hn).ne_zero (by positivity))
  refine ⟨_, C25_commit hB h p hp (.inr (.inr hM)), fun j _ => ?_, fun keep h1 h2 => ?_⟩
  · obtain ⟨com, proof, e1, e2, e3⟩ := C28_multi_complete_partial hB h (hm.trans hn) hN p hp (by omega)
      (domainRoot ks.fs scale n ^ j) (hx j) (.inr hM) (.inr hP)
    rw [C25_commit hB h p hp (.inr (.inr hM))] at e1
    cases e1
    exact ⟨proof, e2, e3⟩
  · obtain ⟨-, g1, g2⟩ := (kept_enough (w := domainRoot ks.fs scale n) (ω := domainRoot ks.fs scale m) (f := polyOf p) h1 h2).counts hm
    exact C21_recovery_partial hfs hn hp16 (polyOf p) (degree_half hp') _ (kept_erasure ks.fs hm hn (polyOf p) keep) g1 g2

/-- C176 (mcl): for polynomials of up to `2^29` coefficients, so for up to `2^30` values at least. -/
theorem C176_mcl [Mcl.Lib Fr] {B : Mcl.Backend G1 G2 GT} {g1 : G1} {g2 : G2} (hB : B.Lawful g1 g2)
    {ks : KZGSettings Fr G1 G2} {N scale : Nat} {s : Fr} (h : MclMade ks g1 g2 N scale s) {n m : Nat}
    (hfs : MadeSettings ks.fs scale) (hm : m ≤ n) (hn : n ≤ scale) (h30 : m ≤ 30) (hN : 2 ^ m < N) (p : List Fr)
    (h29 : p.length ≤ 2 ^ 29) (hp : p.length ≤ N) (hp' : 2 * p.length ≤ 2 ^ n) :
    ∃ com, Mcl.commit B ks.secretG1 p = .ok com ∧
      (∀ j < 2 ^ (n - m), ∃ proof, Mcl.computeProofMulti B ks p (domainRoot ks.fs scale n ^ j) (2 ^ m) = .ok proof ∧
        Mcl.checkProofMulti B g2 ks com proof (domainRoot ks.fs scale n ^ j)
          (chunkOf (domainRoot ks.fs scale n) (domainRoot ks.fs scale m) (2 ^ m) (polyOf p) j) (2 ^ m) = .ok true) ∧
      ∀ keep : Nat → Bool, 1 ≤ ((List.range (2 ^ (n - m))).countP fun j => !keep j) →
        2 * ((List.range (2 ^ (n - m))).countP fun j => !keep j) ≤ 2 ^ (n - m) →
        Mcl.recover ks.fs (samplesOf (2 ^ (n - m)) (2 ^ m)
          (kept keep (chunkOf (domainRoot ks.fs scale n) (domainRoot ks.fs scale m) (2 ^ m) (polyOf p)))) =
            .ok (codeword (domainRoot ks.fs scale n) (2 ^ n) (polyOf p)) := by
  have hx : ∀ j, domainRoot ks.fs scale n ^ j ≠ 0 := fun j => pow_ne_zero _ (by
    rw [← omega_of_wf hfs.wf hn]; exact (hfs.wf.omega_prim hn).ne_zero (by positivity))
  refine ⟨_, (C108_commit hB h p).1 hp, fun j _ => ?_, fun keep h1 h2 => ?_⟩
  · obtain ⟨com, proof, e1, e2, e3⟩ := C109_multi_complete_partial hB h (hm.trans hn) h30 hN p hp h29
      (domainRoot ks.fs scale n ^ j) (hx j)
    rw [(C108_commit hB h p).1 hp] at e1
    cases e1
    exact ⟨proof, e2, e3⟩
  · obtain ⟨-, g1, g2⟩ := (kept_enough (w := domainRoot ks.fs scale n) (ω := domainRoot ks.fs scale m) (f := polyOf p) h1 h2).counts hm
    exact C104_recovery hfs hn (polyOf p) (degree_half hp') _ (kept_erasure ks.fs hm hn (polyOf p) keep) g1 g2

/-- C176 (Arkworks): for all sizes; the zero polynomial without the lengths for which the division panics (C128). -/
theorem C176_ark {B : Ark.Backend P G1 G2 GT} {g1 : G1} {g2 : G2} (hB : B.Lawful g1 g2)
    {ks : Ark.Settings P G1 G2} {N scale : Nat} {s : Fr} (h : ArkMade B ks g1 g2 N scale s) {n m : Nat}
    (hfs : Ark.settingsNew scale = .ok ks.fs) (hm : m ≤ n) (hn : n ≤ scale) (hN : 2 ^ m ≤ N) (p : List Fr)
    (hp : p.length ≤ N) (hp' : 2 * p.length ≤ 2 ^ n)
    (hz : polyOf p = 0 → 2 ^ m < 127 ∨ p.length ≤ 2 ^ m + 1 ∨ 2 ^ m + 128 ≤ p.length) :
    ∃ com, ks.commit p = .ok com ∧
      (∀ j < 2 ^ (n - m), ∃ proof, ks.computeMulti p (domainRoot ks.fs scale n ^ j) (2 ^ m) = .ok proof ∧
        ks.checkMulti B com proof (domainRoot ks.fs scale n ^ j)
          (chunkOf (domainRoot ks.fs scale n) (domainRoot ks.fs scale m) (2 ^ m) (polyOf p) j) (2 ^ m) = .ok true) ∧
      ∀ keep : Nat → Bool, 1 ≤ ((List.range (2 ^ (n - m))).countP fun j => !keep j) →
        2 * ((List.range (2 ^ (n - m))).countP fun j => !keep j) ≤ 2 ^ (n - m) →
        Ark.recover ks.fs (samplesOf (2 ^ (n - m)) (2 ^ m)
          (kept keep (chunkOf (domainRoot ks.fs scale n) (domainRoot ks.fs scale m) (2 ^ m) (polyOf p)))) =
            .ok (codeword (domainRoot ks.fs scale n) (2 ^ n) (polyOf p)) := by
  have hw := (Ark.made_of_new hfs).toWF
  have hlt := hw.lt
  have hN1 : 1 ≤ N := (Nat.one_le_two_pow).trans hN
  have hp31 : 2 ^ n ≤ 2 ^ 31 := Nat.pow_le_pow_right (by norm_num) (by omega)
  have hx : ∀ j, domainRoot ks.fs scale n ^ j ≠ 0 := fun j => pow_ne_zero _ (by
    rw [← omega_of_wf hw hn]; exact (hw.omega_prim hn).ne_zero (by positivity))
  refine ⟨_, (C127_commit hB h p).1 hN1 hp, fun j _ => ?_, fun keep h1 h2 => ?_⟩
  · obtain ⟨com, proof, e1, e2, e3⟩ := C128_multi_complete_partial hB h (hm.trans hn) hN p hp (by omega)
      (domainRoot ks.fs scale n ^ j) (hx j) hz
    rw [(C127_commit hB h p).1 hN1 hp] at e1
    cases e1
    exact ⟨proof, e2, e3⟩
  · obtain ⟨-, g1, g2⟩ := (kept_enough (w := domainRoot ks.fs scale n) (ω := domainRoot ks.fs scale m) (f := polyOf p) h1 h2).counts hm
    exact C120_recovery hfs hn (polyOf p) (degree_half hp') _ (kept_erasure ks.fs hm hn (polyOf p) keep) g1 g2

open Kzg.Zk Kzg.Zk.Top Kzg.Zk.ScW in
/-- C176 (zkcrypto): for all sizes, all polynomials but zero, for which the proofs panic (C89), and in either build. -/
theorem C176_zk {chk : Bool} {ks : Settings} {N scale : Nat} {s : ScW} (h : ZkMadeFrom chk ks N scale s) {n m : Nat}
    (hfs : FFTSettings.new scale = .ok ks.fs) (hm : m ≤ n) (hn : n ≤ scale) (hN : 2 ^ m < N) (p : List ScW)
    (hp : p.length ≤ N) (hp' : 2 * p.length ≤ 2 ^ n) (hp0 : polyOf p ≠ 0) :
    ∃ com, commitToPoly ks p = .ok com ∧
      (∀ j < 2 ^ (n - m), ∃ proof, computeProofMulti ks p (domainRoot ks.fs scale n ^ j) (2 ^ m) = .ok proof ∧
        checkProofMulti ks com proof (domainRoot ks.fs scale n ^ j)
          (chunkOf (domainRoot ks.fs scale n) (domainRoot ks.fs scale m) (2 ^ m) (polyOf p) j) (2 ^ m) = .ok true) ∧
      ∀ keep : Nat → Bool, 1 ≤ ((List.range (2 ^ (n - m))).countP fun j => !keep j) →
        2 * ((List.range (2 ^ (n - m))).countP fun j => !keep j) ≤ 2 ^ (n - m) →
        ZkP.recover ks.fs (samplesOf (2 ^ (n - m)) (2 ^ m)
          (kept keep (chunkOf (domainRoot ks.fs scale n) (domainRoot ks.fs scale m) (2 ^ m) (polyOf p)))) =
            .ok (codeword (domainRoot ks.fs scale n) (2 ^ n) (polyOf p)) := by
  have hw := wf_of_new hfs
  have hlt := hw.lt
  have hp31 : 2 ^ n ≤ 2 ^ 31 := Nat.pow_le_pow_right (by norm_num) (by omega)
  have hx : ∀ j, domainRoot ks.fs scale n ^ j ≠ 0 := fun j => pow_ne_zero _ (by
    rw [← omega_eq hfs hn]; exact (hw.omega_prim hn).ne_zero (by positivity))
  obtain ⟨com, ec, -⟩ := C87_commit h p hp
  refine ⟨com, ec, fun j _ => ?_, fun keep h1 h2 => ?_⟩
  · obtain ⟨com', proof, e1, e2, e3⟩ := C89_complete_partial h (hm.trans hn) hN p hp (by omega) hp0
      (domainRoot ks.fs scale n ^ j) (hx j)
    cases ec.symm.trans e1
    exact ⟨proof, e2, e3⟩
  · obtain ⟨-, g1, g2⟩ := (kept_enough (w := domainRoot ks.fs scale n) (ω := domainRoot ks.fs scale m) (f := polyOf p) h1 h2).counts hm
    exact C66_recovery hfs hn (polyOf p) (degree_half hp') _ (kept_erasure ks.fs hm hn (polyOf p) keep) g1 g2

/-- Eight values of `3 + x + 4x²` in four chunks of two, the first and the last of which get lost. -/
example : ∃ (ks : KZGSettings Fr Fr Fr) (com : Fr) (s : Fr), MadeFrom ks 1 1 8 3 s ∧ ks.commitToPoly toyBackend [3, 1, 4] = .ok com ∧
    ks.fs.recoverOption (samplesOf 4 2 (kept (fun j => j = 1 ∨ j = 2)
      (chunkOf (domainRoot ks.fs 3 3) (domainRoot ks.fs 3 1) 2 (polyOf [3, 1, 4])))) =
        .ok (codeword (domainRoot ks.fs 3 3) 8 (polyOf [3, 1, 4])) := by
  obtain ⟨ks, h⟩ := madeFrom_exists (G1 := Fr) (G2 := Fr) 1 1 3 8 (by norm_num) (by norm_num) [5]
  obtain ⟨fs, hfs, -⟩ := new_spec (F := Fr) (k := 3) (by norm_num)
  have e := h.same_fs hfs
  rw [← e] at hfs
  obtain ⟨com, ec, -, hr⟩ := C176_blst_partial toyBackend_lawful toyBackend_total.1 toyBackend_total.2 h (n := 3) (m := 1) hfs (by norm_num)
    le_rfl (by norm_num) (by norm_num) [3, 1, 4] (by norm_num) (by norm_num)
  exact ⟨ks, com, _, h, ec, hr _ (by decide) (by decide)⟩

end Kzg.Props
