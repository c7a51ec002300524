import Verif.Model.BenchRecover
import Verif.Proofs.Bench
import Verif.Proofs.Zk.Poly
import Verif.Proofs.PolyInverse
import Verif.Props.Recovery
import Verif.Props.DAS
/-!
# The shared tests of recovery and of the extension: what makes them pass
-/

set_option linter.unusedSectionVars false

namespace Kzg.Bench
open Kzg Kzg.Res Kzg.Props Polynomial

variable {F : Type} [Field F] [DecidableEq F]

theorem eachFrom_ok {lo hi : Nat} (hle : lo ≤ hi) {body : Nat → Res Unit} (h : ∀ i, lo ≤ i → i < hi → body i = .ok ()) :
    eachFrom lo hi body = .ok () := by
  obtain ⟨u, hu, -⟩ := forRange_inv (lo := lo) (hi := hi) (s := ()) (body := fun i _ => body i) (fun _ _ => True)
    hle trivial (fun i _ h1 h2 _ => ⟨(), h i h1 h2, trivial⟩)
  exact hu

/-- Filling the lower half. -/
theorem fill_ok {n : Nat} {coeffs : List F} (hc : coeffs.length = n) :
    (forRange 0 n (List.replicate (2 * n) 0) fun i v => do let c ← rd coeffs i; wr v i c) =
      .ok (coeffs ++ List.replicate n 0) := by
  obtain ⟨v, hv, hl, e⟩ := forRange_inv (lo := 0) (hi := n) (s := List.replicate (2 * n) (0 : F))
    (body := fun i v => do let c ← rd coeffs i; wr v i c)
    (fun i v => v.length = 2 * n ∧ ∀ j, v[j]? = if j < i then coeffs[j]? else if j < 2 * n then some 0 else none)
    (by omega) ⟨by simp, fun j => by simp [List.getElem?_replicate]⟩
    (fun i v _ hi ⟨hl, e⟩ => by
      have hi' : i < coeffs.length := by omega
      refine ⟨v.set i coeffs[i], by rw [rd_of_getElem? (List.getElem?_eq_getElem hi'), bind_ok, wr_of_lt (by omega)],
        by simp [hl], fun j => ?_⟩
      rw [List.getElem?_set, e]
      by_cases hj : i = j
      · subst hj
        rw [if_pos rfl, if_pos (by omega), if_pos (by omega), List.getElem?_eq_getElem hi']
      · rw [if_neg hj]
        by_cases h1 : j < i
        · rw [if_pos h1, if_pos (by omega)]
        · rw [if_neg h1, if_neg (by omega : ¬ j < i + 1)])
  rw [hv]
  congr 1
  apply List.ext_getElem?
  intro j
  rw [e, List.getElem?_append, hc, List.getElem?_replicate]
  by_cases h1 : j < n
  · rw [if_pos h1, if_pos h1]
  · rw [if_neg h1, if_neg h1]
    by_cases h2 : j < 2 * n
    · rw [if_pos h2, if_pos (by omega)]
    · rw [if_neg h2, if_neg (by omega)]

/-- `random_missing` erases as many positions as are not to be known. -/
theorem randomMissing_ok {N known : Nat} {data : List F} (hd : data.length = N) {order : List Nat}
    (ho : order.Perm (List.range N)) (hk : known ≤ N) :
    ∃ samples, randomMissing data order N known = .ok samples ∧ Erasure data samples ∧ erased samples = N - known := by
  have hol : order.length = N := by rw [ho.length_eq, List.length_range]
  have hnd : order.Nodup := ho.nodup_iff.2 List.nodup_range
  have hinit : ∀ (j : Nat) (v : F), ((List.range N).map fun i => some (data.getD i 0))[j]? = some (some v) → data[j]? = some v := by
    intro j v h
    rw [List.getElem?_map] at h
    by_cases hj : j < N
    · rw [List.getElem?_range hj] at h
      simp only [Option.map_some, Option.some.injEq] at h
      rw [← h, List.getD_eq_getElem?_getD, List.getElem?_eq_getElem (by omega : j < data.length)]
      rfl
    · rw [List.getElem?_eq_none (by simpa using hj)] at h
      cases h
  obtain ⟨w, hw, hl, hv, he⟩ := forRange_inv (lo := 0) (hi := N - known) (s := (List.range N).map fun i => some (data.getD i 0))
    (body := fun i w => do let j ← rd order i; wr w j none)
    (fun i w => w.length = N ∧ (∀ j < N, j ∉ order.take i → w[j]? = some (some (data.getD j 0))) ∧
      (∀ (j : Nat) (v : F), w[j]? = some (some v) → data[j]? = some v) ∧ erased w = i)
    (by omega) ⟨by simp, fun j hj _ => by simp [hj], hinit, by rw [erased, List.countP_eq_zero]; simp⟩
    (fun i w _ hi ⟨hl, hv, hp, he⟩ => by
      have hi' : i < order.length := by omega
      have hj : order[i] < N := by
        have := (ho.mem_iff (a := order[i])).1 (List.getElem_mem hi')
        simpa using this
      have hni : order[i] ∉ order.take i := by
        intro hm
        obtain ⟨k, hk, e⟩ := List.getElem_of_mem hm
        rw [List.getElem_take] at e
        have hk' : k < i := by rw [List.length_take] at hk; omega
        have := (hnd.getElem_inj_iff (hi := by omega) (hj := hi')).1 e
        omega
      refine ⟨w.set order[i] none, by rw [rd_of_getElem? (List.getElem?_eq_getElem hi'), bind_ok, wr_of_lt (by omega)],
        by simp [hl], fun j hjN hjm => ?_, fun j v h => ?_, ?_⟩
      · rw [List.take_add_one, List.getElem?_eq_getElem hi'] at hjm
        simp only [Option.toList_some, List.mem_append, List.mem_singleton, not_or] at hjm
        rw [List.getElem?_set_ne (fun h => hjm.2 h.symm)]
        exact hv j hjN hjm.1
      · rw [List.getElem?_set] at h
        split at h
        · split at h <;> simp at h
        · exact hp j v h
      · have hwv := hv _ hj hni
        rw [List.getElem?_eq_getElem (by omega)] at hwv
        simp only [Option.some.injEq] at hwv
        rw [erased, List.countP_set (by omega), hwv]
        rw [erased] at he
        simp [he])
  refine ⟨w, ?_, ⟨by rw [hl, hd], he.1⟩, he.2⟩
  unfold randomMissing
  rw [tab_ok (g := fun i => some (data.getD i 0)) (fun i hi => by
    rw [rd_of_getElem? (List.getElem?_eq_getElem (by omega)), bind_ok, List.getD_eq_getElem?_getD,
      List.getElem?_eq_getElem (by omega)]; rfl), bind_ok, subU_of_le hk, bind_ok]
  exact hw

/-- What the tests of recovery need of settings of width `2^scale`. -/
structure RecBase (A : RecApi F) (ω : F) (scale : Nat) : Prop where
  width : A.maxWidth = 2 ^ scale
  fft : ∀ l : List F, l.length = 2 ^ scale → A.fft l false = .ok (codeword ω (2 ^ scale) (polyOf l))
  back : ∀ l : List F, l.length = 2 ^ scale → A.fft (codeword ω (2 ^ scale) (polyOf l)) true = .ok l
  recover : ∀ (p : F[X]) (samples : List (Option F)), (p = 0 ∨ 2 * p.natDegree < 2 ^ scale) →
    Erasure (codeword ω (2 ^ scale) p) samples → 1 ≤ erased samples → 2 * erased samples ≤ 2 ^ scale →
      A.recover samples = .ok (codeword ω (2 ^ scale) p)

/-- The run up to the comparison of the coefficients that the inverse transform returns. -/
theorem recoverRun_eq {A : RecApi F} {ω : F} {scale : Nat} (hwidth : A.maxWidth = 2 ^ (scale + 1))
    (hfft : ∀ l : List F, l.length = 2 ^ (scale + 1) → A.fft l false = .ok (codeword ω (2 ^ (scale + 1)) (polyOf l)))
    (hrecover : ∀ (p : F[X]) (samples : List (Option F)), (p = 0 ∨ 2 * p.natDegree < 2 ^ (scale + 1)) →
      Erasure (codeword ω (2 ^ (scale + 1)) p) samples → 1 ≤ erased samples → 2 * erased samples ≤ 2 ^ (scale + 1) →
        A.recover samples = .ok (codeword ω (2 ^ (scale + 1)) p)) {coeffs back : List F}
    (hc : coeffs.length = 2 ^ scale) {missing : List F → Res (List (Option F))} {samples : List (Option F)}
    (hm : missing (codeword ω (2 ^ (scale + 1)) (polyOf coeffs)) = .ok samples)
    (hs : Erasure (codeword ω (2 ^ (scale + 1)) (polyOf coeffs)) samples) (h1 : 1 ≤ erased samples)
    (h2 : 2 * erased samples ≤ 2 ^ (scale + 1))
    (hb : A.fft (codeword ω (2 ^ (scale + 1)) (polyOf (coeffs ++ List.replicate (2 ^ scale) (0 : F)))) true = .ok back) :
    recoverRun A coeffs missing = (each (2 ^ scale) fun i => do
      let d ← rd (coeffs ++ List.replicate (2 ^ scale) (0 : F)) i
      let r ← rd back i
      assertT (d == r)) := by
  have hw : A.maxWidth = 2 * 2 ^ scale := by rw [hwidth, pow_succ, mul_comm]
  have hw2 : A.maxWidth / 2 = 2 ^ scale := by omega
  have hpos : 0 < 2 ^ scale := by positivity
  have hpl : (coeffs ++ List.replicate (2 ^ scale) (0 : F)).length = 2 ^ (scale + 1) := by
    rw [List.length_append, List.length_replicate, hc, pow_succ, mul_two]
  have hpp : polyOf (coeffs ++ List.replicate (2 ^ scale) (0 : F)) = polyOf coeffs := ZkP.polyOf_append_zeros _ _
  have hdeg : 2 * (polyOf coeffs).natDegree < 2 ^ (scale + 1) := by
    have := natDegree_polyOf_le coeffs
    rw [pow_succ]
    omega
  have hrec := hrecover _ _ (Or.inr hdeg) hs h1 h2
  have hf := hfft _ hpl
  rw [hpp] at hf hb
  set W := codeword ω (2 ^ (scale + 1)) (polyOf coeffs) with hW
  have hWl : W.length = A.maxWidth := by rw [hW, hwidth]; simp [codeword]
  unfold recoverRun
  rw [hw2, hw, fill_ok hc, bind_ok, hf, unwrap, bind_ok, hm, bind_ok, hrec, unwrap, bind_ok, ← hw,
    each_ok (fun i hi => ?_), bind_ok, tab_ok (g := fun i => W.getD i 0) (fun i hi => ?_), bind_ok]
  · rw [show (List.range A.maxWidth).map (fun i => W.getD i 0) = W from ?_, hb, unwrap, bind_ok, eachFrom_ok (by omega) fun i h1 h2 => ?_]
    · cases each (2 ^ scale) fun i => do
        let d ← rd (coeffs ++ List.replicate (2 ^ scale) (0 : F)) i
        let r ← rd back i
        assertT (d == r) <;> rfl
    · rw [rd_of_getElem? (x := (0 : F)) ?_, bind_ok]
      · exact assertT_true (by simp)
      · rw [List.getElem?_append_right (by omega), List.getElem?_replicate, if_pos (by omega)]
    · apply List.ext_getElem?
      intro i
      rw [List.getElem?_map]
      by_cases hi : i < A.maxWidth
      · rw [List.getElem?_range hi, Option.map_some, List.getD_eq_getElem?_getD, List.getElem?_eq_getElem (by omega)]; rfl
      · rw [List.getElem?_eq_none (by simpa using hi), List.getElem?_eq_none (by omega)]; rfl
  · have hlt : i < W.length := by omega
    rw [rd_of_getElem? (List.getElem?_eq_getElem hlt), List.getD_eq_getElem?_getD, List.getElem?_eq_getElem hlt]; rfl
  · have hlt : i < W.length := by omega
    rw [rd_of_getElem? (List.getElem?_eq_getElem hlt), bind_ok, bind_ok]
    exact assertT_true (by simp)

theorem recoverRun_ok {A : RecApi F} {ω : F} {scale : Nat} (h : RecBase A ω (scale + 1)) {coeffs : List F}
    (hc : coeffs.length = 2 ^ scale) {missing : List F → Res (List (Option F))} {samples : List (Option F)}
    (hm : missing (codeword ω (2 ^ (scale + 1)) (polyOf coeffs)) = .ok samples)
    (hs : Erasure (codeword ω (2 ^ (scale + 1)) (polyOf coeffs)) samples) (h1 : 1 ≤ erased samples)
    (h2 : 2 * erased samples ≤ 2 ^ (scale + 1)) : recoverRun A coeffs missing = .ok () := by
  have hpl : (coeffs ++ List.replicate (2 ^ scale) (0 : F)).length = 2 ^ (scale + 1) := by
    rw [List.length_append, List.length_replicate, hc, pow_succ, mul_two]
  rw [recoverRun_eq h.width h.fft h.recover hc hm hs h1 h2 (h.back _ hpl)]
  refine each_ok fun i hi => ?_
  have hlt : i < (coeffs ++ List.replicate (2 ^ scale) (0 : F)).length := by rw [hpl, pow_succ]; omega
  rw [rd_of_getElem? (List.getElem?_eq_getElem hlt), bind_ok, bind_ok]
  exact assertT_true (by simp)

/-- If the inverse transform negates, the test panics for every nonzero polynomial. -/
theorem recoverRandom_negated {A : RecApi F} {ω : F} {scale : Nat} (hwidth : A.maxWidth = 2 ^ (scale + 1))
    (hfft : ∀ l : List F, l.length = 2 ^ (scale + 1) → A.fft l false = .ok (codeword ω (2 ^ (scale + 1)) (polyOf l)))
    (hback : ∀ l : List F, l.length = 2 ^ (scale + 1) →
      A.fft (codeword ω (2 ^ (scale + 1)) (polyOf l)) true = .ok (l.map fun x => -x))
    (hrecover : ∀ (p : F[X]) (samples : List (Option F)), (p = 0 ∨ 2 * p.natDegree < 2 ^ (scale + 1)) →
      Erasure (codeword ω (2 ^ (scale + 1)) p) samples → 1 ≤ erased samples → 2 * erased samples ≤ 2 ^ (scale + 1) →
        A.recover samples = .ok (codeword ω (2 ^ (scale + 1)) p)) (htwo : (2 : F) ≠ 0) {coeffs : List F}
    (hc : coeffs.length = 2 ^ scale) {order : List Nat} (ho : order.Perm (List.range (2 ^ (scale + 1)))) {known : Nat}
    (h1 : 2 ^ scale ≤ known) (h2 : known < 2 ^ (scale + 1)) (hne : ∃ c ∈ coeffs, c ≠ 0) :
    recoverRandom A coeffs order known = .panic := by
  obtain ⟨samples, e, hs, he⟩ := randomMissing_ok (data := codeword ω (2 ^ (scale + 1)) (polyOf coeffs))
    (N := 2 ^ (scale + 1)) (by simp [codeword]) ho (known := known) (by omega)
  have hp : 2 ^ (scale + 1) = 2 * 2 ^ scale := by rw [pow_succ, mul_comm]
  have hpl : (coeffs ++ List.replicate (2 ^ scale) (0 : F)).length = 2 ^ (scale + 1) := by
    rw [List.length_append, List.length_replicate, hc, pow_succ, mul_two]
  unfold recoverRandom
  rw [recoverRun_eq hwidth hfft hrecover hc (by rw [hwidth]; exact e) hs (by omega) (by omega) (hback _ hpl)]
  have hex : ∃ i, i < 2 ^ scale ∧ coeffs.getD i 0 ≠ 0 := by
    obtain ⟨c, hcm, hc0⟩ := hne
    obtain ⟨i, hi, rfl⟩ := List.mem_iff_getElem.mp hcm
    exact ⟨i, by omega, by rwa [List.getD_eq_getElem?_getD, List.getElem?_eq_getElem hi]⟩
  classical
  have hk := Nat.find_spec hex
  have hmin := fun i => Nat.find_min (H := hex) (m := i)
  generalize Nat.find hex = k at hk hmin
  have hbody : ∀ i, i < 2 ^ scale → (do
      let d ← rd (coeffs ++ List.replicate (2 ^ scale) (0 : F)) i
      let r ← rd ((coeffs ++ List.replicate (2 ^ scale) (0 : F)).map fun x => -x) i
      assertT (d == r)) = assertT (coeffs.getD i 0 == -coeffs.getD i 0) := by
    intro i hi
    have e1 : (coeffs ++ List.replicate (2 ^ scale) (0 : F))[i]? = some (coeffs.getD i 0) := by
      rw [List.getElem?_append_left (by omega), List.getD_eq_getElem?_getD, List.getElem?_eq_getElem (by omega)]; rfl
    rw [rd_of_getElem? e1, bind_ok, rd_of_getElem? (x := -coeffs.getD i 0) (by rw [List.getElem?_map, e1]; rfl), bind_ok]
  unfold each
  refine forRange_panic k (fun _ _ => True) (by omega) hk.1 trivial (fun i _ _ hi _ => ?_) fun _ _ => ?_
  · refine ⟨(), ?_, trivial⟩
    refine (hbody i (by omega)).trans ?_
    have : coeffs.getD i 0 = 0 := by
      by_contra hc0
      exact hmin i hi ⟨by omega, hc0⟩
    exact assertT_true (by rw [this, neg_zero]; exact beq_self_eq_true _)
  · refine (hbody k hk.1).trans ?_
    rw [assertT, if_neg]
    intro heq
    have h0 : coeffs.getD k 0 = -coeffs.getD k 0 := by simpa using heq
    have : 2 * coeffs.getD k 0 = 0 := by linear_combination h0
    exact hk.2 ((mul_eq_zero.mp this).resolve_left htwo)

theorem recoverRandom_ok {A : RecApi F} {ω : F} {scale : Nat} (h : RecBase A ω (scale + 1)) {coeffs : List F}
    (hc : coeffs.length = 2 ^ scale) {order : List Nat} (ho : order.Perm (List.range (2 ^ (scale + 1)))) {known : Nat}
    (h1 : 2 ^ scale ≤ known) (h2 : known < 2 ^ (scale + 1)) : recoverRandom A coeffs order known = .ok () := by
  obtain ⟨samples, e, hs, he⟩ := randomMissing_ok (data := codeword ω (2 ^ (scale + 1)) (polyOf coeffs))
    (N := 2 ^ (scale + 1)) (by simp [codeword]) ho (known := known) (by omega)
  have hp : 2 ^ (scale + 1) = 2 * 2 ^ scale := by rw [pow_succ, mul_comm]
  exact recoverRun_ok h hc (by rw [h.width]; exact e) hs (by omega) (by omega)

theorem recoverSimple_ok {A : RecApi F} {ω : F} (h : RecBase A ω 2) {coeffs : List F} (hc : coeffs.length = 2) :
    recoverSimple A coeffs = .ok () := by
  refine recoverRun_ok (scale := 1) h (by simpa using hc)
    (samples := [some ((polyOf coeffs).eval (ω ^ 0)), none, none, some ((polyOf coeffs).eval (ω ^ 3))]) ?_ ⟨?_, ?_⟩ ?_ ?_
  · rfl
  · simp [codeword]
  · intro i v hv
    match i with
    | 0 => simpa [codeword] using hv
    | 1 => simp at hv
    | 2 => simp at hv
    | 3 => simpa [codeword] using hv
    | i + 4 => simp at hv
  · simp [erased]
  · simp [erased]

theorem zip_ok {n : Nat} {evens odds : List F} (he : evens.length = n) (ho : odds.length = n) :
    (forRange 0 n [] fun i v => do
      let e ← rd evens (2 * i / 2)
      let o ← rd odds (2 * i / 2)
      Res.ok (v ++ [e] ++ [o])) = .ok (interleave evens odds) := by
  have hz : ∀ i, 2 * i / 2 = i := fun i => by omega
  obtain ⟨v, hv, e⟩ := forRange_inv (lo := 0) (hi := n) (s := ([] : List F))
    (body := fun i v => do
      let e ← rd evens (2 * i / 2)
      let o ← rd odds (2 * i / 2)
      Res.ok (v ++ [e] ++ [o]))
    (fun i v => v.length = 2 * i ∧ ∀ j < i, v[2 * j]? = evens[j]? ∧ v[2 * j + 1]? = odds[j]?) (by omega) (by simp)
    (fun i v _ hi ⟨hl, hv⟩ => by
      have h1 : i < evens.length := by omega
      have h2 : i < odds.length := by omega
      refine ⟨v ++ [evens[i]] ++ [odds[i]], ?_, by simp [hl]; omega, fun j hj => ?_⟩
      · rw [hz, rd_of_getElem? (List.getElem?_eq_getElem h1), bind_ok, rd_of_getElem? (List.getElem?_eq_getElem h2), bind_ok]
      · rw [List.append_assoc]
        by_cases hji : j = i
        · subst hji
          constructor
          · rw [List.getElem?_append_right (by omega), hl, List.getElem?_eq_getElem h1]
            simp
          · rw [List.getElem?_append_right (by omega), hl, List.getElem?_eq_getElem h2]
            simp
        · rw [List.getElem?_append_left (by omega), List.getElem?_append_left (by omega)]
          exact hv j (by omega))
  rw [hv]
  congr 1
  have hil := interleave_length evens odds (by omega)
  apply List.ext_getElem?
  intro j
  by_cases hj : j < 2 * n
  · have hi := interleave_getElem? evens odds (by omega) (j / 2)
    have he2 := e.2 (j / 2) (by omega)
    rcases Nat.mod_two_eq_zero_or_one j with h | h
    · rw [show j = 2 * (j / 2) by omega, hi.1, he2.1]
    · rw [show j = 2 * (j / 2) + 1 by omega, hi.2, he2.2]
  · rw [List.getElem?_eq_none (by rw [e.1]; omega), List.getElem?_eq_none (by omega)]

theorem dasRandom_ok {A : RecApi F} {m : Nat} (hw : 2 ^ (m + 1) ≤ A.maxWidth) {evens odds coeffs : List F}
    (hl : evens.length = 2 ^ m) (h1 : A.das evens = .ok odds) (h2 : odds.length = 2 ^ m)
    (h3 : A.fft (interleave evens odds) true = .ok coeffs)
    (h4 : ∀ i, 2 ^ m ≤ i → i < 2 ^ (m + 1) → coeffs[i]? = some 0) : dasRandom A (m + 1) evens = .ok () := by
  have hp : 2 ^ (m + 1) = 2 * 2 ^ m := by rw [pow_succ, mul_comm]
  unfold dasRandom
  simp only []
  rw [assertT_true (by simpa using hw), bind_ok, h1, unwrap, bind_ok, show (2 ^ (m + 1) + 1) / 2 = 2 ^ m by omega,
    zip_ok hl h2, bind_ok, h3, unwrap, bind_ok]
  refine eachFrom_ok (by omega) fun i hi1 hi2 => ?_
  rw [rd_of_getElem? (h4 i (by omega) hi2), bind_ok]
  exact assertT_true (by simp)

end Kzg.Bench
