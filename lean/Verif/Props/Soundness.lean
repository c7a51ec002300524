import Verif.Props.ZkKzg
import Verif.Props.MclKzg
import Verif.Props.ArkKzg
/-!
# Properties C163–C166: how many secrets let a wrong claim through

The acceptance conditions (C27, C29, C88, C89, C108, C109, C127, C128) say what a check accepts for one secret. Here the polynomials
behind a commitment and a proof are fixed first and the secret is chosen afterwards: the sets below are the secrets for which the
check accepts, `Set.encard` counts them, and dividing by the group order gives the chance that a random setup lets the
claim through.
-/

set_option linter.unusedSectionVars false

namespace Kzg.Props
open Kzg Kzg.Res Polynomial

section
variable {K : Type} [Field K] [DecidableEq K]

theorem encard_roots {f : K[X]} (hf : f ≠ 0) {n : Nat} (hn : f.natDegree ≤ n) {S : Set K}
    (hS : ∀ s ∈ S, f.eval s = 0) : S.encard ≤ n := by
  have h1 : S ⊆ (f.roots.toFinset : Set K) := fun s hs => by
    rw [Finset.mem_coe, Multiset.mem_toFinset, mem_roots hf]; exact hS s hs
  refine (Set.encard_le_encard h1).trans ?_
  rw [Set.encard_coe_eq_coe_finsetCard, Nat.cast_le]
  exact (Multiset.toFinset_card_le _).trans ((card_roots' f).trans hn)

theorem natDegree_polyOf_lt (p : List K) {n : Nat} (h : p.length ≤ n + 1) : (polyOf p).natDegree ≤ n := by
  rw [natDegree_le_iff_coeff_eq_zero]
  intro i hi
  rw [coeff_polyOf, List.getD_eq_getElem?_getD, List.getElem?_eq_none (by omega)]
  rfl

theorem polyOf_coeffs {f : K[X]} {n : Nat} (h : f.natDegree < n) : polyOf ((List.range n).map f.coeff) = f := by
  ext i
  rw [coeff_polyOf, List.getD_eq_getElem?_getD, List.getElem?_map]
  by_cases hi : i < n
  · rw [List.getElem?_range hi]; rfl
  · rw [List.getElem?_eq_none (by simp; omega), coeff_eq_zero_of_natDegree_lt (by omega)]; rfl

/-- The polynomial whose roots are the secrets that let a wrong value through. -/
theorem single_gap {p q : List K} {x y : K} (hy : y ≠ (polyOf p).eval x) {N : Nat} (hN : 1 ≤ N) (hp : p.length ≤ N)
    (hq : q.length ≤ N) : polyOf p - C y - (X - C x) * polyOf q ≠ 0 ∧
      (polyOf p - C y - (X - C x) * polyOf q).natDegree ≤ N := by
  constructor
  · intro h
    have := congrArg (eval x) h
    simp only [eval_sub, eval_mul, eval_X, eval_C, sub_self, zero_mul, sub_zero, eval_zero] at this
    exact hy (sub_eq_zero.1 this).symm
  · have h1 := natDegree_polyOf_lt p (n := N) (by omega)
    have h2 := natDegree_polyOf_lt q (n := N - 1) (by omega)
    refine (natDegree_sub_le _ _).trans (max_le ((natDegree_sub_le _ _).trans (max_le h1 ?_)) ?_)
    · rw [natDegree_C]; omega
    refine natDegree_mul_le.trans ?_
    rw [natDegree_X_sub_C]; omega

theorem multi_gap {p q : List K} {I : K[X]} {x ω : K} {n N : Nat} (hn : 0 < n) (hω : ω ^ n = 1)
    (hI : I.degree < (n : Nat)) (hbad : ∃ i < n, I.eval (x * ω ^ i) ≠ (polyOf p).eval (x * ω ^ i))
    (hN : 1 ≤ N) (hp : p.length ≤ N) (hq : q.length ≤ N) :
    polyOf p - I - (X ^ n - C (x ^ n)) * polyOf q ≠ 0 ∧
      (polyOf p - I - (X ^ n - C (x ^ n)) * polyOf q).natDegree ≤ N + n - 1 := by
  constructor
  · obtain ⟨i, -, hi⟩ := hbad
    intro h
    have := congrArg (eval (x * ω ^ i)) h
    rw [eval_sub, eval_sub, eval_mul, eval_sub, eval_pow, eval_X, eval_C, mul_pow, ← pow_mul, mul_comm i n, pow_mul, hω,
      one_pow, mul_one, sub_self, zero_mul, sub_zero, eval_zero] at this
    exact hi (sub_eq_zero.1 this).symm
  · have h1 := natDegree_polyOf_lt p (n := N + n - 1) (by omega)
    have h2 := natDegree_polyOf_lt q (n := N - 1) (by omega)
    have h3 : I.natDegree ≤ N + n - 1 := by
      have : I.natDegree ≤ n - 1 := by
        by_cases h0 : I = 0
        · simp [h0]
        · rw [degree_eq_natDegree h0, Nat.cast_lt] at hI; omega
      omega
    refine (natDegree_sub_le _ _).trans (max_le ((natDegree_sub_le _ _).trans (max_le h1 h3)) ?_)
    refine natDegree_mul_le.trans ?_
    rw [natDegree_X_pow_sub_C]; omega

end

variable {G1 G2 GT P : Type} [AddCommGroup G1] [Module Fr G1] [AddCommGroup G2] [Module Fr G2]
  [CommGroup GT] [DecidableEq GT]

/-! ## C163: single proofs -/

/-- The secrets with which blst-from-scratch accepts the value `y` at `x`, the commitment to `p` and the commitment to `q`
as proof. -/
def singleAccepts (B : Backend G1 G2 GT) (g1 : G1) (g2 : G2) (N scale : Nat) (p q : List Fr) (x y : Fr) : Set Fr :=
  {s | ∃ ks com proof, MadeFrom ks g1 g2 N scale s ∧ ks.commitToPoly B p = .ok com ∧ ks.commitToPoly B q = .ok proof ∧
    ks.checkProofSingle B g1 g2 com proof x y = .ok true}

theorem singleAccepts_root {B : Backend G1 G2 GT} {g1 : G1} {g2 : G2} (hB : B.Lawful g1 g2) {N scale : Nat} (hN : 2 ≤ N)
    {p q : List Fr} {x y s : Fr} (hp : p.length ≤ N) (hq : q.length ≤ N) (hs : s ∈ singleAccepts B g1 g2 N scale p q x y)
    (h0 : s ≠ 0 ∨ B.MsmTotal) (hx : x ≠ s ∨ B.PairTotal) :
    (polyOf p - C y - (X - C x) * polyOf q).eval s = 0 := by
  obtain ⟨ks, com, proof, h, e1, e2, e3⟩ := hs
  rw [C25_commit hB h p hp (h0.imp id .inr)] at e1
  rw [C25_commit hB h q hq (h0.imp id .inr)] at e2
  cases e1; cases e2
  rw [(C27_single_accepts_iff hB h hN _ _ x y hx).2, smul_smul, ← sub_smul, smul_inj' hB.ne] at e3
  rw [eval_sub, eval_sub, eval_C, eval_mul, eval_sub, eval_X, eval_C, e3, sub_self]

/-- C163 (blst-from-scratch): whoever fixes the polynomials behind the commitment and the proof, of at most as many
coefficients as the setup has points, and a value that is not the one of the polynomial, has it accepted for at most `N`
secrets, if the foreign functions treat the identity well; -/
theorem C163_blst {B : Backend G1 G2 GT} {g1 : G1} {g2 : G2} (hB : B.Lawful g1 g2) (hM : B.MsmTotal) (hP : B.PairTotal)
    {N : Nat} (hN : 2 ≤ N) (scale : Nat) (p q : List Fr) (hp : p.length ≤ N) (hq : q.length ≤ N) (x y : Fr)
    (hy : y ≠ (polyOf p).eval x) : (singleAccepts B g1 g2 N scale p q x y).encard ≤ N := by
  obtain ⟨h1, h2⟩ := single_gap hy (by omega : 1 ≤ N) hp hq
  exact encard_roots h1 h2 fun s hs => singleAccepts_root hB hN hp hq hs (.inr hM) (.inr hP)

/-- C163 (blst-from-scratch): and for at most `N + 2` whatever they do with it. -/
theorem C163_blst_any {B : Backend G1 G2 GT} {g1 : G1} {g2 : G2} (hB : B.Lawful g1 g2)
    {N : Nat} (hN : 2 ≤ N) (scale : Nat) (p q : List Fr) (hp : p.length ≤ N) (hq : q.length ≤ N) (x y : Fr)
    (hy : y ≠ (polyOf p).eval x) : (singleAccepts B g1 g2 N scale p q x y).encard ≤ N + 2 := by
  obtain ⟨h1, h2⟩ := single_gap hy (by omega : 1 ≤ N) hp hq
  have h3 : (singleAccepts B g1 g2 N scale p q x y \ {0, x}).encard ≤ N := by
    refine encard_roots h1 h2 fun s hs => ?_
    have h4 := hs.2
    simp only [Set.mem_insert_iff, Set.mem_singleton_iff, not_or] at h4
    exact singleAccepts_root hB hN hp hq hs.1 (.inl h4.1) (.inl (Ne.symm h4.2))
  refine (Set.encard_le_encard (t := (singleAccepts B g1 g2 N scale p q x y \ {0, x}) ∪ {0, x}) ?_).trans ?_
  · intro s hs
    by_cases h : s ∈ ({0, x} : Set Fr)
    · exact .inr h
    · exact .inl ⟨hs, h⟩
  · exact (Set.encard_union_le _ _).trans (add_le_add h3 ((Set.encard_insert_le _ _).trans (by rw [Set.encard_singleton]; rfl)))


/-- C163 (no better bound): for every set of `N` secrets that contains neither zero nor the opened point there are polynomials
and a wrong value that are accepted for all of them. -/
theorem C163_blst_tight {B : Backend G1 G2 GT} {g1 : G1} {g2 : G2} (hB : B.Lawful g1 g2) {N scale : Nat} (hN : 2 ≤ N)
    (hs : scale < 32) (hw : 2 ^ scale ≤ N) (x : Fr) (A : Finset Fr) (hA : A.card = N) (h0 : 0 ∉ A) (hx : x ∉ A) :
    ∃ (p q : List Fr) (y : Fr), p.length ≤ N ∧ q.length ≤ N ∧ y ≠ (polyOf p).eval x ∧
      (A : Set Fr) ⊆ singleAccepts B g1 g2 N scale p q x y := by
  obtain ⟨T, hT⟩ : ∃ T : Fr[X], T = ∏ a ∈ A, (X - C a) := ⟨_, rfl⟩
  have hd : T.natDegree = N := by rw [hT, natDegree_prod_of_monic _ _ fun a _ => monic_X_sub_C a]; simp [hA]
  have hTx : T.eval x ≠ 0 := by
    rw [hT, eval_prod, Finset.prod_ne_zero_iff]
    intro a ha
    rw [eval_sub, eval_X, eval_C]
    exact sub_ne_zero.2 fun h => hx (h ▸ ha)
  obtain ⟨Q, hQ⟩ : ∃ Q : Fr[X], Q = -(T / (X - C x)) := ⟨_, rfl⟩
  have hQd : Q.natDegree < N := by
    rw [hQ, natDegree_neg, ← divByMonic_eq_div _ (monic_X_sub_C x), natDegree_divByMonic _ (monic_X_sub_C x), natDegree_X_sub_C, hd]; omega
  have hp : polyOf [T.eval x] = C (T.eval x) := by
    ext i
    rw [coeff_polyOf, coeff_C]
    cases i <;> simp
  have hq : polyOf ((List.range N).map Q.coeff) = Q := polyOf_coeffs hQd
  have hTdiv : polyOf [T.eval x] - C 0 - (X - C x) * polyOf ((List.range N).map Q.coeff) = T := by
    rw [hp, hq, hQ, C_0]
    have := EuclideanDomain.div_add_mod T (X - C x)
    rw [mod_X_sub_C_eq_C_eval] at this
    linear_combination this
  refine ⟨[T.eval x], (List.range N).map Q.coeff, 0, by simp; omega, by simp, ?_, ?_⟩
  · rw [hp, eval_C]; exact hTx.symm
  · intro s hs'
    have hs0 : s ≠ 0 := fun h => h0 (h ▸ hs')
    have hsx : x ≠ s := fun h => hx (h ▸ hs')
    obtain ⟨ks, hks⟩ := madeFrom_exists g1 g2 scale N hs hw ((List.range 32).map fun i => s.val / 256 ^ i % 256)
    rw [bytesVal_digits, Nat.mod_eq_of_lt ((ZMod.val_lt s).trans (by decide +kernel)), ZMod.natCast_zmod_val] at hks
    refine ⟨ks, _, _, hks, C25_commit hB hks _ (by simp; omega) (.inl hs0),
      C25_commit hB hks _ (by simp) (.inl hs0), ?_⟩
    rw [(C27_single_accepts_iff hB hks hN _ _ x 0 (.inl hsx)).2, smul_smul, ← sub_smul, smul_inj' hB.ne]
    have h1 := congrArg (eval s) hTdiv
    have h2 : T.eval s = 0 := by
      rw [hT, eval_prod]
      exact Finset.prod_eq_zero hs' (by rw [eval_sub, eval_X, eval_C, sub_self])
    rw [h2, eval_sub, eval_sub, eval_C, eval_mul, eval_sub, eval_X, eval_C] at h1
    linear_combination h1

theorem toyBackend_total : toyBackend.MsmTotal ∧ toyBackend.PairTotal :=
  ⟨fun _ _ _ => rfl, fun P => by simp [toyBackend]⟩

/-- In the model of the assumptions: the value 163 of `1 + 2x + 3x²` at 7, which is 162, with the commitment to
`10 + x` as proof, gets through for at most four secrets when the setup has four points. -/
example : (singleAccepts toyBackend (1 : Fr) (1 : Fr) 4 2 [1, 2, 3] [10, 1] 7 163).encard ≤ 4 :=
  C163_blst toyBackend_lawful toyBackend_total.1 toyBackend_total.2 (by norm_num) 2 _ _ (by norm_num) (by norm_num) _ _ (by
    rw [eval_polyOf]; simp [Finset.sum_range_succ]; decide +kernel)

/-- The secrets 1, 2, 3, 4 all let some wrong value at 7 through. -/
example : ∃ (p q : List Fr) (y : Fr), y ≠ (polyOf p).eval 7 ∧
    ({1, 2, 3, 4} : Set Fr) ⊆ singleAccepts toyBackend (1 : Fr) (1 : Fr) 4 2 p q 7 y := by
  obtain ⟨p, q, y, -, -, h1, h2⟩ := C163_blst_tight toyBackend_lawful (N := 4) (scale := 2) (by norm_num) (by norm_num)
    (by norm_num) 7 {1, 2, 3, 4} (by decide +kernel) (by decide +kernel) (by decide +kernel)
  exact ⟨p, q, y, h1, by simpa using h2⟩

/-- C163 (mcl): at most `N` secrets. -/
theorem C163_mcl [Mcl.Lib Fr] {B : Mcl.Backend G1 G2 GT} {g1 : G1} {g2 : G2} (hB : B.Lawful g1 g2)
    {N : Nat} (hN : 2 ≤ N) (scale : Nat) (p q : List Fr) (hp : p.length ≤ N) (hq : q.length ≤ N) (x y : Fr)
    (hy : y ≠ (polyOf p).eval x) :
    {s | ∃ ks com proof, MclMade ks g1 g2 N scale s ∧ Mcl.commit B ks.secretG1 p = .ok com ∧
      Mcl.commit B ks.secretG1 q = .ok proof ∧ Mcl.checkProofSingle B g1 g2 ks com proof x y = .ok true}.encard ≤ N := by
  obtain ⟨h1, h2⟩ := single_gap hy (by omega : 1 ≤ N) hp hq
  refine encard_roots h1 h2 fun s hs => ?_
  obtain ⟨ks, com, proof, h, e1, e2, e3⟩ := hs
  rw [(C108_commit hB h p).1 hp] at e1
  rw [(C108_commit hB h q).1 hq] at e2
  cases e1; cases e2
  rw [(C108_single_accepts_iff hB h hN _ _ x y).2, smul_smul, ← sub_smul, smul_inj' hB.ne] at e3
  rw [eval_sub, eval_sub, eval_C, eval_mul, eval_sub, eval_X, eval_C, e3, sub_self]

/-- C163 (Arkworks): at most `N` secrets. -/
theorem C163_ark {B : Ark.Backend P G1 G2 GT} {g1 : G1} {g2 : G2} (hB : B.Lawful g1 g2)
    {N : Nat} (hN : 1 ≤ N) (scale : Nat) (p q : List Fr) (hp : p.length ≤ N) (hq : q.length ≤ N) (x y : Fr)
    (hy : y ≠ (polyOf p).eval x) :
    {s | ∃ ks com proof, ArkMade B ks g1 g2 N scale s ∧ ks.commit p = .ok com ∧ ks.commit q = .ok proof ∧
      ks.checkSingle B com proof x y = .ok true}.encard ≤ N := by
  obtain ⟨h1, h2⟩ := single_gap hy hN hp hq
  refine encard_roots h1 h2 fun s hs => ?_
  obtain ⟨ks, com, proof, h, e1, e2, e3⟩ := hs
  rw [(C127_commit hB h p).1 hN hp] at e1
  rw [(C127_commit hB h q).1 hN hq] at e2
  cases e1; cases e2
  rw [(C127_single_accepts_iff hB h hN _ _ x y).2, smul_smul, ← sub_smul, smul_inj' hB.ne] at e3
  rw [eval_sub, eval_sub, eval_C, eval_mul, eval_sub, eval_X, eval_C, e3, sub_self]

open Kzg.Zk Kzg.Zk.Top Kzg.Zk.ScW in
/-- C163 (zkcrypto): at most `N` secrets in a build with overflow checks, in which the values that are multiplied wrongly panic. -/
theorem C163_zk {N : Nat} (hN : 2 ≤ N) (scale : Nat) (p q : List ScW) (hp : p.length ≤ N) (hq : q.length ≤ N) (x y : ScW)
    (hy : y ≠ (polyOf p).eval x) :
    {s | ∃ ks com proof, ZkMadeFrom true ks N scale s ∧ commitToPoly ks p = .ok com ∧ commitToPoly ks q = .ok proof ∧
      checkProofSingle true ks com proof x y = .ok true}.encard ≤ N := by
  obtain ⟨h1, h2⟩ := single_gap hy (by omega : 1 ≤ N) hp hq
  refine encard_roots h1 h2 fun s hs => ?_
  obtain ⟨ks, com, proof, h, e1, e2, e3⟩ := hs
  obtain ⟨c, f1, hc⟩ := C87_commit h p hp
  obtain ⟨d, f2, hd⟩ := C87_commit h q hq
  cases f1.symm.trans e1
  cases f2.symm.trans e2
  have hy' : ¬ RoundingOverflows (el y).val := fun ho => by rw [C88_debug_panics h hN _ _ x y ho] at e3; cases e3
  rw [C88_accepts_iff h hN hc hd x y hy'] at e3
  rw [eval_sub, eval_sub, eval_C, eval_mul, eval_sub, eval_X, eval_C, of_decide_eq_true (Res.ok.inj e3), mul_comm, sub_self]

/-! ## C164: single proofs of zkcrypto without overflow checks -/

open Kzg.Zk Kzg.Zk.Top Kzg.Zk.ScW

/-- The secrets with which a release build of zkcrypto accepts. -/
def zkReleaseAccepts (N scale : Nat) (p q : List ScW) (x y : ScW) : Set ScW :=
  {s | ∃ ks com proof, ZkMadeFrom false ks N scale s ∧ commitToPoly ks p = .ok com ∧ commitToPoly ks q = .ok proof ∧
    checkProofSingle false ks com proof x y = .ok true}

/-- The full statement of C164: what C163 says of the other builds. -/
def ReleaseSound : Prop :=
  ∀ (N scale : Nat) (p q : List ScW) (x y : ScW), 2 ≤ N → p.length ≤ N → q.length ≤ N → y ≠ (polyOf p).eval x →
    (zkReleaseAccepts N scale p q x y).encard ≤ N

/-- C164 (partial): at most `N` secrets for the values that are multiplied rightly. Missing from the full statement
`ReleaseSound`: the other values, for which it is false (`C164_forged`). -/
theorem C164_partial {N : Nat} (hN : 2 ≤ N) (scale : Nat) (p q : List ScW) (hp : p.length ≤ N) (hq : q.length ≤ N) (x y : ScW)
    (hy : y ≠ (polyOf p).eval x) (hr : ¬ RoundingOverflows (el y).val) :
    (zkReleaseAccepts N scale p q x y).encard ≤ N := by
  obtain ⟨h1, h2⟩ := single_gap hy (by omega : 1 ≤ N) hp hq
  refine encard_roots h1 h2 fun s hs => ?_
  obtain ⟨ks, com, proof, h, e1, e2, e3⟩ := hs
  obtain ⟨c, f1, hc⟩ := C87_commit h p hp
  obtain ⟨d, f2, hd⟩ := C87_commit h q hq
  cases f1.symm.trans e1
  cases f2.symm.trans e2
  rw [C88_accepts_iff h hN hc hd x y hr] at e3
  rw [eval_sub, eval_sub, eval_C, eval_mul, eval_sub, eval_X, eval_C, of_decide_eq_true (Res.ok.inj e3), mul_comm, sub_self]

theorem wrongScalar_ne : wrongScalar ≠ 0 := by
  intro h
  have h1 := congrArg el h
  rw [wrongScalar_el, el_zero, ZMod.intCast_zmod_eq_zero_iff_dvd] at h1
  exact absurd (Int.emod_eq_zero_of_dvd h1) (by decide +kernel)

theorem wrong_accepts {chk : Bool} {ks : Settings} {N scale : Nat} {s : ScW} (h : ZkMadeFrom chk ks N scale s) (hN : 2 ≤ N)
    {com proof : Zk.G1.Proj} {c π : ScW} (hc : At1 com c) (hp : At1 proof π) (x : ScW) :
    checkProofSingle false ks com proof x badScalar = .ok (decide (c - wrongScalar = π * (s - x))) := by
  obtain ⟨q, eq, hz⟩ := at1_mul_bad at1_gen
  rw [mul_one] at hz
  obtain ⟨s2, e2, h2⟩ := h.setup.1.s2.getElem? (i := 1) (b := s) (by
    rw [List.getElem?_map, List.getElem?_range (by omega), Option.map_some, pow_one])
  have hx := at2_mul (s := x) at2_gen
  rw [mul_one] at hx
  rw [checkProofSingle, rd_of_getElem? e2, bind_ok, eq, bind_ok,
    verify_at (at1_sub hc hz) at2_gen hp (at2_sub h2 hx), mul_one]

/-- Example for C164: the polynomial `X` does not have the value one at zero; with the proof for `1 + X` at most two secrets
accept that claim. -/
example : (zkReleaseAccepts 2 1 [0, 1] [1, 1] 0 1).encard ≤ 2 := by
  refine C164_partial (le_refl 2) 1 [0, 1] [1, 1] (by norm_num) (by norm_num) 0 1 ?_ (C54_small_scalars ?_)
  · rw [← coeff_zero_eq_eval_zero, coeff_polyOf]
    exact one_ne_zero
  · rw [el_one, ZMod.val_one]
    norm_num

/-- C164 (a forged value): there are two different numbers `w` and `y` such that with all settings and at all points, and for
every polynomial with the value `w` there, the commitment and the proof that the code computes are accepted with the value
`y`. -/
theorem C164_forged : ∃ w y : ScW, w ≠ y ∧ ∀ (chk : Bool) (ks : Settings) (N scale : Nat) (s : ScW) (p : List ScW) (x : ScW),
    ZkMadeFrom chk ks N scale s → 2 ≤ N → p.length ≤ N → p.length ≤ 2 ^ 30 → (polyOf p).eval x = w →
    ∃ com proof, commitToPoly ks p = .ok com ∧ computeProofSingle ks p x = .ok proof ∧
      checkProofSingle false ks com proof x y = .ok true := by
  refine ⟨wrongScalar, badScalar, wrong_ne_bad, fun chk ks N scale s p x h hN hp hp' hw => ?_⟩
  have hp0 : polyOf p ≠ 0 := fun h0 => wrongScalar_ne (by rw [← hw, h0, eval_zero])
  obtain ⟨com, e, hc⟩ := C87_commit h p hp
  have hd := zk_natDegree_lt hp0
  obtain ⟨proof, e', hq⟩ := h.setup.1.computeMulti p x (m := 0) hp0 (by omega) (by omega)
  rw [pow_zero] at e'
  refine ⟨com, proof, e, e', ?_⟩
  rw [wrong_accepts h hN hc hq]
  congr 1
  rw [decide_eq_true_iff]
  have := congrArg (eval s) (zk_linear_div p x)
  rw [eval_add, eval_mul, eval_sub, eval_X, eval_C, eval_C, hw] at this
  linear_combination this

theorem zk_small_secret (k : Nat) (hk : k < 256) : ∃ ks s, ZkMadeFrom false ks 2 1 s ∧ el s = (k : Fr) := by
  have hv : fromLe (toLe 32 k) = k := by
    rw [fromLe_toLe, Nat.mod_eq_of_lt (hk.trans (by norm_num))]
  have hg : ∀ i < 2, ¬ RoundingOverflows (fromLe (toLe 32 k) ^ i % frModulus) := by
    intro i hi
    rw [hv]
    refine C54_small_scalars (lt_of_le_of_lt (Nat.mod_le _ _) ?_)
    have : k ^ i ≤ 256 ^ 2 := (Nat.pow_le_pow_left hk.le i).trans (Nat.pow_le_pow_right (by norm_num) hi.le)
    exact lt_of_le_of_lt this (by norm_num)
  have hlt : fromLe (toLe 32 k) < frModulus := by rw [hv]; exact hk.trans (by decide +kernel)
  obtain ⟨s1, s2, e, -⟩ := C86_setup_partial false 2 (toLe_length 32 k) (toLe_bytes _ _) hlt hg
  obtain ⟨fs, hfs, -⟩ := new_spec (F := ScW) (k := 1) (by norm_num)
  obtain ⟨s, hs⟩ := el_surj ((fromLe (toLe 32 k) : Nat) : Fr)
  exact ⟨⟨fs, s1, s2⟩, s, ⟨fs, toLe 32 k, s1, s2, toLe_length .., toLe_bytes _ _, hs, .inr hg, hfs, e, rfl⟩, by rw [hs, hv]⟩

/-- C164 is false: with two points and the values above every small secret is accepted. -/
theorem C164_full_statement_false : ¬ ReleaseSound := by
  intro h
  have hw : polyOf [wrongScalar] = C wrongScalar := by
    ext i
    rw [coeff_polyOf, coeff_C]
    cases i <;> simp
  have h1 := h 2 1 [wrongScalar] [] 0 badScalar (by norm_num) (by norm_num) (by norm_num) (by
    rw [hw, eval_C]; exact wrong_ne_bad.symm)
  have h2 : ∀ k : Nat, k < 3 → ∃ s ∈ zkReleaseAccepts 2 1 [wrongScalar] [] 0 badScalar, el s = (k : Fr) := by
    intro k hk
    obtain ⟨ks, s, hs, e⟩ := zk_small_secret k (by omega)
    obtain ⟨c, f1, hc⟩ := C87_commit hs [wrongScalar] (by norm_num)
    obtain ⟨d, f2, hd⟩ := C87_commit hs [] (by norm_num)
    refine ⟨s, ⟨ks, c, d, hs, f1, f2, ?_⟩, e⟩
    rw [wrong_accepts hs (by norm_num) hc hd, hw, eval_C, polyOf_nil, eval_zero, sub_self, zero_mul]
    simp
  obtain ⟨a, ha, ea⟩ := h2 0 (by norm_num)
  obtain ⟨b, hb, eb⟩ := h2 1 (by norm_num)
  obtain ⟨c, hc, ec⟩ := h2 2 (by norm_num)
  have hab : a ≠ b := by rintro rfl; rw [ea] at eb; exact absurd eb (by simp)
  have hac : a ≠ c := by rintro rfl; rw [ea] at ec; exact absurd ec (by decide +kernel)
  have hbc : b ≠ c := by rintro rfl; rw [eb] at ec; exact absurd ec (by decide +kernel)
  have h3 : ({a, b, c} : Set ScW).encard = 3 := Set.encard_eq_three.2 ⟨a, b, c, hab, hac, hbc, rfl⟩
  have h4 : ({a, b, c} : Set ScW) ⊆ zkReleaseAccepts 2 1 [wrongScalar] [] 0 badScalar := by
    intro t ht
    simp only [Set.mem_insert_iff, Set.mem_singleton_iff] at ht
    rcases ht with rfl | rfl | rfl <;> assumption
  have h5 := (Set.encard_le_encard h4).trans h1
  rw [h3] at h5
  exact absurd h5 (by norm_num)

/-! ## C165: proofs for many points -/

section
variable {K : Type} [Field K] [DecidableEq K]

theorem coset_interpolant {ω x : K} {n : Nat} (hω : IsPrimitiveRoot ω n) (hx : x ≠ 0) (ys : List K) (hys : ys.length = n) :
    ∃ I : K[X], I.degree < n ∧ ∀ i < n, ys[i]? = some (I.eval (x * ω ^ i)) := by
  have hinj : Set.InjOn (fun i => x * ω ^ i) (Finset.range n) := by
    intro i hi j hj hij
    simp only [Finset.coe_range, Set.mem_Iio] at hi hj
    exact hω.pow_inj hi hj (mul_left_cancel₀ hx hij)
  refine ⟨Lagrange.interpolate (Finset.range n) (fun i => x * ω ^ i) (fun i => ys.getD i 0), ?_, fun i hi => ?_⟩
  · have := Lagrange.degree_interpolate_lt (fun i => ys.getD i 0) hinj
    rwa [Finset.card_range] at this
  · have := Lagrange.eval_interpolate_at_node (fun i => ys.getD i 0) hinj (Finset.mem_range.mpr hi)
    rw [this, List.getD_eq_getElem?_getD, List.getElem?_eq_getElem (by omega), Option.getD_some]

/-- From the acceptance condition to the number of secrets. -/
theorem multi_count {S : Set K} {p q ys : List K} {x ω : K} {n N : Nat} (hn : 0 < n) (hN : 1 ≤ N) (hp : p.length ≤ N)
    (hq : q.length ≤ N) (hx : x ≠ 0) (hys : ys.length = n)
    (hbad : ∃ i < n, ys[i]? ≠ some ((polyOf p).eval (x * ω ^ i)))
    (hS : ∀ s ∈ S, IsPrimitiveRoot ω n ∧ ∀ I : K[X], I.degree < n → (∀ i < n, ys[i]? = some (I.eval (x * ω ^ i))) →
      (polyOf p).eval s - I.eval s = (s ^ n - x ^ n) * (polyOf q).eval s) : S.encard ≤ ((N + n - 1 : Nat) : ℕ∞) := by
  rcases S.eq_empty_or_nonempty with rfl | ⟨s, hs⟩
  · simp
  obtain ⟨hω, -⟩ := hS s hs
  obtain ⟨I, hI, hIv⟩ := coset_interpolant hω hx ys hys
  obtain ⟨h1, h2⟩ := multi_gap hn hω.pow_eq_one hI (p := p) (q := q) (x := x) (by
    obtain ⟨i, hi, hne⟩ := hbad
    exact ⟨i, hi, fun h => hne ((hIv i hi).trans (by rw [h]))⟩) hN hp hq
  refine encard_roots h1 h2 fun t ht => ?_
  rw [eval_sub, eval_sub, eval_mul, eval_sub, eval_pow, eval_X, eval_C, (hS t ht).2 I hI hIv, sub_self]

end

/-- The secrets with which blst-from-scratch accepts the values `ys` on the coset of `x`, the commitment to `p` and the
commitment to `q` as proof, among the settings whose root of unity for `2^m` points is `ω`. -/
def multiAccepts (B : Backend G1 G2 GT) (g1 : G1) (g2 : G2) (N scale m : Nat) (ω : Fr) (p q : List Fr) (x : Fr)
    (ys : List Fr) : Set Fr :=
  {s | ∃ ks com proof, MadeFrom ks g1 g2 N scale s ∧ cosetRoot ks scale m = ω ∧ ks.commitToPoly B p = .ok com ∧
    ks.commitToPoly B q = .ok proof ∧ ks.checkProofMulti B g2 com proof x ys (2 ^ m) = .ok true}

theorem multiAccepts_eq {B : Backend G1 G2 GT} {g1 : G1} {g2 : G2} (hB : B.Lawful g1 g2) {N scale m : Nat} (hm : m ≤ scale)
    (hN : 2 ^ m < N) {ω x s : Fr} {p q ys : List Fr} (hp : p.length ≤ N) (hq : q.length ≤ N) (hx : x ≠ 0)
    (hys : ys.length = 2 ^ m) (hs : s ∈ multiAccepts B g1 g2 N scale m ω p q x ys) (h0 : s ≠ 0 ∨ B.MsmTotal)
    (hxs : x ^ 2 ^ m ≠ s ^ 2 ^ m ∨ B.PairTotal) : IsPrimitiveRoot ω (2 ^ m) ∧ ∀ I : Fr[X], I.degree < (2 ^ m : Nat) →
      (∀ i < 2 ^ m, ys[i]? = some (I.eval (x * ω ^ i))) →
      (polyOf p).eval s - I.eval s = (s ^ 2 ^ m - x ^ 2 ^ m) * (polyOf q).eval s := by
  obtain ⟨ks, com, proof, h, rfl, e1, e2, e3⟩ := hs
  rw [C25_commit hB h p hp (h0.imp id .inr)] at e1
  rw [C25_commit hB h q hq (h0.imp id .inr)] at e2
  cases e1; cases e2
  refine ⟨cosetRoot_prim h hm, fun I hI hIv => ?_⟩
  rwa [(C29_multi_accepts_iff hB h hm hN _ _ x hx ys hys (h0.imp id .inr) hxs I hI hIv).2, smul_smul, ← sub_smul,
    smul_inj' hB.ne] at e3

/-- C165 (blst-from-scratch): values of which one is wrong are accepted for at most `N + n - 1` secrets, `n` the number of
points, if the foreign functions treat the identity well; -/
theorem C165_blst {B : Backend G1 G2 GT} {g1 : G1} {g2 : G2} (hB : B.Lawful g1 g2) (hM : B.MsmTotal) (hP : B.PairTotal)
    {N scale m : Nat} (hm : m ≤ scale) (hN : 2 ^ m < N) (ω x : Fr) (p q ys : List Fr) (hp : p.length ≤ N) (hq : q.length ≤ N)
    (hx : x ≠ 0) (hys : ys.length = 2 ^ m) (hbad : ∃ i < 2 ^ m, ys[i]? ≠ some ((polyOf p).eval (x * ω ^ i))) :
    (multiAccepts B g1 g2 N scale m ω p q x ys).encard ≤ ((N + 2 ^ m - 1 : Nat) : ℕ∞) :=
  multi_count (by positivity) (by omega) hp hq hx hys hbad fun _ hs =>
    multiAccepts_eq hB hm hN hp hq hx hys hs (.inr hM) (.inr hP)

/-- C165 (blst-from-scratch): and for at most `N + 2n` whatever they do with it. -/
theorem C165_blst_any {B : Backend G1 G2 GT} {g1 : G1} {g2 : G2} (hB : B.Lawful g1 g2)
    {N scale m : Nat} (hm : m ≤ scale) (hN : 2 ^ m < N) (ω x : Fr) (p q ys : List Fr) (hp : p.length ≤ N) (hq : q.length ≤ N)
    (hx : x ≠ 0) (hys : ys.length = 2 ^ m) (hbad : ∃ i < 2 ^ m, ys[i]? ≠ some ((polyOf p).eval (x * ω ^ i))) :
    (multiAccepts B g1 g2 N scale m ω p q x ys).encard ≤ ((N + 2 * 2 ^ m : Nat) : ℕ∞) := by
  obtain ⟨E, hE⟩ : ∃ E : Set Fr, E = {s | s = 0 ∨ x ^ 2 ^ m = s ^ 2 ^ m} := ⟨_, rfl⟩
  have hn : 0 < 2 ^ m := by positivity
  have hEc : E.encard ≤ ((2 ^ m + 1 : Nat) : ℕ∞) := by
    refine encard_roots (f := X * (X ^ 2 ^ m - C (x ^ 2 ^ m))) (mul_ne_zero X_ne_zero (X_pow_sub_C_ne_zero hn _)) ?_ ?_
    · refine natDegree_mul_le.trans ?_
      rw [natDegree_X, natDegree_X_pow_sub_C]; omega
    · intro s hs
      rw [hE] at hs
      rw [eval_mul, eval_sub, eval_pow, eval_X, eval_C]
      rcases hs with rfl | h
      · rw [zero_mul]
      · rw [h, sub_self, mul_zero]
  have h3 : (multiAccepts B g1 g2 N scale m ω p q x ys \ E).encard ≤ ((N + 2 ^ m - 1 : Nat) : ℕ∞) := by
    refine multi_count hn (by omega) hp hq hx hys hbad fun s hs => ?_
    have h4 := hs.2
    rw [hE] at h4
    have h5 := not_or.1 h4
    exact multiAccepts_eq hB hm hN hp hq hx hys hs.1 (.inl h5.1) (.inl h5.2)
  refine (Set.encard_le_encard (t := (multiAccepts B g1 g2 N scale m ω p q x ys \ E) ∪ E) ?_).trans ?_
  · intro s hs
    by_cases h : s ∈ E
    · exact .inr h
    · exact .inl ⟨hs, h⟩
  · refine (Set.encard_union_le _ _).trans ((add_le_add h3 hEc).trans ?_)
    rw [← Nat.cast_add, Nat.cast_le]
    omega

/-- In the model of the assumptions: the values 3 and 10 of `1 + 2x` at 1 and -1 get through, with the commitment to 5 as
proof, for at most five secrets when the setup has four points. -/
example : (multiAccepts toyBackend (1 : Fr) (1 : Fr) 4 2 1 (-1) [1, 2] [5] 1 [3, 10]).encard ≤ 5 :=
  C165_blst toyBackend_lawful toyBackend_total.1 toyBackend_total.2 (m := 1) (by norm_num) (by norm_num) (-1) 1 _ _ _ (by norm_num)
    (by norm_num) one_ne_zero (by norm_num) ⟨1, by norm_num, by
      rw [eval_polyOf]; simp [Finset.sum_range_succ]; decide +kernel⟩

/-- C165 (mcl): at most `N + n - 1` secrets. -/
theorem C165_mcl [Mcl.Lib Fr] {B : Mcl.Backend G1 G2 GT} {g1 : G1} {g2 : G2} (hB : B.Lawful g1 g2)
    {N scale m : Nat} (hm : m ≤ scale) (h30 : m ≤ 30) (hN : 2 ^ m < N) (ω x : Fr) (p q ys : List Fr) (hp : p.length ≤ N)
    (hq : q.length ≤ N) (hx : x ≠ 0) (hys : ys.length = 2 ^ m)
    (hbad : ∃ i < 2 ^ m, ys[i]? ≠ some ((polyOf p).eval (x * ω ^ i))) :
    {s | ∃ ks com proof, MclMade ks g1 g2 N scale s ∧ cosetRoot ks scale m = ω ∧ Mcl.commit B ks.secretG1 p = .ok com ∧
      Mcl.commit B ks.secretG1 q = .ok proof ∧
      Mcl.checkProofMulti B g2 ks com proof x ys (2 ^ m) = .ok true}.encard ≤ ((N + 2 ^ m - 1 : Nat) : ℕ∞) := by
  refine multi_count (by positivity) (by omega) hp hq hx hys hbad fun s hs => ?_
  obtain ⟨ks, com, proof, h, rfl, e1, e2, e3⟩ := hs
  rw [(C108_commit hB h p).1 hp] at e1
  rw [(C108_commit hB h q).1 hq] at e2
  cases e1; cases e2
  refine ⟨mcl_root_prim h hm, fun I hI hIv => ?_⟩
  rwa [(C109_multi_accepts_iff hB h hm h30 hN _ _ x hx ys hys I hI hIv).2, smul_smul, ← sub_smul, smul_inj' hB.ne] at e3

/-- C165 (Arkworks): at most `N + n - 1` secrets. -/
theorem C165_ark {B : Ark.Backend P G1 G2 GT} {g1 : G1} {g2 : G2} (hB : B.Lawful g1 g2)
    {N scale m : Nat} (hm : m ≤ scale) (hN : 2 ^ m ≤ N) (ω x : Fr) (p q ys : List Fr) (hp : p.length ≤ N)
    (hq : q.length ≤ N) (hx : x ≠ 0) (hys : ys.length = 2 ^ m)
    (hbad : ∃ i < 2 ^ m, ys[i]? ≠ some ((polyOf p).eval (x * ω ^ i))) :
    {s | ∃ ks com proof, ArkMade B ks g1 g2 N scale s ∧ domainRoot ks.fs scale m = ω ∧ ks.commit p = .ok com ∧
      ks.commit q = .ok proof ∧ ks.checkMulti B com proof x ys (2 ^ m) = .ok true}.encard ≤ ((N + 2 ^ m - 1 : Nat) : ℕ∞) := by
  have hn : 0 < 2 ^ m := by positivity
  refine multi_count hn (by omega) hp hq hx hys hbad fun s hs => ?_
  obtain ⟨ks, com, proof, h, rfl, e1, e2, e3⟩ := hs
  rw [(C127_commit hB h p).1 (by omega) hp] at e1
  rw [(C127_commit hB h q).1 (by omega) hq] at e2
  cases e1; cases e2
  refine ⟨ark_root_prim hB h hm, fun I hI hIv => ?_⟩
  rwa [(C128_multi_accepts_iff hB h hm hN _ _ x hx ys hys I hI hIv).2, smul_smul, ← sub_smul, smul_inj' hB.ne] at e3

/-- C165 (zkcrypto): at most `N + n - 1` secrets in either build. -/
theorem C165_zk (chk : Bool) {N scale m : Nat} (hm : m ≤ scale) (hN : 2 ^ m < N) (ω x : ScW) (p q ys : List ScW)
    (hp : p.length ≤ N) (hq : q.length ≤ N) (hx : x ≠ 0) (hys : ys.length = 2 ^ m)
    (hbad : ∃ i < 2 ^ m, ys[i]? ≠ some ((polyOf p).eval (x * ω ^ i))) :
    {s | ∃ ks com proof, ZkMadeFrom chk ks N scale s ∧ zkCosetRoot ks scale m = ω ∧ commitToPoly ks p = .ok com ∧
      commitToPoly ks q = .ok proof ∧
      checkProofMulti ks com proof x ys (2 ^ m) = .ok true}.encard ≤ ((N + 2 ^ m - 1 : Nat) : ℕ∞) := by
  refine multi_count (by positivity) (by omega) hp hq hx hys hbad fun s hs => ?_
  obtain ⟨ks, com, proof, h, rfl, e1, e2, e3⟩ := hs
  obtain ⟨c, f1, hc⟩ := C87_commit h p hp
  obtain ⟨d, f2, hd⟩ := C87_commit h q hq
  cases f1.symm.trans e1
  cases f2.symm.trans e2
  refine ⟨zkCosetRoot_prim h hm, fun I hI hIv => ?_⟩
  rw [C89_accepts_iff h hm hN hc hd x hx ys hys I hI hIv] at e3
  rw [of_decide_eq_true (Res.ok.inj e3), mul_comm]

/-! ## C166: commitments -/

section
variable {K : Type} [Field K] [DecidableEq K]

theorem commit_gap {p q : List K} (hpq : polyOf p ≠ polyOf q) {N : Nat} (hp : p.length ≤ N) (hq : q.length ≤ N) {S : Set K}
    (hS : ∀ s ∈ S, (polyOf p).eval s = (polyOf q).eval s) : S.encard ≤ ((N - 1 : Nat) : ℕ∞) := by
  have h1 := natDegree_polyOf_lt p (n := N - 1) (by omega)
  have h2 := natDegree_polyOf_lt q (n := N - 1) (by omega)
  exact encard_roots (sub_ne_zero.2 hpq) ((natDegree_sub_le _ _).trans (max_le h1 h2)) fun s hs => by
    rw [eval_sub, hS s hs, sub_self]

end

/-- C166 (blst-from-scratch): two different polynomials have the same commitment for at most `N - 1` secrets, not counting zero
unless the foreign functions treat the identity well. -/
theorem C166_blst {B : Backend G1 G2 GT} {g1 : G1} {g2 : G2} (hB : B.Lawful g1 g2) (N scale : Nat) (p q : List Fr)
    (hp : p.length ≤ N) (hq : q.length ≤ N) (hpq : polyOf p ≠ polyOf q) :
    {s | (s ≠ 0 ∨ B.MsmTotal) ∧ ∃ ks com, MadeFrom ks g1 g2 N scale s ∧ ks.commitToPoly B p = .ok com ∧
      ks.commitToPoly B q = .ok com}.encard ≤ ((N - 1 : Nat) : ℕ∞) := by
  refine commit_gap hpq hp hq fun s hs => ?_
  obtain ⟨h0, ks, com, h, e1, e2⟩ := hs
  rw [C25_commit hB h p hp (h0.imp id .inr)] at e1
  rw [C25_commit hB h q hq (h0.imp id .inr)] at e2
  exact (smul_inj' hB.ne).1 (Res.ok.inj (e1.trans e2.symm))

/-- In the model of the assumptions: `1 + 2x` and `5` have the same commitment with the secret 2 and with no other. -/
example : {s | (s ≠ 0 ∨ toyBackend.MsmTotal) ∧ ∃ ks com, MadeFrom ks (1 : Fr) (1 : Fr) 2 1 s ∧
    ks.commitToPoly toyBackend [1, 2] = .ok com ∧ ks.commitToPoly toyBackend [5] = .ok com} = {(2 : Fr)} := by
  have e1 : ∀ s : Fr, (polyOf [(1 : Fr), 2]).eval s = 1 + 2 * s := fun s => by
    rw [eval_polyOf]; simp [Finset.sum_range_succ]
  have e2 : ∀ s : Fr, (polyOf [(5 : Fr)]).eval s = 5 := fun s => by
    rw [eval_polyOf]; simp
  ext s
  constructor
  · rintro ⟨h0, ks, com, h, h1, h2⟩
    rw [C25_commit toyBackend_lawful h _ (by norm_num) (h0.imp id .inr), e1] at h1
    rw [C25_commit toyBackend_lawful h _ (by norm_num) (h0.imp id .inr), e2] at h2
    have h3 := (smul_inj' toyBackend_lawful.ne).1 (Res.ok.inj (h1.trans h2.symm))
    rw [Set.mem_singleton_iff]
    have h4 : (2 : Fr) * (s - 2) = 0 := by linear_combination h3
    rcases mul_eq_zero.1 h4 with h5 | h5
    · exact absurd h5 (by decide +kernel)
    · exact sub_eq_zero.1 h5
  · rintro rfl
    obtain ⟨ks, h⟩ := madeFrom_exists (1 : Fr) (1 : Fr) 1 2 (by norm_num) (by norm_num) [2]
    rw [show ((bytesVal [2] : Nat) : Fr) = 2 by rw [show bytesVal [2] = 2 by decide]; rfl] at h
    have h20 : (2 : Fr) ≠ 0 := by decide +kernel
    refine ⟨.inl h20, ks, _, h, C25_commit toyBackend_lawful h _ (by norm_num) (.inl h20), ?_⟩
    rw [C25_commit toyBackend_lawful h _ (by norm_num) (.inl h20), e1, e2]
    norm_num

/-- C166 (mcl). -/
theorem C166_mcl {B : Mcl.Backend G1 G2 GT} {g1 : G1} {g2 : G2} (hB : B.Lawful g1 g2) (N scale : Nat) (p q : List Fr)
    (hp : p.length ≤ N) (hq : q.length ≤ N) (hpq : polyOf p ≠ polyOf q) :
    {s | ∃ ks com, MclMade ks g1 g2 N scale s ∧ Mcl.commit B ks.secretG1 p = .ok com ∧
      Mcl.commit B ks.secretG1 q = .ok com}.encard ≤ ((N - 1 : Nat) : ℕ∞) := by
  refine commit_gap hpq hp hq fun s hs => ?_
  obtain ⟨ks, com, h, e1, e2⟩ := hs
  rw [(C108_commit hB h p).1 hp] at e1
  rw [(C108_commit hB h q).1 hq] at e2
  exact (smul_inj' hB.ne).1 (Res.ok.inj (e1.trans e2.symm))

/-- C166 (Arkworks). -/
theorem C166_ark {B : Ark.Backend P G1 G2 GT} {g1 : G1} {g2 : G2} (hB : B.Lawful g1 g2) (N scale : Nat) (hN : 1 ≤ N)
    (p q : List Fr) (hp : p.length ≤ N) (hq : q.length ≤ N) (hpq : polyOf p ≠ polyOf q) :
    {s | ∃ ks com, ArkMade B ks g1 g2 N scale s ∧ ks.commit p = .ok com ∧
      ks.commit q = .ok com}.encard ≤ ((N - 1 : Nat) : ℕ∞) := by
  refine commit_gap hpq hp hq fun s hs => ?_
  obtain ⟨ks, com, h, e1, e2⟩ := hs
  rw [(C127_commit hB h p).1 hN hp] at e1
  rw [(C127_commit hB h q).1 hN hq] at e2
  exact (smul_inj' hB.ne).1 (Res.ok.inj (e1.trans e2.symm))

/-- C166 (zkcrypto): the commitments compare equal for at most `N - 1` secrets, in either build. -/
theorem C166_zk (chk : Bool) (N scale : Nat) (p q : List ScW) (hp : p.length ≤ N) (hq : q.length ≤ N)
    (hpq : polyOf p ≠ polyOf q) :
    {s | ∃ ks c d, ZkMadeFrom chk ks N scale s ∧ commitToPoly ks p = .ok c ∧ commitToPoly ks q = .ok d ∧
      c.ctEq d = true}.encard ≤ ((N - 1 : Nat) : ℕ∞) := by
  refine commit_gap hpq hp hq fun s hs => ?_
  obtain ⟨ks, c, d, h, e1, e2, e3⟩ := hs
  obtain ⟨c', d', f1, f2, hiff⟩ := C87_commit_eq h p q hp hq
  cases f1.symm.trans e1
  cases f2.symm.trans e2
  exact hiff.1 e3

end Kzg.Props
