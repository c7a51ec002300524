import Verif.Proofs.KZG
/-!
# Properties C25–C29: KZG commitments and proofs

`G1`, `G2`, `GT` are the groups, `B` the foreign functions, `g1`, `g2` the generators;
`B.Lawful g1 g2` is what is assumed of them (see `Verif.Proofs.KZG`).

Where the identity would be handed to the affine conversions of blst nothing is assumed, unless
`B.MsmTotal` (multi-scalar multiplication) or `B.PairTotal` (pairing) is given. The identity turns up
in the multi-scalar multiplication only if the secret is zero, and as second argument of the pairing
only if the opened point is the secret.
-/

set_option linter.unusedSectionVars false

namespace Kzg.Props
open Kzg Polynomial

variable {G1 G2 GT : Type} [AddCommGroup G1] [Module Fr G1] [AddCommGroup G2] [Module Fr G2]
  [CommGroup GT] [DecidableEq GT]

/-- `ks` was made by `generate_trusted_setup` of length `N` with the given secret bytes and
`KZGSettings::new`, over FFT settings of the given scale; `s` is the secret as a field element. -/
def MadeFrom (ks : KZGSettings Fr G1 G2) (g1 : G1) (g2 : G2) (N scale : Nat) (s : Fr) : Prop :=
  ∃ (fs : FFTSettings Fr) (secret : List Nat), FFTSettings.new scale = .ok fs ∧
    s = ((bytesVal secret : Nat) : Fr) ∧
    KZGSettings.new (generateTrustedSetup g1 g2 N secret).1 (generateTrustedSetup g1 g2 N secret).2 N fs
      = .ok ks

theorem MadeFrom.wf {ks : KZGSettings Fr G1 G2} {g1 : G1} {g2 : G2} {N scale : Nat} {s : Fr}
    (h : MadeFrom ks g1 g2 N scale s) : ks.WF g1 g2 s N scale := by
  obtain ⟨fs, secret, hfs, rfl, hks⟩ := h
  exact kzg_wf hfs hks

/-- Every secret below 2^256, scale below 32 and length from the width on can be used. -/
theorem madeFrom_exists (g1 : G1) (g2 : G2) (scale N : Nat) (hs : scale < 32) (hN : 2 ^ scale ≤ N)
    (secret : List Nat) :
    ∃ ks : KZGSettings Fr G1 G2, MadeFrom ks g1 g2 N scale ((bytesVal secret : Nat) : Fr) := by
  obtain ⟨fs, hfs, hwf⟩ := new_spec (F := Fr) hs
  refine ⟨_, fs, secret, hfs, rfl, kzgNew_ok ?_ ?_ (by rw [hwf.width]; exact hN)⟩ <;>
    rw [generateTrustedSetup_spec] <;> simp

/-- A model of the assumptions: the exponents themselves. -/
def toyBackend : Backend Fr Fr (Multiplicative Fr) where
  pippenger pts scalars := (List.zipWith (fun P c => c • P) pts scalars).sum
  pairing P Q := Multiplicative.ofAdd (P * Q)

theorem toyBackend_lawful : toyBackend.Lawful 1 1 where
  ne := one_ne_zero
  gen P := ⟨P, by simp⟩
  msm _ _ _ _ := rfl
  pair := ⟨Multiplicative.ofAdd, fun _ _ => rfl, fun a => by simp, fun a b _ => by simp [toyBackend]⟩

/-! ## C25 -/

/-- C25 (value): the commitment to every polynomial no longer than the setup is `p(s)` times the
generator. -/
theorem C25_commit {B : Backend G1 G2 GT} {g1 : G1} {g2 : G2} (hB : B.Lawful g1 g2)
    {ks : KZGSettings Fr G1 G2} {N scale : Nat} {s : Fr} (h : MadeFrom ks g1 g2 N scale s) (p : List Fr)
    (hp : p.length ≤ N) (hinf : s ≠ 0 ∨ p.length < 8 ∨ B.MsmTotal) :
    ks.commitToPoly B p = .ok ((polyOf p).eval s • g1) := h.wf.commit hB p hp hinf

/-- C25 (rejection): longer polynomials are an error. -/
theorem C25_commit_rejects {B : Backend G1 G2 GT} {g1 : G1} {g2 : G2} {ks : KZGSettings Fr G1 G2}
    {N scale : Nat} {s : Fr} (h : MadeFrom ks g1 g2 N scale s) (p : List Fr) (hp : N < p.length) :
    ∃ msg, ks.commitToPoly B p = .err msg := by
  unfold KZGSettings.commitToPoly
  rw [if_pos (by rw [h.wf.s1]; simpa using hp)]
  exact ⟨_, rfl⟩

/-- C25 (linearity): if the coefficients of `r` are `a` times those of `p` plus `b` times those of
`q`, so is its commitment. -/
theorem C25_commit_linear {B : Backend G1 G2 GT} {g1 : G1} {g2 : G2} (hB : B.Lawful g1 g2)
    {ks : KZGSettings Fr G1 G2} {N scale : Nat} {s : Fr} (h : MadeFrom ks g1 g2 N scale s) (p q r : List Fr)
    (hp : p.length ≤ N) (hq : q.length ≤ N) (hr : r.length ≤ N) (a b : Fr)
    (hpq : ∀ i, r.getD i 0 = a * p.getD i 0 + b * q.getD i 0) (hinf : s ≠ 0 ∨ B.MsmTotal) :
    ∃ cp cq, ks.commitToPoly B p = .ok cp ∧ ks.commitToPoly B q = .ok cq ∧
      ks.commitToPoly B r = .ok (a • cp + b • cq) := by
  have hi : ∀ n, s ≠ 0 ∨ n < 8 ∨ B.MsmTotal := fun n => hinf.imp id Or.inr
  refine ⟨_, _, C25_commit hB h p hp (hi _), C25_commit hB h q hq (hi _), ?_⟩
  rw [C25_commit hB h r hr (hi _)]
  have : polyOf r = C a * polyOf p + C b * polyOf q := by
    ext i
    rw [coeff_add, coeff_C_mul, coeff_C_mul, coeff_polyOf, coeff_polyOf, coeff_polyOf, hpq]
  rw [this, eval_add, eval_mul, eval_mul, eval_C, eval_C, add_smul, mul_smul, mul_smul]

/-- C25 (settings): the constructor returns an error exactly for a setup or length below the width,
panics (index out of bounds) if the length exceeds a long enough setup, and otherwise keeps the first
`length` points of each group. -/
theorem C25_settings_new (a : List G1) (b : List G2) (length : Nat) (fs : FFTSettings Fr) :
    (a.length < fs.maxWidth ∨ b.length < fs.maxWidth ∨ length < fs.maxWidth →
      ∃ msg, KZGSettings.new a b length fs = .err msg) ∧
    (fs.maxWidth ≤ a.length → fs.maxWidth ≤ b.length → fs.maxWidth ≤ length →
      (length ≤ a.length → length ≤ b.length →
        KZGSettings.new a b length fs = .ok ⟨fs, a.take length, b.take length⟩) ∧
      (a.length < length ∨ b.length < length → KZGSettings.new a b length fs = .panic)) := by
  constructor
  · intro h
    unfold KZGSettings.new
    by_cases h1 : a.length < fs.maxWidth
    · rw [if_pos h1]; exact ⟨_, rfl⟩
    rw [if_neg h1]
    by_cases h2 : b.length < fs.maxWidth
    · rw [if_pos h2]; exact ⟨_, rfl⟩
    rw [if_neg h2, if_pos (by omega)]
    exact ⟨_, rfl⟩
  · intro h1 h2 h3
    refine ⟨fun ha hb => kzgNew_ok ha hb h3, ?_⟩
    intro h
    unfold KZGSettings.new
    rw [if_neg (by omega), if_neg (by omega), if_neg (by omega)]
    have : forRange 0 length (([], []) : List G1 × List G2) (fun i s => do
        let x ← rd a i
        let y ← rd b i
        .ok (s.1 ++ [x], s.2 ++ [y])) = .panic := by
      refine forRange_panic (min a.length b.length) (fun _ _ => True) (by omega) (by omega) trivial ?_ ?_
      · intro i s _ hi _
        rw [rd_of_lt (by omega), Res.bind_ok, rd_of_lt (by omega), Res.bind_ok]
        exact Res.Sat.ok trivial
      · intro s _
        by_cases hab : a.length ≤ b.length
        · rw [rd_of_ge (by omega), Res.bind_panic]
        · rw [rd_of_lt (by omega), Res.bind_ok, rd_of_ge (by omega), Res.bind_panic]
    rw [this, Res.bind_panic]

/-- A setup of four points with secret 5: the commitment to `1 + 2x + 3x²` has the exponent 86. -/
example : ∃ ks : KZGSettings Fr Fr Fr, MadeFrom ks 1 1 4 2 5 ∧
    ks.commitToPoly toyBackend [1, 2, 3] = .ok 86 := by
  obtain ⟨ks, h⟩ := madeFrom_exists (G1 := Fr) (G2 := Fr) 1 1 2 4 (by norm_num) (by norm_num) [5]
  have h5 : ((bytesVal [5] : Nat) : Fr) = 5 := by norm_num [bytesVal]
  rw [h5] at h
  refine ⟨ks, h, ?_⟩
  rw [C25_commit toyBackend_lawful h [1, 2, 3] (by norm_num) (Or.inr (Or.inl (by norm_num)))]
  congr 1
  rw [eval_polyOf]
  simp [Finset.sum_range_succ]
  norm_num

/-! ## C26 -/

theorem linear_div (p : List Fr) (x : Fr) :
    polyOf p = polyOf p / (X ^ 1 - C (x ^ 1)) * (X - C x) + C ((polyOf p).eval x) := by
  have h1 : (X ^ 1 - C (x ^ 1) : Fr[X]) = X - C x := by rw [pow_one, pow_one]
  rw [h1]
  have h := EuclideanDomain.div_add_mod (polyOf p) (X - C x)
  rw [mod_X_sub_C_eq_C_eval] at h
  rw [mul_comm, h]

/-- C26: for every polynomial that fits the setup and every point, the single proof verifies against
the commitment with the value of the polynomial. -/
theorem C26_single_complete {B : Backend G1 G2 GT} {g1 : G1} {g2 : G2} (hB : B.Lawful g1 g2)
    {ks : KZGSettings Fr G1 G2} {N scale : Nat} {s : Fr} (h : MadeFrom ks g1 g2 N scale s) (hN : 2 ≤ N)
    (p : List Fr) (hp : p.length ≤ N) (x : Fr) (hinf : s ≠ 0 ∨ p.length < 8 ∨ B.MsmTotal)
    (hx : x ≠ s ∨ B.PairTotal) :
    ∃ com proof, ks.commitToPoly B p = .ok com ∧ ks.computeProofSingle B p x = .ok proof ∧
      ks.checkProofSingle B g1 g2 com proof x ((polyOf p).eval x) = .ok true := by
  have hc := h.wf.computeMulti hB p hp hinf x (m := 0) (Or.inl (by norm_num))
  rw [pow_zero] at hc
  refine ⟨_, _, C25_commit hB h p hp hinf, hc, ?_⟩
  obtain ⟨b, hb, hiff⟩ := h.wf.checkSingle hB hN ((polyOf p).eval s • g1)
    ((polyOf p / (X ^ 1 - C (x ^ 1))).eval s • g1) x ((polyOf p).eval x) hx
  rw [hb]
  congr 1
  rw [hiff, ← sub_smul, smul_smul]
  congr 1
  have := congrArg (eval s) (linear_div p x)
  rw [eval_add, eval_mul, eval_sub, eval_X, eval_C, eval_C] at this
  linear_combination this

/-- A setup made for a width of one has no second G2 point: every check panics. -/
theorem C26_single_tiny_setup {B : Backend G1 G2 GT} {g1 : G1} {g2 : G2}
    {ks : KZGSettings Fr G1 G2} {N scale : Nat} {s : Fr} (h : MadeFrom ks g1 g2 N scale s) (hN : N < 2)
    (com proof : G1) (x y : Fr) : ks.checkProofSingle B g1 g2 com proof x y = .panic := by
  unfold KZGSettings.checkProofSingle
  rw [rd_of_ge (by rw [h.wf.s2]; simp; omega), Res.bind_panic]

example : ∃ (ks : KZGSettings Fr Fr Fr) (proof : Fr), MadeFrom ks 1 1 4 2 5 ∧
    ks.computeProofSingle toyBackend [1, 2, 3] 7 = .ok proof ∧
    ks.checkProofSingle toyBackend 1 1 86 proof 7 162 = .ok true := by
  obtain ⟨ks, h⟩ := madeFrom_exists (G1 := Fr) (G2 := Fr) 1 1 2 4 (by norm_num) (by norm_num) [5]
  have h5 : ((bytesVal [5] : Nat) : Fr) = 5 := by norm_num [bytesVal]
  rw [h5] at h
  obtain ⟨com, proof, h1, h2, h3⟩ := C26_single_complete toyBackend_lawful h (by norm_num) [1, 2, 3]
    (by norm_num) 7 (Or.inr (Or.inl (by norm_num))) (Or.inr (fun P => by simp [toyBackend]))
  have e : (polyOf [(1 : Fr), 2, 3]).eval 7 = 162 := by
    rw [eval_polyOf]; simp [Finset.sum_range_succ]; norm_num
  have e' : (polyOf [(1 : Fr), 2, 3]).eval 5 = 86 := by
    rw [eval_polyOf]; simp [Finset.sum_range_succ]; norm_num
  rw [C25_commit toyBackend_lawful h [1, 2, 3] (by norm_num) (Or.inr (Or.inl (by norm_num))), e'] at h1
  rw [e] at h3
  have : com = 86 := by
    have := (Res.ok.inj h1).symm
    rw [this]; simp
  rw [this] at h3
  exact ⟨ks, proof, h, h2, h3⟩

/-! ## C27 -/

/-- C27: exact acceptance condition, for arbitrary commitment, proof, point and value. -/
theorem C27_single_accepts_iff {B : Backend G1 G2 GT} {g1 : G1} {g2 : G2} (hB : B.Lawful g1 g2)
    {ks : KZGSettings Fr G1 G2} {N scale : Nat} {s : Fr} (h : MadeFrom ks g1 g2 N scale s) (hN : 2 ≤ N)
    (com proof : G1) (x y : Fr) (hx : x ≠ s ∨ B.PairTotal) :
    (ks.checkProofSingle B g1 g2 com proof x y = .ok true ∨
      ks.checkProofSingle B g1 g2 com proof x y = .ok false) ∧
    (ks.checkProofSingle B g1 g2 com proof x y = .ok true ↔ com - y • g1 = (s - x) • proof) := by
  obtain ⟨b, hb, hiff⟩ := h.wf.checkSingle hB hN com proof x y hx
  rw [hb, ← hiff]
  cases b <;> simp

/-- C27 (one proof per value): away from the secret, exactly one proof is accepted for each claimed
value. -/
theorem C27_single_unique_proof {B : Backend G1 G2 GT} {g1 : G1} {g2 : G2} (hB : B.Lawful g1 g2)
    {ks : KZGSettings Fr G1 G2} {N scale : Nat} {s : Fr} (h : MadeFrom ks g1 g2 N scale s) (hN : 2 ≤ N)
    (com : G1) (x y : Fr) (hx : x ≠ s) :
    ∃! proof, ks.checkProofSingle B g1 g2 com proof x y = .ok true := by
  have hsx : s - x ≠ 0 := sub_ne_zero.mpr hx.symm
  refine ⟨(s - x)⁻¹ • (com - y • g1), ?_, ?_⟩
  · simp only
    rw [(C27_single_accepts_iff hB h hN com _ x y (Or.inl hx)).2, smul_smul, mul_inv_cancel₀ hsx,
      one_smul]
  · intro π hπ
    rw [(C27_single_accepts_iff hB h hN com π x y (Or.inl hx)).2] at hπ
    rw [hπ, smul_smul, inv_mul_cancel₀ hsx, one_smul]

/-- C27 (no other value for the honest proof): the computed proof is accepted for `y` exactly if `y`
is the value of the polynomial. -/
theorem C27_single_binding {B : Backend G1 G2 GT} {g1 : G1} {g2 : G2} (hB : B.Lawful g1 g2)
    {ks : KZGSettings Fr G1 G2} {N scale : Nat} {s : Fr} (h : MadeFrom ks g1 g2 N scale s) (hN : 2 ≤ N)
    (p : List Fr) (hp : p.length ≤ N) (x y : Fr) (hinf : s ≠ 0 ∨ p.length < 8 ∨ B.MsmTotal)
    (hx : x ≠ s ∨ B.PairTotal) (com proof : G1) (hcom : ks.commitToPoly B p = .ok com)
    (hproof : ks.computeProofSingle B p x = .ok proof) :
    ks.checkProofSingle B g1 g2 com proof x y = .ok true ↔ y = (polyOf p).eval x := by
  obtain ⟨com', proof', h1, h2, h3⟩ := C26_single_complete hB h hN p hp x hinf hx
  rw [h1] at hcom
  rw [h2] at hproof
  cases hcom
  cases hproof
  rw [(C27_single_accepts_iff hB h hN com proof x _ hx).2] at h3 ⊢
  rw [← h3, sub_right_inj, smul_inj' hB.ne]

/-- C27 (two openings): two accepted proofs for different values at one point other than the secret
give the element `(1/(s - x))·g1` by public operations, and their difference determines the secret. -/
theorem C27_single_two_openings {B : Backend G1 G2 GT} {g1 : G1} {g2 : G2} (hB : B.Lawful g1 g2)
    {ks : KZGSettings Fr G1 G2} {N scale : Nat} {s : Fr} (h : MadeFrom ks g1 g2 N scale s) (hN : 2 ≤ N)
    (com π π' : G1) (x y y' : Fr) (hx : x ≠ s) (hy : y ≠ y')
    (h1 : ks.checkProofSingle B g1 g2 com π x y = .ok true)
    (h2 : ks.checkProofSingle B g1 g2 com π' x y' = .ok true) :
    (y' - y)⁻¹ • (π - π') = (s - x)⁻¹ • g1 ∧
    ∀ d : Fr, π - π' = d • g1 → s = x + (y' - y) * d⁻¹ := by
  rw [(C27_single_accepts_iff hB h hN com _ x _ (Or.inl hx)).2] at h1 h2
  have hsx : s - x ≠ 0 := sub_ne_zero.mpr hx.symm
  have hyy : y' - y ≠ 0 := sub_ne_zero.mpr hy.symm
  have key : (s - x) • (π - π') = (y' - y) • g1 := by
    rw [smul_sub, ← h1, ← h2, sub_smul]; abel
  constructor
  · have : π - π' = (s - x)⁻¹ • (y' - y) • g1 := by
      rw [← key, smul_smul, inv_mul_cancel₀ hsx, one_smul]
    rw [this, smul_comm, smul_smul (y' - y)⁻¹, inv_mul_cancel₀ hyy, one_smul]
  · intro d hd
    rw [hd, smul_smul, smul_inj' hB.ne] at key
    have hd0 : d ≠ 0 := by
      rintro rfl
      rw [mul_zero] at key
      exact hyy key.symm
    rw [← key, mul_assoc, mul_inv_cancel₀ hd0, mul_one]; ring

example : ∃ ks : KZGSettings Fr Fr Fr, MadeFrom ks 1 1 4 2 5 ∧
    ks.checkProofSingle toyBackend 1 1 10 1 2 7 = .ok true := by
  obtain ⟨ks, h⟩ := madeFrom_exists (G1 := Fr) (G2 := Fr) 1 1 2 4 (by norm_num) (by norm_num) [5]
  have h5 : ((bytesVal [5] : Nat) : Fr) = 5 := by norm_num [bytesVal]
  rw [h5] at h
  refine ⟨ks, h, ?_⟩
  rw [(C27_single_accepts_iff toyBackend_lawful h (by norm_num) 10 1 2 7
    (Or.inr (fun P => by simp [toyBackend]))).2]
  simp only [smul_eq_mul]
  norm_num

/-! ## C28 -/

/-- The `2^m`-th root of unity of settings of the given scale. -/
def cosetRoot (ks : KZGSettings Fr G1 G2) (scale m : Nat) : Fr := ks.fs.rootOfUnity ^ 2 ^ (scale - m)

theorem cosetRoot_eq {ks : KZGSettings Fr G1 G2} {g1 : G1} {g2 : G2} {N scale : Nat} {s : Fr}
    (h : MadeFrom ks g1 g2 N scale s) {m : Nat} (hm : m ≤ scale) :
    ks.fs.omega (2 ^ m) = cosetRoot ks scale m := by
  rw [FFTSettings.omega, h.wf.fs.width, Nat.pow_div hm (by omega)]; rfl

theorem cosetRoot_prim {ks : KZGSettings Fr G1 G2} {g1 : G1} {g2 : G2} {N scale : Nat} {s : Fr}
    (h : MadeFrom ks g1 g2 N scale s) {m : Nat} (hm : m ≤ scale) :
    IsPrimitiveRoot (cosetRoot ks scale m) (2 ^ m) := by
  rw [← cosetRoot_eq h hm]; exact h.wf.fs.omega_prim hm

theorem coset_unique {ω x : Fr} {n : Nat} (hω : IsPrimitiveRoot ω n) (hx : x ≠ 0) {p q : Fr[X]}
    (hp : p.degree < n) (hq : q.degree < n) (h : ∀ i < n, p.eval (x * ω ^ i) = q.eval (x * ω ^ i)) :
    p = q := by
  rw [← sub_eq_zero]
  refine eq_zero_of_degree_lt_of_eval_finset_eq_zero ((Finset.range n).image fun i => x * ω ^ i) ?_ ?_
  · rw [Finset.card_image_of_injOn]
    · rw [Finset.card_range]; exact lt_of_le_of_lt (degree_sub_le p q) (max_lt hp hq)
    · intro i hi j hj hij
      simp only [Finset.coe_range, Set.mem_Iio] at hi hj
      exact hω.pow_inj hi hj (mul_left_cancel₀ hx hij)
  · intro y hy
    obtain ⟨i, hi, rfl⟩ := Finset.mem_image.mp hy
    rw [eval_sub, h i (Finset.mem_range.mp hi), sub_self]

theorem coset_zero {ω x : Fr} {n : Nat} (hω : ω ^ n = 1) (i : Nat) :
    (X ^ n - C (x ^ n) : Fr[X]).eval (x * ω ^ i) = 0 := by
  rw [eval_sub, eval_pow, eval_X, eval_C, mul_pow, ← pow_mul, mul_comm i, pow_mul, hω, one_pow, mul_one,
    sub_self]

theorem remainder_spec {ω x : Fr} {n : Nat} (hn : 0 < n) (hω : ω ^ n = 1) (p : Fr[X]) :
    (p % (X ^ n - C (x ^ n))).degree < (n : WithBot Nat) ∧
      ∀ i, (p % (X ^ n - C (x ^ n))).eval (x * ω ^ i) = p.eval (x * ω ^ i) := by
  constructor
  · rw [← degree_X_pow_sub_C hn (x ^ n)]
    exact degree_mod_lt _ (X_pow_sub_C_ne_zero hn _)
  · intro i
    have h := congrArg (eval (x * ω ^ i)) (EuclideanDomain.div_add_mod p (X ^ n - C (x ^ n)))
    rw [eval_add, eval_mul, coset_zero hω, zero_mul, zero_add] at h
    exact h

/-- C28 (partial): for every polynomial that fits the setup, nonzero point and power of two `n`
within the width and below the setup length, the multi proof verifies with the values on the coset.
Polynomials beyond 2^30 coefficients are beyond the FFT-based division (2^31 is the largest domain of
the library). Missing from the full statement: `n` equal to the setup length, where the check panics
(`C28_full_width_panics`). -/
theorem C28_multi_complete_partial {B : Backend G1 G2 GT} {g1 : G1} {g2 : G2} (hB : B.Lawful g1 g2)
    {ks : KZGSettings Fr G1 G2} {N scale : Nat} {s : Fr} (h : MadeFrom ks g1 g2 N scale s) {m : Nat}
    (hm : m ≤ scale) (hN : 2 ^ m < N) (p : List Fr) (hp : p.length ≤ N) (hp' : p.length ≤ 2 ^ 30) (x : Fr)
    (hx0 : x ≠ 0) (hinf : s ≠ 0 ∨ B.MsmTotal) (hx : x ^ 2 ^ m ≠ s ^ 2 ^ m ∨ B.PairTotal) :
    ∃ com proof, ks.commitToPoly B p = .ok com ∧ ks.computeProofMulti B p x (2 ^ m) = .ok proof ∧
      ks.checkProofMulti B g2 com proof x
        ((List.range (2 ^ m)).map fun i => (polyOf p).eval (x * cosetRoot ks scale m ^ i)) (2 ^ m) =
        .ok true := by
  have hpos : 0 < 2 ^ m := by positivity
  have hi : ∀ n, s ≠ 0 ∨ n < 8 ∨ B.MsmTotal := fun n => hinf.imp id Or.inr
  refine ⟨_, _, C25_commit hB h p hp (hi _), h.wf.computeMulti hB p hp (hi _) x (Or.inr hp'), ?_⟩
  obtain ⟨I, hI, hv, b, hb, hiff⟩ := h.wf.checkMulti hB hm hN ((polyOf p).eval s • g1)
    ((polyOf p / (X ^ 2 ^ m - C (x ^ 2 ^ m))).eval s • g1) x hx0
    ((List.range (2 ^ m)).map fun i => (polyOf p).eval (x * cosetRoot ks scale m ^ i)) (by simp) (hi _) hx
  have hprim := cosetRoot_prim h hm
  rw [cosetRoot_eq h hm] at hv
  obtain ⟨hr1, hr2⟩ := remainder_spec (x := x) hpos hprim.pow_eq_one (polyOf p)
  have hIr : I = polyOf p % (X ^ 2 ^ m - C (x ^ 2 ^ m)) := by
    refine coset_unique hprim hx0 hI hr1 ?_
    intro i hi
    have := hv i hi
    rw [List.getElem?_map, List.getElem?_range hi, Option.map_some, Option.some_inj] at this
    rw [hr2, this]
  rw [hb]
  congr 1
  rw [hiff, ← sub_smul, smul_smul, hIr]
  congr 1
  have := congrArg (eval s) (EuclideanDomain.div_add_mod (polyOf p) (X ^ 2 ^ m - C (x ^ 2 ^ m)))
  rw [eval_add, eval_mul, eval_sub, eval_pow, eval_X, eval_C] at this
  linear_combination -this

/-- C28 (full width): with a setup of exactly `n` points (the length used when the setup has the size
of the FFT settings), the check for `n` values panics, whatever it is given. -/
theorem C28_full_width_panics {B : Backend G1 G2 GT} {g1 : G1} {g2 : G2}
    {ks : KZGSettings Fr G1 G2} {scale : Nat} {s : Fr} (h : MadeFrom ks g1 g2 (2 ^ scale) scale s)
    (com proof : G1) (x : Fr) (ys : List Fr) (hys : ys.length = 2 ^ scale) :
    ks.checkProofMulti B g2 com proof x ys (2 ^ scale) = .panic := by
  obtain ⟨c, hc, hcl, _⟩ := h.wf.fs.fft_backward le_rfl ys hys
  unfold KZGSettings.checkProofMulti
  rw [isPowerOfTwo_two_pow, if_neg (by simp), show ks.fs.fftFr ys true = _ from hc, Res.bind_ok,
    cosetScale_spec c x⁻¹ (2 ^ scale) hcl (by positivity), Res.bind_ok]
  simp only
  rw [rd_of_ge (by rw [h.wf.s2]; simp), Res.bind_panic]

/-- C28 (negation): the full statement is false. -/
theorem C28_full_statement_false :
    ¬ ∀ (N scale : Nat) (ks : KZGSettings Fr Fr Fr) (s : Fr), MadeFrom ks 1 1 N scale s → ∀ m ≤ scale,
      ∀ p : List Fr, p.length ≤ N → ∀ x : Fr, x ≠ 0 → ∃ com proof,
        ks.commitToPoly toyBackend p = .ok com ∧ ks.computeProofMulti toyBackend p x (2 ^ m) = .ok proof ∧
        ks.checkProofMulti toyBackend 1 com proof x
          ((List.range (2 ^ m)).map fun i => (polyOf p).eval (x * cosetRoot ks scale m ^ i)) (2 ^ m) =
          .ok true := by
  intro hall
  obtain ⟨ks, h⟩ := madeFrom_exists (G1 := Fr) (G2 := Fr) 1 1 2 (2 ^ 2) (by norm_num) le_rfl [5]
  obtain ⟨com, proof, _, _, h3⟩ := hall _ 2 ks _ h 2 le_rfl [1, 2] (by norm_num) 1 one_ne_zero
  rw [C28_full_width_panics h _ _ _ _ (by simp)] at h3
  cases h3

example : ∃ (ks : KZGSettings Fr Fr Fr) (com proof : Fr), MadeFrom ks 1 1 8 2 5 ∧
    ks.commitToPoly toyBackend [1, 2, 3, 4, 5] = .ok com ∧
    ks.computeProofMulti toyBackend [1, 2, 3, 4, 5] 9 4 = .ok proof ∧
    ks.checkProofMulti toyBackend 1 com proof 9
      ((List.range 4).map fun i => (polyOf [1, 2, 3, 4, 5]).eval (9 * cosetRoot ks 2 2 ^ i)) 4 = .ok true := by
  obtain ⟨ks, h⟩ := madeFrom_exists (G1 := Fr) (G2 := Fr) 1 1 2 8 (by norm_num) (by norm_num) [5]
  have h5 : ((bytesVal [5] : Nat) : Fr) = 5 := by norm_num [bytesVal]
  rw [h5] at h
  have h9 : (9 : Fr) ≠ 0 := by
    have := fr_natCast_inj (a := 9) (b := 0) (by decide +kernel) frModulus_pos
    intro h; exact absurd (this (by exact_mod_cast h)) (by norm_num)
  obtain ⟨com, proof, h1, h2, h3⟩ := C28_multi_complete_partial toyBackend_lawful h (m := 2) le_rfl
    (by norm_num) [1, 2, 3, 4, 5] (by norm_num) (by norm_num) 9 h9 (Or.inr (fun _ _ _ => rfl))
    (Or.inr (fun P => by simp [toyBackend]))
  exact ⟨ks, com, proof, h, h1, h2, h3⟩

/-! ## C29 -/

/-- C29: exact acceptance condition of the multi check for arbitrary commitment, proof, nonzero point
and values; `I` is the polynomial of degree below `n` through the values on the coset. -/
theorem C29_multi_accepts_iff {B : Backend G1 G2 GT} {g1 : G1} {g2 : G2} (hB : B.Lawful g1 g2)
    {ks : KZGSettings Fr G1 G2} {N scale : Nat} {s : Fr} (h : MadeFrom ks g1 g2 N scale s) {m : Nat}
    (hm : m ≤ scale) (hN : 2 ^ m < N) (com proof : G1) (x : Fr) (hx0 : x ≠ 0) (ys : List Fr)
    (hys : ys.length = 2 ^ m) (hinf : s ≠ 0 ∨ 2 ^ m < 8 ∨ B.MsmTotal)
    (hx : x ^ 2 ^ m ≠ s ^ 2 ^ m ∨ B.PairTotal)
    (I : Fr[X]) (hI : I.degree < (2 ^ m : Nat))
    (hIv : ∀ i < 2 ^ m, ys[i]? = some (I.eval (x * cosetRoot ks scale m ^ i))) :
    (ks.checkProofMulti B g2 com proof x ys (2 ^ m) = .ok true ∨
      ks.checkProofMulti B g2 com proof x ys (2 ^ m) = .ok false) ∧
    (ks.checkProofMulti B g2 com proof x ys (2 ^ m) = .ok true ↔
      com - I.eval s • g1 = (s ^ 2 ^ m - x ^ 2 ^ m) • proof) := by
  obtain ⟨J, hJ, hJv, b, hb, hiff⟩ := h.wf.checkMulti hB hm hN com proof x hx0 ys hys hinf hx
  rw [cosetRoot_eq h hm] at hJv
  have hIJ : I = J := by
    refine coset_unique (cosetRoot_prim h hm) hx0 hI hJ ?_
    intro i hi
    exact Option.some_inj.mp ((hIv i hi).symm.trans (hJv i hi))
  rw [hb, hIJ, ← hiff]
  cases b <;> simp

/-- The interpolating polynomial exists for all values, so the condition above applies always. -/
theorem C29_interpolant_exists {ks : KZGSettings Fr G1 G2} {g1 : G1} {g2 : G2} {N scale : Nat} {s : Fr}
    (h : MadeFrom ks g1 g2 N scale s) {m : Nat} (hm : m ≤ scale) (x : Fr) (hx0 : x ≠ 0) (ys : List Fr)
    (hys : ys.length = 2 ^ m) :
    ∃! I : Fr[X], I.degree < (2 ^ m : Nat) ∧
      ∀ i < 2 ^ m, ys[i]? = some (I.eval (x * cosetRoot ks scale m ^ i)) := by
  have hprim := cosetRoot_prim h hm
  have hinj : Set.InjOn (fun i => x * cosetRoot ks scale m ^ i) (Finset.range (2 ^ m)) := by
    intro i hi j hj hij
    simp only [Finset.coe_range, Set.mem_Iio] at hi hj
    exact hprim.pow_inj hi hj (mul_left_cancel₀ hx0 hij)
  refine ⟨Lagrange.interpolate (Finset.range (2 ^ m)) (fun i => x * cosetRoot ks scale m ^ i)
    (fun i => ys.getD i 0), ⟨?_, ?_⟩, ?_⟩
  · have := Lagrange.degree_interpolate_lt (fun i => ys.getD i 0) hinj
    rwa [Finset.card_range] at this
  · intro i hi
    rw [Lagrange.eval_interpolate_at_node (fun i => ys.getD i 0) hinj (Finset.mem_range.mpr hi)]
    exact getElem?_eq_some_getD 0 (by omega)
  · rintro J ⟨hJ, hJv⟩
    have hd := Lagrange.degree_interpolate_lt (fun i => ys.getD i 0) hinj
    rw [Finset.card_range] at hd
    refine coset_unique hprim hx0 hJ hd ?_
    intro i hi
    rw [Lagrange.eval_interpolate_at_node (fun i => ys.getD i 0) hinj (Finset.mem_range.mpr hi)]
    have := hJv i hi
    rw [getElem?_eq_some_getD 0 (by omega)] at this
    exact (Option.some_inj.mp this).symm

/-- C29 (honest proof): the honest proof is accepted for a value list exactly if its interpolant and
that of the true values agree at the secret. So a false list that is accepted gives a nonzero
polynomial of degree below `n` with the secret as a root. -/
theorem C29_multi_binding {B : Backend G1 G2 GT} {g1 : G1} {g2 : G2} (hB : B.Lawful g1 g2)
    {ks : KZGSettings Fr G1 G2} {N scale : Nat} {s : Fr} (h : MadeFrom ks g1 g2 N scale s) {m : Nat}
    (hm : m ≤ scale) (hN : 2 ^ m < N) (p : List Fr) (hp : p.length ≤ N) (hp' : p.length ≤ 2 ^ 30) (x : Fr)
    (hx0 : x ≠ 0) (hinf : s ≠ 0 ∨ B.MsmTotal) (hx : x ^ 2 ^ m ≠ s ^ 2 ^ m ∨ B.PairTotal) (com proof : G1)
    (hcom : ks.commitToPoly B p = .ok com) (hproof : ks.computeProofMulti B p x (2 ^ m) = .ok proof)
    (I J : Fr[X]) (hI : I.degree < (2 ^ m : Nat)) (hJ : J.degree < (2 ^ m : Nat))
    (hIv : ∀ i < 2 ^ m, I.eval (x * cosetRoot ks scale m ^ i) =
      (polyOf p).eval (x * cosetRoot ks scale m ^ i)) :
    (ks.checkProofMulti B g2 com proof x
      ((List.range (2 ^ m)).map fun i => J.eval (x * cosetRoot ks scale m ^ i)) (2 ^ m) = .ok true ↔
      (J - I).eval s = 0) ∧
    ((List.range (2 ^ m)).map (fun i => J.eval (x * cosetRoot ks scale m ^ i)) ≠
      (List.range (2 ^ m)).map (fun i => (polyOf p).eval (x * cosetRoot ks scale m ^ i)) → J - I ≠ 0) := by
  have hi : ∀ n, s ≠ 0 ∨ n < 8 ∨ B.MsmTotal := fun n => hinf.imp id Or.inr
  obtain ⟨com', proof', h1, h2, h3⟩ := C28_multi_complete_partial hB h hm hN p hp hp' x hx0 hinf hx
  rw [h1] at hcom
  rw [h2] at hproof
  cases hcom
  cases hproof
  rw [(C29_multi_accepts_iff hB h hm hN com proof x hx0 _ (by simp) (hi _) hx I hI (by
    intro i hi'
    rw [List.getElem?_map, List.getElem?_range hi', Option.map_some, hIv i hi'])).2] at h3
  constructor
  · rw [(C29_multi_accepts_iff hB h hm hN com proof x hx0 _ (by simp) (hi _) hx J hJ (by
      intro i hi'
      rw [List.getElem?_map, List.getElem?_range hi', Option.map_some])).2, ← h3, sub_right_inj,
      smul_inj' hB.ne, eval_sub, sub_eq_zero]
  · intro hne h0
    apply hne
    apply List.map_congr_left
    intro i hi'
    rw [sub_eq_zero.mp h0, hIv i (List.mem_range.mp hi')]

/-- C29 (why not more): for every `n ≥ 2` there is a list of values that is wrong at a point and is
accepted with the honest proof. Writing it down needs the secret. -/
theorem C29_false_values_exist {B : Backend G1 G2 GT} {g1 : G1} {g2 : G2} (hB : B.Lawful g1 g2)
    {ks : KZGSettings Fr G1 G2} {N scale : Nat} {s : Fr} (h : MadeFrom ks g1 g2 N scale s) {m : Nat}
    (hm0 : 0 < m) (hm : m ≤ scale) (hN : 2 ^ m < N) (p : List Fr) (hp : p.length ≤ N)
    (hp' : p.length ≤ 2 ^ 30) (x : Fr) (hx0 : x ≠ 0) (hinf : s ≠ 0 ∨ B.MsmTotal)
    (hx : x ^ 2 ^ m ≠ s ^ 2 ^ m ∨ B.PairTotal) (com proof : G1)
    (hcom : ks.commitToPoly B p = .ok com) (hproof : ks.computeProofMulti B p x (2 ^ m) = .ok proof) :
    ∃ ys : List Fr, ys.length = 2 ^ m ∧
      ys ≠ (List.range (2 ^ m)).map (fun i => (polyOf p).eval (x * cosetRoot ks scale m ^ i)) ∧
      ks.checkProofMulti B g2 com proof x ys (2 ^ m) = .ok true := by
  have hprim := cosetRoot_prim h hm
  have hpos : 0 < 2 ^ m := by positivity
  have h2 : 1 < 2 ^ m := Nat.one_lt_two_pow (by omega)
  obtain ⟨hr1, hr2⟩ := remainder_spec (x := x) hpos hprim.pow_eq_one (polyOf p)
  set I := polyOf p % (X ^ 2 ^ m - C (x ^ 2 ^ m)) with hIdef
  have hXd : (X - C s : Fr[X]).degree < (2 ^ m : Nat) := by
    rw [degree_X_sub_C]; exact_mod_cast h2
  have hJ : (I + (X - C s)).degree < ((2 ^ m : Nat) : WithBot Nat) :=
    lt_of_le_of_lt (degree_add_le _ _) (max_lt hr1 hXd)
  obtain ⟨hacc, -⟩ := C29_multi_binding hB h hm hN p hp hp' x hx0 hinf hx com proof hcom hproof I
    (I + (X - C s)) hr1 hJ (fun i _ => hr2 i)
  refine ⟨_, by simp, ?_, hacc.mpr (by simp)⟩
  intro heq
  have hall : ∀ i < 2 ^ m, (I + (X - C s)).eval (x * cosetRoot ks scale m ^ i) =
      I.eval (x * cosetRoot ks scale m ^ i) := by
    intro i hi
    have := congrArg (fun l : List Fr => l[i]?) heq
    simp only [List.getElem?_map, List.getElem?_range hi, Option.map_some, Option.some_inj] at this
    rw [this, hr2]
  have := coset_unique hprim hx0 hJ hr1 hall
  have h0 : (X - C s : Fr[X]) = 0 := by
    have := sub_eq_zero.mpr this
    rwa [add_sub_cancel_left] at this
  exact X_sub_C_ne_zero s h0

example : ∃ ks : KZGSettings Fr Fr Fr, MadeFrom ks 1 1 8 2 5 ∧
    (ks.checkProofMulti toyBackend 1 3 0 1 [3, 3, 3, 3] 4 = .ok true) := by
  obtain ⟨ks, h⟩ := madeFrom_exists (G1 := Fr) (G2 := Fr) 1 1 2 8 (by norm_num) (by norm_num) [5]
  have h5 : ((bytesVal [5] : Nat) : Fr) = 5 := by norm_num [bytesVal]
  rw [h5] at h
  refine ⟨ks, h, ?_⟩
  refine (C29_multi_accepts_iff toyBackend_lawful h (m := 2) le_rfl (by norm_num) 3 0 1 one_ne_zero
    [3, 3, 3, 3] rfl (Or.inr (Or.inl (by norm_num))) (Or.inr (fun P => by simp [toyBackend])) (C 3)
    (lt_of_le_of_lt degree_C_le (by norm_num)) ?_).2.mpr ?_
  · intro i hi
    have : i < 4 := hi
    interval_cases i <;> simp
  · simp

end Kzg.Props
