import Verif.Proofs.Bench
import Verif.Props.FK20
import Verif.Props.ZkFK20
import Verif.Props.MclFK20
import Verif.Props.ArkFK20
import Verif.Props.Soundness
/-!
# Properties C167–C170: the shared tests of proofs pass for every input

kzg-bench runs the same tests on every backend, each with one polynomial, one point and one secret. Here these are variables.
-/

set_option linter.unusedSectionVars false

namespace Kzg.Props
open Kzg Kzg.Res Kzg.Bench Polynomial

section
variable {F P : Type} [Field F] [DecidableEq F]

/-- Settings with the roots of unity of their width have what the tests need. -/
theorem base_of {A : Api F P} {fs : FFTSettings F} {scale : Nat} (hwf : fs.WF scale) (hw : A.maxWidth = fs.maxWidth)
    (hr : A.rootAt = fun i => rd fs.expandedRoots i)
    (hf : ∀ k ≤ scale, ∀ l : List F, l.length = 2 ^ k → A.fft l false = fs.fft l false) : Base A fs.rootOfUnity scale where
  lt := hwf.lt
  width := by rw [hw, hwf.width]
  prim := hwf.prim
  root := fun i hi => by rw [hr]; exact rd_of_getElem? (hwf.exp i hi)
  fft := fun k hk l hl => by
    refine ⟨_, (hf k hk l hl).trans (hwf.fft_eval hk l hl), by simp, fun i hi => ?_⟩
    rw [List.getElem?_map, List.getElem?_range hi, FFTSettings.omega, hwf.width, Nat.pow_div hk (by omega)]
    rfl

theorem pow_pow_ne {ω s : F} {a b : Nat} (hω : ω ^ (a * b) = 1) (hs : s ^ (a * b) ≠ 1) (j : Nat) : (ω ^ j) ^ b ≠ s ^ b := by
  intro h
  apply hs
  rw [mul_comm, pow_mul, ← h, ← pow_mul, ← pow_mul, mul_comm j, mul_comm b a, pow_mul, hω, one_pow]

end

section
variable {G1 G2 GT : Type} [AddCommGroup G1] [Module Fr G1] [AddCommGroup G2] [Module Fr G2] [CommGroup GT] [DecidableEq GT]

theorem blst_base (B : Backend G1 G2 GT) {g1 : G1} {g2 : G2} {ks : KZGSettings Fr G1 G2} {N scale : Nat} {s : Fr}
    (h : MadeFrom ks g1 g2 N scale s) : Base (Bench.blst B g1 g2 ks) ks.fs.rootOfUnity scale :=
  base_of h.wf.fs rfl rfl fun _ _ _ _ => rfl

theorem mcl_base [Mcl.Lib Fr] (B : Mcl.Backend G1 G2 GT) {g1 : G1} {g2 : G2} {ks : KZGSettings Fr G1 G2} {N scale : Nat} {s : Fr}
    (h : MclMade ks g1 g2 N scale s) : Base (Bench.mcl B g1 g2 ks) ks.fs.rootOfUnity scale :=
  base_of h.wf.fs rfl rfl fun _ hk _ hl => Mcl.fft_eq h.wf.fs hk hl _ (fun e => by cases e)

theorem ark_base {P : Type} {B : Ark.Backend P G1 G2 GT} {g1 : G1} {g2 : G2} (hB : B.Lawful g1 g2) {ks : Ark.Settings P G1 G2}
    {L scale : Nat} {s : Fr} (h : ArkMade B ks g1 g2 L scale s) : Base (Bench.ark B ks) ks.fs.rootOfUnity scale :=
  base_of (h.wf hB).fs.toWF rfl rfl fun _ hk _ hl => Ark.fftFr_eq (h.wf hB).fs hk _ hl _

theorem blst_eval (B : Backend G1 G2 GT) (g1 : G1) (g2 : G2) (ks : KZGSettings Fr G1 G2) {p : List Fr} (hp : p.length ≠ 1) (x : Fr) :
    (Bench.blst B g1 g2 ks).eval p x = .ok ((polyOf p).eval x) := polyEval_spec p x (Or.inl hp)

theorem mcl_eval [Mcl.Lib Fr] (B : Mcl.Backend G1 G2 GT) (g1 : G1) (g2 : G2) (ks : KZGSettings Fr G1 G2) (p : List Fr) (x : Fr) :
    (Bench.mcl B g1 g2 ks).eval p x = .ok ((polyOf p).eval x) := by
  show Res.ok (Mcl.evalAt p x) = _
  rw [Mcl.evalAt_eq]

theorem ark_eval {P : Type} (B : Ark.Backend P G1 G2 GT) (ks : Ark.Settings P G1 G2) (p : List Fr) (x : Fr) :
    (Bench.ark B ks).eval p x = .ok ((polyOf p).eval x) := by
  show Res.ok (Ark.polyEval p x) = _
  rw [Ark.polyEval_eq]

/-! ## C167: single proofs -/

/-- C167 (blst-from-scratch, partial): the test passes for every polynomial that fits, except those of one coefficient
(`C167_constant_blst`). -/
theorem C167_blst_partial {B : Backend G1 G2 GT} {g1 : G1} {g2 : G2} (hB : B.Lawful g1 g2) {ks : KZGSettings Fr G1 G2}
    {N scale : Nat} {s : Fr} (h : MadeFrom ks g1 g2 N scale s) (hN : 2 ≤ N) (p : List Fr) (hp : p.length ≤ N) (hp1 : p.length ≠ 1)
    (x : Fr) (hinf : s ≠ 0 ∨ p.length < 8 ∨ B.MsmTotal) (hx : x ≠ s ∨ B.PairTotal) :
    proofSingle (Bench.blst B g1 g2 ks) p x = .ok () := by
  obtain ⟨com, π, h1, h2, h3⟩ := C26_single_complete hB h hN p hp x hinf hx
  refine proofSingle_ok (A := Bench.blst B g1 g2 ks) h1 h2 (blst_eval B g1 g2 ks hp1 x) h3 ?_
  rcases (C27_single_accepts_iff hB h hN com π x ((polyOf p).eval x + 1) hx).1 with e | e
  · rw [C27_single_binding hB h hN p hp x _ hinf hx com π h1 h2] at e
    exact absurd e (by simp)
  · exact e

/-- C167 (mcl): the test passes for every polynomial that fits. -/
theorem C167_mcl [Mcl.Lib Fr] {B : Mcl.Backend G1 G2 GT} {g1 : G1} {g2 : G2} (hB : B.Lawful g1 g2) {ks : KZGSettings Fr G1 G2}
    {N scale : Nat} {s : Fr} (h : MclMade ks g1 g2 N scale s) (hN : 2 ≤ N) (p : List Fr) (hp : p.length ≤ N) (x : Fr) :
    proofSingle (Bench.mcl B g1 g2 ks) p x = .ok () := by
  obtain ⟨com, π, h1, h2, h3⟩ := C108_single_complete hB h hN p hp x
  refine proofSingle_ok (A := Bench.mcl B g1 g2 ks) h1 h2 (mcl_eval B g1 g2 ks p x) ?_ ?_
  · obtain ⟨b, e, hb⟩ := h3 ((polyOf p).eval x)
    rw [hb.2 rfl] at e
    exact e
  · obtain ⟨b, e, hb⟩ := h3 ((polyOf p).eval x + 1)
    cases b with
    | false => exact e
    | true => exact absurd (hb.1 rfl) (by simp)

/-- C167 (Arkworks): the test passes for every polynomial that fits. -/
theorem C167_ark {P : Type} {B : Ark.Backend P G1 G2 GT} {g1 : G1} {g2 : G2} (hB : B.Lawful g1 g2) {ks : Ark.Settings P G1 G2}
    {L scale : Nat} {s : Fr} (h : ArkMade B ks g1 g2 L scale s) (hL : 1 ≤ L) (p : List Fr) (hp : p.length ≤ L) (x : Fr) :
    proofSingle (Bench.ark B ks) p x = .ok () := by
  obtain ⟨com, π, h1, h2, h3⟩ := C127_single_complete hB h hL p hp x
  refine proofSingle_ok (A := Bench.ark B ks) h1 h2 (ark_eval B ks p x) ?_ ?_
  · obtain ⟨b, e, hb⟩ := h3 ((polyOf p).eval x)
    rw [hb.2 rfl] at e
    exact e
  · obtain ⟨b, e, hb⟩ := h3 ((polyOf p).eval x + 1)
    cases b with
    | false => exact e
    | true => exact absurd (hb.1 rfl) (by simp)

/-- C167 (refuted for blst-from-scratch): with one coefficient, the test panics at every point but 0. -/
theorem C167_constant_blst {B : Backend G1 G2 GT} {g1 : G1} {g2 : G2} (hB : B.Lawful g1 g2) {ks : KZGSettings Fr G1 G2}
    {N scale : Nat} {s : Fr} (h : MadeFrom ks g1 g2 N scale s) (hN : 2 ≤ N) (c x : Fr) (hx0 : x ≠ 0) (hx : x ≠ s ∨ B.PairTotal) :
    proofSingle (Bench.blst B g1 g2 ks) [c] x = .panic := by
  obtain ⟨com, π, h1, h2, -⟩ := C26_single_complete hB h hN [c] (by simp; omega) x (Or.inr (Or.inl (by simp))) hx
  unfold proofSingle
  rw [show (Bench.blst B g1 g2 ks).commit [c] = .ok com from h1, unwrap, bind_ok,
    show (Bench.blst B g1 g2 ks).single [c] x = .ok π from h2, unwrap, bind_ok,
    show (Bench.blst B g1 g2 ks).eval [c] x = .panic from polyEval_one_panic c x hx0]
  rfl

/-- The polynomial of the tests `proof_single` and `proof_multi`, kzg-bench/src/tests/kzg_proofs.rs:20, 139. -/
def benchPoly (F : Type) [Field F] : List F := [1, 2, 3, 4, 7, 7, 7, 7, 13, 13, 13, 13, 13, 13, 13, 13]

/-- The secret of the tests, kzg-bench/src/tests/kzg_proofs.rs:3-6. -/
def benchSecret : List Nat := [0xa4, 0x73, 0x31, 0x95, 0x28, 0xc8, 0xb6, 0xea, 0x4d, 0x08, 0xcc, 0x53, 0x18] ++ List.replicate 19 0

/-- The test as it stands: 17 points, scale 4, the point 25. -/
example : ∃ ks : KZGSettings Fr Fr Fr, MadeFrom ks 1 1 17 4 ((bytesVal benchSecret : Nat) : Fr) ∧
    proofSingle (Bench.blst toyBackend 1 1 ks) (benchPoly Fr) 25 = .ok () := by
  obtain ⟨ks, h⟩ := madeFrom_exists (G1 := Fr) (G2 := Fr) 1 1 4 17 (by norm_num) (by norm_num) benchSecret
  exact ⟨ks, h, C167_blst_partial toyBackend_lawful h (by norm_num) _ (by norm_num [benchPoly]) (by norm_num [benchPoly]) 25
    (Or.inr (Or.inr toyBackend_total.1)) (Or.inr toyBackend_total.2)⟩

/-! ## C168: proofs for several points -/

/-- C168 (blst-from-scratch, partial): the test passes for every polynomial that fits, except those of one coefficient, every coset that
does not contain 0 or the secret, and every changed value. Missing from the full statement: more than `2^30` coefficients (as in C28). -/
theorem C168_blst_partial {B : Backend G1 G2 GT} {g1 : G1} {g2 : G2} (hB : B.Lawful g1 g2) {ks1 ks2 : KZGSettings Fr G1 G2}
    {N scale m : Nat} {s : Fr} (h1 : MadeFrom ks1 g1 g2 N scale s) (h2 : MadeFrom ks2 g1 g2 N m s) (hN : 2 ^ m < N)
    (p : List Fr) (hp : p.length ≤ N) (hp' : p.length ≤ 2 ^ 30) (hp1 : p.length ≠ 1) (x : Fr) (hx0 : x ≠ 0)
    (hinf : s ≠ 0 ∨ B.MsmTotal) (hx : x ^ 2 ^ m ≠ s ^ 2 ^ m) (k : Nat) (hk : k < 2 ^ m) :
    proofMulti (Bench.blst B g1 g2 ks1) (Bench.blst B g1 g2 ks2) p x (2 ^ m) k = .ok () := by
  have hi : ∀ n, s ≠ 0 ∨ n < 8 ∨ B.MsmTotal := fun n => hinf.imp id Or.inr
  obtain ⟨com, π, e1, e2, e3⟩ := C28_multi_complete_partial hB h2 le_rfl hN p hp hp' x hx0 hinf (Or.inl hx)
  have e1' : (Bench.blst B g1 g2 ks1).commit p = .ok com := by
    rw [← e1, C25_commit hB h2 p hp (hi _)]
    exact C25_commit hB h1 p hp (hi _)
  have hr : cosetRoot ks2 m m = ks2.fs.rootOfUnity := by rw [cosetRoot, Nat.sub_self, pow_zero, pow_one]
  rw [hr] at e3
  refine proofMulti_ok (blst_base B h2) rfl hk (blst_eval B g1 g2 ks2 hp1) e1' e2 e3 ?_
  refine bumped_rejected (A := Bench.blst B g1 g2 ks2) (s := s) (by positivity) (blst_base B h2).prim hx0 hk hx.symm
    (fun v => com - v • g1 = (s ^ 2 ^ m - x ^ 2 ^ m) • π) ?_ ?_ e3
  · intro a b ha hb
    rw [← hb, sub_right_inj, smul_inj' hB.ne] at ha
    exact ha
  · intro I ys hI hys hv
    exact C29_multi_accepts_iff hB h2 le_rfl hN com π x hx0 ys hys (hi _) (Or.inl hx) I hI (by rw [hr]; exact hv)

/-- C168 (mcl, partial): as for blst-from-scratch, also with one coefficient. Missing from the full statement: more than `2^30` points or
`2^29` coefficients (as in C109). -/
theorem C168_mcl_partial [Mcl.Lib Fr] {B : Mcl.Backend G1 G2 GT} {g1 : G1} {g2 : G2} (hB : B.Lawful g1 g2)
    {ks1 ks2 : KZGSettings Fr G1 G2} {N scale m : Nat} {s : Fr} (h1 : MclMade ks1 g1 g2 N scale s) (h2 : MclMade ks2 g1 g2 N m s)
    (h30 : m ≤ 30) (hN : 2 ^ m < N) (p : List Fr) (hp : p.length ≤ N) (hp' : p.length ≤ 2 ^ 29) (x : Fr) (hx0 : x ≠ 0)
    (hx : x ^ 2 ^ m ≠ s ^ 2 ^ m) (k : Nat) (hk : k < 2 ^ m) :
    proofMulti (Bench.mcl B g1 g2 ks1) (Bench.mcl B g1 g2 ks2) p x (2 ^ m) k = .ok () := by
  obtain ⟨com, π, e1, e2, e3⟩ := C109_multi_complete_partial hB h2 le_rfl h30 hN p hp hp' x hx0
  have e1' : (Bench.mcl B g1 g2 ks1).commit p = .ok com := by
    rw [← e1, (C108_commit hB h2 p).1 hp]
    exact (C108_commit hB h1 p).1 hp
  have hr : cosetRoot ks2 m m = ks2.fs.rootOfUnity := by rw [cosetRoot, Nat.sub_self, pow_zero, pow_one]
  rw [hr] at e3
  refine proofMulti_ok (mcl_base B h2) rfl hk (mcl_eval B g1 g2 ks2 p) e1' e2 e3 ?_
  refine bumped_rejected (A := Bench.mcl B g1 g2 ks2) (s := s) (by positivity) (mcl_base B h2).prim hx0 hk hx.symm
    (fun v => com - v • g1 = (s ^ 2 ^ m - x ^ 2 ^ m) • π) ?_ ?_ e3
  · intro a b ha hb
    rw [← hb, sub_right_inj, smul_inj' hB.ne] at ha
    exact ha
  · intro I ys hI hys hv
    exact C109_multi_accepts_iff hB h2 le_rfl h30 hN com π x hx0 ys hys I hI (by rw [hr]; exact hv)

/-- C168 (Arkworks, partial): as for mcl. Missing from the full statement: more than `2^30` coefficients, and zero polynomials of the
lengths for which the division fails (as in C128). -/
theorem C168_ark_partial {P : Type} {B : Ark.Backend P G1 G2 GT} {g1 : G1} {g2 : G2} (hB : B.Lawful g1 g2)
    {ks1 ks2 : Ark.Settings P G1 G2} {L scale m : Nat} {s : Fr} (h1 : ArkMade B ks1 g1 g2 L scale s) (h2 : ArkMade B ks2 g1 g2 L m s)
    (hL : 2 ^ m ≤ L) (p : List Fr) (hp : p.length ≤ L) (hp' : p.length ≤ 2 ^ 30) (x : Fr) (hx0 : x ≠ 0)
    (hz : polyOf p = 0 → 2 ^ m < 127 ∨ p.length ≤ 2 ^ m + 1 ∨ 2 ^ m + 128 ≤ p.length)
    (hx : x ^ 2 ^ m ≠ s ^ 2 ^ m) (k : Nat) (hk : k < 2 ^ m) :
    proofMulti (Bench.ark B ks1) (Bench.ark B ks2) p x (2 ^ m) k = .ok () := by
  obtain ⟨com, π, e1, e2, e3⟩ := C128_multi_complete_partial hB h2 le_rfl hL p hp hp' x hx0 hz
  have hL1 : 1 ≤ L := le_trans Nat.one_le_two_pow hL
  have e1' : (Bench.ark B ks1).commit p = .ok com := by
    rw [← e1, (C127_commit hB h2 p).1 hL1 hp]
    exact (C127_commit hB h1 p).1 hL1 hp
  have hr : domainRoot ks2.fs m m = ks2.fs.rootOfUnity := by rw [domainRoot, Nat.sub_self, pow_zero, pow_one]
  rw [hr] at e3
  refine proofMulti_ok (ark_base hB h2) rfl hk (ark_eval B ks2 p) e1' e2 e3 ?_
  refine bumped_rejected (A := Bench.ark B ks2) (s := s) (by positivity) (ark_base hB h2).prim hx0 hk hx.symm
    (fun v => com - v • g1 = (s ^ 2 ^ m - x ^ 2 ^ m) • π) ?_ ?_ e3
  · intro a b ha hb
    rw [← hb, sub_right_inj, smul_inj' hB.ne] at ha
    exact ha
  · intro I ys hI hys hv
    exact C128_multi_accepts_iff hB h2 le_rfl hL com π x hx0 ys hys I hI (by rw [hr]; exact hv)

/-- The test as it stands: 17 points, scales 4 and 3, the point 5431, the changed value 4. -/
example : ∃ ks1 ks2 : KZGSettings Fr Fr Fr, MadeFrom ks1 1 1 17 4 ((bytesVal benchSecret : Nat) : Fr) ∧
    MadeFrom ks2 1 1 17 3 ((bytesVal benchSecret : Nat) : Fr) ∧
    proofMulti (Bench.blst toyBackend 1 1 ks1) (Bench.blst toyBackend 1 1 ks2) (benchPoly Fr) 5431 8 4 = .ok () := by
  obtain ⟨ks1, h1⟩ := madeFrom_exists (G1 := Fr) (G2 := Fr) 1 1 4 17 (by norm_num) (by norm_num) benchSecret
  obtain ⟨ks2, h2⟩ := madeFrom_exists (G1 := Fr) (G2 := Fr) 1 1 3 17 (by norm_num) (by norm_num) benchSecret
  exact ⟨ks1, ks2, h1, h2, C168_blst_partial toyBackend_lawful h1 h2 (by norm_num) _ (by norm_num [benchPoly])
    (by norm_num [benchPoly]) (by norm_num [benchPoly]) 5431 (by decide +kernel) (Or.inr toyBackend_total.1) (by decide +kernel) 4
    (by norm_num)⟩

/-! ## C169: amortised single proofs -/

theorem bench_reversed_of {F P : Type} [Field F] [DecidableEq F] {A : Api F P} {com : P} {ω : F} {k : Nat} {p : List F} {out proofs : List P}
    (ho : ∀ j < 2 ^ k, ∃ r, IsBitReversal k j r ∧ out[r]? = proofs[j]?)
    (h : ∀ j < 2 ^ k, ∃ π, proofs[j]? = some π ∧ A.checkSingle com π (ω ^ j) ((polyOf p).eval (ω ^ j)) = .ok true) :
    Reversed A com ω k p out := by
  intro j hj
  obtain ⟨r, hr, e⟩ := ho j hj
  obtain ⟨π, hπ, hc⟩ := h j hj
  exact ⟨r, π, hr, by rw [e, hπ], hc⟩

theorem blst_fk_single {B : Backend G1 G2 GT} {g1 : G1} {g2 : G2} (hB : B.Lawful g1 g2) {ks : KZGSettings Fr G1 G2}
    {N scale : Nat} {s : Fr} (h : MadeFrom ks g1 g2 N scale s) {m : Nat} (hm : m < scale) {fk : FK20Single Fr G1 G2}
    (hfk : FK20Single.new ks (2 ^ (m + 1)) = .ok fk) (p : List Fr) (hp : p.length = 2 ^ m)
    (hinf : s ≠ 0 ∨ p.length < 8 ∨ B.MsmTotal) (hs : s ^ 2 ^ (m + 1) ≠ 1 ∨ B.PairTotal) :
    ∃ com proofs out, ks.commitToPoly B p = .ok com ∧ fk.daOptimized p = .ok proofs ∧ fk.da p = .ok out ∧
      (∀ j < 2 ^ (m + 1), ∃ r, IsBitReversal (m + 1) j r ∧ out[r]? = proofs[j]?) ∧
      ∀ j < 2 ^ (m + 1), ∃ π, proofs[j]? = some π ∧ ks.checkProofSingle B g1 g2 com π (cosetRoot ks scale (m + 1) ^ j)
        ((polyOf p).eval (cosetRoot ks scale (m + 1) ^ j)) = .ok true := by
  obtain ⟨proofs, e1, -, e3⟩ := C30_fk20_single hB h hm hfk p hp hinf
  obtain ⟨proofs', out, e4, e5, -, e7⟩ := C30_fk20_single_order h hm hfk p hp
  rw [e1] at e4
  cases e4
  have hle := h.wf.le
  have h2 : 2 ^ (m + 1) ≤ 2 ^ scale := Nat.pow_le_pow_right (by omega) (by omega)
  have hN : 2 ≤ N := le_trans (Nat.le_self_pow (n := m + 1) (by omega) 2) (h2.trans hle)
  have hpN : p.length ≤ N := by rw [hp]; rw [pow_succ] at h2; omega
  have hprim := cosetRoot_prim h (m := m + 1) (by omega)
  refine ⟨_, proofs, out, C25_commit hB h p hpN hinf, e1, e5, e7, fun j hj => ?_⟩
  obtain ⟨π, hπ, hc⟩ := e3 j hj
  obtain ⟨com, π', e8, e9, e10⟩ := C26_single_complete hB h hN p hpN (cosetRoot ks scale (m + 1) ^ j) hinf (hs.imp (fun hs => by
    have := pow_pow_ne (ω := cosetRoot ks scale (m + 1)) (s := s) (a := 2 ^ (m + 1)) (b := 1) (by rw [mul_one]; exact hprim.pow_eq_one)
      (by rwa [mul_one]) j
    rwa [pow_one, pow_one] at this) id)
  rw [hc] at e9
  cases e9
  rw [C25_commit hB h p hpN hinf] at e8
  cases e8
  exact ⟨π, hπ, e10⟩

/-- C169 (blst-from-scratch, partial): the tests pass for every polynomial of `2^m` coefficients, `0 < m`. -/
theorem C169_blst_partial {B : Backend G1 G2 GT} {g1 : G1} {g2 : G2} (hB : B.Lawful g1 g2) {ks : KZGSettings Fr G1 G2}
    {N scale : Nat} {s : Fr} (h : MadeFrom ks g1 g2 N scale s) {m : Nat} (hm : m < scale) (hm0 : 0 < m) {fk : FK20Single Fr G1 G2}
    (hfk : FK20Single.new ks (2 ^ (m + 1)) = .ok fk) (p : List Fr) (hp : p.length = 2 ^ m)
    (hinf : s ≠ 0 ∨ p.length < 8 ∨ B.MsmTotal) (hs : s ^ 2 ^ (m + 1) ≠ 1 ∨ B.PairTotal) :
    fkSingleStrided (Bench.blst B g1 g2 ks) fk.da p = .ok () ∧
    (m + 1 = scale → fkSingle (Bench.blst B g1 g2 ks) fk.da fk.daOptimized p = .ok ()) := by
  obtain ⟨com, proofs, out, e1, e2, e3, e4, e5⟩ := blst_fk_single hB h hm hfk p hp hinf hs
  have hp1 : p.length ≠ 1 := by
    rw [hp]
    have : 2 ^ 1 ≤ 2 ^ m := Nat.pow_le_pow_right (by omega) hm0
    omega
  refine ⟨fkSingleStrided_ok (blst_base B h) hm (blst_eval B g1 g2 ks hp1) hp e1 e3 (bench_reversed_of e4 e5), ?_⟩
  rintro rfl
  have hr : cosetRoot ks (m + 1) (m + 1) = ks.fs.rootOfUnity := by rw [cosetRoot, Nat.sub_self, pow_zero, pow_one]
  rw [hr] at e5
  exact fkSingle_ok (blst_base B h) (blst_eval B g1 g2 ks hp1) hp e1 e3 e2 (bench_reversed_of e4 e5) e5

example : ∃ (ks : KZGSettings Fr Fr Fr) (f1 : FK20Single Fr Fr Fr), MadeFrom ks 1 1 8 3 5 ∧ FK20Single.new ks 8 = .ok f1 ∧
    fkSingle (Bench.blst toyBackend 1 1 ks) f1.da f1.daOptimized [1, 2, 3, 4] = .ok () := by
  obtain ⟨ks, h⟩ := madeFrom_exists (G1 := Fr) (G2 := Fr) 1 1 3 8 (by norm_num) (by norm_num) [5]
  rw [show ((bytesVal [5] : Nat) : Fr) = 5 by norm_num [bytesVal]] at h
  obtain ⟨f1, hf1, -⟩ := (C30_settings_new h 8).1 ⟨2, by norm_num, by norm_num⟩
  exact ⟨ks, f1, h, hf1, (C169_blst_partial toyBackend_lawful h (m := 2) (by norm_num) (by norm_num) hf1 [1, 2, 3, 4] rfl
    (Or.inr (Or.inr toyBackend_total.1)) (Or.inr toyBackend_total.2)).2 rfl⟩

theorem mcl_fk_single [Mcl.Lib Fr] {B : Mcl.Backend G1 G2 GT} {g1 : G1} {g2 : G2} (hB : B.Lawful g1 g2) {ks : KZGSettings Fr G1 G2}
    {N scale : Nat} {s : Fr} (h : MclMade ks g1 g2 N scale s) {m : Nat} (hm : m < scale) (hm30 : m + 1 ≤ 30) (hN : 2 ^ (m + 1) ≤ N)
    {fk : FK20Single Fr G1 G2} (hfk : Mcl.FK20Single.new ks (2 ^ (m + 1)) = .ok fk) (p : List Fr) (hp : p.length = 2 ^ m) :
    ∃ com proofs out, Mcl.commit B ks.secretG1 p = .ok com ∧ Mcl.FK20Single.daOptimized fk p = .ok proofs ∧
      Mcl.FK20Single.da fk p = .ok out ∧ (∀ j < 2 ^ (m + 1), ∃ r, IsBitReversal (m + 1) j r ∧ out[r]? = proofs[j]?) ∧
      ∀ j < 2 ^ (m + 1), ∃ π, proofs[j]? = some π ∧ Mcl.checkProofSingle B g1 g2 ks com π (cosetRoot ks scale (m + 1) ^ j)
        ((polyOf p).eval (cosetRoot ks scale (m + 1) ^ j)) = .ok true := by
  obtain ⟨proofs, e1, -, e3⟩ := C110_fk20_single_partial hB h hm hm30 hfk p hp
  obtain ⟨proofs', out, e4, e5, -, e7⟩ := C110_fk20_single_order h hm hfk p hp
  rw [e1] at e4
  cases e4
  have hN2 : 2 ≤ N := le_trans (Nat.le_self_pow (n := m + 1) (by omega) 2) hN
  have hpN : p.length ≤ N := by rw [hp]; rw [pow_succ] at hN; omega
  refine ⟨_, proofs, out, (C108_commit hB h p).1 hpN, e1, e5, e7, fun j hj => ?_⟩
  obtain ⟨π, hπ, hc⟩ := e3 j hj
  obtain ⟨com, π', e8, e9, e10⟩ := C108_single_complete hB h hN2 p hpN (cosetRoot ks scale (m + 1) ^ j)
  rw [hc] at e9
  cases e9
  rw [(C108_commit hB h p).1 hpN] at e8
  cases e8
  obtain ⟨b, eb, hb⟩ := e10 ((polyOf p).eval (cosetRoot ks scale (m + 1) ^ j))
  rw [hb.2 rfl] at eb
  exact ⟨π, hπ, eb⟩

/-- C169 (mcl, partial): the tests pass for every polynomial of `2^m` coefficients, `m ≤ 29` (as in C110). -/
theorem C169_mcl_partial [Mcl.Lib Fr] {B : Mcl.Backend G1 G2 GT} {g1 : G1} {g2 : G2} (hB : B.Lawful g1 g2)
    {ks : KZGSettings Fr G1 G2} {N scale : Nat} {s : Fr} (h : MclMade ks g1 g2 N scale s) {m : Nat} (hm : m < scale)
    (hm30 : m + 1 ≤ 30) (hN : 2 ^ (m + 1) ≤ N) {fk : FK20Single Fr G1 G2} (hfk : Mcl.FK20Single.new ks (2 ^ (m + 1)) = .ok fk)
    (p : List Fr) (hp : p.length = 2 ^ m) :
    fkSingleStrided (Bench.mcl B g1 g2 ks) (Mcl.FK20Single.da fk) p = .ok () ∧
    (m + 1 = scale → fkSingle (Bench.mcl B g1 g2 ks) (Mcl.FK20Single.da fk) (Mcl.FK20Single.daOptimized fk) p = .ok ()) := by
  obtain ⟨com, proofs, out, e1, e2, e3, e4, e5⟩ := mcl_fk_single hB h hm hm30 hN hfk p hp
  refine ⟨fkSingleStrided_ok (mcl_base B h) hm (mcl_eval B g1 g2 ks p) hp e1 e3 (bench_reversed_of e4 e5), ?_⟩
  rintro rfl
  have hr : cosetRoot ks (m + 1) (m + 1) = ks.fs.rootOfUnity := by rw [cosetRoot, Nat.sub_self, pow_zero, pow_one]
  rw [hr] at e5
  exact fkSingle_ok (mcl_base B h) (mcl_eval B g1 g2 ks p) hp e1 e3 e2 (bench_reversed_of e4 e5) e5

/-- C169 (Arkworks): the tests pass for every polynomial of `2^m` coefficients. -/
theorem C169_ark {P : Type} {B : Ark.Backend P G1 G2 GT} {g1 : G1} {g2 : G2} (hB : B.Lawful g1 g2)
    {ks : Ark.Settings P G1 G2} {L scale : Nat} {s : Fr} (h : ArkMade B ks g1 g2 L scale s) {m : Nat} (hm : m < scale)
    (hL : 2 ^ m ≤ L) {fk : Ark.FKSingle P G1 G2} (hfk : Ark.FKSingle.new B ks (2 ^ (m + 1)) = .ok fk)
    (p : List Fr) (hp : p.length = 2 ^ m) :
    fkSingleStrided (Bench.ark B ks) fk.da p = .ok () ∧
    (m + 1 = scale → fkSingle (Bench.ark B ks) fk.da fk.daOptimized p = .ok ()) := by
  obtain ⟨com, proofs, e1, e2, -, e5⟩ := C129_fk20_single hB h hm hfk p hp hL
  obtain ⟨proofs', out, e6, e3, -, e4⟩ := C129_fk20_single_order hB h hm hfk p hp
  rw [e2] at e6
  cases e6
  have e5' : ∀ j < 2 ^ (m + 1), ∃ π, proofs[j]? = some π ∧ (Bench.ark B ks).checkSingle com π (domainRoot ks.fs scale (m + 1) ^ j)
      ((polyOf p).eval (domainRoot ks.fs scale (m + 1) ^ j)) = .ok true := fun j hj => by
    obtain ⟨π, a, -, b⟩ := e5 j hj
    exact ⟨π, a, b⟩
  refine ⟨fkSingleStrided_ok (ark_base hB h) hm (ark_eval B ks p) hp e1 e3 (bench_reversed_of e4 e5'), ?_⟩
  rintro rfl
  have hr : domainRoot ks.fs (m + 1) (m + 1) = ks.fs.rootOfUnity := by rw [domainRoot, Nat.sub_self, pow_zero, pow_one]
  rw [hr] at e5'
  exact fkSingle_ok (ark_base hB h) (ark_eval B ks p) hp e1 e3 e2 (bench_reversed_of e4 e5') e5'

/-! ## C170: amortised proofs for chunks -/

theorem chunks_of {P : Type} {Q : Nat → P → Prop} {k : Nat} {out proofs : List P}
    (ho : ∀ j < 2 ^ k, ∃ r, IsBitReversal k j r ∧ out[r]? = proofs[j]?)
    (h : ∀ j < 2 ^ k, ∃ π, proofs[j]? = some π ∧ Q j π) :
    ∀ j < 2 ^ k, ∃ r π, IsBitReversal k j r ∧ out[r]? = some π ∧ Q j π := by
  intro j hj
  obtain ⟨r, hr, e⟩ := ho j hj
  obtain ⟨π, hπ, hc⟩ := h j hj
  exact ⟨r, π, hr, by rw [e, hπ], hc⟩

/-- C170 (blst-from-scratch, partial): the test passes for every polynomial of `2^(m+c)` coefficients and chunks of `2^c`, except with
one coefficient. -/
theorem C170_blst_partial {B : Backend G1 G2 GT} {g1 : G1} {g2 : G2} (hB : B.Lawful g1 g2) {ks : KZGSettings Fr G1 G2}
    {N scale : Nat} {s : Fr} (h : MadeFrom ks g1 g2 N scale s) {m c : Nat} (hm : m + c < scale) (hm0 : 0 < m + c)
    {fk : FK20Multi Fr G1 G2} (hfk : FK20Multi.new ks (2 ^ (m + c + 1)) (2 ^ c) = .ok fk)
    (p : List Fr) (hp : p.length = 2 ^ (m + c)) (hinf : s ≠ 0 ∨ B.MsmTotal) (hs : s ^ 2 ^ (m + c + 1) ≠ 1 ∨ B.PairTotal) :
    fkMulti (Bench.blst B g1 g2 ks) fk.da p (2 ^ c) = .ok () := by
  have hi : ∀ n, s ≠ 0 ∨ n < 8 ∨ B.MsmTotal := fun n => hinf.imp id Or.inr
  obtain ⟨proofs, e1, e2, e3⟩ := C31_fk20_multi hB h hm hfk p hp (hi _)
  obtain ⟨proofs', out, e4, e5, -, e7⟩ := C31_fk20_multi_order h hm hfk p hp
  rw [e1] at e4
  cases e4
  have hlt := h.wf.fs.lt
  rw [Nat.pow_div (by omega) (by omega), show m + c + 1 - c = m + 1 by omega] at e2
  have hle := h.wf.le
  have h2 : 2 ^ (m + c + 1) ≤ 2 ^ scale := Nat.pow_le_pow_right (by omega) (by omega)
  have hpN : p.length ≤ N := by rw [hp]; rw [pow_succ] at h2; omega
  have hcN : 2 ^ c < N := lt_of_lt_of_le (Nat.pow_lt_pow_right (by omega) (by omega)) (h2.trans hle)
  have hp1 : p.length ≠ 1 := by
    rw [hp]
    have : 2 ^ 1 ≤ 2 ^ (m + c) := Nat.pow_le_pow_right (by omega) hm0
    omega
  have hp30 : p.length ≤ 2 ^ 30 := by rw [hp]; exact Nat.pow_le_pow_right (by omega) (by omega)
  have hprim := cosetRoot_prim h (m := m + c + 1) (by omega)
  refine fkMulti_ok (blst_base B h) hm (blst_eval B g1 g2 ks hp1) hp (C25_commit hB h p hpN (hi _)) e5 (chunks_of e7
    fun j hj => ?_)
  obtain ⟨π, hπ, hc⟩ := e3 j (by omega)
  have hne : (cosetRoot ks scale (m + c + 1) ^ j) ^ 2 ^ c ≠ s ^ 2 ^ c ∨ B.PairTotal := hs.imp (fun hs =>
    pow_pow_ne (a := 2 ^ (m + 1)) (b := 2 ^ c) (by rw [← pow_add, show m + 1 + c = m + c + 1 by omega]; exact hprim.pow_eq_one)
      (by rwa [← pow_add, show m + 1 + c = m + c + 1 by omega]) j) id
  obtain ⟨com, π', e8, e9, e10⟩ := C28_multi_complete_partial hB h (m := c) (by omega) hcN p hpN hp30
    (cosetRoot ks scale (m + c + 1) ^ j) (pow_ne_zero _ (hprim.ne_zero (by positivity))) hinf hne
  rw [hc] at e9
  cases e9
  rw [C25_commit hB h p hpN (hi _)] at e8
  cases e8
  exact ⟨π, hπ, e10⟩

example : ∃ (ks : KZGSettings Fr Fr Fr) (f2 : FK20Multi Fr Fr Fr), MadeFrom ks 1 1 16 4 5 ∧ FK20Multi.new ks 8 2 = .ok f2 ∧
    fkMulti (Bench.blst toyBackend 1 1 ks) f2.da [1, 2, 3, 4] 2 = .ok () := by
  obtain ⟨ks, h⟩ := madeFrom_exists (G1 := Fr) (G2 := Fr) 1 1 4 16 (by norm_num) (by norm_num) [5]
  rw [show ((bytesVal [5] : Nat) : Fr) = 5 by norm_num [bytesVal]] at h
  obtain ⟨f2, hf2, -, -⟩ := (C31_settings_new h 8 2).1 ⟨1, 1, by norm_num, by norm_num, by norm_num⟩
  exact ⟨ks, f2, h, hf2, C170_blst_partial toyBackend_lawful h (m := 1) (c := 1) (by norm_num) (by norm_num) hf2 [1, 2, 3, 4] rfl
    (Or.inr toyBackend_total.1) (Or.inr toyBackend_total.2)⟩

/-- C170 (mcl, partial): the test passes for every polynomial of `2^(m+c)` coefficients and chunks of `2^c`, `m + c ≤ 29` (as in
C111). -/
theorem C170_mcl_partial [Mcl.Lib Fr] {B : Mcl.Backend G1 G2 GT} {g1 : G1} {g2 : G2} (hB : B.Lawful g1 g2)
    {ks : KZGSettings Fr G1 G2} {N scale : Nat} {s : Fr} (h : MclMade ks g1 g2 N scale s) {m c : Nat} (hm : m + c < scale)
    (hm29 : m + c ≤ 29) (hN : 2 ^ (m + c + 1) ≤ N) {fk : FK20Multi Fr G1 G2}
    (hfk : Mcl.FK20Multi.new ks (2 ^ (m + c + 1)) (2 ^ c) = .ok fk) (p : List Fr) (hp : p.length = 2 ^ (m + c)) :
    fkMulti (Bench.mcl B g1 g2 ks) (Mcl.FK20Multi.da fk) p (2 ^ c) = .ok () := by
  obtain ⟨proofs, e1, e2, e3⟩ := C111_fk20_multi_partial hB h hm hm29 hfk p (List.replicate (2 ^ (m + c)) 0) hp (by simp)
  obtain ⟨proofs', out, e4, e5, -, e7⟩ := C111_fk20_multi_order h hm hfk p (List.replicate (2 ^ (m + c)) 0) hp (by simp)
  rw [e1] at e4
  cases e4
  rw [Nat.pow_div (by omega) (by omega), show m + c + 1 - c = m + 1 by omega] at e2
  have hpN : p.length ≤ N := by rw [hp]; rw [pow_succ] at hN; omega
  have hcN : 2 ^ c < N := lt_of_lt_of_le (Nat.pow_lt_pow_right (by omega) (by omega)) hN
  have hp29 : p.length ≤ 2 ^ 29 := by rw [hp]; exact Nat.pow_le_pow_right (by omega) (by omega)
  have hprim := (mcl_base B h).prim
  have hne : cosetRoot ks scale (m + c + 1) ≠ 0 := pow_ne_zero _ (hprim.ne_zero (by positivity))
  refine fkMulti_ok (mcl_base B h) hm (mcl_eval B g1 g2 ks p) hp ((C108_commit hB h p).1 hpN) e5 (chunks_of e7
    fun j hj => ?_)
  obtain ⟨π, hπ, hc⟩ := e3 j (by omega)
  obtain ⟨com, π', e8, e9, e10⟩ := C109_multi_complete_partial hB h (m := c) (by omega) (by omega) hcN p hpN hp29
    (cosetRoot ks scale (m + c + 1) ^ j) (pow_ne_zero _ hne)
  rw [hc] at e9
  cases e9
  rw [(C108_commit hB h p).1 hpN] at e8
  cases e8
  exact ⟨π, hπ, e10⟩

/-- C170 (Arkworks): the test passes for every polynomial of `2^(m+c)` coefficients and chunks of `2^c`. -/
theorem C170_ark {P : Type} {B : Ark.Backend P G1 G2 GT} {g1 : G1} {g2 : G2} (hB : B.Lawful g1 g2)
    {ks : Ark.Settings P G1 G2} {L scale : Nat} {s : Fr} (h : ArkMade B ks g1 g2 L scale s) {m c : Nat} (hm : m + c < scale)
    (hL : 2 ^ (m + c) ≤ L) {fk : Ark.FKMulti P G1 G2} (hfk : Ark.FKMulti.new B ks (2 ^ (m + c + 1)) (2 ^ c) = .ok fk)
    (p : List Fr) (hp : p.length = 2 ^ (m + c)) : fkMulti (Bench.ark B ks) fk.da p (2 ^ c) = .ok () := by
  obtain ⟨com, proofs, e1, e2, e2', e5⟩ := C130_fk20_multi hB h hm hfk p hp hL
  obtain ⟨proofs', out, e6, e3, -, e4⟩ := C130_fk20_multi_order hB h hm hfk p hp
  rw [e2] at e6
  cases e6
  have hlt := (h.wf hB).fs.lt
  rw [Nat.pow_div (by omega) (by omega), show m + c + 1 - c = m + 1 by omega] at e2'
  refine fkMulti_ok (ark_base hB h) hm (ark_eval B ks p) hp e1 e3 (chunks_of e4 fun j hj => ?_)
  obtain ⟨π, a, -, b⟩ := e5 j (by omega)
  exact ⟨π, a, b⟩

end

section
open Kzg.Zk Kzg.Zk.ScW Kzg.Zk.Top

theorem zk_base (chk : Bool) {chk' : Bool} {ks : Zk.Top.Settings} {N scale : Nat} {s : ScW} (h : ZkMadeFrom chk' ks N scale s) :
    Base (Bench.zk chk ks) ks.fs.rootOfUnity scale :=
  base_of h.setup.2 rfl rfl fun _ _ _ _ => rfl

theorem zk_eval (chk : Bool) (ks : Zk.Top.Settings) {p : List ScW} (hp : p.length ≠ 1) (x : ScW) :
    (Bench.zk chk ks).eval p x = .ok ((polyOf p).eval x) := polyEval_spec p x (Or.inl hp)

/-- C167 (zkcrypto, partial): the test passes for every polynomial that fits, if it is not zero, does not have one coefficient, and the
rounding of the value and of the next one stays within the type. -/
theorem C167_zk_partial {chk : Bool} {ks : Zk.Top.Settings} {N scale : Nat} {s : ScW} (h : ZkMadeFrom chk ks N scale s)
    (hN : 2 ≤ N) (p : List ScW) (hp : p.length ≤ N) (hp' : p.length ≤ 2 ^ 30) (hp1 : p.length ≠ 1) (hp0 : polyOf p ≠ 0) (x : ScW)
    (hy : ¬ RoundingOverflows (el ((polyOf p).eval x)).val) (hy' : ¬ RoundingOverflows (el ((polyOf p).eval x + 1)).val) :
    proofSingle (Bench.zk chk ks) p x = .ok () := by
  obtain ⟨com, π, h1, h2, h3⟩ := C88_binding h hN p hp hp' hp0 x _ hy
  obtain ⟨com', π', h1', h2', h3'⟩ := C88_binding h hN p hp hp' hp0 x _ hy'
  rw [h1] at h1'
  rw [h2] at h2'
  cases h1'
  cases h2'
  rw [decide_eq_true rfl] at h3
  rw [decide_eq_false (by simp)] at h3'
  exact proofSingle_ok (A := Bench.zk chk ks) h1 h2 (zk_eval chk ks hp1 x) h3 h3'

example (chk : Bool) : ∃ ks s, ZkMadeFrom chk ks 17 4 s ∧ proofSingle (Bench.zk chk ks) (benchPoly ScW) 25 = .ok () := by
  obtain ⟨ks, s, h, -⟩ := zkMadeFrom_exists chk (N := 17) (scale := 4) (by norm_num) (by norm_num)
  have hsmall : ∀ n : Nat, n < 2 ^ 191 → ¬ RoundingOverflows (el ((n : Nat) : ScW)).val := fun n hn => by
    rw [el_natCast, ZMod.val_natCast]
    exact C54_small_scalars (lt_of_le_of_lt (Nat.mod_le _ _) hn)
  have hev : (polyOf (benchPoly ScW)).eval 25 = ((12611659864546457876926 : Nat) : ScW) := by
    rw [eval_polyOf]
    simp [Finset.sum_range_succ, benchPoly]
    norm_num
  have hp0 : polyOf (benchPoly ScW) ≠ 0 := by
    intro h0
    have := congrArg (fun q => coeff q 0) h0
    simp [coeff_polyOf, benchPoly] at this
  refine ⟨ks, s, h, C167_zk_partial h (by norm_num) _ (by norm_num [benchPoly]) (by norm_num [benchPoly]) (by norm_num [benchPoly])
    hp0 25 (by rw [hev]; exact hsmall _ (by norm_num)) ?_⟩
  rw [hev, ← Nat.cast_succ]
  exact hsmall _ (by norm_num)

theorem proofSingle_eval {F P : Type} [Field F] [DecidableEq F] {A : Api F P} {p : List F} {x : F} (h : A.eval p x = .panic) :
    proofSingle A p x ≠ .ok () := by
  unfold proofSingle
  cases A.commit p with
  | ok c =>
    cases A.single p x with
    | ok q => rw [unwrap, bind_ok, unwrap, bind_ok, h]; exact fun e => by cases e
    | err m => exact fun e => by cases e
    | panic => exact fun e => by cases e
  | err m => exact fun e => by cases e
  | panic => exact fun e => by cases e

/-- C167 (refuted for zkcrypto): with one coefficient the test passes at no point but 0, whatever the settings. -/
theorem C167_constant_zk (chk : Bool) (ks : Zk.Top.Settings) (c x : ScW) (hx : x ≠ 0) :
    proofSingle (Bench.zk chk ks) [c] x ≠ .ok () := proofSingle_eval (polyEval_one_panic c x hx)

/-- C168 (zkcrypto, partial): the test passes for every polynomial that fits, is not zero and does not have one coefficient. -/
theorem C168_zk_partial {chk : Bool} {ks1 ks2 : Zk.Top.Settings} {N scale m : Nat} {s : ScW} (h1 : ZkMadeFrom chk ks1 N scale s)
    (h2 : ZkMadeFrom chk ks2 N m s) (hN : 2 ^ m < N) (p : List ScW) (hp : p.length ≤ N) (hp' : p.length ≤ 2 ^ 30)
    (hp1 : p.length ≠ 1) (hp0 : polyOf p ≠ 0) (x : ScW) (hx0 : x ≠ 0) (hx : x ^ 2 ^ m ≠ s ^ 2 ^ m) (k : Nat) (hk : k < 2 ^ m) :
    proofMulti (Bench.zk chk ks1) (Bench.zk chk ks2) p x (2 ^ m) k = .ok () := by
  obtain ⟨com, e1, hc⟩ := C87_commit h1 p hp
  have hd := zk_natDegree_lt hp0
  obtain ⟨π, e2, hq⟩ := h2.setup.1.computeMulti p x (m := m) hp0 (by omega) (le_trans (Nat.sub_le _ _) (by omega))
  have hr : zkCosetRoot ks2 m m = ks2.fs.rootOfUnity := by rw [zkCosetRoot, Nat.sub_self, pow_zero, pow_one]
  have acc : ∀ (I : ScW[X]) (ys : List ScW), I.degree < (2 ^ m : Nat) → ys.length = 2 ^ m →
      (∀ i < 2 ^ m, ys[i]? = some (I.eval (x * ks2.fs.rootOfUnity ^ i))) →
      (Bench.zk chk ks2).checkMulti com π x ys (2 ^ m) = .ok (decide ((polyOf p).eval s - I.eval s =
        (polyOf p / (X ^ 2 ^ m - C (x ^ 2 ^ m))).eval s * (s ^ 2 ^ m - x ^ 2 ^ m))) := fun I ys hI hys hv =>
    C89_accepts_iff h2 le_rfl hN hc hq x hx0 ys hys I hI (by rw [hr]; exact hv)
  have hprim := (zk_base chk h2).prim
  obtain ⟨hr1, hr2⟩ := zk_remainder (x := x) (n := 2 ^ m) (by positivity) hprim.pow_eq_one (polyOf p)
  have e3 := acc _ ((List.range (2 ^ m)).map fun i => (polyOf p).eval (x * ks2.fs.rootOfUnity ^ i)) hr1 (by simp) (by
    intro i hi
    rw [List.getElem?_map, List.getElem?_range hi, Option.map_some, hr2])
  rw [decide_eq_true (by
    have := congrArg (eval s) (EuclideanDomain.div_add_mod (polyOf p) (X ^ 2 ^ m - C (x ^ 2 ^ m)))
    rw [eval_add, eval_mul, eval_sub, eval_pow, eval_X, eval_C] at this
    linear_combination -this)] at e3
  refine proofMulti_ok (zk_base chk h2) rfl hk (zk_eval chk ks2 hp1) e1 e2 e3 ?_
  refine bumped_rejected (A := Bench.zk chk ks2) (s := s) (by positivity) hprim hx0 hk hx.symm
    (fun v => (polyOf p).eval s - v = (polyOf p / (X ^ 2 ^ m - C (x ^ 2 ^ m))).eval s * (s ^ 2 ^ m - x ^ 2 ^ m)) ?_ ?_ e3
  · intro a b ha hb
    rw [← hb] at ha
    exact sub_right_injective ha
  · intro I ys hI hys hv
    rw [acc I ys hI hys hv]
    refine ⟨?_, by simp⟩
    cases decide ((polyOf p).eval s - I.eval s = _) <;> simp

/-- C169 (zkcrypto, partial): the settings can be made and the tests pass for every polynomial of `2^m` coefficients, `0 < m`, as long as
no factor and no value is rounded beyond the type. Missing from the full statement: the rest, where it is false (C91), and scales above
16. -/
theorem C169_zk_partial {chk : Bool} {ks : Zk.Top.Settings} {N scale : Nat} {s : ScW} (h : ZkMadeFrom chk ks N scale s)
    (hN : 2 ^ scale ≤ N) (hs : scale ≤ 16) {m : Nat} (hm : m < scale) (hm0 : 0 < m) {p : List ScW} (hp : p.length = 2 ^ m)
    (hg : ∀ i < 2 ^ (m + 1), ¬ RoundingOverflows (el (fkFactor (zkCosetRoot ks scale (m + 1)) (2 ^ m) 1 0 p i)).val)
    (hy : ∀ j < 2 ^ (m + 1), ¬ RoundingOverflows (el ((polyOf p).eval (zkCosetRoot ks scale (m + 1) ^ j))).val) :
    ∃ fk, ZkP.singleNew (g1Ops chk) ks (2 ^ (m + 1)) = .ok fk ∧
      fkSingleStrided (Bench.zk chk ks) (ZkP.singleDa (g1Ops chk) fk) p = .ok () ∧
      (m + 1 = scale → fkSingle (Bench.zk chk ks) (ZkP.singleDa (g1Ops chk) fk) (ZkP.singleOpt (g1Ops chk) fk) p = .ok ()) := by
  obtain ⟨fk, proofs, e0, e2, hl, hpr⟩ := C91_single_partial h hN hs hm hp hg
  obtain ⟨out, e3, -, e4⟩ := C91_order chk fk (m := m) (by omega) p hl e2
  have h2 : 2 ^ (m + 1) ≤ 2 ^ scale := Nat.pow_le_pow_right (by omega) (by omega)
  have hN2 : 2 ≤ N := le_trans (Nat.le_self_pow (n := m + 1) (by omega) 2) (h2.trans hN)
  have hpN : p.length ≤ N := by rw [hp]; rw [pow_succ] at h2; omega
  have hp1 : p.length ≠ 1 := by
    rw [hp]
    have : 2 ^ 1 ≤ 2 ^ m := Nat.pow_le_pow_right (by omega) hm0
    omega
  obtain ⟨com, e1, hc⟩ := C87_commit h p hpN
  have e5 : ∀ j < 2 ^ (m + 1), ∃ π, proofs[j]? = some π ∧ (Bench.zk chk ks).checkSingle com π (zkCosetRoot ks scale (m + 1) ^ j)
      ((polyOf p).eval (zkCosetRoot ks scale (m + 1) ^ j)) = .ok true := fun j hj => by
    obtain ⟨π, hπ, hq⟩ := hpr j hj
    refine ⟨π, hπ, ?_⟩
    have := C88_accepts_iff h hN2 hc hq (zkCosetRoot ks scale (m + 1) ^ j) _ (hy j hj)
    rw [decide_eq_true (by
      have hd := congrArg (eval s) (zk_linear_div p (zkCosetRoot ks scale (m + 1) ^ j))
      rw [pow_zero] at hd
      rw [eval_add, eval_mul, eval_sub, eval_X, eval_C, eval_C] at hd
      linear_combination hd)] at this
    exact this
  refine ⟨fk, e0, fkSingleStrided_ok (zk_base chk h) hm (zk_eval chk ks hp1) hp e1 e3 (bench_reversed_of e4 e5), ?_⟩
  rintro rfl
  have hr : zkCosetRoot ks (m + 1) (m + 1) = ks.fs.rootOfUnity := by rw [zkCosetRoot, Nat.sub_self, pow_zero, pow_one]
  rw [hr] at e5
  exact fkSingle_ok (zk_base chk h) (zk_eval chk ks hp1) hp e1 e3 e2 (bench_reversed_of e4 e5) e5

/-- C170 (zkcrypto, partial): the settings can be made and the test passes for every polynomial of `2^(m+c)` coefficients and chunks of
`2^c`, as long as no factor is rounded beyond the type. Missing from the full statement: the rest, where it is false (C92), and scales
above 16. -/
theorem C170_zk_partial {chk : Bool} {ks : Zk.Top.Settings} {N scale : Nat} {s : ScW} (h : ZkMadeFrom chk ks N scale s)
    (hN : 2 ^ scale ≤ N) (hs : scale ≤ 16) {m c : Nat} (hm : m + c < scale) (hm0 : 0 < m + c) {p : List ScW}
    (hp : p.length = 2 ^ (m + c)) (hg : ∀ u < 2 ^ c, ∀ i < 2 ^ (m + 1),
      ¬ RoundingOverflows (el (fkFactor (zkCosetRoot ks scale (m + 1)) (2 ^ m) (2 ^ c) u p i)).val) :
    ∃ fk, ZkP.multiNew (g1Ops chk) ks (2 ^ (m + c + 1)) (2 ^ c) = .ok fk ∧
      fkMulti (Bench.zk chk ks) (ZkP.multiDa (g1Ops chk) fk) p (2 ^ c) = .ok () := by
  obtain ⟨fk, proofs, e0, e2, hl, hpr⟩ := C92_multi_partial h hN hs hm hp hg
  obtain ⟨out, e3, -, e4⟩ := C92_order chk fk (m := m) (by omega) p hl e2
  have h2 : 2 ^ (m + c + 1) ≤ 2 ^ scale := Nat.pow_le_pow_right (by omega) (by omega)
  have hpN : p.length ≤ N := by rw [hp]; rw [pow_succ] at h2; omega
  have hcN : 2 ^ c < N := lt_of_lt_of_le (Nat.pow_lt_pow_right (by omega) (by omega)) (h2.trans hN)
  have hp1 : p.length ≠ 1 := by
    rw [hp]
    have : 2 ^ 1 ≤ 2 ^ (m + c) := Nat.pow_le_pow_right (by omega) hm0
    omega
  obtain ⟨com, e1, hc⟩ := C87_commit h p hpN
  have hprim := zkCosetRoot_prim h (m := m + c + 1) (by omega)
  have hprim' := zkCosetRoot_prim h (m := c) (by omega)
  refine ⟨fk, e0, fkMulti_ok (zk_base chk h) hm (zk_eval chk ks hp1) hp e1 e3 (chunks_of e4 fun j hj => ?_)⟩
  obtain ⟨π, hπ, hq⟩ := hpr j hj
  refine ⟨π, hπ, ?_⟩
  obtain ⟨hr1, hr2⟩ := zk_remainder (x := zkCosetRoot ks scale (m + c + 1) ^ j) (n := 2 ^ c) (by positivity) hprim'.pow_eq_one
    (polyOf p)
  have := C89_accepts_iff h (m := c) (by omega) hcN hc hq (zkCosetRoot ks scale (m + c + 1) ^ j)
    (pow_ne_zero _ (hprim.ne_zero (by positivity)))
    ((List.range (2 ^ c)).map fun i => (polyOf p).eval (zkCosetRoot ks scale (m + c + 1) ^ j * zkCosetRoot ks scale c ^ i)) (by simp)
    _ hr1 (by
      intro i hi
      rw [List.getElem?_map, List.getElem?_range hi, Option.map_some, hr2])
  rw [decide_eq_true (by
    have := congrArg (eval s) (EuclideanDomain.div_add_mod (polyOf p)
      (X ^ 2 ^ c - C ((zkCosetRoot ks scale (m + c + 1) ^ j) ^ 2 ^ c)))
    rw [eval_add, eval_mul, eval_sub, eval_pow, eval_X, eval_C] at this
    linear_combination -this)] at this
  exact this

end

end Kzg.Props
