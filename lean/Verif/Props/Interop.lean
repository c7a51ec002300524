import Verif.Props.RealGroups
import Verif.Props.ZkKzg
import Verif.Props.ArkFFT
/-!
# Properties C149–C150: commitments and proofs of one backend in another

The four backends with a commitment layer of their own, over the groups of BLS12-381 (C148). zkcrypto computes with coordinates and
scalars in Montgomery form; `ScW.el` is the number a scalar stands for, and coordinates stand for a point by `Projective.Is`.
-/

set_option linter.unusedSectionVars false

namespace Kzg.Props
open Kzg Kzg.Res Kzg.Zk Kzg.Zk.ScW Kzg.Zk.Top CurveConsts Polynomial

local notation "r" => frModulus
local notation "E1" => curve (CurveConsts.b (K := FpW))
local notation "E2" => curve (CurveConsts.b (K := Fp2 FpW))

/-- The coordinates stand for the point. -/
def Stands (c : Zk.G1.Proj) (P : Bls1) : Prop := Projective.Is CurveConsts.b c (P : (E1).Point)

theorem at1_stands (c : Zk.G1.Proj) (x : ScW) : At1 c x ↔ Stands c (el x • blsG1) := by
  unfold At1 Stands
  rw [tors_smul]
  rfl

theorem stands_at1 {c : Zk.G1.Proj} {P : Bls1} (h : Stands c P) : ∃ x, P = el x • blsG1 ∧ At1 c x := by
  obtain ⟨a, rfl⟩ := blsGroups.gen' P
  obtain ⟨x, rfl⟩ := el_surj a
  exact ⟨x, rfl, (at1_stands c x).2 h⟩

theorem polyOf_map_el (p : List ScW) : polyOf (p.map el) = (polyOf p).map elHom := by
  ext i
  rw [coeff_map, coeff_polyOf, coeff_polyOf, elHom_apply, List.getD_eq_getElem?_getD, List.getD_eq_getElem?_getD,
    List.getElem?_map]
  cases p[i]? with
  | none => exact (map_zero elHom).symm
  | some a => rfl

theorem eval_map_el (p : ScW[X]) (x : ScW) : (p.map elHom).eval (el x) = el (p.eval x) := by
  rw [← elHom_apply, ← elHom_apply, eval_map_apply]

theorem quotient_map_el (p : List ScW) (x s : ScW) (n : Nat) :
    (polyOf (p.map el) / (X ^ n - C (el x ^ n))).eval (el s) = el ((polyOf p / (X ^ n - C (x ^ n))).eval s) := by
  rw [← eval_map_el, Polynomial.map_div, polyOf_map_el]
  simp only [Polynomial.map_sub, Polynomial.map_pow, map_X, map_C, map_pow, elHom_apply]

/-- Settings of the four backends with the same secret, made with the length `N` and the given scale. The words of a coordinate, the
generator of random numbers and the test parameters of Arkworks are arbitrary; that the secret is the one its generator gives is part of
`ark` (C126). -/
structure SameSecret (chk : Bool) {limbs : Bls1 → List Nat} {rng : List Nat → Fr × Bls1} {params : Ark.Params Bls1 Bls2}
    (kb : KZGSettings Fr Bls1 Bls2) (kz : Top.Settings) (km : KZGSettings Fr Bls1 Bls2) (ka : Ark.Settings Bls1 Bls1 Bls2)
    (N scale : Nat) (s : ScW) : Prop where
  blst : MadeFrom kb blsG1 blsG2 N scale (el s)
  zk : ZkMadeFrom chk kz N scale s
  mcl : MclMade km blsG1 blsG2 N scale (el s)
  ark : ArkMade (blsArk limbs rng params) ka blsG1 blsG2 N scale (el s)
  limbs : ∀ p, (limbs p).length = 6

variable {chk : Bool} {limbs : Bls1 → List Nat} {rng : List Nat → Fr × Bls1} {params : Ark.Params Bls1 Bls2}
  {kb : KZGSettings Fr Bls1 Bls2} {kz : Top.Settings} {km : KZGSettings Fr Bls1 Bls2} {ka : Ark.Settings Bls1 Bls1 Bls2}
  {N scale : Nat} {s : ScW}

/-- C149 (commitments): for every polynomial that fits, the four backends return the same point. -/
theorem C149_commit (h : SameSecret chk (limbs := limbs) (rng := rng) (params := params) kb kz km ka N scale s) (hN : 1 ≤ N)
    (p : List ScW) (hp : p.length ≤ N) :
    ∃ (P : Bls1) (c : Zk.G1.Proj), kb.commitToPoly blsBlst (p.map el) = .ok P ∧ Top.commitToPoly kz p = .ok c ∧ Stands c P ∧
      Mcl.commit blsMcl km.secretG1 (p.map el) = .ok P ∧ ka.commit (p.map el) = .ok P := by
  have hl : (p.map el).length ≤ N := by rw [List.length_map]; exact hp
  have he : (polyOf (p.map el)).eval (el s) = el ((polyOf p).eval s) := by rw [polyOf_map_el, eval_map_el]
  obtain ⟨c, e, hc⟩ := C87_commit h.zk p hp
  refine ⟨el ((polyOf p).eval s) • blsG1, c, ?_, e, (at1_stands _ _).1 hc, ?_, ?_⟩
  · rw [C25_commit C148_blst.1 h.blst _ hl (.inr (.inr C148_blst.2.1)), he]
  · rw [(C108_commit C148_mcl h.mcl _).1 hl, he]
  · rw [(C127_commit (C148_ark h.limbs rng params) h.ark _).1 hN hl, he]

section
variable [Mcl.Lib Fr]

/-- C149 (proofs): for every nonzero polynomial that fits and every point, the four backends return the same single proof. -/
theorem C149_proof_partial (h : SameSecret chk (limbs := limbs) (rng := rng) (params := params) kb kz km ka N scale s) (hN : 1 ≤ N)
    (p : List ScW) (hp : p.length ≤ N) (hp' : p.length ≤ 2 ^ 30) (hp0 : polyOf p ≠ 0) (x : ScW) :
    ∃ (P : Bls1) (c : Zk.G1.Proj), kb.computeProofSingle blsBlst (p.map el) (el x) = .ok P ∧
      Top.computeProofSingle kz p x = .ok c ∧ Stands c P ∧
      Mcl.genProofAt blsMcl km.secretG1 (p.map el) (el x) = .ok P ∧ ka.computeSingle (p.map el) (el x) = .ok P := by
  have hl : (p.map el).length ≤ N := by rw [List.length_map]; exact hp
  have hd := zk_natDegree_lt hp0
  have he := quotient_map_el p x s 1
  obtain ⟨c, e, hc⟩ := h.zk.setup.1.computeMulti p x (m := 0) hp0 (by omega) (by omega)
  rw [pow_zero] at e hc
  refine ⟨el ((polyOf p / (X ^ 1 - C (x ^ 1))).eval s) • blsG1, c, ?_, e, (at1_stands _ _).1 hc, ?_, ?_⟩
  · have := h.blst.wf.computeMulti C148_blst.1 (p.map el) hl (.inr (.inr C148_blst.2.1)) (el x) (m := 0) (Or.inl (by norm_num))
    rw [pow_zero, he] at this
    exact this
  · rw [C108_single_proof_partial C148_mcl h.mcl _ (by omega), ← he, pow_one, pow_one]
  · rw [C127_single_proof (C148_ark h.limbs rng params) h.ark hN _ hl, ← he, pow_one, pow_one]

/-- C149 (zero polynomial): its proofs are the exception. zkcrypto panics, the others return the identity. -/
theorem C149_zero_polynomial (h : SameSecret chk (limbs := limbs) (rng := rng) (params := params) kb kz km ka N scale s)
    (hN : 1 ≤ N) (p : List ScW) (hp : p.length ≤ N) (hp0 : polyOf p = 0) (x : ScW) :
    Top.computeProofSingle kz p x = .panic ∧ kb.computeProofSingle blsBlst (p.map el) (el x) = .ok 0 ∧
      Mcl.genProofAt blsMcl km.secretG1 (p.map el) (el x) = .ok 0 ∧ ka.computeSingle (p.map el) (el x) = .ok 0 := by
  have hl : (p.map el).length ≤ N := by rw [List.length_map]; exact hp
  have h0 : polyOf (p.map el) = 0 := by rw [polyOf_map_el, hp0, Polynomial.map_zero]
  refine ⟨?_, ?_, ?_, ?_⟩
  · have := C89_zero_poly_panics kz p x 0 hp0
    rwa [pow_zero] at this
  · have := h.blst.wf.computeMulti C148_blst.1 (p.map el) hl (.inr (.inr C148_blst.2.1)) (el x) (m := 0) (Or.inl (by norm_num))
    rw [h0, EuclideanDomain.zero_div, eval_zero, zero_smul, pow_zero] at this
    exact this
  · rw [C108_single_proof_partial C148_mcl h.mcl _ (by omega), h0, EuclideanDomain.zero_div, eval_zero, zero_smul]
  · rw [C127_single_proof (C148_ark h.limbs rng params) h.ark hN _ hl, h0, EuclideanDomain.zero_div, eval_zero, zero_smul]

/-- Two results that are both a Boolean and accept in the same cases are the same. -/
theorem res_bool_eq {a : Res Bool} {c : Prop} [Decidable c] (h : (a = .ok true ∨ a = .ok false) ∧ (a = .ok true ↔ c)) :
    a = .ok (decide c) := by
  obtain ⟨h1, h2⟩ := h
  by_cases hc : c
  · rw [h2.2 hc, decide_eq_true hc]
  · rw [h1.resolve_left (fun e => hc (h2.1 e)), decide_eq_false hc]

/-- C149 (checks): for arbitrary commitment and proof in the group and arbitrary point and value the checks of blst-from-scratch,
mcl-kzg and Arkworks give the same answer, and that of zkcrypto too if its multiplication by the value does not overflow. -/
theorem C149_check_partial (h : SameSecret chk (limbs := limbs) (rng := rng) (params := params) kb kz km ka N scale s) (hN : 2 ≤ N)
    {com proof : Bls1} {c π : Zk.G1.Proj} (hc : Stands c com) (hπ : Stands π proof) (x y : ScW) :
    ∃ b : Bool, kb.checkProofSingle blsBlst blsG1 blsG2 com proof (el x) (el y) = .ok b ∧
      Mcl.checkProofSingle blsMcl blsG1 blsG2 km com proof (el x) (el y) = .ok b ∧
      ka.checkSingle (blsArk limbs rng params) com proof (el x) (el y) = .ok b ∧
      (¬ RoundingOverflows (el y).val → Top.checkProofSingle chk kz c π x y = .ok b) := by
  classical
  refine ⟨decide (com - el y • blsG1 = (el s - el x) • proof),
    res_bool_eq (C27_single_accepts_iff C148_blst.1 h.blst hN com proof (el x) (el y) (.inr C148_blst.2.2)),
    res_bool_eq (C108_single_accepts_iff C148_mcl h.mcl hN com proof (el x) (el y)),
    res_bool_eq (C127_single_accepts_iff (C148_ark h.limbs rng params) h.ark (by omega) com proof (el x) (el y)), fun hy => ?_⟩
  obtain ⟨a, rfl, ha⟩ := stands_at1 hc
  obtain ⟨t, rfl, ht⟩ := stands_at1 hπ
  rw [C88_accepts_iff h.zk hN ha ht x y hy]
  congr 1
  rw [decide_eq_decide, ← sub_smul, smul_smul, smul_inj' blsGroups.ne, ← el_sub, ← el_sub, ← el_mul]
  exact ⟨fun e => by rw [e, mul_comm], fun e => (el_inj e).trans (mul_comm _ _)⟩

/-- C149 (across backends): commitment and proof made by any backend are accepted by every other one with exactly the value of the
polynomial. -/
theorem C149_across (h : SameSecret chk (limbs := limbs) (rng := rng) (params := params) kb kz km ka N scale s) (hN : 2 ≤ N)
    (p : List ScW) (hp : p.length ≤ N) (hp' : p.length ≤ 2 ^ 30) (hp0 : polyOf p ≠ 0) (x y : ScW) :
    ∃ (com proof : Bls1) (c π : Zk.G1.Proj),
      (kb.commitToPoly blsBlst (p.map el) = .ok com ∧ kb.computeProofSingle blsBlst (p.map el) (el x) = .ok proof) ∧
      (Top.commitToPoly kz p = .ok c ∧ Top.computeProofSingle kz p x = .ok π ∧ Stands c com ∧ Stands π proof) ∧
      (Mcl.commit blsMcl km.secretG1 (p.map el) = .ok com ∧
        Mcl.genProofAt blsMcl km.secretG1 (p.map el) (el x) = .ok proof) ∧
      (ka.commit (p.map el) = .ok com ∧ ka.computeSingle (p.map el) (el x) = .ok proof) ∧
      kb.checkProofSingle blsBlst blsG1 blsG2 com proof (el x) (el y) = .ok (decide (y = (polyOf p).eval x)) ∧
      Mcl.checkProofSingle blsMcl blsG1 blsG2 km com proof (el x) (el y) = .ok (decide (y = (polyOf p).eval x)) ∧
      ka.checkSingle (blsArk limbs rng params) com proof (el x) (el y) = .ok (decide (y = (polyOf p).eval x)) ∧
      (¬ RoundingOverflows (el y).val → ∀ c' π', Stands c' com → Stands π' proof →
        Top.checkProofSingle chk kz c' π' x y = .ok (decide (y = (polyOf p).eval x))) := by
  obtain ⟨com, c, h1, h2, h3, h4, h5⟩ := C149_commit h (by omega) p hp
  obtain ⟨proof, π, g1, g2, g3, g4, g5⟩ := C149_proof_partial h (by omega) p hp hp' hp0 x
  obtain ⟨b, k1, k2, k3, -⟩ := C149_check_partial h hN h3 g3 x y
  have hb : b = decide (y = (polyOf p).eval x) := by
    have := C27_single_binding C148_blst.1 h.blst hN (p.map el) (by rw [List.length_map]; exact hp) (el x) (el y)
      (.inr (.inr C148_blst.2.1)) (.inr C148_blst.2.2) com proof h1 g1
    rw [k1, polyOf_map_el, eval_map_el, Res.ok.injEq] at this
    rw [Bool.eq_iff_iff, this, decide_eq_true_eq]
    exact ⟨fun e => el_inj e, fun e => by rw [e]⟩
  subst hb
  refine ⟨com, proof, c, π, ⟨h1, g1⟩, ⟨h2, g2, h3, g3⟩, ⟨h4, g4⟩, ⟨h5, g5⟩, k1, k2, k3, fun hy c' π' hc' hπ' => ?_⟩
  obtain ⟨b', k1', -, -, k4⟩ := C149_check_partial h hN hc' hπ' x y
  rw [k1] at k1'
  rw [k4 hy, ← k1']

end

/-- Settings with the same secret exist: the secret of the tests, for every length up to 16385 and scale whose width it reaches. -/
theorem sameSecret_exists (chk : Bool) {N scale : Nat} (hN : N ≤ 16385) (hs : scale < 32) (hw : 2 ^ scale ≤ N) :
    ∃ (limbs : Bls1 → List Nat) (rng : List Nat → Fr × Bls1) (params : Ark.Params Bls1 Bls2) (kb : KZGSettings Fr Bls1 Bls2)
      (kz : Top.Settings) (km : KZGSettings Fr Bls1 Bls2) (ka : Ark.Settings Bls1 Bls1 Bls2) (s : ScW),
      SameSecret chk (limbs := limbs) (rng := rng) (params := params) kb kz km ka N scale s ∧
      el s = (0x1853cc084deab6c828953173a4 : Nat) := by
  obtain ⟨kz, s, hz, es⟩ := zkMadeFrom_exists chk hN hs
  obtain ⟨kb, hb⟩ := madeFrom_exists blsG1 blsG2 scale N hs hw testSecret
  obtain ⟨km, hm⟩ := mclMade_exists blsG1 blsG2 scale N hs (el s)
  have hl : ∀ p : Bls1, ((fun _ => List.replicate 6 0) p : List Nat).length = 6 := fun p => by simp
  obtain ⟨ka, ha⟩ := arkMade_exists (C148_ark hl (fun _ => (el s, blsG1)) (⟨[], [], 0, 0⟩ : Ark.Params Bls1 Bls2)) 0 scale N hs
  refine ⟨_, fun _ => (el s, blsG1), ⟨[], [], 0, 0⟩, kb, kz, km, ka, s, ⟨?_, hz, hm, ?_, hl⟩, es⟩
  · rw [es]
    have : bytesVal testSecret = 0x1853cc084deab6c828953173a4 := by decide +kernel
    rwa [this] at hb
  · exact ha

/-- `1 + 2x + 3x²` opened at 7 over the real groups: the value 162 is accepted by all four backends, whichever made the proof. -/
example [Mcl.Lib Fr] (chk : Bool) : ∃ (limbs : Bls1 → List Nat) (rng : List Nat → Fr × Bls1) (params : Ark.Params Bls1 Bls2)
    (kb : KZGSettings Fr Bls1 Bls2) (kz : Top.Settings) (km : KZGSettings Fr Bls1 Bls2) (ka : Ark.Settings Bls1 Bls1 Bls2) (s : ScW)
    (com proof : Bls1) (c π : Zk.G1.Proj),
    SameSecret chk (limbs := limbs) (rng := rng) (params := params) kb kz km ka 17 4 s ∧
    Top.commitToPoly kz [1, 2, 3] = .ok c ∧ Top.computeProofSingle kz [1, 2, 3] 7 = .ok π ∧ Stands c com ∧ Stands π proof ∧
    kb.checkProofSingle blsBlst blsG1 blsG2 com proof 7 162 = .ok true ∧
    Mcl.checkProofSingle blsMcl blsG1 blsG2 km com proof 7 162 = .ok true ∧
    ka.checkSingle (blsArk limbs rng params) com proof 7 162 = .ok true ∧ Top.checkProofSingle chk kz c π 7 162 = .ok true := by
  obtain ⟨limbs, rng, params, kb, kz, km, ka, s, h, -⟩ := sameSecret_exists chk (N := 17) (scale := 4) (by norm_num) (by norm_num)
    (by norm_num)
  have hv : (polyOf [(1 : ScW), 2, 3]).eval 7 = 162 := by
    rw [eval_polyOf]; simp [Finset.sum_range_succ]; norm_num
  have h0 : polyOf [(1 : ScW), 2, 3] ≠ 0 := by
    intro h
    have := congrArg (fun p => coeff p 0) h
    simp [coeff_polyOf] at this
  obtain ⟨com, proof, c, π, -, ⟨h1, h2, h3, h4⟩, -, -, k1, k2, k3, k4⟩ := C149_across h (by norm_num) [1, 2, 3] (by norm_num)
    (by norm_num) h0 7 162
  have e7 : el (7 : ScW) = 7 := map_ofNat elHom 7
  have e162 : el (162 : ScW) = 162 := map_ofNat elHom 162
  have k5 := k4 (by rw [e162, show (162 : Fr).val = 162 by decide +kernel]; exact C54_small_scalars (by norm_num)) c π h3 h4
  rw [hv, decide_eq_true rfl] at k1 k2 k3 k5
  rw [e7, e162] at k1 k2 k3
  exact ⟨limbs, rng, params, kb, kz, km, ka, s, com, proof, c, π, h, h1, h2, h3, h4, k1, k2, k3, k5⟩

/-! ## C150: proofs for several points -/

theorem root_new {F : Type} [Field F] [DecidableEq F] [FrTable F] [LawfulFr F] {k : Nat} {fs : FFTSettings F}
    (h : FFTSettings.new k = .ok fs) : (FrTable.rootTable (F := F))[k]? = some fs.rootOfUnity := by
  by_cases hk : k < (FrTable.rootTable (F := F)).length
  · rw [FFTSettings.new, if_neg (by omega), rd_of_lt hk, Res.bind_ok] at h
    cases hx : (Kzg.expandRoot (FrTable.rootTable (F := F))[k] (1 <<< k)).unwrap with
    | ok x =>
      rw [hx, Res.bind_ok] at h
      cases h
      rw [List.getElem?_eq_getElem hk]
    | err e => rw [hx] at h; cases h
    | panic => rw [hx] at h; cases h
  · rw [FFTSettings.new, if_pos (by omega)] at h
    cases h

theorem el_root {k : Nat} {fz : FFTSettings ScW} {fb : FFTSettings Fr} (hz : FFTSettings.new k = .ok fz)
    (hb : FFTSettings.new k = .ok fb) : el fz.rootOfUnity = fb.rootOfUnity := by
  have h1 := root_new hz
  have h2 := root_new hb
  simp only [FrTable.rootTable, List.getElem?_map, Option.map_eq_some_iff] at h1 h2
  obtain ⟨l, hl, e⟩ := h1
  obtain ⟨l', hl', e'⟩ := h2
  rw [hl, Option.some.injEq] at hl'
  subst hl'
  rw [← e, ← e']
  exact el_ofRow (List.mem_of_getElem? hl)

/-- C150 (roots): blst-from-scratch, zkcrypto and Arkworks use the same cosets. -/
theorem C150_roots (h : SameSecret chk (limbs := limbs) (rng := rng) (params := params) kb kz km ka N scale s) (m : Nat) :
    el (zkCosetRoot kz scale m) = cosetRoot kb scale m ∧ domainRoot ka.fs scale m = cosetRoot kb scale m := by
  obtain ⟨fs, secret, hfs, -, hk⟩ := h.blst
  obtain ⟨fz, secret', s1, s2, -, -, -, -, hfz, -, hkz⟩ := h.zk
  obtain ⟨fa, v, w, hfa, hka, last, hv, -⟩ := h.ark
  have hv' : v ≠ [] := by rintro rfl; simp at hv
  rw [Ark.new_eq (C148_ark h.limbs rng params) hv'] at hka
  have ea : ka.fs = fs := by
    cases hka
    exact Res.ok.inj (((C113_same_settings scale fa).1 hfa).symm.trans hfs)
  have eb : kb.fs = fs := by
    rw [generateTrustedSetup_spec] at hk
    by_cases hN : fs.maxWidth ≤ N
    · rw [kzgNew_ok (by simp) (by simp) hN] at hk
      cases hk
      rfl
    · unfold KZGSettings.new at hk
      rw [if_pos (by simpa using hN)] at hk
      cases hk
  have ez : kz.fs = fz := by cases hkz; rfl
  unfold zkCosetRoot cosetRoot domainRoot
  rw [ea, eb, ez, el_pow, el_root hfz hfs]
  exact ⟨rfl, rfl⟩

/-- C150 (checks): for arbitrary commitment and proof in the group, nonzero point and list of `2^m` values, blst-from-scratch, zkcrypto and
Arkworks give the same answer, and mcl-kzg too if its coset is the same. -/
theorem C150_check_partial [Mcl.Lib Fr] (h : SameSecret chk (limbs := limbs) (rng := rng) (params := params) kb kz km ka N scale s) {m : Nat}
    (hm : m ≤ scale) (hN : 2 ^ m < N) {com proof : Bls1} {c π : Zk.G1.Proj} (hc : Stands c com) (hπ : Stands π proof) (x : ScW)
    (hx0 : x ≠ 0) (ys : List ScW) (hys : ys.length = 2 ^ m) :
    ∃ b : Bool, kb.checkProofMulti blsBlst blsG2 com proof (el x) (ys.map el) (2 ^ m) = .ok b ∧
      Top.checkProofMulti kz c π x ys (2 ^ m) = .ok b ∧
      ka.checkMulti (blsArk limbs rng params) com proof (el x) (ys.map el) (2 ^ m) = .ok b ∧
      (m ≤ 30 → cosetRoot km scale m = cosetRoot kb scale m →
        Mcl.checkProofMulti blsMcl blsG2 km com proof (el x) (ys.map el) (2 ^ m) = .ok b) := by
  classical
  obtain ⟨a, rfl, ha⟩ := stands_at1 hc
  obtain ⟨t, rfl, ht⟩ := stands_at1 hπ
  obtain ⟨J, hJ, hJv, e⟩ := h.zk.setup.1.checkMulti h.zk.setup.2 hm hN ha ht x hx0 ys hys
  rw [zkCosetRoot_eq h.zk hm] at hJv
  have hI : (J.map elHom).degree < (2 ^ m : Nat) := by rwa [degree_map]
  have hx' : el x ≠ 0 := fun e => hx0 (el_inj (e.trans (map_zero elHom).symm))
  have hys' : (ys.map el).length = 2 ^ m := by rw [List.length_map]; exact hys
  obtain ⟨r1, r2⟩ := C150_roots h m
  have hIv : ∀ i < 2 ^ m, (ys.map el)[i]? = some ((J.map elHom).eval (el x * cosetRoot kb scale m ^ i)) := by
    intro i hi
    rw [List.getElem?_map, hJv i hi, ← r1, ← el_pow, ← el_mul, eval_map_el]
    rfl
  refine ⟨decide (el a • blsG1 - (J.map elHom).eval (el s) • blsG1 = (el s ^ 2 ^ m - el x ^ 2 ^ m) • el t • blsG1),
    res_bool_eq (C29_multi_accepts_iff C148_blst.1 h.blst hm hN _ _ (el x) hx' _ hys' (.inr (.inr C148_blst.2.1))
      (.inr C148_blst.2.2) _ hI hIv), ?_,
    res_bool_eq (C128_multi_accepts_iff (C148_ark h.limbs rng params) h.ark hm hN.le _ _ (el x) hx' _ hys' _ hI
      (by rw [r2]; exact hIv)), fun h30 hr =>
    res_bool_eq (C109_multi_accepts_iff C148_mcl h.mcl hm h30 hN _ _ (el x) hx' _ hys' _ hI (by rw [hr]; exact hIv))⟩
  rw [e]
  congr 1
  rw [decide_eq_decide, ← sub_smul, smul_smul, smul_inj' blsGroups.ne, eval_map_el, ← el_pow, ← el_pow, ← el_sub, ← el_sub, ← el_mul]
  exact ⟨fun e => by rw [e, mul_comm], fun e => (el_inj e).trans (mul_comm _ _)⟩

/-- C150 (proofs): for every nonzero polynomial of up to `2^29` coefficients that fits and every point, the four backends return the same
proof for `2^m` points. -/
theorem C150_proof [Mcl.Lib Fr] (h : SameSecret chk (limbs := limbs) (rng := rng) (params := params) kb kz km ka N scale s)
    (hN : 1 ≤ N) (m : Nat) (p : List ScW) (hp : p.length ≤ N) (hp' : p.length ≤ 2 ^ 29) (hp0 : polyOf p ≠ 0) (x : ScW) :
    ∃ (P : Bls1) (c : Zk.G1.Proj), kb.computeProofMulti blsBlst (p.map el) (el x) (2 ^ m) = .ok P ∧
      Top.computeProofMulti kz p x (2 ^ m) = .ok c ∧ Stands c P ∧
      Mcl.computeProofMulti blsMcl km (p.map el) (el x) (2 ^ m) = .ok P ∧ ka.computeMulti (p.map el) (el x) (2 ^ m) = .ok P := by
  have hl : (p.map el).length = p.length := List.length_map _
  have hd := zk_natDegree_lt hp0
  have he := quotient_map_el p x s (2 ^ m)
  have h0 : polyOf (p.map el) ≠ 0 := by
    rw [polyOf_map_el]
    exact (Polynomial.map_ne_zero_iff elHom.injective).2 hp0
  obtain ⟨c, e, hc⟩ := h.zk.setup.1.computeMulti p x (m := m) hp0 (by omega) ((Nat.sub_le _ _).trans (by omega))
  refine ⟨el ((polyOf p / (X ^ 2 ^ m - C (x ^ 2 ^ m))).eval s) • blsG1, c, ?_, e, (at1_stands _ _).1 hc, ?_, ?_⟩
  · rw [← he]
    exact h.blst.wf.computeMulti C148_blst.1 (p.map el) (by omega) (.inr (.inr C148_blst.2.1)) (el x) (Or.inr (by omega))
  · rw [← he]
    exact (C109_multi_proof C148_mcl h.mcl m _ (by omega) _).1 ((hl.le.trans hp).trans (Nat.le_add_right _ _))
  · rw [← he]
    exact C128_multi_proof (C148_ark h.limbs rng params) h.ark hN (by positivity) _ ((hl.le.trans hp).trans (Nat.le_add_right _ _)) (by omega) _
      (fun e => absurd e h0)

theorem row5_row7 : ∀ i < 3, Mcl.rootsPR5.getD i 0 = Mcl.rootsPR7.getD i 0 := by decide +kernel

theorem row5_table {i : Nat} (hi : i < 32) : Mcl.row5 i = tableRow i ↔ i < 3 := by
  rw [Mcl.row5, tableRow, frFromWords]
  constructor
  · intro h
    have h' := fr_natCast_inj (Mcl.row5_lt i hi) (Mcl.table_lt i hi) h
    by_contra h3
    by_cases h7 : i < 7
    · exact Mcl.row75_ne i h7 (by omega) ((Mcl.row7_low i h7).trans h'.symm)
    · exact Mcl.row7_ne i hi (by omega) ((Mcl.row7_high i hi (by omega)).trans h')
  · intro h3
    rw [row5_row7 i h3, Mcl.row7_low i (by omega)]

/-- The root of the coset of mcl-kzg, by constructor. -/
theorem mcl_coset {fs : FFTSettings Fr} {scale m : Nat} (h : MadeSettings fs scale) (hm : m ≤ scale) :
    (Mcl.FFTSettings.new7 scale = .ok fs ∧ scale < 7 → fs.rootOfUnity ^ 2 ^ (scale - m) = tableRow m) ∧
    (¬ (Mcl.FFTSettings.new7 scale = .ok fs ∧ scale < 7) → fs.rootOfUnity ^ 2 ^ (scale - m) = Mcl.row5 m) := by
  obtain ⟨hs, h'⟩ := h
  have k5 : Mcl.FFTSettings.new5 scale = .ok fs → fs.rootOfUnity = Mcl.row5 scale := by
    intro h
    obtain ⟨fs1, he, _, hr⟩ := Mcl.newPR5_spec (F := Fr) Mcl.start_inv hs
    rw [Mcl.FFTSettings.new5, he] at h
    cases h
    rw [List.getElem?_eq_getElem (by rw [Mcl.len5_fr]; exact hs), Mcl.pr5_getElem, Option.some.injEq] at hr
    exact hr.symm
  have k7 : Mcl.FFTSettings.new7 scale = .ok fs → fs.rootOfUnity = Mcl.row7 scale := by
    intro h
    obtain ⟨fs1, he, _, hr⟩ := Mcl.newTrait_spec (F := Fr) Mcl.Globals.start (k := scale) (by omega)
    rw [Mcl.FFTSettings.new7, he] at h
    cases h
    rw [Nat.mod_eq_of_lt (by omega : scale < 256), List.getElem?_eq_getElem (by rw [Mcl.len7_fr]; exact hs), Mcl.pr7_getElem,
      Option.some.injEq] at hr
    exact hr.symm
  have p5 : Mcl.row5 scale ^ 2 ^ (scale - m) = Mcl.row5 m := by
    have := Mcl.row5_pow (i := m) (scale - m) (by omega)
    rwa [show m + (scale - m) = scale by omega] at this
  constructor
  · intro hc
    have e : Mcl.row7 scale = tableRow scale := by rw [Mcl.row7, Mcl.row7_low scale hc.2]; rfl
    have := tableRow_pow (i := m) (scale - m) (by omega)
    rw [show m + (scale - m) = scale by omega] at this
    rw [k7 hc.1, e, this]
  · intro hc
    rcases h' with h5 | h7
    · rw [k5 h5, p5]
    · have : 7 ≤ scale := by
        by_contra hlt
        exact hc ⟨h7, by omega⟩
      have e : Mcl.row7 scale = Mcl.row5 scale := by rw [Mcl.row7, Mcl.row7_high scale hs this]; rfl
      rw [k7 h7, e, p5]

theorem MclMade.settings {G1 G2 : Type} [AddCommGroup G1] [Module Fr G1] [AddCommGroup G2] [Module Fr G2]
    {ks : KZGSettings Fr G1 G2} {g1 : G1} {g2 : G2} {s : Fr} (h : MclMade ks g1 g2 N scale s) : MadeSettings ks.fs scale := by
  obtain ⟨fs, hfs, ⟨secret, pts, -, -, -, -, hk⟩ | ⟨curve, -, rfl⟩⟩ := h
  · unfold Mcl.KZGSettings.new at hk
    split at hk
    · cases hk
    split at hk
    · cases hk
    split at hk
    · cases hk
    obtain ⟨q, -, hk⟩ := Miller.bind_eq_ok hk
    obtain ⟨q', -, hk⟩ := Miller.bind_eq_ok hk
    cases hk
    exact hfs
  · exact hfs

theorem blst_coset (h : MadeFrom kb blsG1 blsG2 N scale (el s)) {m : Nat} (hm : m ≤ scale) : cosetRoot kb scale m = tableRow m := by
  have hs := h.wf.fs.lt
  obtain ⟨fs, secret, hfs, -, hk⟩ := h
  have eb : kb.fs = fs := by
    rw [generateTrustedSetup_spec] at hk
    by_cases hN : fs.maxWidth ≤ N
    · rw [kzgNew_ok (by simp) (by simp) hN] at hk
      cases hk
      rfl
    · unfold KZGSettings.new at hk
      rw [if_pos (by simpa using hN)] at hk
      cases hk
  have := tableRow_pow (i := m) (scale - m) (by omega)
  rw [show m + (scale - m) = scale by omega] at this
  rw [cosetRoot, eb, rootOf_new hs hfs, this]

/-- C150 (cosets of mcl-kzg): they are those of the others for up to four points, and for settings of the trait's constructor of scale
below 7; in all other cases the root is a different one. -/
theorem C150_mcl_roots (h : SameSecret chk (limbs := limbs) (rng := rng) (params := params) kb kz km ka N scale s) {m : Nat}
    (hm : m ≤ scale) :
    cosetRoot km scale m = cosetRoot kb scale m ↔ m < 3 ∨ (Mcl.FFTSettings.new7 scale = .ok km.fs ∧ scale < 7) := by
  have hs := h.blst.wf.fs.lt
  obtain ⟨h1, h2⟩ := mcl_coset h.mcl.settings hm
  rw [blst_coset h.blst hm, cosetRoot]
  by_cases hc : Mcl.FFTSettings.new7 scale = .ok km.fs ∧ scale < 7
  · exact ⟨fun _ => .inr hc, fun _ => h1 hc⟩
  · rw [h2 hc, row5_table (by omega)]
    exact ⟨.inl, fun e => e.resolve_right hc⟩

theorem exists_pow_ne_one {k : Nat} (h0 : 0 < k) (hk : k < 2 ^ 32) : ∃ c : Fr, c ≠ 0 ∧ c ^ k ≠ 1 := by
  obtain ⟨g, hg⟩ := IsCyclic.exists_ofOrder_eq_natCard (α := Frˣ)
  refine ⟨g, g.ne_zero, fun e => ?_⟩
  have : g ^ k = 1 := Units.ext (by rw [Units.val_pow_eq_pow_val, e, Units.val_one])
  have h1 := orderOf_dvd_of_pow_eq_one this
  rw [hg, Nat.card_eq_fintype_card, ZMod.card_units] at h1
  have h2 := Nat.le_of_dvd h0 h1
  have h3 : 2 ^ 32 ≤ r - 1 := by decide +kernel
  omega

/-- C150 (refuted for mcl-kzg): whenever its coset is another one, then for every secret but zero there is a point and a polynomial whose
commitment, proof and values are accepted by the other three backends and refused by mcl-kzg. -/
theorem C150_mcl_refuses [Mcl.Lib Fr] (h : SameSecret chk (limbs := limbs) (rng := rng) (params := params) kb kz km ka N scale s)
    {m : Nat} (hm : m ≤ scale) (h30 : m ≤ 30) (hN : 2 ^ m < N) (hs0 : s ≠ 0) (hne : cosetRoot km scale m ≠ cosetRoot kb scale m) :
    ∃ (x : ScW) (ys : List ScW) (com proof : Bls1) (c π : Zk.G1.Proj),
      (Top.commitToPoly kz [0, 1] = .ok c ∧ Top.computeProofMulti kz [0, 1] x (2 ^ m) = .ok π ∧ Stands c com ∧ Stands π proof) ∧
      (Mcl.commit blsMcl km.secretG1 [0, 1] = .ok com ∧ Mcl.computeProofMulti blsMcl km [0, 1] (el x) (2 ^ m) = .ok proof) ∧
      kb.checkProofMulti blsBlst blsG2 com proof (el x) (ys.map el) (2 ^ m) = .ok true ∧
      Top.checkProofMulti kz c π x ys (2 ^ m) = .ok true ∧
      ka.checkMulti (blsArk limbs rng params) com proof (el x) (ys.map el) (2 ^ m) = .ok true ∧
      Mcl.checkProofMulti blsMcl blsG2 km com proof (el x) (ys.map el) (2 ^ m) = .ok false := by
  have hpos : 0 < 2 ^ m := by positivity
  have h2 : 2 ≤ N := by omega
  have hm3 : 3 ≤ m := by
    by_contra hlt
    exact hne ((C150_mcl_roots h hm).2 (.inl (by omega)))
  have hm8 : 2 ^ 3 ≤ 2 ^ m := Nat.pow_le_pow_right (by norm_num) hm3
  have hm30 : 2 ^ m ≤ 2 ^ 30 := Nat.pow_le_pow_right (by norm_num) h30
  have hprim := mcl_root_prim h.mcl hm
  have hprim' := cosetRoot_prim h.blst hm
  obtain ⟨k, hk, ek⟩ := hprim.eq_pow_of_pow_eq_one hprim'.pow_eq_one
  have hk1 : k ≠ 1 := by rintro rfl; exact hne (by rw [← ek, pow_one])
  have hk0 : k ≠ 0 := by
    rintro rfl
    rw [pow_zero] at ek
    have := hprim'.dvd_of_pow_eq_one 1 (by rw [pow_one, ← ek])
    have := Nat.le_of_dvd one_pos this
    omega
  obtain ⟨d, hd0, hd⟩ := exists_pow_ne_one (k := k - 1) (by omega) (by omega)
  obtain ⟨x, ex⟩ := el_surj (el s * d⁻¹)
  have hs' : el s ≠ 0 := fun e => hs0 (el_inj (e.trans (map_zero elHom).symm))
  have hx' : el x ≠ 0 := by rw [ex]; exact mul_ne_zero hs' (inv_ne_zero hd0)
  have hx0 : x ≠ 0 := by rintro rfl; exact hx' (map_zero elHom)
  have hP : polyOf [(0 : ScW), 1] = X := by
    ext i
    rw [coeff_polyOf, coeff_X]
    match i with
    | 0 => rfl
    | 1 => rfl
    | i + 2 => rw [if_neg (by omega)]; rfl
  have hP' : polyOf [(0 : Fr), 1] = X := by
    ext i
    rw [coeff_polyOf, coeff_X]
    match i with
    | 0 => rfl
    | 1 => rfl
    | i + 2 => rw [if_neg (by omega)]; rfl
  have emap : [(0 : ScW), 1].map el = [0, 1] := by
    simp only [List.map_cons, List.map_nil]
    rw [← elHom_apply, ← elHom_apply, map_zero, map_one]
  obtain ⟨com, c, -, c2, c3, c4, -⟩ := C149_commit h (by omega) [0, 1] (by simpa using h2)
  obtain ⟨proof, π, -, p2, p3, p4, -⟩ := C150_proof h (by omega) m [0, 1] (by simpa using h2) (by norm_num)
    (by rw [hP]; exact X_ne_zero) x
  rw [emap] at c4 p4
  obtain ⟨ys, hys⟩ : ∃ ys, ys = (List.range (2 ^ m)).map fun i => x * zkCosetRoot kz scale m ^ i := ⟨_, rfl⟩
  have hlen : ys.length = 2 ^ m := by rw [hys]; simp
  obtain ⟨b, b1, b2, b3, -⟩ := C150_check_partial h hm hN c3 p3 x hx0 ys hlen
  have hb : b = true := by
    obtain ⟨com', proof', q1, q2, q3⟩ := C89_complete_partial h.zk hm hN [0, 1] (by simpa using h2) (by norm_num)
      (by rw [hP]; exact X_ne_zero) x hx0
    rw [c2] at q1
    rw [p2] at q2
    obtain rfl := Res.ok.inj q1
    obtain rfl := Res.ok.inj q2
    simp only [hP, eval_X] at q3
    rw [← hys, b2] at q3
    exact Res.ok.inj q3
  subst hb
  refine ⟨x, ys, com, proof, c, π, ⟨c2, p2, c3, p3⟩, ⟨c4, p4⟩, b1, b2, b3, ?_⟩
  have hcom : com = el s • blsG1 := by
    have := (C108_commit C148_mcl h.mcl [0, 1]).1 (by simpa using h2)
    rw [c4, hP', eval_X] at this
    exact Res.ok.inj this
  have hproof : proof = 0 := by
    have := (C109_multi_proof C148_mcl h.mcl m [0, 1] (by norm_num) (el x)).1 (by simp only [List.length_cons, List.length_nil]; omega)
    rw [p4, hP', (Polynomial.div_eq_zero_iff (X_pow_sub_C_ne_zero hpos _)).2 (by
      rw [degree_X, degree_X_pow_sub_C hpos]; exact_mod_cast (by omega : 1 < 2 ^ m)), eval_zero, zero_smul] at this
    exact Res.ok.inj this
  have hacc := C109_multi_accepts_iff C148_mcl h.mcl hm h30 hN com proof (el x) hx' (ys.map el) (by rw [List.length_map]; exact hlen)
    (C (el x ^ (k - 1))⁻¹ * X ^ k) (lt_of_le_of_lt (degree_C_mul_X_pow_le _ _) (by exact_mod_cast hk)) (by
      intro i hi
      rw [hys, List.getElem?_map, List.getElem?_map, List.getElem?_range hi]
      simp only [Option.map_some, Option.some.injEq]
      rw [el_mul, el_pow, (C150_roots h m).1, ← ek, eval_mul, eval_C, eval_pow, eval_X, mul_pow, ← pow_mul, ← pow_mul, mul_comm k i]
      have : el x ^ k = el x ^ (k - 1) * el x := by rw [← pow_succ]; congr 1; omega
      rw [this, mul_assoc, ← mul_assoc, inv_mul_cancel₀ (pow_ne_zero _ hx'), one_mul])
  refine hacc.1.resolve_left fun hT => ?_
  have e := hacc.2.1 hT
  rw [hcom, hproof, smul_zero, sub_eq_zero, smul_inj' blsGroups.ne, eval_mul, eval_C, eval_pow, eval_X] at e
  apply hd
  have e1 : el s ^ k = el s ^ (k - 1) * el s := by rw [← pow_succ]; congr 1; omega
  rw [e1, ex, mul_pow, inv_pow, mul_inv, inv_inv] at e
  have e2 : el s * 1 = el s * d ^ (k - 1) := by
    rw [mul_one]
    calc el s = _ := e
      _ = ((el s ^ (k - 1))⁻¹ * el s ^ (k - 1)) * (el s * d ^ (k - 1)) := by ring
      _ = _ := by rw [inv_mul_cancel₀ (pow_ne_zero _ hs'), one_mul]
  exact (mul_left_cancel₀ hs' e2).symm

/-- Settings of scale 8 over the real groups: the sixteen values of `X` at the point given by the theorem are accepted by three backends
and refused by mcl-kzg. -/
example [Mcl.Lib Fr] (chk : Bool) : ∃ (limbs : Bls1 → List Nat) (rng : List Nat → Fr × Bls1) (params : Ark.Params Bls1 Bls2)
    (kb : KZGSettings Fr Bls1 Bls2) (kz : Top.Settings) (km : KZGSettings Fr Bls1 Bls2) (ka : Ark.Settings Bls1 Bls1 Bls2) (s x : ScW)
    (com proof : Bls1) (ys : List Fr), SameSecret chk (limbs := limbs) (rng := rng) (params := params) kb kz km ka 256 8 s ∧
    kb.checkProofMulti blsBlst blsG2 com proof (el x) ys 16 = .ok true ∧
    Mcl.checkProofMulti blsMcl blsG2 km com proof (el x) ys 16 = .ok false := by
  obtain ⟨limbs, rng, params, kb, kz, km, ka, s, h, hs⟩ := sameSecret_exists chk (N := 256) (scale := 8) (by norm_num) (by norm_num)
    (by norm_num)
  have hs0 : s ≠ 0 := by
    rintro rfl
    have := fr_natCast_inj (a := 0) (b := 0x1853cc084deab6c828953173a4) (by decide +kernel) (by decide +kernel)
      (by rw [← hs, Nat.cast_zero]; exact (map_zero elHom).symm)
    norm_num at this
  obtain ⟨x, ys, com, proof, c, π, -, -, h1, -, -, h2⟩ := C150_mcl_refuses h (m := 4) (by norm_num) (by norm_num) (by norm_num) hs0 (by
    rw [Ne, C150_mcl_roots h (by norm_num)]
    rintro (h | h)
    · omega
    · omega)
  exact ⟨limbs, rng, params, kb, kz, km, ka, s, x, com, proof, ys.map el, h, h1, h2⟩

end Kzg.Props
