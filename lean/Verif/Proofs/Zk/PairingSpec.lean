import Verif.Proofs.Zk.PairingSetup
/-!
# The pairing of the code
-/

set_option exponentiation.threshold 1000

namespace Kzg.Zk.Miller
open Kzg Kzg.Res CurveConsts LawfulCurve Pairing

local notation "p" => fpModulus
local notation "r" => frModulus
local notation "E1" => curve (CurveConsts.b (K := FpW))
local notation "E2" => curve (CurveConsts.b (K := Fp2 FpW))

/-- The pairing on points. -/
noncomputable def e (P : (E1).Point) (Q : (E2).Point) : Fp12 FpW := (pr inc1 Gt.inc Fp12.w finalHom xBits P Q)⁻¹

theorem e_zero_left (Q : (E2).Point) : e 0 Q = 1 := by rw [e, pr_zero_left, inv_one]

theorem e_zero_right (P : (E1).Point) : e P 0 = 1 := by rw [e, pr_zero_right, inv_one]

theorem e_add_left (P1 P2 : (E1).Point) {Q : (E2).Point} (hQ : r • Q = 0) : e (P1 + P2) Q = e P1 Q * e P2 Q := by
  rw [e, setup.pr_add_left hQ (psi_xBits hQ), mul_inv]
  rfl

theorem e_add_right {P : (E1).Point} (hP : r • P = 0) {Q1 Q2 : (E2).Point} (hQ1 : r • Q1 = 0) (hQ2 : r • Q2 = 0) :
    e P (Q1 + Q2) = e P Q1 * e P Q2 := by
  rw [e, setup.pr_add_right hP hQ1 hQ2 (psi_xBits hQ1) (psi_xBits hQ2), mul_inv]
  rfl

theorem smul_torsion {A : Type} [AddCommGroup A] {Q : A} (h : r • Q = 0) (n : Nat) : r • (n • Q) = 0 := by
  rw [smul_comm, h, smul_zero]

theorem smul_of_bilinear {A B M : Type} [AddCommGroup A] [AddCommGroup B] [CommMonoid M] (f : A → B → M) {P : A} {Q : B}
    (h0 : ∀ Q, f 0 Q = 1) (h0' : ∀ P, f P 0 = 1) (h1 : ∀ (m n : Nat), f (m • P + P) (n • Q) = f (m • P) (n • Q) * f P (n • Q))
    (h2 : ∀ n : Nat, f P (n • Q + Q) = f P (n • Q) * f P Q) (m n : Nat) : f (m • P) (n • Q) = f P Q ^ (m * n) := by
  have h3 : ∀ m : Nat, f (m • P) (n • Q) = f P (n • Q) ^ m := by
    intro m
    induction m with
    | zero => rw [zero_nsmul, h0, pow_zero]
    | succ m ih => rw [succ_nsmul, h1, ih, pow_succ]
  have h4 : ∀ n : Nat, f P (n • Q) = f P Q ^ n := by
    intro n
    induction n with
    | zero => rw [zero_nsmul, h0', pow_zero]
    | succ n ih => rw [succ_nsmul, h2, ih, pow_succ]
  rw [h3, h4, ← pow_mul, mul_comm m n]

theorem e_smul {P : (E1).Point} (hP : r • P = 0) {Q : (E2).Point} (hQ : r • Q = 0) (m n : Nat) :
    e (m • P) (n • Q) = e P Q ^ (m * n) :=
  smul_of_bilinear e e_zero_left e_zero_right (fun _ n => e_add_left _ _ (smul_torsion hQ n))
    (fun n => e_add_right hP (smul_torsion hQ n) hQ) m n

/-! ## One pairing -/

theorem pairingDriver_eval (q : G2.Aff) (a : G1.Aff) :
    EvalDriver Gt.inc (inc1 a.x * Fp12.w ^ 2) (inc1 a.y * Fp12.w ^ 3) q (pairingDriver q a) where
  dbl s f := by
    show Res.ok (_, ell f _ a) = _
    rw [ell_eq]
    rfl
  add s f := by
    show Res.ok (_, ell f _ a) = _
    rw [ell_eq]
    rfl
  sq f := Fp12.square_eq f
  one := rfl

/-- The value of a Miller loop: nonzero, and the final exponentiation gives the pairing. -/
structure Val (f : Fp12 FpW) (P : (E1).Point) (Q : (E2).Point) : Prop where
  ne : f ≠ 0
  eq : f ^ finalExp = e P Q

theorem loop_val {a : G1.Aff} {P : (E1).Point} (ha : Affine.Is b a P) (hP : P ≠ 0) {q : G2.Aff} {Q : (E2).Point}
    (hq : Affine.Is b q Q) (hQ : r • Q = 0) (hQ0 : Q ≠ 0) :
    ∃ cur f, millerLoop (pairingDriver q a) (Projective.ofAffine q) = .ok (cur, f) ∧ Val f P Q := by
  obtain ⟨cur, f, el, c, hc, ef⟩ := (pairingDriver_eval q a).miller_spec hq (setup.smul_ne hQ hQ0)
  refine ⟨cur, _, el, ?_⟩
  cases ha with
  | infinity => exact absurd rfl hP
  | @finite x y hn =>
    have hm := setup.mf_ne hn Q xBits
    have hf : f ≠ 0 := by
      rw [ef]
      exact mul_ne_zero ((map_ne_zero Gt.inc).2 hc) hm
    have hcj : (pairingDriver q ⟨x, y, false⟩).conjugate f = Fp12.conjHom f := rfl
    rw [hcj]
    refine ⟨(map_ne_zero Fp12.conjHom).2 hf, ?_⟩
    have h1 := setup.kill.conj hf
    rw [← finalHom_apply, e, pr_some hn hQ0]
    have h2 : finalHom f = finalHom (mf Gt.inc (inc1 x * Fp12.w ^ 2) (inc1 y * Fp12.w ^ 3) Q xBits) := by
      rw [ef, map_mul, setup.kill.const hc, one_mul]
    rw [← h2]
    exact eq_inv_of_mul_eq_one_right h1

theorem generator_ne1 : (0 : (E1).Point) ≠ G1.gen := Ne.symm G1.gen_ne

theorem isId1 {a : G1.Aff} {P : (E1).Point} (ha : Affine.Is b a P) : a.isIdentity = decide (P = 0) := by
  rw [Bool.eq_iff_iff, decide_eq_true_iff]
  exact affine_isIdentity_iff ha

theorem isId2 {a : G2.Aff} {P : (E2).Point} (ha : Affine.Is b a P) : a.isIdentity = decide (P = 0) := by
  rw [Bool.eq_iff_iff, decide_eq_true_iff]
  exact affine_isIdentity_iff ha

theorem select_false {K : Type} (x y : Affine K) : Affine.select x y false = x := rfl
theorem select_true {K : Type} (x y : Affine K) : Affine.select x y true = y := rfl

theorem finalExp_val {f : Fp12 FpW} {P : (E1).Point} {Q : (E2).Point} (h : Val f P Q) :
    Gt.finalExponentiation f = .ok (e P Q) := by
  rw [Gt.finalExponentiation_eq h.ne]
  exact congrArg Res.ok h.eq

/-- The pairing of the code. -/
theorem pairing_spec {a : G1.Aff} {P : (E1).Point} (ha : Affine.Is b a P) {q : G2.Aff} {Q : (E2).Point}
    (hq : Affine.Is b q Q) (hQ : r • Q = 0) : pairing a q = .ok (e P Q) := by
  rw [pairing, isId1 ha, isId2 hq]
  by_cases h : P = 0 ∨ Q = 0
  · have hd : (decide (P = 0) || decide (Q = 0)) = true := by simpa using h
    simp only [hd, select_true]
    obtain ⟨cur, f, el, -⟩ := loop_val G1.generator_is G1.gen_ne G2.generator_is G2.order_gen G2.gen_ne
    rw [el, bind_ok]
    simp only [Fp12.select_eq, if_true]
    have hv : Val 1 P Q := by
      refine ⟨one_ne_zero, ?_⟩
      rw [one_pow]
      rcases h with rfl | rfl
      · rw [e_zero_left]
      · rw [e_zero_right]
    exact finalExp_val hv
  · have hd : (decide (P = 0) || decide (Q = 0)) = false := by simpa using h
    simp only [hd, select_false]
    rw [not_or] at h
    obtain ⟨cur, f, el, hv⟩ := loop_val ha h.1 hq hQ h.2
    rw [el, bind_ok]
    simp only [Fp12.select_eq, Bool.false_eq_true, if_false]
    exact finalExp_val hv

/-! ## Prepared points -/

/-- How many coefficients the loop over the bits makes. -/
def steps : List Bool → Nat
  | [] => 0
  | c :: l => (if c then 2 else 1) + steps l

theorem rd_append {α : Type} {cs ds : List α} {c : α} {C : List α} (h : cs ++ c :: ds <+: C) : rd C cs.length = .ok c := by
  obtain ⟨t, rfl⟩ := h
  have hl : cs.length < (cs ++ c :: ds ++ t).length := by
    simp only [List.length_append, List.length_cons]
    omega
  rw [rd_of_lt hl]
  congr 1
  simp

/-- What is used about a driver that stores coefficients. -/
structure Storing {S C : Type} (D A : S → S × C) (d : Driver (S × List C) Unit) : Prop where
  dbl : ∀ s cs, d.doublingStep (s, cs) () = .ok (((D s).1, cs ++ [(D s).2]), ())
  add : ∀ s cs, d.additionStep (s, cs) () = .ok (((A s).1, cs ++ [(A s).2]), ())

/-- What is used about a driver that evaluates at once. -/
structure Evaluating {S C O : Type} (D A : S → S × C) (ev : O → C → O) (sq cj : O → O) (one : O) (d : Driver S O) : Prop where
  dbl : ∀ s f, d.doublingStep s f = .ok ((D s).1, ev f (D s).2)
  add : ∀ s f, d.additionStep s f = .ok ((A s).1, ev f (A s).2)
  sq : ∀ f, d.squareOutput f = sq f
  cj : ∀ f, d.conjugate f = cj f
  one : d.one = one

/-- What is used about a driver that reads stored coefficients. -/
structure Reading {C O : Type} (cs : List C) (ev : O → C → O) (sq cj : O → O) (one : O) (d : Driver Nat O) : Prop where
  dbl : ∀ i c f, rd cs i = .ok c → d.doublingStep i f = .ok (i + 1, ev f c)
  add : ∀ i c f, rd cs i = .ok c → d.additionStep i f = .ok (i + 1, ev f c)
  sq : ∀ f, d.squareOutput f = sq f
  cj : ∀ f, d.conjugate f = cj f
  one : d.one = one

section
variable {S C O : Type} {D A : S → S × C} {ev : O → C → O} {sq cj : O → O} {one : O} {d1 : Driver (S × List C) Unit}

/-- Storing the coefficients and reading them back is the loop that evaluates at once. -/
theorem prep_loop (h1 : Storing D A d1) (l : List Bool) : ∀ (cur : S) (cs : List C), ∃ cur' ds,
    loopOver d1 l (true, (cur, cs), ()) = .ok (true, (cur', cs ++ ds), ()) ∧ ds.length = steps l ∧
    ∀ {O : Type} {ev : O → C → O} {sq cj : O → O} {one : O} {d2 : Driver S O} {d3 : Driver Nat O} (all : List C),
      Evaluating D A ev sq cj one d2 → Reading all ev sq cj one d3 → cs ++ ds <+: all → ∀ f, ∃ f',
      loopOver d2 l (true, cur, f) = .ok (true, cur', f') ∧
      loopOver d3 l (true, cs.length, f) = .ok (true, (cs ++ ds).length, f') := by
  induction l with
  | nil =>
    intro cur cs
    refine ⟨cur, [], ?_, rfl, ?_⟩
    · rw [List.append_nil]; rfl
    · intro O ev sq cj one d2 d3 all _ _ _ f
      exact ⟨f, rfl, by rw [List.append_nil]; rfl⟩
  | cons c l ih =>
    intro cur cs
    cases c with
    | false =>
      obtain ⟨cur', ds, e1, hl, h⟩ := ih (D cur).1 (cs ++ [(D cur).2])
      refine ⟨cur', (D cur).2 :: ds, ?_, ?_, ?_⟩
      · rw [show cs ++ (D cur).2 :: ds = cs ++ [(D cur).2] ++ ds by simp, ← e1]
        simp [loopOver, loopBody, h1.dbl, bind_ok]
      · rw [List.length_cons, hl]; simp [steps]; omega
      · intro O ev sq cj one d2 d3 all h2 h3 hC f
        have hr := rd_append hC
        rw [show cs ++ (D cur).2 :: ds = cs ++ [(D cur).2] ++ ds by simp] at hC ⊢
        obtain ⟨f', e2, e3⟩ := h all h2 h3 hC (sq (ev f (D cur).2))
        refine ⟨f', ?_, ?_⟩
        · rw [← e2]
          simp [loopOver, loopBody, h2.dbl, h2.sq, bind_ok]
        · rw [← e3, List.length_append]
          simp [loopOver, loopBody, h3.dbl _ _ _ hr, h3.sq, bind_ok]
    | true =>
      obtain ⟨cur', ds, e1, hl, h⟩ := ih (A (D cur).1).1 (cs ++ [(D cur).2, (A (D cur).1).2])
      refine ⟨cur', (D cur).2 :: (A (D cur).1).2 :: ds, ?_, ?_, ?_⟩
      · rw [show cs ++ (D cur).2 :: (A (D cur).1).2 :: ds = cs ++ [(D cur).2, (A (D cur).1).2] ++ ds by simp, ← e1]
        simp [loopOver, loopBody, h1.dbl, h1.add, bind_ok]
      · rw [List.length_cons, List.length_cons, hl]; simp [steps]; omega
      · intro O ev sq cj one d2 d3 all h2 h3 hC f
        have hr := rd_append hC
        have hC' : (cs ++ [(D cur).2]) ++ (A (D cur).1).2 :: ds <+: all := by simpa using hC
        have hr' := rd_append hC'
        rw [List.length_append, List.length_cons, List.length_nil, Nat.zero_add] at hr'
        rw [show cs ++ (D cur).2 :: (A (D cur).1).2 :: ds = cs ++ [(D cur).2, (A (D cur).1).2] ++ ds by simp] at hC ⊢
        obtain ⟨f', e2, e3⟩ := h all h2 h3 hC (sq (ev (ev f (D cur).2) (A (D cur).1).2))
        refine ⟨f', ?_, ?_⟩
        · rw [← e2]
          simp [loopOver, loopBody, h2.dbl, h2.add, h2.sq, bind_ok]
        · rw [← e3, List.length_append]
          simp [loopOver, loopBody, h3.dbl _ _ _ hr, h3.add _ _ _ hr', h3.sq, bind_ok]

theorem loop_head {S O : Type} (d : Driver S O) {T : List Bool} (hT : loopBits = false :: true :: T) (s : S) (f : O) :
    loopOver d loopBits (false, s, f) = loopOver d T (true, s, f) := by
  rw [hT]
  simp [loopOver, loopBody, bind_ok]

theorem prep_gen (h1 : Storing D A d1) (s : S) {T : List Bool} (hT : loopBits = false :: true :: T) : ∃ cur' all,
    millerLoop d1 (s, []) = .ok ((cur', all), ()) ∧ all.length = steps T + 1 ∧
    ∀ {O : Type} {ev : O → C → O} {sq cj : O → O} {one : O} {d2 : Driver S O} {d3 : Driver Nat O},
      Evaluating D A ev sq cj one d2 → Reading all ev sq cj one d3 →
      ∃ f, millerLoop d2 s = .ok (cur', f) ∧ millerLoop d3 0 = .ok (all.length, f) := by
  obtain ⟨cur, ds, e1, hl, h⟩ := prep_loop h1 T s []
  rw [List.nil_append] at e1 h
  refine ⟨(D cur).1, ds ++ [(D cur).2], ?_, by simp [hl], ?_⟩
  · rw [millerLoop, loop_head _ hT]
    simp only [e1, bind_ok, h1.dbl]
  · intro O ev sq cj one d2 d3 h2 h3
    obtain ⟨f', e2, e3⟩ := h (ds ++ [(D cur).2]) h2 h3 ⟨[(D cur).2], rfl⟩ one
    rw [List.length_nil] at e3
    have hr : rd (ds ++ [(D cur).2]) ds.length = .ok (D cur).2 := rd_append (cs := ds) (ds := []) (List.prefix_refl _)
    refine ⟨cj (ev f' (D cur).2), ?_, ?_⟩
    · rw [millerLoop, loop_head _ hT, h2.one, e2, bind_ok]
      simp only [h2.dbl, bind_ok, h2.cj]
    · rw [millerLoop, loop_head _ hT, h3.one, e3, bind_ok]
      simp only [h3.dbl _ _ _ hr, bind_ok, h3.cj, List.length_append, List.length_cons, List.length_nil]

/-- Reading never fails if there are enough coefficients. -/
theorem Reading.runs_loop {all : List C} {d : Driver Nat O} (h : Reading all ev sq cj one d) (l : List Bool) :
    ∀ i f, i + steps l ≤ all.length → ∃ f', loopOver d l (true, i, f) = .ok (true, i + steps l, f') := by
  induction l with
  | nil => exact fun i f _ => ⟨f, rfl⟩
  | cons c l ih =>
    intro i f hi
    cases c with
    | false =>
      simp only [steps, Bool.false_eq_true, if_false] at hi ⊢
      obtain ⟨f', e⟩ := ih (i + 1) (sq (ev f all[i])) (by omega)
      refine ⟨f', ?_⟩
      rw [← Nat.add_assoc, ← e]
      simp [loopOver, loopBody, h.dbl i _ f (rd_of_lt (by omega)), h.sq, bind_ok]
    | true =>
      simp only [steps, if_true] at hi ⊢
      obtain ⟨f', e⟩ := ih (i + 2) (sq (ev (ev f all[i]) all[i + 1])) (by omega)
      refine ⟨f', ?_⟩
      rw [← Nat.add_assoc, ← e]
      simp [loopOver, loopBody, h.dbl i _ f (rd_of_lt (by omega)), h.add (i + 1) _ _ (rd_of_lt (by omega)), h.sq, bind_ok]

theorem Reading.runs {all : List C} {d : Driver Nat O} (h : Reading all ev sq cj one d) {T : List Bool}
    (hT : loopBits = false :: true :: T) (hl : steps T + 1 = all.length) : ∃ x, millerLoop d 0 = .ok x := by
  obtain ⟨f, e⟩ := h.runs_loop T 0 one (by omega)
  rw [millerLoop, loop_head _ hT, h.one, e, bind_ok]
  simp only [h.dbl _ _ f (rd_of_lt (i := 0 + steps T) (by omega)), bind_ok]
  exact ⟨_, rfl⟩

end

theorem prepare_storing (q : G2.Aff) : Storing (doublingStep (k := Fp2 FpW)) (fun s => additionStep s q) (prepareDriver q) where
  dbl _ _ := rfl
  add _ _ := rfl

theorem pairing_evaluating (q : G2.Aff) (a : G1.Aff) : Evaluating (doublingStep (k := Fp2 FpW)) (fun s => additionStep s q)
    (fun f c => ell f c a) Fp12.square Fp12.conjugate 1 (pairingDriver q a) where
  dbl _ _ := rfl
  add _ _ := rfl
  sq _ := rfl
  cj _ := rfl
  one := rfl

theorem ellTerms_one {all : List (Coeffs (Fp2 FpW))} {idx : Nat} {c : Coeffs (Fp2 FpW)} (h : rd all idx = .ok c) (a : G1.Aff)
    (inf : Bool) (f : Fp12 FpW) :
    ellTerms idx [(a, ⟨inf, all⟩)] f = .ok (Fp12.select (ell f c a) f (a.isIdentity || inf)) := by
  rw [ellTerms]
  simp only [h, bind_ok]
  rfl

theorem multi_reading (all : List (Coeffs (Fp2 FpW))) (a : G1.Aff) (inf : Bool) : Reading all
    (fun f c => Fp12.select (ell f c a) f (a.isIdentity || inf)) Fp12.square Fp12.conjugate 1
    (multiDriver [(a, ⟨inf, all⟩)]) where
  dbl i c f h := by
    show (ellTerms i [(a, ⟨inf, all⟩)] f >>= fun f => .ok (i + 1, f)) = _
    rw [ellTerms_one h, bind_ok]
  add i c f h := by
    show (ellTerms i [(a, ⟨inf, all⟩)] f >>= fun f => .ok (i + 1, f)) = _
    rw [ellTerms_one h, bind_ok]
  sq _ := rfl
  cj _ := rfl
  one := rfl

theorem steps_tail : steps tailBits + 1 = 68 := by decide +kernel

/-- Preparing a point never fails. -/
theorem prepare_spec (q : G2.Aff) : ∃ all, prepare q = .ok ⟨q.isIdentity, all⟩ ∧ all.length = 68 ∧
    (q.isIdentity = false → ∀ (a : G1.Aff), a.isIdentity = false → ∃ cur' f,
      millerLoop (pairingDriver q a) (Projective.ofAffine q) = .ok (cur', f) ∧
      millerLoop (multiDriver [(a, ⟨false, all⟩)]) 0 = .ok (68, f)) := by
  obtain ⟨cur', all, e1, hl, h⟩ := prep_gen (prepare_storing (Affine.select q G2.generator q.isIdentity))
    (Projective.ofAffine (Affine.select q G2.generator q.isIdentity)) loopBits_eq
  rw [steps_tail] at hl
  refine ⟨all, ?_, hl, ?_⟩
  · rw [prepare]
    simp only [e1, bind_ok, hl, if_true]
  · intro hq a ha
    rw [hq, select_false] at h
    obtain ⟨f, h1, h2⟩ := h (pairing_evaluating q a) (d3 := multiDriver [(a, ⟨false, all⟩)]) (by
      have := multi_reading all a false
      simp only [ha, Bool.or_false, Fp12.select_eq, Bool.false_eq_true, if_false] at this
      exact this)
    rw [hl] at h2
    exact ⟨cur', f, h1, h2⟩

/-! ## Several terms -/

theorem ellTerms_mul (idx : Nat) (ts : List (G1.Aff × Prepared)) : ∀ f g g' : Fp12 FpW, ellTerms idx ts g = .ok g' →
    ellTerms idx ts (f * g) = .ok (f * g') := by
  induction ts with
  | nil =>
    intro f g g' h
    cases h
    rfl
  | cons t ts ih =>
    intro f g g' h
    rw [ellTerms] at h ⊢
    cases hr : rd t.2.coeffs idx with
    | err => rw [hr] at h; cases h
    | panic => rw [hr] at h; cases h
    | ok c =>
      rw [hr, bind_ok] at h
      rw [bind_ok]
      have e1 : Fp12.select (ell (f * g) c t.1) (f * g) (t.1.isIdentity || t.2.infinity)
          = f * Fp12.select (ell g c t.1) g (t.1.isIdentity || t.2.infinity) := by
        rw [Fp12.select_eq, Fp12.select_eq, ell_eq, ell_eq, mul_assoc]
        split <;> rfl
      simp only [e1]
      exact ih _ _ _ h

theorem ellTerms_cons {idx : Nat} {t : G1.Aff × Prepared} {ts : List (G1.Aff × Prepared)} {f f' g g' : Fp12 FpW}
    (h1 : ellTerms idx [t] f = .ok f') (h2 : ellTerms idx ts g = .ok g') :
    ellTerms idx (t :: ts) (f * g) = .ok (f' * g') := by
  rw [ellTerms] at h1 ⊢
  cases hr : rd t.2.coeffs idx with
  | err => rw [hr] at h1; cases h1
  | panic => rw [hr] at h1; cases h1
  | ok c =>
    rw [hr, bind_ok] at h1
    rw [bind_ok]
    have e1 : Fp12.select (ell (f * g) c t.1) (f * g) (t.1.isIdentity || t.2.infinity)
        = Fp12.select (ell f c t.1) f (t.1.isIdentity || t.2.infinity) * g := by
      rw [Fp12.select_eq, Fp12.select_eq, ell_eq, ell_eq]
      split
      · rfl
      · ring
    simp only [e1]
    simp only [ellTerms, Res.ok.injEq] at h1
    rw [h1]
    exact ellTerms_mul _ _ _ _ _ h2

/-- What is used about a driver that works on two lists of terms at once. -/
structure Both {O : Type} [CommMonoid O] (d d1 d2 : Driver Nat O) : Prop where
  dbl : ∀ {i f g x y}, d1.doublingStep i f = .ok x → d2.doublingStep i g = .ok y →
    d.doublingStep i (f * g) = .ok (i + 1, x.2 * y.2) ∧ x.1 = i + 1 ∧ y.1 = i + 1
  add : ∀ {i f g x y}, d1.additionStep i f = .ok x → d2.additionStep i g = .ok y →
    d.additionStep i (f * g) = .ok (i + 1, x.2 * y.2) ∧ x.1 = i + 1 ∧ y.1 = i + 1
  sq : ∀ f g, d.squareOutput (f * g) = d1.squareOutput f * d2.squareOutput g
  cj : ∀ f g, d.conjugate (f * g) = d1.conjugate f * d2.conjugate g
  one : d.one = d1.one * d2.one

theorem bind_eq_ok {α β : Type} {m : Res α} {k : α → Res β} {v : β} (h : (m >>= k) = .ok v) :
    ∃ a, m = .ok a ∧ k a = .ok v := by
  cases m with
  | ok a => exact ⟨a, rfl, h⟩
  | err => cases h
  | panic => cases h

section
variable {O : Type} [CommMonoid O] {d d1 d2 : Driver Nat O}

theorem Both.loop (h : Both d d1 d2) (l : List Bool) : ∀ {i f g x y}, loopOver d1 l (true, i, f) = .ok x →
    loopOver d2 l (true, i, g) = .ok y → x.1 = true ∧ y.1 = true ∧ x.2.1 = y.2.1 ∧
      loopOver d l (true, i, f * g) = .ok (true, x.2.1, x.2.2 * y.2.2) := by
  induction l with
  | nil =>
    intro i f g x y h1 h2
    cases h1
    cases h2
    exact ⟨rfl, rfl, rfl, rfl⟩
  | cons c l ih =>
    intro i f g x y h1 h2
    rw [loopOver] at h1 h2 ⊢
    obtain ⟨x1, e1, h1⟩ := bind_eq_ok h1
    obtain ⟨y1, e2, h2⟩ := bind_eq_ok h2
    simp only [loopBody, Bool.not_true, Bool.false_eq_true, if_false] at e1 e2
    obtain ⟨⟨i1, f1⟩, a1, e1⟩ := bind_eq_ok e1
    obtain ⟨⟨i2, g1⟩, a2, e2⟩ := bind_eq_ok e2
    obtain ⟨ed, k1, k2⟩ := h.dbl a1 a2
    simp only at k1 k2 ed e1 e2
    subst k1 k2
    cases c with
    | false =>
      simp only [Bool.false_eq_true, if_false, bind_ok, Res.ok.injEq] at e1 e2
      subst e1 e2
      obtain ⟨q1, q2, q3, q4⟩ := ih h1 h2
      refine ⟨q1, q2, q3, ?_⟩
      rw [← q4, ← h.sq]
      simp [loopBody, ed, bind_ok]
    | true =>
      simp only [if_true] at e1 e2
      obtain ⟨⟨i3, f3⟩, a3, e1⟩ := bind_eq_ok e1
      obtain ⟨⟨i4, g4⟩, a4, e2⟩ := bind_eq_ok e2
      obtain ⟨ed', k3, k4⟩ := h.add a3 a4
      simp only at k3 k4 ed' e1 e2
      subst k3 k4
      simp only [Res.ok.injEq] at e1 e2
      subst e1 e2
      obtain ⟨q1, q2, q3, q4⟩ := ih h1 h2
      refine ⟨q1, q2, q3, ?_⟩
      rw [← q4, ← h.sq]
      simp [loopBody, ed, ed', bind_ok]

theorem Both.miller (h : Both d d1 d2) {x y : Nat × O} (h1 : millerLoop d1 0 = .ok x)
    (h2 : millerLoop d2 0 = .ok y) : ∃ i, millerLoop d 0 = .ok (i, x.2 * y.2) := by
  rw [millerLoop, loop_head _ loopBits_eq] at h1 h2 ⊢
  obtain ⟨x1, e1, h1⟩ := bind_eq_ok h1
  obtain ⟨y1, e2, h2⟩ := bind_eq_ok h2
  obtain ⟨-, -, q3, q4⟩ := h.loop _ e1 e2
  rw [h.one, q4, bind_ok]
  obtain ⟨x2, e3, h1⟩ := bind_eq_ok h1
  obtain ⟨y2, e4, h2⟩ := bind_eq_ok h2
  rw [← q3] at e4
  obtain ⟨ed, -, -⟩ := h.dbl e3 e4
  simp only [ed, bind_ok, h.cj]
  cases h1
  cases h2
  exact ⟨_, rfl⟩

end

theorem multi_both (t : G1.Aff × Prepared) (ts : List (G1.Aff × Prepared)) :
    Both (multiDriver (t :: ts)) (multiDriver [t]) (multiDriver ts) where
  dbl {i f g x y} h1 h2 := by
    obtain ⟨f', e1, h1⟩ := bind_eq_ok h1
    obtain ⟨g', e2, h2⟩ := bind_eq_ok h2
    cases h1
    cases h2
    refine ⟨?_, rfl, rfl⟩
    show (ellTerms i (t :: ts) (f * g) >>= fun f => .ok (i + 1, f)) = _
    rw [ellTerms_cons e1 e2, bind_ok]
  add {i f g x y} h1 h2 := by
    obtain ⟨f', e1, h1⟩ := bind_eq_ok h1
    obtain ⟨g', e2, h2⟩ := bind_eq_ok h2
    cases h1
    cases h2
    refine ⟨?_, rfl, rfl⟩
    show (ellTerms i (t :: ts) (f * g) >>= fun f => .ok (i + 1, f)) = _
    rw [ellTerms_cons e1 e2, bind_ok]
  sq f g := by
    show Fp12.square (f * g) = f.square * g.square
    rw [Fp12.square_eq, Fp12.square_eq, Fp12.square_eq]
    ring
  cj f g := map_mul Fp12.conjHom f g
  one := (one_mul (1 : Fp12 FpW)).symm

theorem empty_loop (l : List Bool) : ∀ i f, ∃ x, loopOver (multiDriver []) l (true, i, f) = .ok x := by
  induction l with
  | nil => exact fun i f => ⟨_, rfl⟩
  | cons c l ih =>
    intro i f
    cases c with
    | false => exact ih (i + 1) f.square
    | true => exact ih (i + 1 + 1) f.square

theorem empty_runs {T : List Bool} (hT : loopBits = false :: true :: T) : ∃ x, millerLoop (multiDriver []) 0 = .ok x := by
  obtain ⟨x, e⟩ := empty_loop T 0 1
  rw [millerLoop, loop_head _ hT]
  show ∃ y, (loopOver (multiDriver []) T (true, 0, 1) >>= _) = Res.ok y
  rw [e, bind_ok]
  exact ⟨_, rfl⟩

/-- A driver that keeps its output at one. -/
structure Still {S O : Type} (d : Driver S O) : Prop where
  dbl : ∀ s, (∃ s', d.doublingStep s d.one = .ok (s', d.one)) ∨ d.doublingStep s d.one = .panic
  add : ∀ s, (∃ s', d.additionStep s d.one = .ok (s', d.one)) ∨ d.additionStep s d.one = .panic
  sq : d.squareOutput d.one = d.one
  cj : d.conjugate d.one = d.one

theorem Still.loop {S O : Type} {d : Driver S O} (h : Still d) (l : List Bool) : ∀ {s x},
    loopOver d l (true, s, d.one) = .ok x → x.2.2 = d.one := by
  induction l with
  | nil =>
    intro s x h1
    cases h1
    rfl
  | cons c l ih =>
    intro s x h1
    rw [loopOver] at h1
    obtain ⟨x1, e1, h1⟩ := bind_eq_ok h1
    simp only [loopBody, Bool.not_true, Bool.false_eq_true, if_false] at e1
    obtain ⟨x2, a1, e1⟩ := bind_eq_ok e1
    rcases h.dbl s with ⟨s', k⟩ | k
    · rw [k] at a1
      cases a1
      cases c with
      | false =>
        simp only [Bool.false_eq_true, if_false, bind_ok, Res.ok.injEq, h.sq] at e1
        subst e1
        exact ih h1
      | true =>
        simp only [if_true] at e1
        obtain ⟨x3, a3, e1⟩ := bind_eq_ok e1
        rcases h.add s' with ⟨s'', k'⟩ | k'
        · rw [k'] at a3
          cases a3
          simp only [Res.ok.injEq, h.sq] at e1
          subst e1
          exact ih h1
        · rw [k'] at a3
          cases a3
    · rw [k] at a1
      cases a1

theorem Still.miller {S O : Type} {d : Driver S O} (h : Still d) {s : S} {x : S × O} (h1 : millerLoop d s = .ok x) :
    x.2 = d.one := by
  rw [millerLoop, loop_head _ loopBits_eq] at h1
  obtain ⟨⟨_, s', f⟩, e1, h1⟩ := bind_eq_ok h1
  have hf := h.loop _ e1
  simp only at hf h1
  subst hf
  obtain ⟨x2, e2, h1⟩ := bind_eq_ok h1
  rcases h.dbl s' with ⟨s'', k⟩ | k
  · rw [k] at e2
    cases e2
    cases h1
    exact h.cj
  · rw [k] at e2
    cases e2

theorem ellTerms_still {all : List (Coeffs (Fp2 FpW))} {a : G1.Aff} {inf : Bool} (h : (a.isIdentity || inf) = true) (i : Nat) :
    (∃ s', (ellTerms i [(a, ⟨inf, all⟩)] 1 >>= fun f => .ok (i + 1, f)) = .ok (s', 1)) ∨
      (ellTerms i [(a, ⟨inf, all⟩)] 1 >>= fun f => Res.ok (i + 1, f)) = .panic := by
  by_cases hi : i < all.length
  · left
    rw [ellTerms_one (rd_of_lt hi), bind_ok, h]
    exact ⟨i + 1, rfl⟩
  · right
    have hr : rd all i = .panic := rd_of_ge (not_lt.1 hi)
    rw [ellTerms]
    simp only [hr, bind_panic]

theorem multi_still {all : List (Coeffs (Fp2 FpW))} {a : G1.Aff} {inf : Bool} (h : (a.isIdentity || inf) = true) :
    Still (multiDriver [(a, ⟨inf, all⟩)]) where
  dbl := ellTerms_still h
  add := ellTerms_still h
  sq := by
    show Fp12.square 1 = 1
    rw [Fp12.square_eq, one_mul]
  cj := map_one Fp12.conjHom

theorem val_one {P : (E1).Point} {Q : (E2).Point} (h : P = 0 ∨ Q = 0) : Val 1 P Q := by
  refine ⟨one_ne_zero, ?_⟩
  rw [one_pow]
  rcases h with rfl | rfl
  · rw [e_zero_left]
  · rw [e_zero_right]

/-- One prepared term. -/
theorem multi_one {a : G1.Aff} {P : (E1).Point} (ha : Affine.Is b a P) {q : G2.Aff} {Q : (E2).Point}
    (hq : Affine.Is b q Q) (hQ : r • Q = 0) : ∃ pq, prepare q = .ok pq ∧
      ∃ i f, millerLoop (multiDriver [(a, pq)]) 0 = .ok (i, f) ∧ Val f P Q := by
  obtain ⟨all, e1, hl, h⟩ := prepare_spec q
  refine ⟨_, e1, ?_⟩
  by_cases h0 : P = 0 ∨ Q = 0
  · have hid : (a.isIdentity || q.isIdentity) = true := by
      rw [isId1 ha, isId2 hq]
      simpa using h0
    have hread : Reading all (fun f c => Fp12.select (ell f c a) f (a.isIdentity || q.isIdentity)) Fp12.square
      Fp12.conjugate 1 (multiDriver [(a, ⟨q.isIdentity, all⟩)]) := multi_reading all a q.isIdentity
    obtain ⟨x, hx⟩ := hread.runs loopBits_eq (by rw [hl, steps_tail])
    have := (multi_still hid).miller hx
    refine ⟨x.1, x.2, hx, ?_⟩
    rw [this]
    exact val_one h0
  · have hn := not_or.1 h0
    have hp0 : a.isIdentity = false := by rw [isId1 ha]; simpa using hn.1
    have hq0 : q.isIdentity = false := by rw [isId2 hq]; simpa using hn.2
    obtain ⟨cur', f, e2, e3⟩ := h hq0 a hp0
    obtain ⟨cur'', f', e4, hv⟩ := loop_val ha hn.1 hq hQ hn.2
    rw [e2] at e4
    cases e4
    rw [hq0]
    exact ⟨_, _, e3, hv⟩

/-- The value of a product of pairings. -/
theorem multi_spec {ts : List (G1.Aff × G2.Aff)} {Ps : List ((E1).Point × (E2).Point)}
    (h : List.Forall₂ (fun t P => Affine.Is b t.1 P.1 ∧ Affine.Is b t.2 P.2 ∧ r • P.2 = 0) ts Ps) :
    ∃ terms : List (G1.Aff × Prepared), List.Forall₂ (fun t u => u.1 = t.1 ∧ prepare t.2 = .ok u.2) ts terms ∧
      ∃ i f, millerLoop (multiDriver terms) 0 = .ok (i, f) ∧ f ≠ 0 ∧ f ^ finalExp = (Ps.map fun P => e P.1 P.2).prod := by
  induction h with
  | nil =>
    refine ⟨[], .nil, ?_⟩
    have hs : Still (multiDriver []) := ⟨fun s => .inl ⟨s + 1, rfl⟩, fun s => .inl ⟨s + 1, rfl⟩, by
      show Fp12.square 1 = 1
      rw [Fp12.square_eq, one_mul], map_one Fp12.conjHom⟩
    obtain ⟨x, hx⟩ := empty_runs loopBits_eq
    refine ⟨x.1, x.2, hx, ?_⟩
    rw [hs.miller hx]
    refine ⟨one_ne_zero, ?_⟩
    show (1 : Fp12 FpW) ^ finalExp = 1
    rw [one_pow]
  | @cons t P ts Ps h1 _ ih =>
    obtain ⟨terms, hf, i, f, el, hn, hv⟩ := ih
    obtain ⟨pq, hp, i', f', el', hv'⟩ := multi_one h1.1 h1.2.1 h1.2.2
    obtain ⟨j, hj⟩ := (multi_both (t.1, pq) terms).miller el' el
    refine ⟨(t.1, pq) :: terms, .cons ⟨rfl, hp⟩ hf, j, f' * f, hj, mul_ne_zero hv'.ne hn, ?_⟩
    rw [mul_pow, hv'.eq, hv, List.map_cons, List.prod_cons]

end Kzg.Zk.Miller
