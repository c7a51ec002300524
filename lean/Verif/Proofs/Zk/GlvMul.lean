import Verif.Proofs.Zk.Curve
import Verif.Proofs.Zk.GlvSplit
import Mathlib.Tactic.Module
import Mathlib.Tactic.IntervalCases
/-!
# Scalar multiplication with the endomorphism
-/

set_option linter.unusedSectionVars false

namespace Kzg.Zk

open WeierstrassCurve.Affine

variable {K : Type} [Field K] [DecidableEq K] [LawfulCurve K]
open CurveConsts LawfulCurve

local notation "E" => curve (b : K)

theorem is_unique {p : Projective K} {P Q : (E).Point} (hp : Projective.Is b p P) (hq : Projective.Is b p Q) : P = Q := by
  have h := (ctEq_iff hp hq)
  have h0 := (ctEq_iff hp hp).2 rfl
  exact h.1 h0

/-! ## The endomorphism -/

/-- A primitive cube root of unity. -/
structure Omega (β : K) : Prop where
  eq : β ^ 2 + β + 1 = 0

theorem Omega.cube {β : K} (h : Omega β) : β ^ 3 = 1 := by
  linear_combination (β - 1) * h.eq

theorem Omega.ne_zero {β : K} (h : Omega β) : β ≠ 0 := by
  rintro rfl
  simpa using h.eq

theorem Omega.ne_one {β : K} (h : Omega β) : β ≠ 1 := by
  rintro rfl
  have := h.eq
  apply three_ne (K := K)
  linear_combination this

theorem nonsingular_scale {β x y : K} (hβ : Omega β) (h : (E).Nonsingular x y) : (E).Nonsingular (x * β) y := by
  rw [nonsingular_iff] at *
  rw [mul_pow, hβ.cube, h, mul_one]

/-- `(x, y) ↦ (βx, y)`. -/
def phiFun {β : K} (hβ : Omega β) : (E).Point → (E).Point
  | .zero => 0
  | .some x y h => .some (x * β) y (nonsingular_scale hβ h)

theorem phi_is {β : K} (hβ : Omega β) {x y z : K} {P : (E).Point} (h : Projective.Is b ⟨x, y, z⟩ P) :
    Projective.Is b ⟨β * x, y, z⟩ (phiFun hβ P) := by
  cases h with
  | infinity hy =>
    rw [mul_zero]
    exact .infinity hy
  | @finite x y z hz h =>
    exact is_of_eq hz _ (by ring) rfl

theorem phi_add {β : K} (hβ : Omega β) (P Q : (E).Point) : phiFun hβ (P + Q) = phiFun hβ P + phiFun hβ Q := by
  obtain ⟨p, hp⟩ := affine_is_exists P
  obtain ⟨q, hq⟩ := affine_is_exists Q
  have hp := ofAffine_is hp
  have hq := ofAffine_is hq
  generalize Projective.ofAffine p = p at hp
  generalize Projective.ofAffine q = q at hq
  obtain ⟨x1, y1, z1⟩ := p
  obtain ⟨x2, y2, z2⟩ := q
  have h1 := add_is (phi_is hβ hp) (phi_is hβ hq)
  have h2 := phi_is hβ (add_is hp hq)
  have hc := hβ.cube
  refine is_unique h2 ?_
  convert h1 using 1
  simp only [Projective.add, mul3b_eq]
  rw [Projective.mk.injEq]
  refine ⟨by ring, ?_, ?_⟩
  · linear_combination (-9 * b * (x1 * z2 + x2 * z1) * x1 * x2) * hc
  · linear_combination (-3 * x1 * x2 * (x1 * y2 + x2 * y1)) * hc

/-- The endomorphism of the group of points. -/
def phi {β : K} (hβ : Omega β) : (E).Point →+ (E).Point where
  toFun := phiFun hβ
  map_zero' := rfl
  map_add' := phi_add hβ

/-- The endomorphism satisfies `φ² + φ + 1 = 0`. -/
theorem phi_sq {β : K} (hβ : Omega β) (P : (E).Point) : phi hβ (phi hβ P) + phi hβ P + P = 0 := by
  cases P with
  | zero => exact (congrArg₂ (· + ·) (congrArg₂ (· + ·) (map_zero _) (map_zero _)) rfl).trans (by simp [Point.zero_def])
  | some x y h =>
    have hy := y_ne h.1
    have e := nonsingular_iff.1 h
    have hb := nonsingular_scale hβ h
    have hbb := nonsingular_scale hβ hb
    have hsum : Point.some (x * β) y hb + Point.some x y h = -Point.some (x * β * β) y hbb := by
      have hn : ¬ (x * β = x ∧ y = (E).negY x y) := fun hh => ne_negY h.1 hh.2
      rw [Point.add_some hn, Point.neg_some]
      have hs : (E).slope (x * β) x y y = 0 := by
        by_cases hx : x * β = x
        · have hx0 : x = 0 := by
            by_contra hne
            exact hβ.ne_one (mul_left_cancel₀ hne (hx.trans (mul_one x).symm))
          subst hx0
          rw [zero_mul, slope_self h.1]
          simp
        · rw [slope_of_X_ne hx, sub_self, zero_div]
      congr 1
      · rw [addX_eq, hs]
        linear_combination (-x) * hβ.eq
      · rw [addY_eq, hs, negY_eq]
        ring
    have e1 : phi hβ (Point.some x y h) = Point.some (x * β) y hb := rfl
    have e2 : phi hβ (Point.some (x * β) y hb) = Point.some (x * β * β) y hbb := rfl
    rw [e1, e2, add_assoc, hsum, add_neg_cancel]

theorem scaleX_is {β : K} (hβ : Omega β) {t : Affine K} {T : (E).Point} (h : Affine.Is b t T) :
    Affine.Is b (Glv.scaleX β t) (phi hβ T) := by
  cases h with
  | infinity =>
    simp only [Glv.scaleX, zero_mul]
    exact .infinity
  | finite h => exact .finite _

namespace Glv

/-! ## The table -/

theorem oddMultiples_is {d p : Projective K} {D P : (E).Point} (hd : Projective.Is b d D) (hp : Projective.Is b p P)
    (n : Nat) : (oddMultiples d n p).length = n ∧ ∀ j < n, ∃ q, (oddMultiples d n p)[j]? = some q ∧
      Projective.Is b q (P + (j + 1) • D) := by
  induction n generalizing p P with
  | zero => exact ⟨rfl, fun j hj => absurd hj (by omega)⟩
  | succ n ih =>
    obtain ⟨h1, h2⟩ := ih (add_is hp hd)
    refine ⟨by simp [oddMultiples, h1], fun j hj => ?_⟩
    match j with
    | 0 =>
      refine ⟨p.add d, rfl, ?_⟩
      simpa using add_is hp hd
    | j + 1 =>
      obtain ⟨q, e, hq⟩ := h2 j (by omega)
      refine ⟨q, by simpa [oddMultiples] using e, ?_⟩
      convert hq using 1
      rw [succ_nsmul' D (j + 1), ← add_assoc]

theorem precompute_is {p : Projective K} {P : (E).Point} (hp : Projective.Is b p P) :
    ∃ table, precompute p = .ok table ∧ table.length = 8 ∧
      ∀ j < 8, ∃ a, table[j]? = some a ∧ Affine.Is b a ((2 * j + 1) • P) := by
  obtain ⟨h1, h2⟩ := oddMultiples_is (double_is hp) hp 7
  have hb := batchNormalize_eq (oddMultiples p.double 7 p)
  rw [h1] at hb
  refine ⟨_, by rw [precompute, hb, Res.bind_ok]; rfl, by simp [h1], fun j hj => ?_⟩
  match j with
  | 0 => exact ⟨_, rfl, by simpa using ofProjective_is hp⟩
  | j + 1 =>
    obtain ⟨q, e, hq⟩ := h2 j (by omega)
    refine ⟨Affine.ofProjective q, by simp [e], ?_⟩
    convert ofProjective_is hq using 1
    module

theorem linearPass_eq {table : List (Affine K)} (hl : table.length = 8) {i : Nat} {a : Affine K}
    (h : table[i]? = some a) : linearPass i table = a := by
  match table, hl with
  | [a0, a1, a2, a3, a4, a5, a6, a7], _ =>
    have hi : i < 8 := by
      by_contra hn
      rw [List.getElem?_eq_none (by simp; omega)] at h
      cases h
    interval_cases i <;>
    · simp only [List.getElem?_cons_zero, List.getElem?_cons_succ, Option.some.injEq] at h
      subst h
      simp [linearPass, linearPassFrom, Affine.select, show bitsDiffer 0 0 = 0 by decide]
      try rfl

/-! ## The digits -/

theorem digit_bits {d : Int} (h1 : -15 ≤ d) (h2 : d ≤ 15) (h3 : d % 2 = 1) (chk : Bool) {s : Int} (hs : s = 0 ∨ s = -1) :
    ∃ a, subI8 chk (xorI8 d (if d < 0 then -1 else 0)) (if d < 0 then -1 else 0) = .ok a ∧ asU8 (a / 2) < 8 ∧
      (2 * (asU8 (a / 2) : Int) + 1) * (if choiceOf (xorI8 (if d < 0 then -1 else 0) s) then -1 else 1) =
        (if s = 0 then d else -d) := by
  have H : ∀ chk : Bool, ∀ d ∈ ([-15, -13, -11, -9, -7, -5, -3, -1, 1, 3, 5, 7, 9, 11, 13, 15] : List Int),
      ∀ s ∈ ([0, -1] : List Int),
      (subI8 chk (xorI8 d (if d < 0 then -1 else 0)) (if d < 0 then -1 else 0) = .ok (d.natAbs : Int)) ∧
        asU8 ((d.natAbs : Int) / 2) < 8 ∧ 
      (2 * (asU8 ((d.natAbs : Int) / 2) : Int) + 1) * (if choiceOf (xorI8 (if d < 0 then -1 else 0) s) then -1 else 1) =
        (if s = 0 then d else -d) := by decide +kernel
  have hd : d ∈ ([-15, -13, -11, -9, -7, -5, -3, -1, 1, 3, 5, 7, 9, 11, 13, 15] : List Int) := by
    simp only [List.mem_cons, List.not_mem_nil, or_false]
    omega
  exact ⟨_, H chk d hd s (by simpa using hs)⟩

theorem digitPoint_is (chk : Bool) {table : List (Affine K)} {P : (E).Point} (hl : table.length = 8)
    (ht : ∀ j < 8, ∃ a, table[j]? = some a ∧ Affine.Is b a ((2 * j + 1) • P)) {d s : Int} (h1 : -15 ≤ d)
    (h2 : d ≤ 15) (h3 : d % 2 = 1) (hs : s = 0 ∨ s = -1) :
    ∃ t, digitPoint chk table d s = .ok t ∧ Affine.Is b t ((if s = 0 then d else -d) • P) := by
  obtain ⟨a, e, hlt, hv⟩ := digit_bits h1 h2 h3 chk hs
  obtain ⟨q, hq, hi⟩ := ht _ hlt
  unfold digitPoint
  simp only [e, Res.bind_ok, linearPass_eq hl hq, Res.pure_eq]
  refine ⟨_, rfl, ?_⟩
  rw [← hv]
  generalize choiceOf (xorI8 (if d < 0 then -1 else 0) s) = c
  have hi' : Affine.Is b q ((2 * (asU8 (a / 2) : Int) + 1) • P) := by
    convert hi using 1
    rw [← natCast_zsmul]
    push_cast
    rfl
  cases c with
  | false => simpa [Affine.select] using hi'
  | true =>
    rw [if_pos rfl, mul_neg_one, neg_smul]
    exact affine_neg_is hi'

/-- The value of a digit list with the sign of its half scalar. -/
def signed (s v : Int) : Int := if s = 0 then v else -v

theorem multiplyLoop_is (chk : Bool) {β : K} (hβ : Omega β) {table : List (Affine K)} {P : (E).Point}
    (hl : table.length = 8) (ht : ∀ j < 8, ∃ a, table[j]? = some a ∧ Affine.Is b a ((2 * j + 1) • P)) {s1 s2 : Int}
    (hs1 : s1 = 0 ∨ s1 = -1) (hs2 : s2 = 0 ∨ s2 = -1) (ds1 ds2 : List Int) (hlen : ds1.length = ds2.length)
    (h1 : ∀ d ∈ ds1, -15 ≤ d ∧ d ≤ 15 ∧ d % 2 = 1) (h2 : ∀ d ∈ ds2, -15 ≤ d ∧ d ≤ 15 ∧ d % 2 = 1) :
    ∃ q, multiplyLoop chk β table s1 s2 (ds1.zip ds2) Projective.identity = .ok q ∧
      Projective.Is b q (signed s1 (digitSum ds1) • P + signed s2 (digitSum ds2) • phi hβ P) := by
  induction ds1 generalizing ds2 with
  | nil =>
    match ds2, hlen with
    | [], _ =>
      refine ⟨_, rfl, ?_⟩
      simpa [signed, digitSum] using identity_is
  | cons d1 ds1 ih =>
    match ds2, hlen with
    | d2 :: ds2, hlen =>
      obtain ⟨q, e, hq⟩ := ih ds2 (by simpa using hlen) (fun d hd => h1 d (by simp [hd])) (fun d hd => h2 d (by simp [hd]))
      obtain ⟨a1, a2, a3⟩ := h1 d1 (by simp)
      obtain ⟨c1, c2, c3⟩ := h2 d2 (by simp)
      obtain ⟨t1, e1, i1⟩ := digitPoint_is chk hl ht a1 a2 a3 hs1
      obtain ⟨t2, e2, i2⟩ := digitPoint_is chk hl ht c1 c2 c3 hs2
      simp only [List.zip_cons_cons, multiplyLoop, e, Res.bind_ok, multiplyStep, e1, e2, Res.pure_eq]
      refine ⟨_, rfl, ?_⟩
      have hd := double_is (double_is (double_is (double_is hq)))
      have := addMixed_is (addMixed_is hd i1) (scaleX_is hβ i2)
      convert this using 1
      rw [map_zsmul]
      simp only [signed, digitSum]
      split_ifs <;> module

theorem select_is {c : Bool} {p q : Projective K} {P Q : (E).Point} (hp : Projective.Is b p P)
    (hq : Projective.Is b q Q) : Projective.Is b (Projective.select p q c) (if c then Q else P) := by
  cases c <;> simpa [Projective.select]

theorem affine_select_is {c : Bool} {p q : Affine K} {P Q : (E).Point} (hp : Affine.Is b p P)
    (hq : Affine.Is b q Q) : Affine.Is b (Affine.select p q c) (if c then Q else P) := by
  cases c <;> simpa [Affine.select]

/-- What `multiply` computes, given what the recodings return. -/
theorem multiply_of (chk : Bool) {β : K} (hβ : Omega β) {p : Projective K} {P : (E).Point}
    (hp : Projective.Is b p P) {k k1 k2 : List Nat} {s : Nat} {ds1 ds2 : List Int}
    (e : glvRecoding chk k = .ok (-(s : Int), k1, 0, k2)) (hs : s ≤ 1) (l1 : k1.length = 32) (b1 : ∀ c ∈ k1, c < 256)
    (l2 : k2.length = 32) (b2 : ∀ c ∈ k2, c < 256) (ed1 : regularRecoding chk (makeOdd k1) = .ok ds1)
    (ed2 : regularRecoding chk (makeOdd k2) = .ok ds2) (hlen : ds1.length = ds2.length)
    (h1 : ∀ d ∈ ds1, -15 ≤ d ∧ d ≤ 15 ∧ d % 2 = 1) (h2 : ∀ d ∈ ds2, -15 ≤ d ∧ d ≤ 15 ∧ d % 2 = 1) :
    ∃ q, multiply chk β p k = .ok q ∧
      Projective.Is b q (signed (-(s : Int)) (digitSum ds1 - (1 - fromLe k1 % 2 : Nat)) • P +
        (digitSum ds2 - (1 - fromLe k2 % 2 : Nat)) • phi hβ P) := by
  obtain ⟨table, et, hlt, ht⟩ := precompute_is hp
  have hs1 : (-(s : Int)) = 0 ∨ (-(s : Int)) = -1 := by omega
  obtain ⟨q, el, hq⟩ := multiplyLoop_is chk hβ hlt ht hs1 (Or.inl rfl) ds1 ds2 hlen h1 h2
  obtain ⟨t0, e0, i0⟩ := ht 0 (by omega)
  have er : rd table 0 = .ok t0 := by simp [rd, e0]
  simp only [mul_zero, zero_add, one_smul] at i0
  obtain ⟨-, -, -, p1⟩ := makeOdd_spec l1 b1
  obtain ⟨-, -, -, p2⟩ := makeOdd_spec l2 b2
  unfold multiply
  simp only [e, et, ed1, ed2, el, er, Res.bind_ok, Res.pure_eq, p1, p2]
  refine ⟨_, rfl, ?_⟩
  have f1 := select_is (c := decide (1 - fromLe k1 % 2 = 1)) hq
    (subMixed_is hq (affine_select_is (c := choiceOf (-(s : Int))) i0 (affine_neg_is i0)))
  have i1 := scaleX_is hβ i0
  have f2 := select_is (c := decide (1 - fromLe k2 % 2 = 1)) f1
    (subMixed_is f1 (affine_select_is (c := choiceOf 0) i1 (affine_neg_is i1)))
  convert f2 using 1
  have z1 : fromLe k1 % 2 = 0 ∨ fromLe k1 % 2 = 1 := by omega
  have z2 : fromLe k2 % 2 = 0 ∨ fromLe k2 % 2 = 1 := by omega
  have zs : s = 0 ∨ s = 1 := by omega
  clear f1 f2 hq el
  rcases z1 with z1 | z1 <;> rcases z2 with z2 | z2 <;> rcases zs with rfl | rfl <;>
  · simp [z1, z2, signed, choiceOf_zero, choiceOf_neg]
    try module

/-- `multiply` computes `k1·P + k2·φ(P)` for a splitting `k = k1 + λ·k2`, for every point of the curve. -/
theorem multiply_is (chk : Bool) {β : K} (hβ : Omega β) {p : Projective K} {P : (E).Point}
    (hp : Projective.Is b p P) {k : List Nat} (hl : k.length = 32) (hb : ∀ c ∈ k, c < 256)
    (hk : fromLe k ≤ frModulus) (hc : NoCarry (fromLe k)) :
    ∃ q, multiply chk β p k = .ok q ∧
      Projective.Is b q (((fromLe k : Int) - lambda * quot (fromLe k)) • P + (quot (fromLe k) : Int) • phi hβ P) := by
  obtain ⟨s, k1, k2, e, hs, l1, b1, l2, b2, lt1, lt2, hv, hq2⟩ := glvRecoding_ok chk hl hb hk hc
  obtain ⟨ds1, ed1, n1, hd1, sum1⟩ := regularRecoding_spec chk l1 b1 (by omega)
  obtain ⟨ds2, ed2, n2, hd2, sum2⟩ := regularRecoding_spec chk l2 b2 (by omega)
  obtain ⟨q, eq, hq⟩ := multiply_of chk hβ hp e hs l1 b1 l2 b2 ed1 ed2 (by omega) hd1 hd2
  refine ⟨q, eq, ?_⟩
  convert hq using 1
  rw [hv, sum1, sum2, ← hq2]
  have z1 : fromLe k1 % 2 = 0 ∨ fromLe k1 % 2 = 1 := by omega
  have z2 : fromLe k2 % 2 = 0 ∨ fromLe k2 % 2 = 1 := by omega
  have zs : s = 0 ∨ s = 1 := by omega
  clear hq eq
  rcases z1 with z1 | z1 <;> rcases z2 with z2 | z2 <;> rcases zs with rfl | rfl <;>
  · simp [z1, z2, signed]

end Glv
end Kzg.Zk
