import Verif.Model.BenchPoly
import Verif.Proofs.BenchZero
import Verif.Proofs.LongDiv
import Mathlib.Algebra.BigOperators.Intervals
/-!
# The shared tests of polynomials: what they come to
-/

namespace Kzg.Bench
open Kzg Kzg.Iface Res Polynomial Finset

variable {F : Type} [Field F] [DecidableEq F]

/-- The polynomials are lists of coefficients. -/
structure Plain (T : PolyTrait F) : Prop where
  new : ∀ n, T.new n = .ok (List.replicate n 0)
  get : ∀ p i, T.getCoeffAt p i = rd p i
  set : ∀ p i x, T.setCoeffAt p i x = wr p i x
  len : ∀ p, T.len p = .ok p.length

/-- A list with a nonzero last coefficient. -/
def Lead (a : List F) : Prop := a ≠ [] ∧ a.getD (a.length - 1) 0 ≠ 0

theorem Lead.ne {a : List F} (h : Lead a) : polyOf a ≠ 0 := (natDegree_of_lead h.1 h.2).2

omit [DecidableEq F] in
theorem Lead.mem {a : List F} (h : Lead a) : ∃ x ∈ a, x ≠ 0 := by
  have h0 : 0 < a.length := List.length_pos_iff.mpr h.1
  refine ⟨_, ?_, h.2⟩
  rw [List.getD_eq_getElem _ _ (by omega)]
  exact List.getElem_mem _

omit [DecidableEq F] in
theorem Lead.last {a : List F} (h : Lead a) : a.getLast? = some (a.getD (a.length - 1) 0) := by
  have h0 : 0 < a.length := List.length_pos_iff.mpr h.1
  rw [List.getLast?_eq_getElem?, List.getD_eq_getElem?_getD, List.getElem?_eq_getElem (by omega)]
  rfl

variable {T : PolyTrait F}

omit [DecidableEq F] in
theorem fill_loop {n : Nat} {g : Nat → F} {body : Nat → List F → Res (List F)}
    (hb : ∀ i < n, ∀ p, body i p = wr p i (g i)) : forRange 0 n (List.replicate n 0) body = .ok ((List.range n).map g) := by
  obtain ⟨v, hv, hl, e⟩ := forRange_inv (lo := 0) (hi := n) (s := List.replicate n (0 : F)) (body := body)
    (fun i v => v.length = n ∧ ∀ j < i, v[j]? = some (g j)) (by omega) ⟨by simp, fun j hj => by omega⟩
    (fun i v _ hi h => by
      refine ⟨v.set i (g i), by rw [hb i hi, wr_of_lt (by omega)], by simp [h.1], fun j hj => ?_⟩
      by_cases hji : j = i
      · subst hji; rw [List.getElem?_set_self (by omega)]
      · rw [List.getElem?_set_ne (Ne.symm hji)]; exact h.2 j (by omega))
  rw [hv]
  refine congrArg Res.ok (List.ext_getElem? fun j => ?_)
  by_cases hj : j < n
  · rw [e j hj, List.getElem?_map, List.getElem?_range hj]; rfl
  · rw [List.getElem?_eq_none (by omega), List.getElem?_eq_none (by simp; omega)]

omit [DecidableEq F] in
theorem fillPoly_eq (hT : Plain T) (n : Nat) (g : Nat → F) : fillPoly T n g = .ok ((List.range n).map g) := by
  unfold fillPoly
  rw [hT.new, unwrap_ok, bind_ok]
  exact fill_loop fun i _ p => hT.set p i _

/-- The field elements of a list of integers. -/
def ints (F : Type) [Field F] (l : List Int) : List F := l.map fun c : Int => (c : F)

omit [DecidableEq F] in
theorem ints_length (l : List Int) : (ints F l).length = l.length := by simp [ints]

omit [DecidableEq F] in
theorem ints_getD (l : List Int) (i : Nat) : (ints F l).getD i 0 = ((l.getD i 0 : Int) : F) := by
  rw [ints, List.getD_eq_getElem?_getD, List.getD_eq_getElem?_getD, List.getElem?_map]
  cases l[i]? <;> simp

omit [DecidableEq F] in
theorem testPoly_eq (hT : Plain T) (l : List Int) : testPoly T l = .ok (ints F l) := by
  unfold testPoly
  rw [hT.new, unwrap_ok, bind_ok]
  refine (fill_loop (g := fun i => ((l.getD i 0 : Int) : F)) fun i hi p => ?_).trans ?_
  · have e : l.getD i 0 = l[i] := List.getD_eq_getElem _ _ hi
    rw [rd_of_lt hi, bind_ok, ← e]
    generalize l.getD i 0 = c
    split
    · rename_i h
      rw [hT.set]
      congr 1
      rw [← Int.cast_natCast, Int.toNat_of_nonneg h]
    · rename_i h
      rw [hT.set]
      congr 1
      rw [← Int.cast_natCast, Int.toNat_of_nonneg (by omega), Int.cast_neg, neg_neg]
  · refine congrArg Res.ok (List.ext_getElem (by simp [ints]) fun j h1 h2 => ?_)
    have hj : j < l.length := by simpa using h1
    simp [ints, hj]

omit [DecidableEq F] in
theorem sameLen_eq (hT : Plain T) {a b : List F} : sameLen T a b = assertT (a.length == b.length) := by
  rw [sameLen, hT.len, hT.len]; rfl

theorem sameCoeffs_take (hT : Plain T) {e a : List F} (h : ∀ i < a.length, e[i]? = a[i]?) : sameCoeffs T e a = .ok () := by
  rw [sameCoeffs, hT.len, bind_ok]
  refine each_ok fun i hi => ?_
  have h1 := h i hi
  rw [List.getElem?_eq_getElem hi] at h1
  rw [hT.get, hT.get, rd_of_getElem? h1, bind_ok, rd_of_lt hi, bind_ok]
  exact assertT_true (beq_self_eq_true _)

theorem sameCoeffs_ne (hT : Plain T) {e a : List F} (hl : e.length = a.length) (h : e ≠ a) : sameCoeffs T e a = .panic := by
  rw [sameCoeffs, hT.len, bind_ok]
  refine each_panic (b := fun i => e.getD i 0 == a.getD i 0) (fun i hi => ?_) ?_
  · rw [hT.get, hT.get, rd_of_lt (by omega), bind_ok, rd_of_lt hi, bind_ok, List.getD_eq_getElem _ _ hi,
      List.getD_eq_getElem _ _ (by omega)]
  · by_contra hc
    push Not at hc
    refine h (List.ext_getElem hl fun i h1 h2 => ?_)
    have := hc i h2
    rw [ne_eq, Bool.not_eq_false, beq_iff_eq, List.getD_eq_getElem _ _ h2, List.getD_eq_getElem _ _ h1] at this
    exact this

theorem fixLead_ok (hT : Plain T) {p : List F} (hp : p ≠ []) : ∃ q, fixLead T p = .ok q ∧ q.length = p.length ∧ Lead q ∧
    ∀ i < p.length, p.getD i 0 ≠ 0 → q.getD i 0 = p.getD i 0 := by
  have h0 : 0 < p.length := List.length_pos_iff.mpr hp
  rw [fixLead, hT.len, bind_ok, subU_of_le (by omega), bind_ok, hT.get, rd_of_lt (by omega), bind_ok]
  by_cases hc : p[p.length - 1] = 0
  · rw [if_pos hc, hT.set, wr_of_lt (by omega)]
    refine ⟨_, rfl, by simp, ⟨by simpa using hp, ?_⟩, fun i hi hne => ?_⟩
    · rw [List.length_set, List.getD_eq_getElem _ _ (by simp; omega), List.getElem_set_self]
      exact one_ne_zero
    · have : i ≠ p.length - 1 := by
        rintro rfl
        rw [List.getD_eq_getElem _ _ hi] at hne
        exact hne hc
      rw [List.getD_eq_getElem _ _ (by simpa using hi), List.getElem_set_ne (Ne.symm this), List.getD_eq_getElem _ _ hi]
  · rw [if_neg hc]
    refine ⟨p, rfl, rfl, ⟨hp, ?_⟩, fun i _ _ => rfl⟩
    rwa [List.getD_eq_getElem _ _ (by omega)]

theorem fixLead_nil (hT : Plain T) : fixLead T ([] : List F) = .panic := by
  rw [fixLead, hT.len]; rfl

omit [Field F] [DecidableEq F] in
theorem okAnd_ok (p : List F) : okAnd (.ok p) = .ok p := rfl

/-- What the random coefficients become. -/
theorem drawn (hT : Plain T) {n : Nat} (hn : 1 ≤ n) (g : Nat → F) : ∃ q, fixLead T ((List.range n).map g) = .ok q ∧ q.length = n ∧ Lead q ∧
    (g 0 ≠ 0 → q.getD 0 0 = g 0) := by
  have hne : (List.range n).map g ≠ [] := fun h => by
    have := congrArg List.length h
    simp at this; omega
  obtain ⟨q, h1, h2, h3, h4⟩ := fixLead_ok hT hne
  have hg : ((List.range n).map g).getD 0 0 = g 0 := by
    rw [List.getD_eq_getElem _ _ (by simp; omega)]; simp
  refine ⟨q, h1, by simpa using h2, h3, fun h => ?_⟩
  rw [h4 0 (by simp; omega) (by rwa [hg]), hg]

theorem mulRandom_cases (hT : Plain T) {m n out : Nat} (hm : 1 ≤ m) (hn : 1 ≤ n) (x y : Nat → F) :
    ∃ a b, a.length = m ∧ b.length = n ∧ Lead a ∧ Lead b ∧ (x 0 ≠ 0 → a.getD 0 0 = x 0) ∧ (y 0 ≠ 0 → b.getD 0 0 = y 0) ∧
    ∀ r0 r1, T.mulDirect a b out = .ok r0 → T.mulFft a b out none = .ok r1 →
      (r0 = r1 → mulRandom T m n out x y = .ok ()) ∧ (r0.length = r1.length → r0 ≠ r1 → mulRandom T m n out x y = .panic) := by
  obtain ⟨a, ha, la, La, fa⟩ := drawn hT hm x
  obtain ⟨b, hb, lb, Lb, fb⟩ := drawn hT hn y
  refine ⟨a, b, la, lb, La, Lb, fa, fb, fun r0 r1 h0 h1 => ?_⟩
  have key : mulRandom T m n out x y = (do sameLen T r0 r1; sameCoeffs T r1 r0) := by
    rw [mulRandom, fillPoly_eq hT, bind_ok, fillPoly_eq hT, bind_ok, ha, bind_ok, hb, bind_ok, h0, okAnd_ok, bind_ok, h1, okAnd_ok, bind_ok]
  rw [key, sameLen_eq hT]
  refine ⟨fun e => ?_, fun e hne => ?_⟩
  · subst e
    rw [assertT_true (by simp), bind_ok]
    exact sameCoeffs_take hT fun _ _ => rfl
  · rw [assertT_true (by simpa using e), bind_ok]
    exact sameCoeffs_ne hT e.symm (Ne.symm hne)

theorem mulRandom_panics (hT : Plain T) {m n out : Nat} (hm : 1 ≤ m) (hn : 1 ≤ n) (x y : Nat → F)
    (h : ∀ a b : List F, a.length = m → b.length = n → Lead a → Lead b → (∃ r, T.mulDirect a b out = .ok r) ∧ T.mulFft a b out none = .panic) :
    mulRandom T m n out x y = .panic := by
  obtain ⟨a, ha, la, La, -⟩ := drawn hT hm x
  obtain ⟨b, hb, lb, Lb, -⟩ := drawn hT hn y
  obtain ⟨⟨r, h0⟩, h1⟩ := h a b la lb La Lb
  rw [mulRandom, fillPoly_eq hT, bind_ok, fillPoly_eq hT, bind_ok, ha, bind_ok, hb, bind_ok, h0, okAnd_ok, bind_ok, h1]; rfl

theorem random_empty (hT : Plain T) {m n out : Nat} (h : m = 0 ∨ n = 0) (x y : Nat → F) :
    mulRandom T m n out x y = .panic ∧ divRandom T m n x y = .panic := by
  have h0 : ∀ g : Nat → F, (List.range 0).map g = [] := fun g => rfl
  simp only [mulRandom, divRandom, fillPoly_eq hT, bind_ok]
  by_cases hm : m = 0
  · subst hm
    simp only [h0, fixLead_nil hT]
    exact ⟨rfl, rfl⟩
  · obtain rfl : n = 0 := by omega
    obtain ⟨a, ha, -⟩ := drawn hT (show 1 ≤ m by omega) x
    simp only [bind_ok, ha, h0, fixLead_nil hT]
    exact ⟨rfl, rfl⟩

theorem divRandom_cases (hT : Plain T) {m n : Nat} (hm : 1 ≤ m) (hn : 1 ≤ n) (x y : Nat → F) :
    ∃ a b, a.length = m ∧ b.length = n ∧ Lead a ∧ Lead b ∧
    ∀ r0 r1, T.longDiv a b = .ok r0 → T.fastDiv a b = .ok r1 →
      (r0 = r1 → divRandom T m n x y = .ok ()) ∧ (r0.length = r1.length → r0 ≠ r1 → divRandom T m n x y = .panic) := by
  obtain ⟨a, ha, la, La, -⟩ := drawn hT hm x
  obtain ⟨b, hb, lb, Lb, -⟩ := drawn hT hn y
  refine ⟨a, b, la, lb, La, Lb, fun r0 r1 h0 h1 => ?_⟩
  have key : divRandom T m n x y = (do sameLen T r0 r1; sameCoeffs T r1 r0) := by
    rw [divRandom, fillPoly_eq hT, bind_ok, fillPoly_eq hT, bind_ok, ha, bind_ok, hb, bind_ok, h0, okAnd_ok, bind_ok, h1, okAnd_ok, bind_ok]
  rw [key, sameLen_eq hT]
  refine ⟨fun e => ?_, fun e hne => ?_⟩
  · subst e
    rw [assertT_true (by simp), bind_ok]
    exact sameCoeffs_take hT fun _ _ => rfl
  · rw [assertT_true (by simpa using e), bind_ok]
    exact sameCoeffs_ne hT e.symm (Ne.symm hne)

/-! ### The tests with fixed values -/

omit [DecidableEq F] in
theorem createPoly_ok (hT : Plain T) (n : Nat) : createPoly T n = .ok () := by
  rw [createPoly, hT.new, unwrap_ok, bind_ok, hT.len, bind_ok]
  exact assertT_true (by simp)

omit [DecidableEq F] in
theorem ramp_list_eval (n : Nat) : (polyOf ((List.range n).map fun i => ((i + 1 : Nat) : F))).eval 1 = ((n * (n + 1) / 2 : Nat) : F) := by
  rw [eval_polyOf]
  have e : ∀ i ∈ range n, ((List.range n).map fun i => ((i + 1 : Nat) : F)).getD i 0 * 1 ^ i = ((i + 1 : Nat) : F) := by
    intro i hi
    rw [List.getD_eq_getElem _ _ (by simpa using hi)]; simp
  rw [List.length_map, List.length_range, sum_congr rfl e, ← Nat.cast_sum]
  congr 1
  have h : (∑ i ∈ range n, (i + 1)) = ∑ i ∈ range (n + 1), i := by rw [Finset.sum_range_succ']; simp
  have h2 := Finset.sum_range_id_mul_two (n + 1)
  rw [Nat.add_sub_cancel, Nat.mul_comm (n + 1)] at h2
  rw [h, ← h2, Nat.mul_div_cancel _ (by norm_num)]

theorem evalCheck_of (hT : Plain T) {n : Nat} {r : Res F} (h : T.eval ((List.range n).map fun i => ((i + 1 : Nat) : F)) 1 = r) :
    evalCheck T n = (do let v ← r; assertT (((n * (n + 1) / 2 : Nat) : F) == v)) := by
  rw [evalCheck, fillPoly_eq hT, bind_ok, h]

theorem evalZeroCheck_of (hT : Plain T) {n a : Nat} {v : F} (h : T.eval ((List.range n).map fun i => ((i + a : Nat) : F)) 0 = .ok v) :
    evalZeroCheck T n a = assertT ((a : F) == v) := by
  rw [evalZeroCheck, fillPoly_eq hT, bind_ok, h, bind_ok]

omit [DecidableEq F] in
theorem shifted_list_eval {n a : Nat} (hn : 1 ≤ n) : (polyOf ((List.range n).map fun i => ((i + a : Nat) : F))).eval 0 = (a : F) := by
  rw [← coeff_zero_eq_eval_zero, coeff_polyOf, List.getD_eq_getElem _ _ (by simp; omega)]
  simp

omit [DecidableEq F] in
/-- The coefficients of an inverse of `1 + cx` modulo `x^d`. -/
theorem geometric {c : F} {q : List F} {d : Nat} (hl : q.length = d)
    (h : ∀ k < d, (polyOf [1, c] * polyOf q).coeff k = if k = 0 then 1 else 0) : ∀ k < d, q[k]? = some ((-c) ^ k) := by
  have e : polyOf [1, c] = 1 + C c * X := by
    ext i
    rw [coeff_polyOf, coeff_add, coeff_C_mul, coeff_X, coeff_one]
    rcases i with _ | _ | i <;> simp
  have hg : ∀ k < d, q.getD k 0 = (-c) ^ k := by
    intro k
    induction k with
    | zero =>
      intro hk
      have := h 0 hk
      rw [e, add_mul, one_mul, coeff_add, mul_assoc, coeff_C_mul, coeff_X_mul_zero, coeff_polyOf, mul_zero, add_zero, if_pos rfl] at this
      rw [this, pow_zero]
    | succ k ih =>
      intro hk
      have := h (k + 1) hk
      rw [e, add_mul, one_mul, coeff_add, mul_assoc, coeff_C_mul, coeff_X_mul, coeff_polyOf, coeff_polyOf, if_neg (by omega),
        ih (by omega)] at this
      rw [pow_succ]
      linear_combination this
  intro k hk
  rw [← hg k hk, List.getD_eq_getElem _ _ (by omega), List.getElem?_eq_getElem (by omega)]

theorem inverseSimple0_ok (hT : Plain T) {d : Nat} {q : List F} (hq : T.inverse [1, -1] d = .ok q) (hl : q.length = d)
    (h : ∀ k < d, (polyOf [1, -1] * polyOf q).coeff k = if k = 0 then 1 else 0) : inverseSimple0 T d = .ok () := by
  rw [inverseSimple0, hT.new, unwrap_ok, bind_ok]
  simp only [hT.set, hT.get]
  rw [wr_of_lt (by simp), bind_ok, wr_of_lt (by simp), bind_ok, rd_of_lt (by simp), bind_ok, wr_of_lt (by simp), bind_ok]
  have e : (((List.replicate 2 (0 : F)).set 0 1).set 1 1).set 1 (-(((List.replicate 2 (0 : F)).set 0 1).set 1 1)[1]) = [1, -1] := rfl
  rw [e, hq, okAnd_ok, bind_ok]
  refine each_ok fun k hk => ?_
  rw [rd_of_getElem? (geometric hl h k hk), bind_ok, neg_neg, one_pow]
  exact assertT_true (beq_self_eq_true _)

theorem inverseSimple1_ok (hT : Plain T) {d : Nat} {q : List F} (hq : T.inverse [1, 1] d = .ok q) (hl : q.length = d)
    (h : ∀ k < d, (polyOf [1, 1] * polyOf q).coeff k = if k = 0 then 1 else 0) : inverseSimple1 T d = .ok () := by
  rw [inverseSimple1, hT.new, unwrap_ok, bind_ok]
  simp only [hT.set, hT.get]
  rw [wr_of_lt (by simp), bind_ok, wr_of_lt (by simp), bind_ok]
  have e : ((List.replicate 2 (0 : F)).set 0 1).set 1 1 = [1, 1] := rfl
  rw [e, hq, okAnd_ok, bind_ok]
  refine each_ok fun k hk => ?_
  rw [rd_of_getElem? (geometric hl h k hk), bind_ok]
  refine assertT_true ?_
  rw [beq_iff_eq, Nat.and_one_is_mod]
  rcases Nat.even_or_odd k with hk' | hk'
  · rw [if_neg (by simp [Nat.even_iff.1 hk']), hk'.neg_one_pow]
  · rw [if_pos (by simp [Nat.odd_iff.1 hk']), hk'.neg_one_pow, neg_neg]

theorem divCase_of (hT : Plain T) {div : List F → List F → Res (List F)} {a b e : List Int} {q : List F}
    (h : div (ints F a) (ints F b) = .ok q) :
    divCase T div a b e = (do assertT (e.length == q.length); sameCoeffs T (ints F e) q) := by
  rw [divCase, testPoly_eq hT, bind_ok, testPoly_eq hT, bind_ok, testPoly_eq hT, bind_ok, h, okAnd_ok, bind_ok, sameLen_eq hT, ints_length]

theorem divCase_err (hT : Plain T) {div : List F → List F → Res (List F)} {a b e : List Int} (h : ∃ msg, div (ints F a) (ints F b) = .err msg) :
    divCase T div a b e = .panic := by
  obtain ⟨m, hm⟩ := h
  simp only [divCase, testPoly_eq hT, bind_ok, hm]
  rfl

/-- A round of the tests of division passes exactly with the right quotient. -/
theorem divCase_cases (hT : Plain T) {div : List F → List F → Res (List F)} {a b e : List Int} {q : List F}
    (h : div (ints F a) (ints F b) = .ok q) :
    (ints F e = q → divCase T div a b e = .ok ()) ∧ (ints F e ≠ q → divCase T div a b e = .panic) := by
  rw [divCase_of hT h]
  constructor
  · intro he
    rw [assertT_true (by rw [← he, ints_length]; simp), bind_ok, he]
    exact sameCoeffs_take hT fun _ _ => rfl
  · intro he
    by_cases hl : e.length = q.length
    · rw [assertT_true (by simpa using hl), bind_ok]
      exact sameCoeffs_ne hT (by rw [ints_length, hl]) he
    · rw [assertT, if_neg (by simpa using hl)]; rfl

theorem mulCase_cases (hT : Plain T) {mul : List F → List F → Nat → Res (List F)} {x y e : List Int} {len : Nat} {r : List F}
    (h0 : mul (ints F x) (ints F y) len = .ok r) (h1 : mul (ints F y) (ints F x) len = .ok r) (hl : r.length = e.length) :
    (ints F e = r → mulCase T mul x y e len = .ok ()) ∧ (ints F e ≠ r → mulCase T mul x y e len = .panic) := by
  rw [mulCase, testPoly_eq hT, bind_ok, testPoly_eq hT, bind_ok, testPoly_eq hT, bind_ok, h0, okAnd_ok, bind_ok]
  constructor
  · intro he
    rw [he, sameCoeffs_take hT fun _ _ => rfl, bind_ok, h1, okAnd_ok, bind_ok]
    exact sameCoeffs_take hT fun _ _ => rfl
  · intro he
    rw [sameCoeffs_ne hT (by rw [ints_length, hl]) he]; rfl

omit [DecidableEq F] in
theorem divByZero_of (hT : Plain T) (a : List Int) : divByZero T a = match T.div (ints F a) [] with
    | .err _ => .ok ()
    | _ => .panic := by
  rw [divByZero, testPoly_eq hT, bind_ok, hT.new, unwrap_ok, bind_ok]; rfl

end Kzg.Bench
