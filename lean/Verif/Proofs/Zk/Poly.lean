import Verif.Model.Zk.Poly
import Verif.Proofs.PolyInverse
import Mathlib.Algebra.Polynomial.FieldDivision
/-!
# The polynomial functions of zkcrypto
-/

namespace Kzg.ZkP
open Kzg Res Polynomial

section Basic
variable {F : Type} [Field F] [DecidableEq F]

theorem frInv_of_ne {a : F} (h : a ≠ 0) : frInv a = .ok a⁻¹ := if_neg h

theorem frDiv_eq (a b : F) : frDiv a b = .ok (a * b⁻¹) := by
  unfold frDiv
  split
  · next h => rw [h, inv_zero, mul_zero]
  · next h => rw [frInv_of_ne h, bind_ok]

theorem polyFlip_eq (a : List F) : polyFlip a = .ok a.reverse := by
  unfold polyFlip
  obtain ⟨r, hr, hl, h1⟩ := forRange_inv (lo := 0) (hi := a.length) (s := List.replicate a.length (0 : F))
    (body := fun i ret => do
      let k ← subU a.length i
      let k ← subU k 1
      let x ← rd a i
      wr ret k x)
    (fun i s => s.length = a.length ∧ ∀ j < i, s.getD (a.length - 1 - j) 0 = a.getD j 0) (Nat.zero_le _)
    ⟨by simp, fun j hj => by omega⟩ (by
      rintro i s _ hi ⟨hl, hs⟩
      rw [subU_of_le (by omega), bind_ok, subU_of_le (by omega), bind_ok, rd_getD 0 hi, bind_ok,
        wr_of_lt (by omega)]
      refine Sat.ok ⟨by simp [hl], ?_⟩
      intro j hj
      rw [List.getD_eq_getElem?_getD, getElem?_set_of_lt (by omega)]
      by_cases hij : j = i
      · subst hij
        rw [if_pos (by omega)]; rfl
      · rw [if_neg (by omega), ← List.getD_eq_getElem?_getD]
        exact hs j (by omega))
  rw [hr]
  congr 1
  apply List.ext_getElem (by simp [hl])
  intro i h2 h3
  have := h1 (a.length - 1 - i) (by omega)
  rw [show a.length - 1 - (a.length - 1 - i) = i by omega, List.getD_eq_getElem _ _ h2,
    List.getD_eq_getElem _ _ (by omega)] at this
  rw [this, List.getElem_reverse]

omit [DecidableEq F] in
theorem pad_eq (a : List F) (n : Nat) : pad a n = .ok ((List.range n).map fun i => a.getD i 0) := by
  unfold pad
  simp only [minU64_eq]
  rw [sliceTo, if_pos (by simp), bind_ok, sliceTo, if_pos (by simp), bind_ok]
  congr 1
  apply List.ext_getElem (by simp)
  intro i h1 h2
  have hn : i < n := by simpa using h2
  rw [List.getElem_append]
  split
  · next h =>
    have : i < a.length := by simp at h; omega
    simp [List.getElem?_eq_getElem this]
  · next h =>
    have : a.length ≤ i := by simp at h; omega
    simp [List.getElem?_eq_none this]

theorem padLoop_eq (a : List F) (n : Nat) : padLoop a n = .ok ((List.range n).map fun i => a.getD i 0) :=
  polyPad_spec a n

theorem longDivLoop_eq (b : List F) (bPos : Nat) : ∀ (diff aPos : Nat) (a out : List F),
    longDivLoop b bPos diff aPos a out = Kzg.longDivLoop b bPos diff aPos a out := by
  intro diff
  induction diff with
  | zero => intro aPos a out; rfl
  | succ d ih => intro aPos a out; simp only [longDivLoop, Kzg.longDivLoop, frDiv_eq, bind_ok, ih]

theorem longDiv_eq (a b : List F) (ha : a ≠ []) (hlead : b.getD (b.length - 1) 0 ≠ 0) :
    longDiv a b = Kzg.longDiv a b := by
  have hal : 0 < a.length := List.length_pos_iff.mpr ha
  have hb : b ≠ [] := by rintro rfl; simp at hlead
  have hbl : 0 < b.length := List.length_pos_iff.mpr hb
  unfold longDiv Kzg.longDiv
  rw [if_neg (by simpa using hb), if_neg (by simpa using hb), subU_of_le hal, bind_ok, subU_of_le hbl, bind_ok,
    bind_ok, rd_getD 0 (by omega), bind_ok, if_neg hlead]
  simp only
  split
  · rfl
  · next h =>
    have hle : b.length ≤ a.length := by
      by_contra hc
      rw [polyQuotientLength, if_neg (by omega)] at h
      exact h rfl
    rw [bind_ok, bind_ok, subU_of_le (by omega), bind_ok,
      show ((((a.length - 1 : Nat) : Int) - ((b.length - 1 : Nat) : Int)).toNat) = a.length - 1 - (b.length - 1) by
        omega]
    simp only [longDivLoop_eq, frDiv_eq, bind_ok,
      rd_getD 0 (show b.length - Nat.succ 0 < b.length by omega)]

theorem longDiv_empty (a : List F) : longDiv a [] = .err "Can't divide by zero" := by simp [longDiv]

theorem longDiv_nil (b : List F) (hb : b ≠ []) : longDiv [] b = .panic := by
  unfold longDiv
  rw [if_neg (by simpa using hb)]
  rfl

/-! ## Normalisation -/

theorem polyNormLen_le (a : List F) : ∀ n, polyNormLen a n ≤ n := by
  intro n
  induction n with
  | zero => exact le_rfl
  | succ n ih =>
    rw [polyNormLen]
    split
    · omega
    · exact le_rfl

theorem polyNormLen_zero (a : List F) : ∀ n i, polyNormLen a n ≤ i → i < n → a.getD i 0 = 0 := by
  intro n
  induction n with
  | zero => intro i _ h; omega
  | succ n ih =>
    intro i h1 h2
    rw [polyNormLen] at h1
    split at h1
    · next h =>
      by_cases hi : i = n
      · rw [hi]; exact h
      · exact ih i h1 (by omega)
    · omega

theorem polyNormLen_ne (a : List F) : ∀ n, polyNormLen a n ≠ 0 → a.getD (polyNormLen a n - 1) 0 ≠ 0 := by
  intro n
  induction n with
  | zero => intro h; exact absurd rfl h
  | succ n ih =>
    intro h
    rw [polyNormLen] at h ⊢
    split
    · next h' => rw [if_pos h'] at h; exact ih h
    · next h' => exact h'

theorem polyNorm_eq (a : List F) : polyNorm a = a.take (polyNormLen a a.length) := by
  unfold polyNorm
  simp only
  split
  · next h => rw [h, List.take_zero]
  · rfl

theorem polyNorm_length (a : List F) : (polyNorm a).length = polyNormLen a a.length := by
  rw [polyNorm_eq, List.length_take]
  exact min_eq_left (polyNormLen_le a _)

theorem polyNorm_getD (a : List F) (i : Nat) : (polyNorm a).getD i 0 = a.getD i 0 := by
  by_cases h : i < polyNormLen a a.length
  · rw [polyNorm_eq, List.getD_eq_getElem?_getD, List.getElem?_take, if_pos h, ← List.getD_eq_getElem?_getD]
  · rw [List.getD_eq_default _ _ (by rw [polyNorm_length]; omega)]
    by_cases hi : i < a.length
    · exact (polyNormLen_zero a _ i (by omega) hi).symm
    · rw [List.getD_eq_default _ _ (by omega)]

theorem polyOf_polyNorm (a : List F) : polyOf (polyNorm a) = polyOf a :=
  polyOf_congr (polyNorm_getD a)

theorem polyNorm_lead (a : List F) (h : polyNorm a ≠ []) :
    (polyNorm a).getD ((polyNorm a).length - 1) 0 ≠ 0 := by
  have h0 : polyNormLen a a.length ≠ 0 := by
    intro h'
    apply h
    rw [polyNorm_eq, h', List.take_zero]
  rw [polyNorm_getD, polyNorm_length]
  exact polyNormLen_ne a _ h0

theorem polyNorm_nil_iff (a : List F) : polyNorm a = [] ↔ polyOf a = 0 := by
  constructor
  · intro h; rw [← polyOf_polyNorm, h, polyOf_nil]
  · intro h
    by_contra hc
    have := (natDegree_of_lead hc (polyNorm_lead a hc)).2
    rw [polyOf_polyNorm] at this
    exact this h

theorem polyNorm_natDegree (a : List F) (h : polyOf a ≠ 0) :
    (polyNorm a).length = (polyOf a).natDegree + 1 := by
  have hc : polyNorm a ≠ [] := fun h' => h ((polyNorm_nil_iff a).1 h')
  have := (natDegree_of_lead hc (polyNorm_lead a hc)).1
  rw [polyOf_polyNorm] at this
  have hl := List.length_pos_iff.mpr hc
  omega

theorem polyNorm_self {a : List F} (h : a = [] ∨ a.getD (a.length - 1) 0 ≠ 0) : polyNorm a = a := by
  rcases h with rfl | h
  · rfl
  · have hne : a ≠ [] := by rintro rfl; simp at h
    obtain ⟨h1, h2⟩ := natDegree_of_lead hne h
    have hl := List.length_pos_iff.mpr hne
    have := polyNorm_natDegree a h2
    rw [polyNorm_eq, ← polyNorm_length, this, h1, List.take_of_length_le (by omega)]

/-! ## Division by a linear factor -/

omit [DecidableEq F] in
theorem polyOf_cons (c : F) (p : List F) : polyOf (c :: p) = C c + X * polyOf p := by
  ext i
  rw [coeff_polyOf, coeff_add, coeff_C]
  cases i with
  | zero => simp
  | succ i => simp [coeff_X_mul, coeff_polyOf]

/-- The Horner values from the top. -/
def horner (z : F) : List F → List F
  | [] => []
  | c :: p => (c + z * (horner z p).headD 0) :: horner z p

omit [DecidableEq F] in
theorem ruffiniLoop_append (z : F) (l m : List F) (st : List F × F) :
    ruffiniLoop z (l ++ m) st = ruffiniLoop z m (ruffiniLoop z l st) := by
  induction l generalizing st with
  | nil => rfl
  | cons c l ih => obtain ⟨q, k⟩ := st; simp only [List.cons_append, ruffiniLoop, ih]

omit [DecidableEq F] in
theorem ruffiniLoop_horner (z : F) (p : List F) :
    ruffiniLoop z p.reverse ([], 0) = ((horner z p).reverse, z * (horner z p).headD 0) := by
  induction p with
  | nil => simp [ruffiniLoop, horner]
  | cons c p ih => simp [ruffiniLoop_append, ih, ruffiniLoop, horner]

omit [DecidableEq F] in
theorem horner_spec (z : F) (p : List F) :
    polyOf (horner z p).tail * (X - C z) + C ((horner z p).headD 0) = polyOf p := by
  induction p with
  | nil => simp [horner, polyOf_nil]
  | cons c p ih =>
    rw [polyOf_cons, ← ih]
    simp only [horner, List.tail_cons, List.headD_cons]
    have : polyOf (horner z p) = C ((horner z p).headD 0) + X * polyOf (horner z p).tail := by
      cases h : horner z p with
      | nil => simp [polyOf_nil]
      | cons a l => simp [polyOf_cons]
    rw [this, C_add, C_mul]
    ring

theorem dropZeros_last (l : List F) (c : F) (h : (dropZeros l).head? = some c) : c ≠ 0 := by
  induction l with
  | nil => simp [dropZeros] at h
  | cons a l ih =>
    rw [dropZeros] at h
    split at h
    · exact ih h
    · next h' => simp at h; rwa [← h]

theorem dropZeros_getD (l : List F) :
    ∃ n, l = List.replicate n 0 ++ dropZeros l := by
  induction l with
  | nil => exact ⟨0, by simp [dropZeros]⟩
  | cons a l ih =>
    rw [dropZeros]
    split
    · next h =>
      obtain ⟨n, hn⟩ := ih
      exact ⟨n + 1, by rw [List.replicate_succ, List.cons_append, ← hn, h]⟩
    · exact ⟨0, by simp⟩

omit [DecidableEq F] in
theorem polyOf_append_zeros (l : List F) (n : Nat) : polyOf (l ++ List.replicate n 0) = polyOf l := by
  apply polyOf_congr
  intro i
  rw [List.getD_eq_getElem?_getD, List.getD_eq_getElem?_getD, List.getElem?_append]
  split
  · rfl
  · next h =>
    rw [List.getElem?_eq_none (l := l) (by omega), List.getElem?_replicate]
    split <;> rfl

theorem fromCoefficientsVec_spec (l : List F) :
    Sat (fromCoefficientsVec l) (fun q => polyOf q = polyOf l ∧ q.getLast? ≠ some 0) := by
  unfold fromCoefficientsVec
  simp only
  have hlast : ∀ c, (dropZeros l.reverse).reverse.getLast? = some c → c ≠ 0 := by
    intro c hc
    rw [List.getLast?_reverse] at hc
    exact dropZeros_last _ _ hc
  rw [if_pos (by
    cases h : (dropZeros l.reverse).reverse.getLast? with
    | none => rfl
    | some c => simpa using hlast c h)]
  refine Sat.ok ⟨?_, fun h => hlast 0 h rfl⟩
  obtain ⟨n, hn⟩ := dropZeros_getD l.reverse
  have : l = (dropZeros l.reverse).reverse ++ List.replicate n 0 := by
    have := congrArg List.reverse hn
    rwa [List.reverse_reverse, List.reverse_append, List.reverse_replicate] at this
  conv_rhs => rw [this]
  rw [polyOf_append_zeros]

theorem isZero_iff (p : List F) : isZero p = true ↔ polyOf p = 0 := by
  unfold isZero
  constructor
  · intro h
    ext i
    rw [coeff_polyOf, coeff_zero]
    by_cases hi : i < p.length
    · rw [Bool.or_eq_true] at h
      rcases h with h | h
      · have : p = [] := by simpa using h
        rw [this]; rfl
      · rw [List.getD_eq_getElem _ _ hi]
        have := (List.all_eq_true.1 h) _ (List.getElem_mem hi)
        simpa using this
    · rw [List.getD_eq_default _ _ (by omega)]
  · intro h
    rw [Bool.or_eq_true]
    right
    rw [List.all_eq_true]
    intro c hc
    obtain ⟨i, hi, rfl⟩ := List.mem_iff_getElem.1 hc
    have := coeff_polyOf p i
    rw [h, coeff_zero, List.getD_eq_getElem _ _ hi] at this
    simpa using this.symm

theorem degree_ok {p : List F} (h : polyOf p = 0 ∨ p.getLast? ≠ some 0) :
    degree p = .ok (polyOf p).natDegree := by
  unfold degree
  by_cases hz : polyOf p = 0
  · rw [if_pos ((isZero_iff p).2 hz), hz, natDegree_zero]
  · rw [if_neg (fun h' => hz ((isZero_iff p).1 h'))]
    have hne : p ≠ [] := by rintro rfl; exact hz polyOf_nil
    have hl := List.length_pos_iff.mpr hne
    have hc := h.resolve_left hz
    rw [List.getLast?_eq_getElem?, List.getElem?_eq_getElem (by omega)] at hc
    rw [List.getLast?_eq_getElem?, List.getElem?_eq_getElem (by omega)]
    have hc' : p[p.length - 1]'(by omega) ≠ 0 := fun e => hc (by rw [e])
    rw [Option.elim_some, if_pos (by simpa using hc'), subU_of_le hl]
    rw [(natDegree_of_lead hne (by rw [List.getD_eq_getElem _ _ (by omega)]; exact hc')).1]

theorem degree_panic {p : List F} (h0 : polyOf p ≠ 0) (h : p.getLast? = some 0) : degree p = .panic := by
  unfold degree
  rw [if_neg (fun h' => h0 ((isZero_iff p).1 h')), h]
  simp

theorem ruffini_spec (p : List F) (z : F) (h : polyOf p = 0 ∨ p.getLast? ≠ some 0) :
    Sat (ruffini p z) (fun q => polyOf q = polyOf p / (X - C z) ∧ q.getLast? ≠ some 0) := by
  unfold ruffini
  rw [degree_ok h, bind_ok, ruffiniLoop_horner]
  simp only
  have ht : ((horner z p).reverse.dropLast.reverse) = (horner z p).tail := by
    rw [List.dropLast_eq_take, List.reverse_take, List.reverse_reverse]
    simp
    by_cases hl : (horner z p).length = 0
    · rw [List.length_eq_zero_iff.mp hl]; rfl
    · rw [show (horner z p).length - ((horner z p).length - 1) = 1 by omega, List.drop_one]
  rw [ht]
  refine Sat.mono (fromCoefficientsVec_spec _) ?_
  rintro q ⟨h1, h2⟩
  refine ⟨?_, h2⟩
  rw [h1]
  refine quotient_unique (X_sub_C_ne_zero z) ?_
  rw [← horner_spec z p, add_sub_cancel_left, degree_X_sub_C]
  exact degree_C_lt

theorem ruffini_panic {p : List F} (z : F) (h0 : polyOf p ≠ 0) (h : p.getLast? = some 0) :
    ruffini p z = .panic := by
  unfold ruffini
  rw [degree_panic h0 h, bind_panic]

end Basic

section FFTBased
variable {F : Type} [Field F] [DecidableEq F] [FrTable F] [LawfulFr F]

omit [FrTable F] [LawfulFr F] in
theorem mulPointwise_eq (a b : List F) (n : Nat) : mulPointwise a b n = Kzg.mulPointwise a b n := by
  unfold mulPointwise Kzg.mulPointwise
  congr 1
  funext i s
  congr 1
  funext x
  congr 1
  funext y
  cases wr s i (x * y) with
  | ok v => rw [bind_ok, if_pos (mul_comm x y)]
  | err e => rfl
  | panic => rfl

omit [LawfulFr F] in
theorem mulFft_eq (n : Nat) (a b : List F) : mulFft n a b = Kzg.mulFft a b n := by
  unfold mulFft Kzg.mulFft
  simp only [pad_eq, polyPad_spec, bind_ok, mulPointwise_eq]
  have h : ∀ (ab : List F) (k : Nat), (do
      let _ ← sliceTo (List.replicate n (0 : F)) k
      let src ← sliceTo ab k
      Res.ok (src ++ (List.replicate n (0 : F)).drop k)) = (do
      let src ← sliceTo ab k
      let _ ← sliceTo (List.replicate n (0 : F)) k
      Res.ok (src ++ (List.replicate n (0 : F)).drop k)) := by
    intro ab k
    unfold sliceTo
    split <;> split <;> rfl
  simp only [h]

omit [LawfulFr F] in
theorem polyMul_eq (a b : List F) (n : Nat) : polyMul a b n = Kzg.polyMul a b n := by
  unfold polyMul Kzg.polyMul
  rw [mulFft_eq]

omit [LawfulFr F] in
theorem invLoop_eq (a : List F) (n maxd mask : Nat) : ∀ (d : Nat) (ret : List F),
    invLoop a n maxd mask d ret = Kzg.invLoop a n maxd mask d ret := by
  induction mask using Nat.strongRecOn with
  | ind mask ih =>
    intro d ret
    unfold invLoop Kzg.invLoop
    split
    · rfl
    · next h =>
      have hlt : mask >>> 1 < mask := by
        simp only [Nat.shiftRight_eq_div_pow, Nat.pow_one]; omega
      simp only [polyMul_eq, ih _ hlt]

omit [LawfulFr F] in
theorem polyInverse_unwrap (a : List F) (n : Nat) (hn : 0 < n) :
    (polyInverse a n).unwrap = (Kzg.polyInverse a n).unwrap := by
  unfold polyInverse Kzg.polyInverse
  rw [if_neg (by omega : ¬ n = 0)]
  split
  · rfl
  · next h =>
    have ha : 0 < a.length := List.length_pos_iff.mpr (by simpa using h)
    rw [rd_getD 0 ha, bind_ok, bind_ok]
    split
    · rfl
    · next h0 =>
      simp only
      rw [frInv_of_ne h0, bind_ok, wr_of_lt (by simpa using hn), bind_ok]
      split
      · rfl
      · rw [subU_of_le (by omega), bind_ok, bind_ok, bind_ok, wr_of_lt (by simpa using hn), bind_ok, invLoop_eq]
        cases Kzg.invLoop a n (n - 1) (1 <<< log2U64 (n - 1)) 0 ((List.replicate n 0).set 0 (a.getD 0 0)⁻¹) with
        | ok v =>
          rw [bind_ok, bind_ok]
          split <;> rfl
        | err e => rfl
        | panic => rfl

omit [LawfulFr F] in
theorem polyInverse_of_ok {a : List F} {n : Nat} {r : List F} (hn : 0 < n)
    (h : Kzg.polyInverse a n = .ok r) : polyInverse a n = .ok r := by
  have := polyInverse_unwrap a n hn
  rw [h] at this
  cases h' : polyInverse a n with
  | ok v => rw [h'] at this; exact this
  | err e => rw [h'] at this; cases this
  | panic => rw [h'] at this; cases this

omit [LawfulFr F] in
theorem polyInverse_zero (a : List F) (c : F) (h0 : a[0]? = some c) (hc : c ≠ 0) : polyInverse a 0 = .panic := by
  have hne : a ≠ [] := by rintro rfl; simp at h0
  unfold polyInverse
  rw [if_neg (by simpa using hne), rd_of_getElem? h0, bind_ok, if_neg hc]
  simp only
  split
  · rw [frInv_of_ne hc, bind_ok]; rfl
  · rfl

theorem fastDiv_eq (a b : List F) (ha : a ≠ []) (hlead : b.getD (b.length - 1) 0 ≠ 0) (hlen : 2 * a.length ≤ 2 ^ 31) :
    fastDiv a b = Kzg.longDiv a b := by
  have hal : 0 < a.length := List.length_pos_iff.mpr ha
  have hb : b ≠ [] := by rintro rfl; simp at hlead
  have hbl : 0 < b.length := List.length_pos_iff.mpr hb
  rw [← Kzg.fastDiv_eq a b ha hb hlead hlen]
  unfold fastDiv Kzg.fastDiv
  rw [if_neg (by simpa using hb), if_neg (by simpa using hb), subU_of_le hal, subU_of_le hbl]
  simp only [bind_ok]
  rw [rd_getD (l := b) (i := b.length - Nat.succ 0) 0 (by omega), bind_ok, if_neg hlead]
  split
  · rfl
  · simp only [frDiv_eq, bind_ok, polyFlip_eq, polyFlip_spec, unwrap_ok, polyMul_eq]
    split
    · rfl
    · rw [subU_of_le (by omega), bind_ok, bind_ok, polyInverse_unwrap _ _ (by omega)]

omit [LawfulFr F] in
theorem fastDiv_nil (b : List F) (hb : b ≠ []) : fastDiv [] b = .panic := by
  unfold fastDiv
  rw [if_neg (by simpa using hb)]
  rfl

theorem polyDiv_eq (a b : List F) (ha : polyOf a ≠ 0) (hb : polyOf b ≠ 0)
    (hlen : (polyOf a).natDegree < 2 ^ 30) : polyDiv a b = Kzg.longDiv (polyNorm a) (polyNorm b) := by
  have hna : polyNorm a ≠ [] := fun h => ha ((polyNorm_nil_iff a).1 h)
  have hnb : polyNorm b ≠ [] := fun h => hb ((polyNorm_nil_iff b).1 h)
  have hl := polyNorm_natDegree a ha
  unfold polyDiv
  simp only
  split
  · exact longDiv_eq _ _ hna (polyNorm_lead b hnb)
  · exact fastDiv_eq _ _ hna (polyNorm_lead b hnb) (by omega)

/-- Division of nonzero polynomials: the Euclidean quotient. -/
theorem polyDiv_spec (a b : List F) (ha : polyOf a ≠ 0) (hb : polyOf b ≠ 0)
    (hlen : (polyOf a).natDegree < 2 ^ 30) :
    Sat (polyDiv a b) (fun q => polyOf q = polyOf a / polyOf b ∧
      q.length = (polyOf a).natDegree + 1 - (polyOf b).natDegree) := by
  have hnb : polyNorm b ≠ [] := fun h => hb ((polyNorm_nil_iff b).1 h)
  rw [polyDiv_eq a b ha hb hlen]
  refine Sat.mono (longDiv_div _ _ hnb (polyNorm_lead b hnb)) ?_
  rintro q ⟨hl, hq⟩
  rw [polyOf_polyNorm, polyOf_polyNorm] at hq
  rw [polyNorm_natDegree a ha, polyNorm_natDegree b hb] at hl
  exact ⟨hq, by omega⟩

omit [LawfulFr F] in
theorem polyDiv_zero (a b : List F) (hb : polyOf b = 0) : polyDiv a b = .err "Can't divide by zero" := by
  unfold polyDiv
  simp only
  rw [(polyNorm_nil_iff b).2 hb, if_pos (Or.inr (by simp)), longDiv_empty]

omit [LawfulFr F] in
theorem polyDiv_of_zero (a b : List F) (ha : polyOf a = 0) (hb : polyOf b ≠ 0) : polyDiv a b = .panic := by
  have hnb : polyNorm b ≠ [] := fun h => hb ((polyNorm_nil_iff b).1 h)
  unfold polyDiv
  simp only
  rw [(polyNorm_nil_iff a).2 ha, if_pos (Or.inl (by simp)), longDiv_nil _ hnb]

end FFTBased
end Kzg.ZkP
