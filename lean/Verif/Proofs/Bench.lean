import Verif.Model.Bench
import Verif.Proofs.BitRev
import Verif.Props.Utils
import Verif.Proofs.Settings
import Verif.Proofs.PolyOf
import Mathlib.LinearAlgebra.Lagrange
/-!
# The shared tests: what makes them pass
-/

set_option linter.unusedSectionVars false

namespace Kzg.Bench
open Kzg Kzg.Res Kzg.Props Polynomial

variable {F P : Type} [Field F] [DecidableEq F]

theorem assertT_true {b : Bool} (h : b = true) : assertT b = .ok () := by rw [assertT, if_pos h]

theorem each_ok {n : Nat} {body : Nat → Res Unit} (h : ∀ i < n, body i = .ok ()) : each n body = .ok () := by
  obtain ⟨u, hu, -⟩ := forRange_inv (lo := 0) (hi := n) (s := ()) (body := fun i _ => body i) (fun _ _ => True)
    (by omega) trivial (fun i _ _ hi _ => ⟨(), h i hi, trivial⟩)
  exact hu

theorem tab_ok {α : Type} {n : Nat} {f : Nat → Res α} {g : Nat → α} (h : ∀ i < n, f i = .ok (g i)) :
    tab n f = .ok ((List.range n).map g) := by
  obtain ⟨v, hv, e⟩ := forRange_inv (lo := 0) (hi := n) (s := ([] : List α))
    (body := fun i v => do let x ← f i; .ok (v ++ [x])) (fun i v => v = (List.range i).map g) (by omega) (by simp)
    (fun i v _ hi e => ⟨v ++ [g i], by rw [h i hi, bind_ok], by rw [e, List.range_succ, List.map_append]; rfl⟩)
  rw [← e]
  exact hv

/-- What the settings of an interface are: roots of unity and the transform. -/
structure Base (A : Api F P) (ω : F) (scale : Nat) : Prop where
  lt : scale < 32
  width : A.maxWidth = 2 ^ scale
  prim : IsPrimitiveRoot ω (2 ^ scale)
  root : ∀ i ≤ 2 ^ scale, A.rootAt i = .ok (ω ^ i)
  fft : ∀ k ≤ scale, ∀ l : List F, l.length = 2 ^ k → ∃ r, A.fft l false = .ok r ∧ r.length = 2 ^ k ∧
    ∀ i < 2 ^ k, r[i]? = some ((polyOf l).eval ((ω ^ 2 ^ (scale - k)) ^ i))

theorem proofSingle_ok {A : Api F P} {p : List F} {x v : F} {com π : P} (h1 : A.commit p = .ok com)
    (h2 : A.single p x = .ok π) (h3 : A.eval p x = .ok v) (h4 : A.checkSingle com π x v = .ok true)
    (h5 : A.checkSingle com π x (v + 1) = .ok false) : proofSingle A p x = .ok () := by
  unfold proofSingle
  rw [h1, unwrap, bind_ok, h2, unwrap, bind_ok, h3, bind_ok, h4, unwrap, bind_ok, assertT_true rfl, bind_ok]
  show ((A.checkSingle com π x (v + 1)).unwrap >>= fun b => assertT (!b)) = .ok ()
  rw [h5, unwrap, bind_ok]; rfl

/-! ### Multi-point proofs -/

/-- A list of values at a coset with one of them changed: they are those of another polynomial, which differs at every secret outside
the coset. -/
theorem bumped {ω x s : F} {n k : Nat} (hn : 0 < n) (hω : IsPrimitiveRoot ω n) (hx0 : x ≠ 0) (hk : k < n) (I : F[X])
    (hI : I.degree < (n : Nat)) (hs : s ^ n ≠ x ^ n) :
    ∃ J : F[X], J.degree < (n : Nat) ∧ (∀ i < n, J.eval (x * ω ^ i) = I.eval (x * ω ^ i) + if i = k then 1 else 0) ∧
      J.eval s ≠ I.eval s := by
  classical
  have hinj : Set.InjOn (fun i => x * ω ^ i) (Finset.range n) := by
    intro i hi j hj e
    exact hω.pow_inj (Finset.mem_range.1 hi) (Finset.mem_range.1 hj) (mul_left_cancel₀ hx0 e)
  refine ⟨I + Lagrange.interpolate (Finset.range n) (fun i => x * ω ^ i) (fun i => if i = k then 1 else 0), ?_, ?_, ?_⟩
  · refine (degree_add_le _ _).trans_lt (max_lt hI ?_)
    have := Lagrange.degree_interpolate_lt (r := fun i => if i = k then (1 : F) else 0) hinj
    rwa [Finset.card_range] at this
  · intro i hi
    rw [eval_add, Lagrange.eval_interpolate_at_node _ hinj (Finset.mem_range.2 hi)]
  · rw [eval_add]
    intro h
    have h0 : eval s (Lagrange.interpolate (Finset.range n) (fun i => x * ω ^ i) (fun i => if i = k then (1 : F) else 0)) = 0 := by
      linear_combination h
    set D := Lagrange.interpolate (Finset.range n) (fun i => x * ω ^ i) (fun i => if i = k then (1 : F) else 0) with hD
    have hDd : D.degree < (n : Nat) := by
      have := Lagrange.degree_interpolate_lt (r := fun i => if i = k then (1 : F) else 0) hinj
      rwa [Finset.card_range] at this
    have hDv : ∀ i < n, D.eval (x * ω ^ i) = if i = k then 1 else 0 := fun i hi =>
      Lagrange.eval_interpolate_at_node _ hinj (Finset.mem_range.2 hi)
    have hns : ∀ i, s ≠ x * ω ^ i := by
      rintro i rfl
      apply hs
      rw [mul_pow, ← pow_mul, mul_comm i, pow_mul, hω.pow_eq_one, one_pow, mul_one]
    have hz : D = 0 := by
      apply eq_zero_of_degree_lt_of_eval_finset_eq_zero
        (insert s (((Finset.range n).erase k).image fun i => x * ω ^ i))
      · rw [Finset.card_insert_of_notMem, Finset.card_image_of_injOn, Finset.card_erase_of_mem (Finset.mem_range.2 hk),
          Finset.card_range]
        · rwa [show n - 1 + 1 = n by omega]
        · exact hinj.mono (by intro i hi; exact Finset.mem_of_mem_erase hi)
        · intro hm
          obtain ⟨i, -, e⟩ := Finset.mem_image.1 hm
          exact hns i e.symm
      · intro y hy
        rcases Finset.mem_insert.1 hy with rfl | hy
        · exact h0
        · obtain ⟨i, hi, rfl⟩ := Finset.mem_image.1 hy
          obtain ⟨h1, h2⟩ := Finset.mem_erase.1 hi
          rw [hDv i (Finset.mem_range.1 h2), if_neg h1]
    have := hDv k hk
    rw [hz, eval_zero, if_pos rfl] at this
    exact one_ne_zero this.symm

theorem proofMulti_ok {A1 A2 : Api F P} {ω : F} {scale n k : Nat} (hb : Base A2 ω scale) (hn : n = 2 ^ scale) (hk : k < n)
    {p : List F} (he : ∀ x, A2.eval p x = .ok ((polyOf p).eval x)) {x : F} {com π : P} (h1 : A1.commit p = .ok com) (h2 : A2.multi p x n = .ok π)
    (h4 : A2.checkMulti com π x ((List.range n).map fun i => (polyOf p).eval (x * ω ^ i)) n = .ok true)
    (h5 : A2.checkMulti com π x ((List.range n).map fun i => (polyOf p).eval (x * ω ^ i) + if i = k then 1 else 0) n =
      .ok false) : proofMulti A1 A2 p x n k = .ok () := by
  unfold proofMulti
  rw [h1, unwrap, bind_ok, h2, unwrap, bind_ok, tab_ok (g := fun i => (polyOf p).eval (x * ω ^ i)) (fun i hi => by
    rw [hb.root i (by omega), bind_ok, he]), bind_ok, h4, unwrap, bind_ok, assertT_true rfl, bind_ok,
    rd_of_getElem? (x := (polyOf p).eval (x * ω ^ k)) (by rw [List.getElem?_map, List.getElem?_range hk]; rfl), bind_ok,
    wr_of_lt (by simpa using hk), bind_ok]
  have e : ((List.range n).map fun i => (polyOf p).eval (x * ω ^ i)).set k ((polyOf p).eval (x * ω ^ k) + 1) =
      (List.range n).map fun i => (polyOf p).eval (x * ω ^ i) + if i = k then 1 else 0 := by
    apply List.ext_getElem?
    intro i
    rw [List.getElem?_set, List.getElem?_map, List.getElem?_map]
    by_cases hi : i < n
    · rw [List.getElem?_range hi]
      by_cases hik : k = i
      · subst hik
        simp [hi]
      · simp [hik, Ne.symm hik]
    · rw [List.getElem?_eq_none (by simp; omega)]
      simp only [Option.map_none]
      rw [if_neg (by omega)]
  rw [e, h5, unwrap, bind_ok]; rfl

/-- Where the outcome of a check depends on the value of the interpolated polynomial at the secret, and for at most one such value the
check accepts, one changed value is rejected. -/
theorem bumped_rejected {A : Api F P} {com π : P} {x s ω : F} {n k : Nat} (hn : 0 < n) (hω : IsPrimitiveRoot ω n) (hx0 : x ≠ 0)
    (hk : k < n) (hs : s ^ n ≠ x ^ n) (T : F → Prop) (hT : ∀ a b, T a → T b → a = b)
    (acc : ∀ (I : F[X]) (ys : List F), I.degree < (n : Nat) → ys.length = n → (∀ i < n, ys[i]? = some (I.eval (x * ω ^ i))) →
      (A.checkMulti com π x ys n = .ok true ∨ A.checkMulti com π x ys n = .ok false) ∧
      (A.checkMulti com π x ys n = .ok true ↔ T (I.eval s)))
    {p : List F} (h4 : A.checkMulti com π x ((List.range n).map fun i => (polyOf p).eval (x * ω ^ i)) n = .ok true) :
    A.checkMulti com π x ((List.range n).map fun i => (polyOf p).eval (x * ω ^ i) + if i = k then 1 else 0) n =
      .ok false := by
  classical
  have hinj : Set.InjOn (fun i => x * ω ^ i) (Finset.range n) := by
    intro i hi j hj e
    exact hω.pow_inj (Finset.mem_range.1 hi) (Finset.mem_range.1 hj) (mul_left_cancel₀ hx0 e)
  obtain ⟨I, hI, hIv⟩ : ∃ I : F[X], I.degree < (n : Nat) ∧ ∀ i < n, I.eval (x * ω ^ i) = (polyOf p).eval (x * ω ^ i) := by
    refine ⟨Lagrange.interpolate (Finset.range n) (fun i => x * ω ^ i) (fun i => (polyOf p).eval (x * ω ^ i)), ?_, fun i hi => ?_⟩
    · have := Lagrange.degree_interpolate_lt (r := fun i => (polyOf p).eval (x * ω ^ i)) hinj
      rwa [Finset.card_range] at this
    · rw [Lagrange.eval_interpolate_at_node _ hinj (Finset.mem_range.2 hi)]
  obtain ⟨J, hJ, hJv, hne⟩ := bumped hn hω hx0 hk I hI hs
  have h1 := (acc I _ hI (by simp) (by
    intro i hi
    rw [List.getElem?_map, List.getElem?_range hi, Option.map_some, hIv i hi])).2.1 h4
  obtain ⟨h2 | h2, h3⟩ := acc J ((List.range n).map fun i => (polyOf p).eval (x * ω ^ i) + if i = k then 1 else 0) hJ (by simp) (by
    intro i hi
    rw [List.getElem?_map, List.getElem?_range hi, Option.map_some, hJv i hi, hIv i hi])
  · exact absurd (hT _ _ (h3.1 h2) h1) hne
  · exact h2

/-! ### Amortised proofs -/

theorem reverseBitsLimited_ones {k i : Nat} (hk : 0 < k) (h : k ≤ 64) :
    reverseBitsLimited (2 ^ k - 1) i = .ok (reverseBits k i) := by
  have e : leadingZeros (2 ^ k - 1) = 64 - k := by
    have h1 : 2 ^ 1 ≤ 2 ^ k := Nat.pow_le_pow_right (by omega) hk
    rw [leadingZeros, bitLen, if_neg (by omega)]
    have : Nat.log2 (2 ^ k - 1) = k - 1 := by
      rw [Nat.log2_eq_iff (by omega)]
      have h2 : 2 ^ (k - 1 + 1) = 2 ^ (k - 1) * 2 := pow_succ _ _
      have h3 : 0 < 2 ^ (k - 1) := by positivity
      rw [show k - 1 + 1 = k by omega] at h2 ⊢
      omega
    omega
  rw [reverseBitsLimited, e, if_pos (by omega), reverseBits_shift h]

theorem reverseBitsLimited_pow {k i : Nat} (h : k < 64) :
    reverseBitsLimited (2 ^ k) i = .ok (reverseBits (k + 1) i) := by
  have e := leadingZeros_two_pow h
  rw [reverseBitsLimited, show leadingZeros (2 ^ k) = 64 - (k + 1) by omega, if_pos (by omega), reverseBits_shift (by omega)]

theorem isBitReversal_self (k i : Nat) : IsBitReversal k i (reverseBits k i) :=
  ⟨reverseBits_lt k i, fun b hb => by rw [testBit_reverseBits]; simp [hb]⟩

theorem reverseBits_concat {a b x y : Nat} (hy : y < 2 ^ b) :
    reverseBits (a + b) (2 ^ b * x + y) = 2 ^ a * reverseBits b y + reverseBits a x := by
  apply Nat.eq_of_testBit_eq
  intro j
  rw [Nat.testBit_two_pow_mul_add _ (reverseBits_lt a x), testBit_reverseBits, testBit_reverseBits, testBit_reverseBits,
    Nat.testBit_two_pow_mul_add _ hy]
  by_cases h1 : j < a
  · rw [if_pos h1, if_neg (by omega)]
    simp only [h1, show j < a + b by omega, decide_true, Bool.true_and]
    congr 1; omega
  · rw [if_neg h1]
    by_cases h2 : j < a + b
    · rw [if_pos (by omega)]
      simp only [h2, show j - a < b by omega, decide_true, Bool.true_and]
      congr 1; omega
    · simp [h2, show ¬ j - a < b by omega]

/-- The proofs come in bit-reversed order and are accepted. -/
def Reversed (A : Api F P) (com : P) (ω : F) (k : Nat) (p : List F) (out : List P) : Prop :=
  ∀ j < 2 ^ k, ∃ r π, IsBitReversal k j r ∧ out[r]? = some π ∧
    A.checkSingle com π (ω ^ j) ((polyOf p).eval (ω ^ j)) = .ok true

theorem checkReversed_ok {A : Api F P} {ω : F} {scale m : Nat} (hb : Base A ω scale) (hm : m < scale) {p : List F}
    (he : ∀ x, A.eval p x = .ok ((polyOf p).eval x)) (hp : p.length = 2 ^ m) {com : P} {out : List P}
    (h : Reversed A com (ω ^ 2 ^ (scale - (m + 1))) (m + 1) p out) :
    checkReversed A com p out (2 ^ (scale - (m + 1))) = .ok () := by
  have hlt := hb.lt
  have h2 : 2 * p.length = 2 ^ (m + 1) := by rw [hp, pow_succ, mul_comm]
  unfold checkReversed
  rw [h2]
  refine each_ok fun i hi => ?_
  obtain ⟨r, π, hr, hπ, hc⟩ := h i hi
  have hle : i * 2 ^ (scale - (m + 1)) ≤ 2 ^ scale := by
    calc i * 2 ^ (scale - (m + 1)) ≤ 2 ^ (m + 1) * 2 ^ (scale - (m + 1)) := Nat.mul_le_mul_right _ (by omega)
      _ = 2 ^ scale := by rw [← pow_add]; congr 1; omega
  rw [hb.root _ hle, bind_ok, he, bind_ok, subU_of_le (Nat.one_le_two_pow), bind_ok,
    reverseBitsLimited_ones (by omega) (by omega), bind_ok,
    C32_reversal_unique (isBitReversal_self (m + 1) i) hr, rd_of_getElem? hπ, bind_ok, mul_comm i, pow_mul, hc, unwrap, bind_ok,
    assertT_true (by rfl)]

theorem fkSingleStrided_ok {A : Api F P} {ω : F} {scale m : Nat} (hb : Base A ω scale) (hm : m < scale)
    {da : List F → Res (List P)} {p : List F} (he : ∀ x, A.eval p x = .ok ((polyOf p).eval x))
    (hp : p.length = 2 ^ m) {com : P} {out : List P} (h1 : A.commit p = .ok com)
    (h2 : da p = .ok out) (h : Reversed A com (ω ^ 2 ^ (scale - (m + 1))) (m + 1) p out) :
    fkSingleStrided A da p = .ok () := by
  have h0 : 2 * p.length = 2 ^ (m + 1) := by rw [hp, pow_succ, mul_comm]
  unfold fkSingleStrided
  rw [h0, divU, if_neg (by positivity), bind_ok, h1, unwrap, bind_ok, h2, unwrap, bind_ok, hb.width,
    Nat.pow_div (by omega) (by omega)]
  exact checkReversed_ok hb hm he hp h

theorem fkSingle_ok {A : Api F P} {ω : F} {m : Nat} (hb : Base A ω (m + 1))
    {da daOpt : List F → Res (List P)} {p : List F} (he : ∀ x, A.eval p x = .ok ((polyOf p).eval x))
    (hp : p.length = 2 ^ m) {com : P} {out proofs : List P}
    (h1 : A.commit p = .ok com) (h2 : da p = .ok out) (h3 : daOpt p = .ok proofs) (h : Reversed A com ω (m + 1) p out)
    (h' : ∀ j < 2 ^ (m + 1), ∃ π, proofs[j]? = some π ∧
      A.checkSingle com π (ω ^ j) ((polyOf p).eval (ω ^ j)) = .ok true) :
    fkSingle A da daOpt p = .ok () := by
  have h0 : 2 * p.length = 2 ^ (m + 1) := by rw [hp, pow_succ, mul_comm]
  have hc := checkReversed_ok (com := com) (out := out) hb (by omega) he hp (by rwa [Nat.sub_self, pow_zero, pow_one])
  rw [Nat.sub_self, pow_zero] at hc
  unfold fkSingle
  rw [h1, unwrap, bind_ok, h2, unwrap, bind_ok, hc, bind_ok, h3, unwrap, bind_ok, h0]
  refine each_ok fun i hi => ?_
  obtain ⟨π, hπ, hck⟩ := h' i hi
  rw [hb.root i hi.le, bind_ok, he, bind_ok, rd_of_getElem? hπ, bind_ok, hck, unwrap, bind_ok, assertT_true (by rfl)]

theorem fkMulti_ok {A : Api F P} {ω : F} {scale m c : Nat} (hb : Base A ω scale) (hm : m + c < scale)
    {da : List F → Res (List P)} {p : List F} (he : ∀ x, A.eval p x = .ok ((polyOf p).eval x))
    (hp : p.length = 2 ^ (m + c)) {com : P} {out : List P} (h1 : A.commit p = .ok com)
    (h2 : da p = .ok out)
    (h : ∀ j < 2 ^ (m + 1), ∃ r π, IsBitReversal (m + 1) j r ∧ out[r]? = some π ∧
      A.checkMulti com π ((ω ^ 2 ^ (scale - (m + c + 1))) ^ j) ((List.range (2 ^ c)).map fun i =>
        (polyOf p).eval ((ω ^ 2 ^ (scale - (m + c + 1))) ^ j * (ω ^ 2 ^ (scale - c)) ^ i)) (2 ^ c) = .ok true) :
    fkMulti A da p (2 ^ c) = .ok () := by
  have hlt := hb.lt
  set w := ω ^ 2 ^ (scale - (m + c + 1)) with hw
  have hwc : ∀ i, w ^ (2 ^ (m + 1) * i) = (ω ^ 2 ^ (scale - c)) ^ i := by
    intro i
    rw [pow_mul w, hw, ← pow_mul ω, ← pow_add, show scale - (m + c + 1) + (m + 1) = scale - c by omega]
  have h0 : 2 * p.length = 2 ^ (m + c + 1) := by rw [hp, pow_succ, mul_comm]
  have hext : (p ++ List.replicate p.length (0 : F)).length = 2 ^ (m + c + 1) := by simp [← two_mul, h0]
  have hpo : polyOf (p ++ List.replicate p.length (0 : F)) = polyOf p := by
    ext i
    rw [coeff_polyOf, coeff_polyOf]
    by_cases hi : i < p.length
    · simp [List.getD_eq_getElem?_getD, List.getElem?_append_left hi]
    · rw [List.getD_eq_getElem?_getD, List.getD_eq_getElem?_getD, List.getElem?_append_right (by omega),
        List.getElem?_eq_none (l := p) (by omega), List.getElem?_replicate]
      split <;> rfl
  obtain ⟨e, hft, hel, hev⟩ := hb.fft (m + c + 1) (by omega) _ hext
  obtain ⟨r, hr, hrl, hrv⟩ := reverseBitOrder_spec e (m + c + 1) (by omega) hel
  have hdiv : p.length / 2 ^ c = 2 ^ m := by rw [hp, pow_add, Nat.mul_div_cancel _ (by positivity)]
  have hcl : 2 ^ c ≤ p.length := by rw [hp]; exact Nat.pow_le_pow_right (by omega) (by omega)
  unfold fkMulti
  simp only []
  rw [assertT_true (by rw [decide_eq_true_iff]; exact ⟨hcl, by positivity⟩), bind_ok, h1, unwrap, bind_ok, h2, unwrap, bind_ok, hft,
    unwrap, bind_ok, hr, bind_ok, hdiv, ← pow_succ']
  refine each_ok fun pos hpos => ?_
  have hd : reverseBits (m + 1) pos < 2 ^ (m + 1) := reverseBits_lt _ _
  obtain ⟨r', π, hr', hπ, hck⟩ := h _ hd
  have hpos' : r' = pos := by
    rw [C32_reversal_unique hr' (isBitReversal_self (m + 1) _), reverseBits_invol hpos]
  subst hpos'
  have hval : ∀ i < 2 ^ c, r[2 ^ c * r' + reverseBits c i]? =
      some ((polyOf p).eval (w ^ reverseBits (m + 1) r' * (ω ^ 2 ^ (scale - c)) ^ i)) := by
    intro i hi
    have hi' := reverseBits_lt c i
    have hlt' : 2 ^ c * r' + reverseBits c i < 2 ^ (m + c + 1) := by
      calc 2 ^ c * r' + reverseBits c i < 2 ^ c * (r' + 1) := by rw [mul_add, mul_one]; omega
        _ ≤ 2 ^ c * 2 ^ (m + 1) := Nat.mul_le_mul_left _ hpos
        _ = 2 ^ (m + c + 1) := by rw [← pow_add]; congr 1; omega
    rw [hrv _ hlt', show m + c + 1 = (m + 1) + c by omega, reverseBits_concat hi', reverseBits_invol hi,
      hev _ (by
        rw [← reverseBits_invol hi, ← reverseBits_concat hi', show m + 1 + c = m + c + 1 by omega]
        exact reverseBits_lt _ _), hpo, ← hw, pow_add, hwc, mul_comm]
  have hroot : reverseBits (m + 1) r' * 2 ^ (scale - (m + c + 1)) ≤ 2 ^ scale := by
    calc reverseBits (m + 1) r' * 2 ^ (scale - (m + c + 1)) ≤ 2 ^ (m + c + 1) * 2 ^ (scale - (m + c + 1)) :=
          Nat.mul_le_mul_right _ (hd.le.trans (Nat.pow_le_pow_right (by omega) (by omega)))
      _ = 2 ^ scale := by rw [← pow_add]; congr 1; omega
  have hroot2 : ∀ i < 2 ^ c, i * 2 ^ (scale - c) ≤ 2 ^ scale := by
    intro i hi
    calc i * 2 ^ (scale - c) ≤ 2 ^ c * 2 ^ (scale - c) := Nat.mul_le_mul_right _ hi.le
      _ = 2 ^ scale := by rw [← pow_add]; congr 1; omega
  have hget : ∀ i < 2 ^ c, rd r (2 ^ c * r' + i) =
      .ok ((polyOf p).eval (w ^ reverseBits (m + 1) r' * (ω ^ 2 ^ (scale - c)) ^ reverseBits c i)) := by
    intro i hi
    have := hval (reverseBits c i) (reverseBits_lt c i)
    rw [reverseBits_invol hi] at this
    exact rd_of_getElem? this
  obtain ⟨ys, hys, hysl, hysv⟩ := reverseBitOrder_spec ((List.range (2 ^ c)).map fun i =>
    (polyOf p).eval (w ^ reverseBits (m + 1) r' * (ω ^ 2 ^ (scale - c)) ^ reverseBits c i)) c (by omega) (by simp)
  have hyseq : ys = (List.range (2 ^ c)).map fun i =>
      (polyOf p).eval (w ^ reverseBits (m + 1) r' * (ω ^ 2 ^ (scale - c)) ^ i) := by
    apply List.ext_getElem?
    intro i
    by_cases hi : i < 2 ^ c
    · rw [hysv i hi, List.getElem?_map, List.getElem?_map, List.getElem?_range hi, List.getElem?_range (reverseBits_lt c i)]
      simp only [Option.map_some, reverseBits_invol hi]
    · rw [List.getElem?_eq_none (by omega), List.getElem?_eq_none (by simp; omega)]
  unfold fkMultiStep
  simp only []
  rw [h0, hb.width, Nat.pow_div (by omega) (by omega), hdiv, reverseBitsLimited_pow (by omega), bind_ok, hb.root _ hroot, bind_ok,
    tab_ok hget, bind_ok, hys, bind_ok, hyseq, mul_comm (reverseBits _ _), pow_mul, ← hw, Nat.pow_div (by omega) (by omega),
    tab_ok (g := fun i => (polyOf p).eval (w ^ reverseBits (m + 1) r' * (ω ^ 2 ^ (scale - c)) ^ i)) (fun i hi => by
      rw [hb.root _ (hroot2 i hi), bind_ok, he, mul_comm i, pow_mul]), bind_ok,
    each_ok (fun i hi => by
      rw [rd_of_getElem? (x := (polyOf p).eval (w ^ reverseBits (m + 1) r' * (ω ^ 2 ^ (scale - c)) ^ i)) (by
        rw [List.getElem?_map, List.getElem?_range hi]; rfl), bind_ok, bind_ok, assertT_true (by simp)]), bind_ok,
    rd_of_getElem? hπ, bind_ok, hck, unwrap, bind_ok, assertT_true (by rfl)]

end Kzg.Bench
