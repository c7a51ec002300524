import Verif.Proofs.BenchPoly
import Verif.Props.InteropPoly
/-!
# Properties C181, C182: the shared tests of polynomials
-/

set_option linter.unusedSectionVars false

namespace Kzg.Props
open Kzg Kzg.Res Kzg.Bench Kzg.Zk Kzg.Zk.ScW Kzg.Iface Polynomial

/-- What the tests of polynomials need of a backend. -/
structure PolyGood {F : Type} [Field F] [DecidableEq F] (T : PolyTrait F) : Prop where
  plain : Plain T
  cast : ∀ c : Int, c ≠ 0 → |c| < 2 ^ 31 → (c : F) ≠ 0
  mul : ∀ (a b : List F) (n : Nat), Lead a → Lead b → 1 ≤ n → a.length + b.length ≤ 2 ^ 30 + 1 →
    T.mulDirect a b n = .ok ((List.range n).map (polyOf a * polyOf b).coeff) ∧
    T.mulFft a b n none = .ok ((List.range n).map (polyOf a * polyOf b).coeff)
  div : ∀ (a b : List F), Lead a → Lead b → a.length ≤ 2 ^ 29 → ∃ q, T.longDiv a b = .ok q ∧ T.fastDiv a b = .ok q ∧
    T.div a b = .ok q ∧ q.length = a.length + 1 - b.length ∧ polyOf q = polyOf a / polyOf b
  inverse : ∀ (a : List F) (n : Nat), a ≠ [] → a.getD 0 0 ≠ 0 → 1 ≤ n → a.length + n ≤ 2 ^ 29 → ∃ q, T.inverse a n = .ok q ∧
    q.length = n ∧ ∀ k < n, (polyOf a * polyOf q).coeff k = if k = 0 then 1 else 0

theorem list_of_coeffs {F : Type} {out : List F} {n : Nat} {g : Nat → F} (hl : out.length = n) (h : ∀ k < n, out[k]? = some (g k)) :
    out = (List.range n).map g := by
  refine List.ext_getElem? fun j => ?_
  by_cases hj : j < n
  · rw [h j hj, List.getElem?_map, List.getElem?_range hj]; rfl
  · rw [List.getElem?_eq_none (by omega), List.getElem?_eq_none (by simp; omega)]

theorem coeff_of_modByMonic {F : Type} [Field F] {p : F[X]} {n : Nat} (h : p %ₘ (X ^ n) = 1 %ₘ (X ^ n)) :
    ∀ k < n, p.coeff k = if k = 0 then 1 else 0 := by
  intro k hk
  have hm : (X ^ n : F[X]).Monic := monic_X_pow n
  have hd : (X ^ n : F[X]) ∣ p - 1 := by
    rw [← modByMonic_eq_zero_iff_dvd hm, sub_modByMonic, h, sub_self]
  have := (X_pow_dvd_iff.1 hd) k hk
  rw [coeff_sub, sub_eq_zero] at this
  rw [this, coeff_one]

theorem head_of_getD {F : Type} [Field F] {a : List F} (ha : a ≠ []) : a[0]? = some (a.getD 0 0) := by
  have h0 : 0 < a.length := List.length_pos_iff.mpr ha
  rw [List.getD_eq_getElem _ _ h0, List.getElem?_eq_getElem h0]

theorem fr_cast {c : Int} (h0 : c ≠ 0) (h : |c| < 2 ^ 31) : (c : Fr) ≠ 0 := by
  rw [Ne, ZMod.intCast_zmod_eq_zero_iff_dvd]
  intro hd
  have := Int.le_of_dvd (abs_pos.2 h0) ((dvd_abs _ _).2 hd)
  have hr : (2 : Int) ^ 31 ≤ (frModulus : Int) := by norm_num [frModulus]
  omega

theorem sc_cast {c : Int} (h0 : c ≠ 0) (h : |c| < 2 ^ 31) : (c : ScW) ≠ 0 := by
  intro e
  refine fr_cast h0 h ?_
  have := congrArg elHom e
  rwa [map_intCast, map_zero] at this

theorem blst_polyGood : PolyGood blstPoly where
  plain := ⟨fun _ => rfl, fun _ _ => rfl, fun _ _ _ => rfl, fun _ => rfl⟩
  cast := fun _ h0 h => fr_cast h0 h
  mul := by
    intro a b n ha hb hn hlen
    obtain ⟨out, h, hl, hc⟩ := C09_mul_direct a b ha.1 hb.1 n
    obtain ⟨-, -, h3⟩ := C10_mul_agree a b ha.1 hb.1 (by omega) n none
    obtain rfl := list_of_coeffs hl hc
    exact ⟨h, h3.trans h⟩
  div := by
    intro a b ha hb hlen
    obtain ⟨q, h, hl, hq⟩ := longDiv_div a b hb.1 hb.2
    have h2 := C13_fast_div a b ha.1 _ hb.last hb.2 (by omega)
    have h3 := C13_div a b (by omega)
    exact ⟨q, h, h2.trans h, h3.trans h, hl, hq⟩
  inverse := by
    intro a n ha h0 hn hlen
    obtain ⟨q, h, hl, hq⟩ := C11_inverse a n hn _ (head_of_getD ha) h0 (by omega) (by omega)
    exact ⟨q, h, hl, coeff_of_modByMonic hq⟩

theorem zk_polyGood : PolyGood (zkPoly (F := ScW)) where
  plain := ⟨fun _ => rfl, fun _ _ => rfl, fun _ _ _ => rfl, fun _ => rfl⟩
  cast := fun _ h0 h => sc_cast h0 h
  mul := by
    intro a b n ha hb hn hlen
    obtain ⟨out, -, -, h3, h, hl, hc⟩ := C63_mul a b ha.1 hb.1 (by omega) n none
    obtain rfl := list_of_coeffs hl hc
    exact ⟨h, h3⟩
  div := by
    intro a b ha hb hlen
    obtain ⟨q, h, hl, hq⟩ := longDiv_div a b hb.1 hb.2
    have h1 := ZkP.longDiv_eq a b ha.1 hb.2
    have h2 := ZkP.fastDiv_eq a b ha.1 hb.2 (by omega)
    have hda := natDegree_of_lead ha.1 ha.2
    have hdb := natDegree_of_lead hb.1 hb.2
    have hla : 0 < a.length := List.length_pos_iff.mpr ha.1
    have hlb : 0 < b.length := List.length_pos_iff.mpr hb.1
    obtain ⟨q', h3, hq', hl'⟩ := ZkP.polyDiv_spec a b ha.ne hb.ne (by omega)
    obtain rfl : q' = q := polyOf_inj (by omega) (hq'.trans hq.symm)
    exact ⟨q', h1.trans h, h2.trans h, h3, hl, hq⟩
  inverse := by
    intro a n ha h0 hn hlen
    obtain ⟨q, h, hl, hq⟩ := C64_inverse a n hn _ (head_of_getD ha) h0 (by omega) (by omega)
    exact ⟨q, h, hl, coeff_of_modByMonic hq⟩

theorem ark_polyGood : PolyGood arkPoly where
  plain := ⟨fun _ => rfl, fun _ _ => rfl, fun _ _ _ => rfl, fun _ => rfl⟩
  cast := fun _ h0 h => fr_cast h0 h
  mul := by
    intro a b n ha hb hn hlen
    refine ⟨C117_mul_direct_partial a b ha.mem hb.mem n, C117_mul_fft a b none n ha.1 hb.1 hn ?_ ?_⟩
    · omega
    · intro fs h; cases h
  div := by
    intro a b ha hb hlen
    obtain ⟨q, h, hq, hl⟩ := C118_long_division a b hb.mem
    have hda := natDegree_of_lead ha.1 ha.2
    have hdb := natDegree_of_lead hb.1 hb.2
    have hla : 0 < a.length := List.length_pos_iff.mpr ha.1
    have hlb : 0 < b.length := List.length_pos_iff.mpr hb.1
    obtain ⟨q', h2, hl', hq'⟩ := C118_fast_div_partial a b ha.mem hb.1 hb.2 (by omega)
    have hlen' : q.length = a.length + 1 - b.length := by
      by_cases hc : a.length < b.length
      · have hz : polyOf q = 0 := by
          rw [hq, Polynomial.div_eq_zero_iff hb.ne]
          exact degree_lt_degree (by omega)
        rcases hl with rfl | hl
        · simp; omega
        · by_contra hne
          exact (natDegree_of_lead (by rintro rfl; simp at hl) hl).2 hz
      · have hd : (polyOf q).natDegree = a.length - b.length := by
          have hdeg : (polyOf b).degree ≤ (polyOf a).degree := by
            rw [degree_eq_natDegree ha.ne, degree_eq_natDegree hb.ne]
            exact_mod_cast (by omega)
          have h3 := degree_add_div hb.ne hdeg
          have h4 : polyOf a / polyOf b ≠ 0 := by
            rw [Ne, Polynomial.div_eq_zero_iff hb.ne, not_lt]; exact hdeg
          rw [degree_eq_natDegree ha.ne, degree_eq_natDegree hb.ne, degree_eq_natDegree h4] at h3
          have h5 : (polyOf b).natDegree + (polyOf a / polyOf b).natDegree = (polyOf a).natDegree := by exact_mod_cast h3
          rw [hq]; omega
        have hne : polyOf q ≠ 0 := by
          rw [hq, Ne, Polynomial.div_eq_zero_iff hb.ne, not_lt, degree_eq_natDegree ha.ne, degree_eq_natDegree hb.ne]
          exact_mod_cast (by omega)
        rcases hl with rfl | hl
        · exact absurd polyOf_nil hne
        · have hqn : q ≠ [] := by rintro rfl; simp at hl
          have := (natDegree_of_lead hqn hl).1
          have : 0 < q.length := List.length_pos_iff.mpr hqn
          omega
    obtain rfl : q' = q := polyOf_inj (by omega) (hq'.trans hq.symm)
    refine ⟨q', h, h2, ?_, hl', hq'⟩
    show Ark.polyDiv a b = _
    unfold Ark.polyDiv
    split
    · exact h
    · exact h2
  inverse := by
    intro a n ha h0 hn hlen
    exact C118_inverse_partial a n hn ha h0 (.inr (by omega))

variable [Mcl.Lib Fr]

theorem mcl_polyGood : PolyGood mclPoly where
  plain := ⟨fun _ => rfl, fun _ _ => rfl, fun _ _ _ => rfl, fun _ => rfl⟩
  cast := fun _ h0 h => fr_cast h0 h
  mul := by
    intro a b n ha hb hn hlen
    have hla : 0 < a.length := List.length_pos_iff.mpr ha.1
    refine ⟨C99_mul_direct a b n, C99_mul_fft_partial a b none n (by omega) (by omega) ?_⟩
    intro fs h; cases h
  div := by
    intro a b ha hb hlen
    obtain ⟨q, h, hl, hq, -⟩ := C100_long_division a b hb.1 hb.2
    have h2 := C100_fast_div_partial a b hb.1 hb.2 (.inr (by have := List.length_pos_iff.mpr hb.1; omega))
    have hdb := natDegree_of_lead hb.1 hb.2
    have hlb : 0 < b.length := List.length_pos_iff.mpr hb.1
    obtain ⟨q', h3, hl', hq'⟩ := C100_div_partial a b hb.ne (by omega)
    obtain rfl : q' = q := polyOf_inj (by omega) (hq'.trans hq.symm)
    exact ⟨q', h, h2.trans h, h3, hl, hq⟩
  inverse := by
    intro a n ha h0 hn hlen
    exact C101_inverse_partial a n hn ha h0 (by omega)

/-- A statement about the polynomials of each of the four backends. -/
def InAll (P : ∀ (F : Type) [Field F] [DecidableEq F], PolyTrait F → Prop) : Prop :=
  P Fr blstPoly ∧ P ScW zkPoly ∧ P Fr mclPoly ∧ P Fr arkPoly

theorem inAll {P : ∀ (F : Type) [Field F] [DecidableEq F], PolyTrait F → Prop}
    (h : ∀ (F : Type) [Field F] [DecidableEq F] (T : PolyTrait F), PolyGood T → P F T) : InAll P :=
  ⟨h _ _ blst_polyGood, h _ _ zk_polyGood, h _ _ mcl_polyGood, h _ _ ark_polyGood⟩

/-! ### C181: the random tests -/

/-- C181 (multiplication, partial): a round of `poly_mul_random` passes in all four backends, whatever coefficients are drawn and for all
lengths from 1 with at most `2^30 + 1` coefficients together; the test draws lengths up to 1000. Missing: longer operands, with which it
fails in mcl-kzg (`C181_mul_random_mcl_long`). -/
theorem C181_mul_random_partial {m n out : Nat} (hm : 1 ≤ m) (hn : 1 ≤ n) (ho : 1 ≤ out) (h : m + n ≤ 2 ^ 30 + 1) :
    InAll fun F _ _ T => ∀ x y : Nat → F, mulRandom T m n out x y = .ok () := by
  refine inAll fun F _ _ T hT x y => ?_
  obtain ⟨a, b, la, lb, La, Lb, -, -, hr⟩ := mulRandom_cases hT.plain (out := out) hm hn x y
  obtain ⟨h0, h1⟩ := hT.mul a b out La Lb ho (by omega)
  exact (hr _ _ h0 h1).1 rfl

/-- C181 (division, partial): a round of `poly_div_random` passes in all four backends, whatever coefficients are drawn and for all lengths
from 1 of the divisor and from 1 to `2^29` of the dividend; the test draws lengths up to 1001. Missing: longer dividends, with which it
fails in mcl-kzg (`C181_div_random_mcl_long`). -/
theorem C181_div_random_partial {m n : Nat} (hm : 1 ≤ m) (hn : 1 ≤ n) (h : m ≤ 2 ^ 29) :
    InAll fun F _ _ T => ∀ x y : Nat → F, divRandom T m n x y = .ok () := by
  refine inAll fun F _ _ T hT x y => ?_
  obtain ⟨a, b, la, lb, La, Lb, hr⟩ := divRandom_cases hT.plain hm hn x y
  obtain ⟨q, h0, h1, -⟩ := hT.div a b La Lb (by omega)
  exact (hr _ _ h0 h1).1 rfl

/-- C181 (no coefficients): with an empty operand a round of either test fails in every backend, before the method is called. -/
theorem C181_random_empty {m n out : Nat} (h : m = 0 ∨ n = 0) :
    InAll fun F _ _ T => ∀ x y : Nat → F, mulRandom T m n out x y = .panic ∧ divRandom T m n x y = .panic :=
  inAll fun _ _ _ _ hT x y => random_empty hT.plain h x y

/-- C181 (no result): with a result of no coefficients a round of `poly_mul_random` passes in blst-from-scratch and zkcrypto and fails in
mcl-kzg and Arkworks, whose transforms take the length less one. -/
theorem C181_mul_random_no_output {m n : Nat} (hm : 1 ≤ m) (hn : 1 ≤ n) (h : m + n ≤ 2 ^ 30 + 1) (x y : Nat → Fr) (x' y' : Nat → ScW) :
    mulRandom blstPoly m n 0 x y = .ok () ∧ mulRandom zkPoly m n 0 x' y' = .ok () ∧
    mulRandom mclPoly m n 0 x y = .panic ∧ mulRandom arkPoly m n 0 x y = .panic := by
  refine ⟨?_, ?_, ?_, ?_⟩
  · obtain ⟨a, b, la, lb, La, Lb, -, -, hr⟩ := mulRandom_cases blst_polyGood.plain (out := 0) hm hn x y
    obtain ⟨out, h0, -⟩ := C09_mul_direct a b La.1 Lb.1 0
    obtain ⟨-, -, h3⟩ := C10_mul_agree a b La.1 Lb.1 (by omega) 0 none
    exact (hr _ _ h0 (h3.trans h0)).1 rfl
  · obtain ⟨a, b, la, lb, La, Lb, -, -, hr⟩ := mulRandom_cases zk_polyGood.plain (out := 0) hm hn x' y'
    obtain ⟨out, -, -, h1, h0, -⟩ := C63_mul a b La.1 Lb.1 (by omega) 0 none
    exact (hr _ _ h0 h1).1 rfl
  · exact mulRandom_panics mcl_polyGood.plain hm hn x y fun a b _ _ _ _ =>
      ⟨⟨_, (C99_mul_fft_empty none 0 a b (.inl rfl)).2⟩, (C99_mul_fft_empty none 0 a b (.inl rfl)).1⟩
  · exact mulRandom_panics ark_polyGood.plain hm hn x y fun a b _ _ La Lb =>
      ⟨⟨_, C117_mul_direct_partial a b La.mem Lb.mem 0⟩, C117_mul_fft_empty a b none 0 (.inl rfl)⟩

theorem fr_eq_neg {x : Fr} (h : x = -x) : x = 0 := by
  have h2 : (2 : Fr) * x = 0 := by linear_combination h
  rcases mul_eq_zero.1 h2 with h | h
  · exact absurd h (by decide +kernel)
  · exact h

/-- C181 (long operands of mcl-kzg): with more than `2^30 + 1` coefficients that count, a round of `poly_mul_random` fails in mcl-kzg
whenever the first coefficients drawn are not zero: the product with transforms comes out negated. -/
theorem C181_mul_random_mcl_long {m n out : Nat} (hm : 1 ≤ m) (hn : 1 ≤ n) (h0 : 2 ^ 30 + 1 < min m out + min n out)
    (h1 : min m out + min n out ≤ 2 ^ 31 + 1) {x y : Nat → Fr} (hx : x 0 ≠ 0) (hy : y 0 ≠ 0) : mulRandom mclPoly m n out x y = .panic := by
  obtain ⟨a, b, la, lb, La, Lb, fa, fb, hr⟩ := mulRandom_cases mcl_polyGood.plain (out := out) hm hn x y
  refine (hr _ _ (C99_mul_direct a b out) (C99_mul_fft_negated a b out (by omega) (by omega))).2 (by simp) fun e => ?_
  have h2 := congrArg (fun l => l.getD 0 0) e
  have ho : 0 < out := by omega
  simp only [List.getD_eq_getElem?_getD, List.getElem?_map, List.getElem?_range ho, Option.map_some, Option.getD_some] at h2
  have h3 := fr_eq_neg h2
  rw [mul_coeff_zero, coeff_polyOf, coeff_polyOf, fa hx, fb hy] at h3
  exact (mul_ne_zero hx hy) h3

/-- C181 (long dividends of mcl-kzg): with a divisor of 64 coefficients or more and more than `2^29` coefficients of the quotient, a round
of `poly_div_random` fails in mcl-kzg whatever coefficients are drawn: the quotient of `fast_div` comes out negated. -/
theorem C181_div_random_mcl_long {m n : Nat} (hn : 64 ≤ n) (h1 : 2 ^ 29 < m + 1 - n) (h2 : m + 1 - n + (m + 1 - n) / 2 ≤ 2 ^ 30)
    (x y : Nat → Fr) : divRandom mclPoly m n x y = .panic := by
  obtain ⟨a, b, la, lb, La, Lb, hr⟩ := divRandom_cases mcl_polyGood.plain (m := m) (n := n) (by omega) (by omega) x y
  obtain ⟨q, hq, hf⟩ := C100_fast_div_negated a b (by omega) Lb.2 (by omega) (by omega)
  obtain ⟨q', hq', -, hd, -⟩ := C100_long_division a b Lb.1 Lb.2
  obtain rfl : q' = q := Res.ok.inj (hq'.symm.trans hq)
  refine (hr _ _ hq hf).2 (by simp) fun e => ?_
  have hda := natDegree_of_lead La.1 La.2
  have hdb := natDegree_of_lead Lb.1 Lb.2
  have hne : polyOf q' ≠ 0 := by
    rw [hd, Ne, Polynomial.div_eq_zero_iff Lb.ne, not_lt, degree_eq_natDegree La.ne, degree_eq_natDegree Lb.ne]
    exact_mod_cast (by omega)
  refine hne (Polynomial.ext fun k => ?_)
  have h3 := congrArg (fun l => l.getD k 0) e
  simp only [List.getD_eq_getElem?_getD, List.getElem?_map] at h3
  rw [coeff_polyOf, coeff_zero, List.getD_eq_getElem?_getD]
  rcases hk : q'[k]? with _ | c
  · rfl
  · rw [hk] at h3
    exact fr_eq_neg h3

/-- The lengths that the tests draw. -/
example {m n out : Nat} (hm : 1 ≤ m ∧ m ≤ 1000) (hn : 1 ≤ n ∧ n ≤ 1000) (ho : 1 ≤ out ∧ out ≤ 1000) :
    InAll fun F _ _ T => ∀ x y : Nat → F, mulRandom T m n out x y = .ok () :=
  C181_mul_random_partial hm.1 hn.1 ho.1 (by omega)

example {m n : Nat} (hm : 2 ≤ m ∧ m ≤ 1001) (hn : 1 ≤ n ∧ n ≤ m) : InAll fun F _ _ T => ∀ x y : Nat → F, divRandom T m n x y = .ok () :=
  C181_div_random_partial (by omega) hn.1 (by omega)

example : mulRandom mclPoly (2 ^ 29 + 1) (2 ^ 29 + 1) (2 ^ 30) (fun _ => 1) (fun _ => 1) = .panic :=
  C181_mul_random_mcl_long (by norm_num) (by norm_num) (by norm_num) (by norm_num) one_ne_zero one_ne_zero

example : divRandom mclPoly (2 ^ 29 + 64) 64 (fun _ => 1) (fun _ => 1) = .panic :=
  C181_div_random_mcl_long (by norm_num) (by norm_num) (by norm_num) _ _

/-! ### C182: the tests with fixed values -/

/-- C182 (new): a new polynomial has the length asked for, whatever it is; the test asks for 10. -/
theorem C182_create (n : Nat) : InAll fun _ _ _ T => createPoly T n = .ok () :=
  inAll fun _ _ _ _ hT => createPoly_ok hT.plain n

/-- C182 (evaluation at one, partial): `poly_eval_check` passes for every number of coefficients in mcl-kzg and Arkworks, and for every number but
one in blst-from-scratch and zkcrypto, where it fails; the test takes 10. Missing: that number. -/
theorem C182_eval_check_partial (n : Nat) :
    (n ≠ 1 → InAll fun _ _ _ T => evalCheck T n = .ok ()) ∧
    evalCheck blstPoly 1 = .panic ∧ evalCheck (zkPoly (F := ScW)) 1 = .panic ∧ evalCheck mclPoly 1 = .ok () ∧ evalCheck arkPoly 1 = .ok () := by
  have hm : ∀ n, evalCheck mclPoly n = .ok () := fun n => by
    rw [evalCheck_of mcl_polyGood.plain (r := .ok ((n * (n + 1) / 2 : Nat) : Fr)), bind_ok]
    · exact assertT_true (beq_self_eq_true _)
    · exact congrArg Res.ok (by rw [C99_eval, ← eval_polyOf, ramp_list_eval])
  have ha : ∀ n, evalCheck arkPoly n = .ok () := fun n => by
    rw [evalCheck_of ark_polyGood.plain (r := .ok ((n * (n + 1) / 2 : Nat) : Fr)), bind_ok]
    · exact assertT_true (beq_self_eq_true _)
    · exact congrArg Res.ok (by rw [C117_eval, ← eval_polyOf, ramp_list_eval])
  refine ⟨fun hn => ⟨?_, ?_, hm n, ha n⟩, ?_, ?_, hm 1, ha 1⟩
  · beta_reduce
    rw [evalCheck_of blst_polyGood.plain (r := .ok ((n * (n + 1) / 2 : Nat) : Fr)), bind_ok]
    · exact assertT_true (beq_self_eq_true _)
    · rw [← ramp_list_eval]
      exact polyEval_spec _ _ (.inl (by simpa using hn))
  · beta_reduce
    rw [evalCheck_of zk_polyGood.plain (r := .ok ((n * (n + 1) / 2 : Nat) : ScW)), bind_ok]
    · exact assertT_true (beq_self_eq_true _)
    · rw [← ramp_list_eval]
      exact polyEval_spec _ _ (.inl (by simpa using hn))
  · have h : blstPoly.eval ((List.range 1).map fun i => ((i + 1 : Nat) : Fr)) 1 = .panic := polyEval_one_panic (((0 + 1 : Nat)) : Fr) 1 one_ne_zero
    rw [evalCheck_of blst_polyGood.plain h]; rfl
  · have h : zkPoly.eval ((List.range 1).map fun i => ((i + 1 : Nat) : ScW)) 1 = .panic := polyEval_one_panic (((0 + 1 : Nat)) : ScW) 1 one_ne_zero
    rw [evalCheck_of zk_polyGood.plain h]; rfl

/-- C182 (evaluation at zero): `poly_eval_0_check` passes in every backend for every positive number of coefficients and every first
coefficient; the test takes 7 and 597. -/
theorem C182_eval_zero_check {n : Nat} (hn : 1 ≤ n) (a : Nat) : InAll fun _ _ _ T => evalZeroCheck T n a = .ok () := by
  refine ⟨?_, ?_, ?_, ?_⟩
  · beta_reduce
    rw [evalZeroCheck_of blst_polyGood.plain (v := (a : Fr))]
    · exact assertT_true (beq_self_eq_true _)
    · rw [← shifted_list_eval hn]
      exact polyEval_spec _ _ (.inr rfl)
  · beta_reduce
    rw [evalZeroCheck_of zk_polyGood.plain (v := (a : ScW))]
    · exact assertT_true (beq_self_eq_true _)
    · rw [← shifted_list_eval hn]
      exact polyEval_spec _ _ (.inr rfl)
  · beta_reduce
    rw [evalZeroCheck_of mcl_polyGood.plain (v := (a : Fr))]
    · exact assertT_true (beq_self_eq_true _)
    · exact congrArg Res.ok (by rw [C99_eval, ← eval_polyOf, shifted_list_eval hn])
  · beta_reduce
    rw [evalZeroCheck_of ark_polyGood.plain (v := (a : Fr))]
    · exact assertT_true (beq_self_eq_true _)
    · exact congrArg Res.ok (by rw [C117_eval, ← eval_polyOf, shifted_list_eval hn])

/-- C182 (no coefficients): the polynomial without coefficients is zero at one, in every backend. -/
theorem C182_eval_nil : InAll fun _ _ _ T => evalNilCheck T = .ok () := by
  refine ⟨?_, ?_, ?_, ?_⟩
  · have h : blstPoly.eval ([] : List Fr) 1 = .ok ((polyOf []).eval 1) := polyEval_spec [] 1 (.inl (by simp))
    show (do let v ← blstPoly.eval ([] : List Fr) 1; assertT (v == 0)) = _
    rw [h, bind_ok]; exact assertT_true (by simp [polyOf])
  · have h : zkPoly.eval ([] : List ScW) 1 = .ok ((polyOf []).eval 1) := polyEval_spec [] 1 (.inl (by simp))
    show (do let v ← zkPoly.eval ([] : List ScW) 1; assertT (v == 0)) = _
    rw [h, bind_ok]; exact assertT_true (by simp [polyOf])
  · show assertT (Mcl.evalAt ([] : List Fr) 1 == 0) = _
    exact assertT_true (by rw [C99_eval]; simp)
  · show assertT (Ark.polyEval ([] : List Fr) 1 == 0) = _
    exact assertT_true (by rw [C117_eval]; simp)

/-- C182 (inverse): `poly_inverse_simple_0` and `poly_inverse_simple_1` pass in every backend for every positive number of coefficients
below `2^29 - 1`; the tests take 16. -/
theorem C182_inverse_simple {d : Nat} (hd : 1 ≤ d) (h : d + 2 ≤ 2 ^ 29) :
    InAll fun _ _ _ T => inverseSimple0 T d = .ok () ∧ inverseSimple1 T d = .ok () := by
  refine inAll fun F _ _ T hT => ?_
  obtain ⟨q0, h0, l0, c0⟩ := hT.inverse [1, -1] d (by simp) (by simp) hd (by simp; omega)
  obtain ⟨q1, h1, l1, c1⟩ := hT.inverse [1, 1] d (by simp) (by simp) hd (by simp; omega)
  exact ⟨inverseSimple0_ok hT.plain h0 l0 c0, inverseSimple1_ok hT.plain h1 l1 c1⟩

/-- A list of `i32` with a nonzero last number; not the least `i32`, whose negation overflows in `new_test_poly`. -/
def I32Lead (a : List Int) : Prop := a ≠ [] ∧ a.getD (a.length - 1) 0 ≠ 0 ∧ ∀ c ∈ a, |c| < 2 ^ 31

theorem PolyGood.lead {F : Type} [Field F] [DecidableEq F] {T : PolyTrait F} (hT : PolyGood T) {a : List Int} (h : I32Lead a) :
    Lead (ints F a) := by
  have h0 : 0 < a.length := List.length_pos_iff.mpr h.1
  refine ⟨fun e => h.1 (List.map_eq_nil_iff.1 e), ?_⟩
  rw [ints_length, ints_getD]
  refine hT.cast _ h.2.1 (h.2.2 _ ?_)
  rw [List.getD_eq_getElem _ _ (by omega)]
  exact List.getElem_mem _

/-- C182 (division): a round of `poly_test_div`, `poly_div_long_test` or `poly_div_fast_test` whose two operands have a nonzero last
coefficient passes exactly when the expected list is the quotient. -/
theorem C182_div_case {a b : List Int} (ha : I32Lead a) (hb : I32Lead b) (e : List Int) (hlen : a.length ≤ 2 ^ 29) :
    InAll fun F _ _ T => ∀ div, div = T.div ∨ div = T.longDiv ∨ div = T.fastDiv →
      let right := e.length = a.length + 1 - b.length ∧ polyOf (ints F e) = polyOf (ints F a) / polyOf (ints F b)
      (right → divCase T div a b e = .ok ()) ∧ (¬ right → divCase T div a b e = .panic) := by
  refine inAll fun F _ _ T hT div hdiv => ?_
  obtain ⟨q, h0, h1, h2, hl, hq⟩ := hT.div _ _ (hT.lead ha) (hT.lead hb) (by rw [ints_length]; exact hlen)
  rw [ints_length, ints_length] at hl
  have h : div (ints F a) (ints F b) = .ok q := by rcases hdiv with rfl | rfl | rfl <;> assumption
  refine ⟨fun he => (divCase_cases hT.plain h).1 ?_, fun he => (divCase_cases hT.plain h).2 fun hc => he ⟨?_, ?_⟩⟩
  · exact polyOf_inj (by rw [ints_length, he.1, hl]) (he.2.trans hq.symm)
  · rw [← ints_length (F := F) e, hc, hl]
  · rw [hc, hq]

/-- C182 (the table): the first six rounds of the three tests of division pass in every backend with every method. -/
theorem C182_div_table : ∀ t ∈ divTable.take 6, InAll fun _ _ _ T => ∀ div, div = T.div ∨ div = T.longDiv ∨ div = T.fastDiv →
    divCase T div t.1 t.2.1 t.2.2 = .ok () := by
  intro t ht
  have hI : I32Lead t.1 ∧ I32Lead t.2.1 ∧ t.2.2.length = t.1.length + 1 - t.2.1.length ∧ t.1.length ≤ 2 ^ 29 := by
    simp only [divTable, List.take_succ_cons, List.take_zero, List.mem_cons, List.not_mem_nil, or_false] at ht
    rcases ht with rfl | rfl | rfl | rfl | rfl | rfl <;> simp [I32Lead]
  have key : ∀ (F : Type) [Field F] [DecidableEq F] (T : PolyTrait F), PolyGood T →
      polyOf (ints F t.2.2) = polyOf (ints F t.1) / polyOf (ints F t.2.1) := by
    intro F _ _ T hT
    have hb := (hT.lead hI.2.1).ne
    have exact_ : polyOf (ints F t.1) = polyOf (ints F t.2.2) * polyOf (ints F t.2.1) →
        polyOf (ints F t.2.2) = polyOf (ints F t.1) / polyOf (ints F t.2.1) := fun h => by
      rw [h, mul_div_cancel_right₀ _ hb]
    simp only [divTable, List.take_succ_cons, List.take_zero, List.mem_cons, List.not_mem_nil, or_false] at ht
    rcases ht with rfl | rfl | rfl | rfl | rfl | rfl
    · exact exact_ (by simp only [ints, List.map, ZkP.polyOf_cons, polyOf_nil, map_intCast]; push_cast; ring)
    · exact exact_ (by simp only [ints, List.map, ZkP.polyOf_cons, polyOf_nil, map_intCast]; push_cast; ring)
    · have ha := natDegree_of_lead (hT.lead hI.1).1 (hT.lead hI.1).2
      have hbd := natDegree_of_lead (hT.lead hI.2.1).1 (hT.lead hI.2.1).2
      have h0 : polyOf (ints F [1, 1]) / polyOf (ints F [-1, 0, 2]) = 0 := by
        rw [Polynomial.div_eq_zero_iff hb]
        exact degree_lt_degree (by rw [ha.1, hbd.1]; simp [ints])
      rw [h0]; exact polyOf_nil
    · exact exact_ (by simp only [ints, List.map, ZkP.polyOf_cons, polyOf_nil, map_intCast]; push_cast; ring)
    · exact exact_ (by simp only [ints, List.map, ZkP.polyOf_cons, polyOf_nil, map_intCast]; push_cast; ring)
    · exact exact_ (by simp only [ints, List.map, ZkP.polyOf_cons, polyOf_nil, map_intCast]; push_cast; ring)
  obtain ⟨h0, h1, h2, h3⟩ := C182_div_case hI.1 hI.2.1 t.2.2 hI.2.2.2
  exact ⟨fun d hd => (h0 d hd).1 ⟨hI.2.2.1, key _ _ blst_polyGood⟩, fun d hd => (h1 d hd).1 ⟨hI.2.2.1, key _ _ zk_polyGood⟩,
    fun d hd => (h2 d hd).1 ⟨hI.2.2.1, key _ _ mcl_polyGood⟩, fun d hd => (h3 d hd).1 ⟨hI.2.2.1, key _ _ ark_polyGood⟩⟩

/-- C182 (the entry left out): the tests stop before or skip the seventh entry of the table, whose divisor ends with a zero. With it they would fail in
blst-from-scratch with `div` and `long_div`, in mcl-kzg with `long_div` and `fast_div`, and in Arkworks with `fast_div`, which refuse such a
divisor. -/
theorem C182_div_seventh : divTable[6]? = some ([1, 1, 1], [1, 0], [1, 1, 1]) ∧
    divCase blstPoly blstPoly.div [1, 1, 1] [1, 0] [1, 1, 1] = .panic ∧ divCase blstPoly blstPoly.longDiv [1, 1, 1] [1, 0] [1, 1, 1] = .panic ∧
    divCase mclPoly mclPoly.longDiv [1, 1, 1] [1, 0] [1, 1, 1] = .panic ∧ divCase mclPoly mclPoly.fastDiv [1, 1, 1] [1, 0] [1, 1, 1] = .panic ∧
    divCase arkPoly arkPoly.fastDiv [1, 1, 1] [1, 0] [1, 1, 1] = .panic := by
  have hb : ints Fr [1, 0] = [1, 0] := by simp [ints]
  have hz : ints Fr [1, 0] = [] ∨ (ints Fr [1, 0]).getD ((ints Fr [1, 0]).length - 1) 0 = 0 := .inr (by rw [hb]; rfl)
  have hl : (ints Fr [1, 0]).getLast? = some 0 := by rw [hb]; rfl
  refine ⟨rfl, divCase_err blst_polyGood.plain ?_, divCase_err blst_polyGood.plain (C12_long_div_errors _ _ (.inr hl)),
    divCase_err mcl_polyGood.plain ((C100_rejects (ints Fr [1, 1, 1]) _).1.2 hz), divCase_err mcl_polyGood.plain ((C100_rejects (ints Fr [1, 1, 1]) _).2.1 hz),
    divCase_err ark_polyGood.plain (C118_fast_div_rejects _ _ hz)⟩
  obtain ⟨m, hm⟩ := C12_long_div_errors (ints Fr [1, 1, 1]) (ints Fr [1, 0]) (.inr hl)
  exact ⟨m, (C13_div _ _ (by simp [ints])).trans hm⟩

/-- C182 (division by zero): `poly_div_by_zero` passes in three backends whatever the dividend; in Arkworks it fails whatever the dividend,
and its test is marked `#[should_panic]`. -/
theorem C182_div_by_zero (a : List Int) (hlen : a.length ≤ 2 ^ 29) :
    divByZero blstPoly a = .ok () ∧ divByZero (zkPoly (F := ScW)) a = .ok () ∧ divByZero mclPoly a = .ok () ∧ divByZero arkPoly a = .panic := by
  refine ⟨?_, ?_, ?_, ?_⟩
  · obtain ⟨m, hm⟩ := C12_long_div_errors (ints Fr a) [] (.inl rfl)
    rw [divByZero_of blst_polyGood.plain, show blstPoly.div (ints Fr a) [] = .err m from
      (C13_div _ _ (by rw [ints_length]; omega)).trans hm]
  · obtain ⟨m, hm⟩ := C60_div_by_zero (ints ScW a) [] polyOf_nil
    rw [divByZero_of zk_polyGood.plain, show zkPoly.div (ints ScW a) [] = .err m from hm]
  · obtain ⟨m, hm⟩ := ((C100_rejects (ints Fr a) []).2.2 (by rw [ints_length]; exact hlen)).2 polyOf_nil
    rw [divByZero_of mcl_polyGood.plain, show mclPoly.div (ints Fr a) [] = .err m from hm]
  · have h : arkPoly.div (ints Fr a) [] = Ark.longDiv (ints Fr a) [] := if_pos (.inr (by simp))
    rw [divByZero_of ark_polyGood.plain, h]
    obtain ⟨h1, h2⟩ := C118_long_division_by_zero (ints Fr a) [] (by simp)
    by_cases hc : ∀ x ∈ ints Fr a, x = 0
    · rw [h1 hc]
    · rw [h2 (by push Not at hc; exact hc)]

/-- C182 (multiplication): `poly_mul_direct_test` and `poly_mul_fft_test`, with any two lists of numbers that do not end with zero, pass
exactly with the first coefficients of the product, in every backend. -/
theorem C182_mul_case {x y : List Int} (hx : I32Lead x) (hy : I32Lead y) (e : List Int) (he : 1 ≤ e.length)
    (hlen : x.length + y.length ≤ 2 ^ 30 + 1) :
    InAll fun F _ _ T => ∀ mul, mul = T.mulDirect ∨ mul = (fun a b n => T.mulFft a b n none) →
      let right := ∀ k < e.length, ((e.getD k 0 : Int) : F) = (polyOf (ints F x) * polyOf (ints F y)).coeff k
      (right → mulCase T mul x y e e.length = .ok ()) ∧ (¬ right → mulCase T mul x y e e.length = .panic) := by
  refine inAll fun F _ _ T hT mul hmul => ?_
  obtain ⟨h0, h1⟩ := hT.mul _ _ e.length (hT.lead hx) (hT.lead hy) he (by rw [ints_length, ints_length]; exact hlen)
  obtain ⟨h2, h3⟩ := hT.mul _ _ e.length (hT.lead hy) (hT.lead hx) he (by rw [ints_length, ints_length]; omega)
  rw [mul_comm] at h2 h3
  have ha : mul (ints F x) (ints F y) e.length = .ok ((List.range e.length).map (polyOf (ints F x) * polyOf (ints F y)).coeff) := by
    rcases hmul with rfl | rfl <;> assumption
  have hb : mul (ints F y) (ints F x) e.length = .ok ((List.range e.length).map (polyOf (ints F x) * polyOf (ints F y)).coeff) := by
    rcases hmul with rfl | rfl <;> assumption
  obtain ⟨c0, c1⟩ := mulCase_cases hT.plain ha hb (e := e) (by simp)
  refine ⟨fun hr => c0 (list_of_coeffs (ints_length e) fun k hk => ?_), fun hr => c1 fun h => hr fun k hk => ?_⟩
  · rw [← hr k hk, ← ints_getD, List.getD_eq_getElem _ _ (by rw [ints_length]; exact hk), List.getElem?_eq_getElem]
  · rw [← ints_getD, h, List.getD_eq_getElem _ _ (by simpa using hk)]
    simp

/-- The values of the test. -/
theorem C182_mul_values : InAll fun _ _ _ T => ∀ mul, mul = T.mulDirect ∨ mul = (fun a b n => T.mulFft a b n none) →
    mulCase T mul [3, 4] [6, -5, 3] [18, 9, -11, 12] 4 = .ok () := by
  have h : ∀ (F : Type) [Field F], ∀ k < 4, (((([18, 9, -11, 12] : List Int).getD k 0) : Int) : F) =
      (polyOf (ints F [3, 4]) * polyOf (ints F [6, -5, 3])).coeff k := by
    intro F _ k hk
    have e : polyOf (ints F [3, 4]) * polyOf (ints F [6, -5, 3]) = polyOf (ints F [18, 9, -11, 12]) := by
      simp only [ints, List.map, ZkP.polyOf_cons, polyOf_nil, map_intCast]; push_cast; ring
    rw [e, coeff_polyOf, ints_getD]
  obtain ⟨h0, h1, h2, h3⟩ := C182_mul_case (x := [3, 4]) (y := [6, -5, 3]) (by simp [I32Lead]) (by simp [I32Lead]) [18, 9, -11, 12]
    (by simp) (by simp)
  exact ⟨fun m hm => (h0 m hm).1 (h _), fun m hm => (h1 m hm).1 (h _), fun m hm => (h2 m hm).1 (h _), fun m hm => (h3 m hm).1 (h _)⟩

example : InAll fun _ _ _ T => createPoly T 10 = .ok () ∧ evalNilCheck T = .ok () := by
  obtain ⟨a, b, c, d⟩ := C182_create 10
  obtain ⟨e, f, g, h⟩ := C182_eval_nil
  exact ⟨⟨a, e⟩, ⟨b, f⟩, ⟨c, g⟩, ⟨d, h⟩⟩

example : InAll fun _ _ _ T => evalCheck T 10 = .ok () := (C182_eval_check_partial 10).1 (by norm_num)

example : InAll fun _ _ _ T => evalZeroCheck T 7 597 = .ok () := C182_eval_zero_check (by norm_num) 597

example : InAll fun _ _ _ T => inverseSimple0 T 16 = .ok () ∧ inverseSimple1 T 16 = .ok () := C182_inverse_simple (by norm_num) (by norm_num)

example : divByZero mclPoly [1, 1] = .ok () ∧ divByZero arkPoly [1, 1] = .panic :=
  ⟨(C182_div_by_zero [1, 1] (by simp)).2.2.1, (C182_div_by_zero [1, 1] (by simp)).2.2.2⟩

end Kzg.Props
