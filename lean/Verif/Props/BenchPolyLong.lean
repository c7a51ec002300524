import Verif.Props.BenchPoly
import Verif.Props.LongPoly
/-!
# Property C181, continued: for which lengths the shared random tests of polynomials pass

`C181_*_partial` have one bound for all backends, that of mcl-kzg. Here are the exact ones of the other three: within them a round passes
whatever coefficients are drawn, beyond them it panics.
-/

set_option linter.unusedSectionVars false

namespace Kzg.Props
open Kzg Kzg.Res Kzg.Bench Kzg.Zk Kzg.Zk.ScW Kzg.Iface Polynomial

/-- Fast division by a polynomial of two or more coefficients panics beyond its sizes. -/
theorem fastDiv_panics {F : Type} [Field F] [DecidableEq F] [FrTable F] [LawfulFr F] (a b : List F) (hb : 2 ≤ b.length)
    (hlead : b.getD (b.length - 1) 0 ≠ 0) (hk : 128 ≤ a.length + 1 - b.length)
    (h1 : 2 ^ 31 + b.length < 2 * a.length) (h2 : a.length ≤ 2 ^ 62) : fastDiv a b = .panic := by
  have hbn : b ≠ [] := by rintro rfl; simp at hb
  unfold fastDiv
  rw [if_neg (by simpa using hbn), subU_of_le (by omega), bind_ok, rd_getD 0 (by omega), bind_ok, if_neg hlead, subU_of_le (by omega),
    bind_ok, bind_ok, if_neg (by omega), if_neg (by omega), polyFlip_spec, unwrap_ok, bind_ok, polyFlip_spec, unwrap_ok, bind_ok,
    subU_of_le (by omega), bind_ok]
  cases hv : polyInverse b.reverse (a.length - 1 - (b.length - 1) + 1) with
  | ok v =>
    have hl := polyInverse_length _ _ hv
    rw [unwrap_ok, bind_ok, polyMul_beyond _ _ _ (by rw [List.length_reverse]; omega) (by omega) (by omega)
      (by rw [List.length_reverse]; omega) (by rw [List.length_reverse]; omega)]
    rfl
  | err e => rfl
  | panic => rfl

/-- Fast division by a constant has no bound. -/
theorem fastDiv_const {F : Type} [Field F] [DecidableEq F] [FrTable F] [LawfulFr F] (a b : List F) (ha : a ≠ []) (hb1 : b.length = 1)
    (hlead : b.getD (b.length - 1) 0 ≠ 0) : fastDiv a b = longDiv a b := by
  have hb : b ≠ [] := by rintro rfl; simp at hb1
  have hal : 0 < a.length := List.length_pos_iff.mpr ha
  obtain ⟨q, hq, hql, hdeg⟩ := longDiv_spec a b hb hlead
  rw [hq]
  unfold fastDiv
  rw [if_neg (by simpa using hb), subU_of_le (by omega), bind_ok, rd_getD 0 (by omega), bind_ok,
    if_neg hlead, subU_of_le hal, bind_ok, bind_ok, if_neg (by omega), if_pos hb1,
    fill_loop (by simp) (fun i => a.getD i 0 * (b.getD 0 0)⁻¹) (by
      intro i s hi _ _ _
      rw [rd_getD 0 (by simpa using hi), bind_ok, rd_getD 0 (by omega), bind_ok])]
  congr 1
  symm
  have hlead' : b.getD 0 0 ≠ 0 := by simpa [hb1] using hlead
  have h0 : polyOf a - polyOf q * polyOf b = 0 := by
    rw [hb1] at hdeg
    simpa using hdeg
  have hbC : polyOf b = C (b.getD 0 0) := by
    ext k
    rw [coeff_polyOf, coeff_C]
    split
    · next h => rw [h]
    · rw [List.getD_eq_default _ _ (by omega)]
  apply polyOf_inj (by simp; omega)
  ext i
  rw [polyOf_map_range]
  have := congrArg (fun p => p.coeff i) (sub_eq_zero.mp h0)
  simp only [hbC, coeff_mul_C, coeff_polyOf] at this
  rw [coeff_polyOf]
  split
  · rw [this, mul_assoc, mul_inv_cancel₀ hlead', mul_one]
  · rw [List.getD_eq_default q _ (by omega)]

/-- Long division of Arkworks gives the same list if the operands have nonzero last coefficients. -/
theorem ark_longDiv_same (a b : List Fr) (ha : Lead a) (hb : Lead b) : Ark.longDiv a b = longDiv a b := by
  obtain ⟨q', h2, hl', hq'⟩ := longDiv_div a b hb.1 hb.2
  rw [h2]
  obtain ⟨q, h, hq, hl⟩ := C118_long_division a b hb.mem
  have hda := natDegree_of_lead ha.1 ha.2
  have hdb := natDegree_of_lead hb.1 hb.2
  have hla : 0 < a.length := List.length_pos_iff.mpr ha.1
  have hlb : 0 < b.length := List.length_pos_iff.mpr hb.1
  have hlen' : q.length = a.length + 1 - b.length := by
    by_cases hc : a.length < b.length
    · have hz : polyOf q = 0 := by
        rw [hq, Polynomial.div_eq_zero_iff hb.ne]
        exact degree_lt_degree (by omega)
      rcases hl with rfl | hl
      · simp; omega
      · by_contra hne
        exact (natDegree_of_lead (by rintro rfl; simp at hl) hl).2 hz
    · have hd : (polyOf q).natDegree = a.length - b.length := by
        have hdeg : (polyOf b).degree ≤ (polyOf a).degree := by
          rw [degree_eq_natDegree ha.ne, degree_eq_natDegree hb.ne]
          exact_mod_cast (by omega)
        have h3 := degree_add_div hb.ne hdeg
        have h4 : polyOf a / polyOf b ≠ 0 := by
          rw [Ne, Polynomial.div_eq_zero_iff hb.ne, not_lt]; exact hdeg
        rw [degree_eq_natDegree ha.ne, degree_eq_natDegree hb.ne, degree_eq_natDegree h4] at h3
        have h5 : (polyOf b).natDegree + (polyOf a / polyOf b).natDegree = (polyOf a).natDegree := by exact_mod_cast h3
        rw [hq]; omega
      have hne : polyOf q ≠ 0 := by
        rw [hq, Ne, Polynomial.div_eq_zero_iff hb.ne, not_lt, degree_eq_natDegree ha.ne, degree_eq_natDegree hb.ne]
        exact_mod_cast (by omega)
      rcases hl with rfl | hl
      · exact absurd polyOf_nil hne
      · have hqn : q ≠ [] := by rintro rfl; simp at hl
        have := (natDegree_of_lead hqn hl).1
        have : 0 < q.length := List.length_pos_iff.mpr hqn
        omega
  obtain rfl : q' = q := polyOf_inj (by omega) (hq'.trans hq.symm)
  exact h

theorem divRandom_panics {F : Type} [Field F] [DecidableEq F] {T : PolyTrait F} (hT : Plain T) {m n : Nat} (hm : 1 ≤ m) (hn : 1 ≤ n)
    (x y : Nat → F)
    (h : ∀ a b : List F, a.length = m → b.length = n → Lead a → Lead b → (∃ r, T.longDiv a b = .ok r) ∧ T.fastDiv a b = .panic) :
    divRandom T m n x y = .panic := by
  obtain ⟨a, ha, la, La, -⟩ := drawn hT hm x
  obtain ⟨b, hb, lb, Lb, -⟩ := drawn hT hn y
  obtain ⟨⟨r, h0⟩, h1⟩ := h a b la lb La Lb
  rw [divRandom, fillPoly_eq hT, bind_ok, fillPoly_eq hT, bind_ok, ha, bind_ok, hb, bind_ok, h0, okAnd_ok, bind_ok, h1]; rfl

/-- C181 (multiplication, exact lengths): in blst-from-scratch and zkcrypto a round of `poly_mul_random` passes if the operands have at
most `2^31 + 1` coefficients together, for any length of the result, and panics otherwise; in Arkworks likewise for nonempty results, with
operands counted up to the length of the result. -/
theorem C181_mul_random_exact {m n out : Nat} (hm : 1 ≤ m) (hn : 1 ≤ n) (h63 : m + n ≤ 2 ^ 63) (x y : Nat → Fr) (x' y' : Nat → ScW) :
    (m + n ≤ 2 ^ 31 + 1 → mulRandom blstPoly m n out x y = .ok () ∧ mulRandom zkPoly m n out x' y' = .ok ()) ∧
    (2 ^ 31 + 1 < m + n → mulRandom blstPoly m n out x y = .panic ∧ mulRandom zkPoly m n out x' y' = .panic) ∧
    (1 ≤ out → min m out + min n out ≤ 2 ^ 31 + 1 → mulRandom arkPoly m n out x y = .ok ()) ∧
    (2 ^ 31 + 1 < min m out + min n out → mulRandom arkPoly m n out x y = .panic) := by
  refine ⟨fun h => ⟨?_, ?_⟩, fun h => ⟨?_, ?_⟩, fun ho h => ?_, fun h => ?_⟩
  · obtain ⟨a, b, la, lb, La, Lb, -, -, hr⟩ := mulRandom_cases blst_polyGood.plain (out := out) hm hn x y
    obtain ⟨r, h0, -⟩ := C09_mul_direct a b La.1 Lb.1 out
    obtain ⟨-, -, h3⟩ := C10_mul_agree a b La.1 Lb.1 (by omega) out none
    exact (hr _ _ h0 (h3.trans h0)).1 rfl
  · obtain ⟨a, b, la, lb, La, Lb, -, -, hr⟩ := mulRandom_cases zk_polyGood.plain (out := out) hm hn x' y'
    obtain ⟨r, -, -, h1, h0, -⟩ := C63_mul a b La.1 Lb.1 (by omega) out none
    exact (hr _ _ h0 h1).1 rfl
  · exact mulRandom_panics blst_polyGood.plain hm hn x y fun a b la lb La Lb =>
      ⟨⟨_, mulDirect_spec a b La.1 Lb.1 out⟩, (C197_mul_fft_blst a b La.1 Lb.1 out none).2 (by omega) (by omega)⟩
  · refine mulRandom_panics zk_polyGood.plain hm hn x' y' fun a b la lb La Lb => ⟨⟨_, mulDirect_spec a b La.1 Lb.1 out⟩, ?_⟩
    show ZkP.mulFft out a b = .panic
    rw [ZkP.mulFft_eq, mulFft_beyond a b out (by omega) (by omega)]
  · obtain ⟨a, b, la, lb, La, Lb, -, -, hr⟩ := mulRandom_cases ark_polyGood.plain (out := out) hm hn x y
    exact (hr _ _ (C117_mul_direct_partial a b La.mem Lb.mem out)
      (C117_mul_fft a b none out La.1 Lb.1 ho (by rw [la, lb]; exact h) (fun f hf => nomatch hf))).1 rfl
  · exact mulRandom_panics ark_polyGood.plain hm hn x y fun a b la lb La Lb =>
      ⟨⟨_, C117_mul_direct_partial a b La.mem Lb.mem out⟩,
        (C197_mul_ark a b La.1 Lb.1 out (by omega)).2 (by rw [la, lb]; omega) (by rw [la, lb]; omega)⟩

/-- C181 (division, exact lengths): a round of `poly_div_random` passes for constant divisors, and otherwise in blst-from-scratch and
zkcrypto if the quotient has fewer than 128 coefficients or twice the dividend at most `2^31` more than the divisor, in Arkworks if the
quotient has at most `2^30`; else it panics. -/
theorem C181_div_random_exact {m n : Nat} (hm : 1 ≤ m) (hn : 1 ≤ n) (h62 : m ≤ 2 ^ 62) (x y : Nat → Fr) (x' y' : Nat → ScW) :
    (n = 1 ∨ m + 1 < n + 128 ∨ 2 * m ≤ 2 ^ 31 + n → divRandom blstPoly m n x y = .ok () ∧ divRandom zkPoly m n x' y' = .ok ()) ∧
    (¬ (n = 1 ∨ m + 1 < n + 128 ∨ 2 * m ≤ 2 ^ 31 + n) →
      divRandom blstPoly m n x y = .panic ∧ divRandom zkPoly m n x' y' = .panic) ∧
    (n = 1 ∨ m + 1 - n ≤ 2 ^ 30 → divRandom arkPoly m n x y = .ok ()) ∧
    (¬ (n = 1 ∨ m + 1 - n ≤ 2 ^ 30) → divRandom arkPoly m n x y = .panic) := by
  refine ⟨fun h => ⟨?_, ?_⟩, fun h => ⟨?_, ?_⟩, fun h => ?_, fun h => ?_⟩
  · obtain ⟨a, b, la, lb, La, Lb, hr⟩ := divRandom_cases blst_polyGood.plain hm hn x y
    obtain ⟨q, h0, -⟩ := longDiv_div a b Lb.1 Lb.2
    refine (hr q q h0 ?_).1 rfl
    show fastDiv a b = _
    rw [← h0]
    rcases h with h | h
    · exact fastDiv_const a b La.1 (by omega) Lb.2
    · exact fastDiv_sized a b La.1 Lb.1 Lb.2 (by omega)
  · obtain ⟨a, b, la, lb, La, Lb, hr⟩ := divRandom_cases zk_polyGood.plain hm hn x' y'
    obtain ⟨q, h0, -⟩ := longDiv_div a b Lb.1 Lb.2
    refine (hr q q ((ZkP.longDiv_eq a b La.1 Lb.2).trans h0) ?_).1 rfl
    show ZkP.fastDiv a b = _
    rw [ZkP.fastDiv_eq_blst a b La.1 Lb.2, ← h0]
    rcases h with h | h
    · exact fastDiv_const a b La.1 (by omega) Lb.2
    · exact fastDiv_sized a b La.1 Lb.1 Lb.2 (by omega)
  · push Not at h
    refine divRandom_panics blst_polyGood.plain hm hn x y fun a b la lb La Lb => ⟨?_, fastDiv_panics a b (by omega) Lb.2 (by omega)
      (by omega) (by omega)⟩
    obtain ⟨q, h0, -⟩ := longDiv_div a b Lb.1 Lb.2
    exact ⟨q, h0⟩
  · push Not at h
    refine divRandom_panics zk_polyGood.plain hm hn x' y' fun a b la lb La Lb => ⟨?_, ?_⟩
    · obtain ⟨q, h0, -⟩ := longDiv_div a b Lb.1 Lb.2
      exact ⟨q, (ZkP.longDiv_eq a b La.1 Lb.2).trans h0⟩
    · show ZkP.fastDiv a b = _
      rw [ZkP.fastDiv_eq_blst a b La.1 Lb.2]
      exact fastDiv_panics a b (by omega) Lb.2 (by omega) (by omega) (by omega)
  · obtain ⟨a, b, la, lb, La, Lb, hr⟩ := divRandom_cases ark_polyGood.plain hm hn x y
    obtain ⟨q, h0, -⟩ := longDiv_div a b Lb.1 Lb.2
    refine (hr q q ((ark_longDiv_same a b La Lb).trans h0) ?_).1 rfl
    show Ark.fastDiv a b = _
    rw [Ark.fastDiv_eq a b La.1 Lb.1 Lb.2 (by omega) (.inr (.inr (.inl La.ne))), h0]
  · push Not at h
    refine divRandom_panics ark_polyGood.plain hm hn x y fun a b la lb La Lb => ⟨?_, Ark.fastDiv_long a b (by omega) Lb.2 (by omega)
      (by omega)⟩
    obtain ⟨q, h0, -⟩ := longDiv_div a b Lb.1 Lb.2
    exact ⟨q, (ark_longDiv_same a b La Lb).trans h0⟩

/-- Example of C181: dividing by a polynomial of two coefficients, blst-from-scratch stops at `2^30 + 1` coefficients and so does
Arkworks. -/
example (m : Nat) (hm : 129 ≤ m) (h62 : m ≤ 2 ^ 62) (x y : Nat → Fr) : (divRandom blstPoly m 2 x y = .ok () ↔ m ≤ 2 ^ 30 + 1) ∧
    (divRandom arkPoly m 2 x y = .ok () ↔ m ≤ 2 ^ 30 + 1) := by
  obtain ⟨h1, h2, h3, h4⟩ := C181_div_random_exact (m := m) (n := 2) (by omega) (by omega) h62 x y (fun _ => 0) (fun _ => 0)
  refine ⟨⟨fun e => ?_, fun h => (h1 (by omega)).1⟩, ⟨fun e => ?_, fun h => h3 (by omega)⟩⟩
  · by_contra hc
    rw [(h2 (by omega)).1] at e
    cases e
  · by_contra hc
    rw [h4 (by omega)] at e
    cases e

end Kzg.Props
