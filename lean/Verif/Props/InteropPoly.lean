import Verif.Props.PolyInterface
import Verif.Props.ZkPoly
/-!
# Property C156: polynomial arithmetic of one backend in another
-/

set_option linter.unusedSectionVars false

namespace Kzg.Props
open Kzg Kzg.Res Kzg.Zk Kzg.Zk.ScW Kzg.Iface Polynomial

/-- The zkcrypto call succeeds, with scalars that stand for the given numbers. -/
def Gives (res : Res (List ScW)) (q : List Fr) : Prop := ∃ qz, res = .ok qz ∧ Reads qz q

theorem ne_zero_map_el {a : List ScW} (h : ∃ x ∈ a, x ≠ 0) : ∃ x ∈ a.map el, x ≠ 0 := by
  obtain ⟨x, hx, h0⟩ := h
  exact ⟨el x, List.mem_map_of_mem hx, fun e => h0 (el_inj (e.trans el_zero.symm))⟩

theorem ne_nil_of_mem_ne {E : Type} [Zero E] {a : List E} (h : ∃ x ∈ a, x ≠ 0) : a ≠ [] := by
  rintro rfl
  obtain ⟨x, hx, _⟩ := h
  cases hx

theorem map_coeff_el (a b : List ScW) (n : Nat) :
    ((List.range n).map (polyOf a * polyOf b).coeff).map el = (List.range n).map (polyOf (a.map el) * polyOf (b.map el)).coeff := by
  rw [List.map_map]
  refine List.map_congr_left fun i _ => ?_
  rw [Function.comp, polyOf_map_el, polyOf_map_el, ← Polynomial.map_mul, coeff_map, elHom_apply]

variable [Mcl.Lib Fr]

/-- C156 (evaluation): where blst-from-scratch and zkcrypto return, all four backends return the same value; they panic exactly at
nonzero points of polynomials with one coefficient, where the other two return the coefficient. -/
theorem C156_eval (p : List ScW) (x : ScW) :
    mclPoly.eval (p.map el) (el x) = .ok (el ((polyOf p).eval x)) ∧
    arkPoly.eval (p.map el) (el x) = .ok (el ((polyOf p).eval x)) ∧
    (p.length ≠ 1 ∨ x = 0 → zkPoly.eval p x = .ok ((polyOf p).eval x) ∧
      blstPoly.eval (p.map el) (el x) = .ok (el ((polyOf p).eval x))) ∧
    (p.length = 1 → x ≠ 0 → zkPoly.eval p x = .panic ∧ blstPoly.eval (p.map el) (el x) = .panic) := by
  have he : (polyOf (p.map el)).eval (el x) = el ((polyOf p).eval x) := by rw [polyOf_map_el, eval_map_el]
  refine ⟨congrArg Res.ok ?_, congrArg Res.ok ?_, fun h => ⟨polyEval_spec _ _ h, ?_⟩, fun h hx => ?_⟩
  · rw [C99_eval, ← eval_polyOf, he]
  · rw [C117_eval, ← eval_polyOf, he]
  · rw [← he]
    exact polyEval_spec _ _ (h.imp (by rw [List.length_map]; exact id) (by rintro rfl; exact el_zero))
  · obtain ⟨c, rfl⟩ := List.length_eq_one_iff.mp h
    exact ⟨polyEval_one_panic c x hx, C08_eval_constant_panics _ _ fun e => hx (el_inj (e.trans el_zero.symm))⟩

/-- C156 (multiplication, partial): the first `n` coefficients of the product, in every backend, directly and with transforms, for
operands that are not zero and have at most `2^30` coefficients together. Missing: zero operands (`C156_mul_zero`). -/
theorem C156_mul_partial (a b : List ScW) (ha : ∃ x ∈ a, x ≠ 0) (hb : ∃ x ∈ b, x ≠ 0) (n : Nat) (hn : 0 < n)
    (hlen : a.length + b.length ≤ 2 ^ 30) :
    ∃ q : List Fr, q.length = n ∧ Gives (zkPoly.mulDirect a b n) q ∧ Gives (zkPoly.mulFft a b n none) q ∧
      blstPoly.mulDirect (a.map el) (b.map el) n = .ok q ∧ blstPoly.mulFft (a.map el) (b.map el) n none = .ok q ∧
      mclPoly.mulDirect (a.map el) (b.map el) n = .ok q ∧ mclPoly.mulFft (a.map el) (b.map el) n none = .ok q ∧
      arkPoly.mulDirect (a.map el) (b.map el) n = .ok q ∧ arkPoly.mulFft (a.map el) (b.map el) n none = .ok q := by
  have ha0 := ne_nil_of_mem_ne ha
  have hb0 := ne_nil_of_mem_ne hb
  have ha1 : a.map el ≠ [] := fun e => ha0 (List.map_eq_nil_iff.mp e)
  have hb1 : b.map el ≠ [] := fun e => hb0 (List.map_eq_nil_iff.mp e)
  have hal := List.length_pos_iff.mpr ha0
  have hbl := List.length_pos_iff.mpr hb0
  have hd : mulDirect a b n = .ok _ := mulDirect_spec a b ha0 hb0 n
  have hd' := mulDirect_spec (a.map el) (b.map el) ha1 hb1 n
  have hmin : min (a.map el).length n + min (b.map el).length n ≤ 2 ^ 30 := by
    rw [List.length_map, List.length_map]; omega
  have hmin0 : 0 < min (a.map el).length n + min (b.map el).length n := by
    rw [List.length_map, List.length_map]; omega
  refine ⟨_, ?_, ⟨_, hd, rfl⟩, ⟨_, ?_, rfl⟩, ?_, ?_, ?_, ?_, ?_, ?_⟩
  · simp
  · obtain ⟨out, _, _, h1, h2, _⟩ := C63_mul a b ha0 hb0 (by omega) n none
    rw [hd] at h2
    cases h2
    exact h1
  all_goals rw [map_coeff_el]
  · exact hd'
  · exact ((C10_mul_agree _ _ ha1 hb1 (by rw [List.length_map, List.length_map]; omega) n none).2.2).trans hd'
  · exact C99_mul_direct _ _ n
  · exact C99_mul_fft_partial _ _ none n hmin0 (by omega) (by intro fs h; cases h)
  · exact C117_mul_direct_partial _ _ (ne_zero_map_el ha) (ne_zero_map_el hb) n
  · exact C117_mul_fft _ _ none n ha1 hb1 hn (by omega) (by intro fs h; cases h)

/-- C156 (inverse, partial): the same list in every backend, for a constant term that is not zero and `n > 0`. Missing: `n = 0`
(`C156_inverse_differs`) and the zero constant term, an error in every backend (`C156_inverse_rejects`). -/
theorem C156_inverse_partial (a : List ScW) (n : Nat) (hn : 0 < n) (c : ScW) (h0 : a[0]? = some c) (hc : c ≠ 0)
    (hlen : a.length + n ≤ 2 ^ 29) :
    ∃ q : List Fr, q.length = n ∧ Gives (zkPoly.inverse a n) q ∧ blstPoly.inverse (a.map el) n = .ok q ∧
      mclPoly.inverse (a.map el) n = .ok q ∧ arkPoly.inverse (a.map el) n = .ok q := by
  have h0' : (a.map el)[0]? = some (el c) := by rw [List.getElem?_map, h0]; rfl
  have hc' : el c ≠ 0 := fun e => hc (el_inj (e.trans el_zero.symm))
  have ha1 : a.map el ≠ [] := fun e => by rw [e] at h0'; cases h0'
  have hg : (a.map el).getD 0 0 ≠ 0 := by rw [List.getD_eq_getElem?_getD, h0']; exact hc'
  have hl : (a.map el).length = a.length := List.length_map _
  obtain ⟨qz, z1, z2, z3⟩ := C64_inverse a n hn c h0 hc (by omega) (by omega)
  obtain ⟨q, b1, b2, b3⟩ := C11_inverse (a.map el) n hn _ h0' hc' (by omega) (by omega)
  obtain ⟨qm, m1, m2, m3⟩ := C101_inverse_partial (a.map el) n hn ha1 hg (by omega)
  obtain ⟨qa, a1, a2, a3⟩ := C118_inverse_partial (a.map el) n hn ha1 hg (.inr (by omega))
  -- an inverse modulo `X^n` with `n` coefficients is unique
  have coprime : IsCoprime (polyOf (a.map el)) (X ^ n : Fr[X]) := by
    refine IsCoprime.pow_right ?_
    refine (isCoprime_comm.mp ((Polynomial.irreducible_X.coprime_iff_not_dvd).mpr ?_))
    rw [X_dvd_iff, coeff_polyOf]
    exact hg
  have uniq : ∀ {u v : List Fr}, u.length = n → v.length = n → X ^ n ∣ polyOf (a.map el) * polyOf u - 1 →
      X ^ n ∣ polyOf (a.map el) * polyOf v - 1 → u = v := by
    intro u v hu hv h1 h2
    have h3 : (X : Fr[X]) ^ n ∣ polyOf (a.map el) * (polyOf u - polyOf v) := by
      have := dvd_sub h1 h2
      rwa [show polyOf (a.map el) * polyOf u - 1 - (polyOf (a.map el) * polyOf v - 1)
        = polyOf (a.map el) * (polyOf u - polyOf v) by ring] at this
    have h4 := coprime.symm.dvd_of_dvd_mul_left h3
    refine polyOf_inj (hu.trans hv.symm) (sub_eq_zero.mp (eq_zero_of_dvd_of_degree_lt h4 ?_))
    rw [degree_X_pow]
    refine lt_of_le_of_lt (degree_sub_le _ _) (max_lt ?_ ?_)
    · rw [← hu]; exact degree_polyOf_lt u
    · rw [← hv]; exact degree_polyOf_lt v
  have ofMod : ∀ {u : List Fr}, (polyOf (a.map el) * polyOf u) %ₘ (X ^ n) = 1 %ₘ (X ^ n) →
      X ^ n ∣ polyOf (a.map el) * polyOf u - 1 := by
    intro u h
    rw [← modByMonic_eq_zero_iff_dvd (monic_X_pow n), sub_modByMonic, h, sub_self]
  have ofCoeff : ∀ {u : List Fr}, (∀ k < n, (polyOf (a.map el) * polyOf u).coeff k = if k = 0 then 1 else 0) →
      X ^ n ∣ polyOf (a.map el) * polyOf u - 1 := by
    intro u h
    rw [X_pow_dvd_iff]
    intro k hk
    rw [coeff_sub, h k hk, coeff_one, sub_self]
  have hz : qz.map el = q := by
    refine uniq (by rw [List.length_map, z2]) b2 ?_ (ofMod b3)
    have hd : X ^ n ∣ polyOf a * polyOf qz - 1 := by
      rw [← modByMonic_eq_zero_iff_dvd (monic_X_pow n), sub_modByMonic, z3, sub_self]
    have := _root_.map_dvd (Polynomial.mapRingHom elHom) hd
    simpa only [coe_mapRingHom, Polynomial.map_sub, Polynomial.map_mul, Polynomial.map_pow, map_X, Polynomial.map_one,
      ← polyOf_map_el] using this
  refine ⟨q, b2, ⟨qz, z1, hz.symm⟩, b1, ?_, ?_⟩
  · rw [← uniq m2 b2 (ofCoeff m3) (ofMod b3)]; exact m1
  · rw [← uniq a2 b2 (ofCoeff a3) (ofMod b3)]; exact a1

/-- C156 (inverse): an empty polynomial and a zero constant term are errors in every backend, with the exception of the empty
polynomial in mcl-kzg, whose inverse is empty. -/
theorem C156_inverse_rejects (a : List ScW) (n : Nat) (hn : 0 < n) (hlen : n ≤ 2 ^ 29) (h : a = [] ∨ a[0]? = some 0) :
    (∃ e, zkPoly.inverse a n = .err e) ∧ (∃ e, blstPoly.inverse (a.map el) n = .err e) ∧
    (∃ e, arkPoly.inverse (a.map el) n = .err e) ∧
    (a ≠ [] → ∃ e, mclPoly.inverse (a.map el) n = .err e) ∧ (a = [] → mclPoly.inverse (a.map el) n = .ok []) := by
  have h' : a.map el = [] ∨ (a.map el)[0]? = some 0 :=
    h.imp (fun e => by rw [e]; rfl) (fun e => by rw [List.getElem?_map, e, Option.map_some, el_zero])
  have hg : a.map el = [] ∨ (a.map el).getD 0 0 = 0 := h'.imp id fun e => by rw [List.getD_eq_getElem?_getD, e]; rfl
  refine ⟨C64_inverse_errors a n h, C11_inverse_errors _ n (.inr h'), C118_inverse_rejects _ n hg, fun hne => ?_, fun e => ?_⟩
  · have hne' : a.map el ≠ [] := fun e => hne (List.map_eq_nil_iff.mp e)
    exact ((C101_rejects (a.map el) n).2 hne' hn (by omega)).2 (hg.resolve_left hne')
  · exact (C101_rejects (a.map el) n).1 (.inl (by rw [e]; rfl))

/-- C156 (inverse, refuted for length 0): an error in blst-from-scratch, a panic in zkcrypto and Arkworks, empty in mcl-kzg. -/
theorem C156_inverse_differs (a : List ScW) (c : ScW) (h0 : a[0]? = some c) (hc : c ≠ 0) :
    (∃ e, blstPoly.inverse (a.map el) 0 = .err e) ∧ zkPoly.inverse a 0 = .panic ∧ arkPoly.inverse (a.map el) 0 = .panic ∧
      mclPoly.inverse (a.map el) 0 = .ok [] := by
  have h0' : (a.map el)[0]? = some (el c) := by rw [List.getElem?_map, h0]; rfl
  have hc' : el c ≠ 0 := fun e => hc (el_inj (e.trans el_zero.symm))
  refine ⟨C11_inverse_errors (a.map el) 0 (.inl rfl), C64_inverse_zero_length a c h0 hc, C118_inverse_panics (a.map el) 0 ?_ ?_ (.inl rfl),
    (C101_rejects (a.map el) 0).1 (.inr rfl)⟩
  · intro e; rw [e] at h0'; cases h0'
  · rw [List.getD_eq_getElem?_getD, h0']; exact hc'

theorem lead_getD {E : Type} [Zero E] {a : List E} {c : E} (h : a.getLast? = some c) (hc : c ≠ 0) :
    a ≠ [] ∧ a.getD (a.length - 1) 0 ≠ 0 := by
  rw [List.getLast?_eq_getElem?] at h
  refine ⟨fun e => by (rw [e] at h; cases h), ?_⟩
  rw [List.getD_eq_getElem?_getD, h]
  exact hc

/-- C156 (division, partial): all three division functions of all four backends return the same list, if neither operand has a zero at
the top and the dividend has at most `2^29` coefficients. Missing: operands with zeros at the top (`C156_div_differs`). -/
theorem C156_div_partial (a b : List ScW) (ca cb : ScW) (ha : a.getLast? = some ca) (hca : ca ≠ 0) (hb : b.getLast? = some cb)
    (hcb : cb ≠ 0) (hlen : a.length ≤ 2 ^ 29) :
    ∃ q : List Fr, q.length = a.length + 1 - b.length ∧ polyOf q = polyOf (a.map el) / polyOf (b.map el) ∧
      Gives (zkPoly.div a b) q ∧ Gives (zkPoly.longDiv a b) q ∧ Gives (zkPoly.fastDiv a b) q ∧
      blstPoly.div (a.map el) (b.map el) = .ok q ∧ blstPoly.longDiv (a.map el) (b.map el) = .ok q ∧
      blstPoly.fastDiv (a.map el) (b.map el) = .ok q ∧
      mclPoly.div (a.map el) (b.map el) = .ok q ∧ mclPoly.longDiv (a.map el) (b.map el) = .ok q ∧
      mclPoly.fastDiv (a.map el) (b.map el) = .ok q ∧
      arkPoly.div (a.map el) (b.map el) = .ok q ∧ arkPoly.longDiv (a.map el) (b.map el) = .ok q ∧
      arkPoly.fastDiv (a.map el) (b.map el) = .ok q := by
  have ha' : (a.map el).getLast? = some (el ca) := by rw [List.getLast?_map, ha]; rfl
  have hb' : (b.map el).getLast? = some (el cb) := by rw [List.getLast?_map, hb]; rfl
  have hca' : el ca ≠ 0 := fun e => hca (el_inj (e.trans el_zero.symm))
  have hcb' : el cb ≠ 0 := fun e => hcb (el_inj (e.trans el_zero.symm))
  obtain ⟨a1, a2⟩ := lead_getD ha' hca'
  obtain ⟨b1, b2⟩ := lead_getD hb' hcb'
  obtain ⟨az1, az2⟩ := lead_getD ha hca
  obtain ⟨bz1, bz2⟩ := lead_getD hb hcb
  obtain ⟨da, na⟩ := natDegree_of_lead a1 a2
  obtain ⟨db, nb⟩ := natDegree_of_lead b1 b2
  obtain ⟨daz, naz⟩ := natDegree_of_lead az1 az2
  obtain ⟨dbz, nbz⟩ := natDegree_of_lead bz1 bz2
  have hla : (a.map el).length = a.length := List.length_map _
  have hlb : (b.map el).length = b.length := List.length_map _
  have hal : 0 < a.length := List.length_pos_iff.mpr az1
  have hbl : 0 < b.length := List.length_pos_iff.mpr bz1
  have quot : ∀ {K : Type} [Field K] [DecidableEq K] {u v w : K[X]}, v ≠ 0 → (∃ r, u = w * v + r ∧ r.degree < v.degree) → w = u / v := by
    intro K _ _ u v w hv ⟨r, h1, h2⟩
    refine quotient_unique hv ?_
    rwa [h1, add_sub_cancel_left]
  obtain ⟨q, l1, l2, l3⟩ := C12_long_div (a.map el) (b.map el) _ hb' hcb'
  have hq := quot nb l3
  rw [hla, hlb] at l2
  -- two lists for the quotient with as many coefficients are equal
  have same : ∀ {u : List Fr}, u.length = a.length + 1 - b.length → polyOf u = polyOf (a.map el) / polyOf (b.map el) → u = q :=
    fun h1 h2 => polyOf_inj (h1.trans l2.symm) (h2.trans hq.symm)
  have sameZ : ∀ {u : List ScW}, u.length = a.length + 1 - b.length → polyOf u = polyOf a / polyOf b → Reads u q := by
    intro u h1 h2
    refine (same (by rw [List.length_map, h1]) ?_).symm
    rw [polyOf_map_el, h2, Polynomial.map_div, polyOf_map_el, polyOf_map_el]
  -- without zeros at the top the quotient has as many coefficients
  have sameN : ∀ {u : List Fr}, polyOf u = polyOf (a.map el) / polyOf (b.map el) → (u = [] ∨ u.getD (u.length - 1) 0 ≠ 0) → u = q := by
    intro u h1 h2
    refine same ?_ h1
    by_cases hlt : a.length < b.length
    · have h0 : polyOf u = 0 := by
        rw [h1, Polynomial.div_eq_zero_iff nb]
        refine degree_lt_degree ?_
        omega
      rcases h2 with rfl | h2
      · simp; omega
      · by_cases hu : u = []
        · subst hu; simp; omega
        · exact absurd h0 (natDegree_of_lead hu h2).2
    · have hdeg : (polyOf (b.map el)).degree ≤ (polyOf (a.map el)).degree := by
        rw [degree_eq_natDegree na, degree_eq_natDegree nb]
        exact_mod_cast (by omega : (polyOf (b.map el)).natDegree ≤ (polyOf (a.map el)).natDegree)
      have hd := degree_add_div nb hdeg
      rw [← h1] at hd
      have hne : polyOf u ≠ 0 := by
        intro e
        rw [e, degree_zero, WithBot.add_bot] at hd
        exact na (degree_eq_bot.mp hd.symm)
      have hu : u ≠ [] := by rintro rfl; exact hne polyOf_nil
      have h4 := (natDegree_of_lead hu (h2.resolve_left hu)).1
      have hul := List.length_pos_iff.mpr hu
      rw [degree_eq_natDegree nb, degree_eq_natDegree na, degree_eq_natDegree hne] at hd
      have h5 : (polyOf (b.map el)).natDegree + (polyOf u).natDegree = (polyOf (a.map el)).natDegree := by exact_mod_cast hd
      omega
  obtain ⟨u1, z1, z2, z3⟩ := C60_div_partial a b naz nbz (by omega)
  obtain ⟨u2, y1, y2, y3, y4⟩ := C61_division_entry_points_partial a b cb az1 hb hcb
  obtain ⟨u3, m1, m2, m3, _⟩ := C100_long_division (a.map el) (b.map el) b1 b2
  obtain ⟨u4, n1, n2, n3⟩ := C100_div_partial (a.map el) (b.map el) nb (by omega)
  obtain ⟨u5, o1, o2, o3⟩ := C118_long_division (a.map el) (b.map el) ⟨_, List.mem_of_getLast? hb', hcb'⟩
  obtain ⟨u6, p1, p2, p3⟩ := C118_fast_div_partial (a.map el) (b.map el) ⟨_, List.mem_of_getLast? ha', hca'⟩ b1 b2 (by omega)
  have e3 : u3 = q := same (by omega) m3
  have e4 : u4 = q := same (by omega) n3
  have e5 : u5 = q := sameN o2 o3
  have e6 : u6 = q := same (by omega) p3
  subst e3
  subst e4
  subst e5
  subst e6
  refine ⟨_, l2, hq, ⟨u1, z1, sameZ (by omega) (quot nbz z3)⟩, ⟨u2, y1, sameZ y3 (quot nbz y4)⟩,
    ⟨u2, y2 (by omega), sameZ y3 (quot nbz y4)⟩, ?_, l1, ?_, n1, m1, ?_, ?_, o1, p1⟩
  · exact (C13_div _ _ (by omega)).trans l1
  · exact (C13_fast_div _ _ a1 _ hb' hcb' (by omega)).trans l1
  · exact (C100_fast_div_partial _ _ b1 b2 (.inr (by omega))).trans m1
  · show Ark.polyDiv _ _ = _
    rw [Ark.polyDiv]
    split
    · exact o1
    · exact p1

/-- C156 (multiplication, refuted for zero): if both operands have coefficients and one has zeros only, three backends return `n`
zeros and Arkworks an empty list. If an operand is empty, only mcl-kzg returns `n` zeros. -/
theorem C156_mul_zero (a b : List ScW) (n : Nat) :
    (a ≠ [] → b ≠ [] → ((∀ x ∈ a, x = 0) ∨ ∀ x ∈ b, x = 0) → zkPoly.mulDirect a b n = .ok (List.replicate n 0) ∧
      blstPoly.mulDirect (a.map el) (b.map el) n = .ok (List.replicate n 0) ∧
      mclPoly.mulDirect (a.map el) (b.map el) n = .ok (List.replicate n 0) ∧
      arkPoly.mulDirect (a.map el) (b.map el) n = .ok []) ∧
    (a = [] ∨ b = [] → zkPoly.mulDirect a b n = .ok [] ∧ blstPoly.mulDirect (a.map el) (b.map el) n = .ok [] ∧
      mclPoly.mulDirect (a.map el) (b.map el) n = .ok (List.replicate n 0) ∧
      arkPoly.mulDirect (a.map el) (b.map el) n = .ok []) := by
  have zer : ∀ {E : Type} [Field E] {u v : List E}, (∀ x ∈ u, x = 0) ∨ (∀ x ∈ v, x = 0) →
      (List.range n).map (polyOf u * polyOf v).coeff = List.replicate n 0 := by
    intro E _ u v h
    have : polyOf u * polyOf v = 0 := by
      have hz : ∀ w : List E, (∀ x ∈ w, x = 0) → polyOf w = 0 := by
        intro w hw
        ext i
        rw [coeff_polyOf, coeff_zero, List.getD_eq_getElem?_getD]
        cases hi : w[i]? with
        | none => rfl
        | some x => exact hw x (List.mem_of_getElem? hi)
      rcases h with h | h
      · rw [hz u h, zero_mul]
      · rw [hz v h, mul_zero]
    rw [this]
    exact List.ext_getElem (by simp) (by simp)
  have up : ∀ {u : List ScW}, (∀ x ∈ u, x = 0) → ∀ x ∈ u.map el, x = 0 := by
    intro u h x hx
    obtain ⟨y, hy, rfl⟩ := List.mem_map.mp hx
    rw [h y hy, el_zero]
  refine ⟨fun ha hb h => ?_, fun h => ?_⟩
  · have h' := h.imp up up
    refine ⟨(mulDirect_spec a b ha hb n).trans (congrArg Res.ok (zer h)), ?_, ?_, C117_mul_direct_zero _ _ h' n⟩
    · exact (mulDirect_spec _ _ (mt List.map_eq_nil_iff.mp ha) (mt List.map_eq_nil_iff.mp hb) n).trans (congrArg Res.ok (zer h'))
    · exact (C99_mul_direct _ _ n).trans (congrArg Res.ok (zer h'))
  · have h' : a.map el = [] ∨ b.map el = [] := h.imp (fun e => by rw [e]; rfl) fun e => by rw [e]; rfl
    have h'' : (∀ x ∈ a.map el, x = 0) ∨ ∀ x ∈ b.map el, x = 0 :=
      h'.imp (fun e x hx => by rw [e] at hx; cases hx) fun e x hx => by rw [e] at hx; cases hx
    exact ⟨mulDirect_nil a b h n, mulDirect_nil _ _ h' n, (C99_mul_direct _ _ n).trans (congrArg Res.ok (zer h'')),
      C117_mul_direct_zero _ _ h'' n⟩

theorem polyOf_ne_zero_of_mem {E : Type} [Field E] {a : List E} (h : ∃ x ∈ a, x ≠ 0) : polyOf a ≠ 0 := by
  obtain ⟨x, hx, h0⟩ := h
  obtain ⟨i, hi⟩ := List.mem_iff_getElem?.mp hx
  intro e
  have := coeff_polyOf a i
  rw [e, coeff_zero, List.getD_eq_getElem?_getD, hi] at this
  exact h0 this.symm

/-- C156 (division, refuted for zero divisors): for a divisor with zeros only, `div` is an error in blst-from-scratch, zkcrypto and
mcl-kzg; in Arkworks the division of anything that is not zero by fewer than 128 zeros panics. -/
theorem C156_div_by_zero (a b : List ScW) (ha : ∃ x ∈ a, x ≠ 0) (hb : ∀ x ∈ b, x = 0) (hb0 : b ≠ []) (hl : b.length < 128)
    (hlen : a.length ≤ 2 ^ 29) :
    (∃ e, zkPoly.div a b = .err e) ∧ (∃ e, blstPoly.div (a.map el) (b.map el) = .err e) ∧
    (∃ e, mclPoly.div (a.map el) (b.map el) = .err e) ∧ arkPoly.div (a.map el) (b.map el) = .panic := by
  have hb' : ∀ x ∈ b.map el, x = 0 := by
    intro x hx
    obtain ⟨y, hy, rfl⟩ := List.mem_map.mp hx
    rw [hb y hy, el_zero]
  have hz : polyOf (b.map el) = 0 := polyOf_eq_zero_of_forall hb'
  have hzz : polyOf b = 0 := by
    by_contra h
    refine h (Polynomial.map_injective elHom elHom.injective ?_)
    rw [← polyOf_map_el, hz, Polynomial.map_zero]
  refine ⟨C60_div_by_zero a b hzz, ?_, ?_, ?_⟩
  · show ∃ e, polyDiv _ _ = _
    rw [C13_div _ _ (by rw [List.length_map]; omega)]
    refine C12_long_div_errors _ _ (.inr ?_)
    have h1 : b.map el ≠ [] := mt List.map_eq_nil_iff.mp hb0
    rw [List.getLast?_eq_some_getLast h1, hb' _ (List.getLast_mem h1)]
  · exact ((C100_rejects (a.map el) (b.map el)).2.2 (by rw [List.length_map]; omega)).2 hz
  · show Ark.polyDiv _ _ = _
    rw [Ark.polyDiv, if_pos (.inr (by rw [List.length_map]; exact hl))]
    exact (C118_long_division_by_zero _ _ hb').2 (ne_zero_map_el ha)

/-- C156 (division, refuted for zeros at the top): dividing `1 + x` by itself, with a zero on top of the dividend, gives `[1, 0]` in
blst-from-scratch and mcl-kzg and `[1]` in zkcrypto and Arkworks; dividing zero by `1 + x` panics in zkcrypto only; the long division
by `1` with a zero on top is an error in two backends, wrong in zkcrypto and right in Arkworks. -/
theorem C156_div_differs :
    (blstPoly.div [1, 1, 0] [1, 1] = .ok [1, 0] ∧ mclPoly.longDiv [1, 1, 0] [1, 1] = .ok [1, 0] ∧
      Gives (zkPoly.div [1, 1, 0] [1, 1]) [1] ∧ arkPoly.div [1, 1, 0] [1, 1] = .ok [1]) ∧
    (blstPoly.div [0] [1, 1] = .ok [] ∧ mclPoly.longDiv [0] [1, 1] = .ok [] ∧ zkPoly.div [(0 : ScW)] [1, 1] = .panic ∧
      arkPoly.div [0] [1, 1] = .ok []) ∧
    ((∃ e, blstPoly.longDiv [3, 2] [1, 0] = .err e) ∧ (∃ e, mclPoly.longDiv [3, 2] [1, 0] = .err e) ∧
      zkPoly.longDiv [(3 : ScW), 2] [1, 0] = .ok [0] ∧ arkPoly.longDiv [3, 2] [1, 0] = .ok [3, 2]) := by
  have h11 : polyOf [(1 : Fr), 1, 0] = polyOf [(1 : Fr), 1] := by
    refine polyOf_congr fun i => ?_
    match i with
    | 0 => rfl
    | 1 => rfl
    | 2 => rfl
    | i + 3 => rfl
  refine ⟨⟨by decide +kernel, ?_, ?_, by decide +kernel⟩,
    ⟨by decide +kernel, ?_, ZkP.polyDiv_of_zero [0] [1, 1] ?_ polyOf_one_one, by decide +kernel⟩,
    ⟨C12_long_div_errors [3, 2] [1, 0] (.inr rfl), ((C100_rejects [3, 2] [1, 0]).1).2 (.inr rfl), (C61_zero_lead_wrong 2 3).1, by decide +kernel⟩⟩
  · obtain ⟨q, h1, h2, h3, _⟩ := C100_long_division [1, 1, 0] [1, 1] (by simp) (by simp)
    refine h1.trans (congrArg Res.ok (polyOf_inj h2 ?_))
    rw [h3, h11, EuclideanDomain.div_self (natDegree_of_lead (by simp) (by simp)).2]
    ext i
    rw [coeff_polyOf, coeff_one]
    match i with
    | 0 => rfl
    | 1 => rfl
    | i + 2 => rfl
  · have h0 : polyOf [(1 : ScW), 1, 0] = polyOf [(1 : ScW), 1] := by
      refine polyOf_congr fun i => ?_
      match i with
      | 0 => rfl
      | 1 => rfl
      | 2 => rfl
      | i + 3 => rfl
    have hd : (polyOf [(1 : ScW), 1]).natDegree = 1 := (natDegree_of_lead (by simp) (by simp)).1
    obtain ⟨q, h1, h2, h3⟩ := C60_div_partial [(1 : ScW), 1, 0] [1, 1] (by rw [h0]; exact polyOf_one_one) polyOf_one_one
      (by rw [h0, hd]; norm_num)
    rw [h0, hd] at h2
    obtain ⟨c, rfl⟩ := List.length_eq_one_iff.mp h2
    obtain ⟨r', h4, h5⟩ := h3
    refine ⟨_, h1, ?_⟩
    have hc := congrArg (fun p => p.coeff 1) h4
    simp only [h0, coeff_add] at hc
    rw [show polyOf [c] = C c by
      ext i
      rw [coeff_polyOf, coeff_C]
      match i with
      | 0 => rfl
      | i + 1 => rfl, coeff_C_mul, coeff_polyOf, coeff_eq_zero_of_degree_lt (n := 1) (by
        rw [degree_eq_natDegree polyOf_one_one, hd] at h5; exact h5)] at hc
    have : c = 1 := by simpa using hc.symm
    subst this
    rw [Reads, List.map_singleton, el_one]
  · obtain ⟨q, h1, h2, _⟩ := C100_long_division [0] [1, 1] (by simp) (by simp)
    rw [List.length_eq_zero_iff.mp (show q.length = 0 from h2)] at h1
    exact h1
  · refine polyOf_congr (b := []) (fun i => ?_) |>.trans polyOf_nil
    match i with
    | 0 => rfl
    | i + 1 => rfl

example : ∃ q : List Fr, q.length = 2 ∧ Gives (zkPoly.div [6, 5, 1] [3, 1]) q ∧
    blstPoly.div ([6, 5, 1].map el) ([3, 1].map el) = .ok q := by
  obtain ⟨q, h1, _, h2, _, _, h3, _⟩ := C156_div_partial [6, 5, 1] [3, 1] 1 1 rfl one_ne_zero rfl one_ne_zero (by norm_num)
  exact ⟨q, h1, h2, h3⟩

end Kzg.Props
