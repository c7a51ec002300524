import Mathlib.Algebra.Polynomial.Monic
import Verif.Model.ZeroPoly
import Verif.Proofs.FFTPoly
/-!
# Partial zero polynomials and reduction of partials: proofs
-/

set_option linter.unusedSectionVars false

namespace Kzg
open Res Polynomial Finset

variable {F : Type} [Field F]

/-- The product of `x - r i` over a list of indices. -/
noncomputable def linProd (r : Nat → F) (idxs : List Nat) : F[X] :=
  (idxs.map fun i => X - C (r i)).prod

theorem linProd_nil (r : Nat → F) : linProd r [] = 1 := rfl

theorem linProd_append (r : Nat → F) (a b : List Nat) :
    linProd r (a ++ b) = linProd r a * linProd r b := by
  simp [linProd]

theorem linProd_monic (r : Nat → F) (l : List Nat) : (linProd r l).Monic := by
  induction l with
  | nil => simp [linProd]
  | cons a l ih =>
    have : linProd r (a :: l) = (X - C (r a)) * linProd r l := by simp [linProd]
    rw [this]; exact (monic_X_sub_C _).mul ih

theorem linProd_natDegree (r : Nat → F) (l : List Nat) : (linProd r l).natDegree = l.length := by
  induction l with
  | nil => simp [linProd]
  | cons a l ih =>
    have : linProd r (a :: l) = (X - C (r a)) * linProd r l := by simp [linProd]
    rw [this, (monic_X_sub_C _).natDegree_mul (linProd_monic r l), ih, natDegree_X_sub_C,
      List.length_cons]; ring

theorem linProd_eval (r : Nat → F) (l : List Nat) (x : F) :
    (linProd r l).eval x = 0 ↔ ∃ i ∈ l, x = r i := by
  induction l with
  | nil => simp [linProd]
  | cons a l ih =>
    have : linProd r (a :: l) = (X - C (r a)) * linProd r l := by simp [linProd]
    rw [this, eval_mul, mul_eq_zero, ih]
    simp [sub_eq_zero]

theorem linProd_take_succ (r : Nat → F) (l : List Nat) (i : Nat) (h : i < l.length) :
    linProd r (l.take (i + 1)) = linProd r (l.take i) * (X - C (r (l.getD i 0))) := by
  rw [List.take_add_one, getElem?_eq_some_getD 0 h, linProd_append]
  simp [linProd]

theorem partialInner_spec (nd : F) : ∀ (j : Nat) (p : List F), j < p.length →
    Sat (partialInner nd j p) (fun r => r.length = p.length ∧
      ∀ t, r[t]? = if 1 ≤ t ∧ t ≤ j then some (p.getD t 0 * nd + p.getD (t - 1) 0) else p[t]?) := by
  intro j
  induction j with
  | zero =>
    intro p hp
    refine Sat.ok ⟨rfl, fun t => ?_⟩
    rw [if_neg (by omega)]
  | succ j ih =>
    intro p hp
    simp only [partialInner]
    rw [rd_getD 0 hp, bind_ok, wr_of_lt hp, bind_ok]
    have h1 : (p.set (j + 1) (p.getD (j + 1) 0 * nd))[j + 1]? = some (p.getD (j + 1) 0 * nd) := by
      rw [getElem?_set_of_lt hp, if_pos rfl]
    have h2 : (p.set (j + 1) (p.getD (j + 1) 0 * nd))[j]? = some (p.getD j 0) := by
      rw [getElem?_set_of_lt hp, if_neg (by omega)]
      exact getElem?_eq_some_getD 0 (by omega)
    rw [rd_of_getElem? h1, bind_ok, rd_of_getElem? h2, bind_ok, wr_of_lt (by simpa using hp), bind_ok,
      List.set_set]
    refine Sat.mono (ih _ (by simp; omega)) ?_
    rintro r ⟨hl, hr⟩
    refine ⟨by rw [hl]; simp, fun t => ?_⟩
    rw [hr t]
    have hg : ∀ s, s ≠ j + 1 → (p.set (j + 1) (p.getD (j + 1) 0 * nd + p.getD j 0)).getD s 0 =
        p.getD s 0 := by
      intro s hs
      rw [List.getD_eq_getElem?_getD, getElem?_set_of_lt hp, if_neg hs, ← List.getD_eq_getElem?_getD]
    by_cases ht : 1 ≤ t ∧ t ≤ j
    · rw [if_pos ht, if_pos (by omega), hg t (by omega), hg (t - 1) (by omega)]
    · rw [if_neg ht, getElem?_set_of_lt hp]
      by_cases ht2 : t = j + 1
      · subst ht2
        rw [if_pos rfl, if_pos (by omega)]; rfl
      · rw [if_neg ht2, if_neg (by omega)]

theorem coeff_mul_X_sub_C' (p : F[X]) (a : F) (n : Nat) :
    (p * (X - C a)).coeff n = (if n = 0 then 0 else p.coeff (n - 1)) - p.coeff n * a := by
  rw [mul_sub, coeff_sub, coeff_mul_C]
  congr 1
  cases n with
  | zero => simp
  | succ n => simp

/-- The partial zero polynomial is the product of the linear factors. -/
theorem zeroPolyPartial_spec (fs : FFTSettings F) (idxs : List Nat) (stride : Nat) (r : Nat → F)
    (hne : idxs ≠ []) (hr : ∀ i ∈ idxs, fs.expandedRoots[i * stride]? = some (r i)) :
    fs.zeroPolyPartial idxs stride =
      .ok ((List.range (idxs.length + 1)).map (linProd r idxs).coeff) := by
  have hpos : 0 < idxs.length := List.length_pos_iff.mpr hne
  unfold FFTSettings.zeroPolyPartial
  rw [if_neg (by simpa using hne)]
  have hrd : ∀ i < idxs.length, fs.expandedRoots[idxs.getD i 0 * stride]? = some (r (idxs.getD i 0)) := by
    intro i hi
    refine hr _ ?_
    exact List.mem_of_getElem? (getElem?_eq_some_getD 0 hi)
  simp only
  rw [rd_getD 0 hpos, bind_ok, rd_of_getElem? (hrd 0 hpos), bind_ok, wr_of_lt (by simp), bind_ok]
  have key : Sat (forRange 1 idxs.length ((List.replicate (idxs.length + 1) (1 : F)).set 0
      (-(r (idxs.getD 0 0)))) fun i poly => do
      let ii ← rd idxs i
      let r ← rd fs.expandedRoots (ii * stride)
      let poly ← wr poly i (-r)
      let negDi ← rd poly i
      let x ← rd poly i
      let y ← rd poly (i - 1)
      let poly ← wr poly i (x + y)
      let poly ← partialInner negDi (i - 1) poly
      let z ← rd poly 0
      wr poly 0 (z * negDi)) (fun p : List F => p.length = idxs.length + 1 ∧
        (∀ t < idxs.length, p[t]? = some ((linProd r (idxs.take idxs.length)).coeff t)) ∧
        ∀ t, idxs.length ≤ t → t ≤ idxs.length → p[t]? = some 1) := by
    refine forRange_inv (fun i (p : List F) => p.length = idxs.length + 1 ∧
        (∀ t < i, p[t]? = some ((linProd r (idxs.take i)).coeff t)) ∧
        ∀ t, i ≤ t → t ≤ idxs.length → p[t]? = some 1) (by omega) ?_ ?_
    · refine ⟨by simp, ?_, ?_⟩
      · intro t ht
        have : t = 0 := by omega
        subst this
        rw [getElem?_set_of_lt (by simp), if_pos rfl, linProd_take_succ r idxs 0 hpos]
        simp [linProd]
      · intro t h1 h2
        rw [getElem?_set_of_lt (by simp), if_neg (by omega), List.getElem?_replicate,
          if_pos (by omega)]
    · rintro i p h1 hi ⟨hl, hp1, hp2⟩
      set Q := linProd r (idxs.take i) with hQ
      have hQm : Q.Monic := linProd_monic r _
      have hQd : Q.natDegree = i := by rw [hQ, linProd_natDegree]; simp; omega
      have hQi : Q.coeff i = 1 := by rw [← hQd]; exact hQm.coeff_natDegree
      rw [rd_getD 0 hi, bind_ok, rd_of_getElem? (hrd i hi), bind_ok, wr_of_lt (by omega), bind_ok]
      set a := r (idxs.getD i 0) with ha
      have e1 : (p.set i (-a))[i]? = some (-a) := by
        rw [getElem?_set_of_lt (by omega), if_pos rfl]
      have e2 : (p.set i (-a))[i - 1]? = some (Q.coeff (i - 1)) := by
        rw [getElem?_set_of_lt (by omega), if_neg (by omega)]; exact hp1 _ (by omega)
      rw [rd_of_getElem? e1, bind_ok, bind_ok, rd_of_getElem? e2, bind_ok, wr_of_lt (by simp; omega),
        bind_ok, List.set_set]
      obtain ⟨s, hs, hsl, hsv⟩ := partialInner_spec (-a) (i - 1) (p.set i (-a + Q.coeff (i - 1)))
        (by simp; omega)
      rw [hs, bind_ok]
      have hs0 : s[0]? = some (Q.coeff 0) := by
        rw [hsv 0, if_neg (by omega), getElem?_set_of_lt (by omega), if_neg (by omega)]
        exact hp1 0 (by omega)
      have hsl' : s.length = idxs.length + 1 := by rw [hsl]; simp [hl]
      rw [rd_of_getElem? hs0, bind_ok, wr_of_lt (by omega)]
      refine Sat.ok ⟨by simp [hsl'], ?_, ?_⟩
      · intro t ht
        rw [linProd_take_succ r idxs i hi, ← hQ, ← ha, coeff_mul_X_sub_C',
          getElem?_set_of_lt (by omega)]
        by_cases ht0 : t = 0
        · subst ht0; simp
        rw [if_neg ht0, hsv t, if_neg ht0]
        by_cases hti : t = i
        · subst hti
          rw [if_neg (by omega), getElem?_set_of_lt (by omega), if_pos rfl, hQi]
          congr 1; ring
        · rw [if_pos (by omega)]
          have hg : ∀ u, u < i → (p.set i (-a + Q.coeff (i - 1))).getD u 0 = Q.coeff u := by
            intro u hu
            rw [List.getD_eq_getElem?_getD, getElem?_set_of_lt (by omega), if_neg (by omega), hp1 u hu]
            rfl
          rw [hg t (by omega), hg (t - 1) (by omega)]
          congr 1; ring
      · intro t ht1 ht2
        rw [getElem?_set_of_lt (by omega), if_neg (by omega), hsv t, if_neg (by omega),
          getElem?_set_of_lt (by omega), if_neg (by omega)]
        exact hp2 t (by omega) ht2
  obtain ⟨p, hp, hl, h1, h2⟩ := key
  refine hp.trans ?_
  congr 1
  rw [List.take_length] at h1
  apply List.ext_getElem?
  intro t
  rw [List.getElem?_map]
  by_cases ht : t < idxs.length
  · rw [h1 t ht, List.getElem?_range (by omega)]; rfl
  · by_cases ht2 : t = idxs.length
    · rw [h2 t (by omega) (by omega), List.getElem?_range (by omega)]
      have := (linProd_monic r idxs).coeff_natDegree
      rw [linProd_natDegree] at this
      rw [ht2, Option.map_some, this]
    · rw [List.getElem?_eq_none (by omega), List.getElem?_eq_none (by simp; omega)]; rfl

theorem zeroPolyPartial_empty (fs : FFTSettings F) (stride : Nat) :
    ∃ msg, fs.zeroPolyPartial [] stride = .err msg := ⟨_, rfl⟩

/-! ### Reduction -/

theorem padPoly_spec (a : List F) (n : Nat) (h : a.length ≤ n) :
    padPoly a n = .ok ((List.range n).map fun i => a.getD i 0) := by
  rw [padPoly, if_neg (by omega)]
  congr 1
  apply List.ext_getElem?
  intro i
  rw [List.getElem?_map]
  by_cases hi : i < a.length
  · rw [List.getElem?_append_left hi, getElem?_eq_some_getD 0 hi, List.getElem?_range (by omega)]; rfl
  · rw [List.getElem?_append_right (by omega), List.getElem?_replicate]
    by_cases hn : i < n
    · rw [if_pos (by omega), List.getElem?_range hn, Option.map_some,
        List.getD_eq_default _ _ (by omega)]
    · rw [if_neg (by omega), List.getElem?_eq_none (by simp; omega)]; rfl

/-- Sum of the lengths minus one. -/
def degSum (ps : List (List F)) : Nat := (ps.map fun p => p.length - 1).sum

theorem outDegree_spec (ps : List (List F)) (h : ∀ p ∈ ps, p ≠ []) :
    outDegree ps = .ok (degSum ps) := by
  obtain ⟨r, hr, hv⟩ := forRange_inv (body := fun i acc => do
    let p ← rd ps i
    let d ← subU p.length 1
    .ok (acc + d)) (s := 0) (lo := 0) (hi := ps.length)
    (fun i acc => acc = degSum (ps.take i)) (by omega) (by simp [degSum]) (by
      intro i acc _ hi hacc
      have hm : ps.getD i [] ∈ ps := List.mem_of_getElem? (getElem?_eq_some_getD [] hi)
      have hl : 1 ≤ (ps.getD i []).length := List.length_pos_iff.mpr (h _ hm)
      rw [rd_getD [] hi, bind_ok, subU_of_le hl, bind_ok]
      refine Sat.ok ?_
      rw [hacc, List.take_add_one, getElem?_eq_some_getD [] hi]
      simp [degSum])
  rw [List.take_length] at hv
  rw [outDegree, ← hv]
  exact hr

/-- Product of the polynomials of a list. -/
noncomputable def listProd (ps : List (List F)) : F[X] := (ps.map polyOf).prod

theorem listProd_degree : ∀ (ps : List (List F)), (∀ p ∈ ps, p ≠ []) →
    (listProd ps).degree < (degSum ps + 1 : Nat) := by
  intro ps
  induction ps with
  | nil => intro _; simp [listProd, degSum]
  | cons a ps ih =>
    intro h
    have ha : 0 < a.length := List.length_pos_iff.mpr (h a (by simp))
    have h1 := ih (fun p hp => h p (by simp [hp]))
    have e : listProd (a :: ps) = polyOf a * listProd ps := by simp [listProd]
    rw [e]
    refine degree_mul_lt (degree_polyOf_lt a) h1 ?_
    simp [degSum]; omega

theorem FFTSettings.WF.reducePartials_spec {fs : FFTSettings F} {k : Nat} (hwf : fs.WF k) {m : Nat}
    (hm : m ≤ k) (ps : List (List F)) (hne : ps ≠ []) (h : ∀ p ∈ ps, p ≠ [])
    (hfit : degSum ps + 1 ≤ 2 ^ m) :
    fs.reducePartials (2 ^ m) ps =
      .ok ((List.range (degSum ps + 1)).map (listProd ps).coeff) := by
  have hpos : 0 < ps.length := List.length_pos_iff.mpr hne
  have hlen : ∀ p ∈ ps, p.length ≤ 2 ^ m := by
    intro p hp
    have : p.length - 1 ≤ degSum ps :=
      List.single_le_sum (by simp) _ (List.mem_map.mpr ⟨p, hp, rfl⟩)
    omega
  have hmem : ∀ i < ps.length, ps.getD i [] ∈ ps := fun i hi =>
    List.mem_of_getElem? (getElem?_eq_some_getD [] hi)
  unfold FFTSettings.reducePartials
  rw [isPowerOfTwo_two_pow, if_neg (by simp), outDegree_spec ps h, bind_ok, if_neg (by omega)]
  rw [rd_getD [] hpos, bind_ok, padPoly_spec _ _ (hlen _ (hmem 0 hpos)), bind_ok]
  have hev : ∀ p : List F, p.length ≤ 2 ^ m →
      fs.fftFr ((List.range (2 ^ m)).map fun i => p.getD i 0) false = .ok ((List.range (2 ^ m)).map
        fun i => (polyOf p).eval (fs.omega (2 ^ m) ^ i)) := by
    intro p hp
    have := hwf.fft_eval hm ((List.range (2 ^ m)).map fun i => p.getD i 0) (by simp)
    rw [polyOf_pad hp] at this
    exact this
  rw [hev _ (hlen _ (hmem 0 hpos)), bind_ok]
  obtain ⟨e, he, hel⟩ := forRange_inv (lo := 1) (hi := ps.length)
    (s := (List.range (2 ^ m)).map fun i => (polyOf (ps.getD 0 [])).eval (fs.omega (2 ^ m) ^ i))
    (body := fun i evalResult => do
        let p ← rd ps i
        let padded ← padPoly p (2 ^ m)
        let evaluated ← fs.fftFr padded false
        forRange 0 (2 ^ m) evalResult fun j evalResult => do
          let x ← rd evalResult j
          let y ← rd evaluated j
          wr evalResult j (x * y))
    (fun i e => e = (List.range (2 ^ m)).map fun t =>
      (listProd (ps.take i)).eval (fs.omega (2 ^ m) ^ t)) (by omega)
    (by
      rw [List.take_add_one, getElem?_eq_some_getD [] hpos]
      simp [listProd]) (by
      intro i e _ hi hee
      rw [rd_getD [] hi, bind_ok, padPoly_spec _ _ (hlen _ (hmem i hi)), bind_ok,
        hev _ (hlen _ (hmem i hi)), bind_ok]
      refine ⟨(List.range (2 ^ m)).map fun t =>
        (listProd (ps.take i)).eval (fs.omega (2 ^ m) ^ t) *
          (polyOf (ps.getD i [])).eval (fs.omega (2 ^ m) ^ t), ?_, ?_⟩
      · refine fill_loop (by rw [hee]; simp) _ ?_
        intro j s hj hl _ hs2
        have : s[j]? = some ((listProd (ps.take i)).eval (fs.omega (2 ^ m) ^ j)) := by
          rw [hs2 j le_rfl, hee, List.getElem?_map, List.getElem?_range hj]; rfl
        rw [rd_of_getElem? this, bind_ok]
        have h2 : ((List.range (2 ^ m)).map fun t =>
            (polyOf (ps.getD i [])).eval (fs.omega (2 ^ m) ^ t))[j]? =
            some ((polyOf (ps.getD i [])).eval (fs.omega (2 ^ m) ^ j)) := by
          rw [List.getElem?_map, List.getElem?_range hj]; rfl
        rw [rd_of_getElem? h2, bind_ok]
      · refine List.map_congr_left fun t _ => ?_
        rw [List.take_add_one, getElem?_eq_some_getD [] hi]
        simp [listProd])
  rw [List.take_length] at hel
  have := hwf.fft_interp hm e (by rw [hel]; simp) (listProd ps)
    (lt_of_lt_of_le (listProd_degree ps h) (by exact_mod_cast hfit)) (by
      intro i hi
      rw [hel, getD_range_map, if_pos hi])
  rw [he, bind_ok, show fs.fftFr e true = _ from this, bind_ok, sliceTo, if_pos (by simpa using hfit)]
  congr 1
  rw [← List.map_take, List.take_range, Nat.min_eq_left hfit]

theorem FFTSettings.WF.reducePartials_err {fs : FFTSettings F} {k : Nat} (hwf : fs.WF k) (n : Nat)
    (ps : List (List F)) (hne : ps ≠ []) (h : ∀ p ∈ ps, p ≠ [])
    (hbad : ¬ ∃ m, n = 2 ^ m ∧ m ≤ k ∧ degSum ps + 1 ≤ 2 ^ m) :
    ∃ msg, fs.reducePartials n ps = .err msg := by
  have hpos : 0 < ps.length := List.length_pos_iff.mpr hne
  unfold FFTSettings.reducePartials
  by_cases hp2 : isPowerOfTwo n = true
  · obtain ⟨m, rfl⟩ := exists_of_isPowerOfTwo hp2
    rw [hp2, if_neg (by simp), outDegree_spec ps h, bind_ok]
    by_cases hf : degSum ps + 1 > 2 ^ m
    · rw [if_pos hf]; exact ⟨_, rfl⟩
    · rw [if_neg hf]
      have hmk : k < m := by
        by_contra hc
        exact hbad ⟨m, rfl, by omega, by omega⟩
      have hlen : (ps.getD 0 []).length ≤ 2 ^ m := by
        have : (ps.getD 0 []).length - 1 ≤ degSum ps :=
          List.single_le_sum (by simp) _ (List.mem_map.mpr
            ⟨_, List.mem_of_getElem? (getElem?_eq_some_getD [] hpos), rfl⟩)
        omega
      rw [rd_getD [] hpos, bind_ok, padPoly_spec _ _ hlen, bind_ok, FFTSettings.fftFr,
        FFTSettings.fft, if_pos]
      · exact ⟨_, rfl⟩
      · rw [hwf.width, List.length_map, List.length_range]
        exact Nat.pow_lt_pow_right (by omega) hmk
  · rw [if_pos (by simpa using hp2)]; exact ⟨_, rfl⟩

end Kzg
