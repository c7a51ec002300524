import Verif.Model.BenchZero
import Verif.Proofs.BenchRecover
import Verif.Proofs.ZeroPoly
/-!
# The shared tests of zero polynomials: when they pass
-/

set_option linter.unusedSectionVars false

namespace Kzg.Bench
open Kzg Kzg.Res Kzg.Props Polynomial

variable {F : Type} [Field F] [DecidableEq F]

/-- A loop of assertions panics if one of them does not hold. -/
theorem each_panic {n : Nat} {body : Nat → Res Unit} {b : Nat → Bool} (hb : ∀ i < n, body i = assertT (b i))
    (hex : ∃ i, i < n ∧ b i = false) : each n body = .panic := by
  classical
  have hk := Nat.find_spec hex
  have hmin := fun i => Nat.find_min (H := hex) (m := i)
  generalize Nat.find hex = k at hk hmin
  unfold each
  refine forRange_panic k (fun _ _ => True) (by omega) hk.1 trivial (fun i _ _ hi _ => ?_) fun _ _ => ?_
  · refine ⟨(), (hb i (by omega)).trans (assertT_true ?_), trivial⟩
    cases hbi : b i with
    | true => rfl
    | false => exact absurd ⟨by omega, hbi⟩ (hmin i hi)
  · refine (hb k hk.1).trans ?_
    rw [hk.2]; rfl

/-- What the tests of zero polynomials need of an interface, with the sign `e` of the inverse transform. -/
structure ZeroBase (A : ZeroApi F) (ω e : F) (scale : Nat) : Prop where
  width : A.maxWidth = 2 ^ scale
  prim : IsPrimitiveRoot ω (2 ^ scale)
  root : ∀ i < 2 ^ scale, A.rootAt i = .ok (ω ^ i)
  eval : ∀ p : List F, p.length ≠ 1 → ∀ x, A.eval p x = .ok ((polyOf p).eval x)
  back : ∀ l : List F, l.length = 2 ^ scale →
    A.fft (codeword ω (2 ^ scale) (polyOf l)) true = .ok (l.map fun x => e * x)

/-- The result of `zero_poly_via_multiplication` for this list of positions. -/
def ZeroResult (A : ZeroApi F) (ω : F) (scale : Nat) (missing : List Nat) : Prop :=
  ∃ ev co : List F, A.zero (2 ^ scale) missing = .ok (ev, co) ∧ ev.length = 2 ^ scale ∧ co.length = 2 ^ scale ∧
    polyOf co ≠ 0 ∧ ∀ j < 2 ^ scale, ∃ y, ev[j]? = some y ∧ y = (polyOf co).eval (ω ^ j) ∧ (y = 0 ↔ j ∈ missing)

theorem zeroCheck_eq {A : ZeroApi F} {ω e : F} {scale : Nat} (h : ZeroBase A ω e scale) (h1 : 1 ≤ scale) {missing : List Nat}
    (hm : ∀ i ∈ missing, i < 2 ^ scale) (hr : ZeroResult A ω scale missing) :
    ∃ co : List F, co.length = 2 ^ scale ∧ polyOf co ≠ 0 ∧
      zeroCheck A missing = (each (2 ^ scale) fun i => do
        let c ← rd co i
        let b ← rd (co.map fun x => e * x) i
        assertT (c == b)) := by
  obtain ⟨ev, co, hz, hel, hcl, hne, hv⟩ := hr
  have hev : ev = codeword ω (2 ^ scale) (polyOf co) := by
    apply List.ext_getElem?
    intro j
    rw [codeword, List.getElem?_map]
    by_cases hj : j < 2 ^ scale
    · obtain ⟨y, hy, e', -⟩ := hv j hj
      rw [hy, List.getElem?_range hj, e']; rfl
    · rw [List.getElem?_eq_none (by omega), List.getElem?_eq_none (by simpa using hj)]; rfl
  have hp2 : 2 ≤ 2 ^ scale := by
    calc 2 = 2 ^ 1 := rfl
      _ ≤ 2 ^ scale := Nat.pow_le_pow_right (by norm_num) h1
  refine ⟨co, hcl, hne, ?_⟩
  unfold zeroCheck
  rw [h.width, hz, unwrap, bind_ok]
  dsimp only
  rw [each_ok (fun i hi => ?_), bind_ok, hev, h.back co hcl, unwrap, bind_ok, hcl]
  · generalize (each (2 ^ scale) fun i => do
      let c ← rd co i
      let b ← rd (co.map fun x => e * x) i
      assertT (c == b)) = m
    cases m with
    | ok u =>
      rw [bind_ok]
      exact eachFrom_ok le_rfl fun i h1 h2 => absurd h2 (by omega)
    | err m => rfl
    | panic => rfl
  · have hmem : missing[i] ∈ missing := List.getElem_mem hi
    have hlt := hm _ hmem
    obtain ⟨y, -, e1, e2⟩ := hv _ hlt
    rw [rd_of_getElem? (List.getElem?_eq_getElem hi), bind_ok, h.root _ hlt, bind_ok, h.eval co (by omega), bind_ok, ← e1, e2.2 hmem]
    exact assertT_true (beq_self_eq_true _)

theorem zeroCheck_ok {A : ZeroApi F} {ω : F} {scale : Nat} (h : ZeroBase A ω 1 scale) (h1 : 1 ≤ scale) {missing : List Nat}
    (hm : ∀ i ∈ missing, i < 2 ^ scale) (hr : ZeroResult A ω scale missing) : zeroCheck A missing = .ok () := by
  obtain ⟨co, hl, -, e⟩ := zeroCheck_eq h h1 hm hr
  rw [e]
  refine each_ok fun i hi => ?_
  have hlt : i < co.length := by omega
  rw [rd_of_getElem? (List.getElem?_eq_getElem hlt), bind_ok, rd_of_getElem? (x := co[i]) (by
    rw [List.getElem?_map, List.getElem?_eq_getElem hlt, Option.map_some, one_mul]), bind_ok]
  exact assertT_true (beq_self_eq_true _)

theorem zeroCheck_negated {A : ZeroApi F} {ω : F} {scale : Nat} (h : ZeroBase A ω (-1) scale) (h1 : 1 ≤ scale) (htwo : (2 : F) ≠ 0)
    {missing : List Nat} (hm : ∀ i ∈ missing, i < 2 ^ scale) (hr : ZeroResult A ω scale missing) : zeroCheck A missing = .panic := by
  obtain ⟨co, hl, hne, e⟩ := zeroCheck_eq h h1 hm hr
  rw [e]
  refine each_panic (b := fun i => co.getD i 0 == -1 * co.getD i 0) (fun i hi => ?_) ?_
  · have hlt : i < co.length := by omega
    rw [rd_of_getElem? (List.getElem?_eq_getElem hlt), bind_ok, rd_of_getElem? (x := -1 * co[i]) (by
      rw [List.getElem?_map, List.getElem?_eq_getElem hlt, Option.map_some]), bind_ok, List.getD_eq_getElem?_getD,
      List.getElem?_eq_getElem hlt]
    rfl
  · by_contra hcon
    push Not at hcon
    apply hne
    ext i
    rw [coeff_polyOf, coeff_zero]
    by_cases hi : i < 2 ^ scale
    · have h2 : co.getD i 0 = -1 * co.getD i 0 := by
        have := hcon i hi
        rwa [ne_eq, Bool.not_eq_false, beq_iff_eq] at this
      have h3 : 2 * co.getD i 0 = 0 := by linear_combination h2
      exact (mul_eq_zero.mp h3).resolve_left htwo
    · rw [List.getD_eq_getElem?_getD, List.getElem?_eq_none (by omega)]; rfl

/-! ### Which positions are missing -/

theorem bits_ok (N : Nat) (bit : Nat → Bool) :
    (forRange 0 N [] fun i v => .ok (if bit i then v ++ [i] else v) : Res (List Nat)) = .ok ((List.range N).filter bit) := by
  obtain ⟨v, hv, e⟩ := forRange_inv (lo := 0) (hi := N) (s := ([] : List Nat))
    (body := fun i v => .ok (if bit i then v ++ [i] else v)) (fun i v => v = (List.range i).filter bit) (by omega) (by simp)
    (fun i v _ _ e => ⟨_, rfl, by
      rw [e, List.range_succ, List.filter_append]
      cases hb : bit i <;> simp [List.filter_cons, hb]⟩)
  rw [hv, e]

theorem zeroRandom_eq {A : ZeroApi F} {scale : Nat} (hw : A.maxWidth = 2 ^ scale) (bit : Nat → Bool) :
    zeroRandom A bit = if ((List.range (2 ^ scale)).filter bit).length = 2 ^ scale then .ok ()
      else zeroCheck A ((List.range (2 ^ scale)).filter bit) := by
  unfold zeroRandom
  rw [hw, bits_ok, bind_ok]

theorem zeroAllButOne_eq {A : ZeroApi F} {scale : Nat} (hw : A.maxWidth = 2 ^ scale) :
    zeroAllButOne A = zeroCheck A ((List.range (2 ^ scale - 1)).map (· + 1)) := by
  unfold zeroAllButOne
  rw [hw, subU_of_le Nat.one_le_two_pow, bind_ok, tab_ok (g := fun i => i + 1) (fun _ _ => rfl), bind_ok]

theorem zero252_eq (A : ZeroApi F) : zero252 A = zeroCheck A (List.range 252) := by
  unfold zero252
  rw [tab_ok (g := fun i => i) (fun _ _ => rfl), bind_ok, List.map_id']

/-! ### Partial products -/

/-- What the test of `reduce_partials` needs of an interface. -/
structure PartBase (A : ZeroApi F) (ω : F) (scale : Nat) : Prop where
  width : A.maxWidth = 2 ^ scale
  part : ∀ idxs : List Nat, idxs ≠ [] → (∀ i ∈ idxs, i < 2 ^ scale) → ∃ out, A.part idxs 1 = .ok out ∧
    out.length = idxs.length + 1 ∧ polyOf out = linProd (fun i => ω ^ i) idxs
  reduce : ∀ ps : List (List F), ps ≠ [] → (∀ p ∈ ps, p ≠ []) → (ps.map fun p => p.length - 1).sum + 1 ≤ 2 ^ scale →
    ∃ out, A.reduce (2 ^ scale) ps = .ok out ∧ out.length = (ps.map fun p => p.length - 1).sum + 1 ∧ polyOf out = (ps.map polyOf).prod

theorem copyIdxs {order idxs : List Nat} {i size : Nat} (hi : idxs.length = 63) (hs : size ≤ 63) (ho : i * 63 + size ≤ order.length) :
    ∃ r : List Nat, (forRange 0 size idxs fun j idxs => do
      let m ← rd order (i * 63 + j)
      wr idxs j m) = .ok r ∧ r.length = 63 ∧ r.take size = (order.drop (i * 63)).take size := by
  refine forRange_inv (lo := 0) (hi := size) (s := idxs)
    (fun j v => v.length = 63 ∧ v.take j = (order.drop (i * 63)).take j) (by omega) ⟨hi, by simp⟩ ?_
  intro j v _ hj ⟨hl, e⟩
  have h1 : i * 63 + j < order.length := by omega
  refine ⟨v.set j order[i * 63 + j], ?_, by rw [List.length_set, hl], ?_⟩
  · rw [rd_of_getElem? (List.getElem?_eq_getElem h1), bind_ok, wr_of_lt (by omega)]
  · rw [List.take_add_one, List.take_set_of_le le_rfl, e, List.getElem?_set_self (by omega), List.take_add_one, List.getElem?_drop,
      List.getElem?_eq_getElem h1]

theorem reduceParts_ok {A : ZeroApi F} {ω : F} {scale : Nat} (h : PartBase A ω scale) {order : List Nat} {count : Nat}
    (ho : ∀ i ∈ order, i < 2 ^ scale) (hc : count ≤ order.length) (h1 : 1 ≤ count) :
    ∃ ps, reduceParts A order count = .ok ps ∧ ps ≠ [] ∧ (∀ p ∈ ps, p ≠ []) ∧ (ps.map fun p => p.length - 1).sum = count ∧
      (ps.map polyOf).prod = linProd (fun i => ω ^ i) (order.take count) := by
  obtain ⟨s, hs, -, hlen, hne, hsum, hprod⟩ := forRange_inv (lo := 0) (hi := (count + 63 - 1) / 63)
    (s := ((List.replicate 63 0, []) : List Nat × List (List F))) (body := fun i s => do
      let start := i * 63
      let stop := if start + 63 > count then count else start + 63
      let size ← subU stop start
      let idxs ← forRange 0 size s.1 fun j idxs => do
        let m ← rd order (i * 63 + j)
        wr idxs j m
      let sl ← sliceTo idxs size
      let p ← (A.part sl 1).unwrap
      .ok (idxs, s.2 ++ [p]))
    (fun i s => s.1.length = 63 ∧ s.2.length = i ∧ (∀ p ∈ s.2, p ≠ []) ∧ (s.2.map fun p => p.length - 1).sum = min (i * 63) count ∧
      (s.2.map polyOf).prod = linProd (fun i => ω ^ i) (order.take (min (i * 63) count))) (by omega)
    ⟨by simp, rfl, by simp, by simp, by simp [linProd_nil]⟩ (by
      rintro i ⟨idxs, ps⟩ _ hi ⟨h63, hl, hn, hs, hp⟩
      have hlt : i * 63 < count := by omega
      have hmin : min (i * 63) count = i * 63 := by omega
      obtain ⟨size, hsz, hsz'⟩ : ∃ size, size = (if i * 63 + 63 > count then count else i * 63 + 63) - i * 63 ∧ 0 < size ∧
          size ≤ 63 ∧ i * 63 + size ≤ count ∧ min ((i + 1) * 63) count = i * 63 + size := ⟨_, rfl, by split <;> omega⟩
      obtain ⟨hpos, h3, h4, h5⟩ := hsz'
      obtain ⟨r, hr, hrl, hrt⟩ := copyIdxs (order := order) (i := i) h63 h3 (by omega)
      have hchunk : r.take size = (order.drop (i * 63)).take size := hrt
      have hcl : (r.take size).length = size := by rw [List.length_take]; omega
      obtain ⟨out, ho1, ho2, ho3⟩ := h.part (r.take size) (by rw [← List.length_pos_iff]; omega) (by
        intro x hx
        rw [hchunk] at hx
        exact ho x (List.mem_of_mem_drop (List.mem_of_mem_take hx)))
      refine ⟨(r, ps ++ [out]), ?_, hrl, by simp [hl], ?_, ?_, ?_⟩
      · dsimp only
        rw [subU_of_le (by split <;> omega), bind_ok, ← hsz, hr, bind_ok, sliceTo, if_pos (by omega), bind_ok, ho1, unwrap, bind_ok]
      · intro p hp
        rcases List.mem_append.1 hp with hp | hp
        · exact hn p hp
        · rw [List.mem_singleton] at hp
          rw [hp, ← List.length_pos_iff]; omega
      · rw [List.map_append, List.sum_append, hs, h5, hmin, List.map_singleton, List.sum_singleton, ho2, hcl]; omega
      · rw [List.map_append, List.prod_append, hp, hmin, h5, List.map_singleton, List.prod_singleton, ho3, hchunk, ← linProd_append,
          ← List.take_add])
  have hcnt : min ((count + 63 - 1) / 63 * 63) count = count := by omega
  rw [hcnt] at hsum hprod
  refine ⟨s.2, ?_, ?_, hne, hsum, hprod⟩
  · unfold reduceParts
    rw [hs]; rfl
  · rw [← List.length_pos_iff, hlen]; omega

/-- The two polynomials of the test are the same: it would pass with an assertion as well. -/
theorem reduceRandom_ok {A : ZeroApi F} {ω : F} {scale : Nat} (h : PartBase A ω scale) {order : List Nat} {count : Nat}
    (ho : ∀ i ∈ order, i < 2 ^ scale) (hc : count ≤ order.length) (h1 : 1 ≤ count) (h2 : count < 2 ^ scale) :
    reduceRandom A insist order count = .ok () ∧ reduceRandom A discard order count = .ok () := by
  obtain ⟨ps, hps, hne, hn, hsum, hprod⟩ := reduceParts_ok h ho hc h1
  obtain ⟨tree, ht, htl, htp⟩ := h.reduce ps hne hn (by omega)
  have hfl : (order.take count).length = count := by rw [List.length_take]; omega
  obtain ⟨direct, hd, hdl, hdp⟩ := h.part (order.take count) (by rw [← List.length_pos_iff]; omega)
    fun i hi => ho i (List.mem_of_mem_take hi)
  have heq : ∀ i, tree.getD i 0 = direct.getD i 0 := by
    intro i
    rw [← coeff_polyOf, ← coeff_polyOf, htp, hprod, hdp]
  have run : ∀ compare : F → F → Res Unit, (∀ x, compare x x = .ok ()) → reduceRandom A compare order count = .ok () := by
    intro compare hcmp
    unfold reduceRandom
    rw [hps, bind_ok, h.width, ht, unwrap, bind_ok, sliceTo, if_pos hc, bind_ok, divU, if_neg (by positivity), bind_ok,
      Nat.div_self (by positivity), hd, unwrap, bind_ok]
    refine each_ok fun i hi => ?_
    have hi1 : i < tree.length := by omega
    have hi2 : i < direct.length := by omega
    have := heq i
    rw [List.getD_eq_getElem?_getD, List.getElem?_eq_getElem hi1, List.getD_eq_getElem?_getD, List.getElem?_eq_getElem hi2,
      Option.getD_some, Option.getD_some] at this
    rw [rd_of_getElem? (List.getElem?_eq_getElem hi1), bind_ok, rd_of_getElem? (List.getElem?_eq_getElem hi2), bind_ok, this, hcmp]
  exact ⟨run _ fun x => assertT_true (beq_self_eq_true _), run _ fun _ => rfl⟩

/-- The test does not look at the coefficients: it passes as soon as the two polynomials have enough of them. -/
theorem reduceRandom_blind {A : ZeroApi F} {N : Nat} (hN : A.maxWidth = N) {order : List Nat} {count : Nat} (hc : count ≤ order.length)
    (h0 : 0 < N) {part : List Nat → List F} (hp : ∀ idxs stride, A.part idxs stride = .ok (part idxs))
    (hpl : ∀ idxs, idxs.length + 1 ≤ (part idxs).length)
    {tree : List F} (ht : ∀ ps, A.reduce N ps = .ok tree) (htl : count + 1 ≤ tree.length) : reduceRandom A discard order count = .ok () := by
  have hparts : ∃ ps, reduceParts A order count = .ok ps := by
    obtain ⟨s, hs, -⟩ := forRange_inv (lo := 0) (hi := (count + 63 - 1) / 63)
      (s := ((List.replicate 63 0, []) : List Nat × List (List F))) (body := fun i s => do
        let start := i * 63
        let stop := if start + 63 > count then count else start + 63
        let size ← subU stop start
        let idxs ← forRange 0 size s.1 fun j idxs => do
          let m ← rd order (i * 63 + j)
          wr idxs j m
        let sl ← sliceTo idxs size
        let p ← (A.part sl 1).unwrap
        .ok (idxs, s.2 ++ [p])) (fun _ s => s.1.length = 63) (by omega) (by simp) (by
        rintro i ⟨idxs, ps⟩ _ hi h63
        obtain ⟨size, hsz, h3, h4⟩ : ∃ size, size = (if i * 63 + 63 > count then count else i * 63 + 63) - i * 63 ∧
            size ≤ 63 ∧ i * 63 + size ≤ count := ⟨_, rfl, by split <;> omega⟩
        obtain ⟨r, hr, hrl, -⟩ := copyIdxs (order := order) (i := i) h63 h3 (by omega)
        refine ⟨(r, ps ++ [part (r.take size)]), ?_, hrl⟩
        dsimp only
        rw [subU_of_le (by split <;> omega), bind_ok, ← hsz, hr, bind_ok, sliceTo, if_pos (by omega), bind_ok, hp, unwrap, bind_ok])
    refine ⟨s.2, ?_⟩
    unfold reduceParts
    rw [hs]; rfl
  obtain ⟨ps, hps⟩ := hparts
  have hfl : (order.take count).length = count := by rw [List.length_take]; omega
  have hdl := hpl (order.take count)
  unfold reduceRandom
  rw [hps, bind_ok, hN, ht, unwrap, bind_ok, sliceTo, if_pos hc, bind_ok, divU, if_neg (by omega), bind_ok, hp, unwrap, bind_ok]
  refine each_ok fun i hi => ?_
  rw [rd_of_getElem? (List.getElem?_eq_getElem (show i < tree.length by omega)), bind_ok,
    rd_of_getElem? (List.getElem?_eq_getElem (show i < (part (order.take count)).length by omega)), bind_ok]
  rfl

end Kzg.Bench
