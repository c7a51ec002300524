import Verif.Model.BenchKnown
import Verif.Props.BenchZero
import Verif.Props.BenchConsts
/-!
# Property C186: the shared tests with precomputed values
-/

set_option linter.unusedSectionVars false

namespace Kzg.Props
open Kzg Kzg.Res Kzg.Bench Kzg.Zk Kzg.Iface Polynomial

/-! ### Tables -/

/-- `n` rows of four words below the modulus. -/
def RowsN (n : Nat) (rows : List (List Nat)) : Prop :=
  rows.length = n ∧ ∀ i < n, Words4 (rows.getD i []) ∧ wordsVal (rows.getD i []) < frModulus

/-- The polynomial with the rows as coefficients. -/
noncomputable def rowsPoly (rows : List (List Nat)) : Fr[X] := polyOf (rows.map fun r => ((wordsVal r : Nat) : Fr))

theorem rowsPoly_coeff {n : Nat} {rows : List (List Nat)} (h : rows.length = n) (i : Nat) :
    (rowsPoly rows).coeff i = if i < n then rowEl rows i else 0 := by
  rw [rowsPoly, coeff_polyOf, List.getD_eq_getElem?_getD, List.getElem?_map]
  split
  · next hi =>
    rw [rowEl, List.getD_eq_getElem?_getD, List.getElem?_eq_getElem (by omega)]; rfl
  · next hi => rw [List.getElem?_eq_none (by omega)]; rfl

/-- The positions that a list of present ones leaves out. -/
def absent (scale : Nat) (present : List Bool) : List Nat := missingOf scale fun i => !(present.getD i true)

/-- The tables are those of the zero polynomial of `missing`: its values at the powers of `w`, and its coefficients. -/
def ZeroTables (w : Fr) (n : Nat) (missing : List Nat) (ev po : List (List Nat)) : Prop :=
  (∀ j < n, rowEl ev j = (missing.map fun i => w ^ j - w ^ i).prod) ∧ rowsPoly po = (missing.map fun i => X - C (w ^ i)).prod

/-- What `check_test_data` asserts: one table has the values of the polynomial in the other, the polynomial is zero at the missing positions,
and its coefficients above the middle are zero. -/
def DataTables (w : Fr) (n : Nat) (missing : List Nat) (ev po : List (List Nat)) : Prop :=
  (∀ j < n, rowEl ev j = (rowsPoly po).eval (w ^ j)) ∧ (∀ i ∈ missing, (rowsPoly po).eval (w ^ i) = 0) ∧
    ∀ i, n / 2 < i → i < n → rowEl po i = 0

/-- The expected values are those at the odd powers of `w` of the polynomial that takes the given values at the even ones. -/
def DasTable (w : Fr) (n : Nat) (value : Nat → Fr) (expected : List (List Nat)) : Prop :=
  expected.length ≤ n ∧ ∃ p : Fr[X], p.degree < n ∧ (∀ i < n, p.eval (w ^ (2 * i)) = value i) ∧
    ∀ i < expected.length, p.eval (w ^ (2 * i + 1)) = rowEl expected i

noncomputable instance (w : Fr) (n : Nat) (missing : List Nat) (ev po : List (List Nat)) : Decidable (ZeroTables w n missing ev po) :=
  Classical.dec _
noncomputable instance (w : Fr) (n : Nat) (missing : List Nat) (ev po : List (List Nat)) : Decidable (DataTables w n missing ev po) :=
  Classical.dec _
noncomputable instance (w : Fr) (n : Nat) (value : Nat → Fr) (expected : List (List Nat)) : Decidable (DasTable w n value expected) :=
  Classical.dec _

/-! ### Loops of assertions -/

theorem passIf_iff {a b : Prop} [Decidable a] [Decidable b] (h : a ↔ b) : passIf a = passIf b := by
  by_cases hb : b
  · rw [passIf_true hb, passIf_true (h.2 hb)]
  · rw [passIf_false hb, passIf_false (mt h.1 hb)]

theorem passIf_bind {a b c : Prop} [Decidable a] [Decidable b] [Decidable c] {q r : Res Unit} (hq : q = passIf a) (hr : r = passIf b)
    (h : a ∧ b ↔ c) : (q >>= fun _ => r) = passIf c := by
  rw [hq]
  by_cases ha : a
  · rw [passIf_true ha, bind_ok, hr]
    exact passIf_iff ⟨fun hb => h.1 ⟨ha, hb⟩, fun hc => (h.2 hc).2⟩
  · rw [passIf_false ha, passIf_false fun hc => ha (h.2 hc).1]; rfl

theorem each_passIf {n : Nat} {body : Nat → Res Unit} {c : Nat → Prop} {d : Prop} [DecidablePred c] [Decidable d]
    (h : ∀ i < n, body i = passIf (c i)) (hd : (∀ i < n, c i) ↔ d) : each n body = passIf d := by
  by_cases hh : ∀ i < n, c i
  · rw [passIf_true (hd.1 hh)]
    exact each_ok fun i hi => by rw [h i hi, passIf_true (hh i hi)]
  · rw [passIf_false (mt hd.2 hh)]
    push Not at hh
    obtain ⟨i, hi, hne⟩ := hh
    exact each_panic (b := fun i => decide (c i)) (fun i hi => by rw [h i hi, assertT_decide]) ⟨i, hi, by simp [hne]⟩

theorem eachFrom_passIf {lo hi : Nat} (hle : lo ≤ hi) {body : Nat → Res Unit} {c : Nat → Prop} {d : Prop} [DecidablePred c] [Decidable d]
    (h : ∀ i, lo ≤ i → i < hi → body i = passIf (c i)) (hd : (∀ i, lo ≤ i → i < hi → c i) ↔ d) : eachFrom lo hi body = passIf d := by
  by_cases hh : ∀ i, lo ≤ i → i < hi → c i
  · rw [passIf_true (hd.1 hh)]
    exact eachFrom_ok hle fun i h1 h2 => by rw [h i h1 h2, passIf_true (hh i h1 h2)]
  · rw [passIf_false (mt hd.2 hh)]
    have hex : ∃ k, (lo ≤ k ∧ k < hi) ∧ ¬ c k := by
      push Not at hh
      obtain ⟨i, h1, h2, h3⟩ := hh
      exact ⟨i, ⟨h1, h2⟩, h3⟩
    classical
    obtain ⟨⟨k1, k2⟩, k3⟩ := Nat.find_spec hex
    have hmin : ∀ j, lo ≤ j → j < Nat.find hex → c j := fun j h1 h2 => by
      by_contra hc
      exact Nat.find_min hex h2 ⟨⟨h1, by omega⟩, hc⟩
    refine forRange_panic (lo := lo) (hi := hi) (Nat.find hex) (fun _ _ => True) k1 k2 trivial
      (fun i s h1 h2 _ => ⟨(), ?_, trivial⟩) fun s _ => ?_
    · rw [h i h1 (by omega), passIf_true (hmin i h1 h2)]
    · rw [h _ k1 k2, passIf_false k3]

section
variable {F : Type} [Field F] [DecidableEq F] {φ : F →+* Fr} {fromWords : List Nat → Res F}

theorem readRows_ok (hφ : ReadsWords φ fromWords) {n : Nat} {rows : List (List Nat)} (hr : RowsN n rows) :
    ∃ xs : List F, readRows fromWords n rows = .ok xs ∧ xs.length = n ∧ (∀ i < n, ∃ x, xs[i]? = some x ∧ φ x = rowEl rows i) ∧
      (polyOf xs).map φ = rowsPoly rows := by
  have key : ∀ i, ∃ x, i < n → (do
      let row ← rd rows i
      fromWords row) = .ok x ∧ φ x = rowEl rows i := by
    intro i
    by_cases hi : i < n
    · obtain ⟨x, hx, hx'⟩ := hφ _ (hr.2 i hi).1 (hr.2 i hi).2
      have hlt : i < rows.length := by rw [hr.1]; exact hi
      refine ⟨x, fun _ => ⟨?_, hx'⟩⟩
      rw [List.getD_eq_getElem _ _ hlt] at hx
      rw [rd_of_lt hlt, bind_ok, hx]
    · exact ⟨0, fun h => absurd h hi⟩
  choose g hg using key
  have hget : ∀ i < n, ((List.range n).map g)[i]? = some (g i) := fun i hi => by rw [List.getElem?_map, List.getElem?_range hi]; rfl
  refine ⟨(List.range n).map g, tab_ok fun i hi => (hg i hi).1, by simp, fun i hi => ⟨g i, hget i hi, (hg i hi).2⟩, ?_⟩
  ext i
  rw [coeff_map, coeff_polyOf, List.getD_eq_getElem?_getD, rowsPoly_coeff hr.1]
  split
  · next hi => rw [hget i hi, Option.getD_some, (hg i hi).2]
  · next hi => rw [List.getElem?_eq_none (by simpa using hi), Option.getD_none, map_zero]

/-! ### The extension -/

/-- What the test of the extension needs: the odd values of the polynomial through the even ones. -/
def DasBase (A : RecApi F) (w : F) (m : Nat) : Prop := A.maxWidth = 2 ^ (m + 1) ∧ IsPrimitiveRoot w (2 ^ (m + 1)) ∧
  ∀ evens : List F, evens.length = 2 ^ m → ∃ p : F[X], p.degree < (2 ^ m : Nat) ∧ (∀ i < 2 ^ m, evens[i]? = some (p.eval (w ^ (2 * i)))) ∧
    A.das evens = .ok ((List.range (2 ^ m)).map fun i => p.eval (w ^ (2 * i + 1)))

theorem dasBase_of {A : RecApi F} {fs : FFTSettings F} {m : Nat} (hwf : fs.WF (m + 1)) (hw : A.maxWidth = fs.maxWidth)
    (hd : ∀ evens : List F, evens.length = 2 ^ m → A.das evens = fs.dasFftExtension evens) : DasBase A fs.rootOfUnity m := by
  have hp2 : 2 ^ (m + 1) = 2 * 2 ^ m := by rw [pow_succ, mul_comm]
  refine ⟨by rw [hw, hwf.width], hwf.prim, fun evens hl => ?_⟩
  obtain ⟨odds, -, -, h1, h2, -, -, -, coeffs, h3, h4, h5⟩ := das_extension_of hwf le_rfl evens hl
  have hil : (interleave evens odds).length = 2 ^ (m + 1) := by rw [interleave_length _ _ (by omega), hl, hp2]
  have hrt := hwf.fft_roundtrip' le_rfl _ hil
  rw [show fs.fft (interleave evens odds) true = _ from h3, bind_ok, hwf.fft_eval le_rfl _ h4, FFTSettings.omega, hwf.width,
    Nat.div_self (by positivity), pow_one] at hrt
  have hget : ∀ i < 2 ^ (m + 1), (interleave evens odds)[i]? = some ((polyOf coeffs).eval (fs.rootOfUnity ^ i)) := fun i hi => by
    rw [← Res.ok.inj hrt, List.getElem?_map, List.getElem?_range hi]; rfl
  have hil2 := interleave_getElem? evens odds (by omega)
  refine ⟨polyOf coeffs, ?_, fun i hi => ?_, ?_⟩
  · rw [degree_lt_iff_coeff_zero]
    intro i hi
    rw [coeff_polyOf, List.getD_eq_getElem?_getD]
    by_cases h : i < 2 ^ (m + 1)
    · rw [h5 i hi h]; rfl
    · rw [List.getElem?_eq_none (by omega)]; rfl
  · rw [← (hil2 i).1, hget _ (by omega)]
  · rw [hd evens hl, h1]
    congr 1
    apply List.ext_getElem?
    intro i
    by_cases hi : i < 2 ^ m
    · rw [← (hil2 i).2, hget _ (by omega), List.getElem?_map, List.getElem?_range hi]; rfl
    · rw [List.getElem?_eq_none (by omega), List.getElem?_eq_none (by simpa using hi)]

/-- Polynomials of degree below `n` with the same values at `n` distinct points. -/
theorem poly_unique {K : Type} [Field K] {p q : K[X]} {n : Nat} {x : Nat → K} (hx : ∀ i < n, ∀ j < n, x i = x j → i = j) (hp : p.degree < n)
    (hq : q.degree < n) (h : ∀ i < n, p.eval (x i) = q.eval (x i)) : p = q := by
  classical
  refine eq_of_degrees_lt_of_eval_index_eq (s := Finset.range n) (v := x) ?_ (by simpa using hp) (by simpa using hq) ?_
  · intro i hi j hj e
    exact hx i (by simpa using hi) j (by simpa using hj) e
  · intro i hi
    exact h i (by simpa using hi)

theorem dasKnownT_eq (hφ : ReadsWords φ fromWords) {A : RecApi F} {w : F} {m : Nat} (h : DasBase A w m) (value : Nat → F)
    {expected : List (List Nat)} (hr : RowsN expected.length expected) :
    dasKnownT A fromWords value expected = passIf (DasTable (φ w) (2 ^ m) (fun i => φ (value i)) expected) := by
  obtain ⟨hw, hprim, hdas⟩ := h
  have hp2 : 2 ^ (m + 1) = 2 * 2 ^ m := by rw [pow_succ, mul_comm]
  obtain ⟨p, hp1, hp3, hp4⟩ := hdas ((List.range (2 ^ m)).map value) (by simp)
  have hev : ∀ i < 2 ^ m, p.eval (w ^ (2 * i)) = value i := fun i hi => by
    have := hp3 i hi
    rw [List.getElem?_map, List.getElem?_range hi] at this
    exact (Option.some.inj this).symm
  have hmap : ∀ k, (p.map φ).eval (φ w ^ k) = φ (p.eval (w ^ k)) := fun k => by rw [← map_pow, eval_map_apply]
  have hφprim : IsPrimitiveRoot (φ w) (2 ^ (m + 1)) := hprim.map_of_injective φ.injective
  have huniq : ∀ q : Fr[X], q.degree < (2 ^ m : Nat) → (∀ i < 2 ^ m, q.eval (φ w ^ (2 * i)) = φ (value i)) → q = p.map φ := by
    intro q hq hqv
    refine poly_unique (x := fun i => φ w ^ (2 * i)) ?_ hq ((degree_map_le).trans_lt hp1) fun i hi => ?_
    · intro i hi j hj e
      have := hφprim.pow_inj (i := 2 * i) (j := 2 * j) (by omega) (by omega) e
      omega
    · rw [hqv i hi, hmap, hev i hi]
  unfold dasKnownT
  rw [hw, show 2 ^ (m + 1) / 2 = 2 ^ m by omega, tab_ok (g := value) fun i _ => rfl, bind_ok, hp4, unwrap, bind_ok]
  by_cases hle : expected.length ≤ 2 ^ m
  · refine each_passIf (c := fun i => (p.map φ).eval (φ w ^ (2 * i + 1)) = rowEl expected i) (fun i hi => ?_) ?_
    · obtain ⟨x, hx, hx'⟩ := hφ _ (hr.2 i hi).1 (hr.2 i hi).2
      rw [List.getD_eq_getElem _ _ hi] at hx
      rw [rd_of_lt hi, bind_ok, hx, bind_ok, rd_of_getElem? (x := p.eval (w ^ (2 * i + 1))) (by
        rw [List.getElem?_map, List.getElem?_range (by omega)]; rfl), bind_ok]
      change assertT (decide (x = _)) = _
      rw [assertT_decide]
      refine passIf_iff ?_
      rw [hmap, ← φ.injective.eq_iff, hx', eq_comm]; rfl
    · constructor
      · intro hall
        exact ⟨hle, p.map φ, (degree_map_le).trans_lt hp1, fun i hi => by rw [hmap, hev i hi], hall⟩
      · rintro ⟨-, q, hq1, hq2, hq3⟩ i hi
        rw [← huniq q hq1 hq2]
        exact hq3 i hi
  · rw [passIf_false fun hh => hle hh.1]
    have hc : (2 ^ m) < expected.length := by omega
    refine each_panic (b := fun i => decide (i < 2 ^ m ∧ (p.map φ).eval (φ w ^ (2 * i + 1)) = rowEl expected i)) (fun i hi => ?_)
      ⟨2 ^ m, hc, by simp⟩
    obtain ⟨x, hx, hx'⟩ := hφ _ (hr.2 i hi).1 (hr.2 i hi).2
    rw [List.getD_eq_getElem _ _ hi] at hx
    rw [rd_of_lt hi, bind_ok, hx, bind_ok]
    by_cases hi2 : i < 2 ^ m
    · rw [rd_of_getElem? (x := p.eval (w ^ (2 * i + 1))) (by
        rw [List.getElem?_map, List.getElem?_range (by omega)]; rfl), bind_ok]
      change assertT (decide (x = _)) = _
      rw [assertT_decide, assertT_decide]
      refine passIf_iff ?_
      rw [hmap, ← φ.injective.eq_iff, hx', eq_comm, and_iff_right hi2]; rfl
    · rw [rd, List.getElem?_eq_none (by simpa using hi2)]
      rw [assertT_decide, passIf_false fun hh => hi2 hh.1]; rfl

/-! ### Zero polynomials -/

/-- What the tests of zero polynomials with precomputed values need of a backend. -/
structure KnownBase (A : ZeroApi F) (fs : FFTSettings F) (scale : Nat) : Prop where
  wf : fs.WF scale
  width : A.maxWidth = 2 ^ scale
  root : ∀ i < 2 ^ scale, A.rootAt i = .ok (fs.rootOfUnity ^ i)
  eval : ∀ p : List F, p.length ≠ 1 → ∀ x, A.eval p x = .ok ((polyOf p).eval x)
  back : ∀ l : List F, l.length = 2 ^ scale → A.fft l true = fs.fft l true
  zero : ∀ missing : List Nat, (∀ i ∈ missing, i < 2 ^ scale) → missing ≠ [] → missing.length < 2 ^ scale →
    missing.length ≤ 63 * (2 ^ scale / 64 + 1) → ∃ ev co : List F, A.zero (2 ^ scale) missing = .ok (ev, co) ∧ ev.length = 2 ^ scale ∧
      co.length = 2 ^ scale ∧ polyOf co = (missing.map fun i => X - C (fs.rootOfUnity ^ i)).prod ∧
      ∀ j < 2 ^ scale, ∃ y, ev[j]? = some y ∧ y = (polyOf co).eval (fs.rootOfUnity ^ j)

theorem map_linProd (w : F) (l : List Nat) :
    ((l.map fun i => X - C (w ^ i)).prod).map φ = (l.map fun i => X - C (φ w ^ i)).prod := by
  induction l with
  | nil => simp
  | cons a l ih => simp only [List.map_cons, List.prod_cons, Polynomial.map_mul, ih]; simp

theorem eval_linProd (w x : Fr) (l : List Nat) : ((l.map fun i => X - C (w ^ i)).prod).eval x = (l.map fun i => x - w ^ i).prod := by
  induction l with
  | nil => simp
  | cons a l ih => simp only [List.map_cons, List.prod_cons, eval_mul, ih]; simp

theorem absent_ok {scale : Nat} {present : List Bool} (hp : present.length = 2 ^ scale) :
    (forRange 0 (2 ^ scale) [] fun i v => do
      let b ← rd present i
      .ok (if b then v else v ++ [i])) = .ok (absent scale present) := by
  obtain ⟨v, hv, e⟩ := forRange_inv (lo := 0) (hi := 2 ^ scale) (s := ([] : List Nat)) (body := fun i v => do
      let b ← rd present i
      .ok (if b then v else v ++ [i])) (fun i v => v = (List.range i).filter fun i => !(present.getD i true)) (by omega) (by simp) (by
      rintro i v _ hi rfl
      have hlt : i < present.length := by omega
      refine ⟨_, by rw [rd_of_lt hlt, bind_ok], ?_⟩
      rw [List.range_succ, List.filter_append, List.filter_singleton, List.getD_eq_getElem _ _ hlt]
      cases present[i] <;> simp)
  rw [hv, e]; rfl

theorem zeroKnownT_eq (hφ : ReadsWords φ fromWords) {A : ZeroApi F} {fs : FFTSettings F} {scale : Nat} (h : KnownBase A fs scale)
    {present : List Bool} (hp : present.length = 2 ^ scale) {ev po : List (List Nat)} (he : RowsN (2 ^ scale) ev)
    (hc : RowsN (2 ^ scale) po) (hne : absent scale present ≠ []) (hlt : (absent scale present).length < 2 ^ scale)
    (hs : (absent scale present).length ≤ 63 * (2 ^ scale / 64 + 1)) :
    zeroKnownT A fromWords present ev po =
      passIf (ZeroTables (φ fs.rootOfUnity) (2 ^ scale) (absent scale present) ev po) := by
  obtain ⟨xs, hx, hxl, hxv, -⟩ := readRows_ok hφ he
  obtain ⟨cs, hcs, hcl, hcv, -⟩ := readRows_ok hφ hc
  obtain ⟨ze, zp, hz, hzl, hpl, hpp, hzv⟩ := h.zero (absent scale present) missingOf_lt hne hlt hs
  have hmap : (polyOf zp).map φ = ((absent scale present).map fun i => X - C (φ fs.rootOfUnity ^ i)).prod := by
    rw [hpp]; exact map_linProd _ _
  unfold zeroKnownT
  rw [h.width, hx, bind_ok, hcs, bind_ok, absent_ok hp, bind_ok, hz, unwrap, bind_ok]
  dsimp only
  rw [hxl]
  refine each_passIf (c := fun j => rowEl ev j = ((absent scale present).map fun i => φ fs.rootOfUnity ^ j - φ fs.rootOfUnity ^ i).prod ∧
    rowEl po j = (((absent scale present).map fun i => X - C (φ fs.rootOfUnity ^ i)).prod).coeff j) (fun j hj => ?_) ?_
  · obtain ⟨x, hx1, hx2⟩ := hxv j hj
    obtain ⟨c, hc1, hc2⟩ := hcv j hj
    obtain ⟨y, hy1, hy2⟩ := hzv j hj
    have hzj : j < zp.length := by omega
    rw [rd_of_getElem? hx1, bind_ok, rd_of_getElem? hy1, bind_ok]
    refine passIf_bind (b := c = zp[j]) (assertT_decide (x = y)) ?_ ?_
    · rw [rd_of_getElem? hc1, bind_ok, rd_of_lt hzj, bind_ok]
      exact assertT_decide _
    · refine and_congr ?_ ?_
      · rw [← φ.injective.eq_iff, hx2, hy2, ← eval_map_apply, hmap, eval_linProd, map_pow]
      · rw [← φ.injective.eq_iff, hc2, ← hmap, coeff_map, coeff_polyOf, List.getD_eq_getElem _ _ hzj]
  · constructor
    · refine fun hall => ⟨fun j hj => (hall j hj).1, ?_⟩
      ext i
      rw [rowsPoly_coeff hc.1]
      split
      · next hi => exact (hall i hi).2
      · next hi => rw [← hmap, coeff_map, coeff_polyOf, List.getD_eq_default _ _ (by omega), map_zero]
    · rintro ⟨h1, h2⟩ j hj
      refine ⟨h1 j hj, ?_⟩
      rw [← h2, rowsPoly_coeff hc.1, if_pos hj]

theorem mem_absent {scale : Nat} {present : List Bool} (hp : present.length = 2 ^ scale) {i : Nat} :
    i ∈ absent scale present ↔ ∃ h : i < present.length, present[i] = false := by
  rw [absent, missingOf, List.mem_filter, List.mem_range]
  constructor
  · rintro ⟨h1, h2⟩
    have hlt : i < present.length := by omega
    refine ⟨hlt, ?_⟩
    rw [List.getD_eq_getElem _ _ hlt] at h2
    simpa using h2
  · rintro ⟨h1, h2⟩
    refine ⟨by omega, ?_⟩
    rw [List.getD_eq_getElem _ _ h1, h2]; rfl

theorem checkDataT_eq (hφ : ReadsWords φ fromWords) {A : ZeroApi F} {fs : FFTSettings F} {scale : Nat} (h : KnownBase A fs scale) (h1 : 1 ≤ scale)
    {present : List Bool} (hp : present.length = 2 ^ scale) {ev po : List (List Nat)} (he : RowsN (2 ^ scale) ev)
    (hc : RowsN (2 ^ scale) po) :
    checkDataT A fromWords present ev po = passIf (DataTables (φ fs.rootOfUnity) (2 ^ scale) (absent scale present) ev po) := by
  obtain ⟨xs, hx, hxl, hxv, hxp⟩ := readRows_ok hφ he
  obtain ⟨cs, hcs, hcl, hcv, hcp⟩ := readRows_ok hφ hc
  obtain ⟨b, hb, hbl, hbv⟩ := h.wf.fft_backward le_rfl xs hxl
  have hprim := h.wf.prim
  have hom : fs.omega (2 ^ scale) = fs.rootOfUnity := by rw [FFTSettings.omega, h.wf.width, Nat.div_self (by positivity), pow_one]
  have hcast := h.wf.cast_ne (le_refl scale)
  have hrt := h.wf.fft_roundtrip' le_rfl xs hxl
  rw [hb, bind_ok, h.wf.fft_eval le_rfl b hbl, hom] at hrt
  have hxb : ∀ j < 2 ^ scale, xs[j]? = some ((polyOf b).eval (fs.rootOfUnity ^ j)) := fun j hj => by
    rw [← Res.ok.inj hrt, List.getElem?_map, List.getElem?_range hj]; rfl
  have hpow2 : 2 ≤ 2 ^ scale := by
    calc 2 = 2 ^ 1 := rfl
      _ ≤ 2 ^ scale := Nat.pow_le_pow_right (by norm_num) h1
  have hE : ∀ i, 1 ≤ i → i < 2 ^ scale → ((polyOf xs).eval (fs.rootOfUnity ^ i) = 0 ↔ b.getD (2 ^ scale - i) 0 = 0) := by
    intro i hi1 hi2
    rw [List.getD_eq_getElem?_getD, hbv (2 ^ scale - i) (by omega), Option.getD_some, hom, smul_eq_mul, mul_eq_zero,
      or_iff_right (inv_ne_zero hcast), eval_polyOf, hxl, dft]
    refine Eq.congr_left ?_
    refine Finset.sum_congr rfl fun j _ => ?_
    rw [smul_eq_mul, mul_comm, ← pow_mul]
    congr 1
    rw [inv_pow]
    refine eq_inv_of_mul_eq_one_left ?_
    rw [← pow_add, mul_comm i j, ← mul_add, show i + (2 ^ scale - i) = 2 ^ scale by omega,
      mul_comm, pow_mul, hprim.pow_eq_one, one_pow]
  have hbc : (∀ i < 2 ^ scale, b.getD i 0 = cs.getD i 0) ↔ ∀ j < 2 ^ scale, rowEl ev j = (rowsPoly po).eval (φ fs.rootOfUnity ^ j) := by
    have hv : ∀ j < 2 ^ scale, rowEl ev j = φ ((polyOf b).eval (fs.rootOfUnity ^ j)) := fun j hj => by
      obtain ⟨x, hx1, hx2⟩ := hxv j hj
      rw [hxb j hj] at hx1
      rw [Option.some.inj hx1, hx2]
    have hv2 : ∀ j, (rowsPoly po).eval (φ fs.rootOfUnity ^ j) = φ ((polyOf cs).eval (fs.rootOfUnity ^ j)) := fun j => by
      rw [← hcp, ← map_pow, eval_map_apply]
    constructor
    · intro hall j hj
      have : polyOf b = polyOf cs := polyOf_congr fun i => by
        by_cases hi : i < 2 ^ scale
        · exact hall i hi
        · rw [List.getD_eq_default _ _ (by omega), List.getD_eq_default _ _ (by omega)]
      rw [hv j hj, hv2, this]
    · intro hall i hi
      have : polyOf b = polyOf cs := by
        refine poly_unique (n := 2 ^ scale) (x := fun j => fs.rootOfUnity ^ j) (fun i hi j hj e => hprim.pow_inj hi hj e) ?_ ?_ fun j hj => ?_
        · rw [← hbl]; exact degree_polyOf_lt b
        · rw [← hcl]; exact degree_polyOf_lt cs
        · apply φ.injective
          rw [← hv j hj, hall j hj, hv2]
      rw [← coeff_polyOf, ← coeff_polyOf, this]
  classical
  unfold checkDataT
  rw [h.width, hx, bind_ok, hcs, bind_ok]
  refine passIf_bind (a := ∀ i ∈ absent scale present, (rowsPoly po).eval (φ fs.rootOfUnity ^ i) = 0)
    (b := (∀ i, 2 ^ scale / 2 < i → i < 2 ^ scale → b.getD i 0 = 0) ∧ ∀ i < 2 ^ scale, b.getD i 0 = cs.getD i 0)
    (each_passIf (c := fun i => i ∈ absent scale present → (rowsPoly po).eval (φ fs.rootOfUnity ^ i) = 0) (fun i hi => ?_) ?_) ?_ ?_
  · have hlt : i < present.length := by omega
    rw [rd_of_lt hlt, bind_ok]
    cases hpi : present[i] with
    | true =>
      rw [if_pos rfl, passIf_true]
      intro hm
      obtain ⟨h', e⟩ := (mem_absent hp).1 hm
      rw [hpi] at e; cases e
    | false =>
      rw [if_neg (by simp), h.root i hi, bind_ok, h.eval _ (by omega), bind_ok]
      change assertT (decide ((polyOf cs).eval _ = 0)) = _
      rw [assertT_decide]
      refine passIf_iff ?_
      rw [← hcp, ← map_pow, eval_map_apply, map_eq_zero, imp_iff_right ((mem_absent hp).2 ⟨hlt, hpi⟩)]
  · constructor
    · exact fun hall i hi => hall i (missingOf_lt i hi) hi
    · exact fun hall i _ hi => hall i hi
  · refine passIf_bind (a := ∀ i, 2 ^ scale / 2 < i → i < 2 ^ scale → b.getD i 0 = 0) (b := ∀ i < 2 ^ scale, b.getD i 0 = cs.getD i 0)
      (eachFrom_passIf (c := fun i => b.getD (2 ^ scale - i) 0 = 0) (by omega) (fun i hi1 hi2 => ?_) ?_) ?_ Iff.rfl
    · rw [h.root i (by omega), bind_ok, h.eval _ (by omega), bind_ok]
      change assertT (decide ((polyOf xs).eval _ = 0)) = _
      rw [assertT_decide]
      exact passIf_iff (hE i hi1 (by omega))
    · have heven : 2 ^ scale / 2 * 2 = 2 ^ scale := by
        obtain ⟨k, rfl⟩ : ∃ k, scale = k + 1 := ⟨scale - 1, by omega⟩
        rw [pow_succ]; omega
      constructor
      · intro hall i hi1 hi2
        have := hall (2 ^ scale - i) (by omega) (by omega)
        rwa [show 2 ^ scale - (2 ^ scale - i) = i by omega] at this
      · exact fun hall i hi1 hi2 => hall _ (by omega) (by omega)
    · rw [h.back xs hxl, hb, unwrap, bind_ok]
      refine each_passIf (c := fun i => b.getD i 0 = cs.getD i 0) (fun i hi => ?_) Iff.rfl
      rw [rd_of_lt (show i < b.length by omega), bind_ok, rd_of_lt (show i < cs.length by omega), bind_ok,
        List.getD_eq_getElem _ _ (show i < b.length by omega), List.getD_eq_getElem _ _ (show i < cs.length by omega)]
      exact assertT_decide _
  · have hrow : ∀ i < 2 ^ scale, (cs.getD i 0 = 0 ↔ rowEl po i = 0) := fun i hi => by
      obtain ⟨c, hc1, hc2⟩ := hcv i hi
      rw [← hc2, List.getD_eq_getElem?_getD, hc1, Option.getD_some, map_eq_zero]
    rw [DataTables]
    constructor
    · rintro ⟨a1, a2, a3⟩
      exact ⟨hbc.1 a3, a1, fun i hi1 hi2 => (hrow i hi2).1 (by rw [← a3 i hi2]; exact a2 i hi1 hi2)⟩
    · rintro ⟨a1, a2, a3⟩
      exact ⟨a2, fun i hi1 hi2 => by rw [hbc.2 a1 i hi2]; exact (hrow i hi2).2 (a3 i hi1 hi2), hbc.2 a1⟩

/-! ### Products of partial polynomials -/

theorem linProd_perm {w : F} {n : Nat} (hw : IsPrimitiveRoot w n) {a b : List Nat} (ha : ∀ i ∈ a, i < n) (hb : ∀ i ∈ b, i < n) :
    linProd (fun i => w ^ i) a = linProd (fun i => w ^ i) b ↔ a.Perm b := by
  constructor
  · intro h
    have hroots : ∀ l : List Nat, (linProd (fun i => w ^ i) l).roots = ((l.map fun i => w ^ i : List F) : Multiset F) := by
      intro l
      have : linProd (fun i => w ^ i) l = (((l.map fun i => w ^ i : List F) : Multiset F).map fun x => X - C x).prod := by
        rw [linProd, Multiset.map_coe, Multiset.prod_coe, List.map_map]; rfl
      rw [this, roots_multiset_prod_X_sub_C]
    have h2 : (a.map fun i => w ^ i).Perm (b.map fun i => w ^ i) := by
      rw [← Multiset.coe_eq_coe, ← hroots, ← hroots, h]
    classical
    have hcount : ∀ l : List Nat, (∀ i ∈ l, i < n) → ∀ j < n, (l.map fun i => w ^ i).count (w ^ j) = l.count j := by
      intro l hl j hj
      induction l with
      | nil => rfl
      | cons x l ih =>
        rw [List.map_cons, List.count_cons, List.count_cons, ih fun i hi => hl i (List.mem_cons_of_mem _ hi)]
        have hx := hl x List.mem_cons_self
        have : (w ^ x == w ^ j) = (x == j) := by
          rw [Bool.eq_iff_iff, beq_iff_eq, beq_iff_eq]
          exact ⟨fun e => hw.pow_inj hx hj e, fun e => by rw [e]⟩
        rw [this]
    rw [List.perm_iff_count]
    intro j
    by_cases hj : j < n
    · rw [← hcount a ha j hj, ← hcount b hb j hj]
      exact h2.count_eq _
    · rw [List.count_eq_zero_of_not_mem fun hh => hj (ha j hh), List.count_eq_zero_of_not_mem fun hh => hj (hb j hh)]
  · intro h
    exact (h.map _).prod_eq

theorem reduceT_eq {A : ZeroApi F} {w : F} {scale : Nat} (hw : IsPrimitiveRoot w (2 ^ scale)) (h : PartBase A w scale)
    {parts : List (List Nat)} {idxs : List Nat} (hne : idxs ≠ []) (hps : ∀ p ∈ parts, p ≠ []) (hlt : ∀ p ∈ parts, ∀ i ∈ p, i < 2 ^ scale)
    (hi : ∀ i ∈ idxs, i < 2 ^ scale) (hl : parts.flatten.length = idxs.length) (hfit : idxs.length < 2 ^ scale) :
    reduceT A insist parts idxs = passIf (parts.flatten.Perm idxs) ∧ reduceT A discard parts idxs = .ok () := by
  have key : ∀ i, ∃ out, i < parts.length → (do
      let p ← rd parts i
      (A.part p 1).unwrap) = .ok out ∧ out.length = (parts.getD i []).length + 1 ∧
        polyOf out = linProd (fun i => w ^ i) (parts.getD i []) := by
    intro i
    by_cases hip : i < parts.length
    · have hmem := List.getElem_mem hip
      obtain ⟨out, h1, h2, h3⟩ := h.part _ (hps _ hmem) (hlt _ hmem)
      exact ⟨out, fun _ => ⟨by rw [rd_of_lt hip, bind_ok, h1]; rfl, by rw [h2, List.getD_eq_getElem _ _ hip],
        by rw [h3, List.getD_eq_getElem _ _ hip]⟩⟩
    · exact ⟨[], fun hh => absurd hh hip⟩
  choose g hg using key
  have hmap : ∀ {β : Type} (f : List F → β) (f' : List Nat → β), (∀ i < parts.length, f (g i) = f' (parts.getD i [])) →
      ((List.range parts.length).map g).map f = parts.map f' := by
    intro β f f' hf
    apply List.ext_getElem?
    intro i
    rw [List.map_map, List.getElem?_map, List.getElem?_map]
    by_cases hip : i < parts.length
    · rw [List.getElem?_range hip, List.getElem?_eq_getElem hip, Option.map_some, Option.map_some, Function.comp_apply, hf i hip,
        List.getD_eq_getElem _ _ hip]
    · rw [List.getElem?_eq_none (by simpa using hip), List.getElem?_eq_none (by omega)]; rfl
  have hsum : (((List.range parts.length).map g).map fun p => p.length - 1).sum = idxs.length := by
    rw [hmap _ List.length fun i hi => by rw [(hg i hi).2.1]; omega, ← List.length_flatten, hl]
  have hprod : (((List.range parts.length).map g).map polyOf).prod = linProd (fun i => w ^ i) parts.flatten := by
    rw [hmap _ (linProd fun i => w ^ i) fun i hi => (hg i hi).2.2]
    clear hg hmap hl hlt hps hsum
    induction parts with
    | nil => rfl
    | cons p ps ih => rw [List.map_cons, List.prod_cons, List.flatten_cons, linProd_append, ih]
  have hpos := List.length_pos_iff.2 hne
  have hpn : parts ≠ [] := by
    rintro rfl
    rw [List.flatten_nil, List.length_nil] at hl
    omega
  obtain ⟨tree, ht1, ht2, ht3⟩ := h.reduce ((List.range parts.length).map g) (by simpa using hpn) (by
    intro p hp
    obtain ⟨i, hi, rfl⟩ := List.mem_map.1 hp
    rw [← List.length_pos_iff, (hg i (List.mem_range.1 hi)).2.1]; omega) (by rw [hsum]; omega)
  obtain ⟨direct, hd1, hd2, hd3⟩ := h.part idxs hne hi
  rw [hsum] at ht2
  have run : ∀ compare : F → F → Res Unit, reduceT A compare parts idxs = each (idxs.length + 1) (fun i => do
      let a ← rd tree i
      let b ← rd direct i
      compare a b) := by
    intro compare
    unfold reduceT
    rw [tab_ok (g := g) fun i hi => (hg i hi).1, bind_ok, h.width, ht1, unwrap, bind_ok, hd1, unwrap, bind_ok]
  have read : ∀ (compare : F → F → Res Unit), ∀ i < idxs.length + 1, (do
      let a ← rd tree i
      let b ← rd direct i
      compare a b) = compare (tree.getD i 0) (direct.getD i 0) := by
    intro compare i hi
    have h1 : i < tree.length := by omega
    have h2 : i < direct.length := by omega
    rw [rd_of_lt h1, bind_ok, rd_of_lt h2, bind_ok, List.getD_eq_getElem _ _ h1, List.getD_eq_getElem _ _ h2]
  refine ⟨?_, by rw [run]; exact each_ok fun i hi => read _ i hi⟩
  rw [run]
  refine each_passIf (c := fun i => tree.getD i 0 = direct.getD i 0) (fun i hi => (read _ i hi).trans (assertT_decide _)) ?_
  rw [← linProd_perm hw (fun i hm => by
    obtain ⟨p, hp, hip⟩ := List.mem_flatten.1 hm
    exact hlt p hp i hip) hi, ← hprod, ← ht3, ← hd3]
  constructor
  · intro hall
    refine polyOf_congr fun i => ?_
    by_cases hii : i < idxs.length + 1
    · exact hall i hii
    · rw [List.getD_eq_default _ _ (by omega), List.getD_eq_default _ _ (by omega)]
  · intro e i _
    rw [← coeff_polyOf, ← coeff_polyOf, e]

end

/-! ### The backends -/

theorem domainRoot_self {F : Type} [Field F] (fs : FFTSettings F) (scale : Nat) : domainRoot fs scale scale = fs.rootOfUnity := by
  rw [domainRoot, Nat.sub_self, pow_zero, pow_one]

theorem blst_known {scale : Nat} {fs : FFTSettings Fr} (hfs : FFTSettings.new scale = .ok fs) : KnownBase (blstZero fs) fs scale := by
  have hwf := wf_of_new hfs
  refine ⟨hwf, hwf.width, fun i hi => rd_of_getElem? (hwf.exp i hi.le), fun p hp x => polyEval_spec p x (Or.inl hp), fun _ _ => rfl,
    fun missing hi hne hlt hs => ?_⟩
  obtain ⟨ω, ev, co, -, e0, e1, e2, e3, e4, e5⟩ := C20_zero_poly_partial hfs le_rfl missing hi hne hlt hs
  rw [Nat.sub_self, pow_zero, pow_one] at e0
  rw [e0] at e4 e5
  exact ⟨ev, co, e1, e2, e3, e4, fun j hj => by obtain ⟨y, h1, h2, -⟩ := e5 j hj; exact ⟨y, h1, h2⟩⟩

theorem zk_known {scale : Nat} {fs : FFTSettings ScW} (hfs : FFTSettings.new scale = .ok fs) : KnownBase (zkZero fs) fs scale := by
  have hwf := wf_of_new hfs
  refine ⟨hwf, hwf.width, fun i hi => rd_of_getElem? (hwf.exp i hi.le), fun p hp x => polyEval_spec p x (Or.inl hp), fun _ _ => rfl,
    fun missing hi hne hlt hs => ?_⟩
  obtain ⟨ev, co, -, e1, e2, e3, e4, e5⟩ := C65_zero_poly_partial hfs le_rfl missing hi hne hlt hs
  rw [domainRoot_self] at e4 e5
  exact ⟨ev, co, e1, e2, e3, e4, fun j hj => by obtain ⟨y, h1, h2, -⟩ := e5 j hj; exact ⟨y, h1, h2⟩⟩

theorem ark_known {scale : Nat} {fs : FFTSettings Fr} (hfs : Ark.settingsNew scale = .ok fs) : KnownBase (arkZero fs) fs scale := by
  have hwf := (Ark.made_of_new hfs).toWF
  refine ⟨hwf, hwf.width, fun i hi => rd_of_getElem? (hwf.exp i hi.le), fun p _ x => ?_,
    fun l hl => Ark.fftFr_eq (Ark.made_of_new hfs) le_rfl l hl _, fun missing hi hne hlt hs => ?_⟩
  · show Res.ok (Ark.polyEval p x) = _
    rw [Ark.polyEval_eq]
  · obtain ⟨ev, co, -, e1, e2, e3, e4, e5⟩ := C119_zero_poly_partial hfs le_rfl missing hi hne hlt hs
    rw [domainRoot_self] at e4 e5
    exact ⟨ev, co, e1, e2, e3, e4, fun j hj => by obtain ⟨y, h1, h2, -⟩ := e5 j hj; exact ⟨y, h1, h2⟩⟩

theorem mcl_known [Mcl.Lib Fr] {scale : Nat} {fs : FFTSettings Fr} (hfs : MadeSettings fs scale) (h30 : scale ≤ 30) :
    KnownBase (mclZero fs) fs scale := by
  have hwf := hfs.wf
  refine ⟨hwf, hwf.width, fun i hi => rd_of_getElem? (hwf.exp i hi.le), fun p _ x => ?_,
    fun l hl => Mcl.fft_eq hwf le_rfl hl _ fun _ => h30, fun missing hi hne hlt hs => ?_⟩
  · show Res.ok (Mcl.evalAt p x) = _
    rw [Mcl.evalAt_eq]
  · obtain ⟨ev, co, -, e1, e2, e3, e4, e5⟩ := C103_zero_poly_partial hfs le_rfl missing (Or.inl h30) hi hne hlt hs
    rw [domainRoot_self] at e4 e5
    exact ⟨ev, co, e1, e2, e3, e4, fun j hj => by obtain ⟨y, h1, h2, -⟩ := e5 j hj; exact ⟨y, h1, h2⟩⟩

theorem blst_das {m : Nat} {fs : FFTSettings Fr} (hfs : FFTSettings.new (m + 1) = .ok fs) : DasBase (blstRec fs) fs.rootOfUnity m :=
  dasBase_of (wf_of_new hfs) rfl fun _ _ => rfl

theorem zk_das {m : Nat} {fs : FFTSettings ScW} (hfs : FFTSettings.new (m + 1) = .ok fs) : DasBase (zkRec fs) fs.rootOfUnity m :=
  dasBase_of (wf_of_new hfs) rfl fun evens hl => by
    obtain ⟨odds, -, -, h, hol, -⟩ := das_extension_of (wf_of_new hfs) le_rfl evens hl
    rw [h]
    exact zk_das_eq (by rw [hl]; exact (wf_of_new hfs).cast_ne (by omega)) h (by rw [hol, hl])

theorem ark_das {m : Nat} {fs : FFTSettings Fr} (hfs : Ark.settingsNew (m + 1) = .ok fs) : DasBase (arkRec fs) fs.rootOfUnity m :=
  dasBase_of (Ark.made_of_new hfs).toWF rfl fun evens hl => by
    have hwf := (Ark.made_of_new hfs).toWF
    obtain ⟨odds, -, -, h, hol, -⟩ := das_extension_of hwf le_rfl evens hl
    rw [h]
    exact ark_das_eq (by rw [hl]; exact hwf.cast_ne (by omega)) h (by rw [hol, hl])

theorem mcl_das [Mcl.Lib Fr] {m : Nat} {fs : FFTSettings Fr} (hfs : MadeSettings fs (m + 1)) : DasBase (mclRec fs) fs.rootOfUnity m :=
  dasBase_of hfs.wf rfl fun evens hl => by
    obtain ⟨odds, -, -, h1, -⟩ := das_extension_of hfs.wf le_rfl evens hl
    show Mcl.dasTrait fs evens = _
    rw [Mcl.dasTrait, Mcl.das_eq hfs.wf le_rfl hl, h1]; rfl

theorem blst_root {s : Nat} {fs : FFTSettings Fr} (h : FFTSettings.new s = .ok fs) : fs.rootOfUnity = tableRow s :=
  rootOf_new (wf_of_new h).lt h

theorem ark_root {s : Nat} {fs : FFTSettings Fr} (h : Ark.settingsNew s = .ok fs) : fs.rootOfUnity = tableRow s :=
  blst_root (ark_new_iff.1 h)

theorem zk_root {s : Nat} {fs : FFTSettings ScW} (h : FFTSettings.new s = .ok fs) : ScW.elHom fs.rootOfUnity = tableRow s := by
  obtain ⟨fb, hb, -⟩ := new_spec (F := Fr) (wf_of_new h).lt
  rw [← blst_root hb]
  exact el_root h hb

/-! ## C186 -/

section
variable [Mcl.Lib Fr] {scale m : Nat} {fb fm fa : FFTSettings Fr} {fz : FFTSettings ScW}

/-- C186 (the extension): with settings of any scale from one on, any values and any table of expected ones, `das_extension_test_known` passes
exactly if the table has no more rows than there are values, and its rows are the values at the odd powers of the root of the polynomial
that has the given ones at the even powers. -/
theorem C186_das (hb : FFTSettings.new (m + 1) = .ok fb) (hm : MadeSettings fm (m + 1)) (ha : Ark.settingsNew (m + 1) = .ok fa)
    (hz : FFTSettings.new (m + 1) = .ok fz) (value : Nat → Fr) (zvalue : Nat → ScW) (hv : ∀ i, ScW.el (zvalue i) = value i)
    {expected : List (List Nat)} (hr : RowsN expected.length expected) :
    dasKnownT (blstRec fb) Iface.blst.fromU64Arr value expected = passIf (DasTable (tableRow (m + 1)) (2 ^ m) value expected) ∧
    dasKnownT (mclRec fm) Iface.mcl.fromU64Arr value expected = passIf (DasTable fm.rootOfUnity (2 ^ m) value expected) ∧
    dasKnownT (arkRec fa) Iface.ark.fromU64Arr value expected = passIf (DasTable (tableRow (m + 1)) (2 ^ m) value expected) ∧
    dasKnownT (zkRec fz) zkFromWords zvalue expected = passIf (DasTable (tableRow (m + 1)) (2 ^ m) value expected) := by
  refine ⟨?_, dasKnownT_eq (reads_of_good mcl_frGood) (mcl_das hm) value hr, ?_, ?_⟩
  · rw [← blst_root hb]; exact dasKnownT_eq (reads_of_good blst_frGood) (blst_das hb) value hr
  · rw [← ark_root ha]; exact dasKnownT_eq (reads_of_good ark_frGood) (ark_das ha) value hr
  · rw [← zk_root hz, show value = fun i => ScW.elHom (zvalue i) from funext fun i => (hv i).symm]
    exact dasKnownT_eq reads_zk (zk_das hz) zvalue hr

/-- C186 (zero polynomials): up to `2^30` positions in mcl-kzg, with any list of present positions, at least one of them missing, not all and no more than can be handled
(C20), `zero_poly_known` passes exactly if the two tables are the values and the coefficients of the zero polynomial. -/
theorem C186_zero (hb : FFTSettings.new scale = .ok fb) (hm : MadeSettings fm scale) (ha : Ark.settingsNew scale = .ok fa)
    (hz : FFTSettings.new scale = .ok fz) {present : List Bool} (hp : present.length = 2 ^ scale)
    {ev po : List (List Nat)} (he : RowsN (2 ^ scale) ev) (hc : RowsN (2 ^ scale) po) (hne : absent scale present ≠ [])
    (hlt : (absent scale present).length < 2 ^ scale) (hs : (absent scale present).length ≤ 63 * (2 ^ scale / 64 + 1)) :
    zeroKnownT (blstZero fb) Iface.blst.fromU64Arr present ev po =
      passIf (ZeroTables (tableRow scale) (2 ^ scale) (absent scale present) ev po) ∧
    (scale ≤ 30 → zeroKnownT (mclZero fm) Iface.mcl.fromU64Arr present ev po =
      passIf (ZeroTables fm.rootOfUnity (2 ^ scale) (absent scale present) ev po)) ∧
    zeroKnownT (arkZero fa) Iface.ark.fromU64Arr present ev po =
      passIf (ZeroTables (tableRow scale) (2 ^ scale) (absent scale present) ev po) ∧
    zeroKnownT (zkZero fz) zkFromWords present ev po =
      passIf (ZeroTables (tableRow scale) (2 ^ scale) (absent scale present) ev po) := by
  refine ⟨?_, fun h30 => zeroKnownT_eq (reads_of_good mcl_frGood) (mcl_known hm h30) hp he hc hne hlt hs, ?_, ?_⟩
  · rw [← blst_root hb]; exact zeroKnownT_eq (reads_of_good blst_frGood) (blst_known hb) hp he hc hne hlt hs
  · rw [← ark_root ha]; exact zeroKnownT_eq (reads_of_good ark_frGood) (ark_known ha) hp he hc hne hlt hs
  · rw [← zk_root hz]; exact zeroKnownT_eq reads_zk (zk_known hz) hp he hc hne hlt hs

/-- C186 (the tables by themselves): up to `2^30` positions in mcl-kzg, with any list of present positions, `check_test_data` passes exactly if the first table has the values
of the polynomial in the second, which is zero at the missing positions and has no coefficient above the middle. -/
theorem C186_data (hb : FFTSettings.new scale = .ok fb) (hm : MadeSettings fm scale) (ha : Ark.settingsNew scale = .ok fa)
    (hz : FFTSettings.new scale = .ok fz) (h1 : 1 ≤ scale) {present : List Bool} (hp : present.length = 2 ^ scale)
    {ev po : List (List Nat)} (he : RowsN (2 ^ scale) ev) (hc : RowsN (2 ^ scale) po) :
    checkDataT (blstZero fb) Iface.blst.fromU64Arr present ev po =
      passIf (DataTables (tableRow scale) (2 ^ scale) (absent scale present) ev po) ∧
    (scale ≤ 30 → checkDataT (mclZero fm) Iface.mcl.fromU64Arr present ev po =
      passIf (DataTables fm.rootOfUnity (2 ^ scale) (absent scale present) ev po)) ∧
    checkDataT (arkZero fa) Iface.ark.fromU64Arr present ev po =
      passIf (DataTables (tableRow scale) (2 ^ scale) (absent scale present) ev po) ∧
    checkDataT (zkZero fz) zkFromWords present ev po =
      passIf (DataTables (tableRow scale) (2 ^ scale) (absent scale present) ev po) := by
  refine ⟨?_, fun h30 => checkDataT_eq (reads_of_good mcl_frGood) (mcl_known hm h30) h1 hp he hc, ?_, ?_⟩
  · rw [← blst_root hb]; exact checkDataT_eq (reads_of_good blst_frGood) (blst_known hb) h1 hp he hc
  · rw [← ark_root ha]; exact checkDataT_eq (reads_of_good ark_frGood) (ark_known ha) h1 hp he hc
  · rw [← zk_root hz]; exact checkDataT_eq reads_zk (zk_known hz) h1 hp he hc

/-- C186 (partial products): up to `2^30` positions in mcl-kzg, with any lists of positions that together are as many as the list to compare with, `test_reduce_partials` runs to
its end; if it asserted what it compares, it would pass exactly if the lists have the same positions. -/
theorem C186_reduce (hb : FFTSettings.new scale = .ok fb) (hm : MadeSettings fm scale) (ha : Ark.settingsNew scale = .ok fa)
    (hz : FFTSettings.new scale = .ok fz) {parts : List (List Nat)} {idxs : List Nat} (hne : idxs ≠ [])
    (hps : ∀ p ∈ parts, p ≠ []) (hlt : ∀ p ∈ parts, ∀ i ∈ p, i < 2 ^ scale) (hi : ∀ i ∈ idxs, i < 2 ^ scale)
    (hl : parts.flatten.length = idxs.length) (hfit : idxs.length < 2 ^ scale) :
    (reduceT (blstZero fb) insist parts idxs = passIf (parts.flatten.Perm idxs) ∧ reduceT (blstZero fb) Bench.discard parts idxs = .ok ()) ∧
    (scale ≤ 30 → reduceT (mclZero fm) insist parts idxs = passIf (parts.flatten.Perm idxs) ∧ reduceT (mclZero fm) Bench.discard parts idxs = .ok ()) ∧
    (reduceT (arkZero fa) insist parts idxs = passIf (parts.flatten.Perm idxs) ∧ reduceT (arkZero fa) Bench.discard parts idxs = .ok ()) ∧
    (reduceT (zkZero fz) insist parts idxs = passIf (parts.flatten.Perm idxs) ∧ reduceT (zkZero fz) Bench.discard parts idxs = .ok ()) :=
  ⟨reduceT_eq (wf_of_new hb).prim (blst_partBase hb) hne hps hlt hi hl hfit,
    fun h30 => reduceT_eq hm.wf.prim (mcl_partBase hm h30) hne hps hlt hi hl hfit,
    reduceT_eq (Ark.made_of_new ha).toWF.prim (ark_partBase ha) hne hps hlt hi hl hfit,
    reduceT_eq (wf_of_new hz).prim (zk_partBase hz) hne hps hlt hi hl hfit⟩

end

/-- C186 (what `check_test_data` does not see): if half of the positions are missing, as in the test, the condition holds exactly for the
multiples of the zero polynomial, the zero multiple included. -/
theorem C186_data_multiples {scale : Nat} {w : Fr} (hw : IsPrimitiveRoot w (2 ^ scale)) {present : List Bool}
    (hh : 2 * (absent scale present).length = 2 ^ scale) {ev po : List (List Nat)} (hc : RowsN (2 ^ scale) po) :
    DataTables w (2 ^ scale) (absent scale present) ev po ↔ ∃ c : Fr,
      rowsPoly po = C c * ((absent scale present).map fun i => X - C (w ^ i)).prod ∧
      ∀ j < 2 ^ scale, rowEl ev j = c * ((absent scale present).map fun i => w ^ j - w ^ i).prod := by
  have hnd : (absent scale present).Nodup := List.Nodup.filter _ List.nodup_range
  have hmonic := linProd_monic (fun i => w ^ i) (absent scale present)
  have hdeg := linProd_natDegree (fun i => w ^ i) (absent scale present)
  change (linProd (fun i => w ^ i) (absent scale present)).natDegree = _ at hdeg
  constructor
  · rintro ⟨a1, a2, a3⟩
    have hle : (rowsPoly po).natDegree ≤ (absent scale present).length := by
      rw [natDegree_le_iff_coeff_eq_zero]
      intro i hi
      rw [rowsPoly_coeff hc.1]
      split
      · next h => exact a3 i (by omega) h
      · rfl
    have hdvd : linProd (fun i => w ^ i) (absent scale present) ∣ rowsPoly po := by
      have : linProd (fun i => w ^ i) (absent scale present) = ∏ i ∈ (absent scale present).toFinset, (X - C (w ^ i)) := by
        rw [linProd, List.prod_toFinset _ hnd]
      rw [this]
      refine Finset.prod_dvd_of_coprime ?_ fun i hi => ?_
      · intro i hi j hj hij
        refine isCoprime_X_sub_C_of_isUnit_sub ?_
        rw [isUnit_iff_ne_zero, sub_ne_zero]
        intro e
        exact hij (hw.pow_inj (missingOf_lt i (List.mem_toFinset.1 hi)) (missingOf_lt j (List.mem_toFinset.1 hj)) e)
      · rw [dvd_iff_isRoot]
        exact a2 i (List.mem_toFinset.1 hi)
    obtain ⟨q, hq⟩ := hdvd
    have hqc : ∃ c, q = C c := by
      by_cases h0 : q = 0
      · exact ⟨0, by rw [h0, C_0]⟩
      · refine ⟨q.coeff 0, eq_C_of_natDegree_le_zero ?_⟩
        rw [hq, hmonic.natDegree_mul' h0, hdeg] at hle
        omega
    obtain ⟨c, rfl⟩ := hqc
    refine ⟨c, by rw [hq, mul_comm]; rfl, fun j hj => ?_⟩
    rw [a1 j hj, hq, mul_comm, eval_mul, eval_C]
    congr 1
    exact eval_linProd _ _ _
  · rintro ⟨c, e1, e2⟩
    refine ⟨fun j hj => ?_, fun i hi => ?_, fun i hi1 hi2 => ?_⟩
    · rw [e2 j hj, e1, eval_mul, eval_C, eval_linProd]
    · have h0 := (linProd_eval (fun i => w ^ i) (absent scale present) (w ^ i)).2 ⟨i, hi, rfl⟩
      rw [linProd] at h0
      rw [e1, eval_mul, h0, mul_zero]
    · have := rowsPoly_coeff hc.1 i
      rw [if_pos hi2] at this
      rw [← this, e1, coeff_C_mul, coeff_eq_zero_of_natDegree_lt (by
        rw [show ((absent scale present).map fun i => X - C (w ^ i)).prod = linProd (fun i => w ^ i) (absent scale present) from rfl, hdeg]
        omega), mul_zero]

/-! ### The tables of the tests -/

theorem absent_exists : absent 4 existsTable = [1, 2, 4, 7, 8, 9, 12, 14] := by decide

/-- The root of scale 4 as a number. -/
def root4 : Nat := wordsVal (scale2RootWords.getD 4 [])

/-- The coefficients of the polynomial that has the values `0, …, 7` at the even powers of the root. -/
def rampCoeffs : List Nat := [
  0x39f6d3a994cebea4199cec0404d0ec02a9ded2017fff2dff7fffffff80000004,
  0x5dbc603bc53c7a3a83a712d1dd818c8f40e02aff48e2b16be930fdda2306c7d4,
  0x39f6d3a994cebea46045d26b3fd26e6b1fe05202bb00adff80007fff80000000,
  0x5dbc603bc53c7a39f6554603677e87be54dd2afcd2dfb16be92ffdda2306c7d4,
  0x39f6d3a994cebea4199cec0404d0ec02a9ded2017fff2dff7fffffff80000000,
  0x163147176461030e3ce49204a2235046fee079062d1eaa9316d00224dcf9382c,
  0x39f6d3a994cebea3d2f4059cc9cf699a33dd520044fdadff7fff7fff80000000,
  0x163147176461030daf92c5362c204b7612dd7903b71baa9316cf0224dcf9382c]

theorem zero_values : ∀ j < 16,
    ([1, 2, 4, 7, 8, 9, 12, 14].map fun i => root4 ^ j + (frModulus - root4 ^ i % frModulus)).prod % frModulus =
      wordsVal (evalRows.getD j []) % frModulus ∧
    (∑ k ∈ Finset.range 16, wordsVal (polyRows.getD k []) * root4 ^ (j * k)) % frModulus = wordsVal (evalRows.getD j []) % frModulus := by
  decide +kernel

theorem ramp_values : ∀ i < 8,
    (∑ k ∈ Finset.range 8, rampCoeffs.getD k 0 * root4 ^ (2 * i * k)) % frModulus = i % frModulus ∧
    (∑ k ∈ Finset.range 8, rampCoeffs.getD k 0 * root4 ^ ((2 * i + 1) * k)) % frModulus = wordsVal (dasRows.getD i []) % frModulus := by
  decide +kernel

theorem rows_known : RowsN 16 evalRows ∧ RowsN 16 polyRows ∧ RowsN 8 dasRows := by
  refine ⟨⟨rfl, ?_⟩, ⟨rfl, ?_⟩, ⟨rfl, ?_⟩⟩ <;> unfold Words4 <;> decide +kernel

theorem cast_mod_eq {a b : Nat} (h : a % frModulus = b % frModulus) : (a : Fr) = b := (ZMod.natCast_eq_natCast_iff' a b frModulus).2 h

theorem cast_prod_sub (w j : Nat) (l : List Nat) : (((l.map fun i => w ^ j + (frModulus - w ^ i % frModulus)).prod : Nat) : Fr) =
    (l.map fun i => (w : Fr) ^ j - (w : Fr) ^ i).prod := by
  induction l with
  | nil => simp
  | cons i l ih =>
    rw [List.map_cons, List.prod_cons, Nat.cast_mul, ih, List.map_cons, List.prod_cons, Nat.cast_add,
      Nat.cast_sub (Nat.mod_lt _ (by decide)).le, ZMod.natCast_self, ZMod.natCast_mod, Nat.cast_pow, Nat.cast_pow, zero_sub, ← sub_eq_add_neg]

theorem tableRow_4 : tableRow 4 = (root4 : Fr) := rfl

theorem zeroTables_known : ZeroTables (tableRow 4) 16 [1, 2, 4, 7, 8, 9, 12, 14] evalRows polyRows := by
  have hev : ∀ j < 16, rowEl evalRows j = ([1, 2, 4, 7, 8, 9, 12, 14].map fun i => tableRow 4 ^ j - tableRow 4 ^ i).prod := by
    intro j hj
    have h := cast_mod_eq (zero_values j hj).1
    rw [cast_prod_sub] at h
    rw [rowEl, tableRow_4]
    exact h.symm
  refine ⟨hev, ?_⟩
  have hprim := tableRow_primitive (i := 4) (by norm_num)
  refine poly_unique (n := 16) (x := fun j => tableRow 4 ^ j) (fun i hi j hj e => hprim.pow_inj hi hj e) ?_ ?_ fun j hj => ?_
  · exact degree_polyOf_lt _
  · rw [show ([1, 2, 4, 7, 8, 9, 12, 14].map fun i => X - C (tableRow 4 ^ i)).prod = linProd (fun i => tableRow 4 ^ i) _ from rfl,
      degree_eq_natDegree (linProd_monic _ _).ne_zero, linProd_natDegree]
    norm_num
  · rw [eval_linProd, ← hev j hj, rowEl, ← cast_mod_eq (zero_values j hj).2, rowsPoly, eval_polyOf_le (n := 16) _ _ (by rfl)]
    push_cast
    refine Finset.sum_congr rfl fun k hk => ?_
    rw [← coeff_polyOf, show (polyOf (polyRows.map fun r => ((wordsVal r : Nat) : Fr))).coeff k = rowEl polyRows k by
      have := rowsPoly_coeff (n := 16) (rows := polyRows) rfl k
      rwa [if_pos (Finset.mem_range.1 hk)] at this, rowEl, tableRow_4, ← pow_mul]

theorem dasTable_known : DasTable (tableRow 4) 8 (fun i => (i : Fr)) dasRows := by
  have hc : ∀ e, (polyOf (rampCoeffs.map fun c : Nat => (c : Fr))).eval (tableRow 4 ^ e) =
      ((∑ k ∈ Finset.range 8, rampCoeffs.getD k 0 * root4 ^ (e * k) : Nat) : Fr) := by
    intro e
    rw [eval_polyOf_le (n := 8) _ _ (by rfl)]
    push_cast
    refine Finset.sum_congr rfl fun k hk => ?_
    rw [← pow_mul, tableRow_4]
    congr 1
    have hk' : k < rampCoeffs.length := Finset.mem_range.1 hk
    rw [List.getD_eq_getElem _ _ (by simpa using hk'), List.getElem_map, List.getD_eq_getElem _ _ hk']
  refine ⟨le_rfl, polyOf (rampCoeffs.map fun c : Nat => (c : Fr)), degree_polyOf_lt _, fun i hi => ?_, fun i hi => ?_⟩
  · rw [hc]; exact cast_mod_eq (ramp_values i hi).1
  · rw [hc]; exact cast_mod_eq (ramp_values i hi).2

/-- C186 (the tables of the tests): with the settings that the tests make, the three tests pass in all four backends, and
`test_reduce_partials` would pass with assertions. -/
theorem C186_known [Mcl.Lib Fr] {fb fm fa : FFTSettings Fr} {fz : FFTSettings ScW} (hb : FFTSettings.new 4 = .ok fb)
    (hm : Mcl.FFTSettings.new7 4 = .ok fm) (ha : Ark.settingsNew 4 = .ok fa) (hz : FFTSettings.new 4 = .ok fz) :
    (dasKnownT (blstRec fb) Iface.blst.fromU64Arr (fun i => (i : Fr)) dasRows = .ok () ∧
      dasKnownT (mclRec fm) Iface.mcl.fromU64Arr (fun i => (i : Fr)) dasRows = .ok () ∧
      dasKnownT (arkRec fa) Iface.ark.fromU64Arr (fun i => (i : Fr)) dasRows = .ok () ∧
      dasKnownT (zkRec fz) zkFromWords (fun i => (i : ScW)) dasRows = .ok ()) ∧
    (zeroKnownT (blstZero fb) Iface.blst.fromU64Arr existsTable evalRows polyRows = .ok () ∧
      zeroKnownT (mclZero fm) Iface.mcl.fromU64Arr existsTable evalRows polyRows = .ok () ∧
      zeroKnownT (arkZero fa) Iface.ark.fromU64Arr existsTable evalRows polyRows = .ok () ∧
      zeroKnownT (zkZero fz) zkFromWords existsTable evalRows polyRows = .ok ()) ∧
    (checkDataT (blstZero fb) Iface.blst.fromU64Arr existsTable evalRows polyRows = .ok () ∧
      checkDataT (mclZero fm) Iface.mcl.fromU64Arr existsTable evalRows polyRows = .ok () ∧
      checkDataT (arkZero fa) Iface.ark.fromU64Arr existsTable evalRows polyRows = .ok () ∧
      checkDataT (zkZero fz) zkFromWords existsTable evalRows polyRows = .ok ()) ∧
    (reduceT (blstZero fb) insist [[1, 3], [7, 8], [9, 10], [12, 13]] [1, 3, 7, 8, 9, 10, 12, 13] = .ok () ∧
      reduceT (mclZero fm) insist [[1, 3], [7, 8], [9, 10], [12, 13]] [1, 3, 7, 8, 9, 10, 12, 13] = .ok () ∧
      reduceT (arkZero fa) insist [[1, 3], [7, 8], [9, 10], [12, 13]] [1, 3, 7, 8, 9, 10, 12, 13] = .ok () ∧
      reduceT (zkZero fz) insist [[1, 3], [7, 8], [9, 10], [12, 13]] [1, 3, 7, 8, 9, 10, 12, 13] = .ok ()) := by
  have hm' : MadeSettings fm 4 := ⟨by norm_num, .inr hm⟩
  have hmr : fm.rootOfUnity = tableRow 4 := by
    have := mcl_omega_row (by norm_num) hm (le_refl 4)
    rwa [FFTSettings.omega, hm'.wf.width, Nat.div_self (by positivity), pow_one, if_pos (by norm_num)] at this
  obtain ⟨r1, r2, r3⟩ := rows_known
  have hz1 := zeroTables_known
  have hd : DataTables (tableRow 4) (2 ^ 4) (absent 4 existsTable) evalRows polyRows :=
    (C186_data_multiples (scale := 4) (tableRow_primitive (by norm_num)) (by rw [absent_exists]; rfl) r2).2
      ⟨1, by rw [absent_exists, C_1, one_mul]; exact hz1.2, fun j hj => by rw [absent_exists, one_mul]; exact hz1.1 j hj⟩
  rw [← absent_exists] at hz1
  refine ⟨?_, ?_, ?_, ?_⟩
  · obtain ⟨a, b, c, d⟩ := C186_das (m := 3) hb hm' ha hz (fun i => (i : Fr)) (fun i => (i : ScW)) (fun i => ScW.el_natCast i) (expected := dasRows) r3
    rw [hmr] at b
    have hok := passIf_true dasTable_known
    exact ⟨a.trans hok, b.trans hok, c.trans hok, d.trans hok⟩
  · obtain ⟨a, b, c, d⟩ := C186_zero hb hm' ha hz (present := existsTable) rfl r1 r2 (by rw [absent_exists]; simp)
      (by rw [absent_exists]; decide) (by rw [absent_exists]; decide)
    replace b := b (by norm_num)
    rw [hmr] at b
    rw [passIf_true (show ZeroTables (tableRow 4) (2 ^ 4) (absent 4 existsTable) evalRows polyRows from hz1)] at a b c d
    exact ⟨a, b, c, d⟩
  · obtain ⟨a, b, c, d⟩ := C186_data hb hm' ha hz (by norm_num) (present := existsTable) rfl r1 r2
    replace b := b (by norm_num)
    rw [hmr] at b
    rw [passIf_true hd] at a b c d
    exact ⟨a, b, c, d⟩
  · obtain ⟨a, b, c, d⟩ := C186_reduce hb hm' ha hz (parts := [[1, 3], [7, 8], [9, 10], [12, 13]])
      (idxs := [1, 3, 7, 8, 9, 10, 12, 13]) (by simp) (by decide) (by decide) (by decide) rfl (by decide)
    have hp : ([[1, 3], [7, 8], [9, 10], [12, 13]] : List (List Nat)).flatten.Perm [1, 3, 7, 8, 9, 10, 12, 13] := List.Perm.refl _
    replace b := b (by norm_num)
    rw [passIf_true hp] at a b c d
    exact ⟨a.1, b.1, c.1, d.1⟩

/-- C186 (an empty table): `check_test_data` passes with tables of zeros in every backend, so that it can not tell a missing table from the
right one. -/
theorem C186_data_zeros [Mcl.Lib Fr] {scale : Nat} {fb fm fa : FFTSettings Fr} {fz : FFTSettings ScW} (hb : FFTSettings.new scale = .ok fb)
    (hm : MadeSettings fm scale) (ha : Ark.settingsNew scale = .ok fa) (hz : FFTSettings.new scale = .ok fz) (h1 : 1 ≤ scale)
    {present : List Bool} (hp : present.length = 2 ^ scale) :
    let zeros := List.replicate (2 ^ scale) [0, 0, 0, 0]
    checkDataT (blstZero fb) Iface.blst.fromU64Arr present zeros zeros = .ok () ∧
    (scale ≤ 30 → checkDataT (mclZero fm) Iface.mcl.fromU64Arr present zeros zeros = .ok ()) ∧
    checkDataT (arkZero fa) Iface.ark.fromU64Arr present zeros zeros = .ok () ∧
    checkDataT (zkZero fz) zkFromWords present zeros zeros = .ok () := by
  intro zeros
  have hget : ∀ i < 2 ^ scale, zeros.getD i [] = [0, 0, 0, 0] := fun i hi => by
    rw [List.getD_eq_getElem?_getD, List.getElem?_replicate, if_pos hi]; rfl
  have hr : RowsN (2 ^ scale) zeros := ⟨List.length_replicate, fun i hi => by rw [hget i hi]; unfold Words4; decide +kernel⟩
  have hel : ∀ i < 2 ^ scale, rowEl zeros i = 0 := fun i hi => by rw [rowEl, hget i hi]; exact Nat.cast_zero
  have hpoly : rowsPoly zeros = 0 := by
    ext i
    rw [rowsPoly_coeff hr.1, coeff_zero]
    split
    · next h => exact hel i h
    · rfl
  have hd : ∀ w, DataTables w (2 ^ scale) (absent scale present) zeros zeros := fun w =>
    ⟨fun j hj => by rw [hel j hj, hpoly, eval_zero], fun i _ => by rw [hpoly, eval_zero], fun i _ hi => hel i hi⟩
  obtain ⟨a, b, c, d⟩ := C186_data hb hm ha hz h1 hp hr hr
  rw [passIf_true (hd _)] at a c d
  exact ⟨a, fun h => (b h).trans (passIf_true (hd _)), c, d⟩

/-- Example for C186: with the second expected value in the place of the first, `das_extension_test_known` fails. -/
example [Mcl.Lib Fr] {fb fm fa : FFTSettings Fr} {fz : FFTSettings ScW} (hb : FFTSettings.new 4 = .ok fb)
    (hm : MadeSettings fm 4) (ha : Ark.settingsNew 4 = .ok fa) (hz : FFTSettings.new 4 = .ok fz) :
    dasKnownT (blstRec fb) Iface.blst.fromU64Arr (fun i => (i : Fr)) ((dasRows.drop 1).take 1) = .panic := by
  have hr : RowsN 1 ((dasRows.drop 1).take 1) := ⟨rfl, by unfold Words4; decide +kernel⟩
  rw [(C186_das (m := 3) hb hm ha hz (fun i => (i : Fr)) (fun i => (i : ScW)) (fun i => ScW.el_natCast i) hr).1, passIf_false]
  rintro ⟨-, p, p1, p2, p3⟩
  obtain ⟨-, q, q1, q2, q3⟩ := dasTable_known
  have hprim := tableRow_primitive (i := 4) (by norm_num)
  have : p = q := by
    refine poly_unique (x := fun i => tableRow 4 ^ (2 * i)) ?_ p1 q1 fun i hi => by rw [p2 i hi, q2 i hi]
    intro i hi j hj e
    have := hprim.pow_inj (i := 2 * i) (j := 2 * j) (by omega) (by omega) e
    omega
  have h1 := p3 0 (by decide)
  have h2 := q3 0 (by decide)
  rw [this, h2, rowEl, rowEl, natCast_fr_inj (by decide +kernel) (by decide +kernel)] at h1
  revert h1
  decide +kernel

/-- Example for C186: `test_reduce_partials` with assertions would not accept another position. -/
example [Mcl.Lib Fr] {fb fm fa : FFTSettings Fr} {fz : FFTSettings ScW} (hb : FFTSettings.new 4 = .ok fb)
    (hm : MadeSettings fm 4) (ha : Ark.settingsNew 4 = .ok fa) (hz : FFTSettings.new 4 = .ok fz) :
    reduceT (blstZero fb) insist [[1, 3], [7, 8]] [1, 3, 7, 9] = .panic ∧ reduceT (blstZero fb) Bench.discard [[1, 3], [7, 8]] [1, 3, 7, 9] = .ok () := by
  obtain ⟨⟨a, b⟩, -⟩ := C186_reduce hb hm ha hz (parts := [[1, 3], [7, 8]]) (idxs := [1, 3, 7, 9]) (by simp) (by decide)
    (by decide) (by decide) rfl (by decide)
  rw [passIf_false (by decide)] at a
  exact ⟨a, b⟩

end Kzg.Props
