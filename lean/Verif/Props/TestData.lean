import Verif.Model.TestData
import Verif.Model.Consts
import Verif.Props.BenchFft
/-!
# Property C198: multiples of the generator for the tests of transforms, and points of mcl-kzg from words
-/

namespace Kzg.Props
open Kzg Kzg.Res Kzg.Bench Kzg.Zk Kzg.Zk.Top CurveConsts ScW

/-- A loop that computes every entry from the one before. -/
theorem chain_fill {α : Type} (R : Nat → α → Prop) (step : α → α) {g : α} (h0 : R 0 g) (hs : ∀ k p, R k p → R (k + 1) (step p))
    (l : List α) (hl : 0 < l.length) :
    ∃ r, (wr l 0 g >>= fun l => forRange 1 l.length l fun i l => do
        let j ← subU i 1
        let p ← rd l j
        wr l i (step p)) = .ok r ∧ r.length = l.length ∧ ∀ k < l.length, ∃ p, r[k]? = some p ∧ R k p := by
  rw [wr, if_pos hl, bind_ok]
  obtain ⟨r, hr, h1, h2⟩ := forRange_inv (body := fun i (v : List α) => do
      let j ← subU i 1
      let p ← rd v j
      wr v i (step p)) (fun j v => v.length = l.length ∧ ∀ k < j, ∃ p, v[k]? = some p ∧ R k p) (lo := 1) (hi := l.length)
    (s := l.set 0 g) hl ⟨by simp, fun k hk => by
      obtain rfl : k = 0 := by omega
      exact ⟨g, by rw [List.getElem?_set_self hl], h0⟩⟩ (by
      rintro i v h1 hi ⟨hv, hk⟩
      obtain ⟨p, hp, hR⟩ := hk (i - 1) (by omega)
      rw [subU_of_le h1, bind_ok, rd_of_getElem? hp, bind_ok, wr, if_pos (by omega)]
      refine Sat.ok ⟨by simpa using hv, fun k hk' => ?_⟩
      by_cases e : k = i
      · subst e
        refine ⟨step p, by rw [List.getElem?_set_self (by omega)], ?_⟩
        rw [show k = k - 1 + 1 by omega]
        exact hs _ _ hR
      · obtain ⟨q, hq, hRq⟩ := hk k (by omega)
        exact ⟨q, by rw [List.getElem?_set_ne (by omega), hq], hRq⟩)
  refine ⟨r, ?_, h1, h2⟩
  simpa using hr

theorem relL_map_range {α β : Type} {R : α → β → Prop} {f : Nat → α} {g : Nat → β} {n : Nat} (h : ∀ i < n, R (f i) (g i)) :
    RelL R ((List.range n).map f) ((List.range n).map g) := by
  have : ∀ l : List Nat, (∀ i ∈ l, R (f i) (g i)) → RelL R (l.map f) (l.map g) := by
    intro l
    induction l with
    | nil => exact fun _ => .nil
    | cons a l ih => exact fun h => .cons (h a (by simp)) (ih fun i hi => h i (by simp [hi]))
  exact this _ fun i hi => h i (List.mem_range.1 hi)

section
variable {G : Type} [AddCommGroup G]

/-- C198 (blst-from-scratch): the data of the tests are the multiples of the generator from one on. -/
theorem C198_blst (g : G) (n : Nat) : TestData.blst g n = .ok ((List.range n).map fun i => (i + 1) • g) := by
  rw [TestData.blst]
  by_cases hn : n = 0
  · subst hn; rfl
  rw [if_neg hn]
  obtain ⟨r, hr, h1, h2⟩ := chain_fill (fun k p => p = (k + 1) • g) (· + g) (g := g) (by simp)
    (fun k p hp => by rw [hp, succ_nsmul (n := k + 1)]) (List.replicate n (0 : G)) (by simpa using Nat.pos_of_ne_zero hn)
  rw [List.length_replicate] at h1 h2
  have : r = (List.range n).map fun i => (i + 1) • g := by
    refine List.ext_getElem? fun k => ?_
    by_cases hk : k < n
    · obtain ⟨p, hp, rfl⟩ := h2 k hk
      rw [hp, List.getElem?_map, List.getElem?_range hk]; rfl
    · rw [List.getElem?_eq_none (by omega), List.getElem?_eq_none (by simpa using Nat.not_lt.1 hk)]
  rw [← this, ← hr, wr, if_pos (by simpa using Nat.pos_of_ne_zero hn), bind_ok, bind_ok]
  simp

/-- C198 (mcl-kzg): so are those of mcl-kzg. -/
theorem C198_mcl (g : G) (n : Nat) : TestData.mcl g n = .ok ((List.range n).map fun i => (i + 1) • g) := by
  rw [TestData.mcl]
  by_cases hn : n = 0
  · subst hn; rfl
  rw [if_neg hn]
  obtain ⟨r, hr, hv⟩ := forRange_inv (body := fun _ (v : List G) =>
      match v.getLast? with
      | some p => .ok (v ++ [p + g])
      | none => .panic) (fun j x => x = (List.range j).map fun i => (i + 1) • g) (lo := 1) (hi := n)
    (s := [g]) (by omega) (by simp) (by
      intro i v h1 hi hv
      obtain ⟨j, rfl⟩ : ∃ j, i = j + 1 := ⟨i - 1, by omega⟩
      have : v.getLast? = some ((j + 1) • g) := by
        rw [hv, List.range_succ, List.map_append, List.map_singleton, List.getLast?_concat]
      rw [this]
      refine Sat.ok ?_
      rw [hv, List.range_succ (n := j + 1), List.map_append, List.map_singleton, succ_nsmul (n := j + 1)])
  exact hr.trans (by rw [hv])

end

/-- C198 (zkcrypto): in either build entry `i` of the data of the tests stands for `i + 1` times the generator. -/
theorem C198_zk (chk : Bool) (n : Nat) : ∃ l, TestData.zk chk n = .ok l ∧ RelL At1 l ((List.range n).map fun i : Nat => (i : ScW) + 1) := by
  rw [TestData.zk]
  by_cases hn : n = 0
  · subst hn; exact ⟨[], rfl, .nil⟩
  rw [if_neg hn]
  obtain ⟨r, hr, h1, h2⟩ := chain_fill (fun k p => At1 p ((k : ScW) + 1)) (fun p => (g1Ops chk).addOrDbl p G1.generatorProj)
    (g := G1.generatorProj) (by simpa using at1_gen) (fun k p hp => by
      have := at1_addOrDbl (chk := chk) hp at1_gen
      simpa using this) (List.replicate n Projective.identity) (by simpa using Nat.pos_of_ne_zero hn)
  rw [List.length_replicate] at h1 h2
  refine ⟨r, ?_, ?_⟩
  · rw [← hr, wr, if_pos (by simpa using Nat.pos_of_ne_zero hn), bind_ok, bind_ok]
    simp
  · have e : r = (List.range n).map fun i => r.getD i Projective.identity := by
      refine List.ext_getElem? fun k => ?_
      by_cases hk : k < n
      · rw [List.getElem?_map, List.getElem?_range hk, Option.map_some, List.getD_eq_getElem?_getD, List.getElem?_eq_getElem (by omega)]; rfl
      · rw [List.getElem?_eq_none (by omega), List.getElem?_eq_none (by simpa using Nat.not_lt.1 hk)]
    rw [e]
    refine relL_map_range fun i hi => ?_
    obtain ⟨p, hp, hR⟩ := h2 i hi
    rw [List.getD_eq_getElem?_getD, hp]
    exact hR

section
variable {G : Type} [AddCommGroup G] [Module Fr G]

/-- C198: up to the order of the group, the multiples of a generator are different points. -/
theorem C198_distinct {g : G} (hg : g ≠ 0) {n : Nat} (hn : n ≤ frModulus) : ((List.range n).map fun i => (i + 1) • g).Nodup := by
  refine List.Nodup.map_on (fun i hi j hj h => ?_) List.nodup_range
  rw [List.mem_range] at hi hj
  rw [← Nat.cast_smul_eq_nsmul Fr, ← Nat.cast_smul_eq_nsmul Fr] at h
  have := smul_left_injective Fr hg h
  push_cast at this
  exact (CharP.natCast_injOn_Iio Fr frModulus) (show i < _ by omega) (show j < _ by omega) (add_right_cancel this)

end

/-! ## The shared tests with these data -/

section
variable {G : Type} [AddCommGroup G] [Module Fr G] [DecidableEq G]

omit [Module Fr G] [DecidableEq G] in
theorem makes_multiples {make : Nat → Res (List G)} {g : G} (h : ∀ n, make n = .ok ((List.range n).map fun i => (i + 1) • g)) :
    Makes make := fun n => ⟨_, h n, by simp⟩

/-- C198 (blst-from-scratch, tests): the three tests of transforms of points, as the crate calls them, pass exactly for sizes from 1 to 31. -/
theorem C198_blst_tests (g : G) (size size2 : Nat) :
    g1CompareFt (blstG1 G) fftSlow fftFast (TestData.blst g) size = passIf (1 ≤ size ∧ size < 32) ∧
    g1Roundtrip (blstG1 G) (TestData.blst g) size = passIf (1 ≤ size ∧ size < 32) ∧
    g1Stride (blstG1 G) (TestData.blst g) size size2 = passIf ((1 ≤ size ∧ size < 32) ∧ 1 ≤ size2 ∧ size2 < 32) :=
  C180_blst (makes_multiples (C198_blst g)) size size2

/-- C198 (mcl-kzg, tests): the round trip passes for sizes from 1 to 30 and fails for 31; the strides pass exactly for the sizes of which
both are below 7, both at least 7, or one below 3. -/
theorem C198_mcl_tests [Mcl.Lib Fr] {g : G} (hg : g ≠ 0) {size size2 : Nat} (h1 : 1 ≤ size) (h2 : 1 ≤ size2) (l1 : size < 32)
    (l2 : size2 < 32) :
    g1Roundtrip (mclG1 G) (TestData.mcl g) size = passIf (size ≠ 31) ∧
    g1Stride (mclG1 G) (TestData.mcl g) size size2 = passIf (min size size2 < 3 ∨ max size size2 < 7 ∨ 7 ≤ min size size2) := by
  constructor
  · by_cases h : size ≤ 30
    · rw [passIf_true (by omega)]
      exact C180_mcl_partial (makes_multiples (C198_mcl g)) size h1 h
    · obtain rfl : size = 31 := by omega
      rw [passIf_false (by simp)]
      refine (C180_mcl_31 (C198_mcl g _) (by rw [List.length_map, List.length_range])).2 ⟨(0 + 1) • g, ?_, by simpa using hg⟩
      exact List.mem_map.2 ⟨0, List.mem_range.2 (by positivity), rfl⟩
  · refine C180_mcl_stride hg (fun n => ?_) h1 h2 l1 l2
    rw [C198_mcl]
    congr 2
    funext i
    rw [← Nat.cast_smul_eq_nsmul Fr]
    push_cast
    rfl

end

/-- C198 (zkcrypto, tests): in either build the three tests pass for sizes from 1 to 16. -/
theorem C198_zk_tests (chk : Bool) {size size2 : Nat} (h1 : 1 ≤ size) (h16 : size ≤ 16) (h2 : 1 ≤ size2) (h216 : size2 ≤ 16) :
    g1CompareFt (zkG1 chk) (ZkP.fftG1Slow (g1Ops chk)) (ZkP.fftG1Fast (g1Ops chk)) (TestData.zk chk) size = .ok () ∧
    g1Roundtrip (zkG1 chk) (TestData.zk chk) size = .ok () ∧ g1Stride (zkG1 chk) (TestData.zk chk) size size2 = .ok () :=
  C180_zk_partial chk (fun n => by
    obtain ⟨l, e, h⟩ := C198_zk chk n
    exact ⟨l, _, e, h, by simp⟩) h1 h16 h2 h216

/-! ## Points of mcl-kzg from words -/

/-- The number a text stands for, read digit by digit. -/
def textNumber (s : List Nat) : Nat := s.foldl (fun a c => 10 * a + (c - 48)) 0

/-- A nonempty text of decimal digits. -/
def DigitText (s : List Nat) : Prop := s ≠ [] ∧ ∀ c ∈ s, 48 ≤ c ∧ c ≤ 57

/-- `setStr` of the library, in base ten, writes the number of a text of digits if it is below the size of the field. `val` says
which number an element stands for. -/
def ReadsDecimal {T F : Type} (L : Mcl.Ffi.CType T F) (val : T → Nat) : Prop :=
  ∀ x s, DigitText s → textNumber s < fpModulus → val (L.setStr x s 10).1 = textNumber s

theorem decimal_text (n : Nat) : DigitText (TestData.decimal n) ∧ textNumber (TestData.decimal n) = n := by
  rw [TestData.decimal]
  split
  case isTrue h => subst h; exact ⟨⟨by simp, by simp⟩, rfl⟩
  case isFalse h =>
    refine ⟨⟨by simpa [Nat.digits_eq_nil_iff_eq_zero] using h, fun c hc => ?_⟩, ?_⟩
    · obtain ⟨d, hd, rfl⟩ := List.mem_map.1 hc
      have := Nat.digits_lt_base (b := 10) (by norm_num) (List.mem_reverse.1 hd)
      omega
    · rw [textNumber, List.foldl_map, List.foldl_reverse]
      conv_rhs => rw [← Nat.ofDigits_digits 10 n]
      generalize Nat.digits 10 n = l
      induction l with
      | nil => rfl
      | cons d l ih => rw [List.foldr_cons, ih, Nat.ofDigits_cons]; simp; ring

/-- C198 (words): `from_arr_64` sets the coordinates to the numbers of the words, lowest word first. -/
theorem C198_from_arr_64 {T F : Type} {L : Mcl.Ffi.CType T F} {val : T → Nat} (hL : ReadsDecimal L val) {a b c : Zk.Fp}
    (ha : a.val < fpModulus) (hb : b.val < fpModulus) (hc : c.val < fpModulus) :
    ∃ x y z, TestData.fromArr64 L [[a.l0, a.l1, a.l2, a.l3, a.l4, a.l5], [b.l0, b.l1, b.l2, b.l3, b.l4, b.l5],
      [c.l0, c.l1, c.l2, c.l3, c.l4, c.l5]] = .ok (x, y, z) ∧ val x = a.val ∧ val y = b.val ∧ val z = c.val := by
  have hw : ∀ a : Zk.Fp, wordsVal [a.l0, a.l1, a.l2, a.l3, a.l4, a.l5, 0, 0] = a.val := by
    intro a
    simp only [wordsVal, List.foldr, Zk.Fp.val, W]
    ring
  have hs : ∀ a : Zk.Fp, a.val < fpModulus → val (Mcl.Ffi.setStr L (Mcl.Ffi.zero L) (TestData.decimal (wordsVal [a.l0, a.l1, a.l2, a.l3, a.l4, a.l5, 0, 0])) 10).1 = a.val := by
    intro a ha
    rw [hw, Mcl.Ffi.setStr]
    have := hL (Mcl.Ffi.zero L) (TestData.decimal a.val) (decimal_text _).1 (by rw [(decimal_text _).2]; exact ha)
    rw [(decimal_text _).2] at this
    exact this
  exact ⟨_, _, _, rfl, hs a ha, hs b hb, hs c hc⟩

/-- C198 (words, not those of the constants): the words of `G1_GENERATOR` stand for `x · 2^384`; read by `from_arr_64` they give
coordinates that are on no curve point, in Jacobian coordinates. -/
theorem C198_from_arr_64_generator {T F : Type} {L : Mcl.Ffi.CType T F} {val : T → Nat} (hL : ReadsDecimal L val) :
    let g := Consts.mclG1Generator
    ∃ x y z, TestData.fromArr64 L [[g.x.l0, g.x.l1, g.x.l2, g.x.l3, g.x.l4, g.x.l5], [g.y.l0, g.y.l1, g.y.l2, g.y.l3, g.y.l4, g.y.l5],
      [g.z.l0, g.z.l1, g.z.l2, g.z.l3, g.z.l4, g.z.l5]] = .ok (x, y, z) ∧ (val z : Fq) ≠ 0 ∧
      (val y : Fq) ^ 2 ≠ (val x : Fq) ^ 3 + 4 * (val z : Fq) ^ 6 := by
  intro g
  obtain ⟨x, y, z, e, hx, hy, hz⟩ := C198_from_arr_64 hL (a := g.x) (b := g.y) (c := g.z) (by decide +kernel) (by decide +kernel) (by decide +kernel)
  refine ⟨x, y, z, e, ?_, ?_⟩
  · rw [hz, Ne, ZMod.natCast_eq_zero_iff]
    decide +kernel
  · rw [hx, hy, hz]
    intro h
    have h' : ((g.y.val ^ 2 : Nat) : Fq) = ((g.x.val ^ 3 + 4 * g.z.val ^ 6 : Nat) : Fq) := by push_cast; exact h
    rw [ZMod.natCast_eq_natCast_iff'] at h'
    revert h'
    decide +kernel

/-! ## Examples -/

example : TestData.mcl (1 : Fr) 3 = .ok [1, 2, 3] := by
  rw [C198_mcl]; rfl
example : TestData.blst (5 : Fr) 2 = .ok [5, 10] := by
  rw [C198_blst]; rfl
example : TestData.decimal 120 = [49, 50, 48] := by simp [TestData.decimal]
example (g : Fr) : g1Roundtrip (blstG1 Fr) (TestData.blst g) 10 = .ok () := (C198_blst_tests g 10 1).2.1
example [Mcl.Lib Fr] : g1Stride (mclG1 Fr) (TestData.mcl 1) 9 12 = .ok () ∧ g1Stride (mclG1 Fr) (TestData.mcl 1) 6 12 = .panic :=
  ⟨(C198_mcl_tests one_ne_zero (by norm_num) (by norm_num) (by norm_num) (by norm_num)).2.trans (passIf_true (by decide)),
    (C198_mcl_tests one_ne_zero (by norm_num) (by norm_num) (by norm_num) (by norm_num)).2.trans (passIf_false (by decide))⟩

end Kzg.Props
