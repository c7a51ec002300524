import Verif.Spec.Poly
import Verif.Proofs.FFTPoly
import Verif.Proofs.Mcl.Settings
/-!
# Properties C94–C98: integer helpers, settings and transforms of mcl-kzg

`Lib` stands for the outcomes the mcl library leaves open (inverse of zero, division by zero); every theorem
holds for all of them.
-/

namespace Kzg.Props
open Kzg Polynomial Finset Kzg.Mcl

/-! ## C94 -/

/-- C94 (test): exact on the positive words. -/
theorem C94_is_power_of_2_partial (n : Nat) (h : 0 < n) : ∃ b, Mcl.isPowerOf2 n = .ok b ∧ (b = true ↔ ∃ k, n = 2 ^ k) :=
  ⟨_, isPowerOf2_eq (by omega), isPowerOfTwo_iff⟩

/-- C94 (refuted for zero): the test panics. -/
theorem C94_is_power_of_2_zero : Mcl.isPowerOf2 0 = .panic := isPowerOf2_zero

/-- C94 (logarithm): the exponent of the largest power of two that is at most the word. -/
theorem C94_log_2 (x : Nat) (h0 : 0 < x) (h : x < 2 ^ 64) : 2 ^ Mcl.log2 x ≤ x ∧ x < 2 ^ (Mcl.log2 x + 1) := by
  rw [log2_eq h]
  exact ⟨Nat.log2_self_le (by omega), Nat.lt_log2_self⟩

/-- C94 (rounding up): the least power of two that is at least the argument, zero included. -/
theorem C94_next_pow_of_2 (v : Nat) (h2 : v ≤ 2 ^ 63) :
    ∃ p, Mcl.nextPowOf2 v = .ok p ∧ (∃ k, p = 2 ^ k) ∧ v ≤ p ∧ ∀ k, v ≤ 2 ^ k → p ≤ 2 ^ k :=
  ⟨_, nextPowOf2_eq h2, ⟨_, rfl⟩, le_two_pow_bitLen_pred, fun _ h => two_pow_bitLen_pred_le h⟩

/-- C94 (rounding up): where no word is large enough, a panic. -/
theorem C94_next_pow_of_2_overflow (v : Nat) (h1 : 2 ^ 63 < v) (h2 : v < 2 ^ 64) :
    Mcl.nextPowOf2 v = .panic := nextPowOf2_overflow h1 h2

/-- C94 (reordering): for lengths `2^k` with `0 < k` the elements go to the positions with reversed bits. -/
theorem C94_order_by_rev_bit_order_partial {α : Type} (v : List α) (k : Nat) (h0 : 0 < k) (hk : k < 64)
    (hl : v.length = 2 ^ k) :
    ∃ out, orderByRevBitOrder v = .ok out ∧ out.length = v.length ∧ out.Perm v ∧
      ∀ i < v.length, ∃ r < 2 ^ k, (∀ b < k, r.testBit b = i.testBit (k - 1 - b)) ∧ out[r]? = v[i]? := by
  obtain ⟨out, h, hol, ho⟩ := orderByRevBitOrder_eq v k h0 hk hl
  refine ⟨out, h, by omega, perm_of_bitrev v out k hl hol ho, ?_⟩
  intro i hi
  refine ⟨reverseBits k i, reverseBits_lt k i, ?_, ?_⟩
  · intro b hb
    rw [testBit_reverseBits]; simp [hb]
  · rw [ho _ (reverseBits_lt k i), reverseBits_invol (by omega)]

/-- C94 (reordering): twice gives the list back. -/
theorem C94_involution {α : Type} (v : List α) (k : Nat) (h0 : 0 < k) (hk : k < 64) (hl : v.length = 2 ^ k) :
    (do let w ← orderByRevBitOrder v; orderByRevBitOrder w) = .ok v := by
  obtain ⟨w, hw, hwl, hwv⟩ := orderByRevBitOrder_eq v k h0 hk hl
  obtain ⟨u, hu, hul, huv⟩ := orderByRevBitOrder_eq w k h0 hk hwl
  rw [hw, Res.bind_ok, hu]
  congr 1
  apply List.ext_getElem?
  intro i
  by_cases hi : i < 2 ^ k
  · rw [huv i hi, hwv _ (reverseBits_lt k i), reverseBits_invol hi]
  · rw [List.getElem?_eq_none (by omega), List.getElem?_eq_none (by omega)]

/-- C94 (refuted for length one): a checked build panics on the shift by 64. -/
theorem C94_order_single {α : Type} (x : α) : orderByRevBitOrder [x] = .panic := rfl

/-- C94 (reversal of an index): with the length given as `2^k - 1` the reversal of the `k` lowest bits. -/
theorem C94_reverse_bits_limited (k i : Nat) (h0 : 0 < k) (hk : k ≤ 64) :
    ∃ r, reverseBitsLimited (2 ^ k - 1) i = .ok r ∧ r < 2 ^ k ∧
      ∀ b < k, r.testBit b = i.testBit (k - 1 - b) := by
  refine ⟨reverseBits k i, ?_, reverseBits_lt k i, fun b hb => by rw [testBit_reverseBits]; simp [hb]⟩
  rw [reverseBitsLimited, leadingZeros, bitLen_two_pow_pred, shrU_of_lt (by omega), reverseBits_shift hk]

/-- C94 (refuted for the length itself): with `2^k` the result is twice as large as the reversal. -/
theorem C94_reverse_bits_length (k i : Nat) (hk : k < 64) (hi : i < 2 ^ k) :
    reverseBitsLimited (2 ^ k) i = .ok (2 * reverseBits k i) := by
  have hl : leadingZeros (2 ^ k) = 64 - (k + 1) := by have := leadingZeros_two_pow hk; omega
  rw [reverseBitsLimited, hl, shrU_of_lt (by omega), reverseBits_shift (by omega)]
  congr 1
  apply Nat.eq_of_testBit_eq
  intro j
  rw [testBit_reverseBits]
  cases j with
  | zero =>
    have : i.testBit k = false := Nat.testBit_lt_two_pow hi
    simp [this]
  | succ j =>
    rw [Nat.testBit_succ, Nat.mul_div_cancel_left _ (by omega), testBit_reverseBits]
    have : k + 1 - 1 - (j + 1) = k - 1 - j := by omega
    rw [this]; congr 1; simp

example : orderByRevBitOrder [0, 1, 2, 3, 4, 5, 6, 7] = .ok [0, 4, 2, 6, 1, 5, 3, 7] := by decide +kernel
example : Mcl.nextPowOf2 5 = .ok 8 ∧ Mcl.nextPowOf2 0 = .ok 1 ∧ Mcl.log2 9 = 3 := by decide +kernel
example : reverseBitsLimited 7 1 = .ok 4 ∧ reverseBitsLimited 8 1 = .ok 8 := by decide +kernel

/-! ## C95 -/

/-- Well formed contents of settings: width, a root of exact order, its powers, and their inverses. -/
def GoodSettings (fs : FFTSettings Fr) (scale : Nat) : Prop :=
  fs.maxWidth = 2 ^ scale ∧ orderOf fs.rootOfUnity = 2 ^ scale ∧
  fs.expandedRoots = (List.range (2 ^ scale + 1)).map (fun i => fs.rootOfUnity ^ i) ∧
  fs.reverseRoots.length = 2 ^ scale + 1 ∧
  ∀ i ≤ 2 ^ scale, ∃ a b, fs.expandedRoots[i]? = some a ∧ fs.reverseRoots[i]? = some b ∧ a * b = 1

theorem good_of_wf {fs : FFTSettings Fr} {scale : Nat} (hwf : fs.WF scale) : GoodSettings fs scale := by
  refine ⟨hwf.width, hwf.prim.eq_orderOf.symm, ?_, hwf.rlen, ?_⟩
  · apply List.ext_getElem?
    intro i
    by_cases hi : i < 2 ^ scale + 1
    · rw [hwf.exp i (by omega), List.getElem?_map, List.getElem?_range hi]; rfl
    · rw [List.getElem?_eq_none (by have := hwf.elen; omega),
        List.getElem?_eq_none (by simp; omega)]
  · intro i hi
    refine ⟨_, _, hwf.exp i hi, hwf.rev i hi, ?_⟩
    have hw0 : fs.rootOfUnity ≠ 0 := hwf.prim.ne_zero (by positivity)
    rw [← mul_pow, mul_inv_cancel₀ hw0, one_pow]

/-- A call of one of the constructors. -/
inductive Call where
  | new (maxScale : Nat)
  | newTrait (scale : Nat)
  | custom (maxScale : Nat) (roots : List (Option Fr))

/-- Its result and the statics after it. -/
def Call.run : Call → Globals Fr → Res (FFTSettings Fr) × Globals Fr
  | .new k, g => newPR5 g k
  | .newTrait k, g => Mcl.newTrait g k
  | .custom k roots, g => newCustom g k roots

/-- The statics after a sequence of calls. -/
def after (l : List Call) : Globals Fr := l.foldl (fun g c => (c.run g).2) Globals.start

theorem after_inv (l : List Call) : (after l).Inv := by
  have : ∀ (l : List Call) (g : Globals Fr), g.Inv → (l.foldl (fun g c => (c.run g).2) g).Inv := by
    intro l
    induction l with
    | nil => intro g h; exact h
    | cons c l ih =>
      intro g h
      refine ih _ ?_
      cases c with
      | new k => exact newPR5_inv h k
      | newTrait k => exact newCustom_inv h _ _
      | custom k roots => exact newCustom_inv h _ _
  exact this l _ start_inv

/-- C95 (history): although the constructors share mutable statics, the result of a call does not depend on
the calls before it. -/
theorem C95_history (l : List Call) (c : Call) : (c.run (after l)).1 = (c.run Globals.start).1 := by
  cases c with
  | new k =>
    show (newPR5 (after l) k).1 = (newPR5 Globals.start k).1
    rw [newPR5_eq (after_inv l), newPR5_eq start_inv]
  | newTrait k => exact newCustom_indep (after l) Globals.start _ _
  | custom k roots => exact newCustom_indep (after l) Globals.start _ _

/-- C95 (the inherent constructor): good settings below scale 32. -/
theorem C95_new_partial (scale : Nat) (h : scale < 32) (l : List Call) :
    ∃ fs, ((Call.new scale).run (after l)).1 = .ok fs ∧ GoodSettings fs scale := by
  obtain ⟨fs, e, hwf, _⟩ := newPR5_spec (after_inv l) h
  exact ⟨fs, e, good_of_wf hwf⟩

/-- C95 (refuted for the inherent constructor): scales of 32 and more panic instead of being an error. -/
theorem C95_new_panics (scale : Nat) (h : 32 ≤ scale) (l : List Call) :
    ((Call.new scale).run (after l)).1 = .panic := newPR5_panic (after_inv l) h

/-- C95 (the constructor of the trait): good settings for scales below 32, an error for 32 to 255. -/
theorem C95_trait_new_partial (scale : Nat) (l : List Call) :
    (scale < 32 → ∃ fs, ((Call.newTrait scale).run (after l)).1 = .ok fs ∧ GoodSettings fs scale) ∧
    (32 ≤ scale → scale < 256 → ∃ msg, ((Call.newTrait scale).run (after l)).1 = .err msg) := by
  constructor
  · intro h
    have e : scale % 256 = scale := Nat.mod_eq_of_lt (by omega)
    obtain ⟨fs, he, hwf, _⟩ := newTrait_spec (F := Fr) (after l) (k := scale) (by omega)
    rw [e] at hwf
    exact ⟨fs, he, good_of_wf hwf⟩
  · intro h1 h2
    exact ⟨_, newTrait_err (after l) (by rw [Nat.mod_eq_of_lt h2]; omega)⟩

/-- C95 (refuted from 256 on): the scale loses its high bits, so scale `256 + s` is accepted and gives settings
of width `2^s`. -/
theorem C95_trait_truncates (s : Nat) (h : s < 32) (l : List Call) :
    ∃ fs, ((Call.newTrait (256 + s)).run (after l)).1 = .ok fs ∧ fs.maxWidth = 2 ^ s := by
  have e : (256 + s) % 256 = s := by omega
  obtain ⟨fs, he, hwf, _⟩ := newTrait_spec (F := Fr) (after l) (k := 256 + s) (by omega)
  rw [e] at hwf
  exact ⟨fs, he, hwf.width⟩

/-- C95 (roots): up to scale 6 the trait's settings have the root of the other crates; from scale 7 on they have
another one. -/
theorem C95_trait_root (scale : Nat) (h : scale < 32) (fs fs' : FFTSettings Fr)
    (hfs : Mcl.FFTSettings.new7 scale = .ok fs) (hfs' : FFTSettings.new scale = .ok fs') :
    fs.rootOfUnity = fs'.rootOfUnity ↔ scale < 7 := by
  have e : scale % 256 = scale := Nat.mod_eq_of_lt (by omega)
  obtain ⟨fs1, he, _, hr⟩ := newTrait_spec (F := Fr) Globals.start (k := scale) (by omega)
  rw [Mcl.FFTSettings.new7, he] at hfs
  cases hfs
  rw [e, List.getElem?_eq_getElem (by rw [len7_fr]; exact h), pr7_getElem, Option.some.injEq] at hr
  have hr' : fs'.rootOfUnity = tableRow scale := by
    have hlen : scale < (FrTable.rootTable (F := Fr)).length := by rw [LawfulFr.len (F := Fr)]; exact h
    rw [FFTSettings.new, if_neg (by omega), rd_of_lt hlen, Res.bind_ok] at hfs'
    cases hx : (Kzg.expandRoot (FrTable.rootTable (F := Fr))[scale] (1 <<< scale)).unwrap with
    | ok x =>
      rw [hx, Res.bind_ok] at hfs'
      cases hfs'
      show (FrTable.rootTable (F := Fr))[scale] = tableRow scale
      simp only [FrTable.rootTable, List.getElem_map, tableRow]
      rw [List.getD_eq_getElem _ _ (by rw [table_len]; exact h)]
    | err e => rw [hx] at hfs'; cases hfs'
    | panic => rw [hx] at hfs'; cases hfs'
  rw [← hr, hr', row7, tableRow, frFromWords]
  constructor
  · intro hc
    by_contra h7
    exact row7_ne scale h (by omega) (fr_natCast_inj (row7_lt scale h) (table_lt scale h) hc)
  · intro h7
    rw [row7_low scale h7]

/-- Settings of one constructor transform alike, whatever their scales. -/
def ScaleIndependent (new : Nat → Res (FFTSettings Fr)) : Prop :=
  ∀ (_ : Lib Fr) (s s' m : Nat) (fs fs' : FFTSettings Fr), new s = .ok fs → new s' = .ok fs' → m ≤ s → m ≤ s' →
    ∀ data : List Fr, data.length = 2 ^ m → Mcl.fft fs data false = Mcl.fft fs' data false

/-- C95 (scale): the inherent constructor makes settings that transform alike. -/
theorem C95_scale_independent : ScaleIndependent Mcl.FFTSettings.new5 := by
  intro _ s s' m fs fs' h h' hm hm' data hd
  have key : ∀ s fs, Mcl.FFTSettings.new5 s = .ok fs → m ≤ s → fs.WF s ∧ fs.omega (2 ^ m) = row5 m := by
    intro s fs h hm
    have hwf := wf_of_new5 h
    have hs := hwf.lt
    obtain ⟨fs1, he, _, hr⟩ := newPR5_spec (F := Fr) start_inv hs
    rw [Mcl.FFTSettings.new5, he] at h
    cases h
    rw [List.getElem?_eq_getElem (by rw [len5_fr]; exact hs), pr5_getElem, Option.some.injEq] at hr
    refine ⟨hwf, ?_⟩
    rw [FFTSettings.omega, hwf.width, Nat.pow_div hm (by omega), ← hr, ← row5_pow (i := m) (s - m) (by omega)]
    rw [show m + (s - m) = s by omega]
  obtain ⟨hwf, ho⟩ := key s fs h hm
  obtain ⟨hwf', ho'⟩ := key s' fs' h' hm'
  rw [fft_eq hwf hm hd _ (fun e => by cases e), fft_eq hwf' hm' hd _ (fun e => by cases e),
    hwf.fft_eval hm _ hd, hwf'.fft_eval hm' _ hd, ho, ho']

/-- C95 (refuted for the trait): settings of scale 3 and of scale 7 transform the same eight values differently. -/
theorem C95_scale_dependent (lib : Lib Fr) : ¬ ScaleIndependent Mcl.FFTSettings.new7 := by
  intro hc
  obtain ⟨fs, h, hwf, hr⟩ := newTrait_spec (F := Fr) Globals.start (k := 3) (by norm_num)
  obtain ⟨fs', h', hwf', hr'⟩ := newTrait_spec (F := Fr) Globals.start (k := 7) (by norm_num)
  have hd : ([0, 1, 0, 0, 0, 0, 0, 0] : List Fr).length = 2 ^ 3 := by norm_num
  have he := hc lib 3 7 3 fs fs' h h' (by norm_num) (by norm_num) [0, 1, 0, 0, 0, 0, 0, 0] hd
  rw [fft_eq hwf (by norm_num) hd _ (fun e => by cases e), fft_eq hwf' (by norm_num) hd _ (fun e => by cases e),
    hwf.fft_eval (by norm_num) _ hd, hwf'.fft_eval (by norm_num) _ hd] at he
  have e1 := congrArg (fun r : Res (List Fr) => match r with | .ok l => l[1]? | _ => none) he
  simp only [List.getElem?_map, List.getElem?_range (show 1 < 2 ^ 3 by norm_num), Option.map_some, pow_one,
    Option.some.injEq] at e1
  have hp : ∀ x : Fr, (polyOf ([0, 1, 0, 0, 0, 0, 0, 0] : List Fr)).eval x = x := by
    intro x
    rw [eval_polyOf]; simp [sum_range_succ]
  rw [hp, hp, FFTSettings.omega, FFTSettings.omega, hwf.width, hwf'.width] at e1
  have i3 : 3 < (Tables.pr7 (F := Fr)).length := by rw [len7_fr]; norm_num
  have i7 : 7 < (Tables.pr7 (F := Fr)).length := by rw [len7_fr]; norm_num
  have e3 : fs.rootOfUnity = row7 3 := by
    rw [show 3 % 256 = 3 by norm_num, List.getElem?_eq_getElem i3, pr7_getElem, Option.some.injEq] at hr
    exact hr.symm
  have e7 : fs'.rootOfUnity = row7 7 := by
    rw [show 7 % 256 = 7 by norm_num, List.getElem?_eq_getElem i7, pr7_getElem, Option.some.injEq] at hr'
    exact hr'.symm
  rw [e3, e7] at e1
  have h75 : row7 7 = row5 7 := by rw [row7, row7_high 7 (by norm_num) le_rfl]; rfl
  have hp5 := row5_pow (i := 3) 4 (by norm_num)
  norm_num at e1
  rw [h75] at e1
  norm_num at hp5
  rw [hp5] at e1
  exact row75_ne 3 (by norm_num) le_rfl (fr_natCast_inj (row7_lt 3 (by norm_num)) (row5_lt 3 (by norm_num)) e1)

/-- C95 (refuted for threads): the inherent constructor first makes sure that the statics hold its table and then
reads from them. If the trait's constructor of another thread runs in between, the root read belongs to the other
table. -/
theorem C95_threads : ∃ root, rd ((Call.newTrait 0).run (initGlobals Globals.start)).2.table 3 = .ok root ∧
    ∀ fs, Mcl.FFTSettings.new5 3 = .ok fs → root ≠ fs.rootOfUnity := by
  have i3 : 3 < (Tables.pr7 (F := Fr)).length := by rw [len7_fr]; norm_num
  refine ⟨row7 3, ?_, ?_⟩
  · have : ((Call.newTrait 0).run (initGlobals Globals.start)).2.table = Tables.pr7 (F := Fr) := by
      simp only [Call.run, Mcl.newTrait, newCustom, initGlobalsCustom, parseAll_some, Res.bind_ok]
    rw [this, rd_of_lt i3, pr7_getElem]
  · intro fs h hc
    obtain ⟨fs1, he, _, hr⟩ := newPR5_spec (F := Fr) start_inv (k := 3) (by norm_num)
    rw [Mcl.FFTSettings.new5, he] at h
    cases h
    rw [List.getElem?_eq_getElem (by rw [len5_fr]; norm_num), pr5_getElem, Option.some.injEq] at hr
    rw [← hr] at hc
    exact row75_ne 3 (by norm_num) le_rfl
      (fr_natCast_inj (row7_lt 3 (by norm_num)) (row5_lt 3 (by norm_num)) hc)

example : ∃ fs, ((Call.newTrait 4).run (after [.new 2, .newTrait 256, .custom 0 [none]])).1 = .ok fs ∧
    fs.maxWidth = 16 := by
  obtain ⟨fs, h, hw, _⟩ := (C95_trait_new_partial 4 [.new 2, .newTrait 256, .custom 0 [none]]).1 (by norm_num)
  exact ⟨fs, h, hw⟩

/-! ## C96 -/

/-- Settings made by one of the two constructors. -/
def MadeSettings (fs : FFTSettings Fr) (scale : Nat) : Prop :=
  scale < 32 ∧ (Mcl.FFTSettings.new5 scale = .ok fs ∨ Mcl.FFTSettings.new7 scale = .ok fs)

theorem MadeSettings.wf {fs : FFTSettings Fr} {scale : Nat} (h : MadeSettings fs scale) : fs.WF scale := by
  obtain ⟨hs, h | h⟩ := h
  · exact wf_of_new5 h
  · have := wf_of_new7 h
    rwa [Nat.mod_eq_of_lt (by omega)] at this

section
variable [Lib Fr]

/-- C96: the forward transform of a list of at most `2^scale` values, of any length, is the list of values of the
polynomial with these coefficients at the powers of a primitive root of unity whose order is the least power of
two that is at least the length. -/
theorem C96_fft_is_evaluation {scale : Nat} {fs : FFTSettings Fr} (hfs : MadeSettings fs scale)
    (data : List Fr) (hd : data.length ≤ 2 ^ scale) :
    ∃ (n : Nat) (ω : Fr) (out : List Fr), (∃ m ≤ scale, n = 2 ^ m) ∧ data.length ≤ n ∧
      (∀ m, data.length ≤ 2 ^ m → n ≤ 2 ^ m) ∧ IsPrimitiveRoot ω n ∧
      Mcl.fft fs data false = .ok out ∧ out.length = n ∧
      ∀ k < n, out[k]? = some ((polyOf data).eval (ω ^ k)) := by
  have hwf := hfs.wf
  have hm := bitLen_le_of_le hd
  refine ⟨2 ^ bitLen (data.length - 1), fs.omega (2 ^ bitLen (data.length - 1)),
    (List.range (2 ^ bitLen (data.length - 1))).map
      fun i => (polyOf (padded data)).eval (fs.omega (2 ^ bitLen (data.length - 1)) ^ i), ⟨_, hm, rfl⟩,
    le_two_pow_bitLen_pred, fun _ h => two_pow_bitLen_pred_le h, hwf.omega_prim hm, ?_, ?_, ?_⟩
  · rw [fft_padded hwf hd _ (fun e => by cases e)]
    exact hwf.fft_eval hm _ (padded_length _)
  · simp
  · intro k hk
    rw [List.getElem?_map, List.getElem?_range hk]
    rw [Option.map_some, polyOf_padded]

/-- C96 (round trip): for lists of `2^m` values, `m ≤ 30`, the transforms undo each other. -/
theorem C96_fft_roundtrip_partial {scale : Nat} {fs : FFTSettings Fr} (hfs : MadeSettings fs scale) {m : Nat}
    (hm : m ≤ scale) (h30 : m ≤ 30) (data : List Fr) (hd : data.length = 2 ^ m) :
    (do let e ← Mcl.fft fs data false; Mcl.fft fs e true) = .ok data ∧
    (do let e ← Mcl.fft fs data true; Mcl.fft fs e false) = .ok data := by
  have hwf := hfs.wf
  obtain ⟨e, he, hel, _⟩ := hwf.fft_forward hm data hd
  obtain ⟨e', he', hel', _⟩ := hwf.fft_backward hm data hd
  have h1 := hwf.fft_roundtrip hm data hd
  have h2 := hwf.fft_roundtrip' hm data hd
  rw [he, Res.bind_ok] at h1
  rw [he', Res.bind_ok] at h2
  rw [fft_eq hwf hm hd _ (fun _ => h30), fft_eq hwf hm hd _ (fun _ => h30), he, he', Res.bind_ok, Res.bind_ok,
    fft_eq hwf hm hel _ (fun _ => h30), fft_eq hwf hm hel' _ (fun _ => h30)]
  exact ⟨h1, h2⟩

/-- C96 (refuted at `2^31` values): the length passes through a signed 32-bit integer, and the inverse of the
transform is the negative of the data. -/
theorem C96_fft_roundtrip_31 {fs : FFTSettings Fr} (hfs : MadeSettings fs 31) (data : List Fr)
    (hd : data.length = 2 ^ 31) :
    (do let e ← Mcl.fft fs data false; Mcl.fft fs e true) = .ok (data.map fun x => -x) := by
  have hwf := hfs.wf
  obtain ⟨e, he, hel, _⟩ := hwf.fft_forward le_rfl data hd
  have h1 := hwf.fft_roundtrip le_rfl data hd
  rw [he, Res.bind_ok] at h1
  rw [fft_eq hwf le_rfl hd _ (fun e => by cases e), he, Res.bind_ok, fft_31 hwf e hel, h1, Res.bind_ok]

/-- C96 (rejection): an error exactly for lists longer than the width, never a panic. -/
theorem C96_fft_rejects {scale : Nat} {fs : FFTSettings Fr} (hfs : MadeSettings fs scale) (data : List Fr)
    (inverse : Bool) :
    (2 ^ scale < data.length → ∃ msg, Mcl.fft fs data inverse = .err msg) ∧
    (data.length ≤ 2 ^ scale → ∃ out, Mcl.fft fs data inverse = .ok out ∧ data.length ≤ out.length) := by
  have hwf := hfs.wf
  constructor
  · intro h
    exact ⟨_, fft_err (by rw [hwf.width]; exact h) _⟩
  · intro h
    have hm := bitLen_le_of_le h
    have hle := le_two_pow_bitLen_pred (v := data.length)
    cases inverse with
    | false =>
      obtain ⟨r, hr, hl, _⟩ := hwf.fft_forward hm (padded data) (padded_length _)
      exact ⟨r, by rw [fft_padded hwf h _ (fun e => by cases e), hr], by omega⟩
    | true =>
      obtain ⟨r, hr, hl, _⟩ := hwf.fft_backward hm (padded data) (padded_length _)
      by_cases h30 : data.length ≤ 2 ^ 30
      · exact ⟨r, by rw [fft_padded hwf h _ (fun _ => h30), hr], by omega⟩
      · have hb : bitLen (data.length - 1) = 31 := by
          have h1 := hwf.lt
          by_contra hne
          have : 2 ^ bitLen (data.length - 1) ≤ 2 ^ 30 := Nat.pow_le_pow_right (by omega) (by omega)
          omega
        have hs : scale = 31 := by have := hwf.lt; omega
        subst hs
        refine ⟨r.map fun x => -x, ?_, by rw [List.length_map, hl]; exact hle⟩
        rw [fft_inplace hwf h, inplaceFft, inplace_31 simpleFft_spec bflyFr_spec hwf _
          (by rw [padded_length, hb]), hr, Res.bind_ok]

end

example (lib : Lib Fr) : ∃ fs : FFTSettings Fr, MadeSettings fs 3 ∧
    ∃ out, Mcl.fft fs [1, 2, 3] false = .ok out ∧ out[0]? = some 6 := by
  obtain ⟨fs, h, _, _⟩ := newTrait_spec (F := Fr) Globals.start (k := 3) (by norm_num)
  have hm : MadeSettings fs 3 := ⟨by norm_num, Or.inr h⟩
  obtain ⟨n, ω, out, _, hn, _, _, ho, _, hv⟩ := C96_fft_is_evaluation hm [1, 2, 3] (by simp)
  refine ⟨fs, hm, out, ho, ?_⟩
  rw [hv 0 (by simp at hn; omega), eval_polyOf]
  simp [sum_range_succ]; norm_num

/-! ## C97 -/

/-- C97: the recursive and the quadratic functions agree, for field elements and points and both tables. -/
theorem C97_fast_eq_slow {G : Type} [AddCommGroup G] [Module Fr G] {scale : Nat} {fs : FFTSettings Fr}
    (hfs : MadeSettings fs scale) {m : Nat} (hm : m ≤ scale) (roots : List Fr)
    (hroots : roots = fs.expandedRoots ∨ roots = fs.reverseRoots) :
    (∀ data ret ret' : List Fr, data.length = 2 ^ m → ret.length = 2 ^ m → ret'.length = 2 ^ m →
      ∃ out, fftFrFast ret data 1 roots (fs.maxWidth / 2 ^ m) = .ok out ∧
        fftFrSlow ret' data 1 roots (fs.maxWidth / 2 ^ m) = .ok out) ∧
    (∀ (data ret ret' : List G) (n n' : Nat), data.length = 2 ^ m → ret.length = 2 ^ m → ret'.length = 2 ^ m →
      ∃ out, fftG1Fast ret data 1 roots (fs.maxWidth / 2 ^ m) n = .ok out ∧
        fftG1Slow ret' data 1 roots (fs.maxWidth / 2 ^ m) n' = .ok out) := by
  have hwf := hfs.wf
  obtain ⟨w, hw, hr⟩ : ∃ w : Fr, IsPrimitiveRoot w (2 ^ m) ∧
      ∀ j < 2 ^ m, roots[j * (fs.maxWidth / 2 ^ m)]? = some (w ^ j) := by
    rcases hroots with rfl | rfl
    · exact ⟨_, hwf.omega_prim hm, hwf.roots_forward hm⟩
    · exact ⟨_, (hwf.omega_prim hm).inv, hwf.roots_backward hm⟩
  have gen : ∀ {M : Type} [AddCommGroup M] [Module Fr M]
      {simple : List M → Nat → Nat → List Fr → Nat → List M → Res (List M)} (_ : SimpleSpec simple)
      {bfly : List Fr → Nat → Nat → Nat → List M → Res (List M)} (_ : BflySpec bfly)
      (data ret ret' : List M), data.length = 2 ^ m → ret.length = 2 ^ m → ret'.length = 2 ^ m →
      ∃ out, fftRec simple bfly data 0 1 roots (fs.maxWidth / 2 ^ m) ret = .ok out ∧
        simple data 0 1 roots (fs.maxWidth / 2 ^ m) ret' = .ok out := by
    intro M _ _ simple hsm bfly hbf data ret ret' hd h1 h2
    have hd' : ∀ j < 2 ^ m, data[0 + j * 1]? = some (data.getD j 0) := fun j hj => by
      rw [Nat.zero_add]; exact FFTSettings.WF.getElem?_getD hd j hj
    obtain ⟨a, ha, hal, hav⟩ := fftRec_spec hsm hbf m data 0 1 roots (fs.maxWidth / 2 ^ m) ret w _ h1 hd' hr
      hw.pow_eq_one (FFTSettings.WF.half_neg hw)
    obtain ⟨b, hb, hbl, hbv⟩ := hsm (2 ^ m) data 0 1 roots (fs.maxWidth / 2 ^ m) ret' w _ (by positivity) h2
      hw.pow_eq_one hd' hr
    have : a = b := by
      apply List.ext_getElem?
      intro i
      by_cases hi : i < 2 ^ m
      · rw [hav i hi, hbv i hi]
      · rw [List.getElem?_eq_none (by omega), List.getElem?_eq_none (by omega)]
    exact ⟨a, ha, by rw [hb, this]⟩
  exact ⟨fun data ret ret' => gen simpleFft_spec bflyFr_spec data ret ret',
    fun data ret ret' _ _ => gen simpleFftG1_spec bflyG1_spec data ret ret'⟩

/-! ## C98 -/

section
variable [Lib Fr] {G : Type} [AddCommGroup G] [Module Fr G]

/-- C98: the transform of points `d_i` is `∑_j ω^(jk) d_j` at position `k`. -/
theorem C98_fft_g1 {scale : Nat} {fs : FFTSettings Fr} (hfs : MadeSettings fs scale) {m : Nat} (hm : m ≤ scale)
    (data : List G) (hd : data.length = 2 ^ m) :
    ∃ (ω : Fr) (out : List G), ω = fs.rootOfUnity ^ (2 ^ (scale - m)) ∧ IsPrimitiveRoot ω data.length ∧
      Mcl.fftG1 fs data false = .ok out ∧ out.length = data.length ∧
      ∀ k < data.length, out[k]? = some (∑ j ∈ range data.length, ω ^ (j * k) • data.getD j 0) := by
  have hwf := hfs.wf
  obtain ⟨r, hr, hl, hv⟩ := hwf.fft_forward hm data hd
  refine ⟨fs.omega (2 ^ m), r, ?_, by rw [hd]; exact hwf.omega_prim hm, ?_, by omega, ?_⟩
  · rw [FFTSettings.omega, hwf.width, Nat.pow_div hm (by omega)]
  · rw [fftG1_eq hwf hm hd _ (fun e => by cases e), hr]
  · intro k hk
    rw [hv k (by omega), hd]; rfl

/-- C98 (round trip): for `2^m` points, `m ≤ 30`, the transforms undo each other. -/
theorem C98_roundtrip_partial {scale : Nat} {fs : FFTSettings Fr} (hfs : MadeSettings fs scale) {m : Nat}
    (hm : m ≤ scale) (h30 : m ≤ 30) (data : List G) (hd : data.length = 2 ^ m) :
    (do let e ← Mcl.fftG1 fs data false; Mcl.fftG1 fs e true) = .ok data ∧
    (do let e ← Mcl.fftG1 fs data true; Mcl.fftG1 fs e false) = .ok data := by
  have hwf := hfs.wf
  obtain ⟨e, he, hel, _⟩ := hwf.fft_forward hm data hd
  obtain ⟨e', he', hel', _⟩ := hwf.fft_backward hm data hd
  have h1 := hwf.fft_roundtrip hm data hd
  have h2 := hwf.fft_roundtrip' hm data hd
  rw [he, Res.bind_ok] at h1
  rw [he', Res.bind_ok] at h2
  rw [fftG1_eq hwf hm hd _ (fun _ => h30), fftG1_eq hwf hm hd _ (fun _ => h30), he, he', Res.bind_ok,
    Res.bind_ok, fftG1_eq hwf hm hel _ (fun _ => h30), fftG1_eq hwf hm hel' _ (fun _ => h30)]
  exact ⟨h1, h2⟩

/-- C98 (refuted at `2^31` points): the round trip negates. -/
theorem C98_roundtrip_31 {fs : FFTSettings Fr} (hfs : MadeSettings fs 31) (data : List G)
    (hd : data.length = 2 ^ 31) :
    (do let e ← Mcl.fftG1 fs data false; Mcl.fftG1 fs e true) = .ok (data.map fun x => -x) := by
  have hwf := hfs.wf
  obtain ⟨e, he, hel, _⟩ := hwf.fft_forward le_rfl data hd
  have h1 := hwf.fft_roundtrip le_rfl data hd
  rw [he, Res.bind_ok] at h1
  rw [fftG1_eq hwf le_rfl hd _ (fun e => by cases e), he, Res.bind_ok, fftG1_31 hwf e hel, h1, Res.bind_ok]

/-- C98 (rejection): lists longer than the width and nonempty lists whose length is no power of two are errors,
all others but the empty list succeed. -/
theorem C98_rejects {scale : Nat} {fs : FFTSettings Fr} (hfs : MadeSettings fs scale) (data : List G)
    (h0 : data ≠ []) (inverse : Bool) :
    ((data.length > 2 ^ scale ∨ ¬ ∃ m, data.length = 2 ^ m) → ∃ msg, Mcl.fftG1 fs data inverse = .err msg) ∧
    (¬ (data.length > 2 ^ scale ∨ ¬ ∃ m, data.length = 2 ^ m) →
      ∃ out, Mcl.fftG1 fs data inverse = .ok out ∧ out.length = data.length) := by
  have hwf := hfs.wf
  constructor
  · intro h
    by_cases h1 : data.length > 2 ^ scale
    · exact ⟨_, fftG1_long (by rw [hwf.width]; exact h1) _⟩
    · have h2 := h.resolve_left h1
      push Not at h2
      exact ⟨_, fftG1_not_pow (by rw [hwf.width]; omega) h0 h2 _⟩
  · intro h
    push Not at h
    obtain ⟨h1, m, hm⟩ := h
    have hmk : m ≤ scale := by
      rw [hm] at h1
      exact (Nat.pow_le_pow_iff_right (by omega)).mp h1
    cases inverse with
    | false =>
      obtain ⟨r, hr, hl, _⟩ := hwf.fft_forward hmk data hm
      exact ⟨r, by rw [fftG1_eq hwf hmk hm _ (fun e => by cases e), hr], by omega⟩
    | true =>
      obtain ⟨r, hr, hl, _⟩ := hwf.fft_backward hmk data hm
      by_cases h30 : m ≤ 30
      · exact ⟨r, by rw [fftG1_eq hwf hmk hm _ (fun _ => h30), hr], by omega⟩
      · have hlt := hwf.lt
        have hs : scale = 31 := by omega
        have hm31 : m = 31 := by omega
        subst hs
        subst hm31
        exact ⟨r.map fun x => -x, by rw [fftG1_31 hwf _ hm, hr, Res.bind_ok], by
          rw [List.length_map, hl, hm]⟩

/-- C98 (refuted for the empty list): a panic. -/
theorem C98_empty (fs : FFTSettings Fr) (inverse : Bool) : Mcl.fftG1 fs ([] : List G) inverse = .panic :=
  fftG1_empty fs inverse

end

example (lib : Lib Fr) : ∃ fs : FFTSettings Fr, MadeSettings fs 2 ∧
    ∃ out, Mcl.fftG1 fs ([1, 2, 3, 4] : List Fr) false = .ok out ∧ out[0]? = some 10 := by
  obtain ⟨fs, h, _, _⟩ := newTrait_spec (F := Fr) Globals.start (k := 2) (by norm_num)
  have hm : MadeSettings fs 2 := ⟨by norm_num, Or.inr h⟩
  obtain ⟨ω, out, _, _, ho, _, hv⟩ := C98_fft_g1 hm (m := 2) le_rfl ([1, 2, 3, 4] : List Fr) rfl
  refine ⟨fs, hm, out, ho, ?_⟩
  rw [hv 0 (by simp)]
  simp [sum_range_succ]; norm_num

end Kzg.Props
