import Verif.Model.Mcl.ZeroPoly
import Verif.Proofs.Mcl.Poly
import Verif.Proofs.Zk.ZeroPoly
/-!
# The zero polynomial of mcl-kzg: comparison with the one of blst-from-scratch
-/

set_option linter.unusedSectionVars false

namespace Kzg.Mcl
open Kzg Res Polynomial
open Kzg.ZkP (NoErr powMsg Pos pos_set rd_ok wr_ok slice_ok)

/-- `m'` returns what `m` returns, with a value satisfying `P`, and panics if `m` reports the error of the dense
sets. -/
structure Sim {α : Type} (P : α → Prop) (m m' : Res α) : Prop where
  ok : ∀ r, m = .ok r → m' = .ok r ∧ P r
  err : m = .err powMsg → m' = .panic

theorem Sim.bind {α β : Type} {P : α → Prop} {Q : β → Prop} {m m' : Res α} {f f' : α → Res β}
    (h : Sim P m m') (hf : ∀ r, P r → Sim Q (f r) (f' r)) : Sim Q (m >>= f) (m' >>= f') := by
  cases hm : m with
  | ok r =>
    obtain ⟨h1, h2⟩ := h.ok r hm
    rw [h1, bind_ok, bind_ok]
    exact hf r h2
  | err e =>
    refine ⟨fun r hr => (by cases hr), fun he => ?_⟩
    rw [bind_err] at he
    have : m = .err powMsg := by rw [hm]; cases he; rfl
    rw [h.err this, bind_panic]
  | panic => exact ⟨fun r hr => (by cases hr), fun he => (by simp [powMsg] at he)⟩

theorem Sim.refl {α : Type} {P : α → Prop} {m : Res α} (hn : NoErr m) (h : ∀ r, m = .ok r → P r) : Sim P m m :=
  ⟨fun r hr => ⟨hr, h r hr⟩, fun he => absurd he (hn _)⟩

theorem Sim.self {α : Type} {m : Res α} (hn : NoErr m) : Sim (fun _ => True) m m := Sim.refl hn fun _ _ => trivial

theorem Sim.pure {α : Type} {P : α → Prop} {a : α} (h : P a) : Sim P (.ok a) (.ok a) :=
  Sim.refl (NoErr.ok _) fun r hr => by cases hr; exact h

theorem Sim.other {α : Type} {P : α → Prop} {m' : Res α} {e : String} (h : e ≠ powMsg) : Sim P (.err e) m' :=
  ⟨fun r hr => (by cases hr), fun he => absurd (by cases he; rfl) h⟩

theorem Sim.unwrap {α : Type} {P : α → Prop} {m m' : Res α} (h : Sim P m m') : Sim P m m'.unwrap :=
  ⟨fun r hr => by rw [(h.ok r hr).1]; exact ⟨rfl, (h.ok r hr).2⟩, fun he => by rw [h.err he]; rfl⟩

theorem Sim.forRange {σ : Type} {P : σ → Prop} {body body' : Nat → σ → Res σ} (lo hi : Nat) (s : σ) (h0 : P s)
    (h : ∀ i s, P s → Sim P (body i s) (body' i s)) : Sim P (forRange lo hi s body) (forRange lo hi s body') := by
  unfold Kzg.forRange
  generalize hi - lo = n
  induction n generalizing lo s with
  | zero => exact Sim.pure h0
  | succ n ih =>
    simp only [forLoop]
    exact Sim.bind (h lo s h0) fun r hr => ih (lo + 1) r hr

theorem NoErr.subU (a b : Nat) : NoErr (subU a b) := fun e => by unfold Kzg.subU; split <;> simp
theorem NoErr.slice {α : Type} (v : List α) (a b : Nat) : NoErr (slice v a b) := fun e => by
  unfold Kzg.slice; split <;> simp
theorem NoErr.spliceV {α : Type} (v : List α) (a b : Nat) (n : List α) : NoErr (spliceV v a b n) := fun e => by
  unfold Kzg.spliceV; split <;> simp

section
variable {F : Type} [Field F] [DecidableEq F] [Lib F]

theorem NoErr.partialInner (nd : F) (j : Nat) (p : List F) : NoErr (Kzg.partialInner nd j p) := by
  induction j generalizing p with
  | zero => exact NoErr.ok _
  | succ j ih =>
    exact (NoErr.rd _ _).bind fun x => (NoErr.wr _ _ _).bind fun p => (NoErr.rd _ _).bind fun x =>
      (NoErr.rd _ _).bind fun y => (NoErr.wr _ _ _).bind fun p => ih p

theorem partialInner_eq (nd : F) (j : Nat) (p : List F) : partialInner nd (j + 1) p = Kzg.partialInner nd j p := by
  induction j generalizing p with
  | zero => rfl
  | succ j ih =>
    rw [partialInner, if_neg (by omega), Kzg.partialInner]
    by_cases h : j + 1 < p.length
    · rw [rd_getD 0 h, bind_ok, bind_ok, wr_of_lt h, bind_ok, Nat.add_sub_cancel,
        rd_getD (l := p) 0 (by omega : j < p.length), bind_ok, wr_of_lt h, bind_ok,
        rd_of_getElem? (x := p.getD (j + 1) 0 * nd) (by rw [List.getElem?_set_self h]), bind_ok,
        rd_of_getElem? (x := p.getD j 0) (by
          rw [List.getElem?_set_ne (by omega), getElem?_eq_some_getD 0 (by omega)]), bind_ok,
        wr_of_lt (by simpa using h), bind_ok, List.set_set]
      exact ih _
    · rw [rd_of_ge (by omega), bind_panic, bind_panic]

theorem padPoly_sim (a : List F) (n : Nat) : Sim (fun r => r.length = n) (Kzg.padPoly a n) (padPoly n a).unwrap := by
  unfold Kzg.padPoly padPoly
  split
  · exact Sim.other (by decide)
  · exact Sim.pure (by simp; omega)

theorem zeroPolyPartial_eq (fs : FFTSettings F) (idxs : List Nat) (stride : Nat) (h : idxs ≠ []) :
    zeroPolyPartial fs idxs stride = fs.zeroPolyPartial idxs stride := by
  unfold zeroPolyPartial FFTSettings.zeroPolyPartial
  rw [if_neg (by simpa using h), if_neg (by simpa using h)]
  have : ∀ (nd : F) (i : Nat) (p : List F), partialInner nd i p = Kzg.partialInner nd (i - 1) p := by
    intro nd i p
    cases i with
    | zero => rfl
    | succ j => exact partialInner_eq nd j p
  simp only [this]

theorem zeroPolyPartial_noErr (fs : FFTSettings F) (idxs : List Nat) (stride : Nat) (h : idxs ≠ []) :
    NoErr (fs.zeroPolyPartial idxs stride) := by
  unfold FFTSettings.zeroPolyPartial
  rw [if_neg (by simpa using h)]
  refine NoErr.bind (NoErr.rd _ _) fun i0 => NoErr.bind (NoErr.rd _ _) fun r =>
    NoErr.bind (NoErr.wr _ _ _) fun poly => NoErr.forRange _ _ _ fun i poly => ?_
  exact (NoErr.rd _ _).bind fun ii => (NoErr.rd _ _).bind fun r => (NoErr.wr _ _ _).bind fun p =>
    (NoErr.rd _ _).bind fun nd => (NoErr.rd _ _).bind fun x => (NoErr.rd _ _).bind fun y =>
    (NoErr.wr _ _ _).bind fun p => (NoErr.partialInner _ _ _).bind fun p => (NoErr.rd _ _).bind fun z =>
    NoErr.wr _ _ _

theorem zeroPolyPartial_sim (fs : FFTSettings F) (idxs : List Nat) (stride : Nat) :
    Sim (fun _ => True) (fs.zeroPolyPartial idxs stride) (zeroPolyPartial fs idxs stride).unwrap := by
  by_cases h : idxs = []
  · subst h
    exact Sim.other (by decide)
  · rw [zeroPolyPartial_eq fs idxs stride h]
    exact (Sim.self (zeroPolyPartial_noErr fs idxs stride h)).unwrap

/-! ### Reduction -/

/-- The sign of inverse transforms of `2^m` values: the length passes through a signed 32-bit integer. -/
def isgn (m : Nat) : F := if m = 31 then -1 else 1

theorem isgn_of_le {m : Nat} (h : m ≤ 30) : isgn (F := F) m = 1 := if_neg (by omega)

theorem isgn_sq (m : Nat) : isgn (F := F) m * isgn m = 1 := by
  unfold isgn; split <;> simp

theorem ifft_eq {fs : FFTSettings F} {k m : Nat} (h : fs.WF k) (hm : m ≤ k) {values : List F}
    (hv : values.length = 2 ^ m) :
    fft fs values true = (fs.fft values true >>= fun r => .ok (r.map fun x => isgn m * x)) := by
  by_cases h30 : m ≤ 30
  · rw [fft_eq h hm hv true (fun _ => h30), isgn_of_le h30]
    cases fs.fft values true <;> simp
  · have := h.lt
    have hk : k = 31 := by omega
    have hm31 : m = 31 := by omega
    subst hk hm31
    rw [fft_31 h values hv, isgn, if_pos rfl]
    simp only [neg_mul, one_mul]

/-- The product of the partials, with the sign of the inverse transform. -/
theorem reducePartials_gen {fs : FFTSettings F} {k : Nat} (hwf : fs.WF k) {m : Nat}
    (hm : m ≤ k) (ps : List (List F)) (hne : ps ≠ []) (h : ∀ p ∈ ps, p ≠ [])
    (hfit : degSum ps + 1 ≤ 2 ^ m) :
    reducePartials fs (2 ^ m) ps =
      .ok ((List.range (degSum ps + 1)).map fun j => isgn m * (listProd ps).coeff j) := by
  have hpos : 0 < ps.length := List.length_pos_iff.mpr hne
  have hlen : ∀ p ∈ ps, p.length ≤ 2 ^ m := by
    intro p hp
    have : p.length - 1 ≤ degSum ps :=
      List.single_le_sum (by simp) _ (List.mem_map.mpr ⟨p, hp, rfl⟩)
    omega
  have hmem : ∀ i < ps.length, ps.getD i [] ∈ ps := fun i hi =>
    List.mem_of_getElem? (getElem?_eq_some_getD [] hi)
  unfold reducePartials
  rw [isPowerOf2_eq (by positivity), bind_ok, isPowerOfTwo_two_pow, if_neg (by simp), outDegree_spec ps h, bind_ok,
    if_neg (by omega), subU_of_le hpos, bind_ok]
  have hpad : ∀ p : List F, p.length ≤ 2 ^ m →
      (padPoly (2 ^ m) p).unwrap = .ok ((List.range (2 ^ m)).map fun i => p.getD i 0) := by
    intro p hp
    rw [← padPoly_spec p _ hp, padPoly, Kzg.padPoly, if_neg (by omega), if_neg (by omega)]
    rfl
  have hev : ∀ p : List F, p.length ≤ 2 ^ m →
      (fft fs ((List.range (2 ^ m)).map fun i => p.getD i 0) false).unwrap = .ok ((List.range (2 ^ m)).map
        fun i => (polyOf p).eval (fs.omega (2 ^ m) ^ i)) := by
    intro p hp
    have := hwf.fft_eval hm ((List.range (2 ^ m)).map fun i => p.getD i 0) (by simp)
    rw [polyOf_pad hp] at this
    rw [fft_eq hwf hm (by simp) false (by simp), this]
    rfl
  have hl1 : ps.length - 1 < ps.length := by omega
  rw [rd_getD [] hl1, bind_ok, hpad _ (hlen _ (hmem _ hl1)), bind_ok, hev _ (hlen _ (hmem _ hl1)), bind_ok]
  obtain ⟨e, he, hel⟩ := forRange_inv (lo := 0) (hi := ps.length - 1)
    (s := (List.range (2 ^ m)).map fun i => (polyOf (ps.getD (ps.length - 1) [])).eval (fs.omega (2 ^ m) ^ i))
    (body := fun i evalResult => do
        let item ← rd ps i
        let padded ← (padPoly (2 ^ m) item).unwrap
        let evaluated ← (fft fs padded false).unwrap
        forRange 0 (2 ^ m) evalResult fun j evalResult => do
          let x ← rd evalResult j
          let y ← rd evaluated j
          wr evalResult j (x * y))
    (fun i e => e = (List.range (2 ^ m)).map fun t =>
      (listProd (ps.take i)).eval (fs.omega (2 ^ m) ^ t) *
        (polyOf (ps.getD (ps.length - 1) [])).eval (fs.omega (2 ^ m) ^ t)) (by omega)
    (by simp [listProd]) (by
      intro i e _ hi hee
      have hi' : i < ps.length := by omega
      rw [rd_getD [] hi', bind_ok, hpad _ (hlen _ (hmem i hi')), bind_ok, hev _ (hlen _ (hmem i hi')), bind_ok]
      refine ⟨(List.range (2 ^ m)).map fun t =>
        ((listProd (ps.take i)).eval (fs.omega (2 ^ m) ^ t) *
          (polyOf (ps.getD (ps.length - 1) [])).eval (fs.omega (2 ^ m) ^ t)) *
          (polyOf (ps.getD i [])).eval (fs.omega (2 ^ m) ^ t), ?_, ?_⟩
      · refine fill_loop (by rw [hee]; simp) _ ?_
        intro j s hj hl _ hs2
        have : s[j]? = some ((listProd (ps.take i)).eval (fs.omega (2 ^ m) ^ j) *
            (polyOf (ps.getD (ps.length - 1) [])).eval (fs.omega (2 ^ m) ^ j)) := by
          rw [hs2 j le_rfl, hee, List.getElem?_map, List.getElem?_range hj]; rfl
        rw [rd_of_getElem? this, bind_ok]
        have h2 : ((List.range (2 ^ m)).map fun t =>
            (polyOf (ps.getD i [])).eval (fs.omega (2 ^ m) ^ t))[j]? =
            some ((polyOf (ps.getD i [])).eval (fs.omega (2 ^ m) ^ j)) := by
          rw [List.getElem?_map, List.getElem?_range hj]; rfl
        rw [rd_of_getElem? h2, bind_ok]
      · refine List.map_congr_left fun t _ => ?_
        rw [List.take_add_one, getElem?_eq_some_getD [] hi']
        simp [listProd]
        ring)
  have hprod : ∀ x : F, (listProd ps).eval x =
      (listProd (ps.take (ps.length - 1))).eval x * (polyOf (ps.getD (ps.length - 1) [])).eval x := by
    intro x
    conv_lhs => rw [← List.take_length (l := ps), show ps.length = ps.length - 1 + 1 by omega, List.take_add_one,
      getElem?_eq_some_getD [] hl1]
    simp [listProd]
  have := hwf.fft_interp hm e (by rw [hel]; simp) (listProd ps)
    (lt_of_lt_of_le (listProd_degree ps h) (by exact_mod_cast hfit)) (by
      intro i hi
      rw [hel, getD_range_map, if_pos hi, hprod])
  rw [he, bind_ok, ifft_eq hwf hm (by rw [hel]; simp), show fs.fft e true = _ from this, bind_ok, unwrap_ok,
    bind_ok, sliceTo, if_pos (by simpa using hfit)]
  congr 1
  rw [← List.map_take, ← List.map_take, List.take_range, Nat.min_eq_left hfit, List.map_map]
  rfl

theorem reducePartials_spec {fs : FFTSettings F} {k : Nat} (hwf : fs.WF k) {m : Nat}
    (hm : m ≤ k) (h30 : m ≤ 30) (ps : List (List F)) (hne : ps ≠ []) (h : ∀ p ∈ ps, p ≠ [])
    (hfit : degSum ps + 1 ≤ 2 ^ m) :
    reducePartials fs (2 ^ m) ps = .ok ((List.range (degSum ps + 1)).map (listProd ps).coeff) := by
  rw [reducePartials_gen hwf hm ps hne h hfit, isgn_of_le h30]
  simp only [one_mul]

/-- Lengths that are not powers of two. -/
theorem reducePartials_not_pow (fs : FFTSettings F) {n : Nat} (ps : List (List F)) (h : isPowerOfTwo n = false) :
    (reducePartials fs n ps).unwrap = .panic := by
  unfold reducePartials
  by_cases h0 : n = 0
  · subst h0; rfl
  · rw [isPowerOf2_eq h0, bind_ok, h]; rfl

/-- Products that do not fit. -/
theorem reducePartials_long (fs : FFTSettings F) {n : Nat} (ps : List (List F)) (hp : ∀ p ∈ ps, p ≠ [])
    (hn : n ≠ 0) (h : n < degSum ps + 1) : ∃ msg, reducePartials fs n ps = .err msg := by
  unfold reducePartials
  rw [isPowerOf2_eq hn, bind_ok]
  by_cases h1 : isPowerOfTwo n = true
  · rw [h1, if_neg (by simp), outDegree_spec ps hp, bind_ok, if_pos (by omega)]
    exact ⟨_, rfl⟩
  · rw [if_pos (by simpa using h1)]
    exact ⟨_, rfl⟩

theorem reducePartials_sim {fs : FFTSettings F} {k : Nat} (hwf : fs.WF k) {n : Nat} (hn : n ≤ 2 ^ 30)
    (ps : List (List F)) (h : ∀ p ∈ ps, p ≠ []) :
    Sim (fun r => r ≠ []) (fs.reducePartials n ps) (reducePartials fs n ps).unwrap := by
  by_cases hp2 : isPowerOfTwo n = true
  swap
  · refine ⟨fun r hr => ?_, fun _ => reducePartials_not_pow fs ps (by simpa using hp2)⟩
    unfold FFTSettings.reducePartials at hr
    rw [if_pos (by simpa using hp2)] at hr
    cases hr
  obtain ⟨m, rfl⟩ := exists_of_isPowerOfTwo hp2
  by_cases hne : ps = []
  · subst hne
    have hpos : 0 < 2 ^ m := by positivity
    refine ⟨fun r hr => ?_, fun he => ?_⟩ <;> exfalso
    · unfold FFTSettings.reducePartials at hr
      rw [hp2, if_neg (by simp), outDegree_spec [] (by simp), bind_ok, if_neg (by simp [degSum]),
        rd_of_ge (by simp), bind_panic] at hr
      cases hr
    · unfold FFTSettings.reducePartials at he
      rw [hp2, if_neg (by simp), outDegree_spec [] (by simp), bind_ok, if_neg (by simp [degSum]),
        rd_of_ge (by simp), bind_panic] at he
      cases he
  by_cases hfit : degSum ps + 1 ≤ 2 ^ m
  swap
  · have : fs.reducePartials (2 ^ m) ps = .err "Out degree is longer than possible polynomial size in domain" := by
      unfold FFTSettings.reducePartials
      rw [hp2, if_neg (by simp), outDegree_spec ps h, bind_ok, if_pos (by omega)]
    rw [this]
    exact Sim.other (by decide)
  by_cases hmk : m ≤ k
  · have h30 : m ≤ 30 := by
      by_contra hc
      have : 2 ^ 30 < 2 ^ m := Nat.pow_lt_pow_right (by omega) (by omega)
      omega
    rw [hwf.reducePartials_spec hmk ps hne h hfit, reducePartials_spec hwf hmk h30 ps hne h hfit]
    exact Sim.pure (by simp)
  · have hpos : 0 < ps.length := List.length_pos_iff.mpr hne
    have hlen : (ps.getD 0 []).length ≤ 2 ^ m := by
      have : (ps.getD 0 []).length - 1 ≤ degSum ps :=
        List.single_le_sum (by simp) _ (List.mem_map.mpr
          ⟨_, List.mem_of_getElem? (getElem?_eq_some_getD [] hpos), rfl⟩)
      omega
    have : fs.reducePartials (2 ^ m) ps = .err "Supplied list is longer than the available max width" := by
      unfold FFTSettings.reducePartials
      rw [hp2, if_neg (by simp), outDegree_spec ps h, bind_ok, if_neg (by omega),
        rd_getD [] hpos, bind_ok, padPoly_spec _ _ hlen, bind_ok, FFTSettings.fftFr, FFTSettings.fft, if_pos]
      · rfl
      · rw [hwf.width, List.length_map, List.length_range]
        exact Nat.pow_lt_pow_right (by omega) (by omega)
    rw [this]
    exact Sim.other (by decide)

theorem zeroInitStep_sim (fs : FFTSettings F) (missing : List Nat) (stride : Nat) (s : ZeroWork F × Nat × Nat)
    (hs : Pos s.1) :
    Sim (fun r => Pos r.1) (fs.zeroInitStep missing stride s) (zeroInitStep fs missing stride s) := by
  obtain ⟨w, mo, wo⟩ := s
  unfold FFTSettings.zeroInitStep zeroInitStep
  simp only
  refine (Sim.self (NoErr.slice _ _ _)).bind fun ix _ => (zeroPolyPartial_sim _ _ _).bind fun pp _ =>
    (padPoly_sim _ _).bind fun pd _ => (Sim.self (NoErr.spliceV _ _ _ _)).bind fun work _ => Sim.pure ?_
  intro l hl
  rcases List.mem_append.1 hl with hl | hl
  · exact hs l hl
  · simp at hl; omega

theorem zeroGroup_sim {fs : FFTSettings F} {k : Nat} (hwf : fs.WF k) {D C ps i : Nat}
    (hD : min (min ((i * 4 + 4) * ps) C - i * 4 * ps) D ≤ 2 ^ 30)
    (count : Nat) (s : ZeroWork F) (hs : Pos s) :
    Sim Pos (fs.zeroGroup D C ps count i s) (zeroGroup fs D C ps count i s) := by
  unfold FFTSettings.zeroGroup zeroGroup
  simp only
  refine Sim.bind (P := fun len => min len D ≤ 2 ^ 30) (Sim.refl (NoErr.subU _ _) fun len h => ?_)
    fun len hlen => (Sim.self (NoErr.subU _ _)).bind fun left _ =>
    (Sim.self (NoErr.wr _ _ _)).bind fun offs _ => ?_
  · unfold Kzg.subU at h
    split at h
    · cases h; exact hD
    · cases h
  refine Sim.bind (P := fun st => ∀ p ∈ st.2, p ≠ []) (Sim.forRange _ _ _ (by simp) fun j st hst => ?_) ?_
  · refine (Sim.self (NoErr.wr _ _ _)).bind fun o1 _ => (Sim.self (NoErr.rd _ _)).bind fun o _ => ?_
    refine Sim.bind (P := fun l => 1 ≤ l) (Sim.refl (NoErr.rd _ _) fun l hl => hs l (rd_ok hl)) fun l hl => ?_
    refine Sim.bind (P := fun c => c ≠ []) (Sim.refl (NoErr.slice _ _ _) fun c hc => ?_) fun c hc => Sim.pure ?_
    · have := slice_ok hc
      intro h
      subst h
      simp at this
      omega
    · intro p hp
      rcases List.mem_append.1 hp with hp | hp
      · exact hst p hp
      · simp at hp; rw [hp]; exact hc
  · rintro ⟨offs, vec⟩ hvec
    simp only
    split
    · refine (reducePartials_sim hwf hlen vec hvec).bind fun red hred => ?_
      have hl := List.length_pos_iff.mpr hred
      refine Sim.bind (P := fun lens => ∀ l ∈ lens, 1 ≤ l) (Sim.refl (NoErr.wr _ _ _) fun lens h => ?_)
        fun lens hlens => ?_
      · rw [(wr_ok h).2]; exact pos_set hs _ _ hl
      · exact (padPoly_sim _ _).bind fun pd _ => (Sim.self (NoErr.rd _ _)).bind fun o _ =>
          (Sim.self (NoErr.spliceV _ _ _ _)).bind fun w _ => Sim.pure hlens
    · refine Sim.bind (P := fun l => 1 ≤ l) (Sim.refl (NoErr.rd _ _) fun l hl => hs l (rd_ok hl)) fun l hl => ?_
      refine Sim.bind (P := fun lens => ∀ l ∈ lens, 1 ≤ l) (Sim.refl (NoErr.wr _ _ _) fun lens h => ?_)
        fun lens hlens => Sim.pure hlens
      rw [(wr_ok h).2]; exact pos_set hs _ _ hl

theorem nextPow_sim (v : Nat) : Sim (fun _ => True) (nextPowerOfTwo v) (nextPowOf2 v) := by
  refine ⟨fun r hr => ⟨?_, trivial⟩, fun he => absurd he (ZkP.nextPowerOfTwo_noErr v _)⟩
  have h := ZkP.nextPow_std hr
  unfold ZkP.stdNextPowerOfTwo at h
  split at h
  · next hv => rw [nextPowOf2_eq hv]; exact h
  · cases h

theorem zeroReduce_sim {fs : FFTSettings F} {k : Nat} (hwf : fs.WF k) {D : Nat} (hD : D ≤ 2 ^ 30) (C : Nat) :
    ∀ (fuel count : Nat) (s : ZeroWork F), Pos s →
    Sim Pos (fs.zeroReduce D C fuel count s) (zeroReduce fs D C fuel count s) := by
  intro fuel
  induction fuel with
  | zero => intro count s _; exact ⟨fun r hr => (by cases hr), fun he => (by cases he)⟩
  | succ fuel ih =>
    intro count s hs
    simp only [FFTSettings.zeroReduce, zeroReduce]
    split
    · refine (Sim.self (NoErr.rd _ _)).bind fun l0 _ => (nextPow_sim _).bind fun psz _ => ?_
      refine Sim.bind (P := Pos) (Sim.forRange _ _ _ hs fun i s hs => zeroGroup_sim hwf (by omega) _ s hs)
        fun s hs => ?_
      exact ih _ s hs
    · exact Sim.pure hs

theorem zeroPolyLarge_sim {fs : FFTSettings F} {k : Nat} (hwf : fs.WF k) {D : Nat} (hD : D ≤ 2 ^ 30) (C : Nat)
    (missing : List Nat) (stride count : Nat) (hc : (count - 1) * 63 ≤ missing.length) :
    Sim (fun _ => True) (fs.zeroPolyLarge D C missing stride count) (zeroPolyLarge fs D C missing stride count) := by
  unfold FFTSettings.zeroPolyLarge zeroPolyLarge
  refine (nextPow_sim _).bind fun n _ => ?_
  refine Sim.bind (P := fun r => Pos r.1) (Sim.forRange _ _ _ (by intro l hl; cases hl)
    fun i s hs => zeroInitStep_sim fs missing stride s hs) ?_
  rintro ⟨w, mo, wo⟩ hw
  simp only
  rw [subU_of_le (by omega), bind_ok, bind_ok]
  refine Sim.bind (P := fun lens => ∀ l ∈ lens, 1 ≤ l) (Sim.refl (NoErr.wr _ _ _) fun lens h => ?_)
    fun lens hlens => ?_
  · rw [(wr_ok h).2]; exact pos_set hw _ _ (by omega)
  · exact Sim.bind (P := Pos) (zeroReduce_sim hwf hD C _ _ _ hlens) fun w _ => Sim.pure trivial

theorem fit_sim (zp : List F) (D : Nat) :
    Sim (fun r => r.length = D) (Kzg.fitDomain zp D) (padCoeffsMut zp zp.length D) := by
  unfold Kzg.fitDomain padCoeffsMut
  by_cases h : zp.length ≤ D
  · rw [Nat.min_eq_left h]
    have e : sliceTo zp zp.length = .ok zp := by rw [sliceTo, if_pos le_rfl, List.take_length]
    simp only [e, bind_ok]
    split
    · rw [Kzg.padPoly, if_neg (by omega)]
      exact Sim.pure (by simp; omega)
    · split
      · next h2 => rw [h2, Nat.sub_self, List.replicate_zero, List.append_nil]; exact Sim.pure h2
      · omega
  · have e : sliceTo zp D = .ok (zp.take D) := if_pos (by omega)
    rw [Nat.min_eq_right (by omega), if_neg (by omega), if_neg (by omega), e]
    simp only [e, bind_ok, Nat.sub_self, List.replicate_zero, List.append_nil]
    exact Sim.pure (by simp; omega)

theorem zeroPoly_sim {fs : FFTSettings F} {k : Nat} (hwf : fs.WF k) {n : Nat} (hn : n ≤ k) (h30 : n ≤ 30)
    {missing : List Nat} (hne : missing ≠ []) (hlt : missing.length < 2 ^ n) :
    Sim (fun _ => True) (fs.zeroPolyViaMultiplication (2 ^ n) missing)
      (zeroPolyViaMultiplication fs (2 ^ n) missing) := by
  have hpos : 0 < missing.length := List.length_pos_iff.mpr hne
  have hle : 2 ^ n ≤ 2 ^ k := Nat.pow_le_pow_right (by omega) hn
  unfold FFTSettings.zeroPolyViaMultiplication zeroPolyViaMultiplication
  rw [if_neg (by simpa using hne), if_neg (by omega), if_neg (by rw [hwf.width]; omega), isPowerOfTwo_two_pow,
    if_neg (by simp), if_neg (by simpa using hne), if_neg (by omega), if_neg (by rw [hwf.width]; omega),
    isPowerOf2_eq (by positivity), bind_ok, isPowerOfTwo_two_pow, if_neg (by simp)]
  simp only
  refine (nextPow_sim _).bind fun np _ => ?_
  refine Sim.bind (P := fun _ => True) ?_ fun zp _ => ?_
  · unfold FFTSettings.zeroPolyRaw zeroPolyRaw
    split
    · exact zeroPolyPartial_sim fs missing _
    · exact zeroPolyLarge_sim hwf (Nat.pow_le_pow_right (by omega) h30) _ _ _ _ (by omega)
  · refine (fit_sim _ _).bind fun zp hzp => ?_
    have e := fft_eq hwf hn hzp false (by simp)
    have hev := hwf.fft_eval hn zp hzp
    rw [FFTSettings.fftFr, e, hev]
    exact Sim.pure trivial

end
end Kzg.Mcl
