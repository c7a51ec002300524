import Verif.Model.Ark.ZeroPoly
import Verif.Proofs.Ark.Poly
import Verif.Proofs.Zk.ZeroPoly
/-!
# The zero polynomial of the Arkworks backend: comparison with the one of blst-from-scratch
-/

set_option linter.unusedSectionVars false

namespace Kzg.Ark
open Res Polynomial
open ZkP (NoErr powMsg Pos pos_set rd_ok wr_ok slice_ok)

/-- `m'` returns something related to what `m` returns, and reports an error if `m` reports the error of the dense
sets. -/
structure Sim {α β : Type} (R : α → β → Prop) (m : Res α) (m' : Res β) : Prop where
  ok : ∀ r, m = .ok r → ∃ r', m' = .ok r' ∧ R r r'
  err : m = .err powMsg → ∃ e, m' = .err e

theorem Sim.bind {α β γ δ : Type} {R : α → β → Prop} {S : γ → δ → Prop} {m : Res α} {m' : Res β} {f : α → Res γ}
    {f' : β → Res δ} (h : Sim R m m') (hf : ∀ r r', R r r' → Sim S (f r) (f' r')) : Sim S (m >>= f) (m' >>= f') := by
  cases hm : m with
  | ok r =>
    obtain ⟨r', h1, h2⟩ := h.ok r hm
    rw [h1, bind_ok, bind_ok]
    exact hf r r' h2
  | err e =>
    refine ⟨fun r hr => (by cases hr), fun he => ?_⟩
    rw [bind_err] at he
    have : m = .err powMsg := by rw [hm]; cases he; rfl
    obtain ⟨e', he'⟩ := h.err this
    exact ⟨e', by rw [he', bind_err]⟩
  | panic => exact ⟨fun r hr => (by cases hr), fun he => (by simp [powMsg] at he)⟩

theorem Sim.refl {α : Type} {R : α → α → Prop} {m : Res α} (h : ∀ r, m = .ok r → R r r) : Sim R m m :=
  ⟨fun r hr => ⟨r, hr, h r hr⟩, fun he => ⟨_, he⟩⟩

/-- The same value, with a property. -/
def Eqp {α : Type} (P : α → Prop) (a b : α) : Prop := b = a ∧ P a

theorem Sim.self {α : Type} (m : Res α) : Sim (Eqp fun _ => True) m m := Sim.refl fun _ _ => ⟨rfl, trivial⟩

theorem Sim.refl' {α : Type} {P : α → Prop} {m : Res α} (h : ∀ r, m = .ok r → P r) : Sim (Eqp P) m m :=
  Sim.refl fun r hr => ⟨rfl, h r hr⟩

theorem Sim.pure {α β : Type} {R : α → β → Prop} {a : α} {b : β} (h : R a b) : Sim R (.ok a) (.ok b) :=
  ⟨fun r hr => ⟨b, rfl, by cases hr; exact h⟩, fun he => (by cases he)⟩

theorem Sim.other {α β : Type} {R : α → β → Prop} {m' : Res β} {e : String} (h : e ≠ powMsg) : Sim R (.err e) m' :=
  ⟨fun r hr => (by cases hr), fun he => absurd (by cases he; rfl) h⟩

theorem Sim.panic {α β : Type} {R : α → β → Prop} {m' : Res β} : Sim R (.panic) m' :=
  ⟨fun r hr => (by cases hr), fun he => (by cases he)⟩

theorem Sim.forRange {σ τ : Type} {R : σ → τ → Prop} {body : Nat → σ → Res σ} {body' : Nat → τ → Res τ} (lo hi : Nat)
    (s : σ) (t : τ) (h0 : R s t) (h : ∀ i s t, lo ≤ i → i < hi → R s t → Sim R (body i s) (body' i t)) :
    Sim R (forRange lo hi s body) (forRange lo hi t body') := by
  unfold Kzg.forRange
  have key : ∀ (n lo : Nat) (s : σ) (t : τ), R s t →
      (∀ i s t, lo ≤ i → i < lo + n → R s t → Sim R (body i s) (body' i t)) →
      Sim R (forLoop body n lo s) (forLoop body' n lo t) := by
    intro n
    induction n with
    | zero => intro lo s t h0 _; exact Sim.pure h0
    | succ n ih =>
      intro lo s t h0 h
      simp only [forLoop]
      exact Sim.bind (h lo s t le_rfl (by omega) h0) fun r r' hr =>
        ih (lo + 1) r r' hr fun i s t h1 h2 => h i s t (by omega) (by omega)
  exact key _ _ _ _ h0 fun i s t h1 h2 => h i s t h1 (by omega)

theorem res_bind_ok {α : Type} (m : Res α) : (m >>= fun x => .ok x) = m := by cases m <;> rfl

section
variable {F : Type} [Field F] [DecidableEq F]

theorem polyNorm_ones (n : Nat) : polyNorm (List.replicate (n + 1) (1 : F)) = List.replicate (n + 1) 1 :=
  ZkP.polyNorm_self (by simp)

theorem zeroPolyPartial_sim (fs : FFTSettings F) (idxs : List Nat) (stride : Nat) :
    Sim (Eqp fun _ => True) (fs.zeroPolyPartial idxs stride) (zeroPolyPartial fs idxs stride) := by
  unfold FFTSettings.zeroPolyPartial zeroPolyPartial
  split
  · exact Sim.other (by decide)
  · rw [polyNorm_ones]
    simp only
    refine (Sim.self _).bind fun i0 _ ⟨e, _⟩ => ?_
    subst e
    refine (Sim.self _).bind fun r _ ⟨e, _⟩ => ?_
    subst e
    refine (Sim.self _).bind fun poly _ ⟨e, _⟩ => ?_
    subst e
    refine Sim.forRange _ _ _ _ ⟨rfl, trivial⟩ fun i _ poly h1 _ ⟨e, _⟩ => ?_
    subst e
    refine (Sim.self _).bind fun ii _ ⟨e, _⟩ => ?_
    subst e
    refine (Sim.self _).bind fun _ r ⟨e, _⟩ => ?_
    subst e
    by_cases h : i < poly.length
    · have h2 : i - 1 < poly.length := by omega
      rw [rd_getD (l := poly) 0 h2, wr_of_lt h, bind_ok, rd_of_getElem? (x := -r) (by rw [List.getElem?_set_self h]),
        bind_ok, bind_ok, rd_of_getElem? (x := poly.getD (i - 1) 0) (by
          rw [List.getElem?_set_ne (by omega), getElem?_eq_some_getD 0 h2]), bind_ok, bind_ok,
        wr_of_lt (by simpa using h), bind_ok, wr_of_lt h, bind_ok, List.set_set]
      exact Sim.self _
    · rw [wr_of_ge (by omega)]
      exact Sim.panic

theorem pad_sim (a : List F) (n : Nat) : ∀ r, Kzg.padPoly a n = .ok r → r = padPoly a n := by
  intro r hr
  unfold Kzg.padPoly at hr
  unfold padPoly
  split at hr
  · cases hr
  · cases hr
    split
    · rw [show n - a.length = 0 by omega]; simp
    · rfl

theorem pad_noPow (a : List F) (n : Nat) : Kzg.padPoly a n ≠ .err powMsg := by
  unfold Kzg.padPoly
  split
  · intro h; simp [powMsg] at h
  · intro h; cases h

/-- Padding in front of a computation. -/
theorem Sim.pad {α β : Type} {R : α → β → Prop} (a : List F) (n : Nat) {f : List F → Res α} {m' : Res β}
    (h : Sim R (f (padPoly a n)) m') : Sim R (Kzg.padPoly a n >>= f) m' := by
  cases hp : Kzg.padPoly a n with
  | ok r => rw [bind_ok, pad_sim a n r hp]; exact h
  | err e =>
    rw [bind_err]
    refine Sim.other fun he => pad_noPow a n ?_
    rw [hp, he]
  | panic => exact Sim.panic

variable [Lib F]

theorem fft_sim {fs : FFTSettings F} {k : Nat} (hm : Made fs k) (l : List F) (b : Bool) :
    Sim (Eqp fun _ => True) (fs.fftFr l b) (fftFr fs l b) ∧
      Sim (Eqp fun _ => True) (fs.fftFr l b) (fftFr fs l b).unwrap := by
  by_cases h1 : l.length > fs.maxWidth
  · have : fs.fftFr l b = .err "Supplied list is longer than the available max width" := by
      rw [FFTSettings.fftFr, FFTSettings.fft, if_pos h1]
    rw [this]
    exact ⟨Sim.other (by decide), Sim.other (by decide)⟩
  by_cases h2 : isPowerOfTwo l.length = true
  · obtain ⟨m, hl⟩ := exists_of_isPowerOfTwo h2
    have hmk : m ≤ k := by
      rw [hm.width, hl] at h1
      by_contra hc
      exact h1 (Nat.pow_lt_pow_right (by omega) (by omega))
    have he := fftFr_eq hm hmk l hl b
    rw [he]
    refine ⟨Sim.self _, ?_⟩
    refine ⟨fun r hr => ⟨r, ?_, rfl, trivial⟩, fun he => absurd he (ZkP.fft_ne_powMsg fs l b)⟩
    rw [FFTSettings.fftFr] at hr
    rw [hr, unwrap_ok]
  · have : ∃ e, fs.fftFr l b = .err e ∧ e ≠ powMsg := by
      rw [FFTSettings.fftFr, FFTSettings.fft, if_neg h1, if_pos (by simpa using h2)]
      exact ⟨_, rfl, by decide⟩
    obtain ⟨e, he, hne⟩ := this
    rw [he]
    exact ⟨Sim.other hne, Sim.other hne⟩

theorem reducePartials_sim {fs : FFTSettings F} {k : Nat} (hm : Made fs k) (n : Nat)
    (hn : n = 0 ∨ isPowerOfTwo n = true) (ps : List (List F)) (h : ∀ p ∈ ps, p ≠ []) :
    Sim (Eqp fun r => r ≠ []) (fs.reducePartials n ps) (reducePartials fs n ps) := by
  unfold FFTSettings.reducePartials reducePartials
  rw [outDegree_spec ps h, bind_ok, bind_ok]
  rcases hn with rfl | hn
  · rw [if_pos (by omega : degSum ps + 1 > 0)]
    refine ⟨fun r hr => ?_, fun _ => ⟨_, rfl⟩⟩
    split at hr <;> cases hr
  rw [hn, if_neg (by simp)]
  split
  · exact ⟨fun r hr => (by cases hr), fun _ => ⟨_, rfl⟩⟩
  · refine (Sim.self _).bind fun p0 _ ⟨e, _⟩ => ?_
    subst e
    refine Sim.pad _ _ ((fft_sim hm _ _).2.bind fun ev _ ⟨e, _⟩ => ?_)
    subst e
    refine Sim.bind (R := Eqp fun _ => True) (Sim.forRange _ _ _ _ ⟨rfl, trivial⟩ fun i ev _ _ _ ⟨e, _⟩ => ?_)
      fun ev _ ⟨e, _⟩ => ?_
    · subst e
      refine (Sim.self _).bind fun p _ ⟨e, _⟩ => ?_
      subst e
      refine Sim.pad _ _ ((fft_sim hm _ _).2.bind fun pe _ ⟨e, _⟩ => ?_)
      subst e
      exact Sim.self _
    · subst e
      refine (fft_sim hm _ _).1.bind fun co _ ⟨e, _⟩ => ?_
      subst e
      refine Sim.refl' fun r hr => ?_
      unfold sliceTo at hr
      split at hr
      · next hle =>
        cases hr
        intro he
        have := congrArg List.length he
        simp at this
        subst this
        simp at hle
      · cases hr

/-- The working memory of the two. -/
def Rel (w : ZeroWork F) (s : List F × List Nat) : Prop := s = (w.work, w.lens) ∧ Pos w

theorem zeroInitStep_sim (fs : FFTSettings F) (missing : List Nat) (stride : Nat) (s : ZeroWork F × Nat × Nat)
    (t : (List F × List Nat) × Nat × Nat) (h : Rel s.1 t.1 ∧ t.2 = s.2) :
    Sim (fun s t => Rel s.1 t.1 ∧ t.2 = s.2) (fs.zeroInitStep missing stride s) (zeroInitStep fs missing stride t) := by
  obtain ⟨w, mo, wo⟩ := s
  obtain ⟨⟨tw, tl⟩, t2⟩ := t
  obtain ⟨⟨h1, h2⟩, h3⟩ := h
  simp only at h1 h3
  subst h3
  cases h1
  unfold FFTSettings.zeroInitStep zeroInitStep
  simp only
  refine (Sim.self _).bind fun ix _ ⟨e, _⟩ => ?_
  subst e
  refine (zeroPolyPartial_sim _ _ _).bind fun pp _ ⟨e, _⟩ => ?_
  subst e
  refine Sim.pad _ _ ((Sim.self _).bind fun work _ ⟨e, _⟩ => ?_)
  subst e
  refine Sim.pure ⟨⟨rfl, ?_⟩, rfl⟩
  intro l hl
  rcases List.mem_append.1 hl with hl | hl
  · exact h2 l hl
  · simp at hl; omega

/-- The domain of a group is empty or a power of two. -/
theorem reducedLen_pow {a b d i len : Nat} (h : subU (min ((i * 4 + 4) * 2 ^ a) (2 ^ b)) (i * 4 * 2 ^ a) = .ok len) :
    min len (2 ^ d) = 0 ∨ isPowerOfTwo (min len (2 ^ d)) = true := by
  have hpow : ∀ e, isPowerOfTwo (min (2 ^ e) (2 ^ d)) = true := by
    intro e
    rcases Nat.le_total e d with h | h
    · rw [min_eq_left (Nat.pow_le_pow_right (by omega) h)]; exact isPowerOfTwo_two_pow _
    · rw [min_eq_right (Nat.pow_le_pow_right (by omega) h)]; exact isPowerOfTwo_two_pow _
  unfold subU at h
  split at h
  swap
  · cases h
  next hle =>
  have hlen : min ((i * 4 + 4) * 2 ^ a) (2 ^ b) - i * 4 * 2 ^ a = len := Res.ok.inj h
  subst hlen
  have hpa : 0 < 2 ^ a := by positivity
  rcases Nat.lt_or_ge b (a + 2) with hb | hb
  · -- a ceiling below one group
    have hlt : 2 ^ b < 4 * 2 ^ a := by
      have : 2 ^ b ≤ 2 ^ (a + 1) := Nat.pow_le_pow_right (by omega) (by omega)
      rw [pow_succ] at this; omega
    by_cases hi : i = 0
    · subst hi
      right
      rw [Nat.zero_mul, Nat.zero_mul, Nat.zero_add, Nat.sub_zero, min_eq_right (by omega : 2 ^ b ≤ 4 * 2 ^ a)]
      exact hpow b
    · exfalso
      have : 1 * 4 * 2 ^ a ≤ i * 4 * 2 ^ a := Nat.mul_le_mul_right _ (by omega)
      have := le_trans hle (min_le_right _ _)
      omega
  · obtain ⟨c, rfl⟩ : ∃ c, b = a + 2 + c := ⟨b - (a + 2), by omega⟩
    have e1 : 2 ^ (a + 2 + c) = 2 ^ c * (4 * 2 ^ a) := by rw [pow_add, pow_add]; ring
    have e2 : (i * 4 + 4) * 2 ^ a = (i + 1) * (4 * 2 ^ a) := by ring
    have e3 : i * 4 * 2 ^ a = i * (4 * 2 ^ a) := by ring
    rw [e1, e2, e3] at *
    rcases Nat.lt_or_ge i (2 ^ c) with hic | hic
    · right
      rw [min_eq_left (Nat.mul_le_mul_right _ hic), Nat.succ_mul, Nat.add_sub_cancel_left,
        show 4 * 2 ^ a = 2 ^ (a + 2) by rw [pow_add]; ring]
      exact hpow _
    · left
      rw [min_eq_right (Nat.mul_le_mul_right _ (by omega : 2 ^ c ≤ i + 1))]
      have := Nat.mul_le_mul_right (4 * 2 ^ a) hic
      rw [Nat.sub_eq_zero_of_le this, Nat.zero_min]

theorem zeroGroup_sim {fs : FFTSettings F} {k : Nat} (hm : Made fs k) (d b a count i : Nat) (s : ZeroWork F)
    (t : List F × List Nat) (h : Rel s t) :
    Sim Rel (fs.zeroGroup (2 ^ d) (2 ^ b) (2 ^ a) count i s) (zeroGroup fs (2 ^ d) (2 ^ b) (2 ^ a) count i t) := by
  obtain ⟨rfl, hs⟩ := h
  unfold FFTSettings.zeroGroup zeroGroup
  simp only
  refine Sim.bind (R := Eqp fun len => min len (2 ^ d) = 0 ∨ isPowerOfTwo (min len (2 ^ d)) = true)
    (Sim.refl' fun r hr => reducedLen_pow hr) fun len _ ⟨e, hlen⟩ => ?_
  subst e
  refine (Sim.self _).bind fun left _ ⟨e, _⟩ => ?_
  subst e
  -- the offsets
  by_cases hio : i < s.offsets.length
  swap
  · rw [wr_of_ge (by omega), bind_panic]; exact Sim.panic
  rw [wr_of_lt hio, bind_ok]
  refine Sim.bind (R := fun (st : List Nat × List (List F)) vec => vec = st.2 ∧ st.1[i]? = some (i * 4 * 2 ^ a) ∧
      ∀ p ∈ vec, p ≠ [])
    (Sim.forRange _ _ _ _ ⟨rfl, by rw [List.getElem?_set_self hio], by simp⟩ ?_) ?_
  · rintro j ⟨offs, vec⟩ _ _ _ ⟨rfl, ho, hv⟩
    simp only at ho hv ⊢
    by_cases hj : i + j < offs.length
    swap
    · rw [wr_of_ge (by omega), bind_panic]; exact Sim.panic
    rw [wr_of_lt hj, bind_ok, rd_of_getElem? (x := (i * 4 + j) * 2 ^ a) (by rw [List.getElem?_set_self hj]), bind_ok]
    refine Sim.bind (R := Eqp fun l => 1 ≤ l) (Sim.refl' fun l hl => hs l (rd_ok hl)) fun l _ ⟨e, hl⟩ => ?_
    subst e
    refine Sim.bind (R := Eqp fun c => c ≠ []) (Sim.refl' fun c hc => ?_) fun c _ ⟨e, hc⟩ => ?_
    · have := slice_ok hc
      intro h
      subst h
      simp at this
      omega
    · subst e
      refine Sim.pure ⟨rfl, ?_, ?_⟩
      · simp only
        rw [getElem?_set_of_lt hj]
        by_cases hj0 : i = i + j
        · rw [if_pos hj0, show j = 0 by omega, Nat.add_zero]
        · rw [if_neg hj0]; exact ho
      · intro p hp
        rcases List.mem_append.1 hp with hp | hp
        · exact hv p hp
        · simp at hp; rw [hp]; exact hc
  · rintro ⟨offs, _⟩ vec ⟨rfl, ho, hvec⟩
    simp only at ho ⊢
    split
    · refine (reducePartials_sim hm _ hlen _ hvec).bind fun red _ ⟨e, hred⟩ => ?_
      subst e
      have hl := List.length_pos_iff.mpr hred
      refine Sim.bind (R := Eqp fun lens => ∀ l ∈ lens, 1 ≤ l) (Sim.refl' fun lens h => ?_) fun lens _ ⟨e, hlens⟩ => ?_
      · rw [(wr_ok h).2]; exact pos_set hs _ _ hl
      · subst e
        refine Sim.pad _ _ ?_
        rw [rd_of_getElem? ho, bind_ok]
        refine (Sim.self _).bind fun work _ ⟨e, _⟩ => ?_
        subst e
        exact Sim.pure ⟨rfl, hlens⟩
    · refine Sim.bind (R := Eqp fun l => 1 ≤ l) (Sim.refl' fun l hl => hs l (rd_ok hl)) fun l _ ⟨e, hl⟩ => ?_
      subst e
      refine Sim.bind (R := Eqp fun lens => ∀ l ∈ lens, 1 ≤ l) (Sim.refl' fun lens h => ?_)
        fun lens _ ⟨e, hlens⟩ => ?_
      · rw [(wr_ok h).2]; exact pos_set hs _ _ hl
      · subst e
        exact Sim.pure ⟨rfl, hlens⟩

theorem nextPow_sim (v : Nat) :
    Sim (Eqp fun r => ∃ a, r = 2 ^ a) (nextPowerOfTwo v) (ZkP.stdNextPowerOfTwo v) := by
  refine ⟨fun r hr => ⟨r, ZkP.nextPow_std hr, rfl, ?_⟩, fun he => absurd he (ZkP.nextPowerOfTwo_noErr v _)⟩
  have := ZkP.nextPow_std hr
  unfold ZkP.stdNextPowerOfTwo at this
  split at this
  · exact ⟨_, (Res.ok.inj this).symm⟩
  · cases this

theorem zeroReduce_sim {fs : FFTSettings F} {k : Nat} (hm : Made fs k) (d b : Nat) :
    ∀ (fuel count : Nat) (s : ZeroWork F) (t : List F × List Nat), Rel s t →
      Sim Rel (fs.zeroReduce (2 ^ d) (2 ^ b) fuel count s) (zeroReduce fs (2 ^ d) (2 ^ b) fuel count t) := by
  intro fuel
  induction fuel with
  | zero => intro count s t _; exact Sim.panic
  | succ fuel ih =>
    intro count s t hs
    simp only [FFTSettings.zeroReduce, zeroReduce]
    split
    · rw [hs.1]
      refine (Sim.self _).bind fun l0 _ ⟨e, _⟩ => ?_
      subst e
      refine (nextPow_sim _).bind fun psz _ ⟨e, ha⟩ => ?_
      subst e
      obtain ⟨a, rfl⟩ := ha
      refine Sim.bind (R := Rel) (Sim.forRange _ _ _ _ ⟨rfl, hs.2⟩ fun i s t _ _ h => zeroGroup_sim hm d b a _ i s t h)
        fun s t h => ?_
      exact ih _ s t h
    · exact Sim.pure hs

theorem zeroPolyLarge_sim {fs : FFTSettings F} {k : Nat} (hm : Made fs k) (d b : Nat) (missing : List Nat)
    (stride count : Nat) (hc : (count - 1) * 63 ≤ missing.length) :
    Sim (Eqp fun _ => True) (fs.zeroPolyLarge (2 ^ d) (2 ^ b) missing stride count)
      (zeroPolyLarge fs (2 ^ d) (2 ^ b) missing stride count) := by
  unfold FFTSettings.zeroPolyLarge zeroPolyLarge
  refine (nextPow_sim _).bind fun n _ ⟨e, _⟩ => ?_
  subst e
  refine Sim.bind (R := fun s t => Rel s.1 t.1 ∧ t.2 = s.2) (Sim.forRange _ _ _ _
    ⟨⟨rfl, by intro l hl; cases hl⟩, rfl⟩ fun i s t _ _ h => zeroInitStep_sim fs missing stride s t h) ?_
  rintro ⟨w, mo, wo⟩ ⟨⟨tw, tl⟩, t2⟩ ⟨⟨h1, h2⟩, h3⟩
  simp only at h1 h3
  subst h3
  cases h1
  simp only
  rw [subU_of_le (by omega), bind_ok, bind_ok]
  refine Sim.bind (R := Eqp fun lens => ∀ l ∈ lens, 1 ≤ l) (Sim.refl' fun lens h => ?_) fun lens _ ⟨e, hlens⟩ => ?_
  · rw [(wr_ok h).2]; exact pos_set h2 _ _ (by omega)
  · subst e
    refine Sim.bind (R := Rel) (zeroReduce_sim hm d b _ _ _ _ ⟨rfl, hlens⟩) ?_
    rintro w' ⟨work, lens'⟩ ⟨h, _⟩
    cases h
    exact Sim.pure ⟨rfl, trivial⟩

theorem zeroPoly_sim {fs : FFTSettings F} {k : Nat} (hm : Made fs k) (D : Nat) (missing : List Nat) :
    Sim (Eqp fun _ => True) (fs.zeroPolyViaMultiplication D missing) (zeroPolyViaMultiplication fs D missing) := by
  unfold FFTSettings.zeroPolyViaMultiplication zeroPolyViaMultiplication
  split
  · exact Sim.self _
  · next h =>
    have hpos : 0 < missing.length := List.length_pos_iff.mpr (by simpa using h)
    split
    · exact ⟨fun r hr => (by cases hr), fun _ => ⟨_, rfl⟩⟩
    · split
      · exact ⟨fun r hr => (by cases hr), fun _ => ⟨_, rfl⟩⟩
      · split
        · exact ⟨fun r hr => (by cases hr), fun _ => ⟨_, rfl⟩⟩
        · next hp2 =>
          obtain ⟨d, rfl⟩ := exists_of_isPowerOfTwo (n := D) (by simpa using hp2)
          rw [show (63 + missing.length - 1) / 63 = 1 + (missing.length - 1) / 63 by omega]
          simp only
          refine (nextPow_sim _).bind fun _ np ⟨e, hnp⟩ => ?_
          subst e
          obtain ⟨b, hb⟩ : ∃ b, min np (2 ^ d) = 2 ^ b := by
            obtain ⟨a, rfl⟩ := hnp
            rcases Nat.le_total a d with h | h
            · exact ⟨a, min_eq_left (Nat.pow_le_pow_right (by omega) h)⟩
            · exact ⟨d, min_eq_right (Nat.pow_le_pow_right (by omega) h)⟩
          rw [hb]
          refine Sim.bind (R := Eqp fun _ => True) ?_ fun _ zp ⟨e, _⟩ => ?_
          · unfold FFTSettings.zeroPolyRaw zeroPolyRaw
            split
            · exact zeroPolyPartial_sim fs missing _
            · exact zeroPolyLarge_sim hm d b _ _ _ (by omega)
          · subst e
            have hfit : Sim (Eqp fun _ => True) (Kzg.fitDomain zp (2 ^ d)) (fitDomain zp (2 ^ d)) := by
              unfold Kzg.fitDomain fitDomain
              split
              · rw [← res_bind_ok (Kzg.padPoly zp (2 ^ d))]
                exact Sim.pad _ _ (Sim.self _)
              · split
                · next h1 h2 => rw [if_neg (by omega)]; exact Sim.self _
                · next h1 h2 => rw [if_pos (by omega)]; exact Sim.self _
            refine hfit.bind fun _ zp ⟨e, _⟩ => ?_
            subst e
            refine (fft_sim hm _ _).1.bind fun ev _ ⟨e, _⟩ => ?_
            subst e
            exact Sim.pure ⟨rfl, trivial⟩

theorem zeroPoly_of_ok {fs : FFTSettings F} {k : Nat} (hm : Made fs k) {D : Nat} {missing : List Nat}
    {r : List F × List F} (h : fs.zeroPolyViaMultiplication D missing = .ok r) :
    zeroPolyViaMultiplication fs D missing = .ok r := by
  obtain ⟨r', h1, h2, _⟩ := (zeroPoly_sim hm D missing).ok r h
  rw [h1, h2]

theorem zeroPoly_of_err {fs : FFTSettings F} {k : Nat} (hm : Made fs k) {D : Nat} {missing : List Nat}
    (h : fs.zeroPolyViaMultiplication D missing = .err powMsg) :
    ∃ e, zeroPolyViaMultiplication fs D missing = .err e := (zeroPoly_sim hm D missing).err h

end
end Kzg.Ark
