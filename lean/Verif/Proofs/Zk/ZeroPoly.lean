import Verif.Model.Zk.ZeroPoly
import Verif.Proofs.ZeroPolyTop
import Verif.Proofs.Zk.Poly
/-!
# The zero polynomial of zkcrypto: comparison with the one of blst-from-scratch
-/

set_option linter.unusedSectionVars false

namespace Kzg.ZkP
open Kzg Res Polynomial

/-- The error of the other library for too dense sets. -/
def powMsg : String := "Expected domain size to be a power of 2"

/-- `m'` returns what `m` returns, with a value satisfying `P`, and reports an error if `m` reports `powMsg`. -/
structure Sim {α : Type} (P : α → Prop) (m m' : Res α) : Prop where
  ok : ∀ r, m = .ok r → m' = .ok r ∧ P r
  err : m = .err powMsg → ∃ e, m' = .err e

theorem Sim.bind {α β : Type} {P : α → Prop} {Q : β → Prop} {m m' : Res α} {f f' : α → Res β}
    (h : Sim P m m') (hf : ∀ r, P r → Sim Q (f r) (f' r)) : Sim Q (m >>= f) (m' >>= f') := by
  cases hm : m with
  | ok r =>
    obtain ⟨h1, h2⟩ := h.ok r hm
    rw [h1, bind_ok, bind_ok]
    exact hf r h2
  | err e =>
    refine ⟨fun r hr => (by cases hr), fun he => ?_⟩
    rw [bind_err] at he
    have : m = .err powMsg := by rw [hm]; cases he; rfl
    obtain ⟨e', he'⟩ := h.err this
    exact ⟨e', by rw [he', bind_err]⟩
  | panic => exact ⟨fun r hr => (by cases hr), fun he => (by simp [powMsg] at he)⟩

theorem Sim.refl {α : Type} {P : α → Prop} {m : Res α} (h : ∀ r, m = .ok r → P r) : Sim P m m :=
  ⟨fun r hr => ⟨hr, h r hr⟩, fun he => ⟨_, he⟩⟩

theorem Sim.self {α : Type} (m : Res α) : Sim (fun _ => True) m m := Sim.refl fun _ _ => trivial

theorem Sim.pure {α : Type} {P : α → Prop} {a : α} (h : P a) : Sim P (.ok a) (.ok a) :=
  Sim.refl fun r hr => by cases hr; exact h

theorem Sim.mono {α : Type} {P Q : α → Prop} {m m' : Res α} (h : Sim P m m') (hpq : ∀ r, P r → Q r) : Sim Q m m' :=
  ⟨fun r hr => ⟨(h.ok r hr).1, hpq r (h.ok r hr).2⟩, h.err⟩

theorem Sim.forRange {σ : Type} {P : σ → Prop} {body body' : Nat → σ → Res σ} (lo hi : Nat) (s : σ) (h0 : P s)
    (h : ∀ i s, P s → Sim P (body i s) (body' i s)) : Sim P (forRange lo hi s body) (forRange lo hi s body') := by
  unfold Kzg.forRange
  generalize hi - lo = n
  induction n generalizing lo s with
  | zero => exact Sim.pure h0
  | succ n ih =>
    simp only [forLoop]
    exact Sim.bind (h lo s h0) fun r hr => ih (lo + 1) r hr

/-- Never an `Err`. -/
def NoErr {α : Type} (m : Res α) : Prop := ∀ e, m ≠ .err e

theorem NoErr.bind {α β : Type} {m : Res α} {f : α → Res β} (h : NoErr m) (hf : ∀ r, NoErr (f r)) :
    NoErr (m >>= f) := by
  cases m with
  | ok r => exact hf r
  | err e => exact absurd rfl (h e)
  | panic => exact fun e => nofun

theorem NoErr.ok {α : Type} (a : α) : NoErr (Res.ok a) := nofun
theorem NoErr.rd {α : Type} (v : List α) (i : Nat) : NoErr (rd v i) := by
  intro e; unfold Kzg.rd; cases v[i]? <;> simp
theorem NoErr.wr {α : Type} (v : List α) (i : Nat) (x : α) : NoErr (wr v i x) := by
  intro e; unfold Kzg.wr; split <;> simp
theorem NoErr.sliceFrom {α : Type} (v : List α) (i : Nat) : NoErr (sliceFrom v i) := by
  intro e; unfold Kzg.sliceFrom; split <;> simp

theorem NoErr.forRange {σ : Type} {body : Nat → σ → Res σ} (lo hi : Nat) (s : σ)
    (h : ∀ i s, NoErr (body i s)) : NoErr (forRange lo hi s body) := by
  unfold Kzg.forRange
  generalize hi - lo = n
  induction n generalizing lo s with
  | zero => exact NoErr.ok _
  | succ n ih => exact (h lo s).bind fun r => ih (lo + 1) r

section
variable {F : Type} [Field F] [DecidableEq F]

theorem NoErr.fftFast (n : Nat) : ∀ (ret data : List F) (stride : Nat) (roots : List F) (rs : Nat),
    ret.length = n → NoErr (fftFast ret data stride roots rs) := by
  induction n using Nat.strongRecOn with
  | ind n ih =>
    intro ret data stride roots rs hn
    unfold Kzg.fftFast
    simp only
    split
    · next h =>
      refine NoErr.bind (ih (ret.length / 2) (by omega) _ _ _ _ _ (by simp; omega)) fun lo => ?_
      refine NoErr.bind (NoErr.sliceFrom _ _) fun d => ?_
      refine NoErr.bind (ih (ret.length - ret.length / 2) (by omega) _ _ _ _ _ (by simp)) fun hi => ?_
      refine NoErr.forRange _ _ _ fun i s => ?_
      refine (NoErr.rd _ _).bind fun y => (NoErr.rd _ _).bind fun r => (NoErr.rd _ _).bind fun x =>
        (NoErr.wr _ _ _).bind fun s => (NoErr.rd _ _).bind fun x => NoErr.wr _ _ _
    · exact (NoErr.rd _ _).bind fun d => NoErr.wr _ _ _

theorem fft_ne_powMsg (fs : FFTSettings F) (l : List F) (b : Bool) : fs.fftFr l b ≠ .err powMsg := by
  unfold FFTSettings.fftFr FFTSettings.fft
  split
  · intro h; simp [powMsg] at h
  · split
    · intro h; simp [powMsg] at h
    · have : NoErr (do
        let ret ← fftFast (List.replicate l.length (0 : F)) l 1
          (if b = true then fs.reverseRoots else fs.expandedRoots) (fs.maxWidth / l.length)
        if b = true then
          let invLen : F := ((l.length : Nat) : F)⁻¹
          .ok (ret.map fun f => invLen • f)
        else .ok ret) := by
        refine (NoErr.fftFast _ _ _ _ _ _ rfl).bind fun r => ?_
        split
        · exact NoErr.ok _
        · exact NoErr.ok _
      exact this _

theorem Sim.unwrap_fft (fs : FFTSettings F) (l : List F) (b : Bool) :
    Sim (fun _ => True) (fs.fftFr l b) (fs.fftFr l b).unwrap :=
  ⟨fun r hr => by rw [hr]; exact ⟨rfl, trivial⟩, fun he => absurd he (fft_ne_powMsg fs l b)⟩

theorem Sim.pad (a : List F) (n : Nat) : Sim (fun r => r.length = n) (Kzg.padPoly a n) (pad a n) := by
  by_cases h : a.length ≤ n
  · rw [padPoly_spec a n h, pad_eq]
    exact Sim.pure (by simp)
  · unfold Kzg.padPoly
    rw [if_pos (by omega)]
    exact ⟨fun r hr => (by cases hr), fun he => (by simp [powMsg] at he)⟩

theorem zeroPolyPartial_sim (fs : FFTSettings F) (idxs : List Nat) (stride : Nat) :
    Sim (fun _ => True) (fs.zeroPolyPartial idxs stride) (zeroPolyPartial fs idxs stride) := by
  unfold FFTSettings.zeroPolyPartial zeroPolyPartial
  split
  · exact ⟨fun r hr => (by cases hr), fun he => (by simp [powMsg] at he)⟩
  · simp only
    refine (Sim.self _).bind fun i0 _ => (Sim.self _).bind fun r _ => (Sim.self _).bind fun poly _ => ?_
    refine Sim.forRange _ _ _ trivial fun i poly _ => ?_
    refine (Sim.self _).bind fun ii _ => (Sim.self _).bind fun r _ => ?_
    by_cases h : i < poly.length
    · rw [wr_of_lt h, bind_ok, bind_ok]
      rw [rd_of_getElem? (x := -r) (by rw [List.getElem?_set_self h]), bind_ok, bind_ok]
      exact Sim.self _
    · rw [wr_of_ge (by omega)]
      exact Sim.self _

theorem reducePartials_sim (fs : FFTSettings F) (n : Nat) (ps : List (List F)) (h : ∀ p ∈ ps, p ≠ []) :
    Sim (fun r => r ≠ []) (fs.reducePartials n ps) (reducePartials fs n ps) := by
  unfold FFTSettings.reducePartials reducePartials
  rw [outDegree_spec ps h, bind_ok, bind_ok]
  split
  · exact ⟨fun r hr => (by cases hr), fun _ => ⟨_, rfl⟩⟩
  · split
    · exact ⟨fun r hr => (by cases hr), fun _ => ⟨_, rfl⟩⟩
    · refine (Sim.self _).bind fun p0 _ => (Sim.pad _ _).bind fun q hq => (Sim.unwrap_fft _ _ _).bind fun ev _ => ?_
      refine Sim.bind (P := fun _ => True) (Sim.forRange _ _ _ trivial fun i ev _ => ?_) fun ev _ => ?_
      · exact (Sim.self _).bind fun p _ => (Sim.pad _ _).bind fun q hq => (Sim.unwrap_fft _ _ _).bind fun e _ =>
          Sim.self _
      · refine (Sim.unwrap_fft _ _ _).bind fun co _ => ?_
        refine Sim.refl fun r hr => ?_
        unfold sliceTo at hr
        split at hr
        · next hle =>
          cases hr
          intro he
          have := congrArg List.length he
          simp at this
          subst this
          simp at hle
        · cases hr

theorem wr_ok {α : Type} {v r : List α} {i : Nat} {x : α} (h : wr v i x = .ok r) : i < v.length ∧ r = v.set i x := by
  unfold wr at h
  split at h
  · next h' => cases h; exact ⟨h', rfl⟩
  · cases h

theorem rd_ok {α : Type} {v : List α} {i : Nat} {x : α} (h : rd v i = .ok x) : x ∈ v := by
  unfold rd at h
  cases hv : v[i]? with
  | none => rw [hv] at h; cases h
  | some y => rw [hv] at h; cases h; exact List.mem_of_getElem? hv

theorem slice_ok {α : Type} {v r : List α} {a b : Nat} (h : slice v a b = .ok r) : r.length = b - a := by
  unfold slice at h
  split at h
  · next h' => cases h; simp; omega
  · cases h

/-- All lengths are positive. -/
def Pos (w : ZeroWork F) : Prop := ∀ l ∈ w.lens, 1 ≤ l

theorem zeroInitStep_sim (fs : FFTSettings F) (missing : List Nat) (stride : Nat) (s : ZeroWork F × Nat × Nat)
    (hs : Pos s.1) :
    Sim (fun r => Pos r.1) (fs.zeroInitStep missing stride s) (zeroInitStep fs missing stride s) := by
  obtain ⟨w, mo, wo⟩ := s
  unfold FFTSettings.zeroInitStep zeroInitStep
  simp only
  refine (Sim.self _).bind fun ix _ => (zeroPolyPartial_sim _ _ _).bind fun pp _ => (Sim.pad _ _).bind fun pd _ =>
    (Sim.self _).bind fun work _ => Sim.pure ?_
  intro l hl
  rcases List.mem_append.1 hl with hl | hl
  · exact hs l hl
  · simp at hl; omega

theorem pos_set {lens : List Nat} (h : ∀ l ∈ lens, 1 ≤ l) (i x : Nat) (hx : 1 ≤ x) : ∀ l ∈ lens.set i x, 1 ≤ l := by
  intro l hl
  rcases List.mem_or_eq_of_mem_set hl with h1 | rfl
  · exact h l h1
  · exact hx

theorem zeroGroup_sim (fs : FFTSettings F) (D C ps count i : Nat) (s : ZeroWork F) (hs : Pos s) :
    Sim Pos (fs.zeroGroup D C ps count i s) (zeroGroup fs D C ps count i s) := by
  unfold FFTSettings.zeroGroup zeroGroup
  simp only
  refine (Sim.self _).bind fun len _ => (Sim.self _).bind fun left _ => (Sim.self _).bind fun offs _ => ?_
  refine Sim.bind (P := fun st => ∀ p ∈ st.2, p ≠ []) (Sim.forRange _ _ _ (by simp) fun j st hst => ?_) ?_
  · refine (Sim.self _).bind fun o1 _ => (Sim.self _).bind fun o _ => ?_
    refine Sim.bind (P := fun l => 1 ≤ l) (Sim.refl fun l hl => hs l (rd_ok hl)) fun l hl => ?_
    refine Sim.bind (P := fun c => c ≠ []) (Sim.refl fun c hc => ?_) fun c hc => Sim.pure ?_
    · have := slice_ok hc
      intro h
      subst h
      simp at this
      omega
    · intro p hp
      rcases List.mem_append.1 hp with hp | hp
      · exact hst p hp
      · simp at hp; rw [hp]; exact hc
  · rintro ⟨offs, vec⟩ hvec
    simp only
    split
    · refine (reducePartials_sim fs _ vec hvec).bind fun red hred => ?_
      have hl := List.length_pos_iff.mpr hred
      refine Sim.bind (P := fun lens => ∀ l ∈ lens, 1 ≤ l) (Sim.refl fun lens h => ?_) fun lens hlens => ?_
      · rw [(wr_ok h).2]; exact pos_set hs _ _ hl
      · exact (Sim.pad _ _).bind fun pd _ => (Sim.self _).bind fun o _ => (Sim.self _).bind fun w _ =>
          Sim.pure hlens
    · refine Sim.bind (P := fun l => 1 ≤ l) (Sim.refl fun l hl => hs l (rd_ok hl)) fun l hl => ?_
      refine Sim.bind (P := fun lens => ∀ l ∈ lens, 1 ≤ l) (Sim.refl fun lens h => ?_) fun lens hlens => Sim.pure hlens
      rw [(wr_ok h).2]; exact pos_set hs _ _ hl

theorem nextPow_std {v r : Nat} (h : nextPowerOfTwo v = .ok r) : stdNextPowerOfTwo v = .ok r := by
  by_cases h1 : 1 ≤ v
  · by_cases h2 : v ≤ 2 ^ 63
    · rw [nextPowerOfTwo_eq h1 h2] at h
      rw [stdNextPowerOfTwo, if_pos h2, h]
    · exfalso
      unfold nextPowerOfTwo at h
      rw [subU_of_le h1, bind_ok] at h
      simp only at h
      have hb : ¬ smear (v - 1) + 1 < 2 ^ 64 := by
        intro hlt
        by_cases h64 : v - 1 < 2 ^ 64
        · rw [smear_eq h64] at hlt
          have h3 : bitLen (v - 1) < 64 := by
            by_contra hc
            have : 2 ^ 64 ≤ 2 ^ bitLen (v - 1) := Nat.pow_le_pow_right (by omega) (by omega)
            omega
          have h4 := lt_two_pow_bitLen (v - 1)
          have : 2 ^ bitLen (v - 1) ≤ 2 ^ 63 := Nat.pow_le_pow_right (by omega) (by omega)
          omega
        · have : v - 1 ≤ smear (v - 1) := by
            unfold smear
            simp only
            refine le_trans (Nat.left_le_or) (le_trans (Nat.left_le_or) (le_trans (Nat.left_le_or)
              (le_trans (Nat.left_le_or) (le_trans (Nat.left_le_or) Nat.left_le_or))))
          omega
      rw [if_neg hb, bind_panic] at h
      cases h
  · have : v = 0 := by omega
    subst this
    cases h

theorem nextPowerOfTwo_noErr (v : Nat) : NoErr (nextPowerOfTwo v) := by
  unfold nextPowerOfTwo
  refine NoErr.bind (fun e => by unfold subU; split <;> simp) fun a => ?_
  simp only
  intro e
  split
  · rw [bind_ok]; split <;> simp
  · simp

theorem nextPow_sim (v : Nat) : Sim (fun _ => True) (nextPowerOfTwo v) (stdNextPowerOfTwo v) :=
  ⟨fun _ hr => ⟨nextPow_std hr, trivial⟩, fun he => absurd he (nextPowerOfTwo_noErr v _)⟩

theorem zeroReduce_sim (fs : FFTSettings F) (D C : Nat) : ∀ (fuel count : Nat) (s : ZeroWork F), Pos s →
    Sim Pos (fs.zeroReduce D C fuel count s) (zeroReduce fs D C fuel count s) := by
  intro fuel
  induction fuel with
  | zero => intro count s _; exact ⟨fun r hr => (by cases hr), fun he => (by cases he)⟩
  | succ fuel ih =>
    intro count s hs
    simp only [FFTSettings.zeroReduce, zeroReduce]
    split
    · refine (Sim.self _).bind fun l0 _ => (nextPow_sim _).bind fun psz _ => ?_
      refine Sim.bind (P := Pos) (Sim.forRange _ _ _ hs fun i s hs => zeroGroup_sim fs _ _ _ _ i s hs) fun s hs => ?_
      exact ih _ s hs
    · exact Sim.pure hs

theorem zeroPolyLarge_sim (fs : FFTSettings F) (D C : Nat) (missing : List Nat) (stride count : Nat)
    (hc : (count - 1) * 63 ≤ missing.length) :
    Sim (fun _ => True) (fs.zeroPolyLarge D C missing stride count) (zeroPolyLarge fs D C missing stride count) := by
  unfold FFTSettings.zeroPolyLarge zeroPolyLarge
  refine (nextPow_sim _).bind fun n _ => ?_
  refine Sim.bind (P := fun r => Pos r.1) (Sim.forRange _ _ _ (by intro l hl; cases hl)
    fun i s hs => zeroInitStep_sim fs missing stride s hs) ?_
  rintro ⟨w, mo, wo⟩ hw
  simp only
  rw [subU_of_le (by omega), bind_ok, bind_ok]
  refine Sim.bind (P := fun lens => ∀ l ∈ lens, 1 ≤ l) (Sim.refl fun lens h => ?_) fun lens hlens => ?_
  · rw [(wr_ok h).2]; exact pos_set hw _ _ (by omega)
  · exact Sim.bind (P := Pos) (zeroReduce_sim fs D C _ _ _ hlens) fun w _ => Sim.pure trivial

theorem zeroPoly_sim (fs : FFTSettings F) (D : Nat) (missing : List Nat) :
    Sim (fun _ => True) (fs.zeroPolyViaMultiplication D missing) (zeroPolyViaMultiplication fs D missing) := by
  unfold FFTSettings.zeroPolyViaMultiplication zeroPolyViaMultiplication
  split
  · exact Sim.self _
  · next h =>
    have hpos : 0 < missing.length := List.length_pos_iff.mpr (by simpa using h)
    split
    · exact ⟨fun r hr => (by cases hr), fun _ => ⟨_, rfl⟩⟩
    · split
      · exact ⟨fun r hr => (by cases hr), fun _ => ⟨_, rfl⟩⟩
      · split
        · exact ⟨fun r hr => (by cases hr), fun _ => ⟨_, rfl⟩⟩
        · rw [show (63 + missing.length - 1) / 63 = 1 + (missing.length - 1) / 63 by omega]
          simp only
          refine (nextPow_sim _).bind fun np _ => ?_
          refine Sim.bind (P := fun _ => True) ?_ fun zp _ => ?_
          · unfold FFTSettings.zeroPolyRaw zeroPolyRaw
            split
            · next h63 =>
              have hs := zeroPolyPartial_sim fs missing (fs.maxWidth / D)
              refine ⟨fun r hr => ?_, fun he => ?_⟩
              · rw [(hs.ok r hr).1]; exact ⟨rfl, trivial⟩
              · exfalso
                unfold FFTSettings.zeroPolyPartial at he
                rw [if_neg h] at he
                have : ∀ (nd : F) (j : Nat) (p : List F), NoErr (partialInner nd j p) := by
                  intro nd j
                  induction j with
                  | zero => intro p; exact NoErr.ok _
                  | succ j ih =>
                    intro p
                    exact (NoErr.rd _ _).bind fun x => (NoErr.wr _ _ _).bind fun p => (NoErr.rd _ _).bind fun x =>
                      (NoErr.rd _ _).bind fun y => (NoErr.wr _ _ _).bind fun p => ih p
                refine NoErr.bind (NoErr.rd _ _) (fun i0 => NoErr.bind (NoErr.rd _ _) fun r =>
                  NoErr.bind (NoErr.wr _ _ _) fun poly => NoErr.forRange _ _ _ fun i poly => ?_) _ he
                exact (NoErr.rd _ _).bind fun ii => (NoErr.rd _ _).bind fun r => (NoErr.wr _ _ _).bind fun p =>
                  (NoErr.rd _ _).bind fun nd => (NoErr.rd _ _).bind fun x => (NoErr.rd _ _).bind fun y =>
                  (NoErr.wr _ _ _).bind fun p => (this _ _ _).bind fun p => (NoErr.rd _ _).bind fun z => NoErr.wr _ _ _
            · exact zeroPolyLarge_sim fs _ _ _ _ _ (by omega)
          · refine Sim.bind (P := fun _ => True) ?_ fun zp _ => (Sim.self _).bind fun ev _ => Sim.pure trivial
            unfold Kzg.fitDomain fitDomain
            split
            · exact (Sim.pad _ _).mono fun _ _ => trivial
            · split
              · next h1 h2 => rw [if_neg (by omega)]; exact Sim.self _
              · next h1 h2 => rw [if_pos (by omega)]; exact Sim.self _

theorem zeroPoly_of_ok {fs : FFTSettings F} {D : Nat} {missing : List Nat} {r : List F × List F}
    (h : fs.zeroPolyViaMultiplication D missing = .ok r) : zeroPolyViaMultiplication fs D missing = .ok r :=
  ((zeroPoly_sim fs D missing).ok r h).1

theorem zeroPoly_of_err {fs : FFTSettings F} {D : Nat} {missing : List Nat}
    (h : fs.zeroPolyViaMultiplication D missing = .err powMsg) :
    ∃ e, zeroPolyViaMultiplication fs D missing = .err e := (zeroPoly_sim fs D missing).err h

end
end Kzg.ZkP
