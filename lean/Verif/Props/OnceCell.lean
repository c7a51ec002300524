import Verif.Proofs.OnceCell
import Verif.Proofs.FrLawful
/-!
# Property C15: the lazily initialised scale tables
-/

namespace Kzg.Props
open Kzg Kzg.Once Kzg.Res

/-- The outcome a caller of `scale_poly(p, n)` (`f = 1/5`) or `unscale_poly(p, n)` (`f = 5`) can rely on:
coefficient `i < n` is multiplied by `f^i`; if the list or the table of 65536 entries is too short, a panic. -/
def ScaleOutcome (f : Fr) (p : List Fr) (n : Nat) (r : Res (List Fr)) : Prop :=
  (n ≤ p.length → n ≤ 65536 → ∃ out, r = .ok out ∧ out.length = p.length ∧
    ∀ i c, p[i]? = some c → out[i]? = some (if i < n then c * f ^ i else c)) ∧
  (1 < n → (p.length < n ∨ 65536 < n) → r = .panic)

theorem scaleLoop_outcome (f : Fr) (p : List Fr) (n : Nat) :
    ScaleOutcome f p n (scaleLoop ((List.range 65536).map (f ^ ·)) p n) := by
  refine ⟨fun h1 h2 => ?_, fun h1 h2 => ?_⟩
  · obtain ⟨out, he, hl, hv⟩ := scaleLoop_spec f p n h1 h2
    refine ⟨out, he, hl, fun i c hc => ?_⟩
    have hi : i < p.length := by
      by_contra hcon
      rw [List.getElem?_eq_none (by omega)] at hc
      cases hc
    have := hv i
    rw [getD_of_getElem? hc] at this
    rw [getElem?_eq_some_getD 0 (by omega), this]
  · by_cases hbig : 65536 < n
    · exact scaleLoop_panic f p n hbig
    · have hp : p.length < n := by omega
      unfold scaleLoop
      by_cases h0 : p.length = 0
      · have : p = [] := List.length_eq_zero_iff.mp h0
        subst this
        rw [forRange_succ _ _ (by omega)]
        simp [rd]
      · refine forRange_panic p.length (fun _ s => s.length = p.length) (by omega) (by omega) rfl ?_ ?_
        · intro i s h1 h2 hl
          rw [rd_getD 0 (by omega), bind_ok, rd_getD 0 (by simp; omega), bind_ok, wr_of_lt (by omega)]
          exact Sat.ok (by simp [hl])
        · intro s hl
          rw [rd_of_ge (by omega), bind_panic]

/-- C15: in every state the process can reach, whatever calls were made in whatever order and however their
steps were interleaved, every finished call has the outcome that depends on its own arguments only. -/
theorem C15_history_independent {s : State Fr} (hs : Reachable s) (c : Call Fr) (hc : c ∈ s.calls)
    (r : Res (List Fr)) (hr : c.pc = .done r) :
    match c.which with
    | .scale => r = scalePoly c.p c.lenP ∧ ScaleOutcome (1 / 5) c.p c.lenP r
    | .unscale => r = unscalePoly c.p c.lenP ∧ ScaleOutcome 5 c.p c.lenP r := by
  obtain ⟨k, hk⟩ := List.getElem?_of_mem hc
  have h := (inv_reachable hs).calls k c hk
  rw [CallOk, hr] at h
  change r = _ at h
  have hout : ScaleOutcome (c.which.factor Fr) c.p c.lenP r := by
    rw [h, seqResult_eq, powerTable_spec, bind_ok]
    exact scaleLoop_outcome _ _ _
  cases hw : c.which with
  | scale =>
    rw [hw] at h hout
    exact ⟨h, by rw [one_div]; exact hout⟩
  | unscale =>
    rw [hw] at h hout
    exact ⟨h, hout⟩

/-- C15 (tables): a table that has been published holds the 65536 first powers of `1/5`, or of `5`, and no
later step or call changes it. -/
theorem C15_tables {s : State Fr} (hs : Reachable s) :
    (∀ t, s.cell .scale = .full t → t = (List.range 65536).map fun i => (1 / 5 : Fr) ^ i) ∧
    (∀ t, s.cell .unscale = .full t → t = (List.range 65536).map fun i => (5 : Fr) ^ i) ∧
    (∀ w t, s.cell w = .full t → (∀ k s', s.tick k = some s' → s'.cell w = .full t) ∧
      ∀ v p n, (s.call v p n).cell w = .full t) := by
  have h := inv_reachable hs
  refine ⟨fun t ht => ?_, fun t ht => ?_, fun w t ht => ⟨fun k s' hk => full_stays h k hk ht, fun v p n => ht⟩⟩
  · have := h.full _ _ ht
    rw [powerTable_spec] at this
    rw [one_div]
    exact (Res.ok.inj this).symm
  · have := h.full _ _ ht
    rw [powerTable_spec] at this
    exact (Res.ok.inj this).symm

/-- C15 (no call waits for ever): as long as some call has not finished, some call can take a step; and
without new calls there are only finitely many steps. So every execution can be continued, and after the last
call comes to a state in which every call has finished. -/
theorem C15_all_calls_finish :
    (∀ s : State Fr, Reachable s → ∀ c ∈ s.calls, (∀ r, c.pc ≠ .done r) → ∃ k s', s.tick k = some s') ∧
    ¬ ∃ run : Nat → State Fr, ∀ n, ∃ k, (run n).tick k = some (run (n + 1)) := by
  refine ⟨fun s hs c hc hnd => ?_, ?_⟩
  · obtain ⟨k, hk⟩ := List.getElem?_of_mem hc
    exact inv_progress (inv_reachable hs) hk hnd
  · rintro ⟨run, h⟩
    have : ∀ n, totalWeight (run n) + n ≤ totalWeight (run 0) := by
      intro n
      induction n with
      | zero => exact le_refl _
      | succ n ih =>
        obtain ⟨k, hk⟩ := h n
        have := tick_weight k hk
        omega
    have := this (totalWeight (run 0) + 1)
    omega

/-! ## A race -/

/-- Both calls of the race below do finish in some execution, and then with their own outcome. -/
example : ∃ s : State Fr, Reachable s ∧ ∃ c d, s.calls = [c, d] ∧ c.pc = .done (scalePoly [1, 2, 3] 3) ∧
    d.pc = .done (unscalePoly [7, 7] 2) := by
  obtain ⟨s, hs, ha, hd⟩ := all_finish _ ((State.start.call .scale [1, 2, 3] 3).call .unscale [7, 7] 2 : State Fr)
    le_rfl (.call _ _ _ (.call _ _ _ .start))
  refine ⟨s, hs, ?_⟩
  have hl : s.calls.length = 2 := by
    have := congrArg List.length ha
    simpa [args, State.call, State.start] using this
  obtain ⟨c, d, hcd⟩ := List.length_eq_two.mp hl
  refine ⟨c, d, hcd, ?_⟩
  rw [args, hcd] at ha
  simp only [args, State.call, State.start, List.map_cons, List.map_nil, List.nil_append, List.cons_append,
    List.cons.injEq, Prod.mk.injEq, and_true] at ha
  obtain ⟨⟨c1, c2, c3⟩, d1, d2, d3⟩ := ha
  obtain ⟨r, hr⟩ := hd c (by rw [hcd]; simp)
  obtain ⟨r', hr'⟩ := hd d (by rw [hcd]; simp)
  have hc := C15_history_independent hs c (by rw [hcd]; simp) r hr
  have hd := C15_history_independent hs d (by rw [hcd]; simp) r' hr'
  rw [c1, c2, c3] at hc
  rw [d1, d2, d3] at hd
  exact ⟨by rw [hr, hc.1], by rw [hr', hd.1]⟩

/-- Two calls arrive before either has looked at the cell. The second wins the race and is now the owner, the
first can do nothing but wait, and the second can go on. -/
example : ∃ s : State Fr, Reachable s ∧ s.cell .scale = .running 1 ∧ s.tick 0 = none ∧ ∃ s', s.tick 1 = some s' := by
  refine ⟨_, .tick (s := ((State.start.call .scale [1, 2, 3] 3).call .scale [7, 7] 2)) 1
    (.call _ _ _ (.call _ _ _ .start)) rfl, ?_, ?_, ?_⟩
  · rfl
  · rfl
  · exact ⟨_, rfl⟩

end Kzg.Props
