import Verif.Props.ZkFK20
import Verif.Props.BenchSettings
import Verif.Proofs.FK20Short
import Verif.Proofs.Zk.MulTotal
/-!
# Amortised proofs of zkcrypto with short setups, and without overflow checks (C54, C90–C92, C169, C170, C187)

`KZGSettings::new` of zkcrypto does not compare the length of the setup with the width, so the settings for amortised proofs may run
out of points. Without overflow checks the multiplication of points always returns, so whether those settings can be made does not
depend on the rounding at all.
-/

set_option linter.unusedSectionVars false

namespace Kzg.Props
open Kzg Kzg.Res Kzg.Zk Kzg.Zk.Top Kzg.Bench CurveConsts Polynomial ScW

/-- C54 (release): without overflow checks the product exists for every point and every scalar, on the curve or not, right or wrong. -/
theorem C54_release_returns (p : G1.Proj) (s : Scalar) : ∃ q, G1.mul false p s = .ok q := Glv.multiply_release _ _ _

theorem factorSettings_short {ks : Settings} {s : ScW} {N scale : Nat} (h : ks.fs.WF scale) :
    (factorSettings ks s N).Short (1 : ScW) s N scale := ⟨h, by simp [factorSettings]⟩

/-- Without overflow checks: every operation returns something. -/
theorem opsRelease : ZkP.OpsRel (M := ScW) False (fun _ _ => True) (fun _ => True) (g1Ops false) where
  zero := trivial
  add _ _ := trivial
  sub _ _ := trivial
  mul {p a s} _ _ := by
    obtain ⟨q, e⟩ := C54_release_returns p s.1
    rw [show (g1Ops false).mul p s = .ok q from e]
    exact trivial

theorem relL_true {α β : Type} {R : α → β → Prop} {v : List α} {w : List β} (h : RelL R v w) : RelL (fun _ _ => True) v w :=
  h.mono fun _ _ _ => trivial

theorem factorSettings_true {ks : Settings} {s : ScW} {N : Nat} (h : SetupOf ks s N) :
    ZkP.KsRel (fun _ _ => True) At2 ks (factorSettings ks s N) := ⟨rfl, relL_true h.s1, h.s2⟩

/-! ## C90 -/

/-- C90 (release): without overflow checks the transform of any points of an allowed length returns as many points, at every scale. -/
theorem C90_release {scale : Nat} {fs : FFTSettings ScW} (hfs : FFTSettings.new scale = .ok fs) {m : Nat} (hm : m ≤ scale)
    {data : List G1.Proj} (hd : data.length = 2 ^ m) (inverse : Bool) :
    ∃ out, ZkP.fftG1 (g1Ops false) fs data inverse = .ok out ∧ out.length = 2 ^ m := by
  have hr : RelL (fun (_ : G1.Proj) (_ : ScW) => True) data (List.replicate (2 ^ m) 0) := by
    rw [← hd]
    clear hd
    induction data with
    | nil => exact .nil
    | cons a v ih => exact .cons trivial ih
  obtain ⟨e, he⟩ := zk_fft_ok (wf_of_new hfs) hm (List.replicate (2 ^ m) 0) (List.length_replicate ..) inverse
  have hl : e.length = 2 ^ m := by
    cases inverse
    · obtain ⟨b, hb, hl, -⟩ := (wf_of_new hfs).fft_forward hm (List.replicate (2 ^ m) (0 : ScW)) (List.length_replicate ..)
      rw [show fs.fftFr _ _ = _ from hb] at he
      cases he
      exact hl
    · obtain ⟨b, hb, hl, -⟩ := (wf_of_new hfs).fft_backward hm (List.replicate (2 ^ m) (0 : ScW)) (List.length_replicate ..)
      rw [show fs.fftFr _ _ = _ from hb] at he
      cases he
      exact hl
  have h := ZkP.fftG1_rel opsRelease zk_two_ne (fsT_all fs) hr inverse
  rw [show fs.fftG1 _ inverse = _ from he] at h
  rcases h.of_ok with ⟨out, ho, h1⟩ | ⟨hf, -⟩
  · exact ⟨out, ho, by rw [h1.length, hl]⟩
  · exact hf.elim

/-! ## C91 -/

theorem single_rel_enough {lax : Prop} {T : ScW → Prop} {o : ZkP.PtOps ScW G1.Proj} (h : ZkP.OpsRel (M := ScW) lax At1 T o)
    {chk : Bool} {ks : Settings} {N scale : Nat} {s : ScW} (hk : ZkMadeFrom chk ks N scale s)
    (hT : ZkP.FsT T ks.fs) {m : Nat} (hm : m < scale) (hN : 2 ^ m - 1 ≤ N) {p : List ScW} (hp : p.length = 2 ^ m)
    (hg : ∀ i < 2 ^ (m + 1), T (fkFactor (zkCosetRoot ks scale (m + 1)) (2 ^ m) 1 0 p i)) :
    (∃ fk proofs, ZkP.singleNew o ks (2 ^ (m + 1)) = .ok fk ∧ ZkP.singleOpt o fk p = .ok proofs ∧
      FkProofs s (zkCosetRoot ks scale (m + 1)) 1 (2 ^ (m + 1)) p proofs) ∨
    (lax ∧ (ZkP.singleNew o ks (2 ^ (m + 1)) = .panic ∨
      ∃ fk, ZkP.singleNew o ks (2 ^ (m + 1)) = .ok fk ∧ ZkP.singleOpt o fk p = .panic)) := by
  obtain ⟨hs, hw⟩ := hk.setup
  have hwf := factorSettings_short (s := s) (N := N) hw
  have hω : ks.fs.omega (2 ^ (m + 1)) = zkCosetRoot ks scale (m + 1) := zkCosetRoot_eq hk hm
  have h1 := ZkP.singleNew_rel h zk_two_ne (factorSettings_rel hs) hT (2 ^ (m + 1))
  have hnew := single_new_enough hwf hm hN
  rw [hnew] at h1
  rcases h1.of_ok with ⟨fk, e, hfk⟩ | ⟨hl, e⟩
  · have h2 := ZkP.singleOpt_rel h zk_two_ne hfk hT p (fun t c ht hc => factors_good hw hm (o := 0) (l := 1) one_pos
      (by rw [hp, mul_one]) (hω.symm ▸ hg) t c ht hc)
    rw [single_opt_enough hwf hm hnew p hp] at h2
    rcases h2.of_ok with ⟨proofs, e', hr⟩ | ⟨hl, e'⟩
    · exact Or.inl ⟨fk, proofs, e, e', fkProofs_of_rel (by rw [pow_one]; exact hω.symm) hr⟩
    · exact Or.inr ⟨hl, Or.inr ⟨fk, e, e'⟩⟩
  · exact Or.inr ⟨hl, Or.inl e⟩

/-- C91 (partial, any setup): as `C91_single_partial`, for every setup that has the `n - 1` points needed. -/
theorem C91_single_short_partial {chk : Bool} {ks : Settings} {N scale : Nat} {s : ScW} (h : ZkMadeFrom chk ks N scale s)
    (hs : scale ≤ 16) {m : Nat} (hm : m < scale) (hN : 2 ^ m - 1 ≤ N) {p : List ScW} (hp : p.length = 2 ^ m)
    (hg : ∀ i < 2 ^ (m + 1), ¬ RoundingOverflows (el (fkFactor (zkCosetRoot ks scale (m + 1)) (2 ^ m) 1 0 p i)).val) :
    ∃ fk proofs, ZkP.singleNew (g1Ops chk) ks (2 ^ (m + 1)) = .ok fk ∧ ZkP.singleOpt (g1Ops chk) fk p = .ok proofs ∧
      FkProofs s (zkCosetRoot ks scale (m + 1)) 1 (2 ^ (m + 1)) p proofs := by
  rcases single_rel_enough (opsAny chk) h (fsT_small h.setup.2 hs) hm hN hp hg with h | ⟨hf, -⟩
  · exact h
  · exact hf.elim

/-- C91 (short setups): with fewer than `n - 1` points the settings for `2n` cannot be made: the call panics in either build. -/
theorem C91_short_panics {chk : Bool} {ks : Settings} {N scale : Nat} {s : ScW} (h : ZkMadeFrom chk ks N scale s) (b : Bool) {m : Nat}
    (hm : m < scale) (hN : N < 2 ^ m - 1) : ZkP.singleNew (g1Ops b) ks (2 ^ (m + 1)) = .panic := by
  obtain ⟨hs, hw⟩ := h.setup
  have hp := single_new_short (factorSettings_short (s := s) (N := N) hw) hm hN
  cases b
  · have h1 := ZkP.singleNew_rel opsRelease zk_two_ne (factorSettings_true hs) (fsT_all _) (2 ^ (m + 1))
    rw [hp] at h1
    exact h1.of_panic
  · have h1 := ZkP.singleNew_rel opsDebug zk_two_ne (factorSettings_rel hs) (fsT_all _) (2 ^ (m + 1))
    rw [hp] at h1
    exact h1.of_panic

/-- C91 (release): without overflow checks the two calls return `2n` points for every polynomial and every scale; only their values can
be wrong. -/
theorem C91_release {chk : Bool} {ks : Settings} {N scale : Nat} {s : ScW} (h : ZkMadeFrom chk ks N scale s) {m : Nat} (hm : m < scale)
    (hN : 2 ^ m - 1 ≤ N) {p : List ScW} (hp : p.length = 2 ^ m) :
    ∃ fk proofs, ZkP.singleNew (g1Ops false) ks (2 ^ (m + 1)) = .ok fk ∧ ZkP.singleOpt (g1Ops false) fk p = .ok proofs ∧
      proofs.length = 2 ^ (m + 1) := by
  obtain ⟨hs, hw⟩ := h.setup
  have hwf := factorSettings_short (s := s) (N := N) hw
  have h1 := ZkP.singleNew_rel opsRelease zk_two_ne (factorSettings_true hs) (fsT_all _) (2 ^ (m + 1))
  have hnew := single_new_enough hwf hm hN
  rw [hnew] at h1
  rcases h1.of_ok with ⟨fk, e, hfk⟩ | ⟨hf, -⟩
  swap
  · exact hf.elim
  have h2 := ZkP.singleOpt_rel opsRelease zk_two_ne hfk (fsT_all _) p (fun _ _ _ _ _ _ => trivial)
  rw [single_opt_enough hwf hm hnew p hp] at h2
  rcases h2.of_ok with ⟨proofs, e', hr⟩ | ⟨hf, -⟩
  · exact ⟨fk, proofs, e, e', by rw [hr.length]; simp⟩
  · exact hf.elim

/-- C91 (agreement, any setup): with the `n - 1` points, equal to the proofs computed one by one. -/
theorem C91_agrees_short {chk : Bool} {ks : Settings} {N scale : Nat} {s : ScW} (h : ZkMadeFrom chk ks N scale s)
    {m : Nat} (hm : m < scale) (hN : 2 ^ m - 1 ≤ N) {p : List ScW} (hp : p.length = 2 ^ m) (hp0 : polyOf p ≠ 0)
    {ω : ScW} {n : Nat} {proofs : List G1.Proj} (hf : FkProofs s ω 1 n p proofs) (j : Nat) (hj : j < n) :
    ∃ π q, proofs[j]? = some π ∧ computeProofSingle ks p (ω ^ j) = .ok q ∧ q.ctEq π = true := by
  obtain ⟨π, e, hπ⟩ := hf.2 j hj
  have hd := zk_natDegree_lt hp0
  have hlt := h.setup.2.lt
  have h30 : 2 ^ m ≤ 2 ^ 30 := Nat.pow_le_pow_right (by omega) (by omega)
  have hle : 2 ^ m ≤ 2 ^ scale := Nat.pow_le_pow_right (by omega) (by omega)
  obtain ⟨q, e', hq⟩ := h.setup.1.computeMulti p (ω ^ j) (m := 0) hp0 (by omega) (by omega)
  rw [pow_zero] at e'
  exact ⟨π, q, e, e', (at1_ctEq hq hπ).2 rfl⟩

/-! ## C92 -/

theorem multi_rel_enough {lax : Prop} {T : ScW → Prop} {o : ZkP.PtOps ScW G1.Proj} (h : ZkP.OpsRel (M := ScW) lax At1 T o)
    {chk : Bool} {ks : Settings} {N scale : Nat} {s : ScW} (hk : ZkMadeFrom chk ks N scale s)
    (hT : ZkP.FsT T ks.fs) {m c : Nat} (hm : m + c < scale) (hN : (2 ^ m - 1) * 2 ^ c ≤ N) {p : List ScW} (hp : p.length = 2 ^ (m + c))
    (hg : ∀ u < 2 ^ c, ∀ i < 2 ^ (m + 1), T (fkFactor (zkCosetRoot ks scale (m + 1)) (2 ^ m) (2 ^ c) u p i)) :
    (∃ fk proofs, ZkP.multiNew o ks (2 ^ (m + c + 1)) (2 ^ c) = .ok fk ∧ ZkP.multiOpt o fk p = .ok proofs ∧
      FkProofs s (zkCosetRoot ks scale (m + c + 1)) (2 ^ c) (2 ^ (m + 1)) p proofs) ∨
    (lax ∧ (ZkP.multiNew o ks (2 ^ (m + c + 1)) (2 ^ c) = .panic ∨
      ∃ fk, ZkP.multiNew o ks (2 ^ (m + c + 1)) (2 ^ c) = .ok fk ∧ ZkP.multiOpt o fk p = .panic)) := by
  obtain ⟨hs, hw⟩ := hk.setup
  have hwf := factorSettings_short (s := s) (N := N) hw
  have hω : ks.fs.omega (2 ^ (m + 1)) = zkCosetRoot ks scale (m + 1) := zkCosetRoot_eq hk (by omega)
  have h1 := ZkP.multiNew_rel h zk_two_ne (factorSettings_rel hs) hT (2 ^ (m + c + 1)) (2 ^ c)
  have hnew := multi_new_enough hwf hm hN
  rw [hnew] at h1
  rcases h1.of_ok with ⟨fk, e, hfk⟩ | ⟨hl, e⟩
  · have h2 := ZkP.multiOpt_rel h zk_two_ne hfk hT p
      (by rw [hp]; exact Nat.pow_le_pow_right (by omega) (by omega))
      (fun u hu => factors_good hw (show m < scale by omega) hu (by rw [hp, pow_add]) (hω.symm ▸ hg u hu))
    rw [multi_opt_enough hwf hm hnew p hp] at h2
    rcases h2.of_ok with ⟨proofs, e', hr⟩ | ⟨hl, e'⟩
    · exact Or.inl ⟨fk, proofs, e, e', fkProofs_of_rel ((zkCosetRoot_pow hm).trans hω.symm) hr⟩
    · exact Or.inr ⟨hl, Or.inr ⟨fk, e, e'⟩⟩
  · exact Or.inr ⟨hl, Or.inl e⟩

/-- C92 (partial, any setup): as `C92_multi_partial`, for every setup that has the `n - l` points needed. -/
theorem C92_multi_short_partial {chk : Bool} {ks : Settings} {N scale : Nat} {s : ScW} (h : ZkMadeFrom chk ks N scale s)
    (hs : scale ≤ 16) {m c : Nat} (hm : m + c < scale) (hN : (2 ^ m - 1) * 2 ^ c ≤ N) {p : List ScW} (hp : p.length = 2 ^ (m + c))
    (hg : ∀ u < 2 ^ c, ∀ i < 2 ^ (m + 1),
      ¬ RoundingOverflows (el (fkFactor (zkCosetRoot ks scale (m + 1)) (2 ^ m) (2 ^ c) u p i)).val) :
    ∃ fk proofs, ZkP.multiNew (g1Ops chk) ks (2 ^ (m + c + 1)) (2 ^ c) = .ok fk ∧
      ZkP.multiOpt (g1Ops chk) fk p = .ok proofs ∧
      FkProofs s (zkCosetRoot ks scale (m + c + 1)) (2 ^ c) (2 ^ (m + 1)) p proofs := by
  rcases multi_rel_enough (opsAny chk) h (fsT_small h.setup.2 hs) hm hN hp hg with h | ⟨hf, -⟩
  · exact h
  · exact hf.elim

/-- C92 (short setups): with fewer than `n - l` points the settings cannot be made: the call panics in either build. -/
theorem C92_short_panics {chk : Bool} {ks : Settings} {N scale : Nat} {s : ScW} (h : ZkMadeFrom chk ks N scale s) (b : Bool) {m c : Nat}
    (hm : m + c < scale) (hN : N < (2 ^ m - 1) * 2 ^ c) : ZkP.multiNew (g1Ops b) ks (2 ^ (m + c + 1)) (2 ^ c) = .panic := by
  obtain ⟨hs, hw⟩ := h.setup
  have hp := multi_new_short (factorSettings_short (s := s) (N := N) hw) hm hN
  cases b
  · have h1 := ZkP.multiNew_rel opsRelease zk_two_ne (factorSettings_true hs) (fsT_all _) (2 ^ (m + c + 1)) (2 ^ c)
    rw [hp] at h1
    exact h1.of_panic
  · have h1 := ZkP.multiNew_rel opsDebug zk_two_ne (factorSettings_rel hs) (fsT_all _) (2 ^ (m + c + 1)) (2 ^ c)
    rw [hp] at h1
    exact h1.of_panic

/-- C92 (release): without overflow checks the two calls return `2n/l` points for every polynomial and every scale. -/
theorem C92_release {chk : Bool} {ks : Settings} {N scale : Nat} {s : ScW} (h : ZkMadeFrom chk ks N scale s) {m c : Nat}
    (hm : m + c < scale) (hN : (2 ^ m - 1) * 2 ^ c ≤ N) {p : List ScW} (hp : p.length = 2 ^ (m + c)) :
    ∃ fk proofs, ZkP.multiNew (g1Ops false) ks (2 ^ (m + c + 1)) (2 ^ c) = .ok fk ∧ ZkP.multiOpt (g1Ops false) fk p = .ok proofs ∧
      proofs.length = 2 ^ (m + 1) := by
  obtain ⟨hs, hw⟩ := h.setup
  have hwf := factorSettings_short (s := s) (N := N) hw
  have h1 := ZkP.multiNew_rel opsRelease zk_two_ne (factorSettings_true hs) (fsT_all _) (2 ^ (m + c + 1)) (2 ^ c)
  have hnew := multi_new_enough hwf hm hN
  rw [hnew] at h1
  rcases h1.of_ok with ⟨fk, e, hfk⟩ | ⟨hf, -⟩
  swap
  · exact hf.elim
  have h2 := ZkP.multiOpt_rel opsRelease zk_two_ne hfk (fsT_all _) p
    (by rw [hp]; exact Nat.pow_le_pow_right (by omega) (by omega)) (fun _ _ _ _ _ _ _ _ => trivial)
  rw [multi_opt_enough hwf hm hnew p hp] at h2
  rcases h2.of_ok with ⟨proofs, e', hr⟩ | ⟨hf, -⟩
  · exact ⟨fk, proofs, e, e', by rw [hr.length]; simp⟩
  · exact hf.elim

/-- C92 (agreement, any setup): with the `n - l` points, equal to the multi proofs computed one by one. -/
theorem C92_agrees_short {chk : Bool} {ks : Settings} {N scale : Nat} {s : ScW} (h : ZkMadeFrom chk ks N scale s)
    {m c : Nat} (hm : m + c < scale) (hN : (2 ^ m - 1) * 2 ^ c ≤ N) {p : List ScW} (hp : p.length = 2 ^ (m + c))
    (hp0 : polyOf p ≠ 0) {ω : ScW} {n : Nat} {proofs : List G1.Proj} (hf : FkProofs s ω (2 ^ c) n p proofs) (j : Nat)
    (hj : j < n) : ∃ π q, proofs[j]? = some π ∧ computeProofMulti ks p (ω ^ j) (2 ^ c) = .ok q ∧ q.ctEq π = true := by
  obtain ⟨π, e, hπ⟩ := hf.2 j hj
  have hd := zk_natDegree_lt hp0
  have hlt := h.setup.2.lt
  have h30 : 2 ^ (m + c) ≤ 2 ^ 30 := Nat.pow_le_pow_right (by omega) (by omega)
  have hmc : (2 ^ m - 1) * 2 ^ c = 2 ^ (m + c) - 2 ^ c := by rw [Nat.sub_mul, one_mul, ← pow_add]
  have hle : 2 ^ (m + c) ≤ 2 ^ scale := Nat.pow_le_pow_right (by omega) (by omega)
  obtain ⟨q, e', hq⟩ := h.setup.1.computeMulti p (ω ^ j) (m := c) hp0 (by omega) (by omega)
  exact ⟨π, q, e, e', (at1_ctEq hq hπ).2 rfl⟩

/-! ## C169, C170 -/

/-- C169 (zkcrypto, any setup, partial): as `C169_zk_partial`, for every setup as long as the polynomial. -/
theorem C169_zk_short_partial {chk : Bool} {ks : Zk.Top.Settings} {N scale : Nat} {s : ScW} (h : ZkMadeFrom chk ks N scale s)
    (hs : scale ≤ 16) {m : Nat} (hm : m < scale) (hm0 : 0 < m) (hN : 2 ^ m ≤ N) {p : List ScW} (hp : p.length = 2 ^ m)
    (hg : ∀ i < 2 ^ (m + 1), ¬ RoundingOverflows (el (fkFactor (zkCosetRoot ks scale (m + 1)) (2 ^ m) 1 0 p i)).val)
    (hy : ∀ j < 2 ^ (m + 1), ¬ RoundingOverflows (el ((polyOf p).eval (zkCosetRoot ks scale (m + 1) ^ j))).val) :
    ∃ fk, ZkP.singleNew (g1Ops chk) ks (2 ^ (m + 1)) = .ok fk ∧
      fkSingleStrided (Bench.zk chk ks) (ZkP.singleDa (g1Ops chk) fk) p = .ok () ∧
      (m + 1 = scale → fkSingle (Bench.zk chk ks) (ZkP.singleDa (g1Ops chk) fk) (ZkP.singleOpt (g1Ops chk) fk) p = .ok ()) := by
  obtain ⟨fk, proofs, e0, e2, hl, hpr⟩ := C91_single_short_partial h hs hm (by omega) hp hg
  obtain ⟨out, e3, -, e4⟩ := C91_order chk fk (m := m) (by omega) p hl e2
  have h2 : 2 ^ (m + 1) ≤ 2 ^ scale := Nat.pow_le_pow_right (by omega) (by omega)
  have hN2 : 2 ≤ N := le_trans (Nat.le_self_pow (n := m) (by omega) 2) hN
  have hpN : p.length ≤ N := by rw [hp]; exact hN
  have hp1 : p.length ≠ 1 := by
    rw [hp]
    have : 2 ^ 1 ≤ 2 ^ m := Nat.pow_le_pow_right (by omega) hm0
    omega
  obtain ⟨com, e1, hc⟩ := C87_commit h p hpN
  have e5 : ∀ j < 2 ^ (m + 1), ∃ π, proofs[j]? = some π ∧ (Bench.zk chk ks).checkSingle com π (zkCosetRoot ks scale (m + 1) ^ j)
      ((polyOf p).eval (zkCosetRoot ks scale (m + 1) ^ j)) = .ok true := fun j hj => by
    obtain ⟨π, hπ, hq⟩ := hpr j hj
    refine ⟨π, hπ, ?_⟩
    have := C88_accepts_iff h hN2 hc hq (zkCosetRoot ks scale (m + 1) ^ j) _ (hy j hj)
    rw [decide_eq_true (by
      have hd := congrArg (eval s) (zk_linear_div p (zkCosetRoot ks scale (m + 1) ^ j))
      rw [pow_zero] at hd
      rw [eval_add, eval_mul, eval_sub, eval_X, eval_C, eval_C] at hd
      linear_combination hd)] at this
    exact this
  refine ⟨fk, e0, fkSingleStrided_ok (zk_base chk h) hm (zk_eval chk ks hp1) hp e1 e3 (bench_reversed_of e4 e5), ?_⟩
  rintro rfl
  have hr : zkCosetRoot ks (m + 1) (m + 1) = ks.fs.rootOfUnity := by rw [zkCosetRoot, Nat.sub_self, pow_zero, pow_one]
  rw [hr] at e5
  exact fkSingle_ok (zk_base chk h) (zk_eval chk ks hp1) hp e1 e3 e2 (bench_reversed_of e4 e5) e5

/-- C170 (zkcrypto, any setup, partial): as `C170_zk_partial`, for every setup as long as the polynomial and longer than a chunk. -/
theorem C170_zk_short_partial {chk : Bool} {ks : Zk.Top.Settings} {N scale : Nat} {s : ScW} (h : ZkMadeFrom chk ks N scale s)
    (hs : scale ≤ 16) {m c : Nat} (hm : m + c < scale) (hm0 : 0 < m + c) (hN : 2 ^ (m + c) ≤ N) (hcN : 2 ^ c < N) {p : List ScW}
    (hp : p.length = 2 ^ (m + c)) (hg : ∀ u < 2 ^ c, ∀ i < 2 ^ (m + 1),
      ¬ RoundingOverflows (el (fkFactor (zkCosetRoot ks scale (m + 1)) (2 ^ m) (2 ^ c) u p i)).val) :
    ∃ fk, ZkP.multiNew (g1Ops chk) ks (2 ^ (m + c + 1)) (2 ^ c) = .ok fk ∧
      fkMulti (Bench.zk chk ks) (ZkP.multiDa (g1Ops chk) fk) p (2 ^ c) = .ok () := by
  obtain ⟨fk, proofs, e0, e2, hl, hpr⟩ := C92_multi_short_partial h hs hm (by
    rw [pow_add] at hN
    exact le_trans (Nat.mul_le_mul_right _ (Nat.sub_le _ _)) hN) hp hg
  obtain ⟨out, e3, -, e4⟩ := C92_order chk fk (m := m) (by omega) p hl e2
  have h2 : 2 ^ (m + c + 1) ≤ 2 ^ scale := Nat.pow_le_pow_right (by omega) (by omega)
  have hpN : p.length ≤ N := by rw [hp]; exact hN
  have hp1 : p.length ≠ 1 := by
    rw [hp]
    have : 2 ^ 1 ≤ 2 ^ (m + c) := Nat.pow_le_pow_right (by omega) hm0
    omega
  obtain ⟨com, e1, hc⟩ := C87_commit h p hpN
  have hprim := zkCosetRoot_prim h (m := m + c + 1) (by omega)
  have hprim' := zkCosetRoot_prim h (m := c) (by omega)
  refine ⟨fk, e0, fkMulti_ok (zk_base chk h) hm (zk_eval chk ks hp1) hp e1 e3 (chunks_of e4 fun j hj => ?_)⟩
  obtain ⟨π, hπ, hq⟩ := hpr j hj
  refine ⟨π, hπ, ?_⟩
  obtain ⟨hr1, hr2⟩ := zk_remainder (x := zkCosetRoot ks scale (m + c + 1) ^ j) (n := 2 ^ c) (by positivity) hprim'.pow_eq_one
    (polyOf p)
  have := C89_accepts_iff h (m := c) (by omega) hcN hc hq (zkCosetRoot ks scale (m + c + 1) ^ j)
    (pow_ne_zero _ (hprim.ne_zero (by positivity)))
    ((List.range (2 ^ c)).map fun i => (polyOf p).eval (zkCosetRoot ks scale (m + c + 1) ^ j * zkCosetRoot ks scale c ^ i)) (by simp)
    _ hr1 (by
      intro i hi
      rw [List.getElem?_map, List.getElem?_range hi, Option.map_some, hr2])
  rw [decide_eq_true (by
    have := congrArg (eval s) (EuclideanDomain.div_add_mod (polyOf p)
      (X ^ 2 ^ c - C ((zkCosetRoot ks scale (m + c + 1) ^ j) ^ 2 ^ c)))
    rw [eval_add, eval_mul, eval_sub, eval_pow, eval_X, eval_C] at this
    linear_combination -this)] at this
  exact this

/-! ## C187 -/

/-- A zero polynomial multiplies by zeros only. -/
theorem zero_factors (ω : ScW) (n m l u i : Nat) :
    ¬ RoundingOverflows (el (fkFactor ω m l u (List.replicate n (0 : ScW)) i)).val := by
  have hz : ∀ k, List.getD (List.replicate n (0 : ScW)) k 0 = 0 := fun k => by
    rw [List.getD_eq_getElem?_getD, List.getElem?_replicate]; split <;> rfl
  simp only [fkFactor, hz, mul_zero, Finset.sum_const_zero, add_zero]
  exact C54_small_scalars (by rw [show ScW.el (0 : ScW) = 0 from ScW.elHom.map_zero, ZMod.val_zero]; norm_num)

/-- C187 (settings, zkcrypto without overflow checks): the sizes of the other backends, if the setup has the `n2/2 - l` points needed,
at every scale. -/
theorem C187_settings_zk_release {chk : Bool} {ks : Zk.Top.Settings} {N scale : Nat} {s : ScW} (h : ZkMadeFrom chk ks N scale s)
    (n2 l : Nat) : fkMultiSettingsT (ZkP.multiNew (Top.g1Ops false) ks) n2 l = passIf (MultiSizes scale n2 l ∧ n2 / 2 - l ≤ N) := by
  unfold fkMultiSettingsT
  by_cases hc : MultiSizes scale n2 l
  · obtain ⟨m, c, hm, rfl, rfl⟩ := id hc
    by_cases hN : (2 ^ m - 1) * 2 ^ c ≤ N
    · obtain ⟨fk, -, e, -⟩ := C92_release h hm hN (p := List.replicate (2 ^ (m + c)) 0) (List.length_replicate ..)
      rw [passIf_true ⟨hc, multi_points.1 hN⟩, e]; rfl
    · rw [passIf_false fun hh => hN (multi_points.2 hh.2), C92_short_panics h false hm (not_le.1 hN)]; rfl
  · obtain ⟨msg, e⟩ := C92_new_rejects false h.setup.2.width n2 l hc
    rw [passIf_false fun hh => hc hh.1, e]; rfl

/-- C187 (settings, zkcrypto): the same in either build up to scale 16. Missing: the builds with overflow checks at larger scales, where
the test may also panic where it should pass (`C187_settings_zk_debug`). -/
theorem C187_settings_zk_short_partial {chk : Bool} {ks : Zk.Top.Settings} {N scale : Nat} {s : ScW} (h : ZkMadeFrom chk ks N scale s)
    (hs : scale ≤ 16) (n2 l : Nat) :
    fkMultiSettingsT (ZkP.multiNew (Top.g1Ops chk) ks) n2 l = passIf (MultiSizes scale n2 l ∧ n2 / 2 - l ≤ N) := by
  unfold fkMultiSettingsT
  by_cases hc : MultiSizes scale n2 l
  · obtain ⟨m, c, hm, rfl, rfl⟩ := id hc
    by_cases hN : (2 ^ m - 1) * 2 ^ c ≤ N
    · obtain ⟨fk, -, e, -⟩ := C92_multi_short_partial h hs hm hN (p := List.replicate (2 ^ (m + c)) 0) (List.length_replicate ..)
        (fun u _ i _ => zero_factors _ _ _ _ _ _)
      rw [passIf_true ⟨hc, multi_points.1 hN⟩, e]; rfl
    · rw [passIf_false fun hh => hN (multi_points.2 hh.2), C92_short_panics h chk hm (not_le.1 hN)]; rfl
  · obtain ⟨msg, e⟩ := C92_new_rejects chk h.setup.2.width n2 l hc
    rw [passIf_false fun hh => hc hh.1, e]; rfl

/-- C187 (settings, zkcrypto with overflow checks): at no scale does the test pass with other sizes or too few points. -/
theorem C187_settings_zk_debug {ks : Zk.Top.Settings} {N scale : Nat} {s : ScW} (h : ZkMadeFrom true ks N scale s) (n2 l : Nat)
    (hp : ¬ (MultiSizes scale n2 l ∧ n2 / 2 - l ≤ N)) : fkMultiSettingsT (ZkP.multiNew (Top.g1Ops true) ks) n2 l = .panic := by
  unfold fkMultiSettingsT
  by_cases hc : MultiSizes scale n2 l
  · obtain ⟨m, c, hm, rfl, rfl⟩ := id hc
    rw [C92_short_panics h true hm (not_le.1 fun hN => hp ⟨hc, multi_points.1 hN⟩)]; rfl
  · obtain ⟨msg, e⟩ := C92_new_rejects true h.setup.2.width n2 l hc
    rw [e]; rfl

/-! ### Examples -/

/-- Eleven points, scale 5: settings for 16 values and chunks of 2 need six points and can be made, those for 32 and 4 need twelve and
cannot. -/
example (chk : Bool) : ∃ ks s, ZkMadeFrom chk ks 11 5 s ∧ fkMultiSettingsT (ZkP.multiNew (Top.g1Ops chk) ks) 16 2 = .ok () ∧
    fkMultiSettingsT (ZkP.multiNew (Top.g1Ops chk) ks) 32 4 = .panic := by
  obtain ⟨ks, s, h, -⟩ := zkMadeFrom_exists chk (N := 11) (scale := 5) (by norm_num) (by norm_num)
  have h' := C187_settings_zk_short_partial h (by norm_num)
  exact ⟨ks, s, h, (h' 16 2).trans (passIf_true ⟨⟨2, 1, by norm_num, by norm_num, by norm_num⟩, by norm_num⟩),
    (h' 32 4).trans (passIf_false fun hh => absurd hh.2 (by norm_num))⟩

/-- Scale 31, 12 points, no overflow checks: settings for 32 values and chunks of 4 can be made, and so can all their proofs. -/
example : ∃ ks s fk proofs, ZkMadeFrom false ks 12 31 s ∧ fkMultiSettingsT (ZkP.multiNew (Top.g1Ops false) ks) 32 4 = .ok () ∧
    ZkP.multiNew (Top.g1Ops false) ks 32 4 = .ok fk ∧ ZkP.multiOpt (Top.g1Ops false) fk (List.replicate 16 Top.badScalar) = .ok proofs ∧
    proofs.length = 8 := by
  obtain ⟨ks, s, h, -⟩ := zkMadeFrom_exists false (N := 12) (scale := 31) (by norm_num) (by norm_num)
  obtain ⟨fk, proofs, e, e', hl⟩ := C92_release h (m := 2) (c := 2) (by norm_num) (by norm_num) (p := List.replicate 16 Top.badScalar) rfl
  exact ⟨ks, s, fk, proofs, h, (C187_settings_zk_release h 32 4).trans
    (passIf_true ⟨⟨2, 2, by norm_num, by norm_num, by norm_num⟩, by norm_num⟩), e, e', hl⟩

/-- Scale 5, three points: single proofs of four coefficients can be made, of eight cannot. -/
example (chk : Bool) : ∃ ks s fk proofs, ZkMadeFrom chk ks 3 5 s ∧ ZkP.singleNew (Top.g1Ops chk) ks 8 = .ok fk ∧
    ZkP.singleOpt (Top.g1Ops chk) fk (List.replicate 4 0) = .ok proofs ∧ proofs.length = 8 ∧
    ZkP.singleNew (Top.g1Ops chk) ks 16 = .panic := by
  obtain ⟨ks, s, h, -⟩ := zkMadeFrom_exists chk (N := 3) (scale := 5) (by norm_num) (by norm_num)
  obtain ⟨fk, proofs, e, e', hl, -⟩ := C91_single_short_partial h (by norm_num) (m := 2) (by norm_num) (by norm_num)
    (p := List.replicate 4 0) rfl (fun i _ => zero_factors _ _ _ _ _ _)
  exact ⟨ks, s, fk, proofs, h, e, e', hl, C91_short_panics h chk (m := 3) (by norm_num) (by norm_num)⟩

end Kzg.Props
