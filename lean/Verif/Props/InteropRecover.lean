import Verif.Props.InteropFFT
import Verif.Props.Recovery
import Verif.Props.ZkRecover
import Verif.Props.MclRecover
import Verif.Props.ArkRecover
/-!
# Property C153: samples of one backend recovered by another
-/

set_option linter.unusedSectionVars false

namespace Kzg.Props
open Kzg Kzg.Res Kzg.Zk Kzg.Zk.ScW Polynomial

variable {scale : Nat} {fb : FFTSettings Fr} {fz : FFTSettings ScW} {fm : FFTSettings Fr}

theorem erased_map_el (samples : List (Option ScW)) : erased (samples.map (Option.map el)) = erased samples := by
  rw [erased, erased, List.countP_map]
  congr 1
  funext o
  cases o <;> rfl

theorem codeword_map_el (ω : ScW) (D : Nat) (p : ScW[X]) : (codeword ω D p).map el = codeword (el ω) D (p.map elHom) := by
  rw [codeword, codeword, List.map_map]
  refine List.map_congr_left fun i _ => ?_
  rw [Function.comp_apply, ← el_pow, eval_map_el]

theorem erasure_map_el {data : List ScW} {samples : List (Option ScW)} (h : Erasure data samples) :
    Erasure (data.map el) (samples.map (Option.map el)) := by
  refine ⟨by rw [List.length_map, List.length_map, h.1], fun i v hv => ?_⟩
  rw [List.getElem?_map] at hv ⊢
  rcases hx : samples[i]? with _ | (_ | x)
  · rw [hx] at hv; cases hv
  · rw [hx] at hv; cases hv
  · rw [hx] at hv
    rw [h.2 i x hx]
    simpa using hv

theorem domainRoot_el (hb : FFTSettings.new scale = .ok fb) (hz : FFTSettings.new scale = .ok fz) (n : Nat) :
    el (domainRoot fz scale n) = domainRoot fb scale n := by
  rw [domainRoot, domainRoot, el_pow, el_root hz hb]

theorem ne_or_of_degree {F : Type} [Field F] {p : F[X]} {m N : Nat} (hp : p.degree + (m : WithBot Nat) < ((N : Nat) : WithBot Nat)) :
    p = 0 ∨ p.natDegree + m < N := by
  by_cases h0 : p = 0
  · exact .inl h0
  · rw [degree_eq_natDegree h0] at hp
    exact .inr (by exact_mod_cast hp)

/-- C153 (the same data): for all samples that zkcrypto recovers, Arkworks returns the same data. blst-from-scratch does for up to 65536
samples and panics beyond; mcl-kzg does if its root of unity is the same. -/
theorem C153_recover_partial [Mcl.Lib Fr] (hb : FFTSettings.new scale = .ok fb) (hz : FFTSettings.new scale = .ok fz) (hm : MadeSettings fm scale)
    (samples : List (Option ScW)) (data : List ScW) (h : ZkP.recover fz samples = .ok data) :
    Ark.recover fb (samples.map (Option.map el)) = .ok (data.map el) ∧
    (samples.length ≤ 65536 → fb.recoverOption (samples.map (Option.map el)) = .ok (data.map el)) ∧
    (65536 < samples.length → fb.recoverOption (samples.map (Option.map el)) = .panic) ∧
    ((∀ n, samples.length = 2 ^ n → domainRoot fm scale n = domainRoot fb scale n) →
      Mcl.recover fm (samples.map (Option.map el)) = .ok (data.map el)) := by
  obtain ⟨hlen, hag, n, hn, hl, p, hp, rfl, -⟩ := C67_recovery_sound hz samples data h
  obtain ⟨n', -, hl', h1, h2, h3⟩ := (C67_recovery_outcome hz samples).1.1 ⟨_, h⟩
  have hnn : n' = n := Nat.pow_right_injective le_rfl (hl'.symm.trans hl)
  subst hnn
  have he : Erasure (codeword (domainRoot fb scale n') (2 ^ n') (p.map elHom)) (samples.map (Option.map el)) := by
    rw [← domainRoot_el hb hz, ← codeword_map_el]
    exact erasure_map_el ⟨hlen.symm, hag⟩
  have hp' : p.map elHom = 0 ∨ (p.map elHom).natDegree + erased (samples.map (Option.map el)) < 2 ^ n' := by
    rw [erased_map_el]
    rcases ne_or_of_degree hp with h | h
    · left; rw [h, Polynomial.map_zero]
    · right; exact lt_of_le_of_lt (Nat.add_le_add_right natDegree_map_le _) h
  rw [← erased_map_el] at h1 h2 h3
  rw [codeword_map_el, domainRoot_el hb hz]
  refine ⟨C120_recovery_general ((C113_same_settings scale fb).2 hb) hn _ _ he h1 h2 hp' h3, fun h16 => ?_, fun h16 => ?_, fun hr => ?_⟩
  · rw [hl] at h16
    exact C21_recovery_general_partial hb hn ((Nat.pow_le_pow_iff_right (a := 2) (by norm_num)).1 (h16.trans (by norm_num))) _ _ he h1 h2
      hp' h3
  · rw [hl] at h16
    exact (C21_large_domain_panics hb ((Nat.pow_lt_pow_iff_right (a := 2) (by norm_num)).1 (lt_of_le_of_lt (by norm_num) h16))).1 _
      (by rw [List.length_map, hl])
  · have e := hr n' hl
    rw [← e] at he ⊢
    exact C104_recovery_general hm hn _ _ he h1 h2 hp' h3

/-- C153 (refusals): Arkworks recovers exactly the samples that zkcrypto recovers. On others zkcrypto panics, and Arkworks returns an error
if their number is no power of two. -/
theorem C153_refuses (hb : FFTSettings.new scale = .ok fb) (hz : FFTSettings.new scale = .ok fz) (samples : List (Option ScW)) :
    ((∃ data, Ark.recover fb (samples.map (Option.map el)) = .ok data) ↔ ∃ data, ZkP.recover fz samples = .ok data) ∧
    ((¬ ∃ data, ZkP.recover fz samples = .ok data) → ZkP.recover fz samples = .panic ∧
      ((∃ e, Ark.recover fb (samples.map (Option.map el)) = .err e) ↔ ¬ ∃ n, samples.length = 2 ^ n)) := by
  obtain ⟨a1, a2⟩ := C121_recovery_outcome ((C113_same_settings scale fb).2 hb) (samples.map (Option.map el))
  obtain ⟨z1, z2⟩ := C67_recovery_outcome hz samples
  rw [List.length_map, erased_map_el] at a1
  rw [List.length_map] at a2
  exact ⟨a1.trans z1.symm, fun h => ⟨z2 h, a2⟩⟩

/-- A power beyond the first half that a factor other than one reaches from inside it. -/
theorem leaves_half {n k : Nat} (hn : 3 ≤ n) (hk : 2 ≤ k) (hlt : k < 2 ^ n) :
    ∃ j < 2 ^ (n - 1), 2 ^ (n - 1) ≤ j * k ∧ j * k < 2 ^ n := by
  have h2 : 2 ^ n = 2 * 2 ^ (n - 1) := by rw [← pow_succ']; congr 1; omega
  have h4 : 2 ^ 2 ≤ 2 ^ (n - 1) := Nat.pow_le_pow_right (by norm_num) (by omega)
  set J := 2 ^ (n - 1) with hJ
  by_cases hkJ : J ≤ k
  · exact ⟨1, by omega, by omega, by omega⟩
  · refine ⟨(J + k - 1) / k, ?_, ?_, ?_⟩
    · rw [Nat.div_lt_iff_lt_mul (by omega)]
      have := Nat.mul_le_mul_left J hk
      omega
    · have := Nat.lt_div_mul_add (a := J + k - 1) (b := k) (by omega)
      omega
    · have := Nat.div_mul_le_self (J + k - 1) k
      omega

/-- C153 (refuted for mcl-kzg): where its root of unity is another one, there are samples, half of them missing, that blst-from-scratch
completes to the values of a power of `X`, and mcl-kzg to other values. -/
theorem C153_mcl_differs [Mcl.Lib Fr] (hb : FFTSettings.new scale = .ok fb) (hm : MadeSettings fm scale) {n : Nat} (hn : n ≤ scale)
    (h16 : n ≤ 16) (hne : domainRoot fm scale n ≠ domainRoot fb scale n) :
    ∃ (samples : List (Option Fr)) (data data' : List Fr) (j : Nat), samples.length = 2 ^ n ∧ 2 * erased samples = 2 ^ n ∧
      2 * j < 2 ^ n ∧ data = codeword (domainRoot fb scale n) (2 ^ n) (X ^ j) ∧ fb.recoverOption samples = .ok data ∧
      Mcl.recover fm samples = .ok data' ∧ data ≠ data' := by
  have wb := wf_of_new hb
  have hn3 : 3 ≤ n := by
    by_contra hlt
    refine hne ?_
    rw [← omega_eq hb hn, ← omega_of_wf hm.wf hn]
    exact (mcl_omega_eq hm hb hn).2 (.inl (by omega))
  have prm : IsPrimitiveRoot (domainRoot fm scale n) (2 ^ n) := omega_of_wf hm.wf hn ▸ hm.wf.omega_prim hn
  have prb : IsPrimitiveRoot (domainRoot fb scale n) (2 ^ n) := omega_eq hb hn ▸ wb.omega_prim hn
  have : NeZero (2 ^ n) := ⟨by positivity⟩
  obtain ⟨k, hk, ek⟩ := prm.eq_pow_of_pow_eq_one prb.pow_eq_one
  have hk1 : k ≠ 1 := by rintro rfl; exact hne (by rw [← ek, pow_one])
  have h8 : 2 ^ 3 ≤ 2 ^ n := Nat.pow_le_pow_right (by norm_num) hn3
  have hk0 : k ≠ 0 := by
    rintro rfl
    rw [pow_zero] at ek
    have := Nat.le_of_dvd one_pos (prb.dvd_of_pow_eq_one 1 (by rw [pow_one, ← ek]))
    omega
  obtain ⟨j, hj, hj1, hj2⟩ := leaves_half hn3 (by omega : 2 ≤ k) hk
  have h2 : 2 ^ n = 2 * 2 ^ (n - 1) := by rw [← pow_succ']; congr 1; omega
  set J := 2 ^ (n - 1) with hJ
  set cw := codeword (domainRoot fb scale n) (2 ^ n) (X ^ j) with hcw
  have hcl : cw.length = 2 ^ n := by simp [hcw, codeword]
  set samples : List (Option Fr) := (cw.take J).map some ++ List.replicate J none with hsam
  have hsl : samples.length = 2 ^ n := by
    rw [hsam, List.length_append, List.length_map, List.length_take, List.length_replicate, hcl]; omega
  have her : erased samples = J := by
    rw [erased, hsam, List.countP_append, List.countP_map, List.countP_replicate]
    simp [Function.comp_def]
  have hE : Erasure cw samples := by
    refine ⟨by rw [hsl, hcl], fun i v hv => ?_⟩
    by_cases hi : i < J
    · rw [hsam, List.getElem?_append_left (by rw [List.length_map, List.length_take, hcl]; omega), List.getElem?_map,
        List.getElem?_take_of_lt hi, Option.map_eq_some_iff] at hv
      obtain ⟨a, ha, e⟩ := hv
      cases e
      exact ha
    · rw [hsam, List.getElem?_append_right (by rw [List.length_map, List.length_take, hcl]; omega)] at hv
      have := List.eq_of_mem_replicate (List.mem_of_getElem? hv)
      cases this
  have hok := C21_recovery_general_partial hb hn h16 (X ^ j) samples hE (by omega) (by omega) (.inr (by rw [natDegree_X_pow]; omega)) (by omega)
  obtain ⟨q, hq, hr, -, -⟩ := C105_agrees_partial hm hn samples hsl (by omega) (by omega) (by omega)
  refine ⟨samples, cw, _, j, hsl, by omega, by omega, rfl, hok, hr, fun e => ?_⟩
  have hqd : q.degree < ((2 ^ n : Nat) : WithBot Nat) := by
    rcases ne_or_of_degree hq with h | h
    · rw [h, degree_zero]; exact WithBot.bot_lt_coe _
    · exact lt_of_le_of_lt degree_le_natDegree (by exact_mod_cast (by omega : q.natDegree < 2 ^ n))
  have hqe : q = X ^ (j * k) := by
    refine eq_of_degrees_lt_of_eval_index_eq (Finset.range (2 ^ n)) (v := fun i => domainRoot fm scale n ^ i) ?_ (by simpa using hqd) ?_ ?_
    · intro a ha b hb' e
      exact prm.pow_inj (by simpa using ha) (by simpa using hb') e
    · rw [degree_X_pow, Finset.card_range]; exact_mod_cast hj2
    · intro i hi
      have hi' : i < 2 ^ n := by simpa using hi
      have := congrArg (fun l => l[i]?) e
      simp only [hcw, codeword, List.getElem?_map, List.getElem?_range hi', Option.map_some, Option.some.injEq, eval_pow, eval_X] at this
      rw [← this, eval_pow, eval_X, ← ek]
      simp only [← pow_mul]
      congr 1
      ring
  rcases ne_or_of_degree hq with h | h
  · rw [h] at hqe
    exact (pow_ne_zero _ X_ne_zero) hqe.symm
  · rw [hqe, natDegree_X_pow] at h
    omega

/-- Two of four samples of `7 + 5x` written by one backend are completed by the others. -/
example [Mcl.Lib Fr] : ∃ (fb fm : FFTSettings Fr) (fz : FFTSettings ScW) (samples : List (Option ScW)) (data : List Fr),
    FFTSettings.new 2 = .ok fb ∧ FFTSettings.new 2 = .ok fz ∧ MadeSettings fm 2 ∧ samples.length = 4 ∧ erased samples = 2 ∧
    fb.recoverOption (samples.map (Option.map el)) = .ok data ∧ Mcl.recover fm (samples.map (Option.map el)) = .ok data ∧
    Ark.recover fb (samples.map (Option.map el)) = .ok data ∧ (∃ d, ZkP.recover fz samples = .ok d ∧ d.map el = data) := by
  obtain ⟨fb, hb, -⟩ := new_spec (F := Fr) (k := 2) (by norm_num)
  obtain ⟨fz, hz, -⟩ := new_spec (F := ScW) (k := 2) (by norm_num)
  obtain ⟨fm, hm⟩ : ∃ fm : FFTSettings Fr, MadeSettings fm 2 := by
    obtain ⟨fs, h, -⟩ := Mcl.newPR5_spec (F := Fr) (k := 2) Mcl.start_inv (by norm_num)
    exact ⟨fs, by norm_num, .inl h⟩
  let samples : List (Option ScW) := [some 12, none, some 2, none]
  have hs : erased samples = 2 := rfl
  obtain ⟨d, hd⟩ := (C67_recovery_outcome hz samples).1.2 ⟨2, le_rfl, rfl, by rw [hs]; norm_num, by rw [hs]; norm_num, by rw [hs]; norm_num⟩
  obtain ⟨ha, hbl, -, hmc⟩ := C153_recover_partial hb hz hm samples d hd
  refine ⟨fb, fm, fz, samples, d.map el, hb, hz, hm, rfl, hs, hbl (by simp [samples]), hmc ?_, ha, d, hd, rfl⟩
  intro n hn
  have : n = 2 := Nat.pow_right_injective le_rfl (hn.symm.trans rfl)
  subst this
  rw [← omega_eq hb le_rfl, ← omega_of_wf hm.wf le_rfl]
  exact (mcl_omega_eq hm hb le_rfl).2 (.inl (by norm_num))

end Kzg.Props
