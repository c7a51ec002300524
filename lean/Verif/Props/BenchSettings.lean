import Verif.Model.BenchSettings
import Verif.Props.BenchKnown
import Verif.Props.Bench
/-!
# Property C187: the shared tests of commitments and settings
-/

set_option linter.unusedSectionVars false

namespace Kzg.Props
open Kzg Kzg.Res Kzg.Bench Kzg.Zk Kzg.Iface Polynomial

/-! ### Commitments -/

section
variable {F P : Type} [Field F]

theorem polyOf_replicate_zero {F : Type} [Field F] (n : Nat) : polyOf (List.replicate n (0 : F)) = 0 := by
  ext i
  rw [coeff_polyOf, List.getD_eq_getElem?_getD, List.getElem?_replicate, coeff_zero]
  split <;> rfl

/-- What the three tests do if zero polynomials of up to `N` coefficients have a commitment equal to the default and longer ones an error. -/
theorem commit_tests_err {A : CommitApi F P} {N : Nat} (hnew : ∀ n, A.new n = .ok (List.replicate n 0))
    (hok : ∀ n ≤ N, ∃ c d, A.commit (List.replicate n 0) = .ok c ∧ A.default = .ok d ∧ A.equals c d = .ok true)
    (herr : ∀ n, N < n → ∃ msg, A.commit (List.replicate n 0) = .err msg) (len : Nat) :
    commitNilT A len = passIf (len ≤ N) ∧ commitLongT A len = .ok () ∧ commitLongErrT A len = passIf (N < len) := by
  unfold commitNilT commitLongT commitLongErrT
  rw [hnew, unwrap_ok, bind_ok, bind_ok, bind_ok]
  rcases Nat.lt_or_ge N len with h | h
  · obtain ⟨msg, e⟩ := herr len h
    rw [e, passIf_false (by omega), passIf_true h]
    exact ⟨rfl, rfl, rfl⟩
  · obtain ⟨c, d, e, e1, e2⟩ := hok len h
    rw [e, passIf_true h, passIf_false (by omega), unwrap_ok, bind_ok, e1, bind_ok, e2]
    exact ⟨rfl, rfl, rfl⟩

/-- The same for a backend that panics on longer polynomials. -/
theorem commit_tests_panic {A : CommitApi F P} {N : Nat} (hnew : ∀ n, A.new n = .ok (List.replicate n 0))
    (hok : ∀ n ≤ N, ∃ c d, A.commit (List.replicate n 0) = .ok c ∧ A.default = .ok d ∧ A.equals c d = .ok true)
    (hpanic : ∀ n, N < n → A.commit (List.replicate n 0) = .panic) (len : Nat) :
    commitNilT A len = passIf (len ≤ N) ∧ commitLongT A len = passIf (len ≤ N) ∧ commitLongErrT A len = .panic := by
  unfold commitNilT commitLongT commitLongErrT
  rw [hnew, unwrap_ok, bind_ok, bind_ok, bind_ok]
  rcases Nat.lt_or_ge N len with h | h
  · rw [hpanic len h, passIf_false (by omega)]
    exact ⟨rfl, rfl, rfl⟩
  · obtain ⟨c, d, e, e1, e2⟩ := hok len h
    rw [e, passIf_true h, unwrap_ok, bind_ok, e1, bind_ok, e2]
    exact ⟨rfl, rfl, rfl⟩

end

section
variable {G1 G2 GT : Type} [AddCommGroup G1] [Module Fr G1] [AddCommGroup G2] [Module Fr G2] [CommGroup GT] [DecidableEq GT] [DecidableEq G1]

/-- C187 (blst-from-scratch): `commit_to_nil_poly` with a polynomial of any length passes exactly if it is no longer than the setup;
`commit_to_too_long_poly` passes with every length; `commit_to_too_long_poly_returns_err` passes exactly with longer ones. -/
theorem C187_commit_blst {B : Backend G1 G2 GT} {g1 : G1} {g2 : G2} (hB : B.Lawful g1 g2) {ks : KZGSettings Fr G1 G2}
    {N scale : Nat} {s : Fr} (h : MadeFrom ks g1 g2 N scale s) (hinf : s ≠ 0 ∨ N < 8 ∨ B.MsmTotal) (len : Nat) :
    commitNilT (blstCommit B g1 ks) len = passIf (len ≤ N) ∧ commitLongT (blstCommit B g1 ks) len = .ok () ∧
    commitLongErrT (blstCommit B g1 ks) len = passIf (N < len) := by
  refine commit_tests_err (fun _ => rfl) (fun n hn => ⟨0, 0, ?_, rfl, congrArg Res.ok (decide_eq_true rfl)⟩) (fun n hn => ?_) len
  · refine (C25_commit hB h (List.replicate n 0) (by rw [List.length_replicate]; exact hn) ?_).trans ?_
    · rw [List.length_replicate]
      exact hinf.imp_right (Or.imp_left fun h => by omega)
    · rw [polyOf_replicate_zero, eval_zero, zero_smul]
  · exact C25_commit_rejects h _ (by rw [List.length_replicate]; exact hn)

/-- C187 (mcl-kzg): as in blst-from-scratch, for every secret. -/
theorem C187_commit_mcl [Mcl.Lib Fr] {B : Mcl.Backend G1 G2 GT} {g1 : G1} {g2 : G2} (hB : B.Lawful g1 g2) {ks : KZGSettings Fr G1 G2}
    {N scale : Nat} {s : Fr} (h : MclMade ks g1 g2 N scale s) (len : Nat) :
    commitNilT (mclCommit B g1 ks) len = passIf (len ≤ N) ∧ commitLongT (mclCommit B g1 ks) len = .ok () ∧
    commitLongErrT (mclCommit B g1 ks) len = passIf (N < len) := by
  refine commit_tests_err (fun _ => rfl) (fun n hn => ⟨0, 0, ?_, rfl, congrArg Res.ok (decide_eq_true rfl)⟩) (fun n hn => ?_) len
  · refine ((C108_commit hB h (List.replicate n 0)).1 (by rw [List.length_replicate]; exact hn)).trans ?_
    rw [polyOf_replicate_zero, eval_zero, zero_smul]
  · exact (C108_commit hB h _).2 (by rw [List.length_replicate]; exact hn)

/-- C187 (Arkworks): `commit_to_nil_poly` and `commit_to_too_long_poly` pass exactly with polynomials of at most one coefficient more than
the length of the settings and panic with longer ones; `commit_to_too_long_poly_returns_err` never passes. -/
theorem C187_commit_ark {P : Type} {B : Ark.Backend P G1 G2 GT} {g1 : G1} {g2 : G2} (hB : B.Lawful g1 g2) {ks : Ark.Settings P G1 G2}
    {L scale : Nat} {s : Fr} (h : ArkMade B ks g1 g2 L scale s) (len : Nat) :
    commitNilT (arkCommit ks) len = passIf (len ≤ L + 1) ∧ commitLongT (arkCommit ks) len = passIf (len ≤ L + 1) ∧
    commitLongErrT (arkCommit ks) len = .panic := by
  refine commit_tests_panic (fun _ => rfl) (fun n hn => ⟨0, 0, ?_, rfl, congrArg Res.ok (decide_eq_true rfl)⟩) (fun n hn => ?_) len
  · exact (C127_commit hB h (List.replicate n 0)).2.1 (polyOf_replicate_zero n) (by rw [List.length_replicate]; exact hn)
  · exact (C127_commit hB h (List.replicate n 0)).2.2 (by rw [List.length_replicate]; exact hn)

/-- C187 (the message in Arkworks): the panic is that of unwrapping the error "Poly given is too long", which the test expects. -/
theorem C187_message_ark {P : Type} {B : Ark.Backend P G1 G2 GT} {g1 : G1} {g2 : G2} (hB : B.Lawful g1 g2) {ks : Ark.Settings P G1 G2}
    {L scale : Nat} {s : Fr} (h : ArkMade B ks g1 g2 L scale s) (p : List Fr) (hp : L + 1 < p.length) :
    Ark.commitToPoly ks p = .err "Poly given is too long" := (h.wf hB).commit_err p hp

/-! ### Settings for multi proofs -/

/-- The sizes that settings for multi proofs take at a scale. -/
def MultiSizes (scale n2 l : Nat) : Prop := ∃ m c, m + c < scale ∧ n2 = 2 ^ (m + c + 1) ∧ l = 2 ^ c

noncomputable instance (scale n2 l : Nat) : Decidable (MultiSizes scale n2 l) := Classical.dec _

/-- The same with a bound on the points needed: `n2/2 - l` of them. -/
theorem multi_points {m c N : Nat} : (2 ^ m - 1) * 2 ^ c ≤ N ↔ 2 ^ (m + c + 1) / 2 - 2 ^ c ≤ N := by
  rw [pow_succ, Nat.mul_div_cancel _ (by norm_num : 0 < 2), pow_add, Nat.sub_mul, one_mul]

/-- C187 (settings, blst-from-scratch): `fk_multi_settings` passes exactly with powers of two `2 ≤ 2·l ≤ n2` up to the width. -/
theorem C187_settings_blst {g1 : G1} {g2 : G2} {ks : KZGSettings Fr G1 G2} {N scale : Nat} {s : Fr} (h : MadeFrom ks g1 g2 N scale s)
    (n2 l : Nat) : fkMultiSettingsT (FK20Multi.new ks) n2 l = passIf (MultiSizes scale n2 l) := by
  unfold fkMultiSettingsT
  by_cases hc : MultiSizes scale n2 l
  · obtain ⟨fk, e, -⟩ := (C31_settings_new h n2 l).1 hc
    rw [passIf_true hc, e]; rfl
  · obtain ⟨msg, e⟩ := (C31_settings_new h n2 l).2 hc
    rw [passIf_false hc, e]; rfl

/-- C187 (settings, mcl-kzg): the same sizes, if the setup has the `n2/2 - l` points needed. -/
theorem C187_settings_mcl [Mcl.Lib Fr] {g1 : G1} {g2 : G2} {ks : KZGSettings Fr G1 G2} {N scale : Nat} {s : Fr} (h : MclMade ks g1 g2 N scale s)
    (n2 l : Nat) : fkMultiSettingsT (Mcl.FK20Multi.new ks) n2 l = passIf (MultiSizes scale n2 l ∧ n2 / 2 - l ≤ N) := by
  unfold fkMultiSettingsT
  obtain ⟨h1, h2, h3⟩ := C111_settings_new h n2 l
  by_cases hc : MultiSizes scale n2 l
  · obtain ⟨m, c, hm, rfl, rfl⟩ := id hc
    by_cases hN : (2 ^ m - 1) * 2 ^ c ≤ N
    · obtain ⟨fk, e, -⟩ := (h1 m c hm rfl rfl).1 hN
      rw [passIf_true ⟨hc, multi_points.1 hN⟩, e]; rfl
    · rw [passIf_false fun hh => hN (multi_points.2 hh.2), (h1 m c hm rfl rfl).2 (not_le.1 hN)]; rfl
  · rw [passIf_false fun hh => hc hh.1]
    by_cases h0 : n2 = 0 ∨ l = 0
    · rw [h2 h0]; rfl
    · obtain ⟨msg, e⟩ := h3 (fun e => h0 (Or.inl e)) (fun e => h0 (Or.inr e)) hc
      rw [e]; rfl

/-- C187 (settings, Arkworks): the same sizes, if the settings have the `n2/2 - l` points needed. -/
theorem C187_settings_ark {P : Type} {B : Ark.Backend P G1 G2 GT} {g1 : G1} {g2 : G2} (hB : B.Lawful g1 g2) {ks : Ark.Settings P G1 G2}
    {L scale : Nat} {s : Fr} (h : ArkMade B ks g1 g2 L scale s) (n2 l : Nat) :
    fkMultiSettingsT (Ark.FKMulti.new B ks) n2 l = passIf (MultiSizes scale n2 l ∧ n2 / 2 - l ≤ L + 1) := by
  unfold fkMultiSettingsT
  obtain ⟨h1, h2⟩ := C130_settings_new hB h n2 l
  by_cases hc : MultiSizes scale n2 l
  · obtain ⟨m, c, hm, rfl, rfl⟩ := id hc
    by_cases hN : (2 ^ m - 1) * 2 ^ c ≤ L + 1
    · obtain ⟨fk, e, -⟩ := (h1 m c hm rfl rfl).1 hN
      rw [passIf_true ⟨hc, multi_points.1 hN⟩, e]; rfl
    · rw [passIf_false fun hh => hN (multi_points.2 hh.2), (h1 m c hm rfl rfl).2 (not_le.1 hN)]; rfl
  · obtain ⟨msg, e⟩ := h2 hc
    rw [passIf_false fun hh => hc hh.1, e]; rfl

end

/-- C187 (zkcrypto): `commit_to_nil_poly` and `commit_to_too_long_poly` pass exactly with polynomials no longer than the setup and panic
with longer ones; `commit_to_too_long_poly_returns_err` never passes. -/
theorem C187_commit_zk {chk : Bool} {ks : Zk.Top.Settings} {N scale : Nat} {s : ScW} (h : ZkMadeFrom chk ks N scale s) (len : Nat) :
    commitNilT (zkCommit chk ks) len = passIf (len ≤ N) ∧ commitLongT (zkCommit chk ks) len = passIf (len ≤ N) ∧
    commitLongErrT (zkCommit chk ks) len = .panic := by
  refine commit_tests_panic (fun _ => rfl) (fun n hn => ?_) (fun n hn => ?_) len
  · obtain ⟨c, e, hc⟩ := C87_commit h (List.replicate n 0) (by rw [List.length_replicate]; exact hn)
    rw [polyOf_replicate_zero, eval_zero] at hc
    exact ⟨c, _, e, rfl, congrArg Res.ok ((Top.at1_ctEq hc Top.at1_zero).2 rfl)⟩
  · show (Top.polyCommit _ ks).unwrap = _
    rw [Top.polyCommit, if_pos (by rw [h.setup.1.s1.length, List.length_map, List.length_range, List.length_replicate]; exact hn)]; rfl

/-- C187 (the message in zkcrypto): the panic is that of unwrapping the error "Poly given is too long", which the test expects. -/
theorem C187_message_zk {chk : Bool} {ks : Zk.Top.Settings} {N scale : Nat} {s : ScW} (h : ZkMadeFrom chk ks N scale s) (p : List ScW)
    (hp : N < p.length) : Top.polyCommit p ks = .err "Poly given is too long" := by
  rw [Top.polyCommit, if_pos (by rw [h.setup.1.s1.length, List.length_map, List.length_range]; exact hp)]

/-- C187 (settings, zkcrypto): the sizes of blst-from-scratch, up to scale 16 and with a setup as long as the width. -/
theorem C187_settings_zk_partial {chk : Bool} {ks : Zk.Top.Settings} {N scale : Nat} {s : ScW} (h : ZkMadeFrom chk ks N scale s)
    (hN : 2 ^ scale ≤ N) (hs : scale ≤ 16) (n2 l : Nat) :
    fkMultiSettingsT (ZkP.multiNew (Top.g1Ops chk) ks) n2 l = passIf (MultiSizes scale n2 l) := by
  unfold fkMultiSettingsT
  by_cases hc : MultiSizes scale n2 l
  · obtain ⟨m, c, hm, rfl, rfl⟩ := id hc
    obtain ⟨fk, -, e, -⟩ := C92_multi_partial h hN hs hm (p := List.replicate (2 ^ (m + c)) 0) (List.length_replicate ..) (by
      intro u _ i _
      have hz : ∀ k, List.getD (List.replicate (2 ^ (m + c)) (0 : ScW)) k 0 = 0 := fun k => by
        rw [List.getD_eq_getElem?_getD, List.getElem?_replicate]; split <;> rfl
      simp only [fkFactor, hz, mul_zero, Finset.sum_const_zero, add_zero]
      exact C54_small_scalars (by rw [show ScW.el (0 : ScW) = 0 from ScW.elHom.map_zero, ZMod.val_zero]; norm_num))
    rw [passIf_true hc, e]; rfl
  · obtain ⟨msg, e⟩ := C92_new_rejects chk h.setup.2.width n2 l hc
    rw [passIf_false hc, e]; rfl

/-! ### The inputs of the tests -/

/-- With 16 secrets, scale 4 and the lengths 0 and 32, and with 33 secrets, scale 5 and the sizes 32 and 4, every test behaves as it is marked in
blst-from-scratch and zkcrypto: three pass in each, and the one for zkcrypto marked `should_panic` panics. -/
example :
    (∃ ks : KZGSettings Fr Fr Fr, commitNilT (blstCommit toyBackend 1 ks) 0 = .ok () ∧ commitLongErrT (blstCommit toyBackend 1 ks) 32 = .ok () ∧
      commitLongErrT (blstCommit toyBackend 1 ks) 16 = .panic) ∧
    (∃ ks : KZGSettings Fr Fr Fr, fkMultiSettingsT (FK20Multi.new ks) 32 4 = .ok () ∧ fkMultiSettingsT (FK20Multi.new ks) 64 4 = .panic) ∧
    (∃ ks, commitNilT (zkCommit true ks) 0 = .ok () ∧ commitLongT (zkCommit true ks) 32 = .panic) ∧
    ∃ ks : Top.Settings, fkMultiSettingsT (ZkP.multiNew (Top.g1Ops false) ks) 32 4 = .ok () := by
  have h5 : MultiSizes 5 32 4 := ⟨2, 2, by norm_num, by norm_num, by norm_num⟩
  refine ⟨?_, ?_, ?_, ?_⟩
  · obtain ⟨ks, h⟩ := madeFrom_exists (1 : Fr) (1 : Fr) 4 16 (by norm_num) (by norm_num) [3]
    have h' := C187_commit_blst toyBackend_lawful h (Or.inr (Or.inr fun _ _ _ => rfl))
    refine ⟨ks, (h' 0).1.trans (passIf_true (by norm_num)), (h' 32).2.2.trans (passIf_true (by norm_num)),
      (h' 16).2.2.trans (passIf_false (by norm_num))⟩
  · obtain ⟨ks, h⟩ := madeFrom_exists (1 : Fr) (1 : Fr) 5 33 (by norm_num) (by norm_num) [3]
    refine ⟨ks, (C187_settings_blst h 32 4).trans (passIf_true h5), (C187_settings_blst h 64 4).trans (passIf_false ?_)⟩
    rintro ⟨m, c, hm, e, -⟩
    have := (Nat.pow_right_injective (le_refl 2)) (show 2 ^ 6 = 2 ^ (m + c + 1) from e)
    omega
  · obtain ⟨ks, s, h, -⟩ := zkMadeFrom_exists true (N := 16) (scale := 4) (by norm_num) (by norm_num)
    exact ⟨ks, (C187_commit_zk h 0).1.trans (passIf_true (by norm_num)), (C187_commit_zk h 32).2.1.trans (passIf_false (by norm_num))⟩
  · obtain ⟨ks, s, h, -⟩ := zkMadeFrom_exists false (N := 33) (scale := 5) (by norm_num) (by norm_num)
    exact ⟨ks, (C187_settings_zk_partial h (by norm_num) (by norm_num) 32 4).trans (passIf_true h5)⟩

end Kzg.Props
