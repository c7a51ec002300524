import Verif.Model.Ckzg.Utils
import Verif.Proofs.Mcl.Utils
import Verif.Proofs.Mcl.Settings
import Verif.Proofs.KZG
import Verif.Proofs.Utils
/-!
# Properties C134 and C135: the helpers of the ckzg wrapper
-/

namespace Kzg.Props
open Kzg

section C134

theorem ckzg_log2 : Ckzg.log2 = Mcl.log2 := rfl
theorem ckzg_isPow : Ckzg.isPowerOf2 = Mcl.isPowerOf2 := rfl
theorem ckzg_nextPow : Ckzg.nextPowOf2 = Mcl.nextPowOf2 := rfl

/-- C134: `log_2` is the position of the highest bit. -/
theorem C134_log2 (x : Nat) (h0 : 0 < x) (h : x < 2 ^ 64) : 2 ^ Ckzg.log2 x ≤ x ∧ x < 2 ^ (Ckzg.log2 x + 1) := by
  rw [ckzg_log2, Mcl.log2_eq h]
  exact ⟨Nat.log2_self_le (by omega), Nat.lt_log2_self⟩

/-- C134: for a nonzero word `is_power_of_2` decides whether it is a power of two; for 0 it panics. -/
theorem C134_is_power_of_2 (n : Nat) :
    (n ≠ 0 → ∃ b, Ckzg.isPowerOf2 n = .ok b ∧ (b = true ↔ ∃ k, n = 2 ^ k)) ∧ Ckzg.isPowerOf2 0 = .panic := by
  rw [ckzg_isPow]
  exact ⟨fun h => ⟨_, Mcl.isPowerOf2_eq h, isPowerOfTwo_iff⟩, Mcl.isPowerOf2_zero⟩

/-- C134: up to `2^63`, `next_pow_of_2` is the least power of two that is not smaller. -/
theorem C134_next_pow_of_2 (x : Nat) (h : x ≤ 2 ^ 63) :
    ∃ k, Ckzg.nextPowOf2 x = .ok (2 ^ k) ∧ x ≤ 2 ^ k ∧ ∀ j, x ≤ 2 ^ j → k ≤ j := by
  refine ⟨bitLen (x - 1), by rw [ckzg_nextPow]; exact Mcl.nextPowOf2_eq h, ?_, ?_⟩
  · rw [bitLen]
    split
    · rw [pow_zero]; omega
    · have := Nat.lt_log2_self (n := x - 1)
      omega
  · intro j hj
    rw [bitLen]
    split
    · omega
    · rename_i h0
      have h1 := Nat.log2_self_le h0
      by_contra hlt
      have : 2 ^ j ≤ 2 ^ (x - 1).log2 := Nat.pow_le_pow_right (by omega) (by omega)
      omega

/-- C134: beyond `2^63` it panics. -/
theorem C134_next_pow_of_2_overflow (x : Nat) (h1 : 2 ^ 63 < x) (h2 : x < 2 ^ 64) : Ckzg.nextPowOf2 x = .panic := by
  rw [ckzg_nextPow]; exact Mcl.nextPowOf2_overflow h1 h2

/-- C134: `log_2_byte` of a nonzero byte is the position of its highest bit. -/
theorem C134_log_2_byte (b : Nat) (h0 : 0 < b) (h : b < 256) :
    2 ^ Ckzg.log2Byte b ≤ b ∧ b < 2 ^ (Ckzg.log2Byte b + 1) := by
  have : ∀ b : Fin 256, 0 < b.val → 2 ^ Ckzg.log2Byte b ≤ b.val ∧ b.val < 2 ^ (Ckzg.log2Byte b + 1) := by
    decide +kernel
  exact this ⟨b, h⟩ h0

/-- Not trivial: 3000 is between `2^11` and `2^12`. -/
example : Ckzg.log2 3000 = 11 ∧ Ckzg.nextPowOf2 3000 = .ok 4096 ∧ Ckzg.log2Byte 200 = 7 := by decide

variable {F : Type} [Field F] [DecidableEq F]

theorem ckzg_expandLoop (w : F) (n fuel : Nat) (l : List F) : Ckzg.expandLoop w n fuel l = Kzg.expandLoop w n fuel l := by
  induction fuel generalizing l with
  | zero => rfl
  | succ f ih =>
    cases l with
    | nil => rfl
    | cons x l => simp only [Ckzg.expandLoop, Kzg.expandLoop, ih]

theorem ckzg_expandMcl (w : F) (fuel : Nat) (l : List F) (hl : l ≠ []) :
    Mcl.expandLoop w fuel l = match Ckzg.expandMclLoop w fuel l with | some r => .ok r | none => .panic := by
  induction fuel generalizing l with
  | zero => rfl
  | succ f ih =>
    cases l with
    | nil => exact absurd rfl hl
    | cons x l =>
      simp only [Ckzg.expandMclLoop, Mcl.expandLoop]
      split
      · rfl
      · exact ih _ (by simp)

/-- C134: both expansions of a primitive root of unity of order `N` are the `N + 1` powers from the 0th to the last,
which is one. -/
theorem C134_expand (w : F) (N : Nat) (hN : 0 < N) (hw : IsPrimitiveRoot w N) :
    Ckzg.expandRoot w N = .ok ((List.range (N + 1)).map (w ^ ·)) ∧
    ∀ fuel, N ≤ fuel → Ckzg.expandRootMcl w fuel = some ((List.range (N + 1)).map (w ^ ·)) := by
  constructor
  · rw [Ckzg.expandRoot, ckzg_expandLoop]
    exact Kzg.expandRoot_spec w N hN hw
  · intro fuel hf
    have h := Mcl.expandLoop_spec w N hN hw fuel 2 [w, 1] (by omega) (by omega) (by omega) (by simp [List.range_succ])
    rw [ckzg_expandMcl _ _ _ (by simp)] at h
    rw [Ckzg.expandRootMcl]
    revert h
    cases Ckzg.expandMclLoop w fuel [w, 1] with
    | none => intro h; cases h
    | some r => intro h; exact congrArg some (Res.ok.inj h)

theorem ckzg_expand_width (w : F) (width : Nat) (fuel n : Nat) (l : List F) (hl : l.reverse = (List.range (n + 1)).map (w ^ ·))
    (hw : ∀ i, n ≤ i → i ≤ width → w ^ i ≠ 1) (hn : n ≤ width) (hf : width + 1 ≤ fuel + n) :
    Ckzg.expandLoop w width fuel l = .err "Root of unity multiplied for too long" := by
  induction fuel generalizing n l with
  | zero => omega
  | succ f ih =>
    have hl' : l = ((List.range (n + 1)).map (w ^ ·)).reverse := by rw [← hl, List.reverse_reverse]
    have hc : l = w ^ n :: ((List.range n).map (w ^ ·)).reverse := by rw [hl', List.range_succ]; simp
    rw [hc]
    simp only [Ckzg.expandLoop]
    rw [if_neg (hw n le_rfl hn)]
    split
    · rfl
    · rename_i hlen
      simp only [List.length_cons, List.length_reverse, List.length_map, List.length_range] at hlen
      refine ih (n + 1) _ ?_ (fun i h1 h2 => hw i (by omega) h2) (by omega) (by omega)
      rw [List.reverse_cons, ← hc, hl, ← pow_succ, List.range_succ (n := n + 1), List.map_append]
      rfl

/-- C134: the first expansion reports an error when no power up to `width` is one. -/
theorem C134_expand_rejects (w : F) (width : Nat) (h0 : 1 ≤ width) (h : ∀ i, 1 ≤ i → i ≤ width → w ^ i ≠ 1) :
    Ckzg.expandRoot w width = .err "Root of unity multiplied for too long" :=
  ckzg_expand_width w width (width + 2) 1 _ (by simp [List.range_succ]) h h0 (by omega)

/-- C134: the second expansion never stops on an element none of whose positive powers is one (0 is such an
element). -/
theorem C134_expand_mcl_diverges (w : F) (h : ∀ i, 0 < i → w ^ i ≠ 1) (fuel : Nat) :
    Ckzg.expandRootMcl w fuel = none := by
  have key : ∀ fuel n (l : List F), 0 < n → Ckzg.expandMclLoop w fuel (w ^ n :: l) = none := by
    intro fuel
    induction fuel with
    | zero => intro n l _; rfl
    | succ f ih =>
      intro n l hn
      rw [Ckzg.expandMclLoop, if_neg (h n hn), ← pow_succ]
      exact ih (n + 1) _ (by omega)
  simpa [Ckzg.expandRootMcl] using key fuel 1 [1] one_pos

/-- 0 is such an element. -/
example (fuel : Nat) : Ckzg.expandRootMcl (0 : Fr) fuel = none :=
  C134_expand_mcl_diverges 0 (fun i hi => by rw [zero_pow (by omega)]; exact zero_ne_one) fuel

end C134

section C135
variable {G1 G2 : Type} [AddCommGroup G1] [Module Fr G1] [AddCommGroup G2] [Module Fr G2]

theorem ckzg_setupLoop (g1 : G1) (g2 : G2) (s : Fr) (n : Nat) (x : Fr) (acc : List G1 × List G2) :
    Ckzg.setupLoop g1 g2 s n x acc = Kzg.setupLoop g1 g2 s n x acc := by
  induction n generalizing x acc with
  | zero => rfl
  | succ n ih => obtain ⟨a, b⟩ := acc; simp only [Ckzg.setupLoop, Kzg.setupLoop, ih]

/-- C135: the setup of a secret is the list of the powers of the secret on both generators. -/
theorem C135_setup (g1 : G1) (g2 : G2) (n : Nat) (secret : List Nat) :
    Ckzg.generateTrustedSetup g1 g2 n secret =
      ((List.range n).map fun i => ((bytesVal secret : Nat) : Fr) ^ i • g1,
       (List.range n).map fun i => ((bytesVal secret : Nat) : Fr) ^ i • g2) := by
  rw [Ckzg.generateTrustedSetup, ckzg_setupLoop]
  exact generateTrustedSetup_spec g1 g2 n secret

/-- C135: the setup is the one of blst-from-scratch. -/
theorem C135_setup_agrees (g1 : G1) (g2 : G2) (n : Nat) (secret : List Nat) :
    Ckzg.generateTrustedSetup g1 g2 n secret = Kzg.generateTrustedSetup g1 g2 n secret := by
  rw [Ckzg.generateTrustedSetup, ckzg_setupLoop]; rfl

omit [Module Fr G1] in
/-- C135: `add_or_dbl` returns the sum. -/
theorem C135_add_or_dbl (a b : G1) : Ckzg.addOrDbl a b = a + b := add_comm b a

omit [Module Fr G1] in
/-- C135 (refuted part): `make_data` returns copies of the generator. -/
theorem C135_make_data (g : G1) (n : Nat) : Ckzg.makeData g n = .ok (List.replicate n g) := by
  rw [Ckzg.makeData]
  split
  · rename_i h; rw [h]; rfl
  · rename_i h
    have := forRange_inv (body := fun i (out : List G1) => do
        let a ← rd out i
        let k ← subU i 1
        let b ← rd out k
        let _ := Ckzg.addOrDbl a b
        .ok out) (lo := 1) (hi := n) (fun _ s => s = List.replicate n g) (by omega) rfl (by
      rintro i s h1 h2 rfl
      have hl : (List.replicate n g).length = n := List.length_replicate
      rw [rd_of_lt (by omega), Res.bind_ok, subU_of_le h1, Res.bind_ok, rd_of_lt (by omega), Res.bind_ok]
      exact ⟨_, rfl, rfl⟩)
    obtain ⟨s, hs, rfl⟩ := this
    exact hs

omit [Module Fr G1] in
/-- C135 (refuted part): so the entries are not the multiples 1, 2, 3, … of the generator, as in the other backends,
once there are two and the generator is not 0. -/
theorem C135_make_data_wrong (g : G1) (hg : g ≠ 0) (n : Nat) (hn : 2 ≤ n) :
    Ckzg.makeData g n ≠ .ok ((List.range n).map fun i => (i + 1) • g) := by
  rw [C135_make_data]
  intro h
  have h := congrArg (fun l => l[1]?) (Res.ok.inj h)
  simp only [List.getElem?_map, List.getElem?_range (show 1 < n by omega), Option.map_some,
    List.getElem?_replicate, if_pos (show 1 < n by omega), Option.some.injEq] at h
  rw [show (1 + 1) = 2 from rfl, two_nsmul] at h
  exact hg (by simpa using h)

omit [Module Fr G1] in
/-- C135: at most one entry is right. -/
theorem C135_make_data_partial (g : G1) (n : Nat) (hn : n ≤ 1) :
    Ckzg.makeData g n = .ok ((List.range n).map fun i => (i + 1) • g) := by
  rw [C135_make_data]
  obtain rfl | rfl : n = 0 ∨ n = 1 := by omega
  · rfl
  · simp

/-- C135 (refuted part): different scales reach the library as the same one, so `FFTSettings::new` cannot refuse every
scale beyond the table: `2^32 + k` is taken for `k`. -/
theorem C135_scale_truncated (k : Nat) : Ckzg.scaleArg (2 ^ 32 + k) = Ckzg.scaleArg k := by
  rw [Ckzg.scaleArg, Ckzg.scaleArg, Nat.add_mod_left]

/-- C135: below `2^32` the scale is passed on unchanged. -/
theorem C135_scale_partial (k : Nat) (hk : k < 2 ^ 32) : Ckzg.scaleArg k = k := Nat.mod_eq_of_lt hk

/-- Not trivial: over the scalars themselves, three entries with generator 1. -/
example : Ckzg.makeData (1 : Fr) 3 = .ok [1, 1, 1] := C135_make_data 1 3

end C135

end Kzg.Props
