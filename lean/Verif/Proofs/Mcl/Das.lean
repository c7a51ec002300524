import Verif.Model.Mcl.Das
import Verif.Proofs.Mcl.FFT
import Verif.Proofs.DAS
/-!
# Data availability extension of mcl-kzg: proofs
-/

namespace Kzg.Mcl
open Kzg Kzg.Res Polynomial Finset

set_option linter.unusedSectionVars false

variable {F : Type} [Field F]

theorem rd_cases {α : Type} (l : List α) (i : Nat) : (∃ x, rd l i = .ok x) ∨ rd l i = .panic := by
  by_cases h : i < l.length
  · exact Or.inl ⟨_, rd_of_lt h⟩
  · exact Or.inr (rd_of_ge (by omega))

theorem dasFirst_eq (rev : List F) (half stride : Nat) (v : List F) :
    dasFirst rev half stride v = Kzg.dasFirst rev half stride v := by
  simp only [dasFirst, Kzg.dasFirst, Nat.shiftLeft_eq, pow_one]

theorem dasLast_eq (exp : List F) (half stride : Nat) (v : List F) :
    dasLast exp half stride v = Kzg.dasLast exp half stride v := by
  unfold dasLast Kzg.dasLast
  congr 1
  funext i v
  rw [show (i <<< 1 + 1) * stride = (1 + 2 * i) * stride by rw [Nat.shiftLeft_eq]; ring, Nat.add_comm i half]
  rcases rd_cases exp ((1 + 2 * i) * stride) with ⟨x, hx⟩ | hx <;>
    rcases rd_cases v (half + i) with ⟨y, hy⟩ | hy <;> rcases rd_cases v i with ⟨z, hz⟩ | hz <;>
    rw [hx, hy, hz] <;> rfl

theorem dasStride_eq (exp rev : List F) (fuel : Nat) : ∀ (v : List F) (stride : Nat),
    dasStride exp rev fuel v stride = Kzg.dasStride exp rev fuel v stride := by
  induction fuel with
  | zero => intro v s; rfl
  | succ fuel ih =>
    intro v s
    simp only [dasStride, Kzg.dasStride, dasFirst_eq, dasLast_eq, ih, Nat.shiftLeft_eq, Nat.shiftRight_eq_div_pow,
      pow_one]

variable [DecidableEq F] [Lib F]

theorem das_eq {fs : FFTSettings F} {k m : Nat} (h : fs.WF k) (hm : m + 1 ≤ k) {v : List F}
    (hv : v.length = 2 ^ m) : das fs v = fs.dasFftExtension v := by
  have hlt := h.lt
  have hpos : 0 < 2 ^ m := by positivity
  have hle : 2 ^ m * 2 ≤ 2 ^ k := by rw [← pow_succ]; exact Nat.pow_le_pow_right (by omega) hm
  have hne : v ≠ [] := by rintro rfl; simp at hv; omega
  have h31 : 2 ^ m < 2 ^ 31 := Nat.pow_lt_pow_right (by omega) (by omega)
  unfold das FFTSettings.dasFftExtension
  have hemp : ¬ v.isEmpty = true := by simpa using hne
  rw [if_neg hemp, if_neg hemp, hv, isPowerOf2_eq (by omega), bind_ok,
    isPowerOfTwo_two_pow]
  simp only [Bool.not_true, Bool.false_eq_true, if_false]
  rw [Nat.shiftLeft_eq, pow_one, h.width, if_neg (show ¬ 2 ^ m * 2 > 2 ^ k by omega), if_neg (show ¬ 2 ^ m * 2 > 2 ^ k by omega), divU,
    if_neg (by omega), bind_ok, dasStride_eq]
  obtain ⟨p, hp, hpv⟩ : ∃ p : F[X], p.degree < (2 ^ m : Nat) ∧
      ∀ i < 2 ^ m, v.getD i 0 = p.eval (fs.omega (2 ^ (m + 1)) ^ (2 * i)) := by
    obtain ⟨e, he, hel, hev⟩ := h.fft_backward (show m ≤ k by omega) v hv
    have hrt := h.fft_roundtrip' (show m ≤ k by omega) v hv
    rw [he, Res.bind_ok, h.fft_eval (by omega) e hel] at hrt
    have hω : fs.omega (2 ^ m) = fs.omega (2 ^ (m + 1)) ^ 2 := by
      rw [FFTSettings.omega, FFTSettings.omega, h.width, Nat.pow_div (by omega) (by omega),
        Nat.pow_div (by omega) (by omega), ← pow_mul, ← pow_succ]
      congr 2; omega
    refine ⟨polyOf e, by rw [← hel]; exact degree_polyOf_lt e, ?_⟩
    intro i hi
    rw [← Res.ok.inj hrt, getD_range_map, if_pos hi, hω, ← pow_mul]
  have hd := h.das_spec hm v hv p hp hpv
  unfold FFTSettings.dasFftExtension at hd
  rw [if_neg (by simpa using hne), hv, isPowerOfTwo_two_pow] at hd
  simp only [Bool.not_true, Bool.false_eq_true, if_false] at hd
  rw [h.width, if_neg (by omega)] at hd
  cases ho : Kzg.dasStride fs.expandedRoots fs.reverseRoots (2 ^ m + 1) v (2 ^ k / (2 ^ m * 2)) with
  | panic => rw [ho] at hd; simp at hd
  | err e => rw [ho] at hd; simp at hd
  | ok o =>
    rw [ho, bind_ok] at hd
    have hol : o.length = 2 ^ m := by
      have := congrArg List.length (Res.ok.inj hd)
      simpa using this
    rw [bind_ok, bind_ok, hol, invLen_eq h31 (h.cast_ne (by omega)), bind_ok]

theorem das_rejects {fs : FFTSettings F} {k : Nat} (h : fs.WF k) (v : List F) :
    (∃ msg, das fs v = .err msg) ↔ v = [] ∨ (∀ m, v.length ≠ 2 ^ m) ∨ 2 ^ k < 2 * v.length := by
  by_cases h1 : v = []
  · subst h1
    exact ⟨fun _ => Or.inl rfl, fun _ => ⟨_, rfl⟩⟩
  have hne : v.length ≠ 0 := by simpa using h1
  by_cases h2 : ∃ m, v.length = 2 ^ m
  · obtain ⟨m, hm⟩ := h2
    by_cases h3 : 2 ^ k < 2 * v.length
    · refine ⟨fun _ => Or.inr (Or.inr h3), fun _ => ⟨"ftt settings max width too small!", ?_⟩⟩
      rw [das, if_neg (by simpa using h1), isPowerOf2_eq hne, bind_ok, hm, isPowerOfTwo_two_pow]
      simp only [Bool.not_true, Bool.false_eq_true, if_false]
      rw [if_pos (by rw [h.width, Nat.shiftLeft_eq, pow_one]; omega)]
    · have hms : m + 1 ≤ k := by
        have : 2 ^ (m + 1) ≤ 2 ^ k := by rw [pow_succ]; omega
        exact (Nat.pow_le_pow_iff_right (by omega)).mp this
      constructor
      · rintro ⟨msg, e⟩
        obtain ⟨e', he, hel, hev⟩ := h.fft_backward (show m ≤ k by omega) v hm
        exfalso
        rw [das_eq h hms hm] at e
        have hrt := h.fft_roundtrip' (show m ≤ k by omega) v hm
        rw [he, Res.bind_ok, h.fft_eval (by omega) e' hel] at hrt
        have hω : fs.omega (2 ^ m) = fs.omega (2 ^ (m + 1)) ^ 2 := by
          rw [FFTSettings.omega, FFTSettings.omega, h.width, Nat.pow_div (by omega) (by omega),
            Nat.pow_div (by omega) (by omega), ← pow_mul, ← pow_succ]
          congr 2; omega
        rw [h.das_spec hms v hm (polyOf e') (by rw [← hel]; exact degree_polyOf_lt e') (fun i hi => by
          rw [← Res.ok.inj hrt, getD_range_map, if_pos hi, hω, ← pow_mul])] at e
        cases e
      · rintro (h' | h' | h')
        · exact absurd h' h1
        · exact absurd hm (h' m)
        · exact absurd h' h3
  · have h2' : ∀ m, v.length ≠ 2 ^ m := fun m e => h2 ⟨m, e⟩
    have hp' : isPowerOfTwo v.length = false := by
      by_contra hc
      obtain ⟨m, hm⟩ := exists_of_isPowerOfTwo (n := v.length) (by simpa using hc)
      exact h2' m hm
    refine ⟨fun _ => Or.inr (Or.inl h2'), fun _ => ⟨"Value count must be a number of two", ?_⟩⟩
    rw [das, if_neg (by simpa using h1), isPowerOf2_eq hne, bind_ok, hp']
    rfl

end Kzg.Mcl
