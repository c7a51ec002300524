import Verif.Proofs.DAS
import Verif.Proofs.FrLawful
/-!
# Properties C16–C17: data availability extension
-/

namespace Kzg.Props
open Kzg Polynomial

/-- Puts `evens` at the even and `odds` at the odd positions. -/
def interleave {α : Type} : List α → List α → List α
  | e :: es, o :: os => e :: o :: interleave es os
  | _, _ => []

theorem interleave_length {α : Type} : ∀ (a b : List α), a.length = b.length →
    (interleave a b).length = 2 * a.length := by
  intro a
  induction a with
  | nil => intro b h; cases b with
    | nil => rfl
    | cons => simp at h
  | cons x a ih => intro b h; cases b with
    | nil => simp at h
    | cons y b => simp only [interleave, List.length_cons]; rw [ih b (by simpa using h)]; ring

theorem interleave_getElem? {α : Type} : ∀ (a b : List α), a.length = b.length → ∀ i,
    (interleave a b)[2 * i]? = a[i]? ∧ (interleave a b)[2 * i + 1]? = b[i]? := by
  intro a
  induction a with
  | nil => intro b h i; cases b with
    | nil => simp [interleave]
    | cons => simp at h
  | cons x a ih => intro b h i; cases b with
    | nil => simp at h
    | cons y b =>
      cases i with
      | zero => simp [interleave]
      | succ i =>
        have := ih b (by simpa using h) i
        simpa [interleave, mul_add] using this

theorem das_extension_of {F : Type} [Field F] [DecidableEq F] {scale : Nat} {fs : FFTSettings F} (hwf : fs.WF scale)
    {m : Nat} (hm : m + 1 ≤ scale) (evens : List F) (hl : evens.length = 2 ^ m) :
    ∃ (odds : List F) (p : F[X]) (ω : F), fs.dasFftExtension evens = .ok odds ∧
      odds.length = 2 ^ m ∧ p.degree < (2 ^ m : Nat) ∧ IsPrimitiveRoot ω (2 ^ (m + 1)) ∧
      (∀ i < 2 ^ (m + 1), (interleave evens odds)[i]? = some (p.eval (ω ^ i))) ∧
      ∃ coeffs, fs.fftFr (interleave evens odds) true = .ok coeffs ∧ coeffs.length = 2 ^ (m + 1) ∧
        ∀ i, 2 ^ m ≤ i → i < 2 ^ (m + 1) → coeffs[i]? = some 0 := by
  have hpow : 2 ^ (m + 1) = 2 * 2 ^ m := by rw [pow_succ]; ring
  obtain ⟨e, he, hel, hev⟩ := hwf.fft_backward (show m ≤ scale by omega) evens hl
  have hrt := hwf.fft_roundtrip' (show m ≤ scale by omega) evens hl
  rw [he, Res.bind_ok, hwf.fft_eval (by omega) e hel] at hrt
  have hω : fs.omega (2 ^ m) = fs.omega (2 ^ (m + 1)) ^ 2 := by
    rw [FFTSettings.omega, FFTSettings.omega, hwf.width, Nat.pow_div (by omega) (by omega),
      Nat.pow_div (by omega) (by omega), ← pow_mul, ← pow_succ]
    congr 2; omega
  have hp : (polyOf e).degree < (2 ^ m : Nat) := by rw [← hel]; exact degree_polyOf_lt e
  have hv : ∀ i < 2 ^ m, evens.getD i 0 = (polyOf e).eval (fs.omega (2 ^ (m + 1)) ^ (2 * i)) := by
    intro i hi
    have := (Res.ok.inj hrt)
    rw [← this, getD_range_map, if_pos hi, hω, ← pow_mul]
  have hd := hwf.das_spec hm evens hl (polyOf e) hp hv
  refine ⟨_, polyOf e, fs.omega (2 ^ (m + 1)), hd, by simp, hp, hwf.omega_prim hm, ?_⟩
  set odds := (List.range (2 ^ m)).map fun i =>
    (polyOf e).eval (fs.omega (2 ^ (m + 1)) ^ (2 * i + 1)) with hodds
  have hlen : evens.length = odds.length := by rw [hl, hodds]; simp
  have hil : (interleave evens odds).length = 2 ^ (m + 1) := by
    rw [interleave_length _ _ hlen, hl, hpow]
  have hval : ∀ i < 2 ^ (m + 1), (interleave evens odds)[i]? =
      some ((polyOf e).eval (fs.omega (2 ^ (m + 1)) ^ i)) := by
    intro i hi
    rcases Nat.even_or_odd' i with ⟨j, rfl | rfl⟩
    · rw [(interleave_getElem? _ _ hlen j).1, getElem?_eq_some_getD 0 (by omega), hv j (by omega)]
    · rw [(interleave_getElem? _ _ hlen j).2, hodds, List.getElem?_map,
        List.getElem?_range (by omega)]; rfl
  refine ⟨hval, (List.range (2 ^ (m + 1))).map (polyOf e).coeff, ?_, by simp, ?_⟩
  · refine hwf.fft_interp hm _ hil (polyOf e) (lt_trans hp (by
      exact_mod_cast Nat.pow_lt_pow_right (by omega) (by omega))) ?_
    intro i hi
    rw [List.getD_eq_getElem?_getD, hval i hi]; rfl
  · intro i h1 h2
    rw [List.getElem?_map, List.getElem?_range h2, Option.map_some,
      (degree_lt_iff_coeff_zero _ _).mp hp i h1]

/-- C16: the extension of `n` values has length `n`, and interleaving input and output gives the
values of one polynomial of degree below `n` at the powers of a primitive `2n`-th root of unity.
Hence the inverse FFT of the interleaving has a zero upper half. -/
theorem C16_das_extension {scale : Nat} {fs : FFTSettings Fr} (hfs : FFTSettings.new scale = .ok fs)
    {m : Nat} (hm : m + 1 ≤ scale) (evens : List Fr) (hl : evens.length = 2 ^ m) :
    ∃ (odds : List Fr) (p : Fr[X]) (ω : Fr), fs.dasFftExtension evens = .ok odds ∧
      odds.length = 2 ^ m ∧ p.degree < (2 ^ m : Nat) ∧ IsPrimitiveRoot ω (2 ^ (m + 1)) ∧
      (∀ i < 2 ^ (m + 1), (interleave evens odds)[i]? = some (p.eval (ω ^ i))) ∧
      ∃ coeffs, fs.fftFr (interleave evens odds) true = .ok coeffs ∧ coeffs.length = 2 ^ (m + 1) ∧
        ∀ i, 2 ^ m ≤ i → i < 2 ^ (m + 1) → coeffs[i]? = some 0 :=
  das_extension_of (wf_of_new hfs) hm evens hl

/-- C17: the extension never panics, and it is an error exactly for the empty list, a length that is
no power of two, or a length above half of the width. -/
theorem C17_das_rejection {scale : Nat} {fs : FFTSettings Fr} (hfs : FFTSettings.new scale = .ok fs)
    (evens : List Fr) :
    fs.dasFftExtension evens ≠ .panic ∧
      ((∃ msg, fs.dasFftExtension evens = .err msg) ↔
        evens = [] ∨ (¬ ∃ m, evens.length = 2 ^ m) ∨ 2 ^ scale < 2 * evens.length) := by
  have hwf := wf_of_new hfs
  by_cases h1 : evens = []
  · subst h1
    exact ⟨by simp [FFTSettings.dasFftExtension], ⟨fun _ => Or.inl rfl, fun _ => ⟨_, rfl⟩⟩⟩
  by_cases h2 : ∃ m, evens.length = 2 ^ m
  · obtain ⟨m, hm⟩ := h2
    by_cases h3 : 2 ^ scale < 2 * evens.length
    · have : ∃ msg, fs.dasFftExtension evens = .err msg := by
        rw [FFTSettings.dasFftExtension, if_neg (by simpa using h1),
          if_neg (by simp [isPowerOfTwo_iff, hm]), if_pos (by rw [hwf.width]; omega)]
        exact ⟨_, rfl⟩
      refine ⟨?_, ⟨fun _ => Or.inr (Or.inr h3), fun _ => this⟩⟩
      obtain ⟨msg, e⟩ := this
      rw [e]; simp
    · have hms : m + 1 ≤ scale := by
        have : 2 ^ (m + 1) ≤ 2 ^ scale := by rw [pow_succ]; omega
        exact (Nat.pow_le_pow_iff_right (by omega)).mp this
      obtain ⟨odds, _, _, h, _⟩ := C16_das_extension hfs hms evens hm
      rw [h]
      refine ⟨by simp, ⟨fun ⟨_, e⟩ => by simp at e, ?_⟩⟩
      rintro (h | h | h)
      · exact absurd h h1
      · exact absurd ⟨m, hm⟩ h
      · exact absurd h h3
  · have : ∃ msg, fs.dasFftExtension evens = .err msg := by
      rw [FFTSettings.dasFftExtension, if_neg (by simpa using h1), if_pos]
      · exact ⟨_, rfl⟩
      · simpa [← isPowerOfTwo_iff] using h2
    refine ⟨?_, ⟨fun _ => Or.inr (Or.inl h2), fun _ => this⟩⟩
    obtain ⟨msg, e⟩ := this
    rw [e]; simp

example : ∃ fs : FFTSettings Fr, FFTSettings.new 3 = .ok fs ∧
    (∃ odds, fs.dasFftExtension [1, 2, 3, 4] = .ok odds ∧ odds.length = 4) ∧
    (∃ msg, fs.dasFftExtension [1, 2, 3] = .err msg) ∧
    (∃ msg, fs.dasFftExtension [1, 2, 3, 4, 5, 6, 7, 8] = .err msg) := by
  obtain ⟨fs, h, _⟩ := new_spec (F := Fr) (k := 3) (by norm_num)
  refine ⟨fs, h, ?_, ?_, ?_⟩
  · obtain ⟨odds, _, _, h1, h2, _⟩ := C16_das_extension h (m := 2) (by norm_num) [1, 2, 3, 4] rfl
    exact ⟨odds, h1, h2⟩
  · rw [(C17_das_rejection h _).2]
    right; left
    rintro ⟨m, hm⟩
    have h3 : 3 = 2 ^ m := hm
    rcases m with _ | _ | m
    · simp at h3
    · simp at h3
    · rw [pow_add] at h3; omega
  · rw [(C17_das_rejection h _).2]
    right; right; simp

end Kzg.Props
