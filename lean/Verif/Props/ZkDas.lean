import Verif.Proofs.Zk.KzgFK20
import Verif.Props.DAS
/-!
# Property C93: the extension of data and the constructors of transform settings of zkcrypto
-/

namespace Kzg.Props
open Kzg Kzg.Res Kzg.Zk Kzg.Zk.Top Polynomial ScW

/-- Where the extension of blst-from-scratch returns a list of the right length, the one of zkcrypto returns the same. -/
theorem zk_das_eq {fs : FFTSettings ScW} {val out : List ScW} (hn : ((val.length : Nat) : ScW) ≠ 0)
    (h : FFTSettings.dasFftExtension fs val = .ok out) (hl : out.length = val.length) :
    Top.dasFftExtension fs val = .ok out := by
  unfold FFTSettings.dasFftExtension at h
  unfold Top.dasFftExtension
  split at h
  · cases h
  rename_i h1
  rw [if_neg h1]
  split at h
  · cases h
  rename_i h2
  rw [if_neg h2]
  split at h
  · cases h
  rename_i h3
  rw [if_neg h3]
  dsimp only at h ⊢
  generalize dasStride fs.expandedRoots fs.reverseRoots (val.length + 1) val (fs.maxWidth / (val.length * 2)) = r at *
  cases r with
  | err _ => cases h
  | panic => cases h
  | ok vals =>
    rw [bind_ok] at h ⊢
    have hv := Res.ok.inj h
    have hvl : vals.length = val.length := by rw [← hl, ← hv, List.length_map]
    rw [ZkP.frInv_of_ne hn, bind_ok, show dasStride fs.expandedRoots fs.reverseRoots 1 [] _ = .ok [] from rfl, bind_ok,
      ← hv, hvl]
    rfl

/-- C93: the extension of `n` values has length `n`, and interleaving input and output gives the values of one polynomial of
degree below `n` at the powers of a primitive `2n`-th root of unity. Hence the inverse transform of the interleaving has a
zero upper half. -/
theorem C93_das_extension {scale : Nat} {fs : FFTSettings ScW} (hfs : FFTSettings.new scale = .ok fs)
    {m : Nat} (hm : m + 1 ≤ scale) (evens : List ScW) (hl : evens.length = 2 ^ m) :
    ∃ (odds : List ScW) (p : ScW[X]) (ω : ScW), Top.dasFftExtension fs evens = .ok odds ∧
      odds.length = 2 ^ m ∧ p.degree < (2 ^ m : Nat) ∧ IsPrimitiveRoot ω (2 ^ (m + 1)) ∧
      (∀ i < 2 ^ (m + 1), (interleave evens odds)[i]? = some (p.eval (ω ^ i))) ∧
      ∃ coeffs, fs.fftFr (interleave evens odds) true = .ok coeffs ∧ coeffs.length = 2 ^ (m + 1) ∧
        ∀ i, 2 ^ m ≤ i → i < 2 ^ (m + 1) → coeffs[i]? = some 0 := by
  obtain ⟨odds, p, ω, h, hol, hrest⟩ := das_extension_of (wf_of_new hfs) hm evens hl
  exact ⟨odds, p, ω, zk_das_eq (by rw [hl]; exact (wf_of_new hfs).cast_ne (by omega)) h (by rw [hol, hl]), hol, hrest⟩

/-- C93 (rejection): the extension never panics, and is an error exactly for lists that are empty, not of a length that is a
power of two, or longer than half the width. -/
theorem C93_das_rejects {scale : Nat} {fs : FFTSettings ScW} (hfs : FFTSettings.new scale = .ok fs) (evens : List ScW) :
    Top.dasFftExtension fs evens ≠ .panic ∧ ((∃ msg, Top.dasFftExtension fs evens = .err msg) ↔
      evens = [] ∨ (¬ ∃ m, evens.length = 2 ^ m) ∨ 2 ^ scale < evens.length * 2) := by
  have hwf := wf_of_new hfs
  by_cases h1 : evens = []
  · subst h1
    exact ⟨by simp [Top.dasFftExtension], ⟨fun _ => Or.inl rfl, fun _ => ⟨_, rfl⟩⟩⟩
  have h1' : ¬ evens.isEmpty = true := by simpa using h1
  by_cases h2 : ∃ m, evens.length = 2 ^ m
  · obtain ⟨m, hm⟩ := h2
    by_cases h3 : 2 ^ scale < evens.length * 2
    · have : ∃ msg, Top.dasFftExtension fs evens = .err msg := by
        unfold Top.dasFftExtension
        rw [if_neg h1', hm, isPowerOfTwo_two_pow, if_neg (by simp), hwf.width, if_pos (by rw [← hm]; exact h3)]
        exact ⟨_, rfl⟩
      refine ⟨?_, ⟨fun _ => Or.inr (Or.inr h3), fun _ => this⟩⟩
      obtain ⟨msg, e⟩ := this
      rw [e]; simp
    · have hms : m + 1 ≤ scale := by
        rw [hm, ← pow_succ] at h3
        exact (Nat.pow_le_pow_iff_right (by norm_num)).mp (not_lt.mp h3)
      obtain ⟨odds, _, _, h, _⟩ := C93_das_extension hfs hms evens hm
      rw [h]
      refine ⟨by simp, ⟨fun ⟨_, e⟩ => by simp at e, ?_⟩⟩
      rintro (h | h | h)
      · exact absurd h h1
      · exact absurd ⟨m, hm⟩ h
      · exact absurd h h3
  · have : ∃ msg, Top.dasFftExtension fs evens = .err msg := by
      unfold Top.dasFftExtension
      rw [if_neg h1', if_pos]
      · exact ⟨_, rfl⟩
      · simpa [← isPowerOfTwo_iff] using h2
    refine ⟨?_, ⟨fun _ => Or.inr (Or.inl h2), fun _ => this⟩⟩
    obtain ⟨msg, e⟩ := this
    rw [e]; simp

theorem fftFast_no_roots {F : Type} [Field F] (k : Nat) : ∀ (ret data : List F) (stride rs : Nat),
    ret.length = 2 ^ (k + 1) → fftFast ret data stride ([] : List F) rs = .panic := by
  induction k with
  | zero =>
    intro ret data stride rs hr
    rw [fftFast]
    simp only
    rw [hr, dif_pos (by norm_num)]
    have base : ∀ (u d : List F) (a b : Nat), u.length = 1 → (∃ v, fftFast u d a ([] : List F) b = .ok v ∧ v.length = 1) ∨
        fftFast u d a ([] : List F) b = .panic := by
      intro u d a b hu
      rw [fftFast]
      simp only
      rw [hu, dif_neg (by norm_num)]
      cases d with
      | nil => exact Or.inr rfl
      | cons x d =>
        rw [show rd (x :: d) 0 = .ok x from rfl, bind_ok, wr_of_lt (by omega)]
        exact Or.inl ⟨_, rfl, by simp [hu]⟩
    rcases base (ret.take (2 ^ (0 + 1) / 2)) data (stride * 2) (rs * 2) (by simp [hr]) with ⟨lo, e, hlo⟩ | e
    · rw [e, bind_ok]
      cases hs : sliceFrom data stride with
      | err m => unfold sliceFrom at hs; split at hs <;> cases hs
      | panic => rfl
      | ok dh =>
        rw [bind_ok]
        rcases base (ret.drop (2 ^ (0 + 1) / 2)) dh (stride * 2) (rs * 2) (by simp [hr]) with ⟨hi, e', hhi⟩ | e'
        · rw [e', bind_ok]
          refine forRange_panic 0 (fun _ st => st = lo ++ hi) (Nat.zero_le _) (by norm_num) rfl
            (fun i _ _ hi => absurd hi (by omega)) ?_
          rintro st rfl
          rw [rd_getD 0 (by simp; omega), bind_ok, rd_of_ge (by simp), bind_panic]
        · rw [e', bind_panic]
    · rw [e, bind_panic]
  | succ k ih =>
    intro ret data stride rs hr
    rw [fftFast]
    simp only
    have hp : 2 ^ (k + 1 + 1) / 2 = 2 ^ (k + 1) := by rw [pow_succ, Nat.mul_div_cancel _ (by norm_num)]
    have hlt : 2 ^ (k + 1) ≤ 2 ^ (k + 1 + 1) := Nat.pow_le_pow_right (by omega) (by omega)
    rw [hr, hp, dif_pos (by positivity), ih _ _ _ _ (by rw [List.length_take, hr]; omega), bind_panic]

/-- C93 (from_scale): `from_scale` accepts the scales that `new` accepts and returns settings of the same width without any
roots: with them every transform of a list of allowed length panics. -/
theorem C93_from_scale (scale : Nat) :
    ((∃ msg, Top.fromScale scale = .err msg) ↔ 32 ≤ scale) ∧
    ∀ fs, Top.fromScale scale = .ok fs → fs.maxWidth = 2 ^ scale ∧ fs.expandedRoots = [] ∧
      ∀ m, 1 ≤ m → m ≤ scale → ∀ (d : List ScW) inverse, d.length = 2 ^ m → fs.fftFr d inverse = .panic := by
  unfold Top.fromScale
  by_cases h : scale ≥ 32
  · rw [if_pos h]
    exact ⟨⟨fun _ => h, fun _ => ⟨_, rfl⟩⟩, fun fs e => by cases e⟩
  · rw [if_neg h]
    refine ⟨⟨fun ⟨_, e⟩ => (by cases e), fun h' => absurd h' h⟩, fun fs e => ?_⟩
    cases e
    refine ⟨rfl, rfl, fun m hm hms d inverse hd => ?_⟩
    have hle : 2 ^ m ≤ 2 ^ scale := Nat.pow_le_pow_right (by omega) hms
    obtain ⟨k, rfl⟩ : ∃ k, m = k + 1 := ⟨m - 1, by omega⟩
    unfold FFTSettings.fftFr FFTSettings.fft
    rw [hd, if_neg (by simpa using hle), isPowerOfTwo_two_pow, if_neg (by simp)]
    have hroots : (if inverse = true then ([] : List ScW) else []) = [] := by split <;> rfl
    simp only [fftDefault]
    rw [hroots, fftFast_no_roots k _ d 1 _ (by simp), bind_panic]

/-- C93 (new_fft_settings): `new_fft_settings` ignores its argument and returns settings of width 0, which reject every
list. -/
theorem C93_new_fft_settings (scale : Nat) : (Top.newFftSettings scale).maxWidth = 0 ∧
    ∀ d inverse, ∃ msg, (Top.newFftSettings scale).fftFr d inverse = .err msg := by
  refine ⟨rfl, fun d inverse => ?_⟩
  unfold FFTSettings.fftFr FFTSettings.fft
  by_cases h : d.length > (Top.newFftSettings scale).maxWidth
  · rw [if_pos h]; exact ⟨_, rfl⟩
  · have h0 : d.length = 0 := by
      have : (Top.newFftSettings scale).maxWidth = 0 := rfl
      omega
    rw [if_neg h, h0, if_pos (by decide)]
    exact ⟨_, rfl⟩

/-- Four values extend with settings of width eight; eight values do not. -/
example : ∃ fs : FFTSettings ScW, FFTSettings.new 3 = .ok fs ∧
    (∃ odds, Top.dasFftExtension fs [1, 2, 3, 4] = .ok odds ∧ odds.length = 4) ∧
    (∃ msg, Top.dasFftExtension fs [1, 2, 3, 4, 5, 6, 7, 8] = .err msg) := by
  obtain ⟨fs, h, _⟩ := new_spec (F := ScW) (k := 3) (by norm_num)
  refine ⟨fs, h, ?_, ?_⟩
  · obtain ⟨odds, _, _, h1, h2, _⟩ := C93_das_extension h (m := 2) (by norm_num) [1, 2, 3, 4] rfl
    exact ⟨odds, h1, h2⟩
  · rw [(C93_das_rejects h _).2]
    right; right; simp

end Kzg.Props
