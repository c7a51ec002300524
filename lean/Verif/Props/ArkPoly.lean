import Verif.Props.ArkFFT
import Verif.Props.DAS
import Verif.Proofs.Ark.Poly
import Verif.Model.Ark.Das
/-!
# Properties C117, C118 and C124: polynomials and data availability extension of the Arkworks backend
-/

namespace Kzg.Props
open Kzg Kzg.Ark Polynomial Finset

theorem polyOf_ne_of_mem {a : List Fr} (h : ∃ x ∈ a, x ≠ 0) : polyOf a ≠ 0 := by
  obtain ⟨x, hx, hne⟩ := h
  obtain ⟨i, hi, rfl⟩ := List.getElem_of_mem hx
  intro h0
  apply hne
  have := coeff_polyOf a i
  rw [h0, coeff_zero, List.getD_eq_getElem _ _ hi] at this
  exact this.symm

theorem polyOf_eq_zero_of_forall {a : List Fr} (h : ∀ x ∈ a, x = 0) : polyOf a = 0 := by
  ext i
  rw [coeff_polyOf, coeff_zero]
  by_cases hi : i < a.length
  · rw [List.getD_eq_getElem _ _ hi]; exact h _ (List.getElem_mem hi)
  · rw [List.getD_eq_default _ _ (by omega)]

/-! ## C117: evaluation and multiplication -/

/-- C117 (evaluation): the value of the polynomial. -/
theorem C117_eval (a : List Fr) (x : Fr) : Ark.polyEval a x = ∑ i ∈ range a.length, a.getD i 0 * x ^ i := by
  rw [Ark.polyEval_eq, eval_polyOf]

/-- C117 (direct): the first `len` coefficients of the product, if no operand is the zero polynomial. -/
theorem C117_mul_direct_partial (a b : List Fr) (ha : ∃ x ∈ a, x ≠ 0) (hb : ∃ x ∈ b, x ≠ 0) (len : Nat) :
    Ark.mulDirect a b len = .ok ((List.range len).map (polyOf a * polyOf b).coeff) :=
  Ark.mulDirect_spec a b (polyOf_ne_of_mem ha) (polyOf_ne_of_mem hb) len

/-- C117 (refuted for zero): a zero operand gives the empty list, not `len` zeros. -/
theorem C117_mul_direct_zero (a b : List Fr) (h : (∀ x ∈ a, x = 0) ∨ ∀ x ∈ b, x = 0) (len : Nat) :
    Ark.mulDirect a b len = .ok [] :=
  Ark.mulDirect_zero a b (h.imp polyOf_eq_zero_of_forall polyOf_eq_zero_of_forall) len

/-- The width of the given settings is enough. -/
def WideEnough (ft : Option (FFTSettings Fr)) (n : Nat) : Prop :=
  ∀ fs, ft = some fs → ∃ scale, settingsNew scale = .ok fs ∧ n ≤ 2 ^ scale

theorem WideEnough.fits {ft : Option (FFTSettings Fr)} {n : Nat} (h : WideEnough ft n) : Fits ft n := fun fs e => by
  obtain ⟨scale, h1, h2⟩ := h fs e
  exact ⟨scale, made_of_new h1, h2⟩

/-- C117 (transforms): nonempty operands, a positive length and settings (of the crate, or none) that are wide enough
give the first `len` coefficients of the product; here zero operands are no exception. -/
theorem C117_mul_fft (a b : List Fr) (ft : Option (FFTSettings Fr)) (len : Nat) (ha : a ≠ []) (hb : b ≠ [])
    (h0 : 0 < len) (hlen : min a.length len + min b.length len ≤ 2 ^ 31 + 1)
    (hft : WideEnough ft (min a.length len + min b.length len - 1)) :
    Ark.mulFft a b ft len = .ok ((List.range len).map (polyOf a * polyOf b).coeff) :=
  Ark.mulFft_spec a b ft len ha hb h0 hlen hft.fits

/-- C117 (transforms): narrow settings are an error. -/
theorem C117_mul_fft_narrow (a b : List Fr) {fs : FFTSettings Fr} {scale : Nat} (hfs : settingsNew scale = .ok fs)
    (len : Nat) (hlen : min a.length len + min b.length len ≤ 2 ^ 63)
    (hn : 2 ^ scale + 1 < min a.length len + min b.length len) :
    ∃ msg, Ark.mulFft a b (some fs) len = .err msg :=
  ⟨_, Ark.mulFft_narrow a b fs len hlen (by rw [(made_of_new hfs).toWF.width]; omega)⟩

/-- C117 (refuted for nothing to multiply): two operands without a coefficient to use are a panic with transforms. -/
theorem C117_mul_fft_empty (a b : List Fr) (ft : Option (FFTSettings Fr)) (len : Nat)
    (h : len = 0 ∨ (a = [] ∧ b = [])) : Ark.mulFft a b ft len = .panic :=
  Ark.mulFft_panic a b ft len (by rcases h with rfl | ⟨rfl, rfl⟩ <;> simp)

/-- C117 (choice of method): the product, if no operand is the zero polynomial. -/
theorem C117_mul_partial (a b : List Fr) (ft : Option (FFTSettings Fr)) (len : Nat) (ha : ∃ x ∈ a, x ≠ 0)
    (hb : ∃ x ∈ b, x ≠ 0) (hlen : min a.length len + min b.length len ≤ 2 ^ 31 + 1)
    (hft : WideEnough ft (min a.length len + min b.length len - 1)) :
    Ark.polyMul a b ft len = .ok ((List.range len).map (polyOf a * polyOf b).coeff) :=
  Ark.polyMul_spec a b ft len (polyOf_ne_of_mem ha) (polyOf_ne_of_mem hb) hlen hft.fits

/-- C117 (refuted for zero): with a zero operand the number of coefficients depends on the method that is chosen by
the lengths: none below the thresholds, `len` above. -/
theorem C117_mul_zero (a b : List Fr) (ft : Option (FFTSettings Fr)) (len : Nat)
    (h : (∀ x ∈ a, x = 0) ∨ ∀ x ∈ b, x = 0) :
    (a.length < 64 ∨ b.length < 64 ∨ len < 128 → Ark.polyMul a b ft len = .ok []) ∧
    (64 ≤ a.length → 64 ≤ b.length → 128 ≤ len → min a.length len + min b.length len ≤ 2 ^ 31 + 1 →
      WideEnough ft (min a.length len + min b.length len - 1) →
      Ark.polyMul a b ft len = .ok (List.replicate len 0)) := by
  have hz := h.imp polyOf_eq_zero_of_forall polyOf_eq_zero_of_forall
  refine ⟨Ark.polyMul_zero a b ft len hz, fun h1 h2 h3 h4 h5 => ?_⟩
  rw [Ark.polyMul, if_neg (by omega), C117_mul_fft a b ft len (by rintro rfl; simp at h1) (by rintro rfl; simp at h2)
    (by omega) h4 h5]
  have : polyOf a * polyOf b = 0 := by rcases hz with h | h <;> rw [h] <;> simp
  rw [this]
  congr 1
  apply List.ext_getElem?
  intro i
  rw [List.getElem?_map, List.getElem?_replicate]
  by_cases hi : i < len
  · rw [List.getElem?_range hi, if_pos hi]; simp
  · rw [List.getElem?_eq_none (by simp; omega), if_neg hi]; rfl

/-! ## C118: inverse power series and division -/

/-- C118 (series): the first `n` coefficients of the inverse, up to `2^30` of them. -/
theorem C118_inverse_partial (a : List Fr) (n : Nat) (hn : 0 < n) (ha : a ≠ []) (h0 : a.getD 0 0 ≠ 0)
    (hlen : a.length = 1 ∨ n ≤ 2 ^ 30) :
    ∃ r, Ark.polyInverse a n = .ok r ∧ r.length = n ∧
      ∀ k < n, (polyOf a * polyOf r).coeff k = if k = 0 then 1 else 0 := by
  obtain ⟨r, hr, hl, hd⟩ := Ark.polyInverse_spec a n hn ha h0 hlen
  refine ⟨r, hr, hl, ?_⟩
  intro k hk
  have := X_pow_dvd_iff.mp hd k hk
  rw [coeff_sub, sub_eq_zero] at this
  rw [this, coeff_one]

/-- C118 (series, rejection): the empty polynomial and a zero constant term are errors. -/
theorem C118_inverse_rejects (a : List Fr) (n : Nat) (h : a = [] ∨ a.getD 0 0 = 0) :
    ∃ msg, Ark.polyInverse a n = .err msg := by
  by_cases ha : a = []
  · subst ha; exact ⟨_, Ark.polyInverse_empty n⟩
  · exact ⟨_, Ark.polyInverse_err a n ha (h.resolve_left ha)⟩

/-- C118 (refuted for the lengths 0 and above `2^30`): a panic. -/
theorem C118_inverse_panics (a : List Fr) (n : Nat) (ha : a ≠ []) (h0 : a.getD 0 0 ≠ 0)
    (h : n = 0 ∨ (2 ≤ a.length ∧ 2 ^ 30 < n ∧ n ≤ 2 ^ 62)) : Ark.polyInverse a n = .panic := by
  rcases h with rfl | ⟨h1, h2, h3⟩
  · exact Ark.polyInverse_zero a ha h0
  · exact Ark.polyInverse_long a n h1 h0 h2 h3

/-- C118 (long division): the Euclidean quotient, without leading zeros; zeros at the top of the operands do not
matter. -/
theorem C118_long_division (a b : List Fr) (hb : ∃ x ∈ b, x ≠ 0) :
    ∃ q, Ark.longDiv a b = .ok q ∧ polyOf q = polyOf a / polyOf b ∧ (q = [] ∨ q.getD (q.length - 1) 0 ≠ 0) :=
  Ark.longDiv_spec a b (polyOf_ne_of_mem hb)

/-- C118 (refuted for a zero divisor): a zero dividend gives zero, any other a panic. -/
theorem C118_long_division_by_zero (a b : List Fr) (hb : ∀ x ∈ b, x = 0) :
    ((∀ x ∈ a, x = 0) → Ark.longDiv a b = .ok []) ∧ ((∃ x ∈ a, x ≠ 0) → Ark.longDiv a b = .panic) :=
  ⟨fun h => Ark.longDiv_of_zero a b (polyOf_eq_zero_of_forall h),
    fun h => Ark.longDiv_by_zero a b (polyOf_ne_of_mem h) (polyOf_eq_zero_of_forall hb)⟩

/-- C118 (fast division, partial): the quotient with one coefficient for each power up to the difference of the
lengths, for nonzero dividends and quotients of at most `2^30` coefficients. -/
theorem C118_fast_div_partial (a b : List Fr) (ha : ∃ x ∈ a, x ≠ 0) (hb : b ≠ []) (hlead : b.getD (b.length - 1) 0 ≠ 0)
    (hlen : a.length + 1 - b.length ≤ 2 ^ 30) :
    ∃ q, Ark.fastDiv a b = .ok q ∧ q.length = a.length + 1 - b.length ∧ polyOf q = polyOf a / polyOf b := by
  obtain ⟨q, hq, h1, h2⟩ := longDiv_div a b hb hlead
  refine ⟨q, ?_, h1, h2⟩
  rw [Ark.fastDiv_eq a b (by rintro rfl; simp at ha) hb hlead (.inr hlen) (.inr (.inr (.inl (polyOf_ne_of_mem ha)))), hq]

/-- C118 (fast division, rejection): an empty divisor and one with a zero at the top are errors. -/
theorem C118_fast_div_rejects (a b : List Fr) (h : b = [] ∨ b.getD (b.length - 1) 0 = 0) :
    ∃ msg, Ark.fastDiv a b = .err msg := by
  by_cases hb : b = []
  · subst hb; exact ⟨_, Ark.fastDiv_empty a⟩
  · exact ⟨_, Ark.fastDiv_lead a b hb (h.resolve_left hb)⟩

/-- C118 (refuted for zero dividends): fast division panics for the empty dividend, and for a list of zeros that is
at least as long as a divisor of two and more coefficients and less than 127 longer. -/
theorem C118_fast_div_zero (b : List Fr) (hb : b ≠ []) (hlead : b.getD (b.length - 1) 0 ≠ 0) :
    Ark.fastDiv [] b = .panic ∧
    ∀ n, 2 ≤ b.length → b.length ≤ n → n + 1 - b.length < 128 → Ark.fastDiv (List.replicate n 0) b = .panic := by
  refine ⟨Ark.fastDiv_nil b hb hlead, fun n h1 h2 h3 => ?_⟩
  refine Ark.fastDiv_zero _ b h1 hlead (by simpa using h2) ?_ (by simpa using h3)
  exact polyOf_eq_zero_of_forall fun x hx => List.eq_of_mem_replicate hx

/-- C118 (division, partial): the Euclidean quotient for nonzero divisors whose last coefficient is not zero and
nonzero dividends of at most `2^30` coefficients. -/
theorem C118_div_partial (a b : List Fr) (hb : b ≠ []) (hlead : b.getD (b.length - 1) 0 ≠ 0) (ha : ∃ x ∈ a, x ≠ 0)
    (hlen : a.length ≤ 2 ^ 30) : ∃ q, Ark.polyDiv a b = .ok q ∧ polyOf q = polyOf a / polyOf b :=
  Ark.polyDiv_spec a b (natDegree_of_lead hb hlead).2 (fun _ _ => hlead) (fun _ _ => polyOf_ne_of_mem ha) hlen

/-- C118 (refuted for zeros at the top): below 128 divisor coefficients, zeros at the top of the divisor are ignored;
from 128 on they are an error. -/
theorem C118_div_trailing_zeros (a b : List Fr) (hb : ∃ x ∈ b, x ≠ 0) (hz : b.getD (b.length - 1) 0 = 0) :
    (b.length < 128 → ∃ q, Ark.polyDiv a b = .ok q ∧ polyOf q = polyOf a / polyOf b) ∧
    (128 ≤ b.length → b.length < a.length → ∃ msg, Ark.polyDiv a b = .err msg) := by
  constructor
  · intro h
    obtain ⟨q, h1, h2, _⟩ := C118_long_division a b hb
    exact ⟨q, by rw [Ark.polyDiv, if_pos (.inr h), h1], h2⟩
  · intro h1 h2
    rw [Ark.polyDiv, if_neg (by omega)]
    exact C118_fast_div_rejects a b (.inr hz)

/-! ## C124: data availability extension -/

/-- Where the extension of blst-from-scratch returns a list of the right length, this one returns the same. -/
theorem ark_das_eq {fs : FFTSettings Fr} {val out : List Fr} (hn : ((val.length : Nat) : Fr) ≠ 0)
    (h : fs.dasFftExtension val = .ok out) (hl : out.length = val.length) : Ark.das fs val = .ok out := by
  unfold FFTSettings.dasFftExtension at h
  unfold Ark.das
  split at h
  · cases h
  rename_i h1
  rw [if_neg h1]
  split at h
  · cases h
  rename_i h2
  rw [if_neg h2]
  split at h
  · cases h
  rename_i h3
  rw [if_neg h3]
  dsimp only at h ⊢
  generalize dasStride fs.expandedRoots fs.reverseRoots (val.length + 1) val (fs.maxWidth / (val.length * 2)) = r at *
  cases r with
  | err _ => cases h
  | panic => cases h
  | ok vals =>
    rw [Res.bind_ok] at h ⊢
    have hv := Res.ok.inj h
    have hvl : vals.length = val.length := by rw [← hl, ← hv, List.length_map]
    rw [hvl, Ark.frInv_eq hn, Res.bind_ok, ← hv, hvl]

/-- C124: the extension of `n` values has length `n`, and interleaving input and output gives the values of one
polynomial of degree below `n` at the powers of a primitive `2n`-th root of unity. Hence the inverse transform of
the interleaving has a zero upper half. -/
theorem C124_das_extension {scale : Nat} {fs : FFTSettings Fr} (hfs : settingsNew scale = .ok fs)
    {m : Nat} (hm : m + 1 ≤ scale) (evens : List Fr) (hl : evens.length = 2 ^ m) :
    ∃ (odds : List Fr) (p : Fr[X]) (ω : Fr), Ark.das fs evens = .ok odds ∧
      odds.length = 2 ^ m ∧ p.degree < (2 ^ m : Nat) ∧ IsPrimitiveRoot ω (2 ^ (m + 1)) ∧
      (∀ i < 2 ^ (m + 1), (interleave evens odds)[i]? = some (p.eval (ω ^ i))) ∧
      ∃ coeffs, Ark.fftFr fs (interleave evens odds) true = .ok coeffs ∧ coeffs.length = 2 ^ (m + 1) ∧
        ∀ i, 2 ^ m ≤ i → i < 2 ^ (m + 1) → coeffs[i]? = some 0 := by
  have hmade := made_of_new hfs
  obtain ⟨odds, p, ω, h, hol, h1, h2, h3, coeffs, h4, hrest⟩ := das_extension_of hmade.toWF hm evens hl
  refine ⟨odds, p, ω, ark_das_eq (by rw [hl]; exact hmade.toWF.cast_ne (by omega)) h (by rw [hol, hl]), hol, h1, h2, h3,
    coeffs, ?_, hrest⟩
  rw [Ark.fftFr_eq hmade hm _ (by rw [interleave_length _ _ (by omega), hl, pow_succ, mul_comm])]
  exact h4

/-- C124 (rejection): never a panic, and an error exactly for the empty list, a length that is no power of two, and
a length above half of the width. -/
theorem C124_das_rejects {scale : Nat} {fs : FFTSettings Fr} (hfs : settingsNew scale = .ok fs) (evens : List Fr) :
    Ark.das fs evens ≠ .panic ∧ ((∃ msg, Ark.das fs evens = .err msg) ↔
      evens = [] ∨ (¬ ∃ m, evens.length = 2 ^ m) ∨ 2 ^ scale < evens.length * 2) := by
  have hwf := (made_of_new hfs).toWF
  by_cases h1 : evens = []
  · subst h1
    exact ⟨by simp [Ark.das], ⟨fun _ => Or.inl rfl, fun _ => ⟨_, rfl⟩⟩⟩
  have h1' : ¬ evens.isEmpty = true := by simpa using h1
  by_cases h2 : ∃ m, evens.length = 2 ^ m
  · obtain ⟨m, hm⟩ := h2
    by_cases h3 : 2 ^ scale < evens.length * 2
    · have : ∃ msg, Ark.das fs evens = .err msg := by
        unfold Ark.das
        rw [if_neg h1', hm, isPowerOfTwo_two_pow, if_neg (by simp), hwf.width, if_pos (by rw [← hm]; exact h3)]
        exact ⟨_, rfl⟩
      refine ⟨?_, ⟨fun _ => Or.inr (Or.inr h3), fun _ => this⟩⟩
      obtain ⟨msg, e⟩ := this
      rw [e]; simp
    · have hms : m + 1 ≤ scale := by
        rw [hm, ← pow_succ] at h3
        exact (Nat.pow_le_pow_iff_right (by norm_num)).mp (not_lt.mp h3)
      obtain ⟨odds, _, _, h, _⟩ := C124_das_extension hfs hms evens hm
      rw [h]
      refine ⟨by simp, ⟨fun ⟨_, e⟩ => by simp at e, ?_⟩⟩
      rintro (h | h | h)
      · exact absurd h h1
      · exact absurd ⟨m, hm⟩ h
      · exact absurd h h3
  · have : ∃ msg, Ark.das fs evens = .err msg := by
      unfold Ark.das
      rw [if_neg h1', if_pos]
      · exact ⟨_, rfl⟩
      · simpa [← isPowerOfTwo_iff] using h2
    refine ⟨?_, ⟨fun _ => Or.inr (Or.inl h2), fun _ => this⟩⟩
    obtain ⟨msg, e⟩ := this
    rw [e]; simp

/-! ## Examples -/

/-- `(1 + 2x)(3 + x)` cut off after two coefficients, with a zero on top of an operand. -/
example : Ark.mulDirect [1, 2] [3, 1, 0] 2 = .ok [(3 : Fr), 7] := by decide +kernel

/-- `(1 + 2x)(3 + x)` padded to five. -/
example : Ark.polyMul [1, 2] [3, 1] none 5 = .ok [(3 : Fr), 7, 2, 0, 0] := by decide +kernel

/-- A zero operand. -/
example : Ark.polyMul [0, 0] [3, 1] none 5 = .ok ([] : List Fr) := by decide +kernel

/-- `(6 + 5x + x^2) / (3 + x)`, with a zero on top of the divisor. -/
example : Ark.polyDiv [6, 5, 1] [3, 1, 0] = .ok [(2 : Fr), 1] := by decide +kernel

example : Ark.fastDiv [6, 5, 1] [3, 1, 0] = (.err "divisor coeffs last member is zero" : Res (List Fr)) := by
  decide +kernel

example : ∃ q : List Fr, Ark.fastDiv [6, 5, 1] [3, 1] = .ok q ∧ q.length = 2 := by
  obtain ⟨q, h1, h2, _⟩ := C118_fast_div_partial [6, 5, 1] [3, 1] ⟨1, by simp, one_ne_zero⟩ (by simp) (by simp)
    (by norm_num)
  exact ⟨q, h1, h2⟩

example : ∃ r : List Fr, Ark.polyInverse [1, 1] 4 = .ok r ∧ r.length = 4 := by
  obtain ⟨r, h1, h2, _⟩ := C118_inverse_partial [1, 1] 4 (by norm_num) (by simp) (by simp) (.inr (by norm_num))
  exact ⟨r, h1, h2⟩

example : ∃ fs : FFTSettings Fr, settingsNew 3 = .ok fs ∧ ∃ odds, Ark.das fs [1, 2, 3, 4] = .ok odds ∧
    odds.length = 4 := by
  obtain ⟨fs, h, _⟩ := (C113_new 3).1 (by norm_num)
  obtain ⟨odds, _, _, h1, h2, _⟩ := C124_das_extension h (m := 2) (by norm_num) [1, 2, 3, 4] rfl
  exact ⟨fs, h, odds, h1, by simpa using h2⟩

end Kzg.Props
