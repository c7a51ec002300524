import Mathlib.RingTheory.RootsOfUnity.PrimitiveRoots
import Mathlib.Tactic.FieldSimp
import Verif.Proofs.FFT
/-!
# FFT settings: table contents; transform of well formed settings
-/

namespace Kzg
open Res Finset

/-- Facts about the field and its root table that the algorithms need. Proved for the concrete
field in `Verif.Proofs.FrLawful`. -/
class LawfulFr (F : Type) [Field F] [FrTable F] : Prop where
  len : (FrTable.rootTable (F := F)).length = 32
  prim : ∀ i (h : i < (FrTable.rootTable (F := F)).length),
    IsPrimitiveRoot ((FrTable.rootTable (F := F))[i]) (2 ^ i)
  five_ne : (5 : F) ≠ 0
  five_pow : (5 : F) ^ (2 ^ 31) ≠ 1

/-- Well formed settings of scale `k`. -/
structure FFTSettings.WF {F : Type} [Field F] (fs : FFTSettings F) (k : Nat) : Prop where
  width : fs.maxWidth = 2 ^ k
  lt : k < 32
  prim : IsPrimitiveRoot fs.rootOfUnity (2 ^ k)
  elen : fs.expandedRoots.length = 2 ^ k + 1
  exp : ∀ i ≤ 2 ^ k, fs.expandedRoots[i]? = some (fs.rootOfUnity ^ i)
  rlen : fs.reverseRoots.length = 2 ^ k + 1
  rev : ∀ i ≤ 2 ^ k, fs.reverseRoots[i]? = some (fs.rootOfUnity⁻¹ ^ i)

section
variable {F : Type} [Field F] [DecidableEq F]

theorem expandLoop_spec (w : F) (N : Nat) (hN : 0 < N) (hw : IsPrimitiveRoot w N) :
    ∀ (fuel n : Nat) (rev : List F), 2 ≤ n → n ≤ N + 1 → N + 2 ≤ fuel + n →
      rev.reverse = (List.range n).map (w ^ ·) →
      expandLoop w N fuel rev = .ok ((List.range (N + 1)).map (w ^ ·)) := by
  intro fuel
  induction fuel with
  | zero => intro n rev h1 h2 h3 _; omega
  | succ f ih =>
    intro n rev h1 h2 h3 hrev
    have hrev' : rev = ((List.range n).map (w ^ ·)).reverse := by rw [← hrev, List.reverse_reverse]
    obtain ⟨n', rfl⟩ : ∃ n', n = n' + 1 := ⟨n - 1, by omega⟩
    have hcons : rev = w ^ n' :: ((List.range n').map (w ^ ·)).reverse := by
      rw [hrev', List.range_succ]; simp
    rw [hcons]
    simp only [expandLoop]
    by_cases hlast : w ^ n' = 1
    · rw [if_pos hlast]
      have hdvd := (hw.pow_eq_one_iff_dvd n').mp hlast
      have hle := Nat.le_of_dvd (by omega) hdvd
      have : n' = N := by omega
      subst this
      rw [← hcons, hrev]
    · rw [if_neg hlast]
      have hne : n' ≠ N := by rintro rfl; exact hlast hw.pow_eq_one
      have hlen : ¬ ((w ^ n' :: ((List.range n').map (w ^ ·)).reverse).length > N) := by
        simp; omega
      rw [if_neg hlen]
      refine ih (n' + 2) _ (by omega) (by omega) (by omega) ?_
      rw [List.reverse_cons, ← hcons, hrev, ← pow_succ]
      rw [show n' + 2 = (n' + 1) + 1 from rfl, List.range_succ (n := n' + 1), List.map_append]
      rfl

theorem expandRoot_spec (w : F) (N : Nat) (hN : 0 < N) (hw : IsPrimitiveRoot w N) :
    expandRoot w N = .ok ((List.range (N + 1)).map (w ^ ·)) := by
  refine expandLoop_spec w N hN hw (N + 2) 2 [w, 1] (by omega) (by omega) (by omega) ?_
  simp [List.range_succ]

variable [FrTable F] [LawfulFr F]

theorem new_spec {k : Nat} (hk : k < 32) :
    Sat (FFTSettings.new (F := F) k) (fun fs => fs.WF k) := by
  have hlen := LawfulFr.len (F := F)
  have hk' : k < (FrTable.rootTable (F := F)).length := by omega
  have hp := LawfulFr.prim (F := F) k hk'
  set w := (FrTable.rootTable (F := F))[k] with hwdef
  have hpos : 0 < 2 ^ k := by positivity
  have hsh : 1 <<< k = 2 ^ k := by rw [Nat.shiftLeft_eq, one_mul]
  refine ⟨⟨2 ^ k, w, (List.range (2 ^ k + 1)).map (w ^ ·),
    ((List.range (2 ^ k + 1)).map (w ^ ·)).reverse⟩, ?_, ?_⟩
  · rw [FFTSettings.new, if_neg (by omega), rd_of_lt hk', bind_ok, hsh, ← hwdef,
      expandRoot_spec w _ hpos hp]
    simp
  · refine ⟨rfl, hk, hp, by simp, ?_, by simp, ?_⟩
    · intro i hi
      simp [List.getElem?_map, List.getElem?_range (show i < 2 ^ k + 1 by omega)]
    · intro i hi
      rw [List.getElem?_reverse (by simp; omega)]
      simp only [List.length_map, List.length_range, List.getElem?_map]
      rw [List.getElem?_range (by omega)]
      simp only [Option.map_some, Option.some.injEq]
      have hw0 : w ≠ 0 := hp.ne_zero (by omega)
      rw [inv_pow]
      have e : 2 ^ k + 1 - 1 - i = 2 ^ k - i := by omega
      rw [e]
      refine eq_inv_of_mul_eq_one_left ?_
      rw [← pow_add, Nat.sub_add_cancel hi, hp.pow_eq_one]

theorem new_err {k : Nat} (hk : 32 ≤ k) :
    FFTSettings.new (F := F) k = .err "Scale is expected to be within root of unity matrix row size" := by
  have hlen := LawfulFr.len (F := F)
  rw [FFTSettings.new, if_pos (by omega)]

theorem wf_of_new {k : Nat} {fs : FFTSettings F} (h : FFTSettings.new k = .ok fs) : fs.WF k := by
  by_cases hk : k < 32
  · obtain ⟨fs', h', hwf⟩ := new_spec (F := F) hk
    rw [h] at h'
    cases h'
    exact hwf
  · rw [new_err (by omega)] at h
    cases h

end

section
variable {F M : Type} [Field F] [AddCommGroup M] [Module F M]

theorem isPowerOfTwo_two_pow (m : Nat) : isPowerOfTwo (2 ^ m) = true := by
  have h : 2 ^ m ≠ 0 := by positivity
  simp [isPowerOfTwo, Nat.and_two_pow_sub_one_eq_mod]

theorem exists_of_isPowerOfTwo {n : Nat} (h : isPowerOfTwo n = true) : ∃ m, n = 2 ^ m := by
  simp only [isPowerOfTwo, Bool.and_eq_true, bne_iff_ne, ne_eq, beq_iff_eq] at h
  obtain ⟨h0, h1⟩ := h
  refine ⟨Nat.log2 n, ?_⟩
  have hle : 2 ^ Nat.log2 n ≤ n := Nat.log2_self_le h0
  by_contra hne
  have hlt : 2 ^ Nat.log2 n ≤ n - 1 := by omega
  have hlt2 : n < 2 ^ (Nat.log2 n + 1) := Nat.lt_log2_self
  have b1 : n.testBit (Nat.log2 n) = true := by
    rw [Nat.testBit_eq_decide_div_mod_eq]
    have : n / 2 ^ Nat.log2 n = 1 := by
      rw [Nat.div_eq_iff (by positivity)]; rw [pow_succ] at hlt2; omega
    simp [this]
  have b2 : (n - 1).testBit (Nat.log2 n) = true := by
    rw [Nat.testBit_eq_decide_div_mod_eq]
    have : (n - 1) / 2 ^ Nat.log2 n = 1 := by
      rw [Nat.div_eq_iff (by positivity)]; rw [pow_succ] at hlt2; omega
    simp [this]
  have : (n &&& (n - 1)).testBit (Nat.log2 n) = true := by rw [Nat.testBit_and, b1, b2]; rfl
  rw [h1] at this
  simp at this

theorem isPowerOfTwo_iff {n : Nat} : isPowerOfTwo n = true ↔ ∃ m, n = 2 ^ m :=
  ⟨exists_of_isPowerOfTwo, by rintro ⟨m, rfl⟩; exact isPowerOfTwo_two_pow m⟩

/-- Inverse transform of a transform. -/
theorem inv_dft {w : F} {n : Nat} (hn : 0 < n) (hw : IsPrimitiveRoot w n) (hnF : (n : F) ≠ 0)
    (d e : Nat → M) (he : ∀ k < n, e k = dft w n d k) {i : Nat} (hi : i < n) :
    (n : F)⁻¹ • dft w⁻¹ n e i = d i := by
  have hw0 : w ≠ 0 := hw.ne_zero (by omega)
  have h1 : dft w⁻¹ n e i = ∑ k ∈ range n, ∑ j ∈ range n, ((w⁻¹) ^ (k * i) * w ^ (j * k)) • d j := by
    unfold dft
    refine sum_congr rfl fun k hk => ?_
    rw [he k (mem_range.mp hk), dft, smul_sum]
    refine sum_congr rfl fun j _ => ?_
    rw [smul_smul]
  rw [h1, sum_comm]
  have h2 : ∀ j ∈ range n, ∑ k ∈ range n, ((w⁻¹) ^ (k * i) * w ^ (j * k)) • d j =
      if j = i then (n : F) • d i else 0 := by
    intro j hj
    rw [← sum_smul]
    have hpow : ∀ k, (w⁻¹) ^ (k * i) * w ^ (j * k) = ((w⁻¹) ^ i * w ^ j) ^ k := by
      intro k
      rw [mul_pow, ← pow_mul, ← pow_mul, mul_comm k i]
    simp only [hpow]
    split
    · next hji =>
      subst hji
      have : (w⁻¹) ^ j * w ^ j = 1 := by rw [← mul_pow, inv_mul_cancel₀ hw0, one_pow]
      simp only [this, one_pow, sum_const, card_range, nsmul_eq_mul, mul_one]
    · next hji =>
      have hz1 : (w⁻¹) ^ i * w ^ j ≠ 1 := by
        intro h
        have hji' : w ^ j = w ^ i := by
          rw [inv_pow] at h
          field_simp at h
          exact h
        exact hji (hw.pow_inj (mem_range.mp hj) hi hji')
      have hzn : ((w⁻¹) ^ i * w ^ j) ^ n = 1 := by
        rw [mul_pow, ← pow_mul, ← pow_mul, mul_comm i n, mul_comm j n, pow_mul, pow_mul, inv_pow,
          hw.pow_eq_one]
        simp
      have hg : ∑ k ∈ range n, ((w⁻¹) ^ i * w ^ j) ^ k = 0 := by
        have := geom_sum_mul ((w⁻¹) ^ i * w ^ j) n
        rw [hzn, sub_self] at this
        exact (mul_eq_zero.mp this).resolve_right (sub_ne_zero.mpr hz1)
      rw [hg, zero_smul]
  rw [sum_congr rfl h2, sum_ite_eq' (range n) i, if_pos (mem_range.mpr hi), smul_smul,
    inv_mul_cancel₀ hnF, one_smul]

/-- The primitive `2^m`-th root used for inputs of length `2^m`. -/
def FFTSettings.omega (fs : FFTSettings F) (n : Nat) : F := fs.rootOfUnity ^ (fs.maxWidth / n)

namespace FFTSettings.WF
variable {fs : FFTSettings F} {k : Nat}

theorem omega_prim (h : fs.WF k) {m : Nat} (hm : m ≤ k) : IsPrimitiveRoot (fs.omega (2 ^ m)) (2 ^ m) := by
  have e : 2 ^ k / 2 ^ m = 2 ^ (k - m) := Nat.pow_div hm (by omega)
  rw [FFTSettings.omega, h.width, e]
  refine h.prim.pow (by positivity) ?_
  rw [← pow_add]; congr 1; omega

theorem cast_ne (h : fs.WF k) {m : Nat} (hm : m ≤ k) : ((2 ^ m : Nat) : F) ≠ 0 := by
  have hp := h.omega_prim hm
  have : NeZero (2 ^ m) := ⟨by positivity⟩
  exact (hp.neZero').out

theorem half_neg {w : F} {m : Nat} (hw : IsPrimitiveRoot w (2 ^ m)) :
    ∀ n, m = n + 1 → w ^ (2 ^ n) = -1 := by
  intro n hn
  subst hn
  have h1 : (w ^ 2 ^ n) ^ 2 = 1 := by rw [← pow_mul, ← pow_succ, hw.pow_eq_one]
  have h2 : w ^ 2 ^ n ≠ 1 := by
    intro h
    have := Nat.le_of_dvd (by positivity) ((hw.pow_eq_one_iff_dvd _).mp h)
    rw [pow_succ] at this
    have : 0 < 2 ^ n := by positivity
    omega
  have h3 : (w ^ 2 ^ n - 1) * (w ^ 2 ^ n + 1) = 0 := by ring_nf; ring_nf at h1; rw [h1]; ring
  rcases mul_eq_zero.mp h3 with h | h
  · exact absurd (sub_eq_zero.mp h) h2
  · exact eq_neg_of_add_eq_zero_left h

/-- The function of an input list. -/
theorem getElem?_getD {data : List M} {n : Nat} (h : data.length = n) :
    ∀ j < n, data[j * 1]? = some (data.getD j 0) := by
  intro j hj
  rw [mul_one, List.getD_eq_getElem?_getD, List.getElem?_eq_getElem (by omega)]
  rfl

theorem fftFast_forward (h : fs.WF k) {m : Nat} (hm : m ≤ k) (ret data : List M)
    (hret : ret.length = 2 ^ m) (hd : data.length = 2 ^ m) :
    Sat (fftFast ret data 1 fs.expandedRoots (fs.maxWidth / 2 ^ m)) (fun r => r.length = 2 ^ m ∧
      ∀ i < 2 ^ m, r[i]? = some (dft (fs.omega (2 ^ m)) (2 ^ m) (fun j => data.getD j 0) i)) := by
  have hp := h.omega_prim hm
  refine fftFast_spec m ret data 1 _ _ _ _ hret (getElem?_getD hd) ?_ (half_neg hp)
  intro j hj
  rw [FFTSettings.omega, ← pow_mul, mul_comm]
  refine h.exp _ ?_
  rw [h.width, Nat.pow_div hm (by omega)]
  calc 2 ^ (k - m) * j ≤ 2 ^ (k - m) * 2 ^ m := Nat.mul_le_mul_left _ hj.le
    _ = 2 ^ k := by rw [← pow_add]; congr 1; omega

theorem fftFast_backward (h : fs.WF k) {m : Nat} (hm : m ≤ k) (ret data : List M)
    (hret : ret.length = 2 ^ m) (hd : data.length = 2 ^ m) :
    Sat (fftFast ret data 1 fs.reverseRoots (fs.maxWidth / 2 ^ m)) (fun r => r.length = 2 ^ m ∧
      ∀ i < 2 ^ m, r[i]? = some (dft (fs.omega (2 ^ m))⁻¹ (2 ^ m) (fun j => data.getD j 0) i)) := by
  have hp := (h.omega_prim hm).inv
  refine fftFast_spec m ret data 1 _ _ _ _ hret (getElem?_getD hd) ?_ (half_neg hp)
  intro j hj
  rw [FFTSettings.omega, ← inv_pow, ← pow_mul, mul_comm]
  refine h.rev _ ?_
  rw [h.width, Nat.pow_div hm (by omega)]
  calc 2 ^ (k - m) * j ≤ 2 ^ (k - m) * 2 ^ m := Nat.mul_le_mul_left _ hj.le
    _ = 2 ^ k := by rw [← pow_add]; congr 1; omega

theorem fft_forward (h : fs.WF k) {m : Nat} (hm : m ≤ k) (data : List M)
    (hd : data.length = 2 ^ m) :
    Sat (fs.fft data false) (fun r => r.length = 2 ^ m ∧
      ∀ i < 2 ^ m, r[i]? = some (dft (fs.omega (2 ^ m)) (2 ^ m) (fun j => data.getD j 0) i)) := by
  have hle : 2 ^ m ≤ 2 ^ k := Nat.pow_le_pow_right (by omega) hm
  obtain ⟨r, hr, hrl, hrv⟩ := h.fftFast_forward hm (List.replicate (2 ^ m) (0 : M)) data (by simp) hd
  refine ⟨r, ?_, hrl, hrv⟩
  rw [FFTSettings.fft, hd, if_neg (by rw [h.width]; omega), isPowerOfTwo_two_pow]
  simp [hr]

theorem fft_backward (h : fs.WF k) {m : Nat} (hm : m ≤ k) (data : List M)
    (hd : data.length = 2 ^ m) :
    Sat (fs.fft data true) (fun r => r.length = 2 ^ m ∧
      ∀ i < 2 ^ m, r[i]? = some (((2 ^ m : Nat) : F)⁻¹ •
        dft (fs.omega (2 ^ m))⁻¹ (2 ^ m) (fun j => data.getD j 0) i)) := by
  have hle : 2 ^ m ≤ 2 ^ k := Nat.pow_le_pow_right (by omega) hm
  obtain ⟨r, hr, hrl, hrv⟩ := h.fftFast_backward hm (List.replicate (2 ^ m) (0 : M)) data (by simp) hd
  refine ⟨r.map fun f => ((2 ^ m : Nat) : F)⁻¹ • f, ?_, by simp [hrl], ?_⟩
  · rw [FFTSettings.fft, hd, if_neg (by rw [h.width]; omega), isPowerOfTwo_two_pow]
    simp [hr]
  · intro i hi
    rw [List.getElem?_map, hrv i hi]; rfl

theorem getD_of {r : List M} {f : Nat → M} {n : Nat} (h : ∀ i < n, r[i]? = some (f i)) :
    ∀ i < n, r.getD i 0 = f i := by
  intro i hi
  rw [List.getD_eq_getElem?_getD, h i hi]; rfl

theorem ext_getD {a b : List M} {n : Nat} (ha : a.length = n) (hb : b.length = n)
    (h : ∀ i < n, a.getD i 0 = b.getD i 0) : a = b := by
  apply List.ext_getElem (by omega)
  intro i h1 h2
  have := h i (by omega)
  simpa [List.getD_eq_getElem?_getD, h1, h2] using this

theorem fft_roundtrip (h : fs.WF k) {m : Nat} (hm : m ≤ k) (data : List M)
    (hd : data.length = 2 ^ m) :
    (do let e ← fs.fft data false; fs.fft e true) = .ok data := by
  obtain ⟨e, he, hel, hev⟩ := h.fft_forward hm data hd
  obtain ⟨r, hr, hrl, hrv⟩ := h.fft_backward hm e hel
  rw [he, bind_ok, hr]
  congr 1
  refine ext_getD hrl hd fun i hi => ?_
  rw [getD_of hrv i hi]
  exact inv_dft (by positivity) (h.omega_prim hm) (h.cast_ne hm) _ _ (getD_of hev) hi

theorem fft_roundtrip' (h : fs.WF k) {m : Nat} (hm : m ≤ k) (data : List M)
    (hd : data.length = 2 ^ m) :
    (do let e ← fs.fft data true; fs.fft e false) = .ok data := by
  obtain ⟨e, he, hel, hev⟩ := h.fft_backward hm data hd
  obtain ⟨r, hr, hrl, hrv⟩ := h.fft_forward hm e hel
  rw [he, bind_ok, hr]
  congr 1
  refine ext_getD hrl hd fun i hi => ?_
  rw [getD_of hrv i hi]
  have hinv := inv_dft (w := (fs.omega (2 ^ m))⁻¹) (by positivity) (h.omega_prim hm).inv
    (h.cast_ne hm) (fun j => data.getD j 0)
    (dft (fs.omega (2 ^ m))⁻¹ (2 ^ m) (fun j => data.getD j 0)) (fun _ _ => rfl) hi
  rw [← hinv, inv_inv]
  unfold dft
  rw [smul_sum]
  refine sum_congr rfl fun j hj => ?_
  have := getD_of hev j (mem_range.mp hj)
  simp only [this, dft]
  rw [smul_comm]

end FFTSettings.WF
end
end Kzg
