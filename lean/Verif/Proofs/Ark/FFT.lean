import Verif.Proofs.FFTSlow
import Verif.Proofs.FFTPoly
import Verif.Proofs.FrLawful
import Verif.Proofs.Zk.ScalarSqrt
import Verif.Proofs.Zk.Poly
import Verif.Model.Ark.FFT
/-!
# Field elements, settings and transforms of the Arkworks backend: proofs
-/

namespace Kzg.Ark
open Res Finset

set_option linter.unusedSectionVars false

/-- The constant of the library has order `2^32`. -/
class LawfulLib (F : Type) [Field F] [Lib F] : Prop where
  prim : IsPrimitiveRoot (Lib.root : F) (2 ^ 32)

instance : LawfulLib Fr where
  prim := by
    have h : (Lib.root : Fr) ^ 2 ^ 31 = -1 := Zk.Scalar.rootInt_pow
    have h2 : ((-1 : Fr)) ≠ 1 := by decide +kernel
    refine IsPrimitiveRoot.iff_def _ _ |>.mpr ⟨?_, ?_⟩
    · rw [show (2 : ℕ) ^ 32 = 2 ^ 31 * 2 from rfl, pow_mul, h]; ring
    · intro l hl
      have hd : orderOf (Lib.root : Fr) = 2 ^ 32 := by
        refine orderOf_eq_prime_pow (p := 2) (n := 31) ?_ ?_
        · rw [h]; exact h2
        · rw [pow_succ, pow_mul, h]; ring
      rw [← hd]; exact orderOf_dvd_of_pow_eq_one hl

section
variable {F : Type} [Field F] [DecidableEq F]

theorem frInv_eq {x : F} (h : x ≠ 0) : frInv x = .ok x⁻¹ := if_neg h
theorem frInv_zero : frInv (0 : F) = .panic := if_pos rfl
theorem frDiv_eq {x y : F} (h : y ≠ 0) : frDiv x y = .ok (x / y) := by
  rw [frDiv, frInv_eq h, bind_ok, div_eq_mul_inv]
theorem frDiv_zero (x : F) : frDiv x 0 = .panic := by rw [frDiv, frInv_zero, bind_panic]

theorem arkLog2_two_pow (m : Nat) : arkLog2 (2 ^ m) = m := by
  rw [arkLog2, if_neg (by positivity), if_pos (isPowerOfTwo_two_pow m), Nat.log2_two_pow]

theorem stdNext_pow {m : Nat} (h : m ≤ 63) : ZkP.stdNextPowerOfTwo (2 ^ m) = .ok (2 ^ m) := by
  rw [ZkP.stdNextPowerOfTwo, if_pos (Nat.pow_le_pow_right (by omega) h), bitLen_two_pow_pred]

variable [Lib F]

theorem domain_pow {m : Nat} (h : m ≤ 32) : domain (F := F) (2 ^ m) = .ok (2 ^ m, Lib.root ^ 2 ^ (32 - m)) := by
  rw [domain, stdNext_pow (by omega), bind_ok]
  dsimp only
  rw [Nat.log2_two_pow, if_neg (by omega)]

/-- Settings that `settingsNew` has made. -/
structure Made (fs : FFTSettings F) (k : Nat) : Prop extends fs.WF k where
  root : fs.rootOfUnity = Lib.root ^ 2 ^ (32 - k)

theorem gen_prim [LawfulLib F] {m : Nat} (h : m ≤ 32) : IsPrimitiveRoot (Lib.root ^ 2 ^ (32 - m) : F) (2 ^ m) := by
  refine (LawfulLib.prim (F := F)).pow (by positivity) ?_
  rw [← pow_add]; congr 1; omega

theorem settingsNew_spec [LawfulLib F] {k : Nat} (hk : k < 32) : Sat (settingsNew (F := F) k) (fun fs => Made fs k) := by
  have hp := gen_prim (F := F) (m := k) (by omega)
  have hpos : 0 < 2 ^ k := by positivity
  have hsh : 1 <<< k = 2 ^ k := by rw [Nat.shiftLeft_eq, one_mul]
  set w : F := Lib.root ^ 2 ^ (32 - k) with hw
  refine ⟨⟨2 ^ k, w, (List.range (2 ^ k + 1)).map (w ^ ·),
    ((List.range (2 ^ k + 1)).map (w ^ ·)).reverse⟩, ?_, ⟨rfl, hk, hp, by simp, ?_, by simp, ?_⟩, rfl⟩
  · rw [settingsNew, if_neg (by omega)]
    dsimp only
    rw [hsh, domain_pow (by omega), bind_ok]
    dsimp only
    rw [← hw, expandRoot_spec w _ hpos hp]
    simp
  · intro i hi
    simp [List.getElem?_map, List.getElem?_range (show i < 2 ^ k + 1 by omega)]
  · intro i hi
    rw [List.getElem?_reverse (by simp; omega)]
    simp only [List.length_map, List.length_range, List.getElem?_map]
    rw [List.getElem?_range (by omega)]
    simp only [Option.map_some, Option.some.injEq]
    have hw0 : w ≠ 0 := hp.ne_zero (by omega)
    rw [inv_pow]
    have e : 2 ^ k + 1 - 1 - i = 2 ^ k - i := by omega
    rw [e]
    refine eq_inv_of_mul_eq_one_left ?_
    rw [← pow_add, Nat.sub_add_cancel hi, hp.pow_eq_one]

theorem settingsNew_err {k : Nat} (hk : 32 ≤ k) :
    settingsNew (F := F) k = .err "Scale is expected to be within root of unity matrix row size" := if_pos hk

theorem made_of_new [LawfulLib F] {k : Nat} {fs : FFTSettings F} (h : settingsNew k = .ok fs) : Made fs k := by
  by_cases hk : k < 32
  · obtain ⟨fs', h', hwf⟩ := settingsNew_spec (F := F) hk
    rw [h] at h'
    cases h'
    exact hwf
  · rw [settingsNew_err (by omega)] at h
    cases h

theorem settingsClone_eq [LawfulLib F] (fs : FFTSettings F) : settingsClone fs = .ok fs := by
  obtain ⟨o, ho, _⟩ := settingsNew_spec (F := F) (k := 0) (by omega)
  rw [settingsClone, ho, unwrap_ok, bind_ok]

theorem Made.omega_eq {fs : FFTSettings F} {k m : Nat} (h : Made fs k) (hm : m ≤ k) :
    fs.omega (2 ^ m) = Lib.root ^ 2 ^ (32 - m) := by
  have hk := h.lt
  rw [FFTSettings.omega, h.width, h.root, Nat.pow_div hm (by omega), ← pow_mul, ← pow_add]
  congr 2; omega

theorem libDft_eq (w : F) {n : Nat} (l : List F) (d : Nat → F) (hd : ∀ j < n, l.getD j 0 = d j) :
    libDft w n l = (List.range n).map fun i => dft w n d i := by
  refine List.map_congr_left fun i _ => ?_
  rw [dft]
  refine sum_congr rfl fun j hj => ?_
  rw [hd j (mem_range.mp hj), smul_eq_mul, mul_comm, mul_comm i j]

theorem eq_range_map {α : Type} {r : List α} {n : Nat} {f : Nat → α} (hl : r.length = n)
    (hv : ∀ i < n, r[i]? = some (f i)) : r = (List.range n).map f := by
  apply List.ext_getElem?
  intro i
  by_cases hi : i < n
  · rw [hv i hi, List.getElem?_map, List.getElem?_range hi]; rfl
  · rw [List.getElem?_eq_none (by omega), List.getElem?_eq_none (by simp; omega)]

/-- The transform of the library agrees with the one of blst-from-scratch. -/
theorem fftFr_eq {fs : FFTSettings F} {k m : Nat} (h : Made fs k) (hm : m ≤ k) (data : List F)
    (hd : data.length = 2 ^ m) (inv : Bool) : fftFr fs data inv = fs.fft data inv := by
  have hle : 2 ^ m ≤ 2 ^ k := Nat.pow_le_pow_right (by omega) hm
  have hk := h.lt
  have hwid : (if fs.maxWidth > data.length then data.length else fs.maxWidth) = 2 ^ m := by
    rw [hd, h.width]; split <;> omega
  have hpn : (polyNorm data).length ≤ data.length := by
    rw [ZkP.polyNorm_length]; exact ZkP.polyNormLen_le data _
  rw [fftFr, if_neg (by rw [hd, h.width]; omega), hd, isPowerOfTwo_two_pow]
  rw [hd] at hwid
  simp only [Bool.not_true, Bool.false_eq_true, if_false, hwid]
  rw [domain_pow (by omega), bind_ok]
  dsimp only
  rw [← h.omega_eq hm]
  cases inv with
  | false =>
    rw [if_neg (by simp)]
    obtain ⟨r, hr, hrl, hrv⟩ := h.fft_forward hm data hd
    rw [hr, eq_range_map hrl hrv]
    congr 1
    exact libDft_eq _ _ _ fun j _ => ZkP.polyNorm_getD _ _
  | true =>
    rw [if_pos rfl, subU_of_le (by omega), bind_ok]
    obtain ⟨r, hr, hrl, hrv⟩ := h.fft_backward hm data hd
    rw [hr, eq_range_map hrl hrv]
    rw [libDft_eq _ (n := 2 ^ m) _ (fun j => data.getD j 0), List.map_map]
    · rfl
    · intro j hj
      rw [← ZkP.polyNorm_getD data j]
      simp only [List.getD_eq_getElem?_getD]
      by_cases hj' : j < (polyNorm data).length
      · rw [List.getElem?_append_left hj']
      · rw [List.getElem?_append_right (by omega), List.getElem?_eq_none (l := polyNorm data) (by omega),
          List.getElem?_replicate]
        split <;> rfl

theorem fftFr_err_len {fs : FFTSettings F} {data : List F} (h : fs.maxWidth < data.length) (inv : Bool) :
    fftFr fs data inv = .err "data length is longer than allowed max width" := if_pos h

theorem fftFr_err_pow {fs : FFTSettings F} {data : List F} (h : data.length ≤ fs.maxWidth)
    (hp : ¬ ∃ m, data.length = 2 ^ m) (inv : Bool) :
    fftFr fs data inv = .err "data length is not power of 2" := by
  have : isPowerOfTwo data.length = false := by
    rw [← Bool.not_eq_true, isPowerOfTwo_iff]; exact hp
  rw [fftFr, if_neg (by omega), this]; rfl

theorem fftFrFast_spec [LawfulLib F] {m : Nat} (hm : m < 32) (ret data : List F) (hd : data.length = 2 ^ m)
    (hr : ret.length ≤ 2 ^ m) (stride : Nat) (roots : List F) (rs : Nat) :
    fftFrFast ret data stride roots rs =
      .ok ((List.range ret.length).map fun i => dft (Lib.root ^ 2 ^ (32 - m) : F) (2 ^ m) (fun j => data.getD j 0) i) := by
  obtain ⟨fs, hfs, hw⟩ := settingsNew_spec (F := F) hm
  obtain ⟨r, hrr, hrl, hrv⟩ := hw.fft_forward le_rfl data hd
  rw [fftFrFast, hd, arkLog2_two_pow, hfs, unwrap_ok, bind_ok, fftFr_eq hw le_rfl data hd, hrr, unwrap_ok, bind_ok,
    sliceTo, if_pos (by omega), eq_range_map hrl hrv, hw.omega_eq le_rfl, ← List.map_take, List.take_range,
    Nat.min_eq_left hr]

end

section
variable {F M : Type} [Field F] [DecidableEq F] [AddCommGroup M] [Module F M]

theorem fftG1Fast_eq (m : Nat) : ∀ (ret data : List M) (stride : Nat) (roots : List F) (rs : Nat),
    ret.length = 2 ^ m → fftG1Fast ret data stride roots rs = fftFast ret data stride roots rs := by
  induction m with
  | zero =>
    intro ret data stride roots rs h
    have h1 : ret.length = 1 := by simpa using h
    rw [fftG1Fast, fftFast]
    simp only [h1]
    rw [dif_neg (by omega), dif_neg (by omega), forRange_succ _ _ (by omega)]
    cases rd data 0 with
    | ok d => rw [bind_ok]; cases wr ret 0 d <;> rfl
    | err e => rfl
    | panic => rfl
  | succ m ih =>
    intro ret data stride roots rs h
    have hpos : 0 < 2 ^ m := by positivity
    have hh : ret.length / 2 = 2 ^ m := by rw [h, pow_succ]; omega
    rw [fftG1Fast, fftFast]
    simp only [hh]
    rw [dif_pos hpos, dif_pos hpos, ih _ _ _ _ _ (by rw [List.length_take, h, pow_succ]; omega)]
    congr 1; funext lo; congr 1; funext dh
    rw [ih _ _ _ _ _ (by rw [List.length_drop, h, pow_succ]; omega)]

theorem fftG1_eq {fs : FFTSettings F} {k m : Nat} (h : fs.WF k) (hm : m ≤ k) (data : List M)
    (hd : data.length = 2 ^ m) (inv : Bool) : fftG1 fs data inv = fs.fft data inv := by
  have hle : 2 ^ m ≤ 2 ^ k := Nat.pow_le_pow_right (by omega) hm
  have hne := h.cast_ne hm
  have hn : ¬ (2 ^ m > fs.maxWidth) := by rw [h.width]; omega
  rw [fftG1, FFTSettings.fft, hd, if_neg hn, if_neg hn, isPowerOfTwo_two_pow]
  simp only [Bool.not_true, Bool.false_eq_true, if_false]
  cases inv with
  | false =>
    simp only [Bool.false_eq_true, if_false]
    rw [fftG1Fast_eq m _ _ _ _ _ (by simp)]
    cases fftFast (List.replicate (2 ^ m) (0 : M)) data 1 fs.expandedRoots (fs.maxWidth / 2 ^ m) <;> rfl
  | true =>
    simp only [if_true]
    rw [frInv_eq hne, bind_ok, fftG1Fast_eq m _ _ _ _ _ (by simp)]

theorem fftG1_err_len {fs : FFTSettings F} {data : List M} (h : fs.maxWidth < data.length) (inv : Bool) :
    fftG1 fs data inv = .err "data length is longer than allowed max width" := if_pos h

theorem fftG1_err_pow {fs : FFTSettings F} {data : List M} (h : data.length ≤ fs.maxWidth)
    (hp : ¬ ∃ m, data.length = 2 ^ m) (inv : Bool) :
    fftG1 fs data inv = .err "data length is not power of 2" := by
  have : isPowerOfTwo data.length = false := by
    rw [← Bool.not_eq_true, isPowerOfTwo_iff]; exact hp
  rw [fftG1, if_neg (by omega), this]; rfl

/-- The quadratic transform of two and more points. -/
theorem fftG1Slow_spec (ret data : List M) (n : Nat) (hn : 2 ≤ n) (roots : List F) (rs : Nat) (w : F)
    (hret : ret.length = n) (hd : data.length = n) (hwn : w ^ n = 1)
    (hroots : ∀ j < n, roots[j * rs]? = some (w ^ j)) :
    fftG1Slow ret data 1 roots rs = .ok ((List.range n).map fun i => dft w n (fun j => data.getD j 0) i) := by
  have hdat : ∀ j < n, data[j]? = some (data.getD j 0) := by
    intro j hj
    have := FFTSettings.WF.getElem?_getD hd j hj
    simpa using this
  suffices h : Sat (fftG1Slow ret data 1 roots rs)
      (fun r => r.length = n ∧ ∀ k < n, r[k]? = some (dft w n (fun j => data.getD j 0) k)) by
    obtain ⟨r, hr, hl, hv⟩ := h
    rw [hr, eq_range_map hl hv]
  unfold fftG1Slow
  rw [hd]
  refine (forRange_inv (fun i (r : List M) => r.length = n ∧
    ∀ k < i, r[k]? = some (dft w n (fun j => data.getD j 0) k)) (Nat.zero_le _) ?_ ?_).mono ?_
  · exact ⟨hret, fun k hk => absurd hk (by omega)⟩
  · intro i r _ hi ⟨hl, hv⟩
    have h0 := hroots 0 (by omega)
    rw [Nat.zero_mul, pow_zero] at h0
    rw [rd_of_getElem? (hdat 0 (by omega)), bind_ok, rd_of_getElem? h0, bind_ok]
    refine Sat.bind (forRange_inv (fun j (s : M × List M) => s.2.length = n ∧
      (∀ k < i, s.2[k]? = some (dft w n (fun j => data.getD j 0) k)) ∧
      s.1 = ∑ j' ∈ range j, w ^ (j' * i) • data.getD j' 0 ∧ (2 ≤ j → s.2[i]? = some s.1))
      (show 1 ≤ n by omega) ?_ ?_) ?_
    · exact ⟨hl, hv, by simp, by omega⟩
    · rintro j ⟨x, r'⟩ hj1 hj ⟨hl', hv', hx, hi'⟩
      dsimp only at hl' hv' hx hi' ⊢
      have hidx : roots[(i * j) % n * rs]? = some (w ^ (j * i)) := by
        rw [hroots _ (Nat.mod_lt _ (by omega)), mul_comm j i]
        congr 1
        conv_rhs => rw [← Nat.div_add_mod (i * j) n, pow_add, pow_mul, hwn, one_pow, one_mul]
      rw [mul_one, rd_of_getElem? (hdat j hj), bind_ok, rd_of_getElem? hidx, bind_ok,
        wr_of_lt (by omega), bind_ok]
      refine Sat.ok ⟨by simp [hl'], fun k hk => ?_, ?_, fun _ => ?_⟩
      · dsimp only
        rw [List.getElem?_set_ne (by omega), hv' k hk]
      · rw [sum_range_succ, hx]
      · dsimp only
        rw [List.getElem?_set_self (by omega)]
    · rintro ⟨x, r'⟩ ⟨hl', hv', hx, hi'⟩
      dsimp only at hl' hv' hx hi' ⊢
      refine Sat.ok ⟨hl', fun k hk => ?_⟩
      rcases Nat.lt_succ_iff_lt_or_eq.mp hk with h | h
      · exact hv' k h
      · subst h; rw [hi' hn, hx]; rfl
  · intro r h; exact h

/-- Of one point nothing is stored. -/
theorem fftG1Slow_one (ret : List M) (x : M) (stride : Nat) (w : F) (roots : List F) (rs : Nat) :
    fftG1Slow ret [x] stride (w :: roots) rs = .ok ret := by
  rfl

theorem g1LinearCombination_spec (p : List M) (coeffs : List F) (len : Nat) (hp : len ≤ p.length)
    (hc : len ≤ coeffs.length) :
    g1LinearCombination p coeffs len = .ok (∑ i ∈ range len, coeffs.getD i 0 • p.getD i 0) := by
  obtain ⟨r, hr, hv⟩ := forRange_inv (body := fun i (out : M) => do
      let x ← rd p i
      let c ← rd coeffs i
      .ok (out + c • x)) (fun j x => x = ∑ i ∈ range j, coeffs.getD i 0 • p.getD i 0) (lo := 0) (hi := len)
    (s := 0) (Nat.zero_le _) (by simp) (by
      intro i x _ hi hx
      rw [rd_getD (d := 0) (by omega), bind_ok, rd_getD (d := 0) (by omega), bind_ok]
      exact Sat.ok (by rw [hx, sum_range_succ]))
  rw [g1LinearCombination, hr, hv]

theorem makeData_spec (g : M) (n : Nat) : makeData g n = .ok ((List.range n).map fun i => (i + 1) • g) := by
  rw [makeData]
  by_cases hn : n = 0
  · subst hn; rfl
  rw [if_pos hn]
  obtain ⟨r, hr, hv⟩ := forRange_inv (body := fun i (v : List M) => do
      let j ← subU i 1
      let t ← rd v j
      .ok (v ++ [t + g])) (fun j x => x = (List.range j).map fun i => (i + 1) • g) (lo := 1) (hi := n)
    (s := [g]) (by omega) (by simp) (by
      intro i v h1 hi hv
      rw [subU_of_le h1, bind_ok, hv, rd_of_getElem? (x := (i - 1 + 1) • g)
        (by rw [List.getElem?_map, List.getElem?_range (by omega)]; rfl), bind_ok]
      refine Sat.ok ?_
      rw [List.range_succ, List.map_append, List.map_singleton, show i - 1 + 1 = i by omega, succ_nsmul])
  rw [hr, hv]

end

/-! ### Conversions of the field elements -/

theorem frFromU64Arr_zero {u : List Nat} (h : frModulus ≤ wordsVal u) : frFromU64Arr u = 0 := if_neg (by omega)

theorem frFromU64Arr_lt {u : List Nat} (h : wordsVal u < frModulus) :
    frFromU64Arr u = ((wordsVal u : Nat) : Fr) := if_pos h

end Kzg.Ark
