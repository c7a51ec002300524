import Verif.Props.ZkKzg
import Verif.Props.Utils
import Verif.Proofs.FFTSlow
/-!
# Properties C90, C91, C92: transforms of points and amortised proofs of zkcrypto

Notation as in `Verif.Props.ZkKzg`; `g1Ops chk` are the operations of the library on coordinates.
-/

set_option linter.unusedSectionVars false

namespace Kzg.Props
open Kzg Kzg.Res Kzg.Zk Kzg.Zk.Top CurveConsts Polynomial ScW

theorem zk_two_ne : (2 : ScW) ≠ 0 := by
  intro h
  have h1 := congrArg el h
  rw [show (2 : ScW) = ((2 : Nat) : ScW) by norm_num, el_natCast, el_zero] at h1
  have h2 := congrArg ZMod.val h1
  rw [ZMod.val_natCast_of_lt (by decide +kernel), ZMod.val_zero] at h2
  exact absurd h2 (by norm_num)

/-! ## C90: transforms of points -/

/-- The full statement of C90 for settings of the given scale: the transform of points `d_i · g1`, of allowed length and in
either direction, gives the points whose factors are the transform of the `d_i`. -/
def FftG1Right (chk : Bool) (scale : Nat) : Prop :=
  ∀ fs : FFTSettings ScW, FFTSettings.new scale = .ok fs → ∀ m ≤ scale, ∀ (data : List G1.Proj) (d : List ScW),
    data.length = 2 ^ m → RelL At1 data d → ∀ inverse, ∃ out e, ZkP.fftG1 (g1Ops chk) fs data inverse = .ok out ∧
      fs.fftFr d inverse = .ok e ∧ RelL At1 out e

theorem zk_fft_ok {fs : FFTSettings ScW} {scale m : Nat} (hwf : fs.WF scale) (hm : m ≤ scale) (d : List ScW)
    (hd : d.length = 2 ^ m) (inverse : Bool) : ∃ e, fs.fftFr d inverse = .ok e := by
  cases inverse
  · obtain ⟨b, hb, -⟩ := hwf.fft_forward hm d hd
    exact ⟨b, hb⟩
  · obtain ⟨b, hb, -⟩ := hwf.fft_backward hm d hd
    exact ⟨b, hb⟩

/-- C90 (under a condition on the roots): right for every scale, if the rounding of the multiplication overflows for none of
the roots of unity. -/
theorem C90_fft_g1_roots (chk : Bool) {scale : Nat} {fs : FFTSettings ScW} (hfs : FFTSettings.new scale = .ok fs)
    (hr : ∀ i ≤ 2 ^ scale, ¬ RoundingOverflows (el (fs.rootOfUnity ^ i)).val) {m : Nat} (hm : m ≤ scale)
    {data : List G1.Proj} {d : List ScW} (hd : data.length = 2 ^ m) (hr' : RelL At1 data d) (inverse : Bool) :
    ∃ out e, ZkP.fftG1 (g1Ops chk) fs data inverse = .ok out ∧ fs.fftFr d inverse = .ok e ∧ RelL At1 out e := by
  obtain ⟨e, he⟩ := zk_fft_ok (wf_of_new hfs) hm d (by rw [← hr'.length, hd]) inverse
  have h := ZkP.fftG1_rel (opsAny chk) zk_two_ne (fsT_good (wf_of_new hfs) hr) hr' inverse
  rw [show fs.fftG1 d inverse = _ from he] at h
  rcases h.of_ok with ⟨out, ho, h1⟩ | ⟨hf, -⟩
  · exact ⟨out, e, ho, he, h1⟩
  · exact hf.elim

/-- C90 (partial): right in either build for all scales up to 16. Missing from the full statement `FftG1Right`: the scales 17
to 31, where it is right under the condition of `C90_fft_g1_roots`, and right or a panic with overflow checks
(`C90_debug`). -/
theorem C90_fft_g1_partial (chk : Bool) {scale : Nat} (hs : scale ≤ 16) : FftG1Right chk scale := by
  intro fs hfs m hm data d hd hr inverse
  obtain ⟨e, he⟩ := zk_fft_ok (wf_of_new hfs) hm d (by rw [← hr.length, hd]) inverse
  have h := ZkP.fftG1_rel (opsAny chk) zk_two_ne (fsT_small (wf_of_new hfs) hs) hr inverse
  rw [show fs.fftG1 d inverse = _ from he] at h
  rcases h.of_ok with ⟨out, ho, h1⟩ | ⟨hf, -⟩
  · exact ⟨out, e, ho, he, h1⟩
  · exact hf.elim

/-- C90 (debug): with overflow checks the transform is right or panics, for every scale. -/
theorem C90_debug {scale : Nat} {fs : FFTSettings ScW} (hfs : FFTSettings.new scale = .ok fs) {m : Nat} (hm : m ≤ scale)
    {data : List G1.Proj} {d : List ScW} (hd : data.length = 2 ^ m) (hr : RelL At1 data d) (inverse : Bool) :
    ZkP.fftG1 (g1Ops true) fs data inverse = .panic ∨
    ∃ out e, ZkP.fftG1 (g1Ops true) fs data inverse = .ok out ∧ fs.fftFr d inverse = .ok e ∧ RelL At1 out e := by
  obtain ⟨e, he⟩ := zk_fft_ok (wf_of_new hfs) hm d (by rw [← hr.length, hd]) inverse
  have h := ZkP.fftG1_rel opsDebug zk_two_ne (fsT_all fs) hr inverse
  rw [show fs.fftG1 d inverse = _ from he] at h
  rcases h.of_ok with ⟨out, ho, h1⟩ | ⟨-, hp⟩
  · exact Or.inr ⟨out, e, ho, he, h1⟩
  · exact Or.inl hp

/-- C90 (values): entry `k` of the forward transform is `(∑ ω^(jk) d_j) · g1`, `ω` the root of unity of the order of the
length. -/
theorem C90_values (chk : Bool) {scale : Nat} (hs : scale ≤ 16) {fs : FFTSettings ScW}
    (hfs : FFTSettings.new scale = .ok fs) {m : Nat} (hm : m ≤ scale) {data : List G1.Proj} {d : List ScW}
    (hd : data.length = 2 ^ m) (hr : RelL At1 data d) :
    ∃ ω out, IsPrimitiveRoot ω (2 ^ m) ∧ ω = fs.rootOfUnity ^ 2 ^ (scale - m) ∧
      ZkP.fftG1 (g1Ops chk) fs data false = .ok out ∧ out.length = 2 ^ m ∧
      ∀ k < 2 ^ m, ∃ q, out[k]? = some q ∧ At1 q (∑ j ∈ Finset.range (2 ^ m), ω ^ (j * k) * d.getD j 0) := by
  have hwf := wf_of_new hfs
  obtain ⟨out, e, ho, he, hR⟩ := C90_fft_g1_partial chk hs fs hfs m hm data d hd hr false
  obtain ⟨b, hb, hl, hv⟩ := hwf.fft_forward hm d (by rw [← hr.length, hd])
  rw [show fs.fftFr d false = _ from hb] at he
  cases he
  refine ⟨fs.omega (2 ^ m), out, hwf.omega_prim hm, ?_, ho, by rw [hR.length, hl], fun k hk => ?_⟩
  · rw [FFTSettings.omega, hwf.width, Nat.pow_div hm (by omega)]
  · exact hR.getElem? (hv k hk)

/-- C90 (inverse): transforming and transforming back gives points that compare equal to the given ones, one by one. -/
theorem C90_roundtrip (chk : Bool) {scale : Nat} (hs : scale ≤ 16) {fs : FFTSettings ScW}
    (hfs : FFTSettings.new scale = .ok fs) {m : Nat} (hm : m ≤ scale) {data : List G1.Proj} {d : List ScW}
    (hd : data.length = 2 ^ m) (hr : RelL At1 data d) :
    ∃ out back, ZkP.fftG1 (g1Ops chk) fs data false = .ok out ∧ ZkP.fftG1 (g1Ops chk) fs out true = .ok back ∧
      back.length = 2 ^ m ∧ ∀ (i : Nat) (p q : G1.Proj), data[i]? = some p → back[i]? = some q → p.ctEq q = true := by
  have hwf := wf_of_new hfs
  have hdl : d.length = 2 ^ m := by rw [← hr.length, hd]
  obtain ⟨out, e, ho, he, hR⟩ := C90_fft_g1_partial chk hs fs hfs m hm data d hd hr false
  have hel : e.length = 2 ^ m := by
    obtain ⟨b, hb, hl, -⟩ := hwf.fft_forward hm d hdl
    rw [show fs.fftFr d false = _ from hb] at he
    cases he
    exact hl
  obtain ⟨back, e', ho', he', hR'⟩ := C90_fft_g1_partial chk hs fs hfs m hm out e (by rw [hR.length, hel]) hR true
  have hrt := hwf.fft_roundtrip hm d hdl
  rw [show fs.fft d false = _ from he, bind_ok, show fs.fft e true = _ from he'] at hrt
  cases hrt
  refine ⟨out, back, ho, ho', by rw [hR'.length, hdl], fun i p q hp hq => ?_⟩
  have hi : i < d.length := by
    rw [← hr.length]
    exact (List.getElem?_eq_some_iff.1 hp).1
  have hdi := List.getElem?_eq_getElem hi
  obtain ⟨p', ep, h1⟩ := hr.getElem? hdi
  obtain ⟨q', eq, h2⟩ := hR'.getElem? hdi
  rw [ep] at hp
  rw [eq] at hq
  cases hp
  cases hq
  exact (at1_ctEq h1 h2).2 rfl

/-- C90 (rejection): lists longer than the width or of a length that is not a power of two are an error, whatever they
hold. -/
theorem C90_rejects (chk : Bool) (fs : FFTSettings ScW) (data : List G1.Proj) (inverse : Bool)
    (h : data.length > fs.maxWidth ∨ isPowerOfTwo data.length = false) :
    ∃ msg, ZkP.fftG1 (g1Ops chk) fs data inverse = .err msg := by
  unfold ZkP.fftG1
  by_cases h1 : data.length > fs.maxWidth
  · rw [if_pos h1]; exact ⟨_, rfl⟩
  · rw [if_neg h1, h.resolve_left h1]; exact ⟨_, rfl⟩

/-- C90 (quadratic version): `fft_g1_slow` on an output list of the length of the data gives the points that `fft_g1`
gives. -/
theorem C90_slow (chk : Bool) {scale : Nat} (hs : scale ≤ 16) {fs : FFTSettings ScW}
    (hfs : FFTSettings.new scale = .ok fs) {m : Nat} (hm : m ≤ scale) {ret data : List G1.Proj} {d d0 : List ScW}
    (hd : data.length = 2 ^ m) (hr : RelL At1 data d) (hret : ret.length = 2 ^ m) (hr0 : RelL At1 ret d0) :
    ∃ out, ZkP.fftG1Slow (g1Ops chk) ret data 1 fs.expandedRoots (fs.maxWidth / 2 ^ m) = .ok out ∧
      ∃ e, fs.fftFr d false = .ok e ∧ RelL At1 out e := by
  have hwf := wf_of_new hfs
  have hdl : d.length = 2 ^ m := by rw [← hr.length, hd]
  have hp := hwf.omega_prim hm
  have hT := fsT_small hwf hs
  have h := ZkP.fftSlow_rel (opsAny chk) hT.fwd hr0 hr 1 (fs.maxWidth / 2 ^ m)
  obtain ⟨b, hb, hbl, hbv⟩ := fftSlow_spec d0 d (2 ^ m) (by positivity) _ _ _ (by rw [← hr0.length, hret]) hdl
      hp.pow_eq_one (hwf.roots_forward hm)
  obtain ⟨e, he, hel, hev⟩ := hwf.fft_forward hm d hdl
  have hbe : b = e := by
    apply List.ext_getElem?
    intro i
    by_cases hi : i < 2 ^ m
    · rw [hbv i hi, hev i hi]
    · rw [List.getElem?_eq_none (by omega), List.getElem?_eq_none (by omega)]
  rw [hb] at h
  rcases h.of_ok with ⟨out, ho, h1⟩ | ⟨hf, -⟩
  · exact ⟨out, ho, e, he, hbe ▸ h1⟩
  · exact hf.elim

/-- Two points: the transform of `P`, `Q` is `P + Q`, `P − Q`. -/
example (chk : Bool) (p q : G1.Proj) (x y : ScW) (hp : At1 p x) (hq : At1 q y) : ∃ fs out a b,
    FFTSettings.new 1 = .ok fs ∧ ZkP.fftG1 (g1Ops chk) fs [p, q] false = .ok out ∧ out[0]? = some a ∧ out[1]? = some b ∧
      At1 a (x + y) ∧ At1 b (x - y) := by
  obtain ⟨fs, hfs, hwf⟩ := new_spec (F := ScW) (k := 1) (by norm_num)
  obtain ⟨ω, out, hω, -, ho, -, hv⟩ := C90_values chk (by norm_num) hfs (m := 1) (by norm_num) (data := [p, q]) (d := [x, y])
    rfl (.cons hp (.cons hq .nil))
  obtain ⟨a, ha, h0⟩ := hv 0 (by norm_num)
  obtain ⟨c, hc, h1⟩ := hv 1 (by norm_num)
  refine ⟨fs, out, a, c, hfs, ho, ha, hc, ?_, ?_⟩
  · convert h0 using 1
    simp [Finset.sum_range_succ]
  · have hneg : ω = -1 := hω.eq_neg_one_of_two_right
    convert h1 using 1
    simp [Finset.sum_range_succ, hneg]
    ring

/-! ## C91: amortised proofs for single points -/

/-- Factor `i` by which the amortised computation multiplies: the polynomial has `k·l` coefficients, the chunk length is
`l`, `o < l` the offset in the chunk, `ω` a root of unity of order `2k`. -/
def fkFactor {F : Type} [Field F] (ω : F) (k l o : Nat) (p : List F) (i : Nat) : F :=
  p.getD (k * l - 1 - o) 0 + ∑ j ∈ Finset.range (k - 2), ω ^ ((k + 2 + j) * i) * p.getD ((j + 2) * l - 1 - o) 0

theorem dft_tcoef {F : Type} [Field F] (ω : F) {k : Nat} (l o : Nat) (hk : 0 < k) (p : List F) (i : Nat) :
    dft ω (k * 2) (tcoef p k l o) i = fkFactor ω k l o p i := by
  unfold dft fkFactor
  by_cases h1 : k = 1
  · subst h1
    simp [Finset.sum_range_succ, tcoef]
  · rw [show k * 2 = (k + 2) + (k - 2) by omega, Finset.sum_range_add]
    congr 1
    · rw [Finset.sum_eq_single 0]
      · simp [tcoef]
      · intro j hj h0
        rw [tcoef, if_neg h0, if_neg (by have := Finset.mem_range.1 hj; omega), smul_zero]
      · intro h0
        exact absurd (Finset.mem_range.2 (by omega)) h0
    · refine Finset.sum_congr rfl fun j _ => ?_
      rw [tcoef, if_neg (by omega), if_pos (by omega), smul_eq_mul, show k + 2 + j - k = j + 2 by omega]

/-- The settings with every point replaced by its factor. -/
def factorSettings (ks : Settings) (s : ScW) (N : Nat) : KZGSettings ScW ScW ScW :=
  ⟨ks.fs, (List.range N).map (s ^ ·), (List.range N).map (s ^ ·)⟩

theorem factorSettings_rel {ks : Settings} {s : ScW} {N : Nat} (h : SetupOf ks s N) :
    ZkP.KsRel At1 At2 ks (factorSettings ks s N) := ⟨rfl, h.s1, h.s2⟩

theorem factorSettings_wf {ks : Settings} {s : ScW} {N scale : Nat} (h : ks.fs.WF scale) (hN : 2 ^ scale ≤ N) :
    (factorSettings ks s N).WF (1 : ScW) (1 : ScW) s N scale :=
  ⟨h, hN, by simp [factorSettings], by simp [factorSettings]⟩

/-- What the amortised computation multiplies by, for one offset. -/
theorem factors_good {fs : FFTSettings ScW} {scale m l o : Nat} (h : fs.WF scale) (hm : m < scale) (ho : o < l)
    {p : List ScW} (hp : p.length = 2 ^ m * l) {T : ScW → Prop}
    (hg : ∀ i < 2 ^ (m + 1), T (fkFactor (fs.omega (2 ^ (m + 1))) (2 ^ m) l o p i)) :
    ∀ t c, Kzg.toeplitzCoeffsStride p o l = .ok t → fs.fftFr t false = .ok c → ∀ w ∈ c, T w := by
  intro t c ht hc w hw
  rw [toeplitzCoeffs_spec p hp (by positivity) ho] at ht
  cases ht
  rw [← pow_succ, show fs.fftFr _ false = _ from fft_range h (show m + 1 ≤ scale from hm) _] at hc
  cases hc
  obtain ⟨i, hi, rfl⟩ := List.mem_map.1 hw
  rw [pow_succ 2 m, dft_tcoef _ _ _ (by positivity), ← pow_succ]
  exact hg i (List.mem_range.1 hi)

/-- The list of the amortised proofs: proof `j` is the proof for the `j`-th power of the root of unity `ω`. -/
def FkProofs (s ω : ScW) (l n : Nat) (p : List ScW) (proofs : List G1.Proj) : Prop :=
  proofs.length = n ∧ ∀ j < n, ∃ π, proofs[j]? = some π ∧ At1 π ((polyOf p / (X ^ l - C ((ω ^ j) ^ l))).eval s)

theorem fkProofs_of_rel {s ω ω' : ScW} {l n : Nat} {p : List ScW} {proofs : List G1.Proj} (hω : ω ^ l = ω')
    (h : RelL At1 proofs ((List.range n).map fun j => (polyOf p / (X ^ l - C (ω' ^ j))).eval s • (1 : ScW))) :
    FkProofs s ω l n p proofs := by
  refine ⟨by rw [h.length]; simp, fun j hj => h.getElem? ?_⟩
  rw [List.getElem?_map, List.getElem?_range hj, Option.map_some, smul_eq_mul, mul_one, ← pow_mul, mul_comm j, pow_mul, hω]

/-- The full statement of C91: for every polynomial of `2^m` coefficients, the settings for `2^(m+1)` can be made and the
amortised computation gives the proofs for all powers of the `2^(m+1)`-th root of unity. -/
def FkSingleRight (chk : Bool) : Prop :=
  ∀ (ks : Settings) (N scale : Nat) (s : ScW), ZkMadeFrom chk ks N scale s → 2 ^ scale ≤ N → ∀ m < scale,
    ∀ p : List ScW, p.length = 2 ^ m → ∃ fk proofs, ZkP.singleNew (g1Ops chk) ks (2 ^ (m + 1)) = .ok fk ∧
      ZkP.singleOpt (g1Ops chk) fk p = .ok proofs ∧ FkProofs s (zkCosetRoot ks scale (m + 1)) 1 (2 ^ (m + 1)) p proofs

theorem single_rel {lax : Prop} {T : ScW → Prop} {o : ZkP.PtOps ScW G1.Proj} (h : ZkP.OpsRel (M := ScW) lax At1 T o)
    {chk : Bool} {ks : Settings} {N scale : Nat} {s : ScW} (hk : ZkMadeFrom chk ks N scale s) (hN : 2 ^ scale ≤ N)
    (hT : ZkP.FsT T ks.fs) {m : Nat} (hm : m < scale) {p : List ScW} (hp : p.length = 2 ^ m)
    (hg : ∀ i < 2 ^ (m + 1), T (fkFactor (zkCosetRoot ks scale (m + 1)) (2 ^ m) 1 0 p i)) :
    (∃ fk proofs, ZkP.singleNew o ks (2 ^ (m + 1)) = .ok fk ∧ ZkP.singleOpt o fk p = .ok proofs ∧
      FkProofs s (zkCosetRoot ks scale (m + 1)) 1 (2 ^ (m + 1)) p proofs) ∨
    (lax ∧ (ZkP.singleNew o ks (2 ^ (m + 1)) = .panic ∨
      ∃ fk, ZkP.singleNew o ks (2 ^ (m + 1)) = .ok fk ∧ ZkP.singleOpt o fk p = .panic)) := by
  obtain ⟨hs, hw⟩ := hk.setup
  have hwf := factorSettings_wf (s := s) hw hN
  have hω : ks.fs.omega (2 ^ (m + 1)) = zkCosetRoot ks scale (m + 1) := zkCosetRoot_eq hk hm
  have h1 := ZkP.singleNew_rel h zk_two_ne (factorSettings_rel hs) hT (2 ^ (m + 1))
  have hnew := single_new hwf hm
  rw [hnew] at h1
  rcases h1.of_ok with ⟨fk, e, hfk⟩ | ⟨hl, e⟩
  · have h2 := ZkP.singleOpt_rel h zk_two_ne hfk hT p (fun t c ht hc => factors_good hw hm (o := 0) (l := 1) one_pos
      (by rw [hp, mul_one]) (hω.symm ▸ hg) t c ht hc)
    rw [single_opt hwf hm hnew p hp] at h2
    rcases h2.of_ok with ⟨proofs, e', hr⟩ | ⟨hl, e'⟩
    · exact Or.inl ⟨fk, proofs, e, e', fkProofs_of_rel (by rw [pow_one]; exact hω.symm) hr⟩
    · exact Or.inr ⟨hl, Or.inr ⟨fk, e, e'⟩⟩
  · exact Or.inr ⟨hl, Or.inl e⟩

/-- C91 (partial): the amortised computation is right in either build if the scale is at most 16 and the rounding of the
multiplication overflows for none of the factors it multiplies by. Missing from the full statement `FkSingleRight`: larger
scales, and polynomials with overflowing factors, for which it is false (`C91_refuted_release`, `C91_refuted_debug`). -/
theorem C91_single_partial {chk : Bool} {ks : Settings} {N scale : Nat} {s : ScW} (h : ZkMadeFrom chk ks N scale s)
    (hN : 2 ^ scale ≤ N) (hs : scale ≤ 16) {m : Nat} (hm : m < scale) {p : List ScW} (hp : p.length = 2 ^ m)
    (hg : ∀ i < 2 ^ (m + 1), ¬ RoundingOverflows (el (fkFactor (zkCosetRoot ks scale (m + 1)) (2 ^ m) 1 0 p i)).val) :
    ∃ fk proofs, ZkP.singleNew (g1Ops chk) ks (2 ^ (m + 1)) = .ok fk ∧ ZkP.singleOpt (g1Ops chk) fk p = .ok proofs ∧
      FkProofs s (zkCosetRoot ks scale (m + 1)) 1 (2 ^ (m + 1)) p proofs := by
  rcases single_rel (opsAny chk) h hN (fsT_small h.setup.2 hs) hm hp hg with h | ⟨hf, -⟩
  · exact h
  · exact hf.elim

/-- C91 (debug): with overflow checks the two calls give the proofs or panic, for every scale and polynomial. -/
theorem C91_debug {ks : Settings} {N scale : Nat} {s : ScW} (h : ZkMadeFrom true ks N scale s)
    (hN : 2 ^ scale ≤ N) {m : Nat} (hm : m < scale) {p : List ScW} (hp : p.length = 2 ^ m) :
    (∃ fk proofs, ZkP.singleNew (g1Ops true) ks (2 ^ (m + 1)) = .ok fk ∧ ZkP.singleOpt (g1Ops true) fk p = .ok proofs ∧
      FkProofs s (zkCosetRoot ks scale (m + 1)) 1 (2 ^ (m + 1)) p proofs) ∨
    ZkP.singleNew (g1Ops true) ks (2 ^ (m + 1)) = .panic ∨
    ∃ fk, ZkP.singleNew (g1Ops true) ks (2 ^ (m + 1)) = .ok fk ∧ ZkP.singleOpt (g1Ops true) fk p = .panic := by
  rcases single_rel opsDebug h hN (fsT_all _) hm hp (fun _ _ => trivial) with h | ⟨-, h⟩
  · exact Or.inl h
  · exact Or.inr h

/-- C91 (agreement): the amortised proofs of a nonzero polynomial compare equal to the proofs computed one by one. -/
theorem C91_agrees {chk : Bool} {ks : Settings} {N scale : Nat} {s : ScW} (h : ZkMadeFrom chk ks N scale s)
    (hN : 2 ^ scale ≤ N) {m : Nat} (hm : m < scale) {p : List ScW} (hp : p.length = 2 ^ m) (hp0 : polyOf p ≠ 0)
    {ω : ScW} {n : Nat} {proofs : List G1.Proj} (hf : FkProofs s ω 1 n p proofs) (j : Nat) (hj : j < n) :
    ∃ π q, proofs[j]? = some π ∧ computeProofSingle ks p (ω ^ j) = .ok q ∧ q.ctEq π = true := by
  obtain ⟨π, e, hπ⟩ := hf.2 j hj
  have hd := zk_natDegree_lt hp0
  have hlt := h.setup.2.lt
  have h30 : 2 ^ m ≤ 2 ^ 30 := Nat.pow_le_pow_right (by omega) (by omega)
  have hle : 2 ^ m ≤ 2 ^ scale := Nat.pow_le_pow_right (by omega) (by omega)
  obtain ⟨q, e', hq⟩ := h.setup.1.computeMulti p (ω ^ j) (m := 0) hp0 (by omega) (by omega)
  rw [pow_zero] at e'
  exact ⟨π, q, e, e', (at1_ctEq hq hπ).2 rfl⟩

/-- C91 (public order): `data_availability` returns the proofs of `data_availability_optimized` in bit-reversed order. -/
theorem C91_order (chk : Bool) (fk : FK20Single ScW G1.Proj G2.Proj) {m : Nat} (hm : m < 63) (p : List ScW)
    {proofs : List G1.Proj} (hl : proofs.length = 2 ^ (m + 1)) (h : ZkP.singleOpt (g1Ops chk) fk p = .ok proofs) :
    ∃ out, ZkP.singleDa (g1Ops chk) fk p = .ok out ∧ out.length = 2 ^ (m + 1) ∧
      ∀ j < 2 ^ (m + 1), ∃ r, IsBitReversal (m + 1) j r ∧ out[r]? = proofs[j]? := by
  obtain ⟨out, h1, h2, -, h4⟩ := C32_reverse_bit_order proofs (m + 1) (by omega) hl
  refine ⟨out, ?_, by omega, by rwa [hl] at h4⟩
  rw [← h1]
  have h' := h
  unfold ZkP.singleOpt at h'
  unfold ZkP.singleDa
  simp only at h' ⊢
  split at h'
  · cases h'
  · rename_i c1
    rw [if_neg c1]
    split at h'
    · cases h'
    · rename_i c2
      rw [if_neg c2, h]; rfl

/-- C91 (rejection): sizes that are not powers of two from 2 to the width are an error. -/
theorem C91_new_rejects (chk : Bool) {scale : Nat} {ks : Settings} (hw : ks.fs.maxWidth = 2 ^ scale) (n : Nat)
    (hn : ¬ ∃ m < scale, n = 2 ^ (m + 1)) : ∃ msg, ZkP.singleNew (g1Ops chk) ks n = .err msg := by
  unfold ZkP.singleNew
  simp only
  by_cases h1 : n > ks.fs.maxWidth
  · rw [if_pos h1]; exact ⟨_, rfl⟩
  rw [if_neg h1]
  by_cases h2 : isPowerOfTwo n = true
  · rw [h2, if_neg (by simp)]
    by_cases h3 : n < 2
    · rw [if_pos h3]; exact ⟨_, rfl⟩
    · obtain ⟨k, rfl⟩ := exists_of_isPowerOfTwo h2
      exfalso
      apply hn
      have hk : k ≠ 0 := by rintro rfl; simp at h3
      rw [hw] at h1
      have : k ≤ scale := (Nat.pow_le_pow_iff_right (by norm_num)).mp (not_lt.mp h1)
      exact ⟨k - 1, by omega, by congr 1; omega⟩
  · rw [if_pos (by simp [h2])]; exact ⟨_, rfl⟩

/-- C91 (rejection): polynomials whose doubled length is not a power of two within the width are an error. -/
theorem C91_rejects (chk : Bool) (fk : FK20Single ScW G1.Proj G2.Proj) (p : List ScW)
    (hp : p.length * 2 > fk.ks.fs.maxWidth ∨ isPowerOfTwo (p.length * 2) = false) :
    (∃ msg, ZkP.singleOpt (g1Ops chk) fk p = .err msg) ∧ ∃ msg, ZkP.singleDa (g1Ops chk) fk p = .err msg := by
  unfold ZkP.singleOpt ZkP.singleDa
  simp only
  by_cases h1 : p.length * 2 > fk.ks.fs.maxWidth
  · rw [if_pos h1, if_pos h1]; exact ⟨⟨_, rfl⟩, _, rfl⟩
  · rw [if_neg h1, if_neg h1, hp.resolve_left h1]; exact ⟨⟨_, rfl⟩, _, rfl⟩

theorem fft_delta {F : Type} [Field F] {fs : FFTSettings F} {scale : Nat} (hw : fs.WF scale) (h2 : 2 ≤ scale) (c : F) :
    fs.fftFr [c, 0, 0, 0] false = .ok [c, c, c, c] := by
  have e : [c, 0, 0, 0] = (List.range (2 ^ 2)).map (fun i => if i = 0 then c else 0) := rfl
  rw [e, show fs.fftFr _ false = _ from fft_range hw h2 _]
  simp [dft, List.range_succ]

theorem toeplitz_two {F : Type} [Field F] [DecidableEq F] (a c : F) :
    Kzg.toeplitzCoeffsStride [a, c] 0 1 = .ok [c, 0, 0, 0] := by
  rw [toeplitzCoeffs_spec [a, c] (k := 2) (l := 1) rfl (by norm_num) (by norm_num)]
  simp [List.range_succ, tcoef]

/-- A factor `b` that acts as `z`. -/
theorem part2_bad {chk : Bool} {b z : ScW}
    (hbz : ∀ {p : G1.Proj} {x : ScW}, At1 p x → ∃ q, (g1Ops chk).mul p b = .ok q ∧ At1 q (z * x))
    {fs : FFTSettings ScW} {scale : Nat} (hw : fs.WF scale) (h2 : 2 ≤ scale) {x : List G1.Proj}
    {x' : List ScW} (hx : RelL At1 x x') :
    Rel False (RelL At1) (ZkP.toeplitzPart2 (g1Ops chk) fs [b, 0, 0, 0] x) (fs.toeplitzPart2 [z, 0, 0, 0] x') := by
  unfold ZkP.toeplitzPart2 FFTSettings.toeplitzPart2
  rw [fft_delta hw h2, fft_delta hw h2]
  simp only [unwrap_ok, bind_ok]
  refine rel_forRange RelL.nil fun i u v _ hi huv => ?_
  refine Rel.bind (rel_rd hx i) fun a a' ha => ?_
  have hi' : i < 4 := hi
  have r1 : ∀ c : ScW, rd [c, c, c, c] i = .ok c := fun c => by
    rcases i with _ | _ | _ | _ | i
    all_goals first | rfl | omega
  rw [r1, r1, bind_ok, bind_ok]
  obtain ⟨q, e, hq⟩ := hbz ha
  rw [e, bind_ok]
  exact RelL.snoc huv hq

theorem quotient_two {F : Type} [Field F] (a c w s : F) : (polyOf [a, c] / (X ^ 1 - C w)).eval s = c := by
  have e : C (a + c * w) + (X - C w) * C c = polyOf [a, c] := by
    ext i
    rw [coeff_polyOf]
    rcases i with _ | _ | i <;> simp [sub_mul, coeff_X, coeff_C]
    ring
  rw [pow_one, ← divByMonic_eq_div _ (monic_X_sub_C w), (div_modByMonic_unique _ _ (monic_X_sub_C w) ⟨e, ?_⟩).1, eval_C]
  rw [degree_X_sub_C]
  exact lt_of_le_of_lt degree_C_le (by norm_num)

/-- C91 is false in a release build: for `a + 2^64·λ·X` the four amortised proofs are one and the same wrong point. -/
theorem C91_wrong_release {ks : Settings} {N scale : Nat} {s : ScW} {chk : Bool} (h : ZkMadeFrom chk ks N scale s)
    (hN : 2 ^ scale ≤ N) (h2 : 2 ≤ scale) (hs : scale ≤ 16) (a : ScW) :
    ∃ p fk proofs, p.length = 2 ∧ ZkP.singleNew (g1Ops false) ks 4 = .ok fk ∧ ZkP.singleOpt (g1Ops false) fk p = .ok proofs ∧
      proofs.length = 4 ∧ ∀ x, ∃ q, computeProofSingle ks p x = .ok q ∧ ∀ π ∈ proofs, q.ctEq π = false := by
  obtain ⟨hsu, hw⟩ := h.setup
  have hwf := factorSettings_wf (s := s) hw hN
  have hT := fsT_small hw hs
  have h1 := ZkP.singleNew_rel (opsAny false) zk_two_ne (factorSettings_rel hsu) hT (2 ^ (1 + 1))
  have hnew := single_new hwf (m := 1) h2
  rw [hnew] at h1
  generalize FK20Single.mk (factorSettings ks s N) _ = fk' at h1 hnew
  rcases h1.of_ok with ⟨fk, e, hfk⟩ | ⟨hf, -⟩
  swap
  · exact hf.elim
  have hle : 2 ^ 2 ≤ 2 ^ scale := Nat.pow_le_pow_right (by omega) h2
  have hfs : fk'.ks.fs = ks.fs := by
    rw [single_new hwf (m := 1) h2] at hnew
    cases hnew
    rfl
  have hr : Rel False (RelL At1) (ZkP.singleOpt (g1Ops false) fk [a, badScalar])
      (fk'.daOptimized [a, wrongScalar]) := by
    unfold ZkP.singleOpt FK20Single.daOptimized
    simp only
    rw [hfk.ks.fs, hfs]
    refine Rel.ite (Rel.err _ _) (Rel.ite (Rel.err _ _) ?_)
    rw [ZkP.toeplitzCoeffsStep, ZkP.toeplitz_eq 0 1 _ (by simp), toeplitz_two, Kzg.toeplitzCoeffsStep, toeplitz_two,
      bind_ok, bind_ok]
    refine Rel.bind (part2_bad at1_mul_bad hw h2 hfk.ext) fun u u' hu => ?_
    refine Rel.bind (ZkP.part3_rel (opsAny false) zk_two_ne hT hu) fun u u' hu => ?_
    exact (ZkP.fftG1_rel (opsAny false) zk_two_ne hT hu false).unwrap
  rw [single_opt hwf (m := 1) h2 hnew [a, wrongScalar] rfl] at hr
  rcases hr.of_ok with ⟨proofs, e', hR⟩ | ⟨hf, -⟩
  swap
  · exact hf.elim
  refine ⟨[a, badScalar], fk, proofs, rfl, e, e', by rw [hR.length]; simp, fun x => ?_⟩
  have hp0 : polyOf [a, badScalar] ≠ 0 := fun h0 => badScalar_ne (by
    have := congrArg (fun q => coeff q 1) h0
    simpa [coeff_polyOf] using this)
  have hd := zk_natDegree_lt hp0
  simp only [List.length_cons, List.length_nil] at hd
  obtain ⟨q, eq, hq⟩ := hsu.computeMulti [a, badScalar] x (m := 0) hp0 (by omega) (by omega)
  rw [pow_zero] at eq hq
  rw [quotient_two] at hq
  refine ⟨q, eq, fun π hπ => ?_⟩
  obtain ⟨j, hj⟩ := List.getElem?_of_mem hπ
  have hjl : j < 2 ^ (1 + 1) := by
    have := (List.getElem?_eq_some_iff.1 hj).1
    rw [hR.length] at this
    simpa using this
  obtain ⟨π', ej, hπ'⟩ := hR.getElem? (i := j) (by rw [List.getElem?_map, List.getElem?_range hjl]; rfl)
  rw [hj] at ej
  cases ej
  dsimp only at hπ'
  rw [quotient_two, smul_eq_mul, mul_one] at hπ'
  rw [Bool.eq_false_iff]
  exact fun hc => wrong_ne_bad ((at1_ctEq hq hπ').1 hc).symm

theorem part2_panic {fs : FFTSettings ScW} {scale : Nat} (hw : fs.WF scale) (h2 : 2 ≤ scale) {x : List G1.Proj}
    {v : G1.Proj} {y : ScW} (ev : x[0]? = some v) (hv : At1 v y) :
    ZkP.toeplitzPart2 (g1Ops true) fs [badScalar, 0, 0, 0] x = .panic := by
  unfold ZkP.toeplitzPart2
  rw [fft_delta hw h2]
  simp only [unwrap_ok, bind_ok]
  refine forRange_panic 0 (fun _ _ => True) (Nat.zero_le _) (by simp) trivial (fun i _ _ hi => absurd hi (by omega)) ?_
  intro st _
  rw [rd_of_getElem? ev, bind_ok, show rd [badScalar, badScalar, badScalar, badScalar] 0 = .ok badScalar from rfl, bind_ok,
    show (g1Ops true).mul v badScalar = .panic from at1_mul_panic hv badScalar_bad, bind_panic]

/-- C91 is false with overflow checks: for the same polynomials the computation panics. -/
theorem C91_panics_debug {ks : Settings} {N scale : Nat} {s : ScW} {chk : Bool} (h : ZkMadeFrom chk ks N scale s)
    (hN : 2 ^ scale ≤ N) (h2 : 2 ≤ scale) (hs : scale ≤ 16) (a : ScW) : ∃ p fk, p.length = 2 ∧
      ZkP.singleNew (g1Ops true) ks 4 = .ok fk ∧ ZkP.singleOpt (g1Ops true) fk p = .panic := by
  obtain ⟨hsu, hw⟩ := h.setup
  have hwf := factorSettings_wf (s := s) hw hN
  have hT := fsT_small hw hs
  have h1 := ZkP.singleNew_rel (opsAny true) zk_two_ne (factorSettings_rel hsu) hT (2 ^ (1 + 1))
  have hnew := single_new hwf (m := 1) h2
  rw [hnew] at h1
  rcases h1.of_ok with ⟨fk, e, hfk⟩ | ⟨hf, -⟩
  swap
  · exact hf.elim
  have hle : 2 ^ 2 ≤ 2 ^ scale := Nat.pow_le_pow_right (by omega) h2
  have hfs : fk.ks.fs = ks.fs := hfk.ks.fs
  obtain ⟨v, ev, hv⟩ := hfk.ext.getElem? (i := 0) (by rw [List.getElem?_map, List.getElem?_range (by norm_num)]; rfl)
  refine ⟨[a, badScalar], fk, rfl, e, ?_⟩
  unfold ZkP.singleOpt
  simp only
  rw [hfs, show [a, badScalar].length * 2 = 2 ^ 2 from rfl, if_neg (by rw [hw.width]; omega), isPowerOfTwo_two_pow,
    if_neg (by simp), ZkP.toeplitzCoeffsStep, ZkP.toeplitz_eq 0 1 _ (by simp), toeplitz_two, bind_ok]
  rw [part2_panic hw h2 ev hv, bind_panic]

/-- C91 is false in a release build. -/
theorem C91_refuted_release : ¬ FkSingleRight false := by
  intro hall
  obtain ⟨ks, s, h, -⟩ := zkMadeFrom_exists false (N := 16) (scale := 4) (by norm_num) (by norm_num)
  obtain ⟨p, fk, proofs, hp, e, e', hl, hv⟩ := C91_wrong_release h (by norm_num) (by norm_num) (by norm_num) 1
  obtain ⟨fk', proofs', f, f', hF⟩ := hall ks 16 4 s h (by norm_num) 1 (by norm_num) p hp
  rw [show 2 ^ (1 + 1) = 4 from rfl] at f hF
  rw [e] at f
  cases f
  rw [e'] at f'
  cases f'
  obtain ⟨q, eq, hq⟩ := hv (zkCosetRoot ks 4 2 ^ 0)
  have hp0 : polyOf p ≠ 0 := fun h0 => by
    rw [C88_zero_panics ks p _ h0] at eq
    cases eq
  obtain ⟨π, q', ej, eq', hc⟩ := C91_agrees h (by norm_num) (m := 1) (by norm_num) hp hp0 hF 0 (by norm_num)
  rw [eq] at eq'
  cases eq'
  rw [hq π (List.mem_of_getElem? ej)] at hc
  cases hc

/-- C91 is false with overflow checks. -/
theorem C91_refuted_debug : ¬ FkSingleRight true := by
  intro hall
  obtain ⟨ks, s, h, -⟩ := zkMadeFrom_exists true (N := 16) (scale := 4) (by norm_num) (by norm_num)
  obtain ⟨p, fk, hp, e, e'⟩ := C91_panics_debug h (by norm_num) (by norm_num) (by norm_num) 1
  obtain ⟨fk', proofs', f, f', -⟩ := hall ks 16 4 s h (by norm_num) 1 (by norm_num) p hp
  rw [show 2 ^ (1 + 1) = 4 from rfl, e] at f
  cases f
  rw [e'] at f'
  cases f'

/-- Two coefficients: the four amortised proofs of `1 + 2x` are `2·g1`. -/
example (chk : Bool) : ∃ ks s fk proofs, ZkMadeFrom chk ks 16 4 s ∧ ZkP.singleNew (g1Ops chk) ks 4 = .ok fk ∧
    ZkP.singleOpt (g1Ops chk) fk [1, 2] = .ok proofs ∧ proofs.length = 4 ∧ ∀ j < 4, ∃ π, proofs[j]? = some π ∧ At1 π 2 := by
  obtain ⟨ks, s, h, -⟩ := zkMadeFrom_exists chk (N := 16) (scale := 4) (by norm_num) (by norm_num)
  obtain ⟨fk, proofs, e, e', hl, hv⟩ := C91_single_partial h (by norm_num) (by norm_num) (m := 1) (by norm_num)
    (p := [1, 2]) rfl (by
      intro i _
      rw [fkFactor, show 2 ^ 1 - 2 = 0 from rfl, Finset.sum_range_zero, add_zero,
        show List.getD [(1 : ScW), 2] (2 ^ 1 * 1 - 1 - 0) 0 = ((2 : Nat) : ScW) by norm_num, el_natCast, ZMod.val_natCast]
      exact C54_small_scalars (lt_of_le_of_lt (Nat.mod_le _ _) (by norm_num)))
  refine ⟨ks, s, fk, proofs, h, e, e', hl, fun j hj => ?_⟩
  obtain ⟨π, ej, hπ⟩ := hv j hj
  rw [quotient_two] at hπ
  exact ⟨π, ej, hπ⟩

/-! ## C92: amortised proofs for many points -/

/-- The full statement of C92: for every polynomial of `2^(m+c)` coefficients, the settings for twice the length and chunk
length `2^c` can be made and the amortised computation gives the proofs for the first `2^(m+1)` powers of the
`2^(m+c+1)`-th root of unity. -/
def FkMultiRight (chk : Bool) : Prop :=
  ∀ (ks : Settings) (N scale : Nat) (s : ScW), ZkMadeFrom chk ks N scale s → 2 ^ scale ≤ N → ∀ m c, m + c < scale →
    ∀ p : List ScW, p.length = 2 ^ (m + c) → ∃ fk proofs,
      ZkP.multiNew (g1Ops chk) ks (2 ^ (m + c + 1)) (2 ^ c) = .ok fk ∧ ZkP.multiOpt (g1Ops chk) fk p = .ok proofs ∧
      FkProofs s (zkCosetRoot ks scale (m + c + 1)) (2 ^ c) (2 ^ (m + 1)) p proofs

theorem zkCosetRoot_pow {ks : Settings} {scale m c : Nat} (hm : m + c < scale) :
    zkCosetRoot ks scale (m + c + 1) ^ 2 ^ c = zkCosetRoot ks scale (m + 1) := by
  unfold zkCosetRoot
  rw [← pow_mul, ← pow_add]
  congr 2
  omega

theorem multi_rel {lax : Prop} {T : ScW → Prop} {o : ZkP.PtOps ScW G1.Proj} (h : ZkP.OpsRel (M := ScW) lax At1 T o)
    {chk : Bool} {ks : Settings} {N scale : Nat} {s : ScW} (hk : ZkMadeFrom chk ks N scale s) (hN : 2 ^ scale ≤ N)
    (hT : ZkP.FsT T ks.fs) {m c : Nat} (hm : m + c < scale) {p : List ScW} (hp : p.length = 2 ^ (m + c))
    (hg : ∀ u < 2 ^ c, ∀ i < 2 ^ (m + 1), T (fkFactor (zkCosetRoot ks scale (m + 1)) (2 ^ m) (2 ^ c) u p i)) :
    (∃ fk proofs, ZkP.multiNew o ks (2 ^ (m + c + 1)) (2 ^ c) = .ok fk ∧ ZkP.multiOpt o fk p = .ok proofs ∧
      FkProofs s (zkCosetRoot ks scale (m + c + 1)) (2 ^ c) (2 ^ (m + 1)) p proofs) ∨
    (lax ∧ (ZkP.multiNew o ks (2 ^ (m + c + 1)) (2 ^ c) = .panic ∨
      ∃ fk, ZkP.multiNew o ks (2 ^ (m + c + 1)) (2 ^ c) = .ok fk ∧ ZkP.multiOpt o fk p = .panic)) := by
  obtain ⟨hs, hw⟩ := hk.setup
  have hwf := factorSettings_wf (s := s) hw hN
  have hω : ks.fs.omega (2 ^ (m + 1)) = zkCosetRoot ks scale (m + 1) := zkCosetRoot_eq hk (by omega)
  have h1 := ZkP.multiNew_rel h zk_two_ne (factorSettings_rel hs) hT (2 ^ (m + c + 1)) (2 ^ c)
  have hnew := multi_new hwf hm
  rw [hnew] at h1
  rcases h1.of_ok with ⟨fk, e, hfk⟩ | ⟨hl, e⟩
  · have h2 := ZkP.multiOpt_rel h zk_two_ne hfk hT p
      (by rw [hp]; exact Nat.pow_le_pow_right (by omega) (by omega))
      (fun u hu => factors_good hw (show m < scale by omega) hu (by rw [hp, pow_add]) (hω.symm ▸ hg u hu))
    rw [multi_opt hwf hm hnew p hp] at h2
    rcases h2.of_ok with ⟨proofs, e', hr⟩ | ⟨hl, e'⟩
    · exact Or.inl ⟨fk, proofs, e, e', fkProofs_of_rel ((zkCosetRoot_pow hm).trans hω.symm) hr⟩
    · exact Or.inr ⟨hl, Or.inr ⟨fk, e, e'⟩⟩
  · exact Or.inr ⟨hl, Or.inl e⟩

/-- C92 (partial): the amortised computation is right in either build if the scale is at most 16 and the rounding of the
multiplication overflows for none of the factors it multiplies by. Missing from the full statement `FkMultiRight`: larger
scales, and polynomials with overflowing factors, for which it is false (`C92_refuted_release`, `C92_refuted_debug`). -/
theorem C92_multi_partial {chk : Bool} {ks : Settings} {N scale : Nat} {s : ScW} (h : ZkMadeFrom chk ks N scale s)
    (hN : 2 ^ scale ≤ N) (hs : scale ≤ 16) {m c : Nat} (hm : m + c < scale) {p : List ScW} (hp : p.length = 2 ^ (m + c))
    (hg : ∀ u < 2 ^ c, ∀ i < 2 ^ (m + 1),
      ¬ RoundingOverflows (el (fkFactor (zkCosetRoot ks scale (m + 1)) (2 ^ m) (2 ^ c) u p i)).val) :
    ∃ fk proofs, ZkP.multiNew (g1Ops chk) ks (2 ^ (m + c + 1)) (2 ^ c) = .ok fk ∧
      ZkP.multiOpt (g1Ops chk) fk p = .ok proofs ∧
      FkProofs s (zkCosetRoot ks scale (m + c + 1)) (2 ^ c) (2 ^ (m + 1)) p proofs := by
  rcases multi_rel (opsAny chk) h hN (fsT_small h.setup.2 hs) hm hp hg with h | ⟨hf, -⟩
  · exact h
  · exact hf.elim

/-- C92 (debug): with overflow checks the two calls give the proofs or panic, for every scale and polynomial. -/
theorem C92_debug {ks : Settings} {N scale : Nat} {s : ScW} (h : ZkMadeFrom true ks N scale s)
    (hN : 2 ^ scale ≤ N) {m c : Nat} (hm : m + c < scale) {p : List ScW} (hp : p.length = 2 ^ (m + c)) :
    (∃ fk proofs, ZkP.multiNew (g1Ops true) ks (2 ^ (m + c + 1)) (2 ^ c) = .ok fk ∧
      ZkP.multiOpt (g1Ops true) fk p = .ok proofs ∧
      FkProofs s (zkCosetRoot ks scale (m + c + 1)) (2 ^ c) (2 ^ (m + 1)) p proofs) ∨
    ZkP.multiNew (g1Ops true) ks (2 ^ (m + c + 1)) (2 ^ c) = .panic ∨
    ∃ fk, ZkP.multiNew (g1Ops true) ks (2 ^ (m + c + 1)) (2 ^ c) = .ok fk ∧
      ZkP.multiOpt (g1Ops true) fk p = .panic := by
  rcases multi_rel opsDebug h hN (fsT_all _) hm hp (fun _ _ _ _ => trivial) with h | ⟨-, h⟩
  · exact Or.inl h
  · exact Or.inr h

/-- C92 (agreement): the amortised proofs of a nonzero polynomial compare equal to the multi proofs computed one by one. -/
theorem C92_agrees {chk : Bool} {ks : Settings} {N scale : Nat} {s : ScW} (h : ZkMadeFrom chk ks N scale s)
    (hN : 2 ^ scale ≤ N) {m c : Nat} (hm : m + c < scale) {p : List ScW} (hp : p.length = 2 ^ (m + c))
    (hp0 : polyOf p ≠ 0) {ω : ScW} {n : Nat} {proofs : List G1.Proj} (hf : FkProofs s ω (2 ^ c) n p proofs) (j : Nat)
    (hj : j < n) : ∃ π q, proofs[j]? = some π ∧ computeProofMulti ks p (ω ^ j) (2 ^ c) = .ok q ∧ q.ctEq π = true := by
  obtain ⟨π, e, hπ⟩ := hf.2 j hj
  have hd := zk_natDegree_lt hp0
  have hlt := h.setup.2.lt
  have h30 : 2 ^ (m + c) ≤ 2 ^ 30 := Nat.pow_le_pow_right (by omega) (by omega)
  have hle : 2 ^ (m + c) ≤ 2 ^ scale := Nat.pow_le_pow_right (by omega) (by omega)
  obtain ⟨q, e', hq⟩ := h.setup.1.computeMulti p (ω ^ j) (m := c) hp0 (by omega) (le_trans (Nat.sub_le _ _) (by omega))
  exact ⟨π, q, e, e', (at1_ctEq hq hπ).2 rfl⟩

/-- C92 (public order): `data_availability` returns the proofs of `data_availability_optimized` in bit-reversed order. -/
theorem C92_order (chk : Bool) (fk : FK20Multi ScW G1.Proj G2.Proj) {m : Nat} (hm : m < 63) (p : List ScW)
    {proofs : List G1.Proj} (hl : proofs.length = 2 ^ (m + 1)) (h : ZkP.multiOpt (g1Ops chk) fk p = .ok proofs) :
    ∃ out, ZkP.multiDa (g1Ops chk) fk p = .ok out ∧ out.length = 2 ^ (m + 1) ∧
      ∀ j < 2 ^ (m + 1), ∃ r, IsBitReversal (m + 1) j r ∧ out[r]? = proofs[j]? := by
  obtain ⟨out, h1, h2, -, h4⟩ := C32_reverse_bit_order proofs (m + 1) (by omega) hl
  refine ⟨out, ?_, by omega, by rwa [hl] at h4⟩
  rw [← h1]
  have h' := h
  unfold ZkP.multiOpt at h'
  unfold ZkP.multiDa
  simp only at h' ⊢
  split at h'
  · cases h'
  · rename_i c1
    rw [if_neg c1]
    split at h'
    · cases h'
    · rename_i c2
      rw [if_neg c2, h]; rfl

/-- C92 (rejection): settings are an error unless size and chunk length are powers of two with `2 ≤ n ≤` width and
`2·chunk ≤ n`. -/
theorem C92_new_rejects (chk : Bool) {scale : Nat} {ks : Settings} (hw : ks.fs.maxWidth = 2 ^ scale) (n l : Nat)
    (hn : ¬ ∃ m c, m + c < scale ∧ n = 2 ^ (m + c + 1) ∧ l = 2 ^ c) :
    ∃ msg, ZkP.multiNew (g1Ops chk) ks n l = .err msg := by
  unfold ZkP.multiNew
  by_cases h1 : n > ks.fs.maxWidth
  · rw [if_pos h1]; exact ⟨_, rfl⟩
  rw [if_neg h1]
  by_cases h2 : isPowerOfTwo n = true
  · rw [h2, if_neg (by simp)]
    by_cases h3 : n < 2
    · rw [if_pos h3]; exact ⟨_, rfl⟩
    rw [if_neg h3]
    by_cases h4 : l > n / 2
    · rw [if_pos h4]; exact ⟨_, rfl⟩
    rw [if_neg h4]
    by_cases h5 : isPowerOfTwo l = true
    · exfalso
      obtain ⟨k, rfl⟩ := exists_of_isPowerOfTwo h2
      obtain ⟨c, rfl⟩ := exists_of_isPowerOfTwo h5
      apply hn
      have hk : k ≠ 0 := by rintro rfl; simp at h3
      obtain ⟨k, rfl⟩ : ∃ j, k = j + 1 := ⟨k - 1, by omega⟩
      rw [hw] at h1
      have : k + 1 ≤ scale := (Nat.pow_le_pow_iff_right (by norm_num)).mp (not_lt.mp h1)
      have hc : c ≤ k := by
        rw [pow_succ, Nat.mul_div_cancel _ (by norm_num)] at h4
        exact (Nat.pow_le_pow_iff_right (by norm_num)).mp (not_lt.mp h4)
      exact ⟨k - c, c, by omega, by congr 1; omega, rfl⟩
    · rw [if_pos (by simp [h5])]; exact ⟨_, rfl⟩
  · rw [if_pos (by simp [h2])]; exact ⟨_, rfl⟩

/-- With chunks of one coefficient, a polynomial of two coefficients whose second one acts as `z`. -/
theorem multi_two {chk : Bool} {b z : ScW}
    (hbz : ∀ {p : G1.Proj} {x : ScW}, At1 p x → ∃ q, (g1Ops chk).mul p b = .ok q ∧ At1 q (z * x))
    {ks : Settings} {N scale : Nat} {s : ScW} {chk' : Bool} (h : ZkMadeFrom chk' ks N scale s) (hN : 2 ^ scale ≤ N)
    (h2 : 2 ≤ scale) (hs : scale ≤ 16) (a : ScW) :
    ∃ fk proofs, ZkP.multiNew (g1Ops chk) ks 4 1 = .ok fk ∧ ZkP.multiOpt (g1Ops chk) fk [a, b] = .ok proofs ∧
      proofs.length = 4 ∧ ∀ π ∈ proofs, At1 π z := by
  obtain ⟨hsu, hw⟩ := h.setup
  have hwf := factorSettings_wf (s := s) hw hN
  have hT := fsT_small hw hs
  have h1 := ZkP.multiNew_rel (opsAny chk) zk_two_ne (factorSettings_rel hsu) hT (2 ^ (1 + 0 + 1)) (2 ^ 0)
  have hnew := multi_new hwf (m := 1) (c := 0) h2
  rw [hnew] at h1
  generalize e0 : FK20Multi.mk (factorSettings ks s N) (2 ^ 0) _ = fk' at h1 hnew
  rcases h1.of_ok with ⟨fk, e, hfk⟩ | ⟨hf, -⟩
  swap
  · exact hf.elim
  have hfs : fk'.ks.fs = ks.fs := by rw [← e0]; rfl
  have hch : fk'.chunkLen = 1 := by rw [← e0, pow_zero]
  have hr : Rel False (RelL At1) (ZkP.multiOpt (g1Ops chk) fk [a, b]) (fk'.daOptimized [a, z]) := by
    unfold ZkP.multiOpt FK20Multi.daOptimized
    simp only
    rw [hfk.ks.fs, hfk.chunk, hfs]
    refine Rel.ite (Rel.err _ _) (Rel.ite (Rel.err _ _) ?_)
    refine Rel.bind (Rel.refl _) ?_
    rintro k _ rfl
    refine Rel.bind (R := RelL At1) ?_ fun u u' hu => ?_
    · unfold ZkP.accumulate FK20Multi.accumulate
      rw [hfk.chunk, hch, hfk.ks.fs, hfs]
      refine rel_forRange (RelL.replicate _ at1_zero) fun i u v _ hi huv => ?_
      obtain rfl : i = 0 := by omega
      rw [ZkP.toeplitz_eq 0 1 _ (by simp), toeplitz_two, toeplitz_two, bind_ok, bind_ok]
      refine Rel.bind (rel_rd hfk.ext 0) fun f f' hf => ?_
      refine Rel.bind (part2_bad hbz hw h2 hf) fun a a' ha => ?_
      refine rel_forRange huv fun j s t _ _ hst => ?_
      refine Rel.bind (rel_rd hst j) fun x x' hx => ?_
      exact Rel.bind (rel_rd ha j) fun y y' hy => rel_wr hst j ((opsAny chk).add hx hy)
    refine Rel.bind (ZkP.part3_rel (opsAny chk) zk_two_ne hT hu) fun u u' hu => ?_
    refine Rel.bind (ZkP.clearRange_rel (opsAny chk) hu _ _) fun u u' hu => ?_
    exact (ZkP.fftG1_rel (opsAny chk) zk_two_ne hT hu false).unwrap
  rw [multi_opt hwf (m := 1) (c := 0) h2 hnew [a, z] rfl] at hr
  rcases hr.of_ok with ⟨proofs, e', hR⟩ | ⟨hf, -⟩
  swap
  · exact hf.elim
  refine ⟨fk, proofs, e, e', by rw [hR.length]; simp, fun π hπ => ?_⟩
  obtain ⟨j, hj⟩ := List.getElem?_of_mem hπ
  have hjl : j < 2 ^ (1 + 1) := by
    have := (List.getElem?_eq_some_iff.1 hj).1
    rw [hR.length] at this
    simpa using this
  obtain ⟨π', ej, hπ'⟩ := hR.getElem? (i := j) (by rw [List.getElem?_map, List.getElem?_range hjl]; rfl)
  rw [hj] at ej
  cases ej
  dsimp only at hπ'
  rw [pow_zero, quotient_two, smul_eq_mul, mul_one] at hπ'
  exact hπ'

/-- C92 is false in a release build: with chunks of one coefficient, `1 + 2^64·λ·X` gets wrong proofs. -/
theorem C92_refuted_release : ¬ FkMultiRight false := by
  intro hall
  obtain ⟨ks, s, h, -⟩ := zkMadeFrom_exists false (N := 16) (scale := 4) (by norm_num) (by norm_num)
  obtain ⟨fk, proofs, e, e', hl, hv⟩ := multi_two (chk := false) at1_mul_bad h (by norm_num) (by norm_num) (by norm_num) 1
  obtain ⟨fk', proofs', f, f', -, hF⟩ := hall ks 16 4 s h (by norm_num) 1 0 (by norm_num) [1, badScalar] rfl
  rw [show 2 ^ (1 + 0 + 1) = 4 from rfl, show 2 ^ 0 = 1 from rfl, e] at f
  cases f
  rw [e'] at f'
  cases f'
  obtain ⟨π, ej, hπ⟩ := hF 0 (by norm_num)
  rw [pow_zero 2, quotient_two] at hπ
  exact wrong_ne_bad (at1_unique (hv π (List.mem_of_getElem? ej)) hπ)

/-- C92 is false with overflow checks: for the same polynomial the computation panics. -/
theorem C92_refuted_debug : ¬ FkMultiRight true := by
  intro hall
  obtain ⟨ks, s, h, -⟩ := zkMadeFrom_exists true (N := 16) (scale := 4) (by norm_num) (by norm_num)
  obtain ⟨fk, proofs, f, f', -⟩ := hall ks 16 4 s h (by norm_num) 1 0 (by norm_num) [1, badScalar] rfl
  obtain ⟨hsu, hw⟩ := h.setup
  have hwf := factorSettings_wf (s := s) hw (show 2 ^ 4 ≤ 16 by norm_num)
  have h1 := ZkP.multiNew_rel (opsAny true) zk_two_ne (factorSettings_rel hsu) (fsT_small hw (by norm_num))
    (2 ^ (1 + 0 + 1)) (2 ^ 0)
  rw [multi_new hwf (m := 1) (c := 0) (by norm_num), f] at h1
  rcases h1.of_ok with ⟨fk', e, hfk⟩ | ⟨hf, -⟩
  swap
  · exact hf.elim
  cases e
  obtain ⟨v, ev, hv⟩ := hfk.ext.getElem? (i := 0) (by rw [List.getElem?_map, List.getElem?_range (by norm_num)]; rfl)
  obtain ⟨y, ey, hy⟩ := hv.getElem? (i := 0) (by rw [List.getElem?_map, List.getElem?_range (by norm_num)]; rfl)
  have hfs : fk.ks.fs = ks.fs := hfk.ks.fs
  have hch : fk.chunkLen = 1 := hfk.chunk
  unfold ZkP.multiOpt at f'
  simp only at f'
  have hacc : ZkP.accumulate (g1Ops true) fk [1, badScalar] (2 * 2) = .panic := by
    unfold ZkP.accumulate
    rw [hch, hfs]
    refine forRange_panic 0 (fun _ _ => True) (Nat.zero_le _) (by norm_num) trivial
      (fun i _ _ hi => absurd hi (by omega)) ?_
    intro st _
    rw [ZkP.toeplitz_eq 0 1 _ (by simp), toeplitz_two, bind_ok, rd_of_getElem? ev, bind_ok,
      part2_panic hw (by norm_num) ey hy, bind_panic]
  rw [hfs, hch, show [(1 : ScW), badScalar].length * 2 = 2 ^ 2 from rfl, if_neg (by rw [hw.width]; norm_num),
    isPowerOfTwo_two_pow, if_neg (by simp), show divU (2 ^ 2 / 2) 1 = .ok 2 from rfl, bind_ok, hacc, bind_panic] at f'
  cases f'

/-- Chunks of two: for `1 + 2x + 3x² + 4x³` and chunk length two, the factors are 4 and
3, and there are four proofs. -/
example (chk : Bool) : ∃ ks s fk proofs, ZkMadeFrom chk ks 16 4 s ∧ ZkP.multiNew (g1Ops chk) ks 8 2 = .ok fk ∧
    ZkP.multiOpt (g1Ops chk) fk [1, 2, 3, 4] = .ok proofs ∧ proofs.length = 4 := by
  obtain ⟨ks, s, h, -⟩ := zkMadeFrom_exists chk (N := 16) (scale := 4) (by norm_num) (by norm_num)
  have hsmall : ∀ n : Nat, n < 2 ^ 191 → ¬ RoundingOverflows (el ((n : Nat) : ScW)).val := fun n hn => by
    rw [el_natCast, ZMod.val_natCast]
    exact C54_small_scalars (lt_of_le_of_lt (Nat.mod_le _ _) hn)
  obtain ⟨fk, proofs, e, e', hl, hv⟩ := C92_multi_partial h (by norm_num) (by norm_num) (m := 1) (c := 1) (by norm_num)
    (p := [1, 2, 3, 4]) rfl (by
      intro u hu i _
      rw [fkFactor, show 2 ^ 1 - 2 = 0 from rfl, Finset.sum_range_zero, add_zero]
      have hu' : u < 2 := hu
      rcases u with _ | _ | u
      · rw [show List.getD [(1 : ScW), 2, 3, 4] (2 ^ 1 * 2 ^ 1 - 1 - 0) 0 = ((4 : Nat) : ScW) by norm_num]
        exact hsmall 4 (by norm_num)
      · rw [show List.getD [(1 : ScW), 2, 3, 4] (2 ^ 1 * 2 ^ 1 - 1 - (0 + 1)) 0 = ((3 : Nat) : ScW) by norm_num]
        exact hsmall 3 (by norm_num)
      · omega)
  exact ⟨ks, s, fk, proofs, h, e, e', hl⟩

end Kzg.Props
