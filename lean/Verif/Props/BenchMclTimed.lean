import Verif.Model.BenchMclTimed
import Verif.Props.Distance
import Verif.Props.MclFFT
import Verif.Props.MclKzg
/-!
# Property C206: the benchmarks of its own that mcl-kzg has
-/

set_option linter.unusedSectionVars false

namespace Kzg.Props
open Kzg Kzg.Res Kzg.Bench Kzg.Mcl Polynomial

/-- The settings of a scale and their root. -/
theorem own_settings {scale : Nat} (hs : scale < 32) :
    ∃ fs : FFTSettings Fr, Mcl.FFTSettings.new5 scale = .ok fs ∧ fs.WF scale ∧ fs.rootOfUnity = row5 scale := by
  obtain ⟨fs, he, hwf, hr⟩ := newPR5_spec (F := Fr) start_inv hs
  have hl : scale < (Tables.pr5 (F := Fr)).length := by rw [len5_fr]; exact hs
  rw [List.getElem?_eq_getElem hl, pr5_getElem hl] at hr
  exact ⟨fs, he, hwf, (Option.some.inj hr).symm⟩

theorem half_width {scale : Nat} {fs : FFTSettings Fr} (hwf : fs.WF (scale + 1)) : fs.maxWidth >>> 1 = 2 ^ scale := by
  rw [hwf.width, Nat.shiftRight_eq_div_pow, pow_succ]; simp

theorem omega_half {scale : Nat} (hs : scale + 1 < 32) {fs : FFTSettings Fr} (hwf : fs.WF (scale + 1))
    (hr : fs.rootOfUnity = row5 (scale + 1)) : fs.omega (2 ^ scale) = row5 scale := by
  rw [FFTSettings.omega, hwf.width, Nat.pow_div (by omega) (by omega), hr, Nat.add_sub_cancel_left, pow_one, row5_sq (by omega)]

section
variable [Mcl.Lib Fr]

/-- C206 (transform): the call timed for the scale `s + 1` has the data of half the domain; it returns, never with an error, the values at the
powers of the root of the scale `s`. -/
theorem C206_fft {s : Nat} (hs : s + 1 < 32) (x : Nat → Fr) :
    mclFftTimed (s + 1) x =
      .ok ((List.range (2 ^ s)).map fun i => (polyOf ((List.range (2 ^ s)).map x)).eval (row5 s ^ i)) := by
  obtain ⟨fs, he, hwf, hr⟩ := own_settings hs
  unfold mclFftTimed
  rw [he, bind_ok]
  simp only
  rw [half_width hwf, Mcl.fft_eq hwf (Nat.le_succ s) (by simp) false (by simp), hwf.fft_eval (Nat.le_succ s) _ (by simp), omega_half hs hwf hr]

/-- C206 (transform, half the size): what is timed under the name of a scale is the full transform of the scale below. -/
theorem C206_fft_half {s : Nat} (hs : s + 1 < 32) (x : Nat → Fr) :
    mclFftTimed (s + 1) x = (do
      let fs ← Mcl.FFTSettings.new5 s
      Mcl.fft fs ((List.range fs.maxWidth).map x) false) := by
  obtain ⟨fs, he, hwf, hr⟩ := own_settings (scale := s) (by omega)
  rw [C206_fft hs x, he, bind_ok, hwf.width, Mcl.fft_eq hwf le_rfl (by simp) false (by simp), hwf.fft_eval le_rfl _ (by simp)]
  rw [FFTSettings.omega, hwf.width, Nat.div_self (by positivity), pow_one, hr]

/-- C206 (transform of points): the same for multiples of the generator. -/
theorem C206_fft_g1 {G : Type} [AddCommGroup G] [Module Fr G] (g : G) {s : Nat} (hs : s + 1 < 32) (x : Nat → Fr) :
    mclFftG1Timed g (s + 1) x =
      .ok ((List.range (2 ^ s)).map fun i => (polyOf ((List.range (2 ^ s)).map x)).eval (row5 s ^ i) • g) := by
  obtain ⟨fs, he, hwf, hr⟩ := own_settings hs
  have hm : MadeSettings fs (s + 1) := ⟨hs, .inl he⟩
  unfold mclFftG1Timed
  rw [he, bind_ok]
  simp only
  rw [half_width hwf]
  obtain ⟨ω, out, hω, -, ho, hl, hv⟩ := C98_fft_g1 hm (Nat.le_succ s) ((List.range (2 ^ s)).map fun i => x i • g) (by simp)
  rw [ho]
  congr 1
  apply List.ext_getElem?
  intro k
  simp only [List.length_map, List.length_range] at hl hv
  by_cases hk : k < 2 ^ s
  · have hω' : ω = row5 s := by
      rw [hω, hr, Nat.add_sub_cancel_left, pow_one, row5_sq (by omega)]
    rw [hv k hk, List.getElem?_map, List.getElem?_range hk, Option.map_some, hω']
    congr 1
    rw [polyOf, eval_finsetSum, Finset.sum_smul]
    simp only [List.length_map, List.length_range]
    refine Finset.sum_congr rfl fun j hj => ?_
    have hj' := Finset.mem_range.1 hj
    have e : ∀ {α : Type} (f : Nat → α) (d : α), ((List.range (2 ^ s)).map f).getD j d = f j := fun f d => by
      rw [List.getD_eq_getElem?_getD, List.getElem?_map, List.getElem?_range hj']; rfl
    rw [e, e, eval_mul, eval_C, eval_pow, eval_X, smul_smul, ← pow_mul, mul_comm (x j), mul_comm k j]
  · rw [List.getElem?_eq_none (by omega), List.getElem?_eq_none (by simpa using hk)]

omit [Mcl.Lib Fr] in
/-- Values on every second power determine a polynomial of the degree. -/
theorem eq_of_evens {F : Type} [Field F] {m : Nat} {ω : F} (hω : IsPrimitiveRoot ω (2 ^ (m + 1))) {p q : F[X]} (hp : p.degree < (2 ^ m : Nat))
    (hq : q.degree < (2 ^ m : Nat)) (h : ∀ i < 2 ^ m, p.eval (ω ^ (2 * i)) = q.eval (ω ^ (2 * i))) : p = q := by
  refine eq_of_degrees_lt_of_eval_index_eq (s := Finset.range (2 ^ m)) (v := fun i => ω ^ (2 * i)) ?_ (by simpa using hp) (by simpa using hq)
    fun i hi => h i (Finset.mem_range.1 hi)
  intro i hi j hj e
  have h1 := Finset.mem_range.1 (Finset.mem_coe.1 hi)
  have h2 := Finset.mem_range.1 (Finset.mem_coe.1 hj)
  have hp2 : 2 ^ (m + 1) = 2 * 2 ^ m := by rw [pow_succ, mul_comm]
  have := hω.pow_inj (by omega) (by omega) e
  omega

/-- C206 (extension, repeated): the vector is extended in place, so the calls after the first work on the results of those before. There is one
polynomial of degree below the number of data such that after `k` calls the vector holds its values at the powers `k`, `k + 2`, … of the root; no
call is an error. -/
theorem C206_das_runs {s : Nat} (hs : s + 1 < 32) (x : Nat → Fr) :
    ∃ (ω : Fr) (p : Fr[X]), IsPrimitiveRoot ω (2 ^ (s + 1)) ∧ p.degree < (2 ^ s : Nat) ∧ (∀ i < 2 ^ s, p.eval (ω ^ (2 * i)) = x i) ∧
      ∀ k, mclDasTimed (s + 1) x k = .ok ((List.range (2 ^ s)).map fun i => p.eval (ω ^ (2 * i + k))) := by
  obtain ⟨fs, he, hwf, -⟩ := own_settings hs
  have hp2 : 2 ^ (s + 1) = 2 * 2 ^ s := by rw [pow_succ, mul_comm]
  obtain ⟨ω, hω, hd⟩ := isCode_of (das := Mcl.das fs) hwf le_rfl fun evens odds hl _ h => by rw [Mcl.das_eq hwf le_rfl hl, h]
  have val : ∀ {f : Nat → Fr} {odds : List Fr} {q : Fr[X]}, odds.length = 2 ^ s →
      (∀ i < 2 ^ (s + 1), (interleave ((List.range (2 ^ s)).map f) odds)[i]? = some (q.eval (ω ^ i))) →
      (∀ i < 2 ^ s, q.eval (ω ^ (2 * i)) = f i) ∧ odds = (List.range (2 ^ s)).map fun i => q.eval (ω ^ (2 * i + 1)) := by
    intro f odds q hl hv
    have hi := interleave_getElem? ((List.range (2 ^ s)).map f) odds (by simp [hl])
    constructor
    · intro i hlt
      have h1 := hv (2 * i) (by omega)
      rw [(hi i).1, List.getElem?_map, List.getElem?_range hlt] at h1
      exact (Option.some.inj h1).symm
    · apply List.ext_getElem?
      intro i
      by_cases hlt : i < 2 ^ s
      · rw [← (hi i).2, hv _ (by omega), List.getElem?_map, List.getElem?_range hlt]; rfl
      · rw [List.getElem?_eq_none (by omega), List.getElem?_eq_none (by simpa using hlt)]
  obtain ⟨o, p, -, hol, hp, hv⟩ := hd ((List.range (2 ^ s)).map x) (by simp)
  have hx := (val hol hv).1
  refine ⟨ω, p, hω, hp, hx, fun k => ?_⟩
  unfold mclDasTimed
  rw [he, bind_ok]
  simp only
  rw [half_width hwf]
  obtain ⟨r, hr, hri⟩ := forRange_inv (lo := 0) (hi := k) (s := (List.range (2 ^ s)).map x) (body := fun _ data => Mcl.das fs data)
    (fun j d => d = (List.range (2 ^ s)).map fun i => p.eval (ω ^ (2 * i + j))) (by omega)
    (List.map_congr_left fun i hi => (hx i (List.mem_range.1 hi)).symm) (fun j d _ _ hdj => by
      subst hdj
      obtain ⟨odds, q, e, hl, hq, hqv⟩ := hd ((List.range (2 ^ s)).map fun i => p.eval (ω ^ (2 * i + j))) (by simp)
      obtain ⟨h1, h2⟩ := val hl hqv
      have hqp : q = p.comp (C (ω ^ j) * X) := by
        refine eq_of_evens hω hq ?_ fun i hi => ?_
        · rw [degree_lt_iff_coeff_zero] at hp ⊢
          intro n hn
          rw [comp_C_mul_X_coeff, hp n hn, zero_mul]
        · rw [h1 i hi, eval_comp, eval_mul, eval_C, eval_X, ← pow_add, add_comm]
      refine ⟨odds, e, ?_⟩
      rw [h2, hqp]
      refine List.map_congr_left fun i _ => ?_
      rw [eval_comp, eval_mul, eval_C, eval_X, ← pow_add]
      congr 2
      omega)
  rw [hr, hri]

/-- C206 (extension, the data come back): after two calls the vector holds the data it began with, moved by one place, and after `2^(s+1)` calls
the data themselves. -/
theorem C206_das_returns {s : Nat} (hs : s + 1 < 32) (x : Nat → Fr) :
    mclDasTimed (s + 1) x 2 = .ok ((List.range (2 ^ s)).map fun i => x ((i + 1) % 2 ^ s)) ∧
    mclDasTimed (s + 1) x (2 ^ (s + 1)) = .ok ((List.range (2 ^ s)).map x) := by
  obtain ⟨ω, p, hω, -, hx, hk⟩ := C206_das_runs hs x
  have hp2 : 2 ^ (s + 1) = 2 * 2 ^ s := by rw [pow_succ, mul_comm]
  have hpos : 0 < 2 ^ s := by positivity
  rw [hk, hk]
  constructor
  · congr 1
    refine List.map_congr_left fun i hi => ?_
    have hlt := List.mem_range.1 hi
    rw [← hx _ (Nat.mod_lt _ hpos)]
    by_cases h : i + 1 < 2 ^ s
    · rw [Nat.mod_eq_of_lt h]; rfl
    · rw [show i + 1 = 2 ^ s by omega, Nat.mod_self, show 2 * i + 2 = 2 ^ (s + 1) by omega, hω.pow_eq_one, mul_zero, pow_zero]
  · congr 1
    refine List.map_congr_left fun i hi => ?_
    rw [pow_add, hω.pow_eq_one, mul_one, hx i (List.mem_range.1 hi)]

/-- Scale 2, whose domain has four points: two values are transformed, with the root `-1`. -/
example (a b : Fr) : mclFftTimed 2 (fun i => if i = 0 then a else b) = .ok [a + b, a - b] := by
  have h : row5 1 = -1 := by
    have h : 1 ≤ frModulus := by decide +kernel
    rw [row5, row5_one, Nat.cast_sub h]; simp
  rw [C206_fft (s := 1) (by norm_num), h]
  simp [List.range_succ, polyOf, Finset.sum_range_succ, sub_eq_add_neg]

/-- A vector of two random elements: the second call swaps them. -/
example (a b : Fr) : mclDasTimed 2 (fun i => if i = 0 then a else b) 2 = .ok [b, a] := by
  rw [(C206_das_returns (s := 1) (by norm_num) _).1]
  simp [List.range_succ]

end

/-- C206 (commitment): the setup has as many points as the polynomial has coefficients; the call timed returns the value at the secret times the
generator, for every polynomial and secret, and is no error. -/
theorem C206_commit {G1 G2 GT : Type} [AddCommGroup G1] [Module Fr G1] [AddCommGroup G2] [Module Fr G2] [CommGroup GT] [DecidableEq GT]
    {B : Mcl.Backend G1 G2 GT} {g1 : G1} {g2 : G2} (hB : B.Lawful g1 g2) (secret : Fr) (poly : List Fr) :
    mclCommitTimed B g1 g2 secret poly = .ok ((polyOf poly).eval secret • g1) := by
  unfold mclCommitTimed curveNew
  rw [powersLoop_eq, bind_ok]
  obtain ⟨fs, -, hwf, -⟩ := own_settings (scale := 0) (by norm_num)
  exact WF.commit hB (ks := ⟨fs, (List.range poly.length).map fun i => secret ^ i • g1, (List.range poly.length).map fun i => secret ^ i • g2⟩)
    (N := poly.length) (K := 0) ⟨hwf, rfl, rfl⟩ poly le_rfl

/-- Secret 5 and `1 + 2X + 3X²`. -/
example : mclCommitTimed mclToy 1 1 5 [1, 2, 3] = .ok 86 := by
  rw [C206_commit mclToy_lawful]
  simp [polyOf, Finset.sum_range_succ]
  norm_num

end Kzg.Props
