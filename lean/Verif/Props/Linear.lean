import Verif.Props.FK20
import Verif.Props.MclFK20
import Verif.Props.ArkFK20
import Verif.Props.ZkFK20
import Verif.Props.Distance
/-!
# Property C194: results for a combination are the combination of the results

Transforms, the extension, commitments and the amortised proofs, for `a p + b q` with any scalars `a` and `b`.
-/

set_option linter.unusedSectionVars false

namespace Kzg.Props
open Kzg Kzg.Res Kzg.Zk.Top Polynomial

section
variable {F : Type} [Field F] {A B : Type} [AddCommGroup A] [Module F A] [AddCommGroup B] [Module F B]

/-- The entries `a x + b y` of two lists. -/
def lin (a b : F) (xs ys : List A) : List A := List.zipWith (fun x y => a • x + b • y) xs ys

/-- The function succeeds on all lists of length `n`, and what it returns for a combination of two lists is the combination of what it
returns for them. -/
def IsLinear (F : Type) [Field F] [Module F A] [Module F B] (f : List A → Res (List B)) (n : Nat) : Prop :=
  ∀ (a b : F) (xs ys : List A), xs.length = n → ys.length = n →
    ∃ us vs, f xs = .ok us ∧ f ys = .ok vs ∧ us.length = vs.length ∧ f (lin a b xs ys) = .ok (lin a b us vs)

theorem lin_length (a b : F) {xs ys : List A} {n : Nat} (hx : xs.length = n) (hy : ys.length = n) : (lin a b xs ys).length = n := by
  rw [lin, List.length_zipWith, hx, hy, min_self]

theorem lin_getD (a b : F) {xs ys : List A} (h : xs.length = ys.length) (i : Nat) :
    (lin a b xs ys).getD i 0 = a • xs.getD i 0 + b • ys.getD i 0 := by
  rw [lin, List.getD_eq_getElem?_getD, List.getD_eq_getElem?_getD, List.getD_eq_getElem?_getD, List.getElem?_zipWith]
  by_cases hi : i < xs.length
  · rw [List.getElem?_eq_getElem hi, List.getElem?_eq_getElem (h ▸ hi)]; rfl
  · rw [List.getElem?_eq_none (not_lt.1 hi), List.getElem?_eq_none (by omega)]; simp

theorem lin_map (a b : F) (n : Nat) (f g : Nat → B) :
    lin a b ((List.range n).map f) ((List.range n).map g) = (List.range n).map fun i => a • f i + b • g i := by
  rw [lin, List.zipWith_map, List.zipWith_self]

theorem isLinear_of {f : List A → Res (List B)} {n k : Nat} (φ : List A → Nat → B)
    (h : ∀ xs, xs.length = n → f xs = .ok ((List.range k).map (φ xs)))
    (hφ : ∀ (a b : F) xs ys, xs.length = n → ys.length = n → ∀ i < k, φ (lin a b xs ys) i = a • φ xs i + b • φ ys i) :
    IsLinear F f n := by
  intro a b xs ys hx hy
  refine ⟨_, _, h xs hx, h ys hy, by simp, ?_⟩
  rw [h _ (lin_length a b hx hy), lin_map]
  congr 1
  exact List.map_congr_left fun i hi => hφ a b xs ys hx hy i (List.mem_range.1 hi)

theorem polyOf_lin (a b : F) {p q : List F} (h : p.length = q.length) : polyOf (lin a b p q) = C a * polyOf p + C b * polyOf q := by
  ext i
  rw [coeff_add, coeff_C_mul, coeff_C_mul, coeff_polyOf, coeff_polyOf, coeff_polyOf, lin_getD a b h, smul_eq_mul, smul_eq_mul]

theorem degC_lt (a : F) {p : F[X]} {n : WithBot Nat} (h : p.degree < n) : (C a * p).degree < n := by
  refine lt_of_le_of_lt ?_ h
  rw [← smul_eq_C_mul]
  exact degree_smul_le a p

theorem lin_div (a b : F) (p q : F[X]) {d : F[X]} (hd : d.Monic) : (C a * p + C b * q) / d = C a * (p / d) + C b * (q / d) := by
  rw [← divByMonic_eq_div _ hd, ← divByMonic_eq_div _ hd, ← divByMonic_eq_div _ hd]
  refine (div_modByMonic_unique _ (C a * (p %ₘ d) + C b * (q %ₘ d)) hd ⟨?_, ?_⟩).1
  · have h1 := modByMonic_add_div p d
    have h2 := modByMonic_add_div q d
    linear_combination (C a) * h1 + (C b) * h2
  · refine (degree_add_le _ _).trans_lt (max_lt ?_ ?_) <;>
      exact degC_lt _ (degree_modByMonic_lt _ hd)

/-- The values of the amortised proofs. -/
theorem lin_quotient (a b : F) {p q : List F} (h : p.length = q.length) {l : Nat} (hl : l ≠ 0) (w s : F) (g : A) :
    (polyOf (lin a b p q) / (X ^ l - C w)).eval s • g =
      a • (polyOf p / (X ^ l - C w)).eval s • g + b • (polyOf q / (X ^ l - C w)).eval s • g := by
  rw [polyOf_lin a b h, lin_div a b _ _ (monic_X_pow_sub_C w hl), eval_add, eval_mul, eval_mul, eval_C, eval_C, add_smul, mul_smul, mul_smul]

theorem lin_take (a b : F) (n : Nat) (xs ys : List A) : (lin a b xs ys).take n = lin a b (xs.take n) (ys.take n) := by
  rw [lin, List.take_zipWith, lin]

theorem lin_dft (a b : F) {xs ys : List A} (h : xs.length = ys.length) (w : F) (n k : Nat) :
    dft w n (fun j => (lin a b xs ys).getD j 0) k = a • dft w n (fun j => xs.getD j 0) k + b • dft w n (fun j => ys.getD j 0) k := by
  rw [dft, dft, dft, Finset.smul_sum, Finset.smul_sum, ← Finset.sum_add_distrib]
  refine Finset.sum_congr rfl fun j _ => ?_
  rw [lin_getD a b h, smul_add, smul_comm, smul_comm _ b]

theorem list_of_values {r : List A} {n : Nat} {φ : Nat → A} (hl : r.length = n) (h : ∀ i < n, r[i]? = some (φ i)) :
    r = (List.range n).map φ := by
  refine List.ext_getElem? fun i => ?_
  by_cases hi : i < n
  · rw [h i hi, List.getElem?_map, List.getElem?_range hi]; rfl
  · rw [List.getElem?_eq_none (by omega), List.getElem?_eq_none (by simp; omega)]

theorem fft_linear [DecidableEq F] {fs : FFTSettings F} {k m : Nat} (h : fs.WF k) (hm : m ≤ k) (inverse : Bool) :
    IsLinear F (fun d : List A => fs.fft d inverse) (2 ^ m) := by
  cases inverse
  · refine isLinear_of (k := 2 ^ m) (fun d i => dft (fs.omega (2 ^ m)) (2 ^ m) (fun j => d.getD j 0) i) (fun d hd => ?_) ?_
    · obtain ⟨r, hr, hl, hv⟩ := h.fft_forward hm d hd
      rw [hr, list_of_values hl hv]
    · intro a b xs ys hx hy i _
      exact lin_dft a b (by omega) _ _ _
  · refine isLinear_of (k := 2 ^ m)
      (fun d i => ((2 ^ m : Nat) : F)⁻¹ • dft (fs.omega (2 ^ m))⁻¹ (2 ^ m) (fun j => d.getD j 0) i) (fun d hd => ?_) ?_
    · obtain ⟨r, hr, hl, hv⟩ := h.fft_backward hm d hd
      rw [hr, list_of_values hl hv]
    · intro a b xs ys hx hy i _
      rw [lin_dft a b (by omega), smul_add, smul_comm, smul_comm _ b]

theorem IsLinear.congr {f g : List A → Res (List B)} {n : Nat} (h : IsLinear F f n) (e : ∀ xs, xs.length = n → g xs = f xs) :
    IsLinear F g n := by
  intro a b xs ys hx hy
  rw [e xs hx, e ys hy, e _ (lin_length a b hx hy)]
  exact h a b xs ys hx hy

theorem IsLinear.neg {f g : List A → Res (List B)} {n : Nat} (h : IsLinear F f n)
    (e : ∀ xs, xs.length = n → g xs = (f xs >>= fun r => .ok (r.map fun x => -x))) : IsLinear F g n := by
  intro a b xs ys hx hy
  obtain ⟨us, vs, h1, h2, h3, h4⟩ := h a b xs ys hx hy
  refine ⟨us.map fun x => -x, vs.map fun x => -x, by rw [e xs hx, h1, bind_ok], by rw [e ys hy, h2, bind_ok], by simpa using h3, ?_⟩
  rw [e _ (lin_length a b hx hy), h4, bind_ok, lin, lin, List.map_zipWith, List.zipWith_map]
  congr 2
  funext x y
  rw [smul_neg, smul_neg, neg_add]

theorem IsCode.linear [DecidableEq F] {das : List F → Res (List F)} {m : Nat} (h : IsCode das m) : IsLinear F das (2 ^ m) := by
  obtain ⟨ω, hω, h⟩ := h
  have hp2 : 2 ^ (m + 1) = 2 * 2 ^ m := by rw [pow_succ, mul_comm]
  have hpos : 0 < 2 ^ m := by positivity
  have split : ∀ (evens odds : List F) (p : F[X]), evens.length = 2 ^ m → odds.length = 2 ^ m →
      (∀ i < 2 ^ (m + 1), (interleave evens odds)[i]? = some (p.eval (ω ^ i))) →
      (∀ i < 2 ^ m, evens.getD i 0 = p.eval (ω ^ (2 * i))) ∧ odds = (List.range (2 ^ m)).map fun i => p.eval (ω ^ (2 * i + 1)) := by
    intro evens odds p he ho hv
    constructor
    · intro i hi
      have := hv (2 * i) (by omega)
      rw [(interleave_getElem? _ _ (by omega) i).1] at this
      rw [List.getD_eq_getElem?_getD, this]; rfl
    · refine list_of_values ho fun i hi => ?_
      have := hv (2 * i + 1) (by omega)
      rwa [(interleave_getElem? _ _ (by omega) i).2] at this
  intro a b xs ys hx hy
  obtain ⟨us, p, h1, h2, h3, h4⟩ := h xs hx
  obtain ⟨vs, q, k1, k2, k3, k4⟩ := h ys hy
  obtain ⟨ws, r, l1, l2, l3, l4⟩ := h _ (lin_length a b hx hy)
  obtain ⟨e1, o1⟩ := split _ _ _ hx h2 h4
  obtain ⟨e2, o2⟩ := split _ _ _ hy k2 k4
  obtain ⟨e3, o3⟩ := split _ _ _ (lin_length a b hx hy) l2 l4
  refine ⟨us, vs, h1, k1, by omega, ?_⟩
  have hr : r = C a * p + C b * q := by
    have hprim : IsPrimitiveRoot (ω ^ 2) (2 ^ m) := hω.pow (by positivity) hp2
    refine eq_of_degrees_lt_of_eval_index_eq (s := Finset.range (2 ^ m)) (v := fun i => ω ^ (2 * i)) ?_ ?_ ?_ ?_
    · intro i hi j hj e
      dsimp only at e
      rw [pow_mul, pow_mul] at e
      exact hprim.pow_inj (Finset.mem_range.1 hi) (Finset.mem_range.1 hj) e
    · rwa [Finset.card_range]
    · rw [Finset.card_range]
      exact (degree_add_le _ _).trans_lt (max_lt (degC_lt _ h3) (degC_lt _ k3))
    · intro i hi
      have hi := Finset.mem_range.1 hi
      rw [← e3 i hi, lin_getD a b (by omega), e1 i hi, e2 i hi, eval_add, eval_mul, eval_mul, eval_C, eval_C, smul_eq_mul, smul_eq_mul]
  rw [l1, o3, o1, o2, lin_map, hr]
  congr 1
  refine List.map_congr_left fun i _ => ?_
  rw [eval_add, eval_mul, eval_mul, eval_C, eval_C, smul_eq_mul, smul_eq_mul]

end

section
variable {G : Type} [AddCommGroup G] [Module Fr G]

/-- C194 (blst-from-scratch, transforms and extension). -/
theorem C194_blst_transforms {scale : Nat} {fs : FFTSettings Fr} (hfs : FFTSettings.new scale = .ok fs) {m : Nat} (hm : m ≤ scale)
    (inverse : Bool) :
    IsLinear Fr (fun d : List Fr => fs.fftFr d inverse) (2 ^ m) ∧ IsLinear Fr (fun d : List G => fs.fftG1 d inverse) (2 ^ m) ∧
      (m + 1 ≤ scale → IsLinear Fr fs.dasFftExtension (2 ^ m)) :=
  ⟨fft_linear (wf_of_new hfs) hm inverse, fft_linear (wf_of_new hfs) hm inverse,
    fun h => (isCode_of (wf_of_new hfs) h fun _ _ _ _ e => e).linear⟩

/-- C194 (mcl-kzg, transforms and extension), also for `2^31` values, for which the inverse transforms are negated (C96, C98). -/
theorem C194_mcl_transforms [Mcl.Lib Fr] {scale : Nat} {fs : FFTSettings Fr} (hfs : MadeSettings fs scale) {m : Nat} (hm : m ≤ scale)
    (inverse : Bool) :
    IsLinear Fr (fun d : List Fr => Mcl.fft fs d inverse) (2 ^ m) ∧ IsLinear Fr (fun d : List G => Mcl.fftG1 fs d inverse) (2 ^ m) ∧
      (m + 1 ≤ scale → IsLinear Fr (Mcl.das fs) (2 ^ m)) := by
  have hwf := hfs.wf
  have hlt := hwf.lt
  refine ⟨?_, ?_, fun h => (isCode_of hwf h fun evens odds hl _ e => by rw [Mcl.das_eq hwf h hl, e]).linear⟩
  all_goals
    by_cases h30 : inverse = true → m ≤ 30
  · exact (fft_linear hwf hm inverse).congr fun xs hx => Mcl.fft_eq hwf hm hx inverse h30
  · obtain ⟨rfl, h30⟩ := Classical.not_imp.1 h30
    obtain rfl : m = 31 := by omega
    obtain rfl : scale = 31 := by omega
    exact (fft_linear hwf hm true).neg fun xs hx => Mcl.fft_31 hwf xs hx
  · exact (fft_linear hwf hm inverse).congr fun xs hx => Mcl.fftG1_eq hwf hm hx inverse h30
  · obtain ⟨rfl, h30⟩ := Classical.not_imp.1 h30
    obtain rfl : m = 31 := by omega
    obtain rfl : scale = 31 := by omega
    exact (fft_linear hwf hm true).neg fun xs hx => Mcl.fftG1_31 hwf xs hx

/-- C194 (Arkworks, transforms and extension). -/
theorem C194_ark_transforms {scale : Nat} {fs : FFTSettings Fr} (hfs : Ark.settingsNew scale = .ok fs) {m : Nat} (hm : m ≤ scale)
    (inverse : Bool) :
    IsLinear Fr (fun d : List Fr => Ark.fftFr fs d inverse) (2 ^ m) ∧ IsLinear Fr (fun d : List G => Ark.fftG1 fs d inverse) (2 ^ m) ∧
      (m + 1 ≤ scale → IsLinear Fr (Ark.das fs) (2 ^ m)) := by
  have hmade := Ark.made_of_new hfs
  have hwf := hmade.toWF
  exact ⟨(fft_linear hwf hm inverse).congr fun xs hx => Ark.fftFr_eq hmade hm xs hx inverse,
    (fft_linear hwf hm inverse).congr fun xs hx => Ark.fftG1_eq hwf hm xs hx inverse,
    fun h => (isCode_of hwf h fun evens odds hl hol e =>
      ark_das_eq (by rw [hl]; exact hwf.cast_ne (by omega)) e (by rw [hol, hl])).linear⟩

/-- C194 (zkcrypto, transforms of scalars and extension). -/
theorem C194_zk_transforms {scale : Nat} {fs : FFTSettings Zk.ScW} (hfs : FFTSettings.new scale = .ok fs) {m : Nat} (hm : m ≤ scale)
    (inverse : Bool) :
    IsLinear Zk.ScW (fun d : List Zk.ScW => fs.fftFr d inverse) (2 ^ m) ∧
      (m + 1 ≤ scale → IsLinear Zk.ScW (Zk.Top.dasFftExtension fs) (2 ^ m)) := by
  have hwf := wf_of_new hfs
  exact ⟨fft_linear hwf hm inverse, fun h => (isCode_of hwf h fun evens odds hl hol e =>
    zk_das_eq (by rw [hl]; exact hwf.cast_ne (by omega)) e (by rw [hol, hl])).linear⟩

end

section
variable {P G1 G2 GT : Type} [AddCommGroup G1] [Module Fr G1] [AddCommGroup G2] [Module Fr G2] [DecidableEq G1] [DecidableEq G2]
  [CommGroup GT] [DecidableEq GT]

/-- C194 (blst-from-scratch, amortised proofs). -/
theorem C194_blst_proofs {ks : KZGSettings Fr G1 G2} {g1 : G1} {g2 : G2} {N scale : Nat} {s : Fr} (h : MadeFrom ks g1 g2 N scale s) :
    (∀ (m : Nat) (fk : FK20Single Fr G1 G2), m < scale → FK20Single.new ks (2 ^ (m + 1)) = .ok fk → IsLinear Fr fk.daOptimized (2 ^ m)) ∧
    ∀ (m c : Nat) (fk : FK20Multi Fr G1 G2), m + c < scale → FK20Multi.new ks (2 ^ (m + c + 1)) (2 ^ c) = .ok fk →
      IsLinear Fr fk.daOptimized (2 ^ (m + c)) :=
  ⟨fun m fk hm hfk => isLinear_of _ (fun p hp => single_opt h.wf hm hfk p hp)
      fun a b xs ys hx hy i _ => lin_quotient a b (by omega) one_ne_zero _ _ _,
    fun m c fk hm hfk => isLinear_of _ (fun p hp => multi_opt h.wf hm hfk p hp)
      fun a b xs ys hx hy i _ => lin_quotient a b (by omega) (by positivity) _ _ _⟩

/-- C194 (mcl-kzg, commitments and amortised proofs). The function for many points gets the coefficients followed by as many others. -/
theorem C194_mcl_proofs [Mcl.Lib Fr] {ks : KZGSettings Fr G1 G2} {g1 : G1} {g2 : G2} {N scale : Nat} {s : Fr}
    (h : MclMade ks g1 g2 N scale s) :
    (∀ (m : Nat) (fk : FK20Single Fr G1 G2), m < scale → Mcl.FK20Single.new ks (2 ^ (m + 1)) = .ok fk →
      IsLinear Fr (Mcl.FK20Single.daOptimized fk) (2 ^ m)) ∧
    ∀ (m c : Nat) (fk : FK20Multi Fr G1 G2), m + c < scale → Mcl.FK20Multi.new ks (2 ^ (m + c + 1)) (2 ^ c) = .ok fk →
      IsLinear Fr (Mcl.FK20Multi.daOptimized fk) (2 ^ (m + c + 1)) := by
  constructor
  · intro m fk hm hfk
    refine isLinear_of _ (fun p hp => Mcl.single_opt h.wf hm hfk p hp) fun a b xs ys hx hy i _ => ?_
    rw [lin_quotient a b (by omega) one_ne_zero, smul_add, smul_comm, smul_comm _ b]
  · intro m c fk hm hfk
    have hp : 2 ^ (m + c + 1) = 2 ^ (m + c) * 2 := pow_succ _ _
    refine isLinear_of _ (fun p hp => Mcl.multi_opt h.wf hm hfk p (by omega)) fun a b xs ys hx hy i _ => ?_
    rw [lin_take, lin_quotient a b (by rw [List.length_take, List.length_take, hx, hy]) (by positivity), smul_add, smul_comm,
      smul_comm _ b]

/-- C194 (Arkworks, amortised proofs). -/
theorem C194_ark_proofs {B : Ark.Backend P G1 G2 GT} {g1 : G1} {g2 : G2} (hB : B.Lawful g1 g2) {ks : Ark.Settings P G1 G2}
    {L scale : Nat} {s : Fr} (h : ArkMade B ks g1 g2 L scale s) :
    (∀ (m : Nat) (fk : Ark.FKSingle P G1 G2), m < scale → Ark.FKSingle.new B ks (2 ^ (m + 1)) = .ok fk →
      IsLinear Fr fk.daOptimized (2 ^ m)) ∧
    ∀ (m c : Nat) (fk : Ark.FKMulti P G1 G2), m + c < scale → Ark.FKMulti.new B ks (2 ^ (m + c + 1)) (2 ^ c) = .ok fk →
      IsLinear Fr fk.daOptimized (2 ^ (m + c)) :=
  ⟨fun m fk hm hfk => isLinear_of _ (fun p hp => Ark.single_opt hB (h.wf hB) hm hfk p hp)
      fun a b xs ys hx hy i _ => lin_quotient a b (by omega) one_ne_zero _ _ _,
    fun m c fk hm hfk => isLinear_of _ (fun p hp => Ark.multi_opt hB (h.wf hB) hm hfk p hp)
      fun a b xs ys hx hy i _ => lin_quotient a b (by omega) (by positivity) _ _ _⟩

/-- C194 (commitments of mcl-kzg and Arkworks; those of the other two are in C25 and C87). -/
theorem C194_mcl_commit {B : Mcl.Backend G1 G2 GT} [Mcl.Lib Fr] {g1 : G1} {g2 : G2} (hB : B.Lawful g1 g2) {ks : KZGSettings Fr G1 G2}
    {N scale : Nat} {s : Fr} (h : MclMade ks g1 g2 N scale s) (a b : Fr) (p q : List Fr) (hp : p.length ≤ N) (hq : q.length = p.length) :
    ∃ c d, Mcl.commit B ks.secretG1 p = .ok c ∧ Mcl.commit B ks.secretG1 q = .ok d ∧
      Mcl.commit B ks.secretG1 (lin a b p q) = .ok (a • c + b • d) := by
  refine ⟨_, _, (C108_commit hB h p).1 hp, (C108_commit hB h q).1 (by omega), ?_⟩
  rw [(C108_commit hB h _).1 (by rw [lin_length a b rfl hq]; exact hp), polyOf_lin a b hq.symm, eval_add, eval_mul, eval_mul, eval_C, eval_C,
    add_smul, mul_smul, mul_smul]

@[inherit_doc C194_mcl_commit]
theorem C194_ark_commit {B : Ark.Backend P G1 G2 GT} {g1 : G1} {g2 : G2} (hB : B.Lawful g1 g2) {ks : Ark.Settings P G1 G2}
    {L scale : Nat} {s : Fr} (h : ArkMade B ks g1 g2 L scale s) (hL : 1 ≤ L) (a b : Fr) (p q : List Fr) (hp : p.length ≤ L)
    (hq : q.length = p.length) :
    ∃ c d, ks.commit p = .ok c ∧ ks.commit q = .ok d ∧ ks.commit (lin a b p q) = .ok (a • c + b • d) := by
  refine ⟨_, _, (C127_commit hB h p).1 hL hp, (C127_commit hB h q).1 hL (by omega), ?_⟩
  rw [(C127_commit hB h _).1 hL (by rw [lin_length a b rfl hq]; exact hp), polyOf_lin a b hq.symm, eval_add, eval_mul, eval_mul, eval_C,
    eval_C, add_smul, mul_smul, mul_smul]

end

theorem zk_proofs_add {s ω : Zk.ScW} {l n : Nat} (hl : l ≠ 0) {p q : List Zk.ScW} (hpq : p.length = q.length)
    {us vs ws : List Zk.G1.Proj} (hu : FkProofs s ω l n p us) (hv : FkProofs s ω l n q vs) (hw : FkProofs s ω l n (lin (1 : Zk.ScW) 1 p q) ws)
    (j : Nat) (hj : j < n) :
    ∃ u v w, us[j]? = some u ∧ vs[j]? = some v ∧ ws[j]? = some w ∧ (Zk.Projective.add u v).ctEq w = true := by
  obtain ⟨u, e1, h1⟩ := hu.2 j hj
  obtain ⟨v, e2, h2⟩ := hv.2 j hj
  obtain ⟨w, e3, h3⟩ := hw.2 j hj
  refine ⟨u, v, w, e1, e2, e3, (at1_ctEq (at1_add h1 h2) h3).2 ?_⟩
  have := lin_quotient (1 : Zk.ScW) 1 hpq hl ((ω ^ j) ^ l) s (1 : Zk.ScW)
  simpa using this.symm

/-- C194 (zkcrypto, amortised proofs): with overflow checks, when the three calls return, the proofs of two polynomials add up to points
that compare equal to the proofs of the sum. Without the checks some proofs are wrong (C91). -/
theorem C194_zk_single {ks : Zk.Top.Settings} {N scale : Nat} {s : Zk.ScW} (h : ZkMadeFrom true ks N scale s) (hN : 2 ^ scale ≤ N) {m : Nat}
    (hm : m < scale) {p q : List Zk.ScW} (hp : p.length = 2 ^ m) (hq : q.length = 2 ^ m) {fk} (hfk : ZkP.singleNew (g1Ops true) ks (2 ^ (m + 1)) = .ok fk)
    {us vs ws : List Zk.G1.Proj} (hu : ZkP.singleOpt (g1Ops true) fk p = .ok us) (hv : ZkP.singleOpt (g1Ops true) fk q = .ok vs)
    (hw : ZkP.singleOpt (g1Ops true) fk (lin (1 : Zk.ScW) 1 p q) = .ok ws) :
    us.length = 2 ^ (m + 1) ∧ ∀ j < 2 ^ (m + 1), ∃ u v w, us[j]? = some u ∧ vs[j]? = some v ∧ ws[j]? = some w ∧ (Zk.Projective.add u v).ctEq w = true := by
  have key : ∀ (p : List Zk.ScW) us, p.length = 2 ^ m → ZkP.singleOpt (g1Ops true) fk p = .ok us →
      FkProofs s (zkCosetRoot ks scale (m + 1)) 1 (2 ^ (m + 1)) p us := by
    intro p us hp hu
    rcases C91_debug h hN hm hp with ⟨fk', us', h1, h2, h3⟩ | h1 | ⟨fk', h1, h2⟩
    · obtain rfl := Res.ok.inj (hfk.symm.trans h1)
      obtain rfl := Res.ok.inj (hu.symm.trans h2)
      exact h3
    · rw [hfk] at h1; cases h1
    · obtain rfl := Res.ok.inj (hfk.symm.trans h1)
      rw [hu] at h2; cases h2
  exact ⟨(key p us hp hu).1, zk_proofs_add one_ne_zero (by omega) (key p us hp hu) (key q vs hq hv) (key _ ws (lin_length _ _ hp hq) hw)⟩

@[inherit_doc C194_zk_single]
theorem C194_zk_multi {ks : Zk.Top.Settings} {N scale : Nat} {s : Zk.ScW} (h : ZkMadeFrom true ks N scale s) (hN : 2 ^ scale ≤ N) {m c : Nat}
    (hm : m + c < scale) {p q : List Zk.ScW} (hp : p.length = 2 ^ (m + c)) (hq : q.length = 2 ^ (m + c)) {fk}
    (hfk : ZkP.multiNew (g1Ops true) ks (2 ^ (m + c + 1)) (2 ^ c) = .ok fk)
    {us vs ws : List Zk.G1.Proj} (hu : ZkP.multiOpt (g1Ops true) fk p = .ok us) (hv : ZkP.multiOpt (g1Ops true) fk q = .ok vs)
    (hw : ZkP.multiOpt (g1Ops true) fk (lin (1 : Zk.ScW) 1 p q) = .ok ws) :
    us.length = 2 ^ (m + 1) ∧ ∀ j < 2 ^ (m + 1), ∃ u v w, us[j]? = some u ∧ vs[j]? = some v ∧ ws[j]? = some w ∧ (Zk.Projective.add u v).ctEq w = true := by
  have key : ∀ (p : List Zk.ScW) us, p.length = 2 ^ (m + c) → ZkP.multiOpt (g1Ops true) fk p = .ok us →
      FkProofs s (zkCosetRoot ks scale (m + c + 1)) (2 ^ c) (2 ^ (m + 1)) p us := by
    intro p us hp hu
    rcases C92_debug h hN hm hp with ⟨fk', us', h1, h2, h3⟩ | h1 | ⟨fk', h1, h2⟩
    · obtain rfl := Res.ok.inj (hfk.symm.trans h1)
      obtain rfl := Res.ok.inj (hu.symm.trans h2)
      exact h3
    · rw [hfk] at h1; cases h1
    · obtain rfl := Res.ok.inj (hfk.symm.trans h1)
      rw [hu] at h2; cases h2
  exact ⟨(key p us hp hu).1, zk_proofs_add (by positivity) (by omega) (key p us hp hu) (key q vs hq hv) (key _ ws (lin_length _ _ hp hq) hw)⟩

/-- Settings of scale 3 and the data `[1, 2, 3, 4]` and `[0, 1, 0, 1]`: the extension of `2 p + 3 q`. -/
example : ∃ fs : FFTSettings Fr, FFTSettings.new 3 = .ok fs ∧ ∃ us vs, fs.dasFftExtension [1, 2, 3, 4] = .ok us ∧
    fs.dasFftExtension [0, 1, 0, 1] = .ok vs ∧ fs.dasFftExtension [2, 7, 6, 11] = .ok (lin (2 : Fr) 3 us vs) := by
  obtain ⟨fs, hfs, -⟩ := new_spec (F := Fr) (k := 3) (by norm_num)
  obtain ⟨us, vs, h1, h2, -, h3⟩ := (C194_blst_transforms (G := Fr) hfs (m := 2) (by norm_num) false).2.2 (by norm_num) 2 3
    [1, 2, 3, 4] [0, 1, 0, 1] rfl rfl
  refine ⟨fs, hfs, us, vs, h1, h2, ?_⟩
  rw [← h3]
  norm_num [lin]

end Kzg.Props
