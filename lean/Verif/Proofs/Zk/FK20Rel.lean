import Verif.Model.Zk.G1Fft
import Verif.Base.Rel
import Verif.Proofs.FK20
/-!
# Transforms and amortised proofs of zkcrypto: proofs

Each function on point coordinates follows the function of the same name in blst-from-scratch on the group
elements the coordinates stand for.
-/

set_option linter.unusedSectionVars false

namespace Kzg.ZkP
open Kzg Res

variable {F P M : Type} [Field F] [DecidableEq F] [AddCommGroup M] [Module F M]

/-- The operations `o` follow the group `M` through `R`, multiplication at least for the scalars in `T`; with
`lax` multiplication may panic. -/
structure OpsRel (lax : Prop) (R : P → M → Prop) (T : F → Prop) (o : PtOps F P) : Prop where
  zero : R o.identity 0
  add : ∀ {p q a b}, R p a → R q b → R (o.addOrDbl p q) (a + b)
  sub : ∀ {p q a b}, R p a → R q b → R (o.sub p q) (a - b)
  mul : ∀ {p a s}, R p a → T s → Rel lax R (o.mul p s) (.ok (s • a))

variable {lax : Prop} {R : P → M → Prop} {T : F → Prop} {o : PtOps F P}

theorem fftSlow_rel (h : OpsRel lax R T o) {ret data : List P} {ret' data' : List M} {roots : List F}
    (hT : ∀ w ∈ roots, T w) (hr : RelL R ret ret') (hd : RelL R data data') (stride rootsStride : Nat) :
    Rel lax (RelL R) (fftG1Slow o ret data stride roots rootsStride) (fftSlow ret' data' stride roots rootsStride) := by
  unfold fftG1Slow fftSlow
  rw [hd.length]
  refine rel_forRange hr fun i s t _ _ hst => ?_
  refine Rel.bind (rel_rd hd 0) fun d d' hdd => ?_
  refine Rel.bind (rel_rd (relL_self hT) 0) ?_
  rintro w _ ⟨rfl, hw⟩
  refine Rel.bind_left (h.mul hdd hw) fun v hv => ?_
  refine Rel.bind (rel_wr hst i hv) fun s t hst => ?_
  refine rel_forRange hst fun j s t _ _ hst => ?_
  refine Rel.bind (rel_rd hd _) fun d d' hdd => ?_
  refine Rel.bind (rel_rd (relL_self hT) _) ?_
  rintro w _ ⟨rfl, hw⟩
  refine Rel.bind_left (h.mul hdd hw) fun v hv => ?_
  refine Rel.bind (rel_rd hst i) fun x x' hx => ?_
  exact rel_wr hst i (h.add hx hv)

theorem fftFast_rel (h : OpsRel lax R T o) {roots : List F} (hT : ∀ w ∈ roots, T w) (n : Nat) :
    ∀ {ret data : List P} {ret' data' : List M}, ret.length = n → RelL R ret ret' → RelL R data data' →
    ∀ stride rootsStride : Nat,
    Rel lax (RelL R) (fftG1Fast o ret data stride roots rootsStride) (fftFast ret' data' stride roots rootsStride) := by
  induction n using Nat.strong_induction_on with
  | _ n ih =>
  intro ret data ret' data' hn hr hd stride rootsStride
  rw [fftG1Fast, fftFast]
  simp only
  rw [← hr.length]
  split
  case isTrue hs =>
    refine Rel.bind (ih (ret.take (ret.length / 2)).length ?_ rfl (hr.take _) hd _ _) fun lo lo' hlo => ?_
    · rw [List.length_take]; omega
    refine Rel.bind (rel_sliceFrom hd stride) fun dh dh' hdh => ?_
    refine Rel.bind (ih (ret.drop (ret.length / 2)).length ?_ rfl (hr.drop _) hdh _ _) fun hi hi' hhi => ?_
    · rw [List.length_drop]; omega
    refine rel_forRange (hlo.append hhi) fun i s t _ _ hst => ?_
    refine Rel.bind (rel_rd hst _) fun y y' hy => ?_
    refine Rel.bind (rel_rd (relL_self hT) _) ?_
    rintro w _ ⟨rfl, hw⟩
    refine Rel.bind_left (h.mul hy hw) fun v hv => ?_
    refine Rel.bind (rel_rd hst i) fun x x' hx => ?_
    refine Rel.bind (rel_wr hst _ (h.sub hx hv)) fun s t hst => ?_
    refine Rel.bind (rel_rd hst i) fun x x' hx => ?_
    exact rel_wr hst i (h.add hx hv)
  case isFalse hs =>
    refine Rel.bind (rel_rd hd 0) fun d d' hdd => ?_
    exact rel_wr hr 0 hdd

theorem mulAll_rel (h : OpsRel lax R T o) {c : F} (hc : T c) {v : List P} {w : List M} (hv : RelL R v w) :
    Rel lax (RelL R) (mulAll o c v) (.ok (w.map fun f => c • f)) := by
  induction hv with
  | nil => exact RelL.nil
  | cons hr _ ih =>
    refine Rel.bind_left (h.mul hr hc) fun q hq => ?_
    exact Rel.bind_left ih fun qs hqs => RelL.cons hq hqs

/-- The scalars a transform multiplies by. -/
structure FsT (T : F → Prop) (fs : FFTSettings F) : Prop where
  fwd : ∀ w ∈ fs.expandedRoots, T w
  bwd : ∀ w ∈ fs.reverseRoots, T w
  inv : ∀ k, 2 ^ k ≤ fs.maxWidth → T ((2 ^ k : Nat) : F)⁻¹

theorem fftG1_rel (h : OpsRel lax R T o) (h2 : (2 : F) ≠ 0) {fs : FFTSettings F} (hT : FsT T fs) {data : List P}
    {data' : List M} (hd : RelL R data data') (inverse : Bool) :
    Rel lax (RelL R) (fftG1 o fs data inverse) (fs.fftG1 data' inverse) := by
  unfold fftG1 FFTSettings.fftG1 FFTSettings.fft
  rw [hd.length]
  by_cases h1 : data'.length > fs.maxWidth
  · rw [if_pos h1, if_pos h1]; exact Rel.err _ _
  rw [if_neg h1, if_neg h1]
  by_cases hp : isPowerOfTwo data'.length = true
  · rw [hp]
    obtain ⟨k, hk⟩ := exists_of_isPowerOfTwo hp
    simp only [Bool.not_true, Bool.false_eq_true, if_false]
    refine Rel.bind (fftFast_rel h ?_ _ rfl (RelL.replicate _ h.zero) hd _ _) fun r r' hr => ?_
    · intro w hw
      split at hw
      · exact hT.bwd w hw
      · exact hT.fwd w hw
    cases inverse with
    | false => exact hr
    | true =>
      simp only [if_true]
      have hne : ((data'.length : Nat) : F) ≠ 0 := by
        rw [hk, Nat.cast_pow]
        exact pow_ne_zero _ (by simpa using h2)
      rw [frInv, if_neg hne, Res.bind_ok]
      exact mulAll_rel h (by rw [hk]; exact hT.inv k (by omega)) hr
  · simp only [hp, Bool.not_false, if_true]
    exact Rel.err _ _

theorem part1_rel (h : OpsRel lax R T o) (h2 : (2 : F) ≠ 0) {fs : FFTSettings F} (hT : FsT T fs) {x : List P}
    {x' : List M} (hx : RelL R x x') : Rel lax (RelL R) (toeplitzPart1 o fs x) (fs.toeplitzPart1 x') := by
  unfold toeplitzPart1 FFTSettings.toeplitzPart1
  simp only
  rw [hx.length]
  refine Rel.bind (rel_forRange (Q := RelL R) RelL.nil fun i s t _ _ hst => ?_) fun a a' ha => ?_
  · exact Rel.bind (rel_rd hx i) fun v v' hv => hst.snoc hv
  refine Rel.bind (rel_forRange (Q := RelL R) ha fun i s t _ _ hst => ?_) fun a a' ha => ?_
  · exact RelL.snoc hst h.zero
  exact (fftG1_rel h h2 hT ha false).unwrap

theorem part2_rel (h : OpsRel lax R T o) {fs : FFTSettings F} {poly : List F}
    (hc : ∀ c, fs.fftFr poly false = .ok c → ∀ w ∈ c, T w) {x : List P} {x' : List M} (hx : RelL R x x') :
    Rel lax (RelL R) (toeplitzPart2 o fs poly x) (fs.toeplitzPart2 poly x') := by
  unfold toeplitzPart2 FFTSettings.toeplitzPart2
  cases e : fs.fftFr poly false with
  | ok c =>
    simp only [Res.unwrap_ok, Res.bind_ok]
    refine rel_forRange RelL.nil fun i s t _ _ hst => ?_
    refine Rel.bind (rel_rd hx i) fun v v' hv => ?_
    refine Rel.bind (rel_rd (relL_self (hc c e)) i) ?_
    rintro w _ ⟨rfl, hw⟩
    exact Rel.bind_left (h.mul hv hw) fun q hq => hst.snoc hq
  | err m => exact Rel.panic
  | panic => exact Rel.panic

theorem clearRange_rel (h : OpsRel lax R T o) {v : List P} {w : List M} (hv : RelL R v w) (a b : Nat) :
    Rel lax (RelL R) (clearRange o v a b) (Kzg.clearRange w a b) := by
  unfold clearRange Kzg.clearRange
  rw [hv.length]
  split
  · exact ((hv.take a).append (RelL.replicate _ h.zero)).append (hv.drop b)
  · exact Rel.panic

theorem part3_rel (h : OpsRel lax R T o) (h2 : (2 : F) ≠ 0) {fs : FFTSettings F} (hT : FsT T fs) {x : List P}
    {x' : List M} (hx : RelL R x x') : Rel lax (RelL R) (toeplitzPart3 o fs x) (fs.toeplitzPart3 x') := by
  unfold toeplitzPart3 FFTSettings.toeplitzPart3
  simp only
  rw [hx.length]
  refine Rel.bind (fftG1_rel h h2 hT hx true).unwrap fun a a' ha => ?_
  exact clearRange_rel h ha _ _

/-! ## Toeplitz coefficients -/

/-- Both crates compute the same coefficients, unless the stride is longer than the polynomial. -/
theorem toeplitz_eq (offset stride : Nat) (p : List F) (hs : stride ≤ p.length) :
    toeplitzCoeffsStride offset stride p = Kzg.toeplitzCoeffsStride p offset stride := by
  unfold toeplitzCoeffsStride Kzg.toeplitzCoeffsStride divU
  by_cases h0 : stride = 0
  · simp only [h0, if_true]; rfl
  · have hk : 0 < p.length / stride := Nat.div_pos hs (by omega)
    simp only [h0, if_false, Res.bind_ok]
    generalize p.length / stride = k at *
    refine congrArg _ (funext fun a => congrArg _ (funext fun a => congrArg _ (funext fun first => ?_)))
    have e1 : ∀ (m : Nat) (acc : List F), forRange 1 (m + 1) acc (fun _ out => Res.ok (out ++ [0]))
        = .ok (acc ++ List.replicate m 0) := by
      intro m acc
      have := push_loop (lo := 1) (hi := m + 1) (by omega) acc (fun _ => (0 : F))
        (body := fun _ out => Res.ok (out ++ [0])) (fun _ _ _ _ => rfl)
      rw [this]
      congr 2
      rw [Nat.add_sub_cancel]
      exact List.map_const' .. |>.trans (by rw [List.length_range])
    have e2 : minU64 (k + 2) (k * 2) = min (k + 2) (k * 2) := by unfold minU64; split <;> omega
    rw [e2]
    obtain ⟨m, hm⟩ : ∃ m, min (k + 2) (k * 2) = m + 1 := ⟨min (k + 2) (k * 2) - 1, by omega⟩
    rw [hm, e1, Res.bind_ok]
    have e3 : toeplitzZeros k (k * 2) = .ok m := by
      unfold toeplitzZeros subU
      split
      · congr 1; omega
      · rw [if_pos (by omega)]; congr 1; omega
    rw [e3, Res.bind_ok]
    rfl

/-! ## Settings and amortised proofs -/

section
variable {Q N : Type} [AddCommGroup N] [Module F N] {S : Q → N → Prop}

/-- Settings on coordinates follow settings on group elements: same transform settings, related points. -/
structure KsRel (R : P → M → Prop) (S : Q → N → Prop) (ks : KZGSettings F P Q) (ks' : KZGSettings F M N) : Prop where
  fs : ks.fs = ks'.fs
  s1 : RelL R ks.secretG1 ks'.secretG1
  s2 : RelL S ks.secretG2 ks'.secretG2

/-- Same for the settings of single proofs. -/
structure SingleRel (R : P → M → Prop) (S : Q → N → Prop) (fk : FK20Single F P Q) (fk' : FK20Single F M N) : Prop where
  ks : KsRel R S fk.ks fk'.ks
  ext : RelL R fk.xExtFft fk'.xExtFft

/-- Same for the settings of multi proofs. -/
structure MultiRel (R : P → M → Prop) (S : Q → N → Prop) (fk : FK20Multi F P Q) (fk' : FK20Multi F M N) : Prop where
  ks : KsRel R S fk.ks fk'.ks
  chunk : fk.chunkLen = fk'.chunkLen
  ext : RelL (RelL R) fk.xExtFftFiles fk'.xExtFftFiles

theorem singleNew_rel (h : OpsRel lax R T o) (h2 : (2 : F) ≠ 0) {ks : KZGSettings F P Q} {ks' : KZGSettings F M N}
    (hk : KsRel R S ks ks') (hT : FsT T ks'.fs) (n : Nat) :
    Rel lax (SingleRel R S) (singleNew o ks n) (FK20Single.new ks' n) := by
  unfold singleNew FK20Single.new
  simp only
  rw [hk.fs]
  refine Rel.ite (Rel.err _ _) (Rel.ite (Rel.err _ _) (Rel.ite (Rel.err _ _) ?_))
  refine Rel.bind (Rel.refl _) ?_
  rintro m _ rfl
  refine Rel.bind (rel_forRange (Q := RelL R) RelL.nil fun i s t _ _ hst => ?_) fun x x' hx => ?_
  · refine Rel.bind (Rel.refl _) ?_
    rintro j _ rfl
    refine Rel.bind (Rel.refl _) ?_
    rintro j _ rfl
    exact Rel.bind (rel_rd hk.s1 j) fun v v' hv => hst.snoc hv
  · refine Rel.bind (part1_rel h h2 hT (hx.snoc h.zero)) fun e e' he => ?_
    exact ⟨hk, he⟩

theorem singleOpt_rel (h : OpsRel lax R T o) (h2 : (2 : F) ≠ 0) {fk : FK20Single F P Q} {fk' : FK20Single F M N}
    (hk : SingleRel R S fk fk') (hT : FsT T fk'.ks.fs) (p : List F)
    (hc : ∀ t c, Kzg.toeplitzCoeffsStep p = .ok t → fk'.ks.fs.fftFr t false = .ok c → ∀ w ∈ c, T w) :
    Rel lax (RelL R) (singleOpt o fk p) (fk'.daOptimized p) := by
  unfold singleOpt FK20Single.daOptimized
  simp only
  rw [hk.ks.fs]
  refine Rel.ite (Rel.err _ _) ?_
  split
  · exact Rel.err _ _
  rename_i hpow
  have hlen : 1 ≤ p.length := by
    by_contra hl
    apply hpow
    have : p.length * 2 = 0 := by omega
    rw [this]; rfl
  rw [toeplitzCoeffsStep, toeplitz_eq 0 1 p hlen, ← Kzg.toeplitzCoeffsStep]
  cases e : Kzg.toeplitzCoeffsStep p with
  | err m => exact Rel.err _ _
  | panic => exact Rel.panic
  | ok t =>
    rw [Res.bind_ok, Res.bind_ok]
    refine Rel.bind (part2_rel h (fun c hc' => hc t c e hc') hk.ext) fun a a' ha => ?_
    refine Rel.bind (part3_rel h h2 hT ha) fun a a' ha => ?_
    exact (fftG1_rel h h2 hT ha false).unwrap

/-- Swapping by reversed indices follows. -/
theorem reverseBitOrder_rel {v : List P} {w : List M} (hv : RelL R v w) :
    Rel lax (RelL R) (reverseBitOrder v) (reverseBitOrder w) := by
  unfold reverseBitOrder
  simp only
  rw [hv.length]
  refine Rel.bind (Rel.refl _) ?_
  rintro hi _ rfl
  refine rel_forRange hv fun i s t _ _ hst => ?_
  refine Rel.ite ?_ (Rel.ok hst)
  refine Rel.bind (rel_rd hst _) fun x x' hx => ?_
  refine Rel.bind (rel_rd hst _) fun y y' hy => ?_
  refine Rel.bind (rel_wr hst _ hy) fun s t hst => ?_
  exact rel_wr hst _ hx

theorem singleDa_rel (h : OpsRel lax R T o) (h2 : (2 : F) ≠ 0) {fk : FK20Single F P Q} {fk' : FK20Single F M N}
    (hk : SingleRel R S fk fk') (hT : FsT T fk'.ks.fs) (p : List F)
    (hc : ∀ t c, Kzg.toeplitzCoeffsStep p = .ok t → fk'.ks.fs.fftFr t false = .ok c → ∀ w ∈ c, T w) :
    Rel lax (RelL R) (singleDa o fk p) (fk'.da p) := by
  unfold singleDa FK20Single.da
  simp only
  rw [hk.ks.fs]
  refine Rel.ite (Rel.err _ _) (Rel.ite (Rel.err _ _) ?_)
  exact Rel.bind (singleOpt_rel h h2 hk hT p hc).unwrap fun a a' ha => reverseBitOrder_rel ha

theorem multiSelect_rel (h : OpsRel lax R T o) {ks : KZGSettings F P Q} {ks' : KZGSettings F M N}
    (hk : KsRel R S ks ks') (n2 k l offset : Nat) :
    Rel lax (RelL R) (multiSelect o ks n2 k l offset) (Kzg.multiSelect ks' n2 k l offset) := by
  unfold multiSelect Kzg.multiSelect
  simp only
  refine Rel.bind (rel_forRange (Q := fun s t => RelL R s.1 t.1 ∧ s.2 = t.2) ⟨RelL.nil, rfl⟩ fun i s t _ _ hst => ?_)
    fun x x' hx => ?_
  · rw [hst.2]
    exact Rel.bind (rel_rd hk.s1 _) fun v v' hv => ⟨hst.1.snoc hv, rfl⟩
  · exact hx.1.snoc h.zero

theorem multiNew_rel (h : OpsRel lax R T o) (h2 : (2 : F) ≠ 0) {ks : KZGSettings F P Q} {ks' : KZGSettings F M N}
    (hk : KsRel R S ks ks') (hT : FsT T ks'.fs) (n l : Nat) :
    Rel lax (MultiRel R S) (multiNew o ks n l) (FK20Multi.new ks' n l) := by
  unfold multiNew FK20Multi.new
  simp only
  rw [hk.fs]
  refine Rel.ite (Rel.err _ _) (Rel.ite (Rel.err _ _) (Rel.ite (Rel.err _ _) (Rel.ite (Rel.err _ _)
    (Rel.ite (Rel.err _ _) ?_))))
  refine Rel.bind (rel_forRange (Q := RelL (RelL R)) RelL.nil fun i s t _ _ hst => ?_) fun x x' hx => ?_
  · refine Rel.bind (multiSelect_rel h hk _ _ _ _) fun x x' hx => ?_
    exact Rel.bind (part1_rel h h2 hT hx) fun f f' hf => RelL.snoc hst hf
  · exact ⟨hk, rfl, hx⟩

theorem accumulate_rel (h : OpsRel lax R T o) {fk : FK20Multi F P Q} {fk' : FK20Multi F M N}
    (hk : MultiRel R S fk fk') (p : List F) (hl : fk'.chunkLen ≤ p.length)
    (hc : ∀ i < fk'.chunkLen, ∀ t c, Kzg.toeplitzCoeffsStride p i fk'.chunkLen = .ok t →
      fk'.ks.fs.fftFr t false = .ok c → ∀ w ∈ c, T w) (k2 : Nat) :
    Rel lax (RelL R) (accumulate o fk p k2) (fk'.accumulate p k2) := by
  unfold accumulate FK20Multi.accumulate
  rw [hk.chunk, hk.ks.fs]
  refine rel_forRange (RelL.replicate _ h.zero) fun i s t _ hi hst => ?_
  rw [toeplitz_eq _ _ p hl]
  cases e : Kzg.toeplitzCoeffsStride p i fk'.chunkLen with
  | err m => exact Rel.err _ _
  | panic => exact Rel.panic
  | ok t =>
    rw [Res.bind_ok, Res.bind_ok]
    refine Rel.bind (rel_rd hk.ext i) fun f f' hf => ?_
    refine Rel.bind (part2_rel h (fun c hc' => hc i hi t c e hc') hf) fun a a' ha => ?_
    refine rel_forRange hst fun j s t _ _ hst => ?_
    refine Rel.bind (rel_rd hst j) fun x x' hx => ?_
    exact Rel.bind (rel_rd ha j) fun y y' hy => rel_wr hst j (h.add hx hy)

theorem multiOpt_rel (h : OpsRel lax R T o) (h2 : (2 : F) ≠ 0) {fk : FK20Multi F P Q} {fk' : FK20Multi F M N}
    (hk : MultiRel R S fk fk') (hT : FsT T fk'.ks.fs) (p : List F) (hl : fk'.chunkLen ≤ p.length)
    (hc : ∀ i < fk'.chunkLen, ∀ t c, Kzg.toeplitzCoeffsStride p i fk'.chunkLen = .ok t →
      fk'.ks.fs.fftFr t false = .ok c → ∀ w ∈ c, T w) :
    Rel lax (RelL R) (multiOpt o fk p) (fk'.daOptimized p) := by
  unfold multiOpt FK20Multi.daOptimized
  simp only
  rw [hk.ks.fs]
  refine Rel.ite (Rel.err _ _) (Rel.ite (Rel.err _ _) ?_)
  rw [hk.chunk]
  refine Rel.bind (Rel.refl _) ?_
  rintro k _ rfl
  refine Rel.bind (accumulate_rel h hk p hl hc _) fun a a' ha => ?_
  refine Rel.bind (part3_rel h h2 hT ha) fun a a' ha => ?_
  refine Rel.bind (clearRange_rel h ha _ _) fun a a' ha => ?_
  exact (fftG1_rel h h2 hT ha false).unwrap

theorem multiDa_rel (h : OpsRel lax R T o) (h2 : (2 : F) ≠ 0) {fk : FK20Multi F P Q} {fk' : FK20Multi F M N}
    (hk : MultiRel R S fk fk') (hT : FsT T fk'.ks.fs) (p : List F) (hl : fk'.chunkLen ≤ p.length)
    (hc : ∀ i < fk'.chunkLen, ∀ t c, Kzg.toeplitzCoeffsStride p i fk'.chunkLen = .ok t →
      fk'.ks.fs.fftFr t false = .ok c → ∀ w ∈ c, T w) :
    Rel lax (RelL R) (multiDa o fk p) (fk'.da p) := by
  unfold multiDa FK20Multi.da
  simp only
  rw [hk.ks.fs]
  refine Rel.ite (Rel.err _ _) (Rel.ite (Rel.err _ _) ?_)
  exact Rel.bind (multiOpt_rel h h2 hk hT p hl hc).unwrap fun a a' ha => reverseBitOrder_rel ha

end
end Kzg.ZkP
