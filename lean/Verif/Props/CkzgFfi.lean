import Verif.Model.Ckzg.Ffi
/-!
# Property C136: the ckzg wrapper hands the library only buffers that are long enough, and reports its answer

`Lib` is any library. `ub` means that the library was told to touch memory outside of a buffer.
-/

namespace Kzg.Props
open Kzg Kzg.Ckzg

set_option linter.unusedSectionVars false

variable {F P1 P2 KS S1 SM : Type} [Zero F] [Zero P1]

/-- The library makes polynomials of the length it is asked for. -/
def MakesPolys (L : Lib F P1 P2 KS S1 SM) : Prop := ∀ n p, L.newPoly n = (.ok, p) → p.length = n

/-- The tables of settings made by the library have `max_width + 1` entries. -/
def MakesTables (L : Lib F P1 P2 KS S1 SM) : Prop :=
  ∀ n fs, L.newFftSettings n = (.ok, fs) → fs.expanded.length = fs.maxWidth + 1 ∧ fs.reverse.length = fs.maxWidth + 1

theorem ofRet_ne_ub {α : Type} (r : KzgRet × α) : ofRet r ≠ .ub := by
  obtain ⟨e, a⟩ := r
  cases e <;> simp [ofRet]

theorem ofRet_ok {α : Type} {r : KzgRet × α} {a : α} : ofRet r = .ok a ↔ r = (.ok, a) := by
  obtain ⟨e, b⟩ := r
  cases e <;> simp [ofRet]

theorem ofRet_err {α : Type} {r : KzgRet × α} {e : KzgRet} : ofRet r = .err e ↔ r.1 = e ∧ e ≠ .ok := by
  obtain ⟨e', b⟩ := r
  cases e' <;> cases e <;> simp [ofRet]

theorem ffi_le {α : Type} {bufs : List (Nat × Nat)} {r : Out α} (h : ∀ b ∈ bufs, b.2 ≤ b.1) : ffi bufs r = r := by
  rw [ffi, if_pos]
  simpa using h

theorem ffi_ub {α : Type} {bufs : List (Nat × Nat)} {r : Out α} (hr : r ≠ .ub) :
    ffi bufs r = .ub ↔ ∃ b ∈ bufs, b.1 < b.2 := by
  rw [ffi]
  split
  · rename_i h
    simp only [List.all_eq_true, decide_eq_true_eq] at h
    exact ⟨fun e => absurd e hr, fun ⟨b, hb, hlt⟩ => absurd (h b hb) (by omega)⟩
  · rename_i h
    simp only [List.all_eq_true, decide_eq_true_eq, not_forall] at h
    obtain ⟨b, hb, hlt⟩ := h
    exact ⟨fun _ => ⟨b, hb, by omega⟩, fun _ => rfl⟩

theorem polyNew_bind_ne_ub {α : Type} {L : Lib F P1 P2 KS S1 SM} (hL : MakesPolys L) (n : Nat) {k : List F → Out α}
    (h : ∀ p : List F, p.length = n → k p ≠ .ub) : (Ckzg.polyNew L n).unwrap.bind k ≠ .ub := by
  rw [polyNew]
  cases hp : L.newPoly n with
  | mk e p =>
  cases e with
  | ok => simpa [ofRet, Out.unwrap, Out.bind] using h p (hL n p hp)
  | badArgs => simp [ofRet, Out.unwrap, Out.bind]
  | error => simp [ofRet, Out.unwrap, Out.bind]
  | malloc => simp [ofRet, Out.unwrap, Out.bind]

theorem alloc_ne_ub {α β : Type} (size : Nat) (x : α) (n : Nat) {k : List α → Out β}
    (h : k (List.replicate n x) ≠ .ub) : alloc size x n k ≠ .ub := by
  rw [alloc]
  split
  · exact h
  · simp

theorem storeAll_ok (out data : List F) (n : Nat) (h : n ≤ out.length) :
    ∃ o, storeAll out data n = .ok o ∧ o.length = out.length ∧
      ∀ i, i < out.length → o.getD i 0 = if i < n then data.getD i 0 else out.getD i 0 := by
  induction n with
  | zero => exact ⟨out, rfl, rfl, by simp⟩
  | succ n ih =>
    obtain ⟨o, ho, hl, hv⟩ := ih (by omega)
    refine ⟨o.set n (data.getD n 0), ?_, by simpa using hl, ?_⟩
    · rw [storeAll, ho, Out.bind, setCoeffAt, ffi_le (by simp; omega)]
    · intro i hi
      by_cases e : i = n
      · subst e
        rw [if_pos (by omega), List.getD_eq_getElem?_getD, List.getElem?_set_self (by omega)]
        rfl
      · rw [List.getD_eq_getElem?_getD, List.getElem?_set_ne (by omega), ← List.getD_eq_getElem?_getD, hv i hi]
        by_cases h1 : i < n
        · rw [if_pos h1, if_pos (by omega)]
        · rw [if_neg h1, if_neg (by omega)]

/-- C136: transforms, products, division, zero polynomials, extension, recovery, data availability, commitments and
single proofs never touch memory outside their buffers. -/
theorem C136_safe_partial (L : Lib F P1 P2 KS S1 SM) (hL : MakesPolys L) (fs : Settings F) :
    (∀ n, Ckzg.settingsNew L n ≠ .ub) ∧ (∀ d i, Ckzg.fftFr L fs d i ≠ .ub) ∧ (∀ d i, Ckzg.fftG1 L fs d i ≠ .ub) ∧
    (∀ a b n o, Ckzg.polyMulFft L a b n o ≠ .ub) ∧ (∀ i s, Ckzg.doZeroPolyMulPartial L fs i s ≠ .ub) ∧
    (∀ n ps, Ckzg.reducePartials L fs n ps ≠ .ub) ∧ (∀ n i, Ckzg.zeroPoly L fs n i ≠ .ub) ∧ (∀ e, Ckzg.das L fs e ≠ .ub) ∧
    (∀ s, Ckzg.recover L s fs ≠ .ub) ∧ (∀ n, Ckzg.polyNew L n ≠ .ub) ∧ (∀ p n, Ckzg.polyInverse L p n ≠ .ub) ∧
    (∀ p x, Ckzg.polyDiv L p x ≠ .ub) ∧ (∀ p x, Ckzg.polyLongDiv L p x ≠ .ub) ∧ (∀ p x, Ckzg.polyFastDiv L p x ≠ .ub) ∧
    (∀ p x n, Ckzg.mulDirect L p x n ≠ .ub) ∧ (∀ p : List F, getCoeffs p ≠ .ub) ∧
    (∀ ks p, Ckzg.commitToPoly L ks p ≠ .ub) ∧ (∀ ks p x, Ckzg.computeProofSingle L ks p x ≠ .ub) ∧
    (∀ ks c p x y, Ckzg.checkProofSingle L ks c p x y ≠ .ub) ∧ (∀ ks p x n, Ckzg.computeProofMulti L ks p x n ≠ .ub) ∧
    (∀ ks n, Ckzg.singleNew L ks n ≠ .ub) ∧ (∀ fk p, Ckzg.singleDa L fk p ≠ .ub) ∧ (∀ fk p, Ckzg.singleDaOpt L fk p ≠ .ub) ∧
    (∀ ks n c, Ckzg.multiNew L ks n c ≠ .ub) ∧ (∀ fk p, Ckzg.multiDa L fk p ≠ .ub) ∧ (∀ fk p, Ckzg.multiDaOpt L fk p ≠ .ub) := by
  refine ⟨fun n => ofRet_ne_ub _, fun d i => ?_, fun d i => ?_, fun a b n o => ?_, fun i s => ?_, fun n ps => ?_,
    fun n i => ?_, fun e => ?_, fun s => ?_, fun n => ofRet_ne_ub _, fun p n => ?_, fun p x => ofRet_ne_ub _,
    fun p x => ?_, fun p x => ?_, fun p x n => ?_, fun p => ?_, fun ks p => ofRet_ne_ub _, fun ks p x => ofRet_ne_ub _,
    fun ks c p x y => ofRet_ne_ub _, fun ks p x n => ofRet_ne_ub _, fun ks n => ofRet_ne_ub _, fun fk p => ?_,
    fun fk p => ?_, fun ks n c => ofRet_ne_ub _, fun fk p => ?_, fun fk p => ?_⟩
  · exact alloc_ne_ub _ _ _ (by rw [ffi_le (by simp)]; exact ofRet_ne_ub _)
  · exact alloc_ne_ub _ _ _ (by rw [ffi_le (by simp)]; exact ofRet_ne_ub _)
  · rw [Ckzg.polyMulFft]
    split
    · split
      · rename_i w _
        rw [settingsNew]
        obtain ⟨e, t⟩ := L.newFftSettings (scaleArg (Ckzg.log2 w))
        cases e with
        | ok =>
          exact polyNew_bind_ne_ub hL n fun p hp => by
            rw [ffi_le (by simp; omega)]; exact ofRet_ne_ub _
        | badArgs => simp [ofRet, Out.unwrap, Out.bind]
        | error => simp [ofRet, Out.unwrap, Out.bind]
        | malloc => simp [ofRet, Out.unwrap, Out.bind]
      · simp
    · simp
  · exact polyNew_bind_ne_ub hL _ fun p hp => by rw [ffi_le (by simp; omega)]; exact ofRet_ne_ub _
  · refine polyNew_bind_ne_ub hL _ fun p hp => ?_
    split
    · exact alloc_ne_ub _ _ _ (by rw [ffi_le (by simp; omega)]; exact ofRet_ne_ub _)
    · simp
  · refine polyNew_bind_ne_ub hL _ fun p hp => ?_
    exact alloc_ne_ub _ _ _ (by rw [ffi_le (by simp; omega)]; exact ofRet_ne_ub _)
  · rw [das, ffi_le (by simp)]; exact ofRet_ne_ub _
  · refine alloc_ne_ub _ _ _ ?_
    dsimp only
    rw [ffi_le (by simp), List.map_id]
    cases hd : L.recover s fs with
    | mk e d =>
    cases e with
    | ok =>
      refine polyNew_bind_ne_ub hL _ fun p hp => ?_
      obtain ⟨o, ho, -⟩ := storeAll_ok p d d.length (by omega)
      rw [ho]; simp
    | badArgs => simp [ofRet, Out.bind]
    | error => simp [ofRet, Out.bind]
    | malloc => simp [ofRet, Out.bind]
  · exact polyNew_bind_ne_ub hL _ fun p hp => by rw [ffi_le (by simp; omega)]; exact ofRet_ne_ub _
  · exact polyNew_bind_ne_ub hL _ fun p hp => by rw [ffi_le (by simp; omega)]; exact ofRet_ne_ub _
  · exact polyNew_bind_ne_ub hL _ fun p hp => by rw [ffi_le (by simp; omega)]; exact ofRet_ne_ub _
  · exact polyNew_bind_ne_ub hL _ fun p hp => by rw [ffi_le (by simp; omega)]; exact ofRet_ne_ub _
  · rw [getCoeffs, ffi_le (by simp)]; simp
  · exact alloc_ne_ub _ _ _ (by rw [ffi_le (by simp)]; exact ofRet_ne_ub _)
  · exact alloc_ne_ub _ _ _ (by rw [ffi_le (by simp; omega)]; exact ofRet_ne_ub _)
  · exact alloc_ne_ub _ _ _ (by rw [ffi_le (by simp)]; exact ofRet_ne_ub _)
  · exact alloc_ne_ub _ _ _ (by rw [ffi_le (by simp)]; exact ofRet_ne_ub _)

/-- C136: the tables of settings made by the library are read within their memory, and what is returned has
`max_width` entries. -/
theorem C136_tables (L : Lib F P1 P2 KS S1 SM) (hT : MakesTables L) {n : Nat} {fs : Settings F}
    (h : Ckzg.settingsNew L n = .ok fs) :
    expandedAll fs = .ok (fs.expanded.take fs.maxWidth) ∧ reverseAll fs = .ok (fs.reverse.take fs.maxWidth) ∧
    (∀ i, i ≤ fs.maxWidth → expandedAt fs i ≠ .ub ∧ reverseAt fs i ≠ .ub) := by
  obtain ⟨h1, h2⟩ := hT _ _ (ofRet_ok.1 h)
  refine ⟨by rw [expandedAll, ffi_le (by simp; omega)], by rw [reverseAll, ffi_le (by simp; omega)], fun i hi => ?_⟩
  rw [expandedAt, reverseAt, ffi_le (by simp; omega), ffi_le (by simp; omega)]
  exact ⟨by simp, by simp⟩

/-- C136: the answer of the library is passed on, here for the transforms, the extension, commitments and the checks:
`Ok` with what it computed exactly if it returned `KzgOk`, `Err` with its code otherwise. -/
theorem C136_answer (L : Lib F P1 P2 KS S1 SM) (fs : Settings F) (ks : KS) :
    (∀ d i o, 32 * d.length < 2 ^ 63 → (Ckzg.fftFr L fs d i = .ok o ↔ L.fftFr d i fs = (.ok, o))) ∧
    (∀ d i e, 32 * d.length < 2 ^ 63 → (Ckzg.fftFr L fs d i = .err e ↔ (L.fftFr d i fs).1 = e ∧ e ≠ .ok)) ∧
    (∀ d i o, 144 * d.length < 2 ^ 63 → (Ckzg.fftG1 L fs d i = .ok o ↔ L.fftG1 d i fs = (.ok, o))) ∧
    (∀ v o, Ckzg.das L fs v = .ok o ↔ L.das v fs = (.ok, o)) ∧
    (∀ p o, Ckzg.commitToPoly L ks p = .ok o ↔ L.commit p ks = (.ok, o)) ∧
    (∀ c p x y b, Ckzg.checkProofSingle L ks c p x y = .ok b ↔ L.checkSingle c p x y ks = (.ok, b)) ∧
    (∀ c p x v b, Ckzg.checkProofMulti L ks c p x v v.length = .ok b ↔ L.checkMulti c p x v ks = (.ok, b)) := by
  refine ⟨fun d i o h => ?_, fun d i e h => ?_, fun d i o h => ?_, fun v o => ?_, fun p o => ofRet_ok,
    fun c p x y b => ofRet_ok, fun c p x v b => ?_⟩
  · rw [fftFr, alloc, if_pos h, ffi_le (by simp)]; exact ofRet_ok
  · rw [fftFr, alloc, if_pos h, ffi_le (by simp)]; exact ofRet_err
  · rw [fftG1, alloc, if_pos h, ffi_le (by simp)]; exact ofRet_ok
  · rw [das, ffi_le (by simp)]; exact ofRet_ok
  · rw [checkProofMulti, ffi_le (by simp), List.take_length]; exact ofRet_ok

/-- C136: recovery returns the values the library computed. -/
theorem C136_recover (L : Lib F P1 P2 KS S1 SM) (hL : MakesPolys L) (fs : Settings F) (s : List (Option F))
    (hs : 32 * s.length < 2 ^ 63) {d p : List F} (h : L.recover s fs = (.ok, d)) (hp : L.newPoly d.length = (.ok, p)) :
    Ckzg.recover L s fs = .ok d := by
  rw [recover, alloc, if_pos hs]
  dsimp only
  rw [ffi_le (by simp), List.map_id, h]
  have hlen := hL _ _ hp
  obtain ⟨o, ho, hl, hv⟩ := storeAll_ok p d d.length (by omega)
  rw [ofRet, Out.bind, polyNew, hp, ofRet, Out.unwrap, Out.bind, ho]
  · congr 1
    refine List.ext_getElem? fun i => ?_
    by_cases hi : i < d.length
    · have := hv i (by omega)
      rw [if_pos hi, List.getD_eq_getElem?_getD, List.getD_eq_getElem?_getD, List.getElem?_eq_getElem (by omega),
        List.getElem?_eq_getElem hi] at this
      rw [List.getElem?_eq_getElem (by omega), List.getElem?_eq_getElem hi]
      exact congrArg some this
    · rw [List.getElem?_eq_none (by omega), List.getElem?_eq_none (by omega)]
  · intro e he; cases he

/-- `o` is the answer `r` of the library: `Ok` with what it wrote exactly if it returned `KzgOk`, `Err` with its code otherwise. -/
def Answers {α : Type} (o : Out α) (r : KzgRet × α) : Prop :=
  (∀ a, o = .ok a ↔ r = (.ok, a)) ∧ ∀ e, o = .err e ↔ r.1 = e ∧ e ≠ .ok

theorem answers_ofRet {α : Type} (r : KzgRet × α) : Answers (ofRet r) r := ⟨fun _ => ofRet_ok, fun _ => ofRet_err⟩

theorem answers_poly {α : Type} {L : Lib F P1 P2 KS S1 SM} (hL : MakesPolys L) {n : Nat} {p : List F} (hp : L.newPoly n = (.ok, p))
    {k : List F → Out α} {r : KzgRet × α} (h : ∀ q : List F, q.length = n → k q = ofRet r) :
    Answers ((Ckzg.polyNew L n).unwrap.bind k) r := by
  rw [polyNew, hp, ofRet, Out.unwrap, Out.bind, h p (hL n p hp)]
  · exact answers_ofRet r
  · intro e he; cases he

/-- C136: every function hands over its arguments in their places and passes on the answer, as long as its buffers can be made: the
constructors, proofs, divisions, products and zero polynomials. -/
theorem C136_forwards (L : Lib F P1 P2 KS S1 SM) (hL : MakesPolys L) (fs : Settings F) (ks : KS) (s1 : S1) (sm : SM) :
    (∀ k < 2 ^ 32, Answers (Ckzg.settingsNew L k) (L.newFftSettings k)) ∧
    (∀ g1 g2, g1.length = g2.length → Answers (Ckzg.kzgNew L g1 g2 g1.length fs) (L.newKzgSettings g1 g2 fs)) ∧
    (∀ p x, Answers (Ckzg.computeProofSingle L ks p x) (L.proofSingle p x ks)) ∧
    (∀ p x n, Answers (Ckzg.computeProofMulti L ks p x n) (L.proofMulti p x n ks)) ∧
    (∀ n2, Answers (Ckzg.singleNew L ks n2) (L.newSingle n2 ks)) ∧
    (∀ n2 chunkLen, Answers (Ckzg.multiNew L ks n2 chunkLen) (L.newMulti n2 chunkLen ks)) ∧
    (∀ p : List F, 144 * (2 * p.length) < 2 ^ 63 →
      Answers (Ckzg.singleDa L s1 p) (L.daSingle p s1) ∧ Answers (Ckzg.singleDaOpt L s1 p) (L.daSingleOpt p s1) ∧
      Answers (Ckzg.multiDa L sm p) (L.daMulti p sm) ∧ Answers (Ckzg.multiDaOpt L sm p) (L.daMultiOpt p sm)) ∧
    (∀ p x, Answers (Ckzg.polyDiv L p x) (L.newPolyDiv p x)) ∧
    (∀ p : List F, (∃ q, L.newPoly p.length = (.ok, q)) → ∀ x,
      Answers (Ckzg.polyLongDiv L p x) (L.polyLongDiv p x p.length) ∧ Answers (Ckzg.polyFastDiv L p x) (L.polyFastDiv p x p.length)) ∧
    (∀ n, (∃ q, L.newPoly n = (.ok, q)) → ∀ p x,
      Answers (Ckzg.polyInverse L p n) (L.polyInverse p n) ∧ Answers (Ckzg.mulDirect L p x n) (L.polyMul p x n)) ∧
    (∀ idxs : List Nat, (∃ q, L.newPoly (idxs.length + 1) = (.ok, q)) → ∀ stride,
      Answers (Ckzg.doZeroPolyMulPartial L fs idxs stride) (L.doZeroPolyMulPartial idxs stride fs)) ∧
    (∀ n, (∃ q, L.newPoly n = (.ok, q)) → 32 * (n * 3) < 2 ^ 63 → ∀ partials idxs,
      Answers (Ckzg.reducePartials L fs n partials) (L.reducePartials n partials fs) ∧
      Answers (Ckzg.zeroPoly L fs n idxs) (L.zeroPoly n idxs fs)) ∧
    (∀ p c, p.length = c.length → Ckzg.linearCombination L p c p.length = .ok (L.linComb p c)) := by
  refine ⟨fun k hk => ?_, fun g1 g2 h => ?_, fun p x => answers_ofRet _, fun p x n => answers_ofRet _, fun n2 => answers_ofRet _,
    fun n2 c => answers_ofRet _, fun p h => ⟨?_, ?_, ?_, ?_⟩, fun p x => answers_ofRet _,
    fun p ⟨q, hq⟩ x => ⟨answers_poly hL hq fun r hr => ?_, answers_poly hL hq fun r hr => ?_⟩,
    fun n ⟨q, hq⟩ p x => ⟨answers_poly hL hq fun r hr => ?_, answers_poly hL hq fun r hr => ?_⟩,
    fun idxs ⟨q, hq⟩ stride => answers_poly hL hq fun r hr => ?_,
    fun n ⟨q, hq⟩ hn partials idxs => ⟨answers_poly hL hq fun r hr => ?_, answers_poly hL hq fun r hr => ?_⟩, fun p c h => ?_⟩
  · rw [settingsNew, scaleArg, Nat.mod_eq_of_lt hk]; exact answers_ofRet _
  · rw [kzgNew, ffi_le (by simp; omega), List.take_length, h, List.take_length]; exact answers_ofRet _
  · rw [singleDa, alloc, if_pos h, ffi_le (by simp)]; exact answers_ofRet _
  · rw [singleDaOpt, alloc, if_pos h, ffi_le (by simp; omega)]; exact answers_ofRet _
  · rw [multiDa, alloc, if_pos h, ffi_le (by simp)]; exact answers_ofRet _
  · rw [multiDaOpt, alloc, if_pos h, ffi_le (by simp)]; exact answers_ofRet _
  · rw [ffi_le (by simp [hr])]
  · rw [ffi_le (by simp [hr])]
  · rw [ffi_le (by simp [hr])]
  · rw [ffi_le (by simp [hr])]
  · rw [ffi_le (by simp [hr])]
  · rw [if_pos (by omega), alloc, if_pos hn, ffi_le (by simp [hr])]
  · rw [alloc, if_pos (by omega), ffi_le (by simp [hr])]
  · rw [linearCombination, ffi_le (by simp; omega), List.take_length, h, List.take_length]

/-- Not trivial: chunks of 4 for 16 points are asked for as such. -/
example (L : Lib Fr P1 P2 KS S1 SM) (hL : MakesPolys L) (fs : Settings Fr) (ks : KS) (s1 : S1) (sm fk : SM)
    (h : L.newMulti 16 4 ks = (.ok, fk)) : Ckzg.multiNew L ks 16 4 = .ok fk :=
  ((C136_forwards L hL fs ks s1 sm).2.2.2.2.2.1 16 4).1 fk |>.2 h

/-- C136 (refuted part): the functions whose length or index is not compared with the buffer touch memory outside of
it exactly when it is too large. -/
theorem C136_unchecked (L : Lib F P1 P2 KS S1 SM) (fs : Settings F) (ks : KS) :
    (∀ c p x v n, Ckzg.checkProofMulti L ks c p x v n = .ub ↔ v.length < n) ∧
    (∀ g1 g2 n, Ckzg.kzgNew L g1 g2 n fs = .ub ↔ g1.length < n ∨ g2.length < n) ∧
    (∀ p c n, Ckzg.linearCombination L p c n = .ub ↔ p.length < n ∨ c.length < n) ∧
    (∀ (p : List F) i, getCoeffAt p i = .ub ↔ p.length ≤ i) ∧
    (∀ (p : List F) i x, setCoeffAt p i x = .ub ↔ p.length ≤ i) ∧
    (∀ i, expandedAt fs i = .ub ↔ fs.expanded.length ≤ i) ∧
    (∀ i, reverseAt fs i = .ub ↔ fs.reverse.length ≤ i) ∧
    (∀ r d s ro rs, Ckzg.boundFftFrFast L r d s ro rs = .ub ↔ r.length < 4096 ∨ d.length ≤ 4095 * s) := by
  refine ⟨fun c p x v n => ?_, fun g1 g2 n => ?_, fun p c n => ?_, fun p i => ?_, fun p i x => ?_, fun i => ?_,
    fun i => ?_, fun r d s ro rs => ?_⟩
  · rw [checkProofMulti, ffi_ub (ofRet_ne_ub _)]; simp
  · rw [kzgNew, ffi_ub (ofRet_ne_ub _)]; simp
  · rw [linearCombination, ffi_ub (by simp)]; simp
  · rw [getCoeffAt, ffi_ub (by simp)]; simp
  · rw [setCoeffAt, ffi_ub (by simp)]; simp
  · rw [expandedAt, ffi_ub (by simp)]; simp
  · rw [reverseAt, ffi_ub (by simp)]; simp
  · rw [boundFftFrFast, ffi_ub (by simp)]; simp [Nat.lt_succ_iff]

/-- C136 (refuted part): two empty polynomials panic in `poly_mul_fft`, whatever the library does. -/
theorem C136_mul_fft_empty (L : Lib F P1 P2 KS S1 SM) (len : Nat) (o : Option (Settings F)) :
    Ckzg.polyMulFft L [] [] len o = .panic ∧ ∀ a b, Ckzg.polyMulFft L a b 0 o = .panic := by
  constructor
  · simp [Ckzg.polyMulFft, subU]
  · intro a b; simp [Ckzg.polyMulFft, subU]

/-- Not trivial: a verifier that passes 3 values and says there are 4. -/
example (L : Lib Fr P1 P2 KS S1 SM) (ks : KS) (c p : P1) : Ckzg.checkProofMulti L ks c p 5 [1, 2, 3] 4 = .ub :=
  ((C136_unchecked L ⟨0, [], []⟩ ks).1 c p 5 [1, 2, 3] 4).2 (by decide)

end Kzg.Props
