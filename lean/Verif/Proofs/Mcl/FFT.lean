import Verif.Proofs.FFTSlow
import Verif.Proofs.FFTPoly
import Verif.Proofs.FrLawful
import Verif.Proofs.Mcl.Utils
import Verif.Model.Mcl.FFT
/-!
# Transforms of mcl-kzg: proofs
-/

namespace Kzg.Mcl
open Kzg Res Finset

set_option linter.unusedSectionVars false

section
variable {F M : Type} [Field F] [AddCommGroup M] [Module F M]

/-- What a function for few values has to do. -/
def SimpleSpec (simple : List M → Nat → Nat → List F → Nat → List M → Res (List M)) : Prop :=
  ∀ (n : Nat) (values : List M) (offset stride : Nat) (roots : List F) (rs : Nat) (out : List M) (w : F)
    (d : Nat → M), 0 < n → out.length = n → w ^ n = 1 →
    (∀ j < n, values[offset + j * stride]? = some (d j)) →
    (∀ j < n, roots[j * rs]? = some (w ^ j)) →
    Sat (simple values offset stride roots rs out)
      (fun r => r.length = n ∧ ∀ k < n, r[k]? = some (dft w n d k))

/-- What an iteration of the last loop has to do. -/
def BflySpec (bfly : List F → Nat → Nat → Nat → List M → Res (List M)) : Prop :=
  ∀ (roots : List F) (rs half i : Nat) (r : List M) (x y : M) (root : F), i < half →
    r[i]? = some x → r[i + half]? = some y → roots[i * rs]? = some root →
    bfly roots rs half i r = .ok ((r.set (i + half) (x - root • y)).set i (x + root • y))

theorem simpleLoop_spec {n : Nat} {values : List M} {offset stride : Nat} {roots : List F} {rs : Nat}
    {out : List M} {w : F} {d : Nat → M} (hn : 0 < n) (hout : out.length = n) (hwn : w ^ n = 1)
    (hv : ∀ j < n, values[offset + j * stride]? = some (d j))
    (hr : ∀ j < n, roots[j * rs]? = some (w ^ j)) :
    Sat (simpleLoop (.ok (d 0)) values offset stride roots rs out)
      (fun r => r.length = n ∧ ∀ k < n, r[k]? = some (dft w n d k)) := by
  unfold simpleLoop
  simp only [hout]
  refine ⟨_, fill_loop (by omega) (fun i => dft w n d i) ?_, by simp, ?_⟩
  · intro i s hi _ _ _
    rw [bind_ok]
    obtain ⟨r, hrr, hrv⟩ := forRange_inv (body := fun j (last : M) => do
        let jv ← rd values (offset + j * stride)
        let r ← rd roots (((i * j) % n) * rs)
        .ok (last + r • jv)) (fun j x => x = ∑ j' ∈ range j, w ^ (j' * i) • d j') (lo := 1) (hi := n)
      (s := d 0) hn (by simp) (by
        intro j x h1 h2 hx
        have hidx : roots[(i * j) % n * rs]? = some (w ^ (j * i)) := by
          rw [hr _ (Nat.mod_lt _ hn), mul_comm j i]
          congr 1
          conv_rhs => rw [← Nat.div_add_mod (i * j) n, pow_add, pow_mul, hwn, one_pow, one_mul]
        rw [rd_of_getElem? (hv j h2), bind_ok, rd_of_getElem? hidx, bind_ok]
        exact Sat.ok (by rw [hx, sum_range_succ]))
    rw [hrr, bind_ok, hrv]; rfl
  · intro k hk
    rw [List.getElem?_map, List.getElem?_range hk]; rfl

theorem firstTerm_eq {values : List M} {offset : Nat} {roots : List F} {x : M}
    (hv : values[offset]? = some x) (hr : roots[0]? = some 1) : firstTerm values offset roots = .ok x := by
  rw [firstTerm, rd_of_getElem? hv, bind_ok, rd_of_getElem? hr, bind_ok, one_smul]

theorem simpleFft_spec : SimpleSpec (F := F) (M := M) simpleFft := by
  intro n values offset stride roots rs out w d hn hout hwn hv hr
  have h0 := hv 0 hn
  have r0 := hr 0 hn
  rw [Nat.zero_mul, Nat.add_zero] at h0
  rw [Nat.zero_mul, pow_zero] at r0
  rw [simpleFft, firstTerm_eq h0 r0, bind_ok]
  exact simpleLoop_spec hn hout hwn hv hr

theorem simpleFftG1_spec : SimpleSpec (F := F) (M := M) simpleFftG1 := by
  intro n values offset stride roots rs out w d hn hout hwn hv hr
  have h0 := hv 0 hn
  have r0 := hr 0 hn
  rw [Nat.zero_mul, Nat.add_zero] at h0
  rw [Nat.zero_mul, pow_zero] at r0
  rw [simpleFftG1, firstTerm_eq h0 r0]
  exact simpleLoop_spec hn hout hwn hv hr

theorem lt_of_getElem? {α : Type} {l : List α} {i : Nat} {x : α} (h : l[i]? = some x) : i < l.length :=
  (List.getElem?_eq_some_iff.mp h).1

theorem bflyFr_spec : BflySpec (F := F) (M := M) bflyFr := by
  intro roots rs half i r x y root hi hx hy hr
  have l2 := lt_of_getElem? hy
  have e3 : (r.set (i + half) (x - root • y))[i]? = some x := by
    rw [List.getElem?_set_ne (by omega), hx]
  rw [bflyFr, rd_of_getElem? hr, bind_ok, rd_of_getElem? hy, bind_ok]
  dsimp only
  rw [rd_of_getElem? hx, bind_ok, wr_of_lt l2, bind_ok, rd_of_getElem? e3, bind_ok,
    wr_of_lt (by simp; omega)]

theorem bflyG1_spec : BflySpec (F := F) (M := M) bflyG1 := by
  intro roots rs half i r x y root hi hx hy hr
  have l2 := lt_of_getElem? hy
  rw [bflyG1, rd_of_getElem? hx, bind_ok, rd_of_getElem? hy, bind_ok, rd_of_getElem? hr, bind_ok]
  dsimp only
  rw [wr_of_lt (by omega), bind_ok, wr_of_lt (by simp; omega), List.set_comm _ _ (by omega)]

theorem bfly_loop {bfly : List F → Nat → Nat → Nat → List M → Res (List M)} (hbf : BflySpec bfly)
    (lo hi : List M) (half : Nat) (roots : List F) (rs : Nat) (w : F)
    (f g : Nat → M) (hlo : lo.length = half) (hhi : hi.length = half)
    (hf : ∀ k < half, lo[k]? = some (f k)) (hg : ∀ k < half, hi[k]? = some (g k))
    (hr : ∀ k < half, roots[k * rs]? = some (w ^ k)) :
    Sat (forRange 0 half (lo ++ hi) fun i r => bfly roots rs half i r)
    (fun r => r.length = 2 * half ∧ (∀ k < half, r[k]? = some (f k + w ^ k • g k)) ∧
      (∀ k < half, r[k + half]? = some (f k - w ^ k • g k))) := by
  have key := forRange_inv (body := fun i r => bfly roots rs half i r)
    (fun i (r : List M) => r.length = 2 * half ∧
      (∀ k < half, r[k]? = some (if k < i then f k + w ^ k • g k else f k)) ∧
      (∀ k < half, r[k + half]? = some (if k < i then f k - w ^ k • g k else g k)))
    (lo := 0) (hi := half) (s := lo ++ hi) (Nat.zero_le _) ?_ ?_
  · refine key.mono fun r ⟨h1, h2, h3⟩ => ⟨h1, fun k hk => ?_, fun k hk => ?_⟩
    · rw [h2 k hk, if_pos hk]
    · rw [h3 k hk, if_pos hk]
  · refine ⟨by simp [hlo, hhi]; omega, fun k hk => ?_, fun k hk => ?_⟩
    · rw [List.getElem?_append_left (by omega)]; simp [hf k hk]
    · rw [List.getElem?_append_right (by omega)]
      have : k + half - lo.length = k := by omega
      simp [this, hg k hk]
  · intro i r _ hi' ⟨hlen, h1, h2⟩
    have e1 := h1 i hi'
    have e2 := h2 i hi'
    simp only [Nat.lt_irrefl, if_false] at e1 e2
    rw [hbf roots rs half i r _ _ _ hi' e1 e2 (hr i hi')]
    refine Sat.ok ⟨by simp [hlen], fun k hk => ?_, fun k hk => ?_⟩
    · by_cases hki : k = i
      · subst hki; rw [List.getElem?_set_self (by simp; omega)]; simp
      · rw [List.getElem?_set_ne (by omega), List.getElem?_set_ne (by omega), h1 k hk]
        congr 1
        have : (k < i + 1) ↔ k < i := by omega
        simp [this]
    · by_cases hki : k = i
      · subst hki
        rw [List.getElem?_set_ne (by omega), List.getElem?_set_self (by omega)]; simp
      · rw [List.getElem?_set_ne (by omega), List.getElem?_set_ne (by omega), h2 k hk]
        congr 1
        have : (k < i + 1) ↔ k < i := by omega
        simp [this]

/-- The recursive transform computes the DFT. -/
theorem fftRec_spec {simple : List M → Nat → Nat → List F → Nat → List M → Res (List M)}
    (hsm : SimpleSpec simple) {bfly : List F → Nat → Nat → Nat → List M → Res (List M)} (hbf : BflySpec bfly)
    (m : Nat) :
    ∀ (values : List M) (offset stride : Nat) (roots : List F) (rs : Nat) (out : List M) (w : F) (d : Nat → M),
      out.length = 2 ^ m →
      (∀ j < 2 ^ m, values[offset + j * stride]? = some (d j)) →
      (∀ j < 2 ^ m, roots[j * rs]? = some (w ^ j)) →
      w ^ (2 ^ m) = 1 → (∀ n, m = n + 1 → w ^ (2 ^ n) = -1) →
      Sat (fftRec simple bfly values offset stride roots rs out)
        (fun r => r.length = 2 ^ m ∧ ∀ k < 2 ^ m, r[k]? = some (dft w (2 ^ m) d k)) := by
  induction m with
  | zero =>
    intro values offset stride roots rs out w d hout hv hr hw1 _
    rw [fftRec, dif_pos (by rw [hout]; simp)]
    exact hsm _ _ _ _ _ _ _ _ _ (by positivity) hout hw1 hv hr
  | succ m ih =>
    intro values offset stride roots rs out w d hout hv hr hw1 hw
    by_cases h4 : out.length ≤ 4
    · rw [fftRec, dif_pos h4]
      exact hsm _ _ _ _ _ _ _ _ _ (by positivity) hout hw1 hv hr
    have hpos : 0 < 2 ^ m := by positivity
    have hhalf : out.length >>> 1 = 2 ^ m := by
      rw [hout, pow_succ, Nat.shiftRight_eq_div_pow]; omega
    have hneg : w ^ (2 ^ m) = -1 := hw m rfl
    have hsplit : 2 ^ (m + 1) = 2 * 2 ^ m := by rw [pow_succ]; ring
    have hper : (w ^ 2) ^ 2 ^ m = 1 := by rw [← pow_mul, mul_comm, pow_mul, hneg]; simp
    have sh : ∀ a : Nat, a <<< 1 = a * 2 := fun a => by rw [Nat.shiftLeft_eq, pow_one]
    rw [fftRec, dif_neg h4]
    simp only [hhalf, sh]
    have hw2 : ∀ n, m = n + 1 → (w ^ 2) ^ 2 ^ n = -1 := by
      intro n hn; rw [← pow_mul, ← hneg, hn, pow_succ]; congr 1; ring
    have hr2 : ∀ j < 2 ^ m, roots[j * (rs * 2)]? = some ((w ^ 2) ^ j) := by
      intro j hj
      have := hr (2 * j) (by omega)
      rw [← pow_mul, ← this]; congr 1; ring
    obtain ⟨lo, elo, hlol, hlov⟩ := ih values offset (stride * 2) roots (rs * 2) (out.take (2 ^ m)) (w ^ 2)
      (fun j => d (2 * j))
      (by rw [List.length_take, hout]; omega)
      (by intro j hj
          have := hv (2 * j) (by omega)
          rw [← this]; congr 1; ring) hr2 hper hw2
    obtain ⟨hi, ehi, hhil, hhiv⟩ := ih values (offset + stride) (stride * 2) roots (rs * 2)
      (out.drop (2 ^ m)) (w ^ 2) (fun j => d (2 * j + 1))
      (by rw [List.length_drop, hout]; omega)
      (by intro j hj
          have := hv (2 * j + 1) (by omega)
          rw [← this]; congr 1; ring) hr2 hper hw2
    rw [elo, bind_ok, ehi, bind_ok]
    have hb := bfly_loop hbf lo hi (2 ^ m) roots rs w _ _ hlol hhil hlov hhiv
      (fun k hk => hr k (by omega))
    refine hb.mono fun r ⟨h1, h2, h3⟩ => ⟨by omega, fun k hk => ?_⟩
    rw [hsplit, dft_split]
    by_cases hk' : k < 2 ^ m
    · rw [h2 k hk']
    · obtain ⟨k', rfl⟩ : ∃ k', k = k' + 2 ^ m := ⟨k - 2 ^ m, by omega⟩
      rw [h3 k' (by omega)]
      rw [dft_periodic _ _ _ _ hper, dft_periodic _ _ _ _ hper, pow_add, hneg]
      congr 1
      module

end

section
variable {F M : Type} [Field F] [DecidableEq F] [Lib F] [AddCommGroup M] [Module F M]

theorem invLen_eq {n : Nat} (h : n < 2 ^ 31) (h0 : (n : F) ≠ 0) : invLen (F := F) n = .ok (n : F)⁻¹ := by
  have e : ((asI32 n : Int) : F) = (n : F) := by rw [asI32_of_lt h]; simp
  rw [invLen, frInv, e, if_neg h0]

theorem take_getElem? {α : Type} {l : List α} {n i : Nat} {x : α} (h : l[i]? = some x) (hi : i < n) :
    (l.take n)[i]? = some x := by rw [List.getElem?_take, if_pos hi, h]

theorem mul_div_lt {k m j : Nat} (hm : m ≤ k) (hj : j < 2 ^ m) : j * (2 ^ k / 2 ^ m) < 2 ^ k := by
  rw [Nat.pow_div hm (by omega)]
  calc j * 2 ^ (k - m) < 2 ^ m * 2 ^ (k - m) := Nat.mul_lt_mul_of_pos_right hj (by positivity)
    _ = 2 ^ k := by rw [← pow_add]; congr 1; omega

/-- The transform of the crate on `2^m` values, in terms of the one of blst-from-scratch. -/
theorem inplace_eq {simple : List M → Nat → Nat → List F → Nat → List M → Res (List M)}
    (hsm : SimpleSpec simple) {bfly : List F → Nat → Nat → Nat → List M → Res (List M)} (hbf : BflySpec bfly)
    {fs : FFTSettings F} {k m : Nat} (h : fs.WF k) (hm : m ≤ k) (values : List M)
    (hv : values.length = 2 ^ m) (inv : Bool) (hi : inv = true → m ≤ 30) :
    inplace (fftRec simple bfly) fs values inv = fs.fft values inv := by
  have hpos : 0 < 2 ^ m := by positivity
  have hle : 2 ^ m ≤ 2 ^ k := Nat.pow_le_pow_right (by omega) hm
  have hdiv : divU fs.maxWidth (2 ^ m) = .ok (fs.maxWidth / 2 ^ m) := if_neg (by omega)
  have hd := FFTSettings.WF.getElem?_getD hv
  have hd' : ∀ j < 2 ^ m, values[0 + j * 1]? = some (values.getD j 0) := fun j hj => by
    rw [Nat.zero_add]; exact hd j hj
  cases inv with
  | false =>
    obtain ⟨r, hr, hrl, hrv⟩ := fftRec_spec hsm hbf m values 0 1 (fs.expandedRoots.take fs.maxWidth)
      (fs.maxWidth / 2 ^ m) (List.replicate (2 ^ m) 0) (fs.omega (2 ^ m)) (fun j => values.getD j 0)
      (by simp) hd' (fun j hj => take_getElem? (h.roots_forward hm j hj)
        (by rw [h.width]; exact mul_div_lt hm hj)) (h.omega_prim hm).pow_eq_one
      (FFTSettings.WF.half_neg (h.omega_prim hm))
    obtain ⟨s, hs, hsl, hsv⟩ := h.fft_forward hm values hv
    simp only [inplace, hv, hdiv, bind_ok, Bool.false_eq_true, if_false, hr]
    rw [hs]
    congr 1
    apply List.ext_getElem?
    intro i
    by_cases hi' : i < 2 ^ m
    · rw [hrv i hi', hsv i hi']
    · rw [List.getElem?_eq_none (by omega), List.getElem?_eq_none (by omega)]
  | true =>
    have hm30 := hi rfl
    obtain ⟨r, hr, hrl, hrv⟩ := fftRec_spec hsm hbf m values 0 1 (fs.reverseRoots.take fs.maxWidth)
      (fs.maxWidth / 2 ^ m) (List.replicate (2 ^ m) 0) (fs.omega (2 ^ m))⁻¹ (fun j => values.getD j 0)
      (by simp) hd' (fun j hj => take_getElem? (h.roots_backward hm j hj)
        (by rw [h.width]; exact mul_div_lt hm hj)) (h.omega_prim hm).inv.pow_eq_one
      (FFTSettings.WF.half_neg (h.omega_prim hm).inv)
    obtain ⟨s, hs, hsl, hsv⟩ := h.fft_backward hm values hv
    have hlt : 2 ^ m < 2 ^ 31 := Nat.pow_lt_pow_right (by omega) (by omega)
    have hne : ((2 ^ m : Nat) : F) ≠ 0 := h.cast_ne hm
    simp only [inplace, hv, hdiv, bind_ok, if_true, hr, invLen_eq hlt hne]
    rw [hs]
    congr 1
    apply List.ext_getElem?
    intro i
    by_cases hi' : i < 2 ^ m
    · rw [List.getElem?_map, hrv i hi', hsv i hi']; rfl
    · rw [List.getElem?_eq_none (by simp; omega), List.getElem?_eq_none (by omega)]

/-- At length `2^31` the inverse transform is the negative of the right one. -/
theorem inplace_31 {simple : List M → Nat → Nat → List F → Nat → List M → Res (List M)}
    (hsm : SimpleSpec simple) {bfly : List F → Nat → Nat → Nat → List M → Res (List M)} (hbf : BflySpec bfly)
    {fs : FFTSettings F} (h : fs.WF 31) (values : List M) (hv : values.length = 2 ^ 31) :
    inplace (fftRec simple bfly) fs values true = (fs.fft values true >>= fun r => .ok (r.map fun x => -x)) := by
  have hpos : 0 < 2 ^ 31 := by positivity
  have hdiv : divU fs.maxWidth (2 ^ 31) = .ok (fs.maxWidth / 2 ^ 31) := if_neg (by omega)
  have hd := FFTSettings.WF.getElem?_getD hv
  have hd' : ∀ j < 2 ^ 31, values[0 + j * 1]? = some (values.getD j 0) := fun j hj => by
    rw [Nat.zero_add]; exact hd j hj
  obtain ⟨r, hr, hrl, hrv⟩ := fftRec_spec hsm hbf 31 values 0 1 (fs.reverseRoots.take fs.maxWidth)
      (fs.maxWidth / 2 ^ 31) (List.replicate (2 ^ 31) 0) (fs.omega (2 ^ 31))⁻¹ (fun j => values.getD j 0)
      (List.length_replicate ..) hd' (fun j hj => take_getElem? (h.roots_backward le_rfl j hj)
        (by rw [h.width]; exact mul_div_lt le_rfl hj)) (h.omega_prim le_rfl).inv.pow_eq_one
      (FFTSettings.WF.half_neg (h.omega_prim le_rfl).inv)
  obtain ⟨s, hs, hsl, hsv⟩ := h.fft_backward le_rfl values hv
  have hne : ((2 ^ 31 : Nat) : F) ≠ 0 := h.cast_ne le_rfl
  have hinv : invLen (F := F) (2 ^ 31) = .ok (-((2 ^ 31 : Nat) : F)⁻¹) := by
    have e : ((asI32 (2 ^ 31) : Int) : F) = -((2 ^ 31 : Nat) : F) := by rw [asI32_two_pow_31]; push_cast; rfl
    rw [invLen, frInv, e, if_neg (neg_ne_zero.mpr hne), inv_neg]
  rw [inplace]
  rw [hv, hdiv, bind_ok, if_pos rfl, hr, bind_ok, if_pos rfl, hinv, bind_ok, hs, bind_ok]
  congr 1
  apply List.ext_getElem?
  intro i
  by_cases hi' : i < 2 ^ 31
  · rw [List.getElem?_map, hrv i hi', List.getElem?_map, hsv i hi']
    simp only [Option.map_some, neg_smul]
  · rw [List.getElem?_eq_none (by rw [List.length_map, hrl]; omega),
      List.getElem?_eq_none (by rw [List.length_map, hsl]; omega)]

theorem fft_err {fs : FFTSettings F} {values : List F} (h : fs.maxWidth < values.length) (inv : Bool) :
    fft fs values inv = .err "Supplied values is longer than the available max width" := if_pos h

/-- The list padded with zeros to the next power of two. -/
def padded {R : Type} [Zero R] (v : List R) : List R :=
  v ++ List.replicate (2 ^ bitLen (v.length - 1) - v.length) 0

theorem padded_length {R : Type} [Zero R] (v : List R) : (padded v).length = 2 ^ bitLen (v.length - 1) := by
  have := le_two_pow_bitLen_pred (v := v.length)
  simp [padded]; omega

theorem polyOf_append_zeros (l : List F) (n : Nat) : polyOf (l ++ List.replicate n 0) = polyOf l := by
  apply polyOf_congr
  intro i
  rw [List.getD_eq_getElem?_getD, List.getD_eq_getElem?_getD]
  by_cases h : i < l.length
  · rw [List.getElem?_append_left h]
  · rw [List.getElem?_append_right (by omega), List.getElem?_eq_none (l := l) (by omega), List.getElem?_replicate]
    split <;> rfl

theorem polyOf_padded (l : List F) : polyOf (padded l) = polyOf l := polyOf_append_zeros _ _

theorem padded_two_pow {R : Type} [Zero R] {v : List R} {m : Nat} (h : v.length = 2 ^ m) : padded v = v := by
  simp [padded, h, bitLen_two_pow_pred]

theorem bitLen_le_of_le {n k : Nat} (h : n ≤ 2 ^ k) : bitLen (n - 1) ≤ k := by
  apply bitLen_le_of_lt
  have : 0 < 2 ^ k := by positivity
  omega

theorem fft_inplace {fs : FFTSettings F} {k : Nat} (h : fs.WF k) {values : List F}
    (hv : values.length ≤ 2 ^ k) (inv : Bool) : fft fs values inv = inplaceFft fs (padded values) inv := by
  have hlt := h.lt
  have h63 : values.length ≤ 2 ^ 63 := hv.trans (Nat.pow_le_pow_right (by omega) (by omega))
  rw [fft, if_neg (by rw [h.width]; omega), nextPowOf2_eq h63, bind_ok,
    subU_of_le le_two_pow_bitLen_pred, bind_ok, padded]

/-- The transform of any list up to the width is that of the padded list. -/
theorem fft_padded {fs : FFTSettings F} {k : Nat} (h : fs.WF k) {values : List F}
    (hv : values.length ≤ 2 ^ k) (inv : Bool) (hi : inv = true → values.length ≤ 2 ^ 30) :
    fft fs values inv = fs.fft (padded values) inv := by
  rw [fft_inplace h hv, inplaceFft]
  exact inplace_eq simpleFft_spec bflyFr_spec h (bitLen_le_of_le hv) _ (padded_length _) inv
    (fun e => bitLen_le_of_le (hi e))

/-- On powers of two the transform is the one of blst-from-scratch. -/
theorem fft_eq {fs : FFTSettings F} {k m : Nat} (h : fs.WF k) (hm : m ≤ k) {values : List F}
    (hv : values.length = 2 ^ m) (inv : Bool) (hi : inv = true → m ≤ 30) :
    fft fs values inv = fs.fft values inv := by
  have hle : values.length ≤ 2 ^ k := by rw [hv]; exact Nat.pow_le_pow_right (by omega) hm
  rw [fft_padded h hle inv (fun e => by rw [hv]; exact Nat.pow_le_pow_right (by omega) (hi e)),
    padded_two_pow hv]

theorem fft_31 {fs : FFTSettings F} (h : fs.WF 31) (values : List F) (hv : values.length = 2 ^ 31) :
    fft fs values true = (fs.fft values true >>= fun r => .ok (r.map fun x => -x)) := by
  rw [fft_inplace h (by rw [hv]), padded_two_pow hv, inplaceFft]
  exact inplace_31 simpleFft_spec bflyFr_spec h values hv

theorem fftG1_eq {fs : FFTSettings F} {k m : Nat} (h : fs.WF k) (hm : m ≤ k) {values : List M}
    (hv : values.length = 2 ^ m) (inv : Bool) (hi : inv = true → m ≤ 30) :
    fftG1 fs values inv = fs.fft values inv := by
  have hle : 2 ^ m ≤ 2 ^ k := Nat.pow_le_pow_right (by omega) hm
  have h0 : 2 ^ m ≠ 0 := by positivity
  rw [fftG1, if_neg (by rw [h.width]; omega), hv, isPowerOf2_eq h0, bind_ok, isPowerOfTwo_two_pow]
  simp only [Bool.not_true, Bool.false_eq_true, if_false]
  exact inplace_eq simpleFftG1_spec bflyG1_spec h hm _ hv inv hi

theorem fftG1_31 {fs : FFTSettings F} (h : fs.WF 31) (values : List M) (hv : values.length = 2 ^ 31) :
    fftG1 fs values true = (fs.fft values true >>= fun r => .ok (r.map fun x => -x)) := by
  have h0 : 2 ^ 31 ≠ 0 := by positivity
  rw [fftG1, if_neg (by rw [h.width]; omega), hv, isPowerOf2_eq h0, bind_ok, isPowerOfTwo_two_pow]
  simp only [Bool.not_true, Bool.false_eq_true, if_false]
  exact inplace_31 simpleFftG1_spec bflyG1_spec h values hv

theorem fftG1_long {fs : FFTSettings F} {values : List M} (h : fs.maxWidth < values.length) (inv : Bool) :
    fftG1 fs values inv = .err "length of values is longer than the available max width" := if_pos h

theorem fftG1_not_pow {fs : FFTSettings F} {values : List M} (h : values.length ≤ fs.maxWidth)
    (h0 : values ≠ []) (hp : ∀ m, values.length ≠ 2 ^ m) (inv : Bool) :
    fftG1 fs values inv = .err "length of values must be a power of two" := by
  have hne : values.length ≠ 0 := by simpa using h0
  have hp' : isPowerOfTwo values.length = false := by
    by_contra hc
    obtain ⟨m, hm⟩ := exists_of_isPowerOfTwo (n := values.length) (by simpa using hc)
    exact hp m hm
  rw [fftG1, if_neg (by omega), isPowerOf2_eq hne, bind_ok, hp']
  rfl

theorem fftG1_empty (fs : FFTSettings F) (inv : Bool) : fftG1 fs ([] : List M) inv = .panic := by
  rw [fftG1, if_neg (by simp)]
  rfl

end
end Kzg.Mcl
