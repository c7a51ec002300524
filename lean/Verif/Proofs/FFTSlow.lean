import Verif.Proofs.Settings
/-!
# The quadratic transform
-/

namespace Kzg
open Res Finset

section
variable {F M : Type} [Field F] [AddCommGroup M] [Module F M]

theorem fftSlow_spec (ret data : List M) (n : Nat) (hn : 0 < n) (roots : List F) (rs : Nat) (w : F)
    (hret : ret.length = n) (hd : data.length = n) (hwn : w ^ n = 1)
    (hroots : ∀ j < n, roots[j * rs]? = some (w ^ j)) :
    Sat (fftSlow ret data 1 roots rs)
      (fun r => r.length = n ∧ ∀ k < n, r[k]? = some (dft w n (fun j => data.getD j 0) k)) := by
  unfold fftSlow
  rw [hd]
  have hdat : ∀ j < n, data[j]? = some (data.getD j 0) := by
    intro j hj
    have := FFTSettings.WF.getElem?_getD hd j hj
    simpa using this
  refine (forRange_inv (fun i (r : List M) => r.length = n ∧
    ∀ k < i, r[k]? = some (dft w n (fun j => data.getD j 0) k)) (Nat.zero_le _) ?_ ?_).mono ?_
  · exact ⟨hret, fun k hk => absurd hk (by omega)⟩
  · intro i r _ hi ⟨hl, hv⟩
    have h0 := hroots 0 hn
    rw [Nat.zero_mul] at h0
    rw [rd_of_getElem? (hdat 0 hn), bind_ok, rd_of_getElem? h0, bind_ok, wr_of_lt (by omega), bind_ok]
    refine (forRange_inv (fun j (r : List M) => r.length = n ∧
      (∀ k < i, r[k]? = some (dft w n (fun j => data.getD j 0) k)) ∧
      r[i]? = some (∑ j' ∈ range j, w ^ (j' * i) • data.getD j' 0)) hn ?_ ?_).mono ?_
    · refine ⟨by simp [hl], fun k hk => ?_, ?_⟩
      · rw [List.getElem?_set_ne (by omega), hv k hk]
      · rw [List.getElem?_set_self (by omega)]; simp
    · intro j r' hj1 hj ⟨hl', hv', hi'⟩
      have hidx : roots[(i * j) % n * rs]? = some (w ^ (j * i)) := by
        rw [hroots _ (Nat.mod_lt _ hn), mul_comm j i]
        congr 1
        conv_rhs => rw [← Nat.div_add_mod (i * j) n, pow_add, pow_mul, hwn, one_pow, one_mul]
      rw [mul_one, rd_of_getElem? (hdat j hj), bind_ok, rd_of_getElem? hidx, bind_ok,
        rd_of_getElem? hi', bind_ok, wr_of_lt (by omega)]
      refine Sat.ok ⟨by simp [hl'], fun k hk => ?_, ?_⟩
      · rw [List.getElem?_set_ne (by omega), hv' k hk]
      · rw [List.getElem?_set_self (by omega), sum_range_succ]
    · intro r' ⟨hl', hv', hi'⟩
      refine ⟨hl', fun k hk => ?_⟩
      rcases Nat.lt_succ_iff_lt_or_eq.mp hk with h | h
      · exact hv' k h
      · subst h; exact hi'
  · intro r h; exact h

namespace FFTSettings.WF
variable {fs : FFTSettings F} {k : Nat}

theorem roots_forward (h : fs.WF k) {m : Nat} (hm : m ≤ k) :
    ∀ j < 2 ^ m, fs.expandedRoots[j * (fs.maxWidth / 2 ^ m)]? = some (fs.omega (2 ^ m) ^ j) := by
  intro j hj
  rw [FFTSettings.omega, ← pow_mul, mul_comm]
  refine h.exp _ ?_
  rw [h.width, Nat.pow_div hm (by omega)]
  calc 2 ^ (k - m) * j ≤ 2 ^ (k - m) * 2 ^ m := Nat.mul_le_mul_left _ hj.le
    _ = 2 ^ k := by rw [← pow_add]; congr 1; omega

theorem roots_backward (h : fs.WF k) {m : Nat} (hm : m ≤ k) :
    ∀ j < 2 ^ m, fs.reverseRoots[j * (fs.maxWidth / 2 ^ m)]? = some ((fs.omega (2 ^ m))⁻¹ ^ j) := by
  intro j hj
  rw [FFTSettings.omega, ← inv_pow, ← pow_mul, mul_comm]
  refine h.rev _ ?_
  rw [h.width, Nat.pow_div hm (by omega)]
  calc 2 ^ (k - m) * j ≤ 2 ^ (k - m) * 2 ^ m := Nat.mul_le_mul_left _ hj.le
    _ = 2 ^ k := by rw [← pow_add]; congr 1; omega

end FFTSettings.WF
end
end Kzg
