import Verif.Proofs.FK20

/-!
The amortised proofs of `Verif.Model.FK20` over a setup that may be shorter than the width: how many points the settings need, and
that nothing else of the setup is used. blst-from-scratch never makes such settings; zkcrypto, which is proved through the same
functions, does.
-/

namespace Kzg
open Res Polynomial Finset

variable {F G1 G2 : Type} [Field F] [AddCommGroup G1] [Module F G1] [AddCommGroup G2] [Module F G2]

/-- Settings over the first `N` powers of `s`, with no bound on `N`. -/
structure KZGSettings.Short (ks : KZGSettings F G1 G2) (g1 : G1) (s : F) (N K : Nat) : Prop where
  fs : ks.fs.WF K
  s1 : ks.secretG1 = (List.range N).map fun i => s ^ i • g1

/-- The same settings over the first `2^K` powers. -/
def KZGSettings.longer (ks : KZGSettings F G1 G2) (g1 : G1) (g2 : G2) (s : F) (K : Nat) : KZGSettings F G1 G2 :=
  ⟨ks.fs, (List.range (2 ^ K)).map (fun i => s ^ i • g1), (List.range (2 ^ K)).map (fun i => s ^ i • g2)⟩

theorem KZGSettings.Short.longer {ks : KZGSettings F G1 G2} {g1 : G1} {s : F} {N K : Nat} (h : ks.Short g1 s N K) (g2 : G2) :
    (ks.longer g1 g2 s K).WF g1 g2 s (2 ^ K) K := ⟨h.fs, le_rfl, rfl, rfl⟩

/-! ### Single proofs -/

theorem single_new_enough {ks : KZGSettings F G1 G2} {g1 : G1} {s : F} {N K : Nat} (hw : ks.Short g1 s N K)
    {m : Nat} (hm : m + 1 ≤ K) (hN : 2 ^ m - 1 ≤ N) :
    FK20Single.new ks (2 ^ (m + 1)) = .ok ⟨ks, (List.range (2 ^ (m + 1))).map
      (dft (ks.fs.omega (2 ^ (m + 1))) (2 ^ (m + 1)) (selPt g1 s (2 ^ m) 1 0))⟩ := by
  have hle : 2 ^ (m + 1) ≤ 2 ^ K := Nat.pow_le_pow_right (by omega) hm
  have hpos : 0 < 2 ^ m := by positivity
  have hp1 : 2 ^ (m + 1) = 2 ^ m * 2 := pow_succ _ _
  unfold FK20Single.new
  simp only
  rw [if_neg (by rw [hw.fs.width]; omega), isPowerOfTwo_two_pow, if_neg (by simp), if_neg (by omega),
    show 2 ^ (m + 1) / 2 = 2 ^ m by omega, subU_of_le (show 1 ≤ 2 ^ m by omega), bind_ok,
    push_loop' (fun i => s ^ (2 ^ m - 2 - i) • g1) (by
      intro i acc hi
      rw [subU_of_le (show 2 ≤ 2 ^ m by omega), bind_ok, subU_of_le (show i ≤ 2 ^ m - 2 by omega), bind_ok,
        hw.s1, rd_getD 0 (by simp; omega), bind_ok, getD_range_map, if_pos (by omega)]), bind_ok]
  have : (List.range (2 ^ m - 1)).map (fun i => s ^ (2 ^ m - 2 - i) • g1) ++ [0] =
      (List.range (2 ^ m)).map (selPt g1 s (2 ^ m) 1 0) := by
    have e : List.range (2 ^ m) = List.range (2 ^ m - 1) ++ [2 ^ m - 1] := by
      rw [← List.range_succ]; congr 1; omega
    rw [e, List.map_append]
    congr 1
    · refine List.map_congr_left fun i hi => ?_
      rw [selPt, if_pos (List.mem_range.mp hi)]
      congr 2
      omega
    · rw [List.map_singleton, selPt, if_neg (by omega)]
  rw [this, part1_spec hw.fs hm _ (fun i hi => by rw [selPt, if_neg (by omega)]), bind_ok]

theorem single_new_short {ks : KZGSettings F G1 G2} {g1 : G1} {s : F} {N K : Nat} (hw : ks.Short g1 s N K)
    {m : Nat} (hm : m + 1 ≤ K) (hN : N < 2 ^ m - 1) : FK20Single.new ks (2 ^ (m + 1)) = .panic := by
  have hle : 2 ^ (m + 1) ≤ 2 ^ K := Nat.pow_le_pow_right (by omega) hm
  have hp1 : 2 ^ (m + 1) = 2 ^ m * 2 := pow_succ _ _
  unfold FK20Single.new
  simp only
  rw [if_neg (by rw [hw.fs.width]; omega), isPowerOfTwo_two_pow, if_neg (by simp), if_neg (by omega),
    show 2 ^ (m + 1) / 2 = 2 ^ m by omega, subU_of_le (show 1 ≤ 2 ^ m by omega), bind_ok]
  obtain ⟨t, ht⟩ : ∃ t, 2 ^ m - 1 = t + 1 := ⟨2 ^ m - 2, by omega⟩
  rw [ht, forRange, Nat.sub_zero, forLoop, subU_of_le (by omega), bind_ok, subU_of_le (by omega), bind_ok, hw.s1,
    rd_of_ge (by simp; omega)]
  rfl

theorem single_opt_enough {ks : KZGSettings F G1 G2} {g1 : G1} {s : F} {N K : Nat} (hw : ks.Short g1 s N K)
    {m : Nat} (hm : m + 1 ≤ K) {fk : FK20Single F G1 G2} (hfk : FK20Single.new ks (2 ^ (m + 1)) = .ok fk)
    (p : List F) (hp : p.length = 2 ^ m) :
    fk.daOptimized p = .ok ((List.range (2 ^ (m + 1))).map fun j =>
      (polyOf p / (X ^ 1 - C (ks.fs.omega (2 ^ (m + 1)) ^ j))).eval s • g1) := by
  by_cases hN : 2 ^ m - 1 ≤ N
  · rw [single_new_enough hw hm hN] at hfk
    cases hfk
    exact single_opt (hw.longer (0 : G2)) hm (single_new (hw.longer (0 : G2)) hm) p hp
  · rw [single_new_short hw hm (not_le.1 hN)] at hfk
    cases hfk

/-! ### Multi proofs -/

theorem multiSelect_enough {ks : KZGSettings F G1 G2} {g1 : G1} {s : F} {N K : Nat}
    (hw : ks.Short g1 s N K) {k l o : Nat} (hk : 0 < k) (ho : o < l) (hN : (k - 1) * l ≤ N) :
    multiSelect ks (k * l) k l o = .ok ((List.range k).map (selPt g1 s k l o)) := by
  unfold multiSelect
  dsimp only
  rcases Nat.lt_or_ge 1 k with h1 | h1
  · have hkl : 2 * l ≤ k * l := Nat.mul_le_mul_right l h1
    have e0 : k * l = (k - 1) * l + l := by rw [← Nat.succ_mul]; congr 1; omega
    rw [if_pos (by omega), push_loop_state (Nat.zero_le _) [] _
      (fun i => s ^ ((k - 1 - i) * l - 1 - o) • g1) (fun i => (k - 1 - i) * l - 1 - o) (by
        rw [Nat.sub_zero, e0]; omega) (by
        intro i st _ hi hst
        have e1 : (k - 1 - i) * l ≤ (k - 1) * l := Nat.mul_le_mul_right l (by omega)
        have e2 : (k - 1 - i) * l = (k - 1 - (i + 1)) * l + l := by
          rw [← Nat.succ_mul]; congr 1; omega
        rw [hst, hw.s1, rd_getD 0 (by simp; omega), bind_ok, getD_range_map, if_pos (by omega)]
        congr 2
        split
        · omega
        · have : (k - 1 - (i + 1)) * l < l := by omega
          have : k - 1 - (i + 1) = 0 := by
            by_contra hne
            have := Nat.le_mul_of_pos_left l (Nat.pos_of_ne_zero hne)
            omega
          rw [this]; omega), bind_ok]
    simp only
    congr 1
    have e : List.range k = List.range (k - 1) ++ [k - 1] := by
      rw [← List.range_succ]; congr 1; omega
    rw [e, List.map_append, List.nil_append]
    congr 1
    · refine List.map_congr_left fun i hi => ?_
      rw [selPt, if_pos (by simpa using hi), Nat.zero_add]
    · rw [List.map_singleton, selPt, if_neg (by omega)]
  · have hk1 : k = 1 := by omega
    subst hk1
    rw [show 1 - 1 = 0 from rfl, forRange_zero_zero, bind_ok]
    simp only
    congr 1

theorem multiSelect_short {ks : KZGSettings F G1 G2} {g1 : G1} {s : F} {N K : Nat}
    (hw : ks.Short g1 s N K) {k l : Nat} (hk : 1 < k) (hl : 0 < l) (hN : N < (k - 1) * l) :
    multiSelect ks (k * l) k l 0 = .panic := by
  have hkl : 2 * l ≤ k * l := Nat.mul_le_mul_right l hk
  have e0 : k * l = (k - 1) * l + l := by rw [← Nat.succ_mul]; congr 1; omega
  unfold multiSelect
  dsimp only
  rw [if_pos (by omega)]
  obtain ⟨t, ht⟩ : ∃ t, k - 1 = t + 1 := ⟨k - 2, by omega⟩
  rw [ht, forRange, Nat.sub_zero, forLoop]
  simp only
  rw [hw.s1, rd_of_ge (by simp; omega)]
  rfl

theorem multi_new_enough {ks : KZGSettings F G1 G2} {g1 : G1} {s : F} {N K : Nat} (hw : ks.Short g1 s N K)
    {m c : Nat} (hm : m + c + 1 ≤ K) (hN : (2 ^ m - 1) * 2 ^ c ≤ N) :
    FK20Multi.new ks (2 ^ (m + c + 1)) (2 ^ c) = .ok ⟨ks, 2 ^ c, (List.range (2 ^ c)).map fun o =>
      (List.range (2 ^ (m + 1))).map
        (dft (ks.fs.omega (2 ^ (m + 1))) (2 ^ (m + 1)) (selPt g1 s (2 ^ m) (2 ^ c) o))⟩ := by
  have hle : 2 ^ (m + c + 1) ≤ 2 ^ K := Nat.pow_le_pow_right (by omega) hm
  have hpos : 0 < 2 ^ m := by positivity
  have hposc : 0 < 2 ^ c := by positivity
  have hp1 : 2 ^ (m + c + 1) = 2 ^ (m + c) * 2 := pow_succ _ _
  have hp2 : 2 ^ (m + c) = 2 ^ m * 2 ^ c := pow_add _ _ _
  have hcl : 2 ^ c ≤ 2 ^ (m + c) := Nat.pow_le_pow_right (by omega) (by omega)
  unfold FK20Multi.new
  simp only
  rw [if_neg (by rw [hw.fs.width]; omega), isPowerOfTwo_two_pow, if_neg (by simp), if_neg (by omega),
    show 2 ^ (m + c + 1) / 2 = 2 ^ (m + c) by omega, if_neg (by omega), isPowerOfTwo_two_pow,
    if_neg (by simp), hp2, Nat.mul_div_cancel _ hposc,
    push_loop' (fun o => (List.range (2 ^ (m + 1))).map
        (dft (ks.fs.omega (2 ^ (m + 1))) (2 ^ (m + 1)) (selPt g1 s (2 ^ m) (2 ^ c) o))) (by
      intro o acc ho
      rw [multiSelect_enough hw hpos ho hN, bind_ok,
        part1_spec hw.fs (by omega) _ (fun i hi => by rw [selPt, if_neg (by omega)]), bind_ok]), bind_ok]

theorem multi_new_short {ks : KZGSettings F G1 G2} {g1 : G1} {s : F} {N K : Nat} (hw : ks.Short g1 s N K)
    {m c : Nat} (hm : m + c + 1 ≤ K) (hN : N < (2 ^ m - 1) * 2 ^ c) :
    FK20Multi.new ks (2 ^ (m + c + 1)) (2 ^ c) = .panic := by
  have hle : 2 ^ (m + c + 1) ≤ 2 ^ K := Nat.pow_le_pow_right (by omega) hm
  have hpos : 0 < 2 ^ m := by positivity
  have hposc : 0 < 2 ^ c := by positivity
  have hp1 : 2 ^ (m + c + 1) = 2 ^ (m + c) * 2 := pow_succ _ _
  have hp2 : 2 ^ (m + c) = 2 ^ m * 2 ^ c := pow_add _ _ _
  have hcl : 2 ^ c ≤ 2 ^ (m + c) := Nat.pow_le_pow_right (by omega) (by omega)
  have hk : 1 < 2 ^ m := by
    by_contra hc
    rw [show 2 ^ m - 1 = 0 by omega] at hN
    omega
  unfold FK20Multi.new
  simp only
  rw [if_neg (by rw [hw.fs.width]; omega), isPowerOfTwo_two_pow, if_neg (by simp), if_neg (by omega),
    show 2 ^ (m + c + 1) / 2 = 2 ^ (m + c) by omega, if_neg (by omega), isPowerOfTwo_two_pow,
    if_neg (by simp), hp2, Nat.mul_div_cancel _ hposc]
  obtain ⟨t, ht⟩ : ∃ t, 2 ^ c = t + 1 := ⟨2 ^ c - 1, by omega⟩
  have hs := multiSelect_short hw hk hposc hN
  rw [forRange, Nat.sub_zero]
  generalize 2 ^ c = l at *
  subst ht
  rw [forLoop, hs]
  rfl

theorem multi_opt_enough {ks : KZGSettings F G1 G2} {g1 : G1} {s : F} {N K : Nat} (hw : ks.Short g1 s N K)
    {m c : Nat} (hm : m + c + 1 ≤ K) {fk : FK20Multi F G1 G2}
    (hfk : FK20Multi.new ks (2 ^ (m + c + 1)) (2 ^ c) = .ok fk) (p : List F) (hp : p.length = 2 ^ (m + c)) :
    fk.daOptimized p = .ok ((List.range (2 ^ (m + 1))).map fun j =>
      (polyOf p / (X ^ 2 ^ c - C (ks.fs.omega (2 ^ (m + 1)) ^ j))).eval s • g1) := by
  by_cases hN : (2 ^ m - 1) * 2 ^ c ≤ N
  · rw [multi_new_enough hw hm hN] at hfk
    cases hfk
    exact multi_opt (hw.longer (0 : G2)) hm (multi_new (hw.longer (0 : G2)) hm) p hp
  · rw [multi_new_short hw hm (not_le.1 hN)] at hfk
    cases hfk

end Kzg
