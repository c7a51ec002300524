import Verif.Model.Zk.Msm
import Verif.Proofs.Zk.ScalarBytes
import Mathlib.Algebra.BigOperators.Group.List.Basic
import Mathlib.Algebra.Module.Basic
/-!
# The bucket method computes the linear combination
-/

namespace Kzg.Zk.Msm
open Kzg Kzg.Res

section
variable {G : Type} [AddCommMonoid G]

/-- `Σ (i + 1) · bᵢ`. -/
def wsum : List G → G
  | [] => 0
  | b :: bs => b + bs.sum + wsum bs

theorem sumStep_foldl (bs : List G) (run res : G) :
    bs.reverse.foldl sumStep (run, res) = (run + bs.sum, res + wsum bs + bs.length • run) := by
  rw [List.foldl_reverse]
  induction bs with
  | nil => simp [wsum]
  | cons b bs ih =>
    rw [List.foldr_cons, ih]
    simp only [sumStep, wsum, List.sum_cons, List.length_cons, succ_nsmul, Prod.mk.injEq]
    constructor <;> abel

theorem sum_set (bs : List G) (i : Nat) (h : i < bs.length) (p : G) :
    (bs.set i (bs[i] + p)).sum = bs.sum + p := by
  induction bs generalizing i with
  | nil => simp at h
  | cons b bs ih =>
    cases i with
    | zero => simp; abel
    | succ i =>
      simp only [List.set_cons_succ, List.getElem_cons_succ, List.sum_cons]
      rw [ih i (by simpa using h)]
      abel

theorem wsum_set (bs : List G) (i : Nat) (h : i < bs.length) (p : G) :
    wsum (bs.set i (bs[i] + p)) = wsum bs + (i + 1) • p := by
  induction bs generalizing i with
  | nil => simp at h
  | cons b bs ih =>
    cases i with
    | zero => simp [wsum]; abel
    | succ i =>
      simp only [List.set_cons_succ, List.getElem_cons_succ, wsum]
      have h' : i < bs.length := by simpa using h
      rw [ih i h', sum_set bs i h' p, succ_nsmul (n := i + 1)]
      abel

theorem wsum_replicate (n : Nat) : wsum (List.replicate n (0 : G)) = 0 := by
  induction n with
  | zero => rfl
  | succ n ih => simp [List.replicate_succ, wsum, ih]

/-- The digit of `x` in the window that starts at bit `w`. -/
def digit (c w x : Nat) : Nat := x / 2 ^ w % 2 ^ c

/-- What one window contributes for a list of elements and points. -/
def windowVal (c w : Nat) : List Fr → List G → G
  | x :: xs, p :: ps => digit c w x.val • p + windowVal c w xs ps
  | _, _ => 0

theorem val_one : (1 : Fr).val = 1 := by
  have : Fact (1 < frModulus) := ⟨by simp [frModulus]⟩
  exact ZMod.val_one _

theorem digit_one {c : Nat} (hc : 0 < c) (w : Nat) : digit c w 1 = if w = 0 then 1 else 0 := by
  have h1 : 1 % 2 ^ c = 1 := Nat.mod_eq_of_lt (Nat.one_lt_two_pow (by omega))
  by_cases h : w = 0
  · simp [digit, h, h1]
  · rw [digit, if_neg h, Nat.div_eq_of_lt (Nat.one_lt_two_pow h), Nat.zero_mod]

theorem digit_word {c w : Nat} (hc : c ≤ 64) (hw : w < 256) {s : Scalar} {x : Fr} (hs : Scalar.Rep s x) :
    (Scalar.divn (Scalar.reduce s) w).l0 % 2 ^ c = digit c w x.val := by
  obtain ⟨hr, e⟩ := Scalar.reduce_rep hs
  obtain ⟨-, e'⟩ := Scalar.divn_spec hr hw
  rw [e] at e'
  rw [digit, ← e', Scalar.val]
  generalize Scalar.divn (Scalar.reduce s) w = t
  have hd : 2 ^ c ∣ W := by
    rw [W]
    exact pow_dvd_pow 2 hc
  obtain ⟨k, hk⟩ := hd
  have : t.l0 + W * t.l1 + W ^ 2 * t.l2 + W ^ 3 * t.l3
      = t.l0 + 2 ^ c * (k * (t.l1 + W * t.l2 + W ^ 2 * t.l3)) := by
    rw [← mul_assoc, ← hk]
    ring
  rw [this, Nat.add_mul_mod_self_left]

theorem fillBuckets_spec {c w : Nat} (h0 : 0 < c) (hc : c ≤ 64) (hw : w < 256) {scalars : List Scalar}
    {xs : List Fr} (h : List.Forall₂ Scalar.Rep scalars xs) :
    ∀ (points : List G) (res : G) (buckets : List G), buckets.length = 2 ^ c - 1 →
      Sat (fillBuckets c w (scalars.zip points) (res, buckets)) (fun st => st.2.length = 2 ^ c - 1 ∧
        st.1 + wsum st.2 = res + wsum buckets + windowVal c w xs points) := by
  induction h with
  | nil =>
    intro points res buckets hl
    exact ⟨_, rfl, hl, by simp [windowVal]⟩
  | @cons s x scalars xs hs _ ih =>
    intro points res buckets hl
    cases points with
    | nil => exact ⟨_, by rw [List.zip_nil_right]; rfl, hl, by simp [windowVal]⟩
    | cons p points =>
      rw [List.zip_cons_cons, fillBuckets, Scalar.ctEq_rep hs Scalar.zero_rep, Scalar.ctEq_rep hs Scalar.one_rep]
      simp only [windowVal, decide_eq_true_eq]
      by_cases hx0 : x = 0
      · rw [if_pos hx0]
        refine (ih points res buckets hl).mono fun st hst => ⟨hst.1, ?_⟩
        rw [hst.2, hx0, show (0 : Fr).val = 0 from ZMod.val_zero, show digit c w 0 = 0 by simp [digit]]
        simp
      · rw [if_neg hx0]
        by_cases hx1 : x = 1
        · rw [if_pos hx1, hx1, val_one, digit_one h0]
          by_cases hw0 : w = 0
          · rw [if_pos hw0, if_pos hw0]
            refine (ih points (res + p) buckets hl).mono fun st hst => ⟨hst.1, ?_⟩
            rw [hst.2, one_nsmul]
            abel
          · rw [if_neg hw0, if_neg hw0]
            refine (ih points res buckets hl).mono fun st hst => ⟨hst.1, ?_⟩
            rw [hst.2]
            simp
        · rw [if_neg hx1]
          simp only [digit_word hc hw hs]
          by_cases hd : digit c w x.val = 0
          · rw [if_neg (by simpa using hd), hd]
            refine (ih points res buckets hl).mono fun st hst => ⟨hst.1, ?_⟩
            rw [hst.2]
            simp
          · rw [if_pos hd]
            have hlt : digit c w x.val < 2 ^ c := Nat.mod_lt _ (by positivity)
            have hi : digit c w x.val - 1 < buckets.length := by omega
            rw [rd_of_lt hi, bind_ok, wr_of_lt hi, bind_ok]
            refine (ih points res _ (by rw [List.length_set]; exact hl)).mono fun st hst => ⟨hst.1, ?_⟩
            rw [hst.2, wsum_set, Nat.sub_add_cancel (by omega)]
            abel

theorem windowSum_spec {c w : Nat} (h0 : 0 < c) (hc : c ≤ 64) (hw : w < 256) {scalars : List Scalar}
    {xs : List Fr} (h : List.Forall₂ Scalar.Rep scalars xs) (points : List G) :
    windowSum c points scalars w = .ok (windowVal c w xs points) := by
  obtain ⟨⟨res, bs⟩, e, -, h2⟩ := fillBuckets_spec h0 hc hw h points 0 (List.replicate (2 ^ c - 1) 0) (by simp)
  rw [windowSum, e, bind_ok]
  simp only
  rw [sumStep_foldl]
  simp only [wsum_replicate, zero_add, nsmul_zero, add_zero] at h2 ⊢
  rw [h2]

theorem windowSums_spec {c : Nat} (h0 : 0 < c) (hc : c ≤ 64) {scalars : List Scalar}
    {xs : List Fr} (h : List.Forall₂ Scalar.Rep scalars xs) (points : List G) (ws : List Nat)
    (hw : ∀ w ∈ ws, w < 256) :
    windowSums c points scalars ws = .ok (ws.map fun w => windowVal c w xs points) := by
  induction ws with
  | nil => rfl
  | cons w ws ih =>
    rw [windowSums, windowSum_spec h0 hc (hw w (by simp)) h, bind_ok, ih fun w hw' => hw w (by simp [hw']), bind_ok]
    rfl

theorem doubles_eq (n : Nat) (t : G) : doubles (fun t : G => t + t) n t = 2 ^ n • t := by
  induction n generalizing t with
  | zero => simp [doubles]
  | succ n ih => rw [doubles, ih, pow_succ, mul_nsmul', two_nsmul]

/-- `Σ 2^(c i) · sᵢ`. -/
def horner (c : Nat) : List G → G
  | [] => 0
  | s :: ss => s + 2 ^ c • horner c ss

theorem fold_horner (c : Nat) (ss : List G) :
    ss.reverse.foldl (fun total s => doubles (fun t => t + t) c (total + s)) 0 = 2 ^ c • horner c ss := by
  rw [List.foldl_reverse]
  induction ss with
  | nil => simp [horner]
  | cons s ss ih => rw [List.foldr_cons, ih, doubles_eq, horner, add_comm]

theorem digits_sum (c x : Nat) (n k : Nat) :
    2 ^ (c * k) * ((List.range n).map fun i => 2 ^ (c * i) * digit c ((i + k) * c) x).sum
      = 2 ^ (c * k) * (x / 2 ^ (c * k) % 2 ^ (c * n)) := by
  congr 1
  induction n with
  | zero => simp [Nat.mod_one]
  | succ n ih =>
    rw [List.range_succ, List.map_append, List.sum_append, ih, Nat.mul_succ c n, pow_add, Nat.mod_mul]
    simp only [List.map_cons, List.map_nil, List.sum_cons, List.sum_nil, Nat.add_zero, digit]
    rw [Nat.div_div_eq_div_mul, ← pow_add, show c * k + c * n = (n + k) * c by ring]

theorem horner_map (c : Nat) (f : Nat → G) (n : Nat) :
    horner c ((List.range n).map f) = ((List.range n).map fun i => 2 ^ (c * i) • f i).sum := by
  have key : ∀ (n k : Nat), horner c ((List.range' k n).map f)
      = ((List.range n).map fun i => 2 ^ (c * i) • f (k + i)).sum := by
    intro n
    induction n with
    | zero => intro k; rfl
    | succ n ih =>
      intro k
      rw [List.range'_succ, List.map_cons, horner, ih (k + 1), List.range_succ_eq_map, List.map_cons, List.sum_cons,
        List.map_map, List.smul_sum, List.map_map]
      simp only [Nat.mul_zero, pow_zero, one_nsmul, Nat.add_zero]
      congr 3
      funext i
      simp only [Function.comp_apply, smul_smul]
      rw [← pow_add, show c + c * i = c * (i + 1) by ring, show k + 1 + i = k + (i + 1) by ring]
  rw [List.range_eq_range', key]
  simp [List.range_eq_range']

theorem windowVal_sum (c : Nat) (xs : List Fr) (points : List G) (n : Nat) (hn : 255 ≤ c * n) :
    ((List.range n).map fun i => 2 ^ (c * i) • windowVal c (i * c) xs points).sum
      = (List.zipWith (fun (x : Fr) p => x.val • p) xs points).sum := by
  induction xs generalizing points with
  | nil => simp [windowVal]
  | cons x xs ih =>
    cases points with
    | nil => simp [windowVal]
    | cons p ps =>
      simp only [windowVal, List.zipWith_cons_cons, List.sum_cons]
      rw [← ih]
      have h1 : ((List.range n).map fun i => 2 ^ (c * i) • (digit c (i * c) x.val • p + windowVal c (i * c) xs ps)).sum
          = ((List.range n).map fun i => 2 ^ (c * i) • digit c (i * c) x.val • p).sum
            + ((List.range n).map fun i => 2 ^ (c * i) • windowVal c (i * c) xs ps).sum := by
        rw [← List.sum_map_add]
        simp only [smul_add]
      rw [h1]
      congr 1
      have h2 : ((List.range n).map fun i => 2 ^ (c * i) • digit c (i * c) x.val • p).sum
          = ((List.range n).map fun i => 2 ^ (c * i) * digit c (i * c) x.val).sum • p := by
        rw [List.sum_smul, List.map_map]
        congr 2
        funext i
        simp only [Function.comp_apply, mul_smul]
      rw [h2]
      congr 1
      have h3 := digits_sum c x.val n 0
      simp only [Nat.mul_zero, pow_zero, one_mul, Nat.add_zero, Nat.div_one] at h3
      rw [h3]
      apply Nat.mod_eq_of_lt
      calc x.val < frModulus := ZMod.val_lt x
        _ ≤ 2 ^ 255 := by simp [frModulus]
        _ ≤ 2 ^ (c * n) := Nat.pow_le_pow_right (by norm_num) hn

/-- The method is right for every window width. -/
theorem msm_any_width {c : Nat} (h0 : 0 < c) (hc : c ≤ 64) {scalars : List Scalar} {xs : List Fr}
    (h : List.Forall₂ Scalar.Rep scalars xs) (points : List G) :
    (windowSums c points scalars (windowStarts c) >>= fun sums =>
      rd sums 0 >>= fun lowest =>
      sliceFrom sums 1 >>= fun rest =>
      .ok (rest.reverse.foldl (fun total s => doubles (fun t => t + t) c (total + s)) 0 + lowest))
      = .ok (List.zipWith (fun (x : Fr) p => x.val • p) xs points).sum := by
  have hN : 0 < (255 + c - 1) / c := Nat.div_pos (by omega) h0
  have hcN : 255 ≤ c * ((255 + c - 1) / c) := by
    have := Nat.div_add_mod (255 + c - 1) c
    have := Nat.mod_lt (255 + c - 1) h0
    omega
  have hws : ∀ w ∈ windowStarts c, w < 256 := by
    intro w hw
    simp only [windowStarts, List.mem_map, List.mem_range] at hw
    obtain ⟨i, hi, rfl⟩ := hw
    have h1 : (i + 1) * c ≤ 255 + c - 1 := by
      calc (i + 1) * c ≤ (255 + c - 1) / c * c := Nat.mul_le_mul_right c hi
        _ ≤ _ := Nat.div_mul_le_self _ _
    rw [Nat.add_mul] at h1
    omega
  rw [windowSums_spec h0 hc h points _ hws, bind_ok]
  have hmap : (windowStarts c).map (fun w => windowVal c w xs points)
      = (List.range ((255 + c - 1) / c)).map fun i => windowVal c (i * c) xs points := by
    rw [windowStarts, List.map_map]
    rfl
  have hval := windowVal_sum c xs points _ hcN
  rw [← horner_map c (fun i => windowVal c (i * c) xs points)] at hval
  rw [hmap, ← hval]
  generalize (255 + c - 1) / c = n at *
  obtain ⟨m, rfl⟩ : ∃ m, n = m + 1 := ⟨n - 1, by omega⟩
  rw [List.range_succ_eq_map, List.map_cons]
  simp only [rd, List.getElem?_cons_zero, bind_ok, sliceFrom, List.length_cons, List.drop_succ_cons, List.drop_zero]
  rw [if_pos (by omega), bind_ok, fold_horner, horner, add_comm]

theorem windowBits_bounds (n : Nat) : 0 < windowBits n ∧ windowBits n ≤ 64 := by
  unfold windowBits
  split
  · omega
  · have : log2 n ≤ 64 := by
      unfold log2
      split
      · omega
      · omega
    unfold lnWithoutFloats
    constructor
    · omega
    · have : log2 n * 69 / 100 ≤ 64 * 69 / 100 := Nat.div_le_div_right (Nat.mul_le_mul_right _ this)
      omega

theorem msmVariableBase_spec {scalars : List Scalar} {xs : List Fr} (h : List.Forall₂ Scalar.Rep scalars xs)
    (points : List G) :
    msmVariableBase (fun t => t + t) points scalars = .ok (List.zipWith (fun (x : Fr) p => x.val • p) xs points).sum := by
  obtain ⟨h0, hc⟩ := windowBits_bounds scalars.length
  exact msm_any_width h0 hc h points

end
end Kzg.Zk.Msm
