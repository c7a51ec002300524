import Verif.Props.ZkKzg
import Verif.Props.MclKzg
import Verif.Props.ArkKzg
import Verif.Props.Soundness
/-!
# Properties C188, C189: claims about one commitment

A claim is what one of the checks accepts: a value at a point, or values on a coset. It is written as two polynomials: `Z` is zero at the
points of the claim (`X - x`, or `X^n - x^n`), and `I` has the claimed values there.
-/

set_option linter.unusedSectionVars false

namespace Kzg.Props
open Kzg Kzg.Res Polynomial

section
variable {K G : Type} [Field K] [AddCommGroup G] [Module K G]

theorem eval_divByMonic (f : K[X]) (a s : K) : f.eval s = (s - a) * (f /ₘ (X - C a)).eval s + f.eval a := by
  have h := congrArg (eval s) (modByMonic_add_div f (X - C a))
  rw [modByMonic_X_sub_C_eq_C_eval, eval_add, eval_C, eval_mul, eval_sub, eval_X, eval_C] at h
  rw [← h, add_comm]

theorem divByMonic_self (x : K) : (X - C x) /ₘ (X - C x) = 1 := by
  have := mul_divByMonic_cancel_left (1 : K[X]) (monic_X_sub_C x)
  rwa [mul_one] at this

theorem divByMonic_const (x y : K) : (C y) /ₘ (X - C x) = 0 := by
  rw [divByMonic_eq_zero_iff (monic_X_sub_C x), degree_X_sub_C]
  exact lt_of_le_of_lt degree_C_le zero_lt_one

/-- Two claims that disagree at a common point `a` give `1/(s - a)` times the generator: the polynomials on the left are known to who
knows the claims. -/
theorem claims_disagree {g com π π' : G} {s a : K} {Z Z' I I' : K[X]} (h : com - I.eval s • g = Z.eval s • π)
    (h' : com - I'.eval s • g = Z'.eval s • π') (hz : Z.eval a = 0) (hz' : Z'.eval a = 0) (hI : I.eval a ≠ I'.eval a) (hs : s ≠ a) :
    (I'.eval a - I.eval a)⁻¹ • ((Z /ₘ (X - C a)).eval s • π - (Z' /ₘ (X - C a)).eval s • π' - ((I' - I) /ₘ (X - C a)).eval s • g) =
      (s - a)⁻¹ • g := by
  have hsa : s - a ≠ 0 := sub_ne_zero.2 hs
  have hd : I'.eval a - I.eval a ≠ 0 := sub_ne_zero.2 hI.symm
  have e1 := eval_divByMonic Z a s
  have e2 := eval_divByMonic Z' a s
  have e3 := eval_divByMonic (I' - I) a s
  rw [hz, add_zero] at e1
  rw [hz', add_zero] at e2
  rw [eval_sub, eval_sub] at e3
  have key : (I'.eval s - I.eval s) • g = Z.eval s • π - Z'.eval s • π' := by
    rw [← h, ← h', sub_smul]; abel
  rw [e3, e1, e2, add_smul, mul_smul, mul_smul, mul_smul] at key
  have key2 : (s - a) • ((Z /ₘ (X - C a)).eval s • π - (Z' /ₘ (X - C a)).eval s • π' - ((I' - I) /ₘ (X - C a)).eval s • g) =
      (I'.eval a - I.eval a) • g := by
    rw [smul_sub, smul_sub, ← key]; abel
  rw [← inv_smul_smul₀ hsa ((Z /ₘ (X - C a)).eval s • π - (Z' /ₘ (X - C a)).eval s • π' - ((I' - I) /ₘ (X - C a)).eval s • g), key2,
    smul_comm, inv_smul_smul₀ hd]

/-- Claims add up. -/
theorem claims_add {g com com' π π' : G} {s : K} {Z I I' : K[X]} (c : K) (h : com - I.eval s • g = Z.eval s • π)
    (h' : com' - I'.eval s • g = Z.eval s • π') :
    (com + c • com') - (I + C c * I').eval s • g = Z.eval s • (π + c • π') := by
  rw [smul_add, smul_comm, ← h, ← h', eval_add, eval_mul, eval_C, add_smul, mul_smul, smul_sub]; abel

theorem claim_iff {g com com' π π' : G} {z y y' c : K} (hc : c ≠ 0) (h : com - y • g = z • π) :
    (com + c • com') - (y + c * y') • g = z • (π + c • π') ↔ com' - y' • g = z • π' := by
  rw [smul_add, ← h, smul_comm z c π', add_smul, mul_smul]
  have : com + c • com' - (y • g + c • y' • g) = (com - y • g) + c • (com' - y' • g) := by rw [smul_sub]; abel
  rw [this, add_right_inj]
  exact ⟨fun e => smul_right_injective G hc e, fun e => by rw [e]⟩

/-- `I` is the polynomial of degree below the number of values that takes them on the coset `x·ω^i`. -/
def TakesOn (ω x : K) (ys : List K) (I : K[X]) : Prop :=
  I.degree < ys.length ∧ ∀ i < ys.length, ys[i]? = some (I.eval (x * ω ^ i))

theorem TakesOn.combine {ω x : K} {ys ys' : List K} {I I' : K[X]} (h : TakesOn ω x ys I) (h' : TakesOn ω x ys' I')
    (hl : ys.length = ys'.length) (c : K) : TakesOn ω x (List.zipWith (fun a b => a + c * b) ys ys') (I + C c * I') := by
  have hlen : (List.zipWith (fun a b => a + c * b) ys ys').length = ys.length := by rw [List.length_zipWith]; omega
  rw [TakesOn, hlen]
  refine ⟨?_, fun i hi => ?_⟩
  · refine lt_of_le_of_lt (degree_add_le _ _) (max_lt h.1 ?_)
    refine lt_of_le_of_lt (degree_mul_le _ _) ?_
    refine lt_of_le_of_lt (add_le_add_left degree_C_le _) ?_
    rw [zero_add, hl]; exact h'.1
  · rw [List.getElem?_zipWith, h.2 i hi, h'.2 i (by omega), eval_add, eval_mul, eval_C]

end

section backends
variable {G1 G2 GT P : Type} [AddCommGroup G1] [Module Fr G1] [AddCommGroup G2] [Module Fr G2]
  [CommGroup GT] [DecidableEq GT]

/-! ### What the checks accept -/

/-- What one of the two checks of blst-from-scratch accepts. -/
inductive BlstClaim (B : Backend G1 G2 GT) (g1 : G1) (g2 : G2) (ks : KZGSettings Fr G1 G2) (N scale : Nat) (com : G1) :
    Fr[X] → Fr[X] → G1 → Prop
  | single (π : G1) (x y : Fr) (h : ks.checkProofSingle B g1 g2 com π x y = .ok true) : BlstClaim B g1 g2 ks N scale com (X - C x) (C y) π
  | multi (π : G1) (x : Fr) (m : Nat) (ys : List Fr) (I : Fr[X]) (hm : m ≤ scale) (hN : 2 ^ m < N) (hx : x ≠ 0) (hl : ys.length = 2 ^ m)
      (hI : TakesOn (cosetRoot ks scale m) x ys I) (h : ks.checkProofMulti B g2 com π x ys (2 ^ m) = .ok true) :
      BlstClaim B g1 g2 ks N scale com (X ^ 2 ^ m - C (x ^ 2 ^ m)) I π

/-- What one of the two checks of mcl-kzg accepts, up to `2^30` values. -/
inductive MclClaim [Mcl.Lib Fr] (B : Mcl.Backend G1 G2 GT) (g1 : G1) (g2 : G2) (ks : KZGSettings Fr G1 G2) (N scale : Nat) (com : G1) :
    Fr[X] → Fr[X] → G1 → Prop
  | single (π : G1) (x y : Fr) (h : Mcl.checkProofSingle B g1 g2 ks com π x y = .ok true) : MclClaim B g1 g2 ks N scale com (X - C x) (C y) π
  | multi (π : G1) (x : Fr) (m : Nat) (ys : List Fr) (I : Fr[X]) (hm : m ≤ scale) (h30 : m ≤ 30) (hN : 2 ^ m < N) (hx : x ≠ 0)
      (hl : ys.length = 2 ^ m) (hI : TakesOn (cosetRoot ks scale m) x ys I) (h : Mcl.checkProofMulti B g2 ks com π x ys (2 ^ m) = .ok true) :
      MclClaim B g1 g2 ks N scale com (X ^ 2 ^ m - C (x ^ 2 ^ m)) I π

/-- What one of the two checks of Arkworks accepts. -/
inductive ArkClaim (B : Ark.Backend P G1 G2 GT) (ks : Ark.Settings P G1 G2) (L scale : Nat) (com : G1) : Fr[X] → Fr[X] → G1 → Prop
  | single (π : G1) (x y : Fr) (h : ks.checkSingle B com π x y = .ok true) : ArkClaim B ks L scale com (X - C x) (C y) π
  | multi (π : G1) (x : Fr) (m : Nat) (ys : List Fr) (I : Fr[X]) (hm : m ≤ scale) (hN : 2 ^ m ≤ L) (hx : x ≠ 0) (hl : ys.length = 2 ^ m)
      (hI : TakesOn (domainRoot ks.fs scale m) x ys I) (h : ks.checkMulti B com π x ys (2 ^ m) = .ok true) :
      ArkClaim B ks L scale com (X ^ 2 ^ m - C (x ^ 2 ^ m)) I π

theorem BlstClaim.opens {B : Backend G1 G2 GT} {g1 : G1} {g2 : G2} (hB : B.Lawful g1 g2) {ks : KZGSettings Fr G1 G2} {N scale : Nat}
    {s : Fr} (h : MadeFrom ks g1 g2 N scale s) (hN : 2 ≤ N) (hs : s ≠ 0 ∨ B.MsmTotal) {com π : G1} {Z I : Fr[X]}
    (hc : BlstClaim B g1 g2 ks N scale com Z I π) (hz : Z.eval s ≠ 0 ∨ B.PairTotal) : com - I.eval s • g1 = Z.eval s • π := by
  cases hc with
  | single π x y hk =>
    rw [eval_sub, eval_X, eval_C] at hz ⊢
    rw [eval_C]
    exact (C27_single_accepts_iff hB h hN com π x y (hz.imp_left fun hh e => hh (by rw [e, sub_self]))).2.1 hk
  | multi π x m ys I hm hN' hx hl hI hk =>
    rw [eval_sub, eval_pow, eval_X, eval_C] at hz ⊢
    rw [TakesOn, hl] at hI
    exact (C29_multi_accepts_iff hB h hm hN' com π x hx ys hl (hs.imp_right Or.inr) (hz.imp_left fun hh e => hh (by rw [e, sub_self])) I
      hI.1 hI.2).2.1 hk

theorem MclClaim.opens [Mcl.Lib Fr] {B : Mcl.Backend G1 G2 GT} {g1 : G1} {g2 : G2} (hB : B.Lawful g1 g2) {ks : KZGSettings Fr G1 G2}
    {N scale : Nat} {s : Fr} (h : MclMade ks g1 g2 N scale s) (hN : 2 ≤ N) {com π : G1} {Z I : Fr[X]}
    (hc : MclClaim B g1 g2 ks N scale com Z I π) : com - I.eval s • g1 = Z.eval s • π := by
  cases hc with
  | single π x y hk =>
    rw [eval_sub, eval_X, eval_C, eval_C]
    exact (C108_single_accepts_iff hB h hN com π x y).2.1 hk
  | multi π x m ys I hm h30 hN' hx hl hI hk =>
    rw [eval_sub, eval_pow, eval_X, eval_C]
    rw [TakesOn, hl] at hI
    exact (C109_multi_accepts_iff hB h hm h30 hN' com π x hx ys hl I hI.1 hI.2).2.1 hk

theorem ArkClaim.opens {B : Ark.Backend P G1 G2 GT} {g1 : G1} {g2 : G2} (hB : B.Lawful g1 g2) {ks : Ark.Settings P G1 G2}
    {L scale : Nat} {s : Fr} (h : ArkMade B ks g1 g2 L scale s) (hL : 1 ≤ L) {com π : G1} {Z I : Fr[X]}
    (hc : ArkClaim B ks L scale com Z I π) : com - I.eval s • g1 = Z.eval s • π := by
  cases hc with
  | single π x y hk =>
    rw [eval_sub, eval_X, eval_C, eval_C]
    exact (C127_single_accepts_iff hB h hL com π x y).2.1 hk
  | multi π x m ys I hm hN' hx hl hI hk =>
    rw [eval_sub, eval_pow, eval_X, eval_C]
    rw [TakesOn, hl] at hI
    exact (C128_multi_accepts_iff hB h hm hN' com π x hx ys hl I hI.1 hI.2).2.1 hk

/-! ## C188 -/

/-- C188 (blst-from-scratch): if two accepted claims about one commitment disagree at a common point `a`, then they give, by operations
with public polynomials, the element `1/(s - a)·g1`. -/
theorem C188_blst {B : Backend G1 G2 GT} {g1 : G1} {g2 : G2} (hB : B.Lawful g1 g2) {ks : KZGSettings Fr G1 G2} {N scale : Nat}
    {s : Fr} (h : MadeFrom ks g1 g2 N scale s) (hN : 2 ≤ N) (hs : s ≠ 0 ∨ B.MsmTotal) {com π π' : G1} {Z Z' I I' : Fr[X]}
    (hc : BlstClaim B g1 g2 ks N scale com Z I π) (hc' : BlstClaim B g1 g2 ks N scale com Z' I' π')
    (hz : Z.eval s ≠ 0 ∧ Z'.eval s ≠ 0 ∨ B.PairTotal) {a : Fr} (ha : Z.eval a = 0) (ha' : Z'.eval a = 0) (hI : I.eval a ≠ I'.eval a)
    (hsa : s ≠ a) :
    (I'.eval a - I.eval a)⁻¹ • ((Z /ₘ (X - C a)).eval s • π - (Z' /ₘ (X - C a)).eval s • π' - ((I' - I) /ₘ (X - C a)).eval s • g1) =
      (s - a)⁻¹ • g1 :=
  claims_disagree (hc.opens hB h hN hs (hz.imp_left And.left)) (hc'.opens hB h hN hs (hz.imp_left And.right)) ha ha' hI hsa

/-- C188 (mcl-kzg). -/
theorem C188_mcl [Mcl.Lib Fr] {B : Mcl.Backend G1 G2 GT} {g1 : G1} {g2 : G2} (hB : B.Lawful g1 g2) {ks : KZGSettings Fr G1 G2}
    {N scale : Nat} {s : Fr} (h : MclMade ks g1 g2 N scale s) (hN : 2 ≤ N) {com π π' : G1} {Z Z' I I' : Fr[X]}
    (hc : MclClaim B g1 g2 ks N scale com Z I π) (hc' : MclClaim B g1 g2 ks N scale com Z' I' π') {a : Fr} (ha : Z.eval a = 0)
    (ha' : Z'.eval a = 0) (hI : I.eval a ≠ I'.eval a) (hsa : s ≠ a) :
    (I'.eval a - I.eval a)⁻¹ • ((Z /ₘ (X - C a)).eval s • π - (Z' /ₘ (X - C a)).eval s • π' - ((I' - I) /ₘ (X - C a)).eval s • g1) =
      (s - a)⁻¹ • g1 :=
  claims_disagree (hc.opens hB h hN) (hc'.opens hB h hN) ha ha' hI hsa

/-- C188 (Arkworks). -/
theorem C188_ark {B : Ark.Backend P G1 G2 GT} {g1 : G1} {g2 : G2} (hB : B.Lawful g1 g2) {ks : Ark.Settings P G1 G2}
    {L scale : Nat} {s : Fr} (h : ArkMade B ks g1 g2 L scale s) (hL : 1 ≤ L) {com π π' : G1} {Z Z' I I' : Fr[X]}
    (hc : ArkClaim B ks L scale com Z I π) (hc' : ArkClaim B ks L scale com Z' I' π') {a : Fr} (ha : Z.eval a = 0)
    (ha' : Z'.eval a = 0) (hI : I.eval a ≠ I'.eval a) (hsa : s ≠ a) :
    (I'.eval a - I.eval a)⁻¹ • ((Z /ₘ (X - C a)).eval s • π - (Z' /ₘ (X - C a)).eval s • π' - ((I' - I) /ₘ (X - C a)).eval s • g1) =
      (s - a)⁻¹ • g1 :=
  claims_disagree (hc.opens hB h hL) (hc'.opens hB h hL) ha ha' hI hsa


/-- C188 (two single proofs, mcl-kzg): the special case without polynomials. -/
theorem C188_mcl_single [Mcl.Lib Fr] {B : Mcl.Backend G1 G2 GT} {g1 : G1} {g2 : G2} (hB : B.Lawful g1 g2) {ks : KZGSettings Fr G1 G2}
    {N scale : Nat} {s : Fr} (h : MclMade ks g1 g2 N scale s) (hN : 2 ≤ N) {com π π' : G1} {x y y' : Fr} (hx : s ≠ x) (hy : y ≠ y')
    (hk : Mcl.checkProofSingle B g1 g2 ks com π x y = .ok true) (hk' : Mcl.checkProofSingle B g1 g2 ks com π' x y' = .ok true) :
    (y' - y)⁻¹ • (π - π') = (s - x)⁻¹ • g1 := by
  have := C188_mcl hB h hN (.single π x y hk) (.single π' x y' hk') (a := x) (by simp) (by simp) (by simpa using hy) hx
  rwa [divByMonic_self, ← C_sub, divByMonic_const, eval_one, eval_zero, one_smul, one_smul, zero_smul, sub_zero, eval_C, eval_C] at this

/-- C188 (two single proofs, Arkworks). -/
theorem C188_ark_single {B : Ark.Backend P G1 G2 GT} {g1 : G1} {g2 : G2} (hB : B.Lawful g1 g2) {ks : Ark.Settings P G1 G2}
    {L scale : Nat} {s : Fr} (h : ArkMade B ks g1 g2 L scale s) (hL : 1 ≤ L) {com π π' : G1} {x y y' : Fr} (hx : s ≠ x) (hy : y ≠ y')
    (hk : ks.checkSingle B com π x y = .ok true) (hk' : ks.checkSingle B com π' x y' = .ok true) :
    (y' - y)⁻¹ • (π - π') = (s - x)⁻¹ • g1 := by
  have := C188_ark hB h hL (.single π x y hk) (.single π' x y' hk') (a := x) (by simp) (by simp) (by simpa using hy) hx
  rwa [divByMonic_self, ← C_sub, divByMonic_const, eval_one, eval_zero, one_smul, one_smul, zero_smul, sub_zero, eval_C, eval_C] at this

/-- C188 (the secret is determined): the element `1/(s - a)·g1` fits no other secret. -/
theorem C188_determines {g1 : G1} (hg : g1 ≠ 0) {s s' a : Fr} (e : (s - a)⁻¹ • g1 = (s' - a)⁻¹ • g1) : s = s' := by
  have : (s - a)⁻¹ = (s' - a)⁻¹ := (smul_inj' hg).1 e
  have := inv_injective this
  linear_combination this

/-! ## C189 -/

/-- C189 (blst-from-scratch, single): with an accepted claim at `x`, the claim `c` times another one added to it is accepted exactly if
that other one is. -/
theorem C189_blst_single {B : Backend G1 G2 GT} {g1 : G1} {g2 : G2} (hB : B.Lawful g1 g2) {ks : KZGSettings Fr G1 G2} {N scale : Nat}
    {s : Fr} (h : MadeFrom ks g1 g2 N scale s) (hN : 2 ≤ N) (com π com' π' : G1) (x y y' c : Fr) (hx : x ≠ s ∨ B.PairTotal) (hc : c ≠ 0)
    (hk : ks.checkProofSingle B g1 g2 com π x y = .ok true) :
    ks.checkProofSingle B g1 g2 (com + c • com') (π + c • π') x (y + c * y') = .ok true ↔
      ks.checkProofSingle B g1 g2 com' π' x y' = .ok true := by
  rw [(C27_single_accepts_iff hB h hN _ _ x _ hx).2] at hk ⊢
  rw [(C27_single_accepts_iff hB h hN _ _ x _ hx).2]
  exact claim_iff hc hk

/-- C189 (mcl-kzg, single). -/
theorem C189_mcl_single [Mcl.Lib Fr] {B : Mcl.Backend G1 G2 GT} {g1 : G1} {g2 : G2} (hB : B.Lawful g1 g2) {ks : KZGSettings Fr G1 G2}
    {N scale : Nat} {s : Fr} (h : MclMade ks g1 g2 N scale s) (hN : 2 ≤ N) (com π com' π' : G1) (x y y' c : Fr) (hc : c ≠ 0)
    (hk : Mcl.checkProofSingle B g1 g2 ks com π x y = .ok true) :
    Mcl.checkProofSingle B g1 g2 ks (com + c • com') (π + c • π') x (y + c * y') = .ok true ↔
      Mcl.checkProofSingle B g1 g2 ks com' π' x y' = .ok true := by
  rw [(C108_single_accepts_iff hB h hN _ _ x _).2] at hk ⊢
  rw [(C108_single_accepts_iff hB h hN _ _ x _).2]
  exact claim_iff hc hk

/-- C189 (Arkworks, single). -/
theorem C189_ark_single {B : Ark.Backend P G1 G2 GT} {g1 : G1} {g2 : G2} (hB : B.Lawful g1 g2) {ks : Ark.Settings P G1 G2}
    {L scale : Nat} {s : Fr} (h : ArkMade B ks g1 g2 L scale s) (hL : 1 ≤ L) (com π com' π' : G1) (x y y' c : Fr) (hc : c ≠ 0)
    (hk : ks.checkSingle B com π x y = .ok true) :
    ks.checkSingle B (com + c • com') (π + c • π') x (y + c * y') = .ok true ↔ ks.checkSingle B com' π' x y' = .ok true := by
  rw [(C127_single_accepts_iff hB h hL _ _ x _).2] at hk ⊢
  rw [(C127_single_accepts_iff hB h hL _ _ x _).2]
  exact claim_iff hc hk

/-- The values of a combination of claims. -/
def combined {K : Type} [Field K] (c : K) (ys ys' : List K) : List K := List.zipWith (fun a b => a + c * b) ys ys'

theorem combined_iff {K G : Type} [Field K] [DecidableEq K] [AddCommGroup G] [Module K G] {g com com' π π' : G} {s z ω x c : K} {n : Nat}
    (hω : IsPrimitiveRoot ω n) (hx : x ≠ 0) (hc : c ≠ 0) {chk : G → G → List K → Prop} {ys ys' : List K} (hl : ys.length = n)
    (hl' : ys'.length = n) (h : ∀ com π zs (I : K[X]), zs.length = n → I.degree < n → (∀ i < n, zs[i]? = some (I.eval (x * ω ^ i))) →
      (chk com π zs ↔ com - I.eval s • g = z • π)) (hk : chk com π ys) :
    chk (com + c • com') (π + c • π') (combined c ys ys') ↔ chk com' π' ys' := by
  have hlen : (combined c ys ys').length = n := by rw [combined, List.length_zipWith, hl, hl', min_self]
  obtain ⟨I, hI⟩ := coset_interpolant hω hx ys hl
  obtain ⟨I', hI'⟩ := coset_interpolant hω hx ys' hl'
  have hJ := TakesOn.combine (ω := ω) (x := x) (ys := ys) (ys' := ys') (I := I) (I' := I') (by rw [TakesOn, hl]; exact hI)
    (by rw [TakesOn, hl']; exact hI') (by omega) c
  rw [← combined, TakesOn, hlen] at hJ
  rw [h _ _ _ I hl hI.1 hI.2] at hk
  rw [h _ _ _ _ hlen hJ.1 hJ.2, h _ _ _ I' hl' hI'.1 hI'.2, eval_add, eval_mul, eval_C]
  exact claim_iff hc hk

/-- C189 (blst-from-scratch, multi): the same for the values on a coset. -/
theorem C189_blst_multi {B : Backend G1 G2 GT} {g1 : G1} {g2 : G2} (hB : B.Lawful g1 g2) {ks : KZGSettings Fr G1 G2} {N scale : Nat}
    {s : Fr} (h : MadeFrom ks g1 g2 N scale s) {m : Nat} (hm : m ≤ scale) (hN : 2 ^ m < N) (hs : s ≠ 0 ∨ 2 ^ m < 8 ∨ B.MsmTotal)
    (com π com' π' : G1) (x c : Fr) (hx : x ≠ 0) (hxs : x ^ 2 ^ m ≠ s ^ 2 ^ m ∨ B.PairTotal) (hc : c ≠ 0) (ys ys' : List Fr)
    (hl : ys.length = 2 ^ m) (hl' : ys'.length = 2 ^ m) (hk : ks.checkProofMulti B g2 com π x ys (2 ^ m) = .ok true) :
    ks.checkProofMulti B g2 (com + c • com') (π + c • π') x (combined c ys ys') (2 ^ m) = .ok true ↔
      ks.checkProofMulti B g2 com' π' x ys' (2 ^ m) = .ok true :=
  combined_iff (chk := fun com π zs => ks.checkProofMulti B g2 com π x zs (2 ^ m) = .ok true) (cosetRoot_prim h hm) hx hc hl hl'
    (fun com π zs I hz h1 h2 => (C29_multi_accepts_iff hB h hm hN com π x hx zs hz hs hxs I h1 h2).2) hk

/-- C189 (mcl-kzg, multi), up to `2^30` values. -/
theorem C189_mcl_multi [Mcl.Lib Fr] {B : Mcl.Backend G1 G2 GT} {g1 : G1} {g2 : G2} (hB : B.Lawful g1 g2) {ks : KZGSettings Fr G1 G2}
    {N scale : Nat} {s : Fr} (h : MclMade ks g1 g2 N scale s) {m : Nat} (hm : m ≤ scale) (h30 : m ≤ 30) (hN : 2 ^ m < N)
    (com π com' π' : G1) (x c : Fr) (hx : x ≠ 0) (hc : c ≠ 0) (ys ys' : List Fr) (hl : ys.length = 2 ^ m) (hl' : ys'.length = 2 ^ m)
    (hk : Mcl.checkProofMulti B g2 ks com π x ys (2 ^ m) = .ok true) :
    Mcl.checkProofMulti B g2 ks (com + c • com') (π + c • π') x (combined c ys ys') (2 ^ m) = .ok true ↔
      Mcl.checkProofMulti B g2 ks com' π' x ys' (2 ^ m) = .ok true :=
  combined_iff (chk := fun com π zs => Mcl.checkProofMulti B g2 ks com π x zs (2 ^ m) = .ok true) (mcl_root_prim h hm) hx hc hl hl'
    (fun com π zs I hz h1 h2 => (C109_multi_accepts_iff hB h hm h30 hN com π x hx zs hz I h1 h2).2) hk

/-- C189 (Arkworks, multi). -/
theorem C189_ark_multi {B : Ark.Backend P G1 G2 GT} {g1 : G1} {g2 : G2} (hB : B.Lawful g1 g2) {ks : Ark.Settings P G1 G2}
    {L scale : Nat} {s : Fr} (h : ArkMade B ks g1 g2 L scale s) {m : Nat} (hm : m ≤ scale) (hL : 2 ^ m ≤ L)
    (com π com' π' : G1) (x c : Fr) (hx : x ≠ 0) (hc : c ≠ 0) (ys ys' : List Fr) (hl : ys.length = 2 ^ m) (hl' : ys'.length = 2 ^ m)
    (hk : ks.checkMulti B com π x ys (2 ^ m) = .ok true) :
    ks.checkMulti B (com + c • com') (π + c • π') x (combined c ys ys') (2 ^ m) = .ok true ↔
      ks.checkMulti B com' π' x ys' (2 ^ m) = .ok true :=
  combined_iff (chk := fun com π zs => ks.checkMulti B com π x zs (2 ^ m) = .ok true) (ark_root_prim hB h hm) hx hc hl hl'
    (fun com π zs I hz h1 h2 => (C128_multi_accepts_iff hB h hm hL com π x hx zs hz I h1 h2).2) hk

end backends

section zk
open Kzg.Zk Kzg.Zk.Top ScW

/-- What one of the two checks of zkcrypto accepts; single values are those for which the scalar multiplication does not overflow. The
points are given by their factors: `c` for the commitment, the last argument for the proof. -/
inductive ZkClaim (chk : Bool) (ks : Settings) (N scale : Nat) (com : G1.Proj) : ScW[X] → ScW[X] → G1.Proj → Prop
  | single (proof : G1.Proj) (x y : ScW) (hy : ¬ RoundingOverflows (el y).val) (h : checkProofSingle chk ks com proof x y = .ok true) :
      ZkClaim chk ks N scale com (X - C x) (C y) proof
  | multi (proof : G1.Proj) (x : ScW) (m : Nat) (ys : List ScW) (I : ScW[X]) (hm : m ≤ scale) (hN : 2 ^ m < N) (hx : x ≠ 0)
      (hl : ys.length = 2 ^ m) (hI : TakesOn (zkCosetRoot ks scale m) x ys I) (h : checkProofMulti ks com proof x ys (2 ^ m) = .ok true) :
      ZkClaim chk ks N scale com (X ^ 2 ^ m - C (x ^ 2 ^ m)) I proof

theorem ZkClaim.opens {chk : Bool} {ks : Settings} {N scale : Nat} {s : ScW} (h : ZkMadeFrom chk ks N scale s) (hN : 2 ≤ N)
    {com proof : G1.Proj} {c π : ScW} (hc : At1 com c) (hp : At1 proof π) {Z I : ScW[X]} (hk : ZkClaim chk ks N scale com Z I proof) :
    c - I.eval s • (1 : ScW) = Z.eval s • π := by
  rw [smul_eq_mul, mul_one, smul_eq_mul]
  cases hk with
  | single proof x y hy hk =>
    rw [eval_sub, eval_X, eval_C, eval_C, mul_comm]
    rw [C88_accepts_iff h hN hc hp x y hy] at hk
    exact of_decide_eq_true (Res.ok.inj hk)
  | multi proof x m ys I hm hN' hx hl hI hk =>
    rw [eval_sub, eval_pow, eval_X, eval_C, mul_comm]
    rw [TakesOn, hl] at hI
    rw [C89_accepts_iff h hm hN' hc hp x hx ys hl I hI.1 hI.2] at hk
    exact of_decide_eq_true (Res.ok.inj hk)

/-- C188 (zkcrypto): the same, written with the factors of the points. -/
theorem C188_zk {chk : Bool} {ks : Settings} {N scale : Nat} {s : ScW} (h : ZkMadeFrom chk ks N scale s) (hN : 2 ≤ N)
    {com proof proof' : G1.Proj} {c π π' : ScW} (hcom : At1 com c) (hp : At1 proof π) (hp' : At1 proof' π') {Z Z' I I' : ScW[X]}
    (hc : ZkClaim chk ks N scale com Z I proof) (hc' : ZkClaim chk ks N scale com Z' I' proof') {a : ScW} (ha : Z.eval a = 0)
    (ha' : Z'.eval a = 0) (hI : I.eval a ≠ I'.eval a) (hsa : s ≠ a) :
    (I'.eval a - I.eval a)⁻¹ * ((Z /ₘ (X - C a)).eval s * π - (Z' /ₘ (X - C a)).eval s * π' - ((I' - I) /ₘ (X - C a)).eval s) =
      (s - a)⁻¹ := by
  have := claims_disagree (hc.opens h hN hcom hp) (hc'.opens h hN hcom hp') ha ha' hI hsa
  simpa only [smul_eq_mul, mul_one] using this

/-- C188 (zkcrypto, two single proofs): the difference of the proofs, times the inverse of the difference of the values, is `1/(s - x)`
times the generator. -/
theorem C188_zk_single {chk : Bool} {ks : Settings} {N scale : Nat} {s : ScW} (h : ZkMadeFrom chk ks N scale s) (hN : 2 ≤ N)
    {com proof proof' : G1.Proj} {c π π' : ScW} (hcom : At1 com c) (hp : At1 proof π) (hp' : At1 proof' π') {x y y' : ScW} (hx : s ≠ x)
    (hyy : y ≠ y') (hy : ¬ RoundingOverflows (el y).val) (hy' : ¬ RoundingOverflows (el y').val)
    (hd : ¬ RoundingOverflows (el (y' - y)⁻¹).val) (hk : checkProofSingle chk ks com proof x y = .ok true)
    (hk' : checkProofSingle chk ks com proof' x y' = .ok true) :
    ∃ q, G1.mul chk (ptSub proof proof') ((y' - y)⁻¹).1 = .ok q ∧ At1 q (s - x)⁻¹ := by
  obtain ⟨q, e, hq⟩ := at1_mul chk (at1_sub hp hp') (s := (y' - y)⁻¹) hd
  refine ⟨q, e, ?_⟩
  have h1 : c - y = π * (s - x) := by
    rw [C88_accepts_iff h hN hcom hp x y hy] at hk; exact of_decide_eq_true (Res.ok.inj hk)
  have h2 : c - y' = π' * (s - x) := by
    rw [C88_accepts_iff h hN hcom hp' x y' hy'] at hk'; exact of_decide_eq_true (Res.ok.inj hk')
  have hsx : s - x ≠ 0 := sub_ne_zero.2 hx
  have hyd : y' - y ≠ 0 := sub_ne_zero.2 hyy.symm
  have : (y' - y)⁻¹ * (π - π') = (s - x)⁻¹ := by
    field_simp
    linear_combination h2 - h1
  rwa [this] at hq

/-- C189 (zkcrypto, single): the sum of two accepted claims is accepted, and the sum of an accepted and a refused one is refused. -/
theorem C189_zk_single {chk : Bool} {ks : Settings} {N scale : Nat} {s : ScW} (h : ZkMadeFrom chk ks N scale s) (hN : 2 ≤ N)
    {com com' proof proof' : G1.Proj} {a a' π π' : ScW} (hc : At1 com a) (hc' : At1 com' a') (hp : At1 proof π) (hp' : At1 proof' π')
    (x y y' : ScW) (hy : ¬ RoundingOverflows (el y).val) (hy' : ¬ RoundingOverflows (el y').val)
    (hyy : ¬ RoundingOverflows (el (y + y')).val) (hk : checkProofSingle chk ks com proof x y = .ok true) :
    checkProofSingle chk ks (com.add com') (proof.add proof') x (y + y') = checkProofSingle chk ks com' proof' x y' := by
  rw [C88_accepts_iff h hN hc hp x y hy] at hk
  have hk := of_decide_eq_true (Res.ok.inj hk)
  rw [C88_accepts_iff h hN (at1_add hc hc') (at1_add hp hp') x _ hyy, C88_accepts_iff h hN hc' hp' x y' hy']
  congr 1
  refine decide_eq_decide.2 ⟨fun e => by linear_combination e - hk, fun e => by linear_combination e + hk⟩

/-- C189 (zkcrypto, multi): the same with a factor; the points of the combination are any that stand for it. -/
theorem C189_zk_multi {chk : Bool} {ks : Settings} {N scale : Nat} {s : ScW} (h : ZkMadeFrom chk ks N scale s) {m : Nat} (hm : m ≤ scale)
    (hN : 2 ^ m < N) {com com' comS proof proof' proofS : G1.Proj} {a a' π π' c : ScW} (hcom : At1 com a) (hcom' : At1 com' a')
    (hS : At1 comS (a + c * a')) (hp : At1 proof π) (hp' : At1 proof' π') (hpS : At1 proofS (π + c * π')) (x : ScW) (hx : x ≠ 0)
    (hc : c ≠ 0) (ys ys' : List ScW) (hl : ys.length = 2 ^ m) (hl' : ys'.length = 2 ^ m)
    (hk : checkProofMulti ks com proof x ys (2 ^ m) = .ok true) :
    checkProofMulti ks comS proofS x (combined c ys ys') (2 ^ m) = .ok true ↔ checkProofMulti ks com' proof' x ys' (2 ^ m) = .ok true := by
  have hiff : ∀ {p q : G1.Proj} {u v : ScW}, At1 p u → At1 q v → ∀ (zs : List ScW) (I : ScW[X]), zs.length = 2 ^ m → I.degree < (2 ^ m : Nat) →
      (∀ i < 2 ^ m, zs[i]? = some (I.eval (x * zkCosetRoot ks scale m ^ i))) →
      (checkProofMulti ks p q x zs (2 ^ m) = .ok true ↔ u - I.eval s • (1 : ScW) = (s ^ 2 ^ m - x ^ 2 ^ m) • v) := by
    intro p q u v hu hv zs I hz h1 h2
    rw [C89_accepts_iff h hm hN hu hv x hx zs hz I h1 h2, smul_eq_mul, smul_eq_mul, mul_one, mul_comm v]
    exact ⟨fun e => of_decide_eq_true (Res.ok.inj e), fun e => by rw [decide_eq_true e]⟩
  have hlen : (combined c ys ys').length = 2 ^ m := by rw [combined, List.length_zipWith, hl, hl', min_self]
  obtain ⟨I, hI⟩ := coset_interpolant (zkCosetRoot_prim h hm) hx ys hl
  obtain ⟨I', hI'⟩ := coset_interpolant (zkCosetRoot_prim h hm) hx ys' hl'
  have hJ := TakesOn.combine (ω := zkCosetRoot ks scale m) (x := x) (ys := ys) (ys' := ys') (I := I) (I' := I')
    (by rw [TakesOn, hl]; exact hI) (by rw [TakesOn, hl']; exact hI') (by omega) c
  rw [← combined, TakesOn, hlen] at hJ
  rw [hiff hcom hp _ I hl hI.1 hI.2] at hk
  rw [hiff hS hpS _ _ hlen hJ.1 hJ.2, hiff hcom' hp' _ I' hl' hI'.1 hI'.2, eval_add, eval_mul, eval_C]
  have := claim_iff (g := (1 : ScW)) (com' := a') (π' := π') (y' := I'.eval s) hc hk
  rw [smul_eq_mul c a', smul_eq_mul c π'] at this
  exact this

end zk

/-! ## Examples -/

theorem fr_ne_of {a b : Nat} (ha : a < frModulus) (hb : b < frModulus) (h : a ≠ b) : (a : Fr) ≠ (b : Fr) := fun e => h (fr_natCast_inj ha hb e)

/-- In the model of the assumptions, with the secret 5: of the commitment 0 there are accepted claims with the value 1 at the point 7 and
with the values 2, 2 at the points 7, -7 (whoever knows the secret can make them); together they give `1/(5 - 7)`. -/
example : ∃ (ks : KZGSettings Fr Fr Fr) (π π' : Fr), MadeFrom ks 1 1 8 2 5 ∧ BlstClaim toyBackend 1 1 ks 8 2 0 (X - C 7) (C 1) π ∧
    BlstClaim toyBackend 1 1 ks 8 2 0 (X ^ 2 ^ 1 - C (7 ^ 2 ^ 1)) (C 2) π' ∧
    ((C 2 : Fr[X]).eval 7 - (C 1 : Fr[X]).eval 7)⁻¹ • (((X - C 7) /ₘ (X - C (7 : Fr))).eval 5 • π -
      ((X ^ 2 ^ 1 - C (7 ^ 2 ^ 1)) /ₘ (X - C (7 : Fr))).eval 5 • π' - ((C 2 - C 1) /ₘ (X - C (7 : Fr))).eval 5 • (1 : Fr)) =
      ((5 : Fr) - 7)⁻¹ • (1 : Fr) := by
  obtain ⟨ks, h⟩ := madeFrom_exists (1 : Fr) (1 : Fr) 2 8 (by norm_num) (by norm_num) [5]
  have e5 : ((bytesVal [5] : Nat) : Fr) = 5 := by norm_num [bytesVal]
  rw [e5] at h
  have h57 : (5 : Fr) ≠ 7 := by exact_mod_cast fr_ne_of (a := 5) (b := 7) (by decide +kernel) (by decide +kernel) (by norm_num)
  have h70 : (7 : Fr) ≠ 0 := by exact_mod_cast fr_ne_of (a := 7) (b := 0) (by decide +kernel) (by decide +kernel) (by norm_num)
  have h12 : (1 : Fr) ≠ 2 := by exact_mod_cast fr_ne_of (a := 1) (b := 2) (by decide +kernel) (by decide +kernel) (by norm_num)
  have hsq : (5 : Fr) ^ 2 ^ 1 - 7 ^ 2 ^ 1 ≠ 0 := by
    rw [sub_ne_zero]
    have := fr_ne_of (a := 25) (b := 49) (by decide +kernel) (by decide +kernel) (by norm_num)
    intro e
    apply this
    norm_num at e ⊢
    exact e
  have c1 : BlstClaim toyBackend 1 1 ks 8 2 0 (X - C 7) (C 1) (((5 : Fr) - 7)⁻¹ * (0 - 1)) :=
    .single _ _ _ ((C27_single_accepts_iff toyBackend_lawful h (by norm_num) _ _ _ _ (.inr toyBackend_total.2)).2.2 (by
      rw [smul_eq_mul, smul_eq_mul, mul_one, mul_inv_cancel_left₀ (sub_ne_zero.2 h57)]))
  have hI : TakesOn (cosetRoot ks 2 1) 7 [2, 2] (C 2 : Fr[X]) := by
    refine ⟨lt_of_le_of_lt degree_C_le (by norm_num), fun i hi => ?_⟩
    rw [eval_C]
    have : i = 0 ∨ i = 1 := by simp at hi; omega
    rcases this with rfl | rfl <;> rfl
  have c2 : BlstClaim toyBackend 1 1 ks 8 2 0 (X ^ 2 ^ 1 - C (7 ^ 2 ^ 1)) (C 2) (((5 : Fr) ^ 2 ^ 1 - 7 ^ 2 ^ 1)⁻¹ * (0 - 2)) :=
    .multi _ 7 1 [2, 2] _ (by norm_num) (by norm_num) h70 rfl hI
      ((C29_multi_accepts_iff toyBackend_lawful h (m := 1) (by norm_num) (by norm_num) _ _ 7 h70 [2, 2] rfl (.inr (.inr toyBackend_total.1))
        (.inr toyBackend_total.2) (C 2) hI.1 hI.2).2.2 (by
        rw [eval_C, smul_eq_mul, smul_eq_mul, mul_one, mul_inv_cancel_left₀ hsq]))
  exact ⟨ks, _, _, h, c1, c2, C188_blst toyBackend_lawful h (by norm_num) (.inr toyBackend_total.1) c1 c2 (.inr toyBackend_total.2)
    (by simp) (by simp) (by rwa [eval_C, eval_C]) h57⟩

/-- With the secret 5 in mcl-kzg: two values of the commitment 0 at the point 7 give `1/(5 - 7)`. -/
example [Mcl.Lib Fr] : ∃ (ks : KZGSettings Fr Fr Fr) (π π' : Fr), MclMade ks 1 1 4 2 5 ∧ Mcl.checkProofSingle mclToy 1 1 ks 0 π 7 1 = .ok true ∧
    Mcl.checkProofSingle mclToy 1 1 ks 0 π' 7 2 = .ok true ∧ ((2 : Fr) - 1)⁻¹ • (π - π') = ((5 : Fr) - 7)⁻¹ • (1 : Fr) := by
  obtain ⟨ks, h⟩ := mclMade_exists (G1 := Fr) (G2 := Fr) 1 1 2 4 (by norm_num) 5
  have h57 : (5 : Fr) ≠ 7 := by exact_mod_cast fr_ne_of (a := 5) (b := 7) (by decide +kernel) (by decide +kernel) (by norm_num)
  have h12 : (1 : Fr) ≠ 2 := by exact_mod_cast fr_ne_of (a := 1) (b := 2) (by decide +kernel) (by decide +kernel) (by norm_num)
  have hv : ∀ y : Fr, Mcl.checkProofSingle mclToy 1 1 ks 0 (((5 : Fr) - 7)⁻¹ * (0 - y)) 7 y = .ok true := fun y =>
    (C108_single_accepts_iff mclToy_lawful h (by norm_num) _ _ _ _).2.2 (by
      rw [smul_eq_mul, smul_eq_mul, mul_one, mul_inv_cancel_left₀ (sub_ne_zero.2 h57)])
  exact ⟨ks, _, _, h, hv 1, hv 2, C188_mcl_single mclToy_lawful h (by norm_num) h57 h12 (hv 1) (hv 2)⟩

/-- With the secret 5 in Arkworks: the commitments 86 and 87 to `1 + 2x + 3x²` and `2 + 2x + 3x²`; the sum of the first claim and three times
the second one is accepted. -/
example : ∃ (ks : Ark.Settings (Unit ⊕ Fr) Fr Fr) (π : Fr), ArkMade arkToy ks 1 1 4 3 5 ∧
    ks.computeSingle [1, 2, 3] 7 = .ok π ∧ ks.checkSingle arkToy 86 π 7 162 = .ok true ∧
    ks.checkSingle arkToy (86 + (3 : Fr) • 87) (π + (3 : Fr) • π) 7 (162 + 3 * 163) = .ok true ∧
    ks.checkSingle arkToy (86 + (3 : Fr) • 87) (π + (3 : Fr) • π) 7 (162 + 3 * 164) ≠ .ok true := by
  obtain ⟨ks, h⟩ := arkMade_exists arkToy_lawful (Sum.inl ()) 3 4 (by norm_num)
  have e0 : (Ark.drawn arkToy (Sum.inl ())).1 = 5 := by
    simp [Ark.drawn, arkToy, Ark.toBe64, List.range_succ]
    norm_num
  rw [e0] at h
  have e : (polyOf [(1 : Fr), 2, 3]).eval 7 = 162 := by
    rw [eval_polyOf]; simp [Finset.sum_range_succ]; norm_num
  have e' : (polyOf [(1 : Fr), 2, 3]).eval 5 = 86 := by
    rw [eval_polyOf]; simp [Finset.sum_range_succ]; norm_num
  obtain ⟨com, π, h1, h2, h3⟩ := C127_single_complete arkToy_lawful h (by norm_num) [1, 2, 3] (by norm_num) 7
  have hc := (C127_commit arkToy_lawful h [1, 2, 3]).1 (by norm_num) (by norm_num)
  rw [e', smul_eq_mul, mul_one] at hc
  rw [hc] at h1
  cases h1
  obtain ⟨b, hb, hiff⟩ := h3 162
  rw [hiff.2 e.symm] at hb
  have h30 : (3 : Fr) ≠ 0 := by exact_mod_cast fr_ne_of (a := 3) (b := 0) (by decide +kernel) (by decide +kernel) (by norm_num)
  have hk := (C127_single_accepts_iff arkToy_lawful h (by norm_num) 86 π 7 162).2.1 hb
  rw [smul_eq_mul, mul_one] at hk
  refine ⟨ks, π, h, h2, hb, ?_, fun hx => ?_⟩
  · rw [C189_ark_single arkToy_lawful h (by norm_num) 86 π 87 π 7 162 163 3 h30 hb,
      (C127_single_accepts_iff arkToy_lawful h (by norm_num) 87 π 7 163).2, ← hk, smul_eq_mul]
    norm_num
  · rw [C189_ark_single arkToy_lawful h (by norm_num) 86 π 87 π 7 162 164 3 h30 hb,
      (C127_single_accepts_iff arkToy_lawful h (by norm_num) 87 π 7 164).2, ← hk, smul_eq_mul, mul_one] at hx
    have h10 : (1 : Fr) = 0 := by linear_combination -hx
    exact one_ne_zero h10

/-- In zkcrypto with the setup of the shared tests: claims with the values 1 and 2 at the point 0 about the identity exist, and give the
inverse of the secret; their sum is accepted with the value 3. -/
example (chk : Bool) : ∃ ks s π π' q, ZkMadeFrom chk ks 17 4 s ∧ Zk.Top.checkProofSingle chk ks Zk.Projective.identity π 0 1 = .ok true ∧
    Zk.Top.checkProofSingle chk ks Zk.Projective.identity π' 0 2 = .ok true ∧
    Zk.G1.mul chk (Zk.Top.ptSub π π') (((2 : Zk.ScW) - 1)⁻¹).1 = .ok q ∧ Zk.Top.At1 q (s - 0)⁻¹ ∧
    Zk.Top.checkProofSingle chk ks (Zk.Projective.identity.add Zk.Projective.identity) (π.add π') 0 (1 + 2) = .ok true := by
  obtain ⟨ks, s, h, es⟩ := zkMadeFrom_exists chk (N := 17) (scale := 4) (by norm_num) (by norm_num)
  have hs0 : s ≠ 0 := by
    rintro rfl
    rw [Zk.ScW.el_zero] at es
    exact fr_ne_of (a := 0) (b := 0x1853cc084deab6c828953173a4) (by decide +kernel) (by decide +kernel) (by norm_num) (by exact_mod_cast es)
  have hsmall : ∀ n : Nat, n < 2 ^ 191 → ¬ RoundingOverflows (Zk.ScW.el ((n : Nat) : Zk.ScW)).val := fun n hn => by
    rw [Zk.ScW.el_natCast, ZMod.val_natCast]
    exact C54_small_scalars (lt_of_le_of_lt (Nat.mod_le _ _) hn)
  have h1 := hsmall 1 (by norm_num)
  have h2 := hsmall 2 (by norm_num)
  have h3 := hsmall 3 (by norm_num)
  rw [Nat.cast_one] at h1
  rw [Nat.cast_ofNat] at h2 h3
  have e3 : (1 : Zk.ScW) + 2 = 3 := by norm_num
  have e21 : ((2 : Zk.ScW) - 1)⁻¹ = 1 := by norm_num
  have h33 : ¬ RoundingOverflows (Zk.ScW.el ((1 : Zk.ScW) + 2)).val := by rw [e3]; exact h3
  have h21 : ¬ RoundingOverflows (Zk.ScW.el ((2 : Zk.ScW) - 1)⁻¹).val := by rw [e21]; exact h1
  obtain ⟨⟨π, π1, hπ, k1⟩, -⟩ := C88_unique_proof h (by norm_num) Zk.Top.at1_zero 0 1 hs0.symm h1
  obtain ⟨⟨π', π2, hπ', k2⟩, -⟩ := C88_unique_proof h (by norm_num) Zk.Top.at1_zero 0 2 hs0.symm h2
  have h12 : (1 : Zk.ScW) ≠ 2 := fun e => by
    have : (1 : Zk.ScW) = 0 := by linear_combination -e
    exact one_ne_zero this
  obtain ⟨q, e, hq⟩ := C188_zk_single h (by norm_num) Zk.Top.at1_zero hπ hπ' hs0 h12 h1 h2 h21 k1 k2
  refine ⟨ks, s, π, π', q, h, k1, k2, e, hq, ?_⟩
  rw [C189_zk_single h (by norm_num) Zk.Top.at1_zero Zk.Top.at1_zero hπ hπ' 0 1 2 h1 h2 h33 k1]
  exact k2

end Kzg.Props
