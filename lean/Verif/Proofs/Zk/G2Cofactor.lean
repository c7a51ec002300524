import Verif.Proofs.Zk.G2Psi
import Verif.Proofs.Zk.G2Prime
import Verif.Proofs.Zk.G1Cofactor
/-!
# The number of points of the second group, and clearing the cofactor

An endomorphism that commutes with `ψ` vanishes as soon as it vanishes on seven points, because its kernel then
has more than half as many elements as the curve can have points.
-/

set_option exponentiation.threshold 2000

namespace Kzg.Zk

open WeierstrassCurve.Affine

/-! ## Counting in a finite group -/

section
variable {A : Type*} [AddCommGroup A]

theorem prime_dvd_card (H : AddSubgroup A) [Finite H] {l : Nat} (hl : l.Prime) {Q : A} (hQ : Q ∈ H) (h0 : l • Q = 0)
    (hne : Q ≠ 0) : l ∣ Nat.card H := by
  have : Fact l.Prime := ⟨hl⟩
  have h : addOrderOf (⟨Q, hQ⟩ : H) = l :=
    addOrderOf_eq_prime (Subtype.ext h0) (fun e => hne (congrArg Subtype.val e))
  rw [← h]
  exact addOrderOf_dvd_natCard _

theorem sq_dvd_card (H : AddSubgroup A) [Finite H] {l : Nat} (hl : l.Prime) {Q F : A} (hQ : Q ∈ H) (hF : F ∈ H)
    (h0 : l • Q = 0) (hf0 : l • F = 0) (hne : Q ≠ 0) (hind : ∀ c : ZMod l, F ≠ c.val • Q) : l ^ 2 ∣ Nat.card H := by
  have : Fact l.Prime := ⟨hl⟩
  let K : AddSubgroup H := (nsmulAddMonoidHom (α := H) l).ker
  have hK : ∀ t : K, l • t = 0 := fun t => Subtype.ext t.2
  let inst : Module (ZMod l) K := AddCommGroup.zmodModule hK
  let q : K := ⟨⟨Q, hQ⟩, Subtype.ext h0⟩
  let f : K := ⟨⟨F, hF⟩, Subtype.ext hf0⟩
  have hq : q ≠ 0 := fun h => hne (congrArg Subtype.val (congrArg Subtype.val h))
  have hfin : Module.Finite (ZMod l) K := Module.Finite.of_finite
  have hsm : ∀ c : ZMod l, c • q = 0 → c = 0 := fun c h => by
    by_contra hc
    apply hq
    rw [← one_smul (ZMod l) q, ← inv_mul_cancel₀ hc, ← smul_smul, h, smul_zero]
  have hf : ∀ c : ZMod l, f ≠ c • q := by
    intro c hc
    apply hind c
    have e : c • q = c.val • q := by
      conv_lhs => rw [← ZMod.natCast_zmod_val c, Nat.cast_smul_eq_nsmul]
    rw [e] at hc
    exact congrArg Subtype.val (congrArg Subtype.val hc)
  have hli : LinearIndependent (ZMod l) ![q, f] := by
    rw [LinearIndependent.pair_iff]
    intro s t hst
    have ht : t = 0 := by
      by_contra ht
      apply hf (-(t⁻¹ * s))
      have : f = t⁻¹ • (t • f) := by rw [smul_smul, inv_mul_cancel₀ ht, one_smul]
      rw [this, eq_neg_of_add_eq_zero_right hst]
      module
    rw [ht, zero_smul, add_zero] at hst
    exact ⟨hsm s hst, ht⟩
  have hr : 2 ≤ Module.finrank (ZMod l) K := by
    have := @LinearIndependent.fintype_card_le_finrank (ZMod l) K _ _ inst _ hfin _ _ _ hli
    simpa using this
  have hc : l ^ 2 ∣ Nat.card K := by
    rw [@Module.natCard_eq_pow_finrank (ZMod l) K _ _ inst hfin, Nat.card_zmod]
    exact pow_dvd_pow _ hr
  exact hc.trans (AddSubgroup.card_addSubgroup_dvd_card _)

end

namespace G2
open CurveConsts

local notation "E" => curve (b : Fp2 FpW)

instance : Finite (Fp2 FpW) :=
  Finite.of_injective (fun x : Fp2 FpW => (x.c0, x.c1)) (fun _ _ h => Fp2.ext (Prod.ext_iff.1 h).1 (Prod.ext_iff.1 h).2)

theorem card_Fp2 : Nat.card (Fp2 FpW) ≤ fpModulus ^ 2 := by
  have h := Nat.card_le_card_of_injective (fun x : Fp2 FpW => (x.c0, x.c1))
    (fun _ _ h => Fp2.ext (Prod.ext_iff.1 h).1 (Prod.ext_iff.1 h).2)
  rwa [Nat.card_prod, G1.card_FpW, ← pow_two] at h

/-! ## The endomorphism of order three -/

theorem c2_omega : Omega psi2CoeffX := by
  have h : psi2CoeffX = c2N.cast :=
    Fp2.ext (FpW.eq_natCast (by decide +kernel) (by decide +kernel)) (Nat.cast_zero (R := FpW)).symm
  constructor
  rw [h, pow_two, ← N2.mul_cast, ← N2.add_cast, ← N2.one_cast, ← N2.add_cast, ← N2.zero_cast]
  exact N2.cast_eq_of_mod (by decide +kernel) (by decide +kernel)

/-- `ψ² = -φ`. -/
theorem psi_sq (P : (E).Point) : psiHom (psiHom P) = -phi c2_omega P := by
  obtain ⟨p, hp⟩ := affine_is_exists P
  have hp := ofAffine_is hp
  generalize Projective.ofAffine p = p at hp
  obtain ⟨x, y, z⟩ := p
  refine is_unique (psi2_is hp) ?_
  have := neg_is (phi_is c2_omega hp)
  rw [psi2, mul_comm]
  exact this

/-- `ψ⁴ - ψ² + 1 = 0`. -/
theorem psi_four (P : (E).Point) : psiHom (psiHom (psiHom (psiHom P))) - psiHom (psiHom P) + P = 0 := by
  have h := phi_sq c2_omega P
  rw [psi_sq, psi_sq, map_neg, neg_neg, sub_neg_eq_add]
  exact h

/-! ## Integer coordinates -/

/-- `ψ` on integer coordinates. -/
def npsi (p : NPt) : NPt :=
  ⟨n2red (N2.mul ⟨p.x.a, G1.nsub 0 p.x.b⟩ cxN), n2red (N2.mul ⟨p.y.a, G1.nsub 0 p.y.b⟩ cyN), ⟨p.z.a, G1.nsub 0 p.z.b⟩⟩

theorem npsi_is {p : NPt} {P : (E).Point} (h : Projective.Is b p.cast P) : Projective.Is b (npsi p).cast (psiHom P) := by
  have e : (npsi p).cast = psi p.cast := by
    show (⟨_, _, _⟩ : Proj) = ⟨Fp2.conjHom p.x.cast * psiCoeffX, Fp2.conjHom p.y.cast * psiCoeffY, Fp2.conjHom p.z.cast⟩
    rw [conj_cast, conj_cast, conj_cast, cx_eq, cy_eq, ← N2.mul_cast, ← N2.mul_cast]
    simp only [npsi, n2red_cast]
  rw [e]
  exact psi_is h

/-- Negation on integer coordinates. -/
def nneg (p : NPt) : NPt := ⟨p.x, n2sub ⟨0, 0⟩ p.y, p.z⟩

theorem nneg_is {p : NPt} {P : (E).Point} (h : Projective.Is b p.cast P) : Projective.Is b (nneg p).cast (-P) := by
  have e : (nneg p).cast = p.cast.neg := by
    simp only [NPt.cast, nneg, Projective.neg, n2sub_cast, N2.zero_cast, zero_sub]
  rw [e]
  exact neg_is h

/-- Difference of points by cross multiplication of integers. -/
def nne (p q : NPt) : Bool :=
  n2red p.z != ⟨0, 0⟩ && n2red q.z != ⟨0, 0⟩ && n2red (p.x.mul q.z) != n2red (q.x.mul p.z)

theorem n2_ne {x y : N2} (h : n2red x ≠ n2red y) : x.cast ≠ y.cast := by
  intro e
  apply h
  have h0 := congrArg Fp2.c0 e
  have h1 := congrArg Fp2.c1 e
  simp only [N2.cast] at h0 h1
  have := fun (m n : Nat) (e : (m : FpW) = n) => by_contra (fun hm : ¬ m % fpModulus = n % fpModulus => G1.natCast_ne hm e)
  rw [n2red, n2red, this _ _ h0, this _ _ h1]

theorem ne_of_nne {p q : NPt} {P Q : (E).Point} (hp : Projective.Is b p.cast P) (hq : Projective.Is b q.cast Q)
    (h : nne p q = true) : P ≠ Q := by
  simp only [nne, Bool.and_eq_true, bne_iff_ne] at h
  obtain ⟨⟨h1, h2⟩, h3⟩ := h
  rw [ne_eq, ← ctEq_iff hp hq]
  have z1 : p.z.cast ≠ 0 := by rw [← N2.zero_cast]; exact n2_ne h1
  have z2 : q.z.cast ≠ 0 := by rw [← N2.zero_cast]; exact n2_ne h2
  have e3 := n2_ne h3
  rw [N2.mul_cast, N2.mul_cast] at e3
  simp only [Projective.ctEq, NPt.cast]
  simp [z1, z2, e3]

/-- The equation of the curve. -/
def ncurve (x y : N2) : Bool := n2red (y.mul y) == n2red (((x.mul x).mul x).add ⟨4, 4⟩)

theorem ncurve_nonsingular {x y : N2} (h : ncurve x y = true) : (E).Nonsingular x.cast y.cast := by
  rw [nonsingular_iff]
  show _ = _ + curveB
  rw [curveB_eq, pow_two, pow_succ, pow_two, ← N2.mul_cast, ← N2.mul_cast, ← N2.mul_cast, ← N2.add_cast]
  rw [ncurve, beq_iff_eq] at h
  rw [← n2red_cast, h, n2red_cast]

/-- A point given by integers. -/
def pt (x y : N2) (h : ncurve x y = true) : (E).Point := .some x.cast y.cast (ncurve_nonsingular h)

theorem pt_ne {x y : N2} (h : ncurve x y = true) : pt x y h ≠ 0 := by simp [pt, Point.zero_def]

theorem pt_is {x y : N2} (h : ncurve x y = true) : Projective.Is b (NPt.cast ⟨x, y, ⟨1, 0⟩⟩) (pt x y h) := by
  simp only [NPt.cast, N2.one_cast]
  exact is_of_eq one_ne_zero (ncurve_nonsingular h) (mul_one _).symm (mul_one _).symm

/-- The identity. -/
def nzero : NPt := ⟨⟨0, 0⟩, ⟨1, 0⟩, ⟨0, 0⟩⟩

theorem kill_of {p : NPt} {P : (E).Point} (hp : Projective.Is b p.cast P) (f l : Nat) (hf : l < 2 ^ f)
    (h : n2red (nmul f l p nzero).z = ⟨0, 0⟩) : l • P = 0 := by
  have := eq_zero_of_z (nmul_is f l hf hp nzero_is) h
  rwa [zero_add] at this

/-! ## Points of the prime orders -/

/-- A point of order `13`. -/
def x13 : N2 :=
  ⟨0x56f9579a9a7c400530b65cd64b732b54af202142e3084670c339793bf215d6c9cc341c520f590e33fd70b3c858c4c66,
    0x324f4a03be1248a0c82a17f88f3b606a0ed4a54a534d633e51393a33f032ed9b307a9375145e4ffdc96e8e4ad3ee1f6⟩

@[inherit_doc x13] def y13 : N2 :=
  ⟨0xc2b7d940513f5f38aef3a4c5dc2e2b988139ce4fa137b90704557fcdb96c384d36a873c3827706b3aa6227eaf7fa1b2,
    0xf7f9973b2363ea1e2e00f6a1409496a0985a6f40df8cfe9739018150f8da1771b68676e1f09699e4b17b21acaf44b86⟩

theorem on13 : ncurve x13 y13 = true := by decide +kernel

theorem kill13 : 13 • pt x13 y13 on13 = 0 :=
  kill_of (pt_is _) 4 _ (by decide +kernel) (by decide +kernel)

/-- A point of order `23`. -/
def x23 : N2 :=
  ⟨0x157a095ffe685120d3c6b7c39528f0d856d778b9a40965f38ee3a5072b099e52d9ee7932854c1c854120532bf08951cd,
    0x19795b377381b8663455d0665d364a96d870bdb9886111be9f6aa2b50099064eb2f8014bdd46b8eab5aa7309c7cc20a6⟩

@[inherit_doc x23] def y23 : N2 :=
  ⟨0xa6d33331a47c0473e6182a6cb462b2ddbfd56ce4a83b498afc5b5c6749240796e0a7ac7813b939dc4d78e2a66d295e2,
    0x12e76c127928f640ff69cffabd138d8ec085e7146fcf8f6c7f9e4571de8d40fb9586d456202cf942a34f0eea507677e8⟩

theorem on23 : ncurve x23 y23 = true := by decide +kernel

theorem kill23 : 23 • pt x23 y23 on23 = 0 :=
  kill_of (pt_is _) 5 _ (by decide +kernel) (by decide +kernel)

/-- A point of order `2713`. -/
def x2713 : N2 :=
  ⟨0x150f75ad6320a3f1bea2bfc3b98342f60048b8b364e5f2179facf0f6e78e06b61b95b47e6c9056554ab060b27612d543,
    0x132109540d2ff8bffe74e3d35c4d324b0ce863001cbc58a103f8bbd43e31ce7f1366b13543be0845c3a6af4e02a0bfeb⟩

@[inherit_doc x2713] def y2713 : N2 :=
  ⟨0x16562cf4720b019c2284d93b601a254546d4cd6d2358c0fdfda86e6b41ad427dfab19ed59be0a5a331e2dd54a7e0a3cc,
    0x1212cf4ea9cff1f971921d5e2ff9e841c7787422fc6edb6355e0f059372fa3d8e367f157248266d9da434a5533934662⟩

theorem on2713 : ncurve x2713 y2713 = true := by decide +kernel

theorem kill2713 : 2713 • pt x2713 y2713 on2713 = 0 :=
  kill_of (pt_is _) 12 _ (by decide +kernel) (by decide +kernel)

/-- A point of order `11953`. -/
def x11953 : N2 :=
  ⟨0x39ec1708a23961d3c7b0a2aca8bff01549f56d7eb9dfba1d93571ad69b9b967ce62c74d01f6c955ed2cae505cc42c1,
    0x7805dd25159e5ab6d18044ad444c1265f9c152e5d4eebdfd095d57ce17a8a1832d05a4e7e0a1ffcdc994c612d0c96a3⟩

@[inherit_doc x11953] def y11953 : N2 :=
  ⟨0x13320783f6264f82044792cdfeb41abe9a61a9f76945f96f9adefabb315ac39268485dcdc94a080fbbc6ea994931eb90,
    0x39a10cc2083bb4ec4beca4a8eaf303110b6830185201c0b514d67c129294d433863af5725eab633e06a97b55e6f1977⟩

theorem on11953 : ncurve x11953 y11953 = true := by decide +kernel

theorem kill11953 : 11953 • pt x11953 y11953 on11953 = 0 :=
  kill_of (pt_is _) 14 _ (by decide +kernel) (by decide +kernel)

/-- A point of order `262069`. -/
def x262069 : N2 :=
  ⟨0xfa56e257e2b7b865d9f17afb8a454fd3b356c7d66b3f39877639000d218121f258da2d6062cda56e3c955885d90ee20,
    0x859f488cabde8c36644118bb7c6277f03af7d7fe66cb8ae4c8641699a664d027a287c050822ecad16188c6154916ef4⟩

@[inherit_doc x262069] def y262069 : N2 :=
  ⟨0xee9abcf4001f05227decfa87a8f791e69343f8f77fb88c585165dd01d42aa9194226b9044fda5755ff7d6c773ad182b,
    0x31cfae4d9dd8cc1ee4a9f2ea98a5109de587a6fc30e668694b1807f39c6251fa865881785cf5819e9bf841c43175960⟩

theorem on262069 : ncurve x262069 y262069 = true := by decide +kernel

theorem kill262069 : 262069 • pt x262069 y262069 on262069 = 0 :=
  kill_of (pt_is _) 18 _ (by decide +kernel) (by decide +kernel)

/-- A point of order `cofactorPrime`. -/
def xbig : N2 :=
  ⟨0x4150001af4f7e84d2ff10f059f3ce29a839890189c805b8dbd702df9ad8aece26c67bb0dc28086a1d979c49fe0517f3,
    0x13db7eedd94f3fd50290dcfbd22c5ced48ae32632cbce57cceff8a818b1ddd15f2c89093102714aa089e1112c4eaa617⟩

@[inherit_doc xbig] def ybig : N2 :=
  ⟨0x19499bbdf39da1b6d315f562d29df7f4c682cdfe9b6ce8c82c05b384a6c96c1be8744b193430192cbefa53b42b7c65c8,
    0x18167ba1063712c0ae0b076bef724b7f041014aeb54c2bdce9682e88599c06a088705202c019eebb37e0f46f37fbf8b2⟩

theorem onbig : ncurve xbig ybig = true := by decide +kernel

theorem killbig : cofactorPrime • pt xbig ybig onbig = 0 :=
  kill_of (pt_is _) 448 _ (by decide +kernel) (by decide +kernel)

/-! ## The number of points -/

theorem phi_13 (c : ZMod 13) : phi c2_omega (pt x13 y13 on13) ≠ c.val • pt x13 y13 on13 := by
  have h := nneg_is (npsi_is (npsi_is (pt_is on13)))
  rw [psi_sq, neg_neg] at h
  have H : ∀ n < 13, nne (nneg (npsi (npsi ⟨x13, y13, ⟨1, 0⟩⟩))) (nmul 4 n ⟨x13, y13, ⟨1, 0⟩⟩ nzero) = true ∨ n = 0 := by
    decide +kernel
  have hn := nmul_is 4 c.val (lt_trans (ZMod.val_lt c) (by norm_num)) (pt_is on13) nzero_is
  rw [zero_add] at hn
  rcases H c.val (ZMod.val_lt c) with hh | hh
  · exact ne_of_nne h hn hh
  · rw [hh, zero_nsmul]
    intro h0
    have := phi_sq c2_omega (pt x13 y13 on13)
    rw [h0, map_zero, zero_add, zero_add] at this
    exact pt_ne on13 this

theorem phi_23 (c : ZMod 23) : phi c2_omega (pt x23 y23 on23) ≠ c.val • pt x23 y23 on23 := by
  intro h
  have hs := phi_sq c2_omega (pt x23 y23 on23)
  rw [h, map_nsmul, h] at hs
  have e : (c.val * c.val + c.val + 1) • pt x23 y23 on23 = 0 := by
    rw [← hs]
    module
  have h1 := addOrderOf_dvd_of_nsmul_eq_zero e
  have : Fact (Nat.Prime 23) := ⟨by norm_num⟩
  rw [addOrderOf_eq_prime kill23 (pt_ne on23)] at h1
  have H : ∀ n < 23, ¬ 23 ∣ n * n + n + 1 := by decide
  exact H _ (ZMod.val_lt c) h1

/-- The number of points: `h₂ · r`. -/
def points : Nat := 13 ^ 2 * 23 ^ 2 * 2713 * 11953 * 262069 * cofactorPrime * frModulus

/-- A subgroup that is stable under `φ` and contains the seven points has as many elements as the curve. -/
theorem points_dvd (H : AddSubgroup (E).Point) (hs : ∀ P ∈ H, phi c2_omega P ∈ H) (hg : gen ∈ H)
    (h13 : pt x13 y13 on13 ∈ H) (h23 : pt x23 y23 on23 ∈ H) (h2713 : pt x2713 y2713 on2713 ∈ H)
    (h11953 : pt x11953 y11953 on11953 ∈ H) (h262069 : pt x262069 y262069 on262069 ∈ H)
    (hbig : pt xbig ybig onbig ∈ H) : points ∣ Nat.card H := by
  have hk : ∀ {l : Nat} {P : (E).Point}, l • P = 0 → l • phi c2_omega P = 0 := fun h => by
    rw [← map_nsmul, h, map_zero]
  unfold points
  refine Nat.Coprime.mul_dvd_of_dvd_of_dvd (by decide +kernel) ?_ (prime_dvd_card H (Fact.out) hg order_gen gen_ne)
  refine Nat.Coprime.mul_dvd_of_dvd_of_dvd (by decide +kernel) ?_ (prime_dvd_card H prime_448 hbig killbig (pt_ne _))
  refine Nat.Coprime.mul_dvd_of_dvd_of_dvd (by decide +kernel) ?_
    (prime_dvd_card H (by norm_num) h262069 kill262069 (pt_ne _))
  refine Nat.Coprime.mul_dvd_of_dvd_of_dvd (by decide +kernel) ?_
    (prime_dvd_card H (by norm_num) h11953 kill11953 (pt_ne _))
  refine Nat.Coprime.mul_dvd_of_dvd_of_dvd (by decide +kernel) ?_ (prime_dvd_card H (by norm_num) h2713 kill2713 (pt_ne _))
  exact Nat.Coprime.mul_dvd_of_dvd_of_dvd (by decide +kernel)
    (sq_dvd_card H (by norm_num) h13 (hs _ h13) kill13 (hk kill13) (pt_ne _) phi_13)
    (sq_dvd_card H (by norm_num) h23 (hs _ h23) kill23 (hk kill23) (pt_ne _) phi_23)

theorem eq_points {n : Nat} (hd : points ∣ n) (hpos : 0 < n) (hle : n ≤ 2 * fpModulus ^ 2 + 1) : n = points := by
  obtain ⟨m, hm⟩ := hd
  have h2 : 2 * fpModulus ^ 2 + 1 < points * 2 := by decide +kernel
  match m, hm with
  | 0, hm => omega
  | 1, hm => omega
  | m + 2, hm =>
    have : points * 2 ≤ points * (m + 2) := Nat.mul_le_mul_left _ (by omega)
    omega

theorem card_le : Nat.card (E).Point ≤ 2 * fpModulus ^ 2 + 1 := by
  have := card_points_le (K := Fp2 FpW)
  have := card_Fp2
  omega

theorem card_points : Nat.card (E).Point = points := by
  have h := points_dvd ⊤ (fun _ _ => trivial) trivial trivial trivial trivial trivial trivial trivial
  rw [AddSubgroup.card_top] at h
  exact eq_points h Nat.card_pos card_le

/-- An endomorphism that commutes with `φ` and vanishes on the seven points is zero. -/
theorem eq_zero_of_gens (g : (E).Point →+ (E).Point) (hs : ∀ P, g (phi c2_omega P) = phi c2_omega (g P))
    (hg : g gen = 0) (h13 : g (pt x13 y13 on13) = 0) (h23 : g (pt x23 y23 on23) = 0)
    (h2713 : g (pt x2713 y2713 on2713) = 0) (h11953 : g (pt x11953 y11953 on11953) = 0)
    (h262069 : g (pt x262069 y262069 on262069) = 0) (hbig : g (pt xbig ybig onbig) = 0) (P : (E).Point) : g P = 0 := by
  have h := points_dvd g.ker
    (fun P hP => by rw [AddMonoidHom.mem_ker] at *; rw [hs, hP, map_zero]) hg h13 h23 h2713 h11953 h262069 hbig
  have hle := Nat.card_le_card_of_injective _ (Subtype.val_injective (p := fun P => P ∈ g.ker))
  have e := eq_points h Nat.card_pos (hle.trans card_le)
  rw [← card_points] at e
  have ht := AddSubgroup.eq_top_of_card_eq _ e
  exact AddMonoidHom.mem_ker.1 (ht ▸ AddSubgroup.mem_top P)

/-! ## The characteristic equation of `ψ` -/

/-- Integers for `ψ²(q) + (u - 1)·ψ(q) + p·q`. -/
def nchar (q : NPt) : NPt :=
  nmul 381 fpModulus q (nmul 64 0xd20100000000ffff (npsi q) (npsi (npsi q)))

/-- `ψ² - tψ + p` with the trace `t = z + 1`. -/
def charHom : (E).Point →+ (E).Point :=
  psiHom.comp psiHom + 0xd20100000000ffff • psiHom + fpModulus • AddMonoidHom.id _

theorem charHom_apply (P : (E).Point) :
    charHom P = psiHom (psiHom P) + 0xd20100000000ffff • psiHom P + fpModulus • P := rfl

theorem char_of {p : NPt} {P : (E).Point} (hp : Projective.Is b p.cast P) (h : n2red (nchar p).z = ⟨0, 0⟩) :
    charHom P = 0 :=
  (charHom_apply P).trans (eq_zero_of_z (nmul_is 381 fpModulus (by decide +kernel) hp
    (nmul_is 64 0xd20100000000ffff (by decide +kernel) (npsi_is hp) (npsi_is (npsi_is hp)))) h)

theorem psi_phi (P : (E).Point) : psiHom (phi c2_omega P) = phi c2_omega (psiHom P) := by
  have h : ∀ Q, phi c2_omega Q = -psiHom (psiHom Q) := fun Q => by rw [psi_sq, neg_neg]
  rw [h, h, map_neg]

theorem char_zero (P : (E).Point) : charHom P = 0 := by
  refine eq_zero_of_gens charHom (fun P => ?_) (char_of ng_is (by decide +kernel))
    (char_of (pt_is _) (by decide +kernel)) (char_of (pt_is _) (by decide +kernel))
    (char_of (pt_is _) (by decide +kernel)) (char_of (pt_is _) (by decide +kernel))
    (char_of (pt_is _) (by decide +kernel)) (char_of (pt_is _) (by decide +kernel)) P
  simp only [charHom_apply, psi_phi, map_add, map_nsmul]

/-! ## Clearing the cofactor -/

/-- `2ψ² + (z² - z - 1) + (z - 1)ψ`. -/
def clearHom : (E).Point →+ (E).Point :=
  2 • psiHom.comp psiHom + (0xd201000000010000 ^ 2 + 0xd20100000000ffff) • AddMonoidHom.id _ +
    0xd201000000010001 • -psiHom

theorem clearHom_apply (P : (E).Point) : clearHom P =
    2 • psiHom (psiHom P) + (0xd201000000010000 ^ 2 + 0xd20100000000ffff) • P + 0xd201000000010001 • -psiHom P := rfl

/-- Integers for the cleared point. -/
def nclear (q : NPt) : NPt :=
  nmul 64 0xd201000000010001 (nneg (npsi q)) (nmul 128 (0xd201000000010000 ^ 2 + 0xd20100000000ffff) q
    (nmul 2 2 (npsi (npsi q)) nzero))

theorem clear_of {p : NPt} {P : (E).Point} (hp : Projective.Is b p.cast P) (h : n2red (nclear p).z = ⟨0, 0⟩) :
    clearHom P = 0 := by
  have := nmul_is 64 0xd201000000010001 (by decide +kernel) (nneg_is (npsi_is hp))
    (nmul_is 128 (0xd201000000010000 ^ 2 + 0xd20100000000ffff) (by decide +kernel) hp
      (nmul_is 2 2 (by norm_num) (npsi_is (npsi_is hp)) nzero_is))
  rw [zero_add] at this
  exact (clearHom_apply P).trans (eq_zero_of_z this h)

theorem clearHom_phi (P : (E).Point) : clearHom (phi c2_omega P) = phi c2_omega (clearHom P) := by
  simp only [clearHom_apply, psi_phi, map_add, map_nsmul, map_neg]

/-- The cleared point is in the subgroup of prime order, for every point of the curve. -/
theorem clear_torsion (P : (E).Point) : frModulus • clearHom P = 0 := by
  have h : ∀ Q, (frModulus • clearHom) Q = frModulus • clearHom Q := fun Q => rfl
  rw [← h]
  refine eq_zero_of_gens (frModulus • clearHom) (fun P => ?_) ?_ ?_ ?_ ?_ ?_ ?_ ?_ P
  · rw [h, h, clearHom_phi, map_nsmul]
  · rw [h, ← map_nsmul, order_gen, map_zero]
  all_goals rw [h, clear_of (pt_is _) (by decide +kernel), nsmul_zero]

theorem clearCofactor_hom {p : Proj} {P : (E).Point} (hp : Projective.Is b p P) :
    Projective.Is b (clearCofactor p) (clearHom P) := by
  have := clearCofactor_is hp
  convert this using 1
  rw [clearHom_apply, map_add, map_add]
  module

/-! ## The subgroup of prime order -/

/-- The points killed by the prime order. -/
def torsion : AddSubgroup (E).Point := (nsmulAddMonoidHom (α := (E).Point) frModulus).ker

theorem mem_torsion {P : (E).Point} : P ∈ torsion ↔ frModulus • P = 0 := Iff.rfl

noncomputable instance : Module Fr torsion :=
  AddCommGroup.zmodModule (n := frModulus) (fun P => Subtype.ext (mem_torsion.1 P.2))

/-- Every point of the subgroup is a multiple of the generator. -/
theorem torsion_cyclic {P : (E).Point} (h : frModulus • P = 0) : ∃ n : Nat, P = n • gen := by
  by_contra hc
  have hd := sq_dvd_card (⊤ : AddSubgroup (E).Point) (l := frModulus) Fact.out (Q := gen) (F := P) trivial trivial
    order_gen h gen_ne (fun c e => hc ⟨_, e⟩)
  rw [AddSubgroup.card_top, card_points] at hd
  exact absurd hd (by decide +kernel)

/-- On the subgroup `ψ` is multiplication by the curve parameter. -/
theorem psi_torsion {P : (E).Point} (h : frModulus • P = 0) : psiHom P = -(0xd201000000010000 : Int) • P := by
  obtain ⟨n, rfl⟩ := torsion_cyclic h
  rw [map_nsmul, psi_gen, smul_comm]

end G2
end Kzg.Zk
