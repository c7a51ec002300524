import Verif.Model.Zk.G2
import Verif.Proofs.Zk.GlvMul
/-!
# The second group: constants, multiplication, and the generator
-/

set_option exponentiation.threshold 1000

namespace Kzg.Zk.G2
open CurveConsts

local notation "E" => curve (b : Fp2 FpW)

theorem N2.zero_cast : (N2.cast ⟨0, 0⟩) = 0 := by ext <;> simp [N2.cast]

theorem curveB_eq : curveB = N2.cast ⟨4, 4⟩ := N2.eq_cast _ _ (by decide +kernel) (by decide +kernel)

theorem b_eq : (b : Fp2 FpW) = 4 * Fp2.xi := by
  have h : (4 : Fp2 FpW) = Fp2.ofHom 4 := (map_ofNat Fp2.ofHom 4).symm
  show curveB = _
  rw [curveB_eq, h]
  ext <;> simp [N2.cast]

theorem two_ne_FpW : (2 : FpW) ≠ 0 := LawfulCurve.two_ne

theorem no_root (x : Fp2 FpW) : x ^ 3 + b ≠ 0 := by
  intro h
  have e : x ^ 3 = -4 * Fp2.xi := by rw [b_eq] at h; linear_combination h
  have hn := congrArg Fp2.norm e
  have h4 : Fp2.norm (-4 : Fp2 FpW) = 16 := by
    have : (-4 : Fp2 FpW) = Fp2.ofHom (-4) := by rw [map_neg, map_ofNat]
    rw [this]
    simp [Fp2.norm]
    norm_num
  rw [Fp2.norm_pow, Fp2.norm_mul, Fp2.norm_xi, h4] at hn
  have h2 := two_ne_FpW
  apply LawfulTower.two_cube ((x.norm ^ 2) / 8)
  have h8 : (8 : FpW) ≠ 0 := by
    rw [show (8 : FpW) = 2 ^ 3 by norm_num]
    exact pow_ne_zero _ h2
  rw [div_pow, ← pow_mul, mul_comm 2 3, pow_mul, hn, div_eq_iff (pow_ne_zero _ h8)]
  norm_num

theorem natCast_ne_zero {n : Nat} (h : (n : FpW) ≠ 0) : (n : Fp2 FpW) ≠ 0 := by
  intro e
  apply h
  exact congrArg Fp2.c0 ((map_natCast Fp2.ofHom n).trans e)

instance : LawfulCurve (Fp2 FpW) where
  mul3b_eq a := by
    show a * (curveB + curveB + curveB) = 3 * curveB * a
    ring
  two_ne := by
    have := natCast_ne_zero (n := 2) (by exact_mod_cast two_ne_FpW)
    exact_mod_cast this
  three_ne := by
    have := natCast_ne_zero (n := 3) (by exact_mod_cast (LawfulCurve.three_ne (K := FpW)))
    exact_mod_cast this
  no_root := no_root

/-! ## Multiplication -/

/-- The number with these bits, the high bit first. -/
def bitsVal (bits : List Bool) : Nat := bits.foldl (fun a c => 2 * a + c.toNat) 0

theorem foldl_bits (bits : List Bool) (a : Nat) :
    bits.foldl (fun a c => 2 * a + c.toNat) a = a * 2 ^ bits.length + bitsVal bits := by
  induction bits generalizing a with
  | nil => simp [bitsVal]
  | cons c bits ih =>
    rw [bitsVal, List.foldl_cons, List.foldl_cons, ih, ih, List.length_cons, pow_succ]
    ring

theorem bitsVal_append (x y : List Bool) : bitsVal (x ++ y) = bitsVal x * 2 ^ y.length + bitsVal y := by
  rw [bitsVal, List.foldl_append, foldl_bits]
  rfl

theorem bitsVal_lt (x : List Bool) : bitsVal x < 2 ^ x.length := by
  induction x using List.reverseRecOn with
  | nil => simp [bitsVal]
  | append_singleton x c ih =>
    rw [bitsVal_append, List.length_append, List.length_singleton, pow_succ]
    have : bitsVal [c] < 2 := by cases c <;> decide
    omega

/-- The bits of one byte. -/
def byteBits (byte : Nat) : List Bool := [7, 6, 5, 4, 3, 2, 1, 0].map fun i => shr byte i &&& 1 == 1

theorem byteBits_val {c : Nat} (h : c < 256) : bitsVal (byteBits c) = c := by
  have H : ∀ c < 256, bitsVal (byteBits c) = c := by decide +kernel
  exact H c h

theorem allBits (bytes : List Nat) (h : ∀ c ∈ bytes, c < 256) :
    (bytes.reverse.flatMap byteBits).length = 8 * bytes.length ∧
      bitsVal (bytes.reverse.flatMap byteBits) = fromLe bytes := by
  induction bytes with
  | nil => exact ⟨rfl, rfl⟩
  | cons c bs ih =>
    obtain ⟨h1, h2⟩ := ih fun d hd => h d (by simp [hd])
    have hl : (byteBits c).length = 8 := by simp [byteBits]
    constructor
    · simp only [List.reverse_cons, List.flatMap_append, List.length_append, h1, List.length_cons,
        List.flatMap_singleton, hl]
      ring
    · rw [List.reverse_cons, List.flatMap_append, bitsVal_append, h2, List.flatMap_singleton, hl,
        byteBits_val (h c (by simp)), fromLe]
      ring

theorem multiplyBits_val {bytes : List Nat} (hl : bytes ≠ []) (hb : ∀ c ∈ bytes, c < 256)
    (h : fromLe bytes < 2 ^ (8 * bytes.length - 1)) : bitsVal (multiplyBits bytes) = fromLe bytes := by
  obtain ⟨h1, h2⟩ := allBits bytes hb
  show bitsVal ((bytes.reverse.flatMap byteBits).drop 1) = _
  generalize bytes.reverse.flatMap byteBits = l at *
  have hlen := List.length_pos_iff.2 hl
  match l with
  | [] => exact absurd h1.symm (by rw [List.length_nil]; omega)
  | c :: rest =>
    have hc : (c :: rest) = [c] ++ rest := rfl
    rw [hc, bitsVal_append] at h2
    have hr : rest.length = 8 * bytes.length - 1 := by simp at h1; omega
    have : bitsVal [c] = 0 := by
      cases c with
      | false => rfl
      | true =>
        exfalso
        rw [show bitsVal [true] = 1 from rfl, hr] at h2
        omega
    rw [this, zero_mul, zero_add] at h2
    exact h2

section
variable {K : Type} [Field K] [DecidableEq K] [LawfulCurve K]

theorem fold_is {p : Projective K} {P : (curve (b : K)).Point} (hp : Projective.Is b p P) (bits : List Bool) :
    Projective.Is b (bits.foldl (fun acc bit => Projective.select acc.double (acc.double.add p) bit)
      Projective.identity) (bitsVal bits • P) := by
  induction bits using List.reverseRecOn with
  | nil =>
    rw [show bitsVal [] = 0 from rfl, zero_smul]
    exact identity_is
  | append_singleton bits c ih =>
    rw [List.foldl_append, bitsVal_append, List.foldl_cons, List.foldl_nil]
    have hd := double_is ih
    cases c with
    | false =>
      have e : (bitsVal bits * 2 ^ [false].length + bitsVal [false]) • P = bitsVal bits • P + bitsVal bits • P := by
        rw [← add_nsmul]
        congr 1
        simp [bitsVal]
        ring
      rw [e]
      exact hd
    | true =>
      have e : (bitsVal bits * 2 ^ [true].length + bitsVal [true]) • P = bitsVal bits • P + bitsVal bits • P + P := by
        rw [← add_nsmul, ← succ_nsmul]
        congr 1
        simp [bitsVal]
        ring
      rw [e]
      exact add_is hd hp

end

/-- Multiplication by a byte string whose high bit is not set. -/
theorem multiply_is {p : Proj} {P : (E).Point} (hp : Projective.Is b p P) {bytes : List Nat} (hl : bytes ≠ [])
    (hb : ∀ c ∈ bytes, c < 256) (h : fromLe bytes < 2 ^ (8 * bytes.length - 1)) :
    Projective.Is b (multiply p bytes) (fromLe bytes • P) := by
  rw [← multiplyBits_val hl hb h]
  exact fold_is hp _

/-! ## The generator -/

/-- The integers of the generator. -/
def gxN : N2 :=
  ⟨0x24aa2b2f08f0a91260805272dc51051c6e47ad4fa403b02b4510b647ae3d1770bac0326a805bbefd48056c8c121bdb8,
    0x13e02b6052719f607dacd3a088274f65596bd0d09920b61ab5da61bbdc7f5049334cf11213945d57e5ac7d055d042b7e⟩

@[inherit_doc gxN] def gyN : N2 :=
  ⟨0xce5d527727d6e118cc9cdc6da2e351aadfd9baa8cbdd3a76d429a695160d12c923ac9cc3baca289e193548608b82801,
    0x606c4a02ea734cc32acd2b02bc28b99cb3e287e85a763af267492ab572e99ab3f370d275cec1da1aaa9075ff05f79be⟩

theorem gx_eq : generatorX = gxN.cast := N2.eq_cast _ _ (by decide +kernel) (by decide +kernel)
theorem gy_eq : generatorY = gyN.cast := N2.eq_cast _ _ (by decide +kernel) (by decide +kernel)

/-! ### Points with integer coordinates -/

/-- Subtraction. -/
def n2sub (x y : N2) : N2 := ⟨G1.nsub x.a y.a, G1.nsub x.b y.b⟩

theorem n2sub_cast (x y : N2) : (n2sub x y).cast = x.cast - y.cast := by
  ext <;> simp [n2sub, N2.cast, G1.nsub_cast]

/-- Reduction. -/
def n2red (x : N2) : N2 := ⟨x.a % fpModulus, x.b % fpModulus⟩

theorem n2red_cast (x : N2) : (n2red x).cast = x.cast := by
  ext <;> simp [n2red, N2.cast, G1.natCast_mod]

/-- Coordinates. -/
structure NPt where
  x : N2
  y : N2
  z : N2

/-- The point as the words hold it. -/
def NPt.cast (p : NPt) : Proj := ⟨p.x.cast, p.y.cast, p.z.cast⟩

/-- Multiplication by `3b`. -/
def nmul3b (x : N2) : N2 := N2.mul ⟨12, 12⟩ x

theorem nmul3b_cast (x : N2) : (nmul3b x).cast = 3 * b * x.cast := by
  have h : (N2.cast ⟨12, 12⟩) = 3 * b := by
    show _ = 3 * curveB
    rw [curveB_eq]
    have h : (3 : Fp2 FpW) = Fp2.ofHom 3 := (map_ofNat Fp2.ofHom 3).symm
    rw [h]
    ext <;> simp [N2.cast] <;> norm_num
  rw [nmul3b, N2.mul_cast, h]

/-- Addition of integer coordinates. -/
def nadd (p q : NPt) : NPt :=
  let xx := p.x.mul q.x
  let yy := p.y.mul q.y
  let zz := nmul3b (p.z.mul q.z)
  let xy := (p.x.mul q.y).add (q.x.mul p.y)
  let yz := (p.y.mul q.z).add (q.y.mul p.z)
  let xz := nmul3b ((p.x.mul q.z).add (q.x.mul p.z))
  let xx3 := (xx.add xx).add xx
  let m := n2sub yy zz
  let s := yy.add zz
  ⟨n2red (n2sub (xy.mul m) (yz.mul xz)), n2red ((s.mul m).add (xx3.mul xz)), n2red ((yz.mul s).add (xx3.mul xy))⟩

theorem nadd_cast (p q : NPt) : (nadd p q).cast = p.cast.add q.cast := by
  simp only [NPt.cast, nadd, Projective.add, LawfulCurve.mul3b_eq, n2red_cast, n2sub_cast, nmul3b_cast, N2.mul_cast,
    N2.add_cast]
  rw [Projective.mk.injEq]
  refine ⟨by ring, by ring, by ring⟩

/-- `acc + k·p` by double and add. -/
def nmul : (fuel k : Nat) → (p acc : NPt) → NPt
  | 0, _, _, acc => acc
  | f + 1, k, p, acc => nmul f (k / 2) (nadd p p) (if k % 2 = 1 then nadd acc p else acc)

theorem nmul_is (f k : Nat) (hk : k < 2 ^ f) {p acc : NPt} {P A : (E).Point} (hp : Projective.Is b p.cast P)
    (ha : Projective.Is b acc.cast A) : Projective.Is b (nmul f k p acc).cast (A + k • P) := by
  induction f generalizing k p acc P A with
  | zero =>
    obtain rfl : k = 0 := by simpa using hk
    simpa [nmul] using ha
  | succ f ih =>
    have hd : Projective.Is b (nadd p p).cast (P + P) := by rw [nadd_cast]; exact add_is hp hp
    have hkd : k / 2 < 2 ^ f := by rw [pow_succ] at hk; omega
    rw [nmul]
    split
    · next h1 =>
      have := ih (k / 2) hkd hd (acc := nadd acc p) (A := A + P) (by rw [nadd_cast]; exact add_is ha hp)
      convert this using 1
      conv_lhs => rw [show k = 2 * (k / 2) + 1 by omega]
      module
    · next h1 =>
      have := ih (k / 2) hkd hd ha
      convert this using 1
      conv_lhs => rw [show k = 2 * (k / 2) by omega]
      module

theorem eq_zero_of_z {p : NPt} {P : (E).Point} (hp : Projective.Is b p.cast P) (h : n2red p.z = ⟨0, 0⟩) : P = 0 := by
  rw [← isIdentity_iff hp, Projective.isIdentity, decide_eq_true_eq]
  show p.z.cast = 0
  rw [← n2red_cast, h, N2.zero_cast]

/-- The integer coordinates of the generator. -/
def ng : NPt := ⟨gxN, gyN, ⟨1, 0⟩⟩

theorem generator_nonsingular : (E).Nonsingular generatorX generatorY := by
  rw [nonsingular_iff, gx_eq, gy_eq]
  show _ = _ + curveB
  rw [curveB_eq, pow_two, pow_succ, pow_two, ← N2.mul_cast, ← N2.mul_cast, ← N2.mul_cast, ← N2.add_cast]
  exact N2.cast_eq_of_mod (by decide +kernel) (by decide +kernel)

/-- The generator as a point of the curve. -/
def gen : (E).Point := .some generatorX generatorY generator_nonsingular

theorem generator_is : Affine.Is b generator gen := .finite _

theorem generatorProj_is : Projective.Is b generatorProj gen := ofAffine_is generator_is

theorem ng_is : Projective.Is b ng.cast gen := by
  have : ng.cast = generatorProj := by
    simp only [ng, NPt.cast, generatorProj, gx_eq, gy_eq, N2.one_cast]
  rw [this]
  exact generatorProj_is

theorem nzero_is : Projective.Is b (NPt.cast ⟨⟨0, 0⟩, ⟨1, 0⟩, ⟨0, 0⟩⟩) (0 : (E).Point) := by
  simp only [NPt.cast, N2.zero_cast, N2.one_cast]
  exact identity_is

theorem order_gen : frModulus • gen = 0 := by
  have := eq_zero_of_z (nmul_is 256 frModulus (by decide +kernel) ng_is nzero_is) (by decide +kernel)
  rwa [zero_add] at this

theorem gen_ne : gen ≠ 0 := by simp [gen, WeierstrassCurve.Affine.Point.zero_def]

end Kzg.Zk.G2
