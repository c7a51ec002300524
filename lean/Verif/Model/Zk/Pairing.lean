import Verif.Model.Zk.FinalExp
import Verif.Model.Zk.G2
/-!
# The pairing of zkcrypto (zkcrypto/src/curve/pairings.rs)

`MillerLoopResult` and `Gt` are wrappers of an `Fp12`; the model drops the wrappers. The steps are written over the
coordinate field `k` of the second group; as in `Verif/Model/Zk/Curve.lean`, `square` of `Fp2` is the product of an
element with itself (C70 shows that the results are the same). The point `r` of the steps is stored in Jacobian
coordinates, unlike elsewhere: `(X / Z², Y / Z³)`.

A driver of the Miller loop (`trait MillerLoopDriver`, zkcrypto/src/curve/pairings.rs:864-872) is a state and the
functions on it; reading past the end of the stored coefficients panics.
-/

namespace Kzg.Zk
open Kzg

namespace Pairing

section
variable {k : Type} [Field k]

/-- Coefficients of a line: `(Fp2, Fp2, Fp2)`. -/
abbrev Coeffs (k : Type) := k × k × k

/-- `doubling_step`, zkcrypto/src/curve/pairings.rs:918-947; the new `r` and the coefficients. -/
def doublingStep (r : Projective k) : Projective k × Coeffs k :=
  let tmp0 := r.x * r.x
  let tmp1 := r.y * r.y
  let tmp2 := tmp1 * tmp1
  let tmp3 := (tmp1 + r.x) * (tmp1 + r.x) - tmp0 - tmp2
  let tmp3 := tmp3 + tmp3
  let tmp4 := tmp0 + tmp0 + tmp0
  let tmp6 := r.x + tmp4
  let tmp5 := tmp4 * tmp4
  let zsquared := r.z * r.z
  let rx := tmp5 - tmp3 - tmp3
  let rz := (r.z + r.y) * (r.z + r.y) - tmp1 - zsquared
  let ry := (tmp3 - rx) * tmp4
  let tmp2 := tmp2 + tmp2
  let tmp2 := tmp2 + tmp2
  let tmp2 := tmp2 + tmp2
  let ry := ry - tmp2
  let tmp3 := tmp4 * zsquared
  let tmp3 := tmp3 + tmp3
  let tmp3 := -tmp3
  let tmp6 := tmp6 * tmp6 - tmp0 - tmp5
  let tmp1 := tmp1 + tmp1
  let tmp1 := tmp1 + tmp1
  let tmp6 := tmp6 - tmp1
  let tmp0 := rz * zsquared
  let tmp0 := tmp0 + tmp0
  (⟨rx, ry, rz⟩, (tmp0, tmp3, tmp6))

/-- `addition_step`, zkcrypto/src/curve/pairings.rs:949-979; the new `r` and the coefficients. -/
def additionStep (r : Projective k) (q : Affine k) : Projective k × Coeffs k :=
  let zsquared := r.z * r.z
  let ysquared := q.y * q.y
  let t0 := zsquared * q.x
  let t1 := ((q.y + r.z) * (q.y + r.z) - ysquared - zsquared) * zsquared
  let t2 := t0 - r.x
  let t3 := t2 * t2
  let t4 := t3 + t3
  let t4 := t4 + t4
  let t5 := t4 * t2
  let t6 := t1 - r.y - r.y
  let t9 := t6 * q.x
  let t7 := t4 * r.x
  let rx := t6 * t6 - t5 - t7 - t7
  let rz := (r.z + t2) * (r.z + t2) - zsquared - t3
  let t10 := q.y + rz
  let t8 := (t7 - rx) * t6
  let t0 := r.y * t5
  let t0 := t0 + t0
  let ry := t8 - t0
  let t10 := t10 * t10 - ysquared
  let ztsquared := rz * rz
  let t10 := t10 - ztsquared
  let t9 := t9 + t9 - t10
  let t10 := rz + rz
  let t6 := -t6
  let t1 := t6 + t6
  (⟨rx, ry, rz⟩, (t10, t1, t9))

end

section
variable {K : Type} [Field K] [DecidableEq K]

/-- `ell`, zkcrypto/src/curve/pairings.rs:905-916. -/
def ell (f : Fp12 K) (coeffs : Coeffs (Fp2 K)) (p : Affine K) : Fp12 K :=
  let c0 := coeffs.1
  let c1 := coeffs.2.1
  let c0 : Fp2 K := ⟨c0.c0 * p.y, c0.c1⟩
  let c0 : Fp2 K := ⟨c0.c0, c0.c1 * p.y⟩
  let c1 : Fp2 K := ⟨c1.c0 * p.x, c1.c1⟩
  let c1 : Fp2 K := ⟨c1.c0, c1.c1 * p.x⟩
  f.mulBy014 coeffs.2.2 c1 c0

end

/-- `trait MillerLoopDriver`, zkcrypto/src/curve/pairings.rs:864-872, with state `S` and output `O`. -/
structure Driver (S O : Type) where
  doublingStep : S → O → Res (S × O)
  additionStep : S → O → Res (S × O)
  squareOutput : O → O
  conjugate : O → O
  one : O

/-- The bits the loop runs through, zkcrypto/src/curve/pairings.rs:881. -/
def loopBits : List Bool :=
  (List.range 64).reverse.map fun b => decide (shr (shr Gt.blsX 1) b &&& 1 = 1)

/-- The body of the loop, zkcrypto/src/curve/pairings.rs:882-893. The state is `found_one`, the driver and `f`. -/
def loopBody {S O : Type} (d : Driver S O) (i : Bool) (st : Bool × S × O) : Res (Bool × S × O) :=
  if !st.1 then .ok (i, st.2)
  else do
    let (s, f) ← d.doublingStep st.2.1 st.2.2
    let (s, f) ← if i then d.additionStep s f else .ok (s, f)
    .ok (st.1, s, d.squareOutput f)

/-- The loop over the bits, zkcrypto/src/curve/pairings.rs:881-894. -/
def loopOver {S O : Type} (d : Driver S O) : List Bool → Bool × S × O → Res (Bool × S × O)
  | [], st => .ok st
  | i :: is, st => do
    let st ← loopBody d i st
    loopOver d is st

/-- `miller_loop`, zkcrypto/src/curve/pairings.rs:877-903; the final driver and the output. `BLS_X_IS_NEGATIVE` is
true. -/
def millerLoop {S O : Type} (d : Driver S O) (s : S) : Res (S × O) := do
  let (_, s, f) ← loopOver d loopBits (false, s, d.one)
  let (s, f) ← d.doublingStep s f
  .ok (s, d.conjugate f)

/-- `struct G2Prepared`, zkcrypto/src/curve/pairings.rs:706-709. -/
structure Prepared where
  infinity : Bool
  coeffs : List (Coeffs (Fp2 FpW))

/-- The driver of `G2Prepared::from`, zkcrypto/src/curve/pairings.rs:714-734, with `base` fixed; the state is `cur`
and `coeffs`. -/
def prepareDriver (base : G2.Aff) : Driver (G2.Proj × List (Coeffs (Fp2 FpW))) Unit where
  doublingStep s _ := let (r, c) := doublingStep s.1; .ok ((r, s.2 ++ [c]), ())
  additionStep s _ := let (r, c) := additionStep s.1 base; .ok ((r, s.2 ++ [c]), ())
  squareOutput _ := ()
  conjugate _ := ()
  one := ()

/-- `From<G2Affine> for G2Prepared`, zkcrypto/src/curve/pairings.rs:712-754. -/
def prepare (q : G2.Aff) : Res Prepared := do
  let isIdentity := q.isIdentity
  let q := Affine.select q G2.generator isIdentity
  let (s, _) ← millerLoop (prepareDriver q) (Projective.ofAffine q, [])
  if s.2.length = 68 then .ok ⟨isIdentity, s.2⟩ else .panic

/-- The loop over the terms in `doubling_step` and `addition_step` of `multi_miller_loop`,
zkcrypto/src/curve/pairings.rs:773-778 and 785-790. -/
def ellTerms (index : Nat) : List (G1.Aff × Prepared) → Fp12 FpW → Res (Fp12 FpW)
  | [], f => .ok f
  | term :: terms, f => do
    let eitherIdentity := term.1.isIdentity || term.2.infinity
    let c ← rd term.2.coeffs index
    let newF := ell f c term.1
    ellTerms index terms (Fp12.select newF f eitherIdentity)

/-- The driver of `multi_miller_loop`, zkcrypto/src/curve/pairings.rs:763-804; the state is `index`. -/
def multiDriver (terms : List (G1.Aff × Prepared)) : Driver Nat (Fp12 FpW) where
  doublingStep index f := do
    let f ← ellTerms index terms f
    .ok (index + 1, f)
  additionStep index f := do
    let f ← ellTerms index terms f
    .ok (index + 1, f)
  squareOutput f := f.square
  conjugate f := f.conjugate
  one := 1

/-- `multi_miller_loop`, zkcrypto/src/curve/pairings.rs:762-811. -/
def multiMillerLoop (terms : List (G1.Aff × Prepared)) : Res (Fp12 FpW) := do
  let (_, tmp) ← millerLoop (multiDriver terms) 0
  .ok tmp

/-- The driver of `pairing`, zkcrypto/src/curve/pairings.rs:817-843, with `base` and `p` fixed; the state is
`cur`. -/
def pairingDriver (base : G2.Aff) (p : G1.Aff) : Driver G2.Proj (Fp12 FpW) where
  doublingStep cur f := let (r, c) := doublingStep cur; .ok (r, ell f c p)
  additionStep cur f := let (r, c) := additionStep cur base; .ok (r, ell f c p)
  squareOutput f := f.square
  conjugate f := f.conjugate
  one := 1

/-- `pairing`, zkcrypto/src/curve/pairings.rs:816-862. -/
def pairing (p : G1.Aff) (q : G2.Aff) : Res (Fp12 FpW) := do
  let eitherIdentity := p.isIdentity || q.isIdentity
  let p := Affine.select p G1.generator eitherIdentity
  let q := Affine.select q G2.generator eitherIdentity
  let (_, tmp) ← millerLoop (pairingDriver q p) (Projective.ofAffine q)
  let tmp := Fp12.select tmp 1 eitherIdentity
  Gt.finalExponentiation tmp

/-- `pairings_verify`, zkcrypto/src/kzg_types.rs:205-229. -/
def pairingsVerify (a1 : G1.Proj) (a2 : G2.Proj) (b1 : G1.Proj) (b2 : G2.Proj) : Res Bool := do
  let a1neg := a1.neg
  let aa1 := Affine.ofProjective a1neg
  let bb1 := Affine.ofProjective b1
  let aa2 := Affine.ofProjective a2
  let bb2 := Affine.ofProjective b2
  let aa2Prepared ← prepare aa2
  let bb2Prepared ← prepare bb2
  let loop0 ← multiMillerLoop [(aa1, aa2Prepared)]
  let loop1 ← multiMillerLoop [(bb1, bb2Prepared)]
  let gtPoint := Gt.millerAdd loop0 loop1
  let newPoint ← Gt.finalExponentiation gtPoint
  .ok (Fp12.ctEq 1 newPoint)

end Pairing
end Kzg.Zk
