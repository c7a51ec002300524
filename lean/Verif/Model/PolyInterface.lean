import Verif.Model.Interface
import Verif.Model.Ark.ZeroPoly
/-!
# The polynomial interface of the backends (`trait Poly` and `trait FFTSettingsPoly`, kzg/src/lib.rs:136-173)

One record of functions for each backend, in the order of the traits. A polynomial is its coefficient list, the constant
term first. Functions that change `self` answer with the changed list. Every function answers in `Res`: indexing outside
the list and `todo!()` panic.
-/

namespace Kzg.Iface
open Kzg

/-- `trait Poly`, kzg/src/lib.rs:145-173, and `poly_mul_fft`, kzg/src/lib.rs:137-142. -/
structure PolyTrait (E : Type) where
  default : Res (List E)
  new : Nat → Res (List E)
  getCoeffAt : List E → Nat → Res E
  setCoeffAt : List E → Nat → E → Res (List E)
  getCoeffs : List E → Res (List E)
  len : List E → Res Nat
  eval : List E → E → Res E
  scale : List E → Res (List E)
  unscale : List E → Res (List E)
  inverse : List E → Nat → Res (List E)
  div : List E → List E → Res (List E)
  longDiv : List E → List E → Res (List E)
  fastDiv : List E → List E → Res (List E)
  mulDirect : List E → List E → Nat → Res (List E)
  mulFft : List E → List E → Nat → Option (FFTSettings E) → Res (List E)

/-- `impl Poly for FsPoly`, blst-from-scratch/src/types/poly.rs:14-260, and `poly_mul_fft`,
blst-from-scratch/src/types/poly.rs:262-266. -/
def blstPoly : PolyTrait Fr where
  default := (do let p ← Res.ok (List.replicate 0 0); .ok p)
  new := fun size => .ok (List.replicate size 0)
  getCoeffAt := fun p i => rd p i
  setCoeffAt := fun p i x => wr p i x
  getCoeffs := fun p => .ok p
  len := fun p => .ok p.length
  eval := polyEval
  scale := polyScale
  unscale := polyUnscale
  inverse := polyInverse
  div := polyDiv
  longDiv := Kzg.longDiv
  fastDiv := Kzg.fastDiv
  mulDirect := Kzg.mulDirect
  mulFft := polyMulFft

/-- `impl Poly for ZPoly`, zkcrypto/src/poly.rs:96-238, and `poly_mul_fft`, zkcrypto/src/fftsettings.rs:112-116, over any field (the theorems
take the scalars of the crate); the functions
shared with blst-from-scratch are those named in `Verif/Model/Zk/Poly.lean`. -/
def zkPoly {F : Type} [Field F] [DecidableEq F] [FrTable F] : PolyTrait F where
  default := (do let p ← Res.ok (List.replicate 0 0); .ok p)
  new := fun size => .ok (List.replicate size 0)
  getCoeffAt := fun p i => rd p i
  setCoeffAt := fun p i x => wr p i x
  getCoeffs := fun p => .ok p
  len := fun p => .ok p.length
  eval := polyEval
  scale := polyScale
  unscale := polyUnscale
  inverse := ZkP.polyInverse
  div := ZkP.polyDiv
  longDiv := ZkP.longDiv
  fastDiv := ZkP.fastDiv
  mulDirect := Kzg.mulDirect
  mulFft := ZkP.polyMulFft

/-- `impl Poly for Polynomial`, mcl-kzg/kzg/src/trait_implementations/poly.rs:8-68, with `new`, `order` and `eval_at` of
mcl-kzg/kzg/src/kzg10.rs:211-242, and `poly_mul_fft`, mcl-kzg/kzg/src/trait_implementations/poly.rs:70-74. -/
def mclPoly [Mcl.Lib Fr] : PolyTrait Fr where
  default := .ok []
  new := fun size => .ok (List.replicate size 0)
  getCoeffAt := fun p i => rd p i
  setCoeffAt := fun p i x => wr p i x
  getCoeffs := fun p => .ok p
  len := fun p => .ok p.length
  eval := fun p x => .ok (Mcl.evalAt p x)
  scale := fun _ => .panic
  unscale := fun _ => .panic
  inverse := Mcl.polyInverse
  div := Mcl.polyDiv
  longDiv := Mcl.longDivision
  fastDiv := Mcl.fastDiv
  mulDirect := Mcl.mulDirect
  mulFft := fun a b len fs => Mcl.mulFft a b fs len

/-- `impl Poly for LPoly`, Arkworks/src/kzg_types.rs:268-327, and `poly_mul_fft`, Arkworks/src/kzg_types.rs:337-341. `scale` and
`unscale` are those without the parallel feature; `C122_scaling` shows that the parallel ones give the same lists. -/
def arkPoly : PolyTrait Fr where
  default := .ok Ark.polyDefault
  new := fun size => .ok (List.replicate size 0)
  getCoeffAt := fun p i => rd p i
  setCoeffAt := fun p i x => wr p i x
  getCoeffs := fun p => .ok p
  len := fun p => .ok p.length
  eval := fun p x => .ok (Ark.polyEval p x)
  scale := Ark.scalePoly
  unscale := Ark.unscalePoly
  inverse := Ark.polyInverse
  div := Ark.polyDiv
  longDiv := Ark.longDiv
  fastDiv := Ark.fastDiv
  mulDirect := Ark.mulDirect
  mulFft := fun a b len fs => Ark.mulFft a b fs len

end Kzg.Iface
