import Verif.Model.Zk.Curve
import Mathlib.AlgebraicGeometry.EllipticCurve.Affine.Point
/-!
# Which group element a pair or triple of coordinates stands for

The specification is Mathlib's elliptic curve: the affine Weierstrass curve `y² = x³ + b` and its group of
points. A coordinate structure stands for at most one point; the relation does not use any operation of
the model.
-/

namespace Kzg.Zk

variable {K : Type} [Field K]

/-- The curve `y² = x³ + b`. -/
def curve (b : K) : WeierstrassCurve.Affine K := { a₁ := 0, a₂ := 0, a₃ := 0, a₄ := 0, a₆ := b }

/-- The affine coordinates stand for the point `P`. The identity is stored as `(0, 1)` with the flag set. -/
inductive Affine.Is (b : K) : Affine K → (curve b).Point → Prop
  | infinity : Affine.Is b ⟨0, 1, true⟩ 0
  | finite {x y : K} (h : (curve b).Nonsingular x y) : Affine.Is b ⟨x, y, false⟩ (.some x y h)

/-- The projective coordinates stand for the point `P`: the identity is `(0 : y : 0)` with `y ≠ 0`, and a
finite point is any non-zero multiple of `(x : y : 1)`. -/
inductive Projective.Is (b : K) : Projective K → (curve b).Point → Prop
  | infinity {y : K} (hy : y ≠ 0) : Projective.Is b ⟨0, y, 0⟩ 0
  | finite {x y z : K} (hz : z ≠ 0) (h : (curve b).Nonsingular x y) :
    Projective.Is b ⟨x * z, y * z, z⟩ (.some x y h)

end Kzg.Zk
