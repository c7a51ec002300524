import Verif.Spec.ZkCurve
import Verif.Model.Zk.G1
import Verif.Model.Zk.G2
/-!
# Which group element Jacobian coordinates stand for, and what words stand for

The libraries blst, arkworks and mcl keep points in Jacobian coordinates, zkcrypto in homogeneous ones.
As in `Verif/Spec/ZkCurve.lean`, nothing here uses an operation of the model.
-/

namespace Kzg.Zk

/-- Jacobian coordinates: infinity is `Z = 0`, a finite point `(X, Y)` is `(X·Z², Y·Z³, Z)`. -/
inductive Jacobian {K : Type} [Field K] (b : K) : K → K → K → (curve b).Point → Prop
  | infinity (x y : K) : Jacobian b x y 0 0
  | finite {x y z : K} (hz : z ≠ 0) (h : (curve b).Nonsingular x y) :
    Jacobian b (x * z ^ 2) (y * z ^ 3) z (.some x y h)

/-- The words of an element of the quadratic extension. -/
def Fp2.words (a : Fp2 FpW) : Fp2 Fp := ⟨a.c0.1, a.c1.1⟩

end Kzg.Zk
