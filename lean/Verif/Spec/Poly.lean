import Mathlib.Algebra.Polynomial.Eval.Defs
import Mathlib.Algebra.Polynomial.Basic
/-!
# Specification vocabulary: coefficient lists as polynomials
-/

namespace Kzg
open Polynomial

/-- The polynomial with coefficient list `l` (lowest degree first). -/
noncomputable def polyOf {F : Type} [Semiring F] (l : List F) : F[X] :=
  ∑ i ∈ Finset.range l.length, C (l.getD i 0) * X ^ i

end Kzg
