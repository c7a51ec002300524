import Verif.Model.FFT
/-!
# Coset scaling of coefficient lists (blst-from-scratch/src/recovery.rs)

The lazily initialised tables are modelled here by the value their initialiser computes.
`Verif.Model.OnceCell` models the shared cells and proves that this is what every caller sees.
-/

namespace Kzg

variable {F : Type} [Field F]

/-- The initialiser closures of `INVERSE_FACTORS` and `UNSCALE_FACTOR_POWERS`,
blst-from-scratch/src/recovery.rs:18-22 and 34-38. -/
def powerTable (factor : F) : Res (List F) :=
  forRange 1 65536 [(1 : F)] fun i temp => do
    let k ← subU i 1
    let x ← rd temp k
    .ok (temp ++ [x * factor])

/-- The loops `for i in 1..len_p { p[i] = p[i].mul(&factors[i]) }`,
blst-from-scratch/src/recovery.rs:25-27 and 41-43. -/
def scaleLoop (factors p : List F) (lenP : Nat) : Res (List F) :=
  forRange 1 lenP p fun i p => do
    let x ← rd p i
    let f ← rd factors i
    wr p i (x * f)

/-- `scale_poly`, blst-from-scratch/src/recovery.rs:14-28. -/
def scalePoly (p : List F) (lenP : Nat) : Res (List F) := do
  let factors ← powerTable (5 : F)⁻¹
  scaleLoop factors p lenP

/-- `unscale_poly`, blst-from-scratch/src/recovery.rs:31-44. -/
def unscalePoly (p : List F) (lenP : Nat) : Res (List F) := do
  let factors ← powerTable (5 : F)
  scaleLoop factors p lenP

end Kzg
