import Verif.Model.Zk.Tower
import Verif.Proofs.Zk.G1Curve
import Mathlib.RingTheory.AdjoinRoot
/-!
# What the extension fields of zkcrypto stand for

The mathematical tower is the one of Mathlib: `F2 = Fq[u]/(u² + 1)`, `F6 = F2[v]/(v³ - (u + 1))`,
`F12 = F6[w]/(w² - v)`. A structure of the code stands for the polynomial with its fields as coefficients.
-/

namespace Kzg.Zk
open Polynomial

/-- `Fq[u]/(u² + 1)`. -/
abbrev F2 := AdjoinRoot (X ^ 2 + 1 : Fq[X])

/-- The residue class of the variable. -/
noncomputable abbrev F2.u : F2 := AdjoinRoot.root _

/-- `F2[v]/(v³ - (u + 1))`. -/
abbrev F6 := AdjoinRoot (X ^ 3 - C (F2.u + 1) : F2[X])

/-- The residue class of the variable. -/
noncomputable abbrev F6.v : F6 := AdjoinRoot.root _

/-- `F6[w]/(w² - v)`. -/
abbrev F12 := AdjoinRoot (X ^ 2 - C F6.v : F6[X])

/-- The residue class of the variable. -/
noncomputable abbrev F12.w : F12 := AdjoinRoot.root _

/-- What an `Fp2` stands for: `c0 + c1·u`. -/
noncomputable def Fp2.el (a : Fp2 FpW) : F2 := AdjoinRoot.of _ a.c0.el + AdjoinRoot.of _ a.c1.el * F2.u

/-- What an `Fp6` stands for: `c0 + c1·v + c2·v²`. -/
noncomputable def Fp6.el (a : Fp6 FpW) : F6 :=
  AdjoinRoot.of _ a.c0.el + AdjoinRoot.of _ a.c1.el * F6.v + AdjoinRoot.of _ a.c2.el * F6.v ^ 2

/-- What an `Fp12` stands for: `c0 + c1·w`. -/
noncomputable def Fp12.el (a : Fp12 FpW) : F12 := AdjoinRoot.of _ a.c0.el + AdjoinRoot.of _ a.c1.el * F12.w

end Kzg.Zk
