import Mathlib.Algebra.Field.Basic
import Mathlib.Algebra.Module.Defs
import Verif.Model.Utils
import Verif.Model.Fr
/-!
# Field power and group scalar multiplication (blst-from-scratch/src/types)
-/

namespace Kzg

section Pow
variable {F : Type} [Field F]

/-- The loop of `Fr::pow`, blst-from-scratch/src/types/fr.rs:154-164. -/
def frPowLoop (out temp : F) (n : Nat) : F :=
  let out := if n &&& 1 = 1 then out * temp else out
  if _h : n >>> 1 = 0 then out
  else frPowLoop out (temp * temp) (n >>> 1)
termination_by n
decreasing_by
  simp only [Nat.shiftRight_eq_div_pow, Nat.pow_one] at *; omega

/-- `Fr::pow`, blst-from-scratch/src/types/fr.rs:149-167. -/
def frPow (x : F) (n : Nat) : F := frPowLoop 1 x n

end Pow

/-- The 32 little-endian bytes of a scalar: `blst_scalar_from_fr` (FFI, trusted). -/
def scalarBytes (b : Fr) : List Nat := (List.range 32).map fun i => b.val / 256 ^ i % 256

/-- The value of a little-endian byte string. -/
def bytesVal : List Nat → Nat
  | [] => 0
  | b :: bs => b + 256 * bytesVal bs

/-- The byte counting loop, blst-from-scratch/src/types/g1.rs:92-95. The index is below the length
because `i` starts there and decreases. -/
def topByte (bytes : List Nat) : Nat → Nat
  | 0 => 0
  | i + 1 => if bytes.getD i 0 = 0 then topByte bytes i else i + 1

/-- `blst_p1_mult(&P, bytes, nbits)` (FFI, trusted): multiplies by the integer formed by the lowest
`nbits` bits of the byte string. -/
def p1Mult {G : Type} [AddCommGroup G] (P : G) (bytes : List Nat) (nbits : Nat) : G :=
  (bytesVal bytes % 2 ^ nbits) • P

/-- What `G1Mul::mul` does with the scalar bytes, blst-from-scratch/src/types/g1.rs:91-113. -/
inductive MulCall where
  | identity
  | self
  | mult (nbits : Nat)
deriving DecidableEq, Repr

/-- The case distinction of `G1Mul::mul`, blst-from-scratch/src/types/g1.rs:91-113. -/
def g1MulCall (bytes : List Nat) : Res MulCall := do
  let i := topByte bytes bytes.length
  if i = 0 then .ok .identity
  else do
    let b0 ← rd bytes 0
    if i = 1 ∧ b0 = 1 then .ok .self
    else do
      let k ← subU (8 * i) 7
      let j ← subU i 1
      let top ← rd bytes j
      .ok (.mult (k + log2Byte top))

/-- `G1Mul::mul`, blst-from-scratch/src/types/g1.rs:84-115. `P` is in the prime order group. -/
def g1Mul {G : Type} [AddCommGroup G] (P : G) (b : Fr) : Res G := do
  let c ← g1MulCall (scalarBytes b)
  match c with
  | .identity => .ok 0
  | .self => .ok P
  | .mult nbits => .ok (p1Mult P (scalarBytes b) nbits)

end Kzg
