import Verif.Model.KZG
import Verif.Model.Mcl.FFT
/-!
# Helpers of the ckzg wrapper written in Rust (ckzg/src/utils.rs, consts.rs, fftsettings.rs, kzgsettings.rs)

The C library behind the wrapper is not in the repository. Its field and group operations are taken to be those of a
field and of groups, as for blst.
-/

namespace Kzg.Ckzg
open Kzg

/-- `log_2`, ckzg/src/utils.rs:5-10. -/
def log2 (x : Nat) : Nat := if x = 0 then 0 else 64 - leadingZeros x - 1

/-- `is_power_of_2`, ckzg/src/utils.rs:12-14; `n - 1` is checked. -/
def isPowerOf2 (n : Nat) : Res Bool := do
  let m ← subU n 1
  .ok ((n &&& m) == 0)

/-- `next_pow_of_2`, ckzg/src/utils.rs:16-24; the shift is checked. -/
def nextPowOf2 (x : Nat) : Res Nat :=
  if x = 0 then .ok 1
  else do
    if ← isPowerOf2 x then .ok x
    else if log2 x + 1 < 64 then .ok (1 <<< (log2 x + 1)) else .panic

/-- `log_2_byte`, ckzg/src/utils.rs:26-33. -/
def log2Byte (b : Nat) : Nat :=
  let r := (if b > 0xF then 1 else 0) <<< 2
  let b := b >>> r
  let shift := (if b > 0x3 then 1 else 0) <<< 1
  let b := b >>> (shift + 1)
  r ||| (shift ||| b)

/-- The conversion `scale as u32` of the argument of `FFTSettings::new`, ckzg/src/fftsettings.rs:45-53. -/
def scaleArg (scale : Nat) : Nat := scale % 2 ^ 32

section Roots
variable {F : Type} [Field F] [DecidableEq F]

/-- The loop of `expand_root_of_unity`, ckzg/src/consts.rs:84-89, on the reversed vector (`last` is the head). The
fuel bounds the iterations; running out of it is proved unreachable. -/
def expandLoop (root : F) (width : Nat) : (fuel : Nat) → List F → Res (List F)
  | 0, _ => .panic
  | fuel + 1, rev =>
    match rev with
    | [] => .panic
    | last :: _ =>
      if last = 1 then .ok rev.reverse
      else if rev.length > width then .err "Root of unity multiplied for too long"
      else expandLoop root width fuel ((last * root) :: rev)

/-- `expand_root_of_unity`, ckzg/src/consts.rs:82-91. -/
def expandRoot (root : F) (width : Nat) : Res (List F) := expandLoop root width (width + 2) [root, 1]

/-- The first `fuel` tests of the loop of `expand_root_of_unity_mcl`, ckzg/src/consts.rs:96-100; `none` if it has not
stopped by then. -/
def expandMclLoop (root : F) : (fuel : Nat) → List F → Option (List F)
  | 0, _ => none
  | fuel + 1, rev =>
    match rev with
    | [] => none
    | last :: _ => if last = 1 then some rev.reverse else expandMclLoop root fuel ((last * root) :: rev)

/-- `expand_root_of_unity_mcl`, ckzg/src/consts.rs:93-102, with a budget for its unbounded loop. -/
def expandRootMcl (root : F) (fuel : Nat) : Option (List F) := expandMclLoop root fuel [root, 1]

end Roots

section Groups
variable {F G1 G2 : Type} [Field F] [AddCommGroup G1] [Module F G1] [AddCommGroup G2] [Module F G2]

/-- `BlstP1::add_or_dbl`, ckzg/src/finite.rs:223-229: returns the sum; the receiver is not written. -/
def addOrDbl (self b : G1) : G1 := b + self

/-- `make_data`, ckzg/src/fftsettings.rs:205-215. The loop calls `add_or_dbl` on an entry and drops what it
returns. -/
def makeData (g : G1) (n : Nat) : Res (List G1) :=
  let out := List.replicate n g
  if n = 0 then .ok []
  else forRange 1 n out fun i out => do
    let a ← rd out i
    let k ← subU i 1
    let b ← rd out k
    let _ := addOrDbl a b
    .ok out

/-- The loop of `generate_trusted_setup`, ckzg/src/kzgsettings.rs:136-142. -/
def setupLoop (g1 : G1) (g2 : G2) (s : F) : (n : Nat) → F → List G1 × List G2 → List G1 × List G2
  | 0, _, acc => acc
  | n + 1, sPow, (s1, s2) => setupLoop g1 g2 s n (sPow * s) (s1 ++ [sPow • g1], s2 ++ [sPow • g2])

end Groups

/-- `generate_trusted_setup`, ckzg/src/kzgsettings.rs:123-145; `fr_from_scalar` (FFI) is taken as in
`Kzg.frFromScalar`. -/
def generateTrustedSetup {G1 G2 : Type} [AddCommGroup G1] [Module Fr G1] [AddCommGroup G2] [Module Fr G2]
    (g1 : G1) (g2 : G2) (n : Nat) (secret : List Nat) : List G1 × List G2 :=
  setupLoop g1 g2 (frFromScalar secret) n 1 ([], [])

end Kzg.Ckzg
