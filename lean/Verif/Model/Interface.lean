import Verif.Model.FrOps
import Verif.Model.Ark.FFT
import Verif.Model.Mcl.Kzg
import Verif.Model.Zk.Convert
/-!
# The field element interface of the backends (`trait Fr`, kzg/src/lib.rs:1-43)

One record of functions for each backend, in the order of the trait. Every function answers in `Res`, since a
`todo!()` or an `unwrap` can stand behind any of them. `rand` is left out: it has no specified value. The words of
`[u64; 4]` are a list, the lowest first.

The elements of zkcrypto are the four words the Rust type holds. Those of blst-from-scratch, Arkworks and
mcl-kzg are residues: their arithmetic is done by the libraries blst, ark-ff and mcl (trusted base). The
elements of ckzg are whatever the C library makes of them.
-/

namespace Kzg.Iface

/-- `trait Fr`, kzg/src/lib.rs:1-43. -/
structure FrTrait (E : Type) where
  default : Res E
  null : Res E
  zero : Res E
  one : Res E
  fromU64Arr : List Nat → Res E
  fromU64 : Nat → Res E
  toU64Arr : E → Res (List Nat)
  isOne : E → Res Bool
  isZero : E → Res Bool
  isNull : E → Res Bool
  sqr : E → Res E
  mul : E → E → Res E
  add : E → E → Res E
  sub : E → E → Res E
  euclInverse : E → Res E
  negate : E → Res E
  inverse : E → Res E
  pow : E → Nat → Res E
  div : E → E → Res E
  equals : E → E → Res Bool

/-! ### blst-from-scratch -/

/-- `blst_uint64_from_fr` (FFI, trusted): the four words of the canonical integer. -/
def uint64FromFr (x : Fr) : List Nat := (List.range 4).map fun i => x.val / (2 ^ 64) ^ i % 2 ^ 64

/-- The comparison of four words that `is_one`, `is_zero` and `equals` spell out,
blst-from-scratch/src/types/fr.rs:70, 79 and 185. -/
def wordsEq (a b : List Nat) : Bool :=
  a.getD 0 0 == b.getD 0 0 && a.getD 1 0 == b.getD 1 0 && a.getD 2 0 == b.getD 2 0 && a.getD 3 0 == b.getD 3 0

/-- `equals`, blst-from-scratch/src/types/fr.rs:176-186. -/
def blstEquals (a b : Fr) : Bool := wordsEq (uint64FromFr a) (uint64FromFr b)

/-- `impl Fr for FsFr`, blst-from-scratch/src/types/fr.rs:10-187. `blst_fr_from_uint64` reduces every four words
(FFI, trusted); `blst_fr_inverse` and `blst_fr_eucl_inverse` give zero for zero (FFI, trusted), as the inverse
of Mathlib does. -/
def blst : FrTrait Fr where
  default := .ok 0
  null := .ok (frFromWords [2 ^ 64 - 1, 2 ^ 64 - 1, 2 ^ 64 - 1, 2 ^ 64 - 1])
  zero := .ok (frFromWords [0, 0, 0, 0])
  one := .ok (frFromWords [1, 0, 0, 0])
  fromU64Arr u := .ok (frFromWords u)
  fromU64 v := .ok (frFromWords [v, 0, 0, 0])
  toU64Arr x := .ok (uint64FromFr x)
  isOne x := .ok (wordsEq (uint64FromFr x) [1, 0, 0, 0])
  isZero x := .ok (wordsEq (uint64FromFr x) [0, 0, 0, 0])
  isNull x := .ok (blstEquals x (frFromWords [2 ^ 64 - 1, 2 ^ 64 - 1, 2 ^ 64 - 1, 2 ^ 64 - 1]))
  sqr x := .ok (x * x)
  mul x y := .ok (x * y)
  add x y := .ok (x + y)
  sub x y := .ok (x - y)
  euclInverse x := .ok x⁻¹
  negate x := .ok (-x)
  inverse x := .ok x⁻¹
  pow x n := .ok (Kzg.frPow x n)
  div x y := .ok (x * y⁻¹)
  equals x y := .ok (blstEquals x y)

/-! ### zkcrypto -/

open Kzg.Zk (Scalar)

/-- The loop of `pow`, zkcrypto/src/zkfr.rs:127-136. -/
def zkPowLoop (out tmp : Scalar) (n : Nat) : Scalar :=
  let out := if n &&& 1 = 1 then Scalar.mul out tmp else out
  if _h : n >>> 1 = 0 then out
  else zkPowLoop out (Scalar.square tmp) (n >>> 1)
termination_by n
decreasing_by
  simp only [Nat.shiftRight_eq_div_pow, Nat.pow_one] at *; omega

/-- `invert().unwrap()`, zkcrypto/src/zkfr.rs:117 and 152. -/
def zkInverse (x : Scalar) : Res Scalar :=
  match Scalar.invert x with
  | some y => .ok y
  | none => .panic

/-- `div`, zkcrypto/src/zkfr.rs:155-162, and `fr_div`, 171-178. -/
def zkDiv (x y : Scalar) : Res Scalar :=
  if Scalar.ctEq y Scalar.zero then .ok Scalar.zero
  else do
    let t ← zkInverse y
    .ok (Scalar.mul x t)

/-- `impl Fr for blsScalar`, zkcrypto/src/zkfr.rs:15-169. -/
def zk : FrTrait Scalar where
  default := .ok Scalar.zero
  null := .ok Scalar.null
  zero := .ok Scalar.zero
  one := .ok Scalar.one
  fromU64Arr u := .ok (Zk.fromU64Arr ⟨u.getD 0 0, u.getD 1 0, u.getD 2 0, u.getD 3 0⟩)
  fromU64 v := .ok (Scalar.ofU64 v)
  toU64Arr x := let w := Zk.toU64Arr x; .ok [w.l0, w.l1, w.l2, w.l3]
  isOne x := .ok (Scalar.ctEq x Scalar.one)
  isZero x := .ok (Scalar.ctEq x Scalar.zero)
  isNull x := .ok (Scalar.ctEq x Scalar.null)
  sqr x := .ok (Scalar.square x)
  mul x y := .ok (Scalar.mul x y)
  add x y := .ok (Scalar.add x y)
  sub x y := .ok (Scalar.sub x y)
  euclInverse := zkInverse
  negate x := .ok (Scalar.neg x)
  inverse := zkInverse
  pow x n := .ok (zkPowLoop Scalar.one x n)
  div := zkDiv
  equals x y := .ok (Scalar.ctEq x y)

/-! ### Arkworks -/

/-- `impl Fr for FsFr`, Arkworks/src/kzg_types.rs:150-255. The power takes `n as u64`. -/
def ark : FrTrait Fr where
  default := .ok 0
  null := .ok Ark.frNull
  zero := .ok 0
  one := .ok 1
  fromU64Arr u := .ok (Ark.frFromU64Arr u)
  fromU64 v := .ok (v : Fr)
  toU64Arr x := .ok (Ark.frToU64Arr x)
  isOne x := .ok (decide (x = 1))
  isZero x := .ok (decide (x = 0))
  isNull x := .ok (Ark.frIsNull x)
  sqr x := .ok (x * x)
  mul x y := .ok (x * y)
  add x y := .ok (x + y)
  sub x y := .ok (x - y)
  euclInverse := Ark.frEuclInverse
  negate x := .ok (-x)
  inverse := Ark.frInv
  pow x n := .ok (x ^ n)
  div := Ark.frDiv
  equals x y := .ok (decide (x = y))

/-! ### mcl-kzg -/

/-- `Fr::from_u64_arr` on a list, mcl-kzg/kzg/src/data_types/fr.rs:71-74. -/
def mclFromU64Arr (u : List Nat) : Res Fr := Mcl.frFromU64Arr (u.getD 0 0, u.getD 1 0, u.getD 2 0, u.getD 3 0)

/-- `null`, mcl-kzg/kzg/src/trait_implementations/fr.rs:9-11. -/
def mclNull : Res Fr := mclFromU64Arr [2 ^ 64 - 1, 2 ^ 64 - 1, 2 ^ 64 - 1, (2 ^ 64 - 1) / 3]

/-- `impl CommonFr for Fr`, mcl-kzg/kzg/src/trait_implementations/fr.rs:4-105. `to_u64_arr`
(mcl-kzg/kzg/src/data_types/fr.rs:85-93) goes through the decimal string and `U256`. -/
def mcl [Mcl.Lib Fr] : FrTrait Fr where
  default := .ok 0
  null := mclNull
  zero := .ok 0
  one := .ok 1
  fromU64Arr := mclFromU64Arr
  fromU64 v := mclFromU64Arr [v, 0, 0, 0]
  toU64Arr x := .ok ((List.range 4).map fun i => x.val / (2 ^ 64) ^ i % 2 ^ 64)
  isOne x := .ok (decide (x = 1))
  isZero x := .ok (decide (x = 0))
  isNull x := do
    let t ← mclNull
    .ok (decide (x = t))
  sqr x := .ok (x * x)
  mul x y := .ok (x * y)
  add x y := .ok (x + y)
  sub x y := .ok (x - y)
  euclInverse _ := .panic
  negate x := .ok (-x)
  inverse := Mcl.frInv
  pow := Mcl.frPow
  div := Mcl.frDiv
  equals x y := .ok (decide (x = y))

/-! ### ckzg -/

/-- The functions of the C library behind the field elements of ckzg, ckzg/src/finite.rs:5-20. -/
structure CFr (E : Type) where
  zeroed : E
  ones : E
  fromUint64 : Nat → E
  fromUint64s : List Nat → E
  toUint64s : E → List Nat
  isZero : E → Bool
  isNull : E → Bool
  isOne : E → Bool
  equal : E → E → Bool
  negate : E → E
  pow : E → Nat → E
  div : E → E → E
  add : E → E → E
  sqr : E → E
  mul : E → E → E

/-- `impl Fr for BlstFr`, ckzg/src/finite.rs:46-185. `sub`, `eucl_inverse` and `inverse` are `todo!()`. -/
def ckzg {E : Type} (C : CFr E) : FrTrait E where
  default := .ok C.zeroed
  null := .ok C.ones
  zero := .ok (C.fromUint64 0)
  one := .ok (C.fromUint64 1)
  fromU64Arr u := .ok (C.fromUint64s u)
  fromU64 v := .ok (C.fromUint64 v)
  toU64Arr x := .ok (C.toUint64s x)
  isOne x := .ok (C.isOne x)
  isZero x := .ok (C.isZero x)
  isNull x := .ok (C.isNull x)
  sqr x := .ok (C.sqr x)
  mul x y := .ok (C.mul x y)
  add x y := .ok (C.add x y)
  sub _ _ := .panic
  euclInverse _ := .panic
  negate x := .ok (C.negate x)
  inverse _ := .panic
  pow x n := .ok (C.pow x n)
  div x y := .ok (C.div x y)
  equals x y := .ok (C.equal x y)

end Kzg.Iface
