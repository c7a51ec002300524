import Verif.Model.Ckzg.Ffi
import Mathlib.Data.Nat.Digits.Defs
/-!
# The calls of mcl-kzg into the mcl library (mcl-kzg/kzg/src/init_def.rs, mcl_methods.rs, data_types)

The library is not in the repository; `CType` holds arbitrary functions for one of its types. A function that fills a
buffer is told how long the buffer is; it yields the number it returns and the bytes it wrote from the start of the
buffer. `ub` stands for a write outside of a buffer, for a vector that claims bytes nobody wrote, and for a string that is not
text. Functions that store their result through a pointer are given what was there before. Outcomes and buffers are those of
`Kzg.Ckzg`.
-/

namespace Kzg.Mcl.Ffi
open Kzg
open Kzg.Ckzg (Out ffi)

/-- The functions of the library for one type, as declared in mcl-kzg/kzg/src/data_types/fr.rs:13-41 (and alike in fp.rs,
fp2.rs, g1.rs, g2.rs, gt.rs), as far as the macros of init_def.rs use them. `zeroed` is the value whose words are all zero, the
derived `Default`. `dbl` and `mulFr` belong to the groups. -/
structure CType (T F : Type) where
  zeroed : T
  isEqual : T → T → Int
  isZero : T → Int
  isValid : T → Int
  isOne : T → Int
  isOdd : T → Int
  isNegative : T → Int
  serialize : Nat → T → Nat × List Nat
  deserialize : T → List Nat → T × Nat
  setStr : T → List Nat → Int → T × Int
  getStr : Nat → T → Int → Nat × List Nat
  setInt : T → Int → T
  setLittleEndian : T → List Nat → T × Int
  setLittleEndianMod : T → List Nat → T × Int
  setHashOf : T → List Nat → T × Int
  squareRoot : T → T → T × Int
  add : T → T → T → T
  sub : T → T → T → T
  neg : T → T → T
  mul : T → T → T → T
  div : T → T → T → T
  inv : T → T → T
  sqr : T → T → T
  dbl : T → T → T
  mulFr : T → T → F → T
  normalize : T → T → T

section
variable {T F : Type} (L : CType T F)

/-! ### `common_impl`, `is_valid_impl`, mcl-kzg/kzg/src/init_def.rs:1-32 -/

/-- `eq`, mcl-kzg/kzg/src/init_def.rs:4-6. -/
def eq (x y : T) : Bool := L.isEqual x y == 1

/-- `zero`, mcl-kzg/kzg/src/init_def.rs:9-11. -/
def zero : T := L.zeroed

/-- `clear`, mcl-kzg/kzg/src/init_def.rs:12-14. -/
def clear (_x : T) : T := zero L

/-- `is_zero`, mcl-kzg/kzg/src/init_def.rs:15-17. -/
def isZero (x : T) : Bool := L.isZero x == 1

/-- `is_valid`, mcl-kzg/kzg/src/init_def.rs:27-29. -/
def isValid (x : T) : Bool := L.isValid x == 1

/-! ### `serialize_impl`, mcl-kzg/kzg/src/init_def.rs:34-63 -/

/-- `deserialize`, mcl-kzg/kzg/src/init_def.rs:40-42: the new value and whether the number returned is positive. -/
def deserialize (x : T) (buf : List Nat) : T × Bool :=
  let r := L.deserialize x buf
  (r.1, decide (r.2 > 0))

/-- `serialize`, mcl-kzg/kzg/src/init_def.rs:46-60, with the `size` given to the macro. The vector has room for `size` bytes;
after the call it is told to have `n`, which the library must have written. -/
def serialize (size : Nat) (x : T) : Out (List Nat) :=
  let r := L.serialize size x
  ffi [(size, r.2.length)] <|
    if r.1 = 0 then .panic else ffi [(r.2.length, r.1)] (.ok (r.2.take r.1))

/-! ### `str_impl`, mcl-kzg/kzg/src/init_def.rs:65-90 -/

/-- `set_str`, mcl-kzg/kzg/src/init_def.rs:75-77. -/
def setStr (x : T) (s : List Nat) (base : Int) : T × Bool :=
  let r := L.setStr x s base
  (r.1, r.2 == 0)

/-- `from_str`, mcl-kzg/kzg/src/init_def.rs:68-74. -/
def fromStr (s : List Nat) (base : Int) : Option T :=
  let r := setStr L (zero L) s base
  if r.2 then some r.1 else none

/-- The array `buf` after the library wrote `w` to its start. -/
def over (size : Nat) (w : List Nat) : List Nat := w ++ List.replicate (size - w.length) 0

/-- The end of `get_str`: no text is a panic, as is a slice beyond the array; bytes that are not text are undefined behaviour.
The library writes digits and spaces, for which being text means being below 128. -/
def textOf (size : Nat) (r : Nat × List Nat) : Out (List Nat) :=
  ffi [(size, r.2.length)] <|
    if r.1 = 0 then .panic
    else if size < r.1 then .panic
    else if ((over size r.2).take r.1).all (· < 128) then .ok ((over size r.2).take r.1) else .ub

/-- `get_str`, mcl-kzg/kzg/src/init_def.rs:78-88, with the buffer size 1024 given to the macro for every type. -/
def getStr (x : T) (ioMode : Int) : Out (List Nat) := textOf 1024 (L.getStr 1024 x ioMode)

/-! ### `int_impl`, `base_field_impl`, mcl-kzg/kzg/src/init_def.rs:93-138 -/

/-- `set_int`, mcl-kzg/kzg/src/init_def.rs:101-105. -/
def setInt (x : T) (v : Int) : T := L.setInt x v

/-- `from_int`, mcl-kzg/kzg/src/init_def.rs:96-100. -/
def fromInt (v : Int) : T := setInt L (zero L) v

/-- `is_one`, mcl-kzg/kzg/src/init_def.rs:106-108. -/
def isOne (x : T) : Bool := L.isOne x == 1

/-- `set_little_endian`, mcl-kzg/kzg/src/init_def.rs:116-118. -/
def setLittleEndian (x : T) (buf : List Nat) : T × Bool :=
  let r := L.setLittleEndian x buf
  (r.1, r.2 == 0)

/-- `set_little_endian_mod`, mcl-kzg/kzg/src/init_def.rs:119-121. -/
def setLittleEndianMod (x : T) (buf : List Nat) : T × Bool :=
  let r := L.setLittleEndianMod x buf
  (r.1, r.2 == 0)

/-- `set_hash_of`, mcl-kzg/kzg/src/init_def.rs:122-124 (for the groups 250-252). -/
def setHashOf (x : T) (buf : List Nat) : T × Bool :=
  let r := L.setHashOf x buf
  (r.1, r.2 == 0)

/-- `is_odd`, mcl-kzg/kzg/src/init_def.rs:128-130. -/
def isOdd (x : T) : Bool := L.isOdd x == 1

/-- `is_negative`, mcl-kzg/kzg/src/init_def.rs:131-133. -/
def isNegative (x : T) : Bool := L.isNegative x == 1

/-- `square_root`, mcl-kzg/kzg/src/init_def.rs:134-136 (for `Fp2` data_types/fp2.rs:50-52). -/
def squareRoot (y x : T) : T × Bool :=
  let r := L.squareRoot y x
  (r.1, r.2 == 0)

/-! ### `add_op_impl`, `field_mul_op_impl`, `ec_impl`, mcl-kzg/kzg/src/init_def.rs:141-255 -/

/-- `&x + &y`, mcl-kzg/kzg/src/init_def.rs:156-160 (by value for `Fr` kzg10.rs:194-202). -/
def addOp (x y : T) : T := L.add (zero L) x y

/-- `x += &y`, mcl-kzg/kzg/src/init_def.rs:163-169. -/
def addAssign (x y : T) : T :=
  let v := zero L
  let v := L.add v x y
  v

/-- `&x - &y`, mcl-kzg/kzg/src/init_def.rs:173-177 (by value kzg10.rs:67-75, 127-135, 184-192). -/
def subOp (x y : T) : T := L.sub (zero L) x y

/-- `x -= &y`, mcl-kzg/kzg/src/init_def.rs:180-184. -/
def subAssign (x y : T) : T :=
  let v := zero L
  let v := L.sub v x y
  v

/-- `get_neg`, mcl-kzg/kzg/src/kzg10.rs:142-147. -/
def getNeg (x : T) : T := L.neg (zero L) x

/-- `&x * &y`, mcl-kzg/kzg/src/init_def.rs:207-211 (by value kzg10.rs:93-101, 164-172). -/
def mulOp (x y : T) : T := L.mul (zero L) x y

/-- `x *= &y`, mcl-kzg/kzg/src/init_def.rs:214-218. -/
def mulAssign (x y : T) : T :=
  let v := zero L
  let v := L.mul v x y
  v

/-- `&x / &y`, mcl-kzg/kzg/src/init_def.rs:222-226 (by value kzg10.rs:174-182). -/
def divOp (x y : T) : T := L.div (zero L) x y

/-- `x /= &y`, mcl-kzg/kzg/src/init_def.rs:229-233. -/
def divAssign (x y : T) : T :=
  let v := zero L
  let v := L.div v x y
  v

/-- `get_inv`, mcl-kzg/kzg/src/kzg10.rs:85-90 and 149-154, and `inverse`, data_types/fr.rs:65-69. -/
def getInv (x : T) : T := L.inv (zero L) x

/-- `x * &y` with a scalar, mcl-kzg/kzg/src/kzg10.rs:37-65 (three variants) and 117-125. -/
def mulScalar (x : T) (y : F) : T := L.mulFr (zero L) x y

end

/-! ### Sizes and orders, mcl-kzg/kzg/src/mcl_methods.rs -/

/-- The functions of the library that belong to no type, mcl-kzg/kzg/src/mcl_methods.rs:14-19. -/
structure CGlobal where
  init : Int → Int → Int
  frBytes : Nat
  fpBytes : Nat
  curveOrder : Nat → Nat × List Nat
  fieldOrder : Nat → Nat × List Nat

/-- `CurveType`, mcl-kzg/kzg/src/lib.rs:16-21, with its numbers. -/
inductive CurveType where
  | bn254 | bn381 | snark | bls12_381

/-- `curve as c_int`. -/
def CurveType.code : CurveType → Int
  | .bn254 => 0
  | .bn381 => 1
  | .snark => 4
  | .bls12_381 => 5

/-- `init`, mcl-kzg/kzg/src/mcl_methods.rs:30-32, with `MCLBN_COMPILED_TIME_VAR`, lib.rs:23-26. -/
def init (G : CGlobal) (c : CurveType) : Bool := G.init c.code (4 * 10 + 6) == 0

/-- A product of type `u32`. -/
def mulU32 (a b : Nat) : Out Nat := if a * b < 2 ^ 32 then .ok (a * b) else .panic

/-- `get_fr_serialized_size`, mcl-kzg/kzg/src/mcl_methods.rs:34-36, also the size given for `Fr`, data_types/fr.rs:97-102. -/
def frSize (G : CGlobal) : Out Nat := .ok G.frBytes

/-- `get_fp_serialized_size`, mcl-kzg/kzg/src/mcl_methods.rs:38-40, also the size given for `Fp`, data_types/fp.rs:55-60. -/
def fpSize (G : CGlobal) : Out Nat := .ok G.fpBytes

/-- The size given for `Fp2`, mcl-kzg/kzg/src/data_types/fp2.rs:40-45. -/
def fp2Size (G : CGlobal) : Out Nat := mulU32 G.fpBytes 2

/-- `get_g1_serialized_size`, mcl-kzg/kzg/src/mcl_methods.rs:42-44, also the size given for `G1`, data_types/g1.rs:43-48. -/
def g1Size (G : CGlobal) : Out Nat := .ok G.fpBytes

/-- `get_g2_serialized_size`, mcl-kzg/kzg/src/mcl_methods.rs:46-48, also the size given for `G2`, data_types/g2.rs:42-47. -/
def g2Size (G : CGlobal) : Out Nat := mulU32 G.fpBytes 2

/-- `get_gt_serialized_size`, mcl-kzg/kzg/src/mcl_methods.rs:50-52, also the size given for `GT`, data_types/gt.rs:44-49. -/
def gtSize (G : CGlobal) : Out Nat := mulU32 G.fpBytes 12

/-- `get_field_order`, mcl-kzg/kzg/src/mcl_methods.rs:54-56 with init_def.rs:257-269, also `Fp::get_order`, data_types/fp.rs:49-51. -/
def getFieldOrder (G : CGlobal) : Out (List Nat) := textOf 256 (G.fieldOrder 256)

/-- `get_curve_order`, mcl-kzg/kzg/src/mcl_methods.rs:58-60, also `Fr::get_order`, data_types/fr.rs:52-54. -/
def getCurveOrder (G : CGlobal) : Out (List Nat) := textOf 256 (G.curveOrder 256)

/-! ### The text the library writes

mcl-kzg/kzg-bench/src/test.rs:38-39 shows the format: numbers without leading zeros, separated by one space. -/

/-- The digit characters of a number, the highest first. -/
def numText (base n : Nat) : List Nat :=
  if n = 0 then [48]
  else (Nat.digits base n).reverse.map fun d => if d < 10 then 48 + d else 87 + d

/-- Numbers separated by one space. -/
def numsText (base : Nat) : List Nat → List Nat
  | [] => []
  | [n] => numText base n
  | n :: ns => numText base n ++ 32 :: numsText base ns

end Kzg.Mcl.Ffi
