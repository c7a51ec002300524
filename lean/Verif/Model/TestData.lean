import Verif.Model.Zk.Kzg
import Verif.Model.Mcl.Ffi
/-!
# Multiples of the generator for the tests of transforms, and points of mcl-kzg from words

Points of blst-from-scratch and mcl-kzg are group elements, as in `Model/KZG.lean`; those of zkcrypto are coordinates.
-/

namespace Kzg.TestData
open Kzg Kzg.Res

/-- `make_data`, blst-from-scratch/tests/fft_g1.rs:11-22. -/
def blst {M : Type} [AddCommGroup M] (g : M) (n : Nat) : Res (List M) :=
  if n = 0 then .ok []
  else do
    let result ← wr (List.replicate n 0) 0 g
    forRange 1 n result fun i result => do
      let j ← subU i 1
      let p ← rd result j
      wr result i (p + g)

/-- `make_data`, zkcrypto/tests/fft_g1.rs:11-21; `G1_GENERATOR` is `generatorProj` (C133). `add_or_dbl` is
zkcrypto/src/kzg_types.rs:130-140. -/
def zk (chk : Bool) (n : Nat) : Res (List Zk.G1.Proj) :=
  if n = 0 then .ok []
  else do
    let result ← wr (List.replicate n Zk.Projective.identity) 0 Zk.G1.generatorProj
    forRange 1 n result fun i result => do
      let j ← subU i 1
      let p ← rd result j
      wr result i ((Zk.Top.g1Ops chk).addOrDbl p Zk.G1.generatorProj)

/-- `make_data`, mcl-kzg/kzg/src/fk20_fft.rs:93-104; `last().unwrap()` panics on an empty list. -/
def mcl {M : Type} [AddCommGroup M] (g : M) (n : Nat) : Res (List M) :=
  if n = 0 then .ok []
  else forRange 1 n [g] fun _ data =>
    match data.getLast? with
    | some p => .ok (data ++ [p + g])
    | none => .panic

/-- `arr64_6_to_g1_sum`, mcl-kzg/kzg/src/utilities.rs:47-49: the eight words of a `U512`. -/
def arr64ToSum (u : List Nat) : Res (List Nat) := do
  let a ← rd u 0
  let b ← rd u 1
  let c ← rd u 2
  let d ← rd u 3
  let e ← rd u 4
  let f ← rd u 5
  .ok [a, b, c, d, e, f, 0, 0]

/-- `U512::to_string` of the crate primitive-types: the decimal digits, as bytes. -/
def decimal (n : Nat) : List Nat := if n = 0 then [48] else (Nat.digits 10 n).reverse.map (· + 48)

/-- `G1::from_arr_64`, mcl-kzg/kzg/src/data_types/g1.rs:60-66: the three coordinates; what `set_str` answers is dropped. -/
def fromArr64 {T F : Type} (L : Mcl.Ffi.CType T F) (u : List (List Nat)) : Res (T × T × T) := do
  let a ← rd u 0
  let a ← arr64ToSum a
  let x := (Mcl.Ffi.setStr L (Mcl.Ffi.zero L) (decimal (wordsVal a)) 10).1
  let b ← rd u 1
  let b ← arr64ToSum b
  let y := (Mcl.Ffi.setStr L (Mcl.Ffi.zero L) (decimal (wordsVal b)) 10).1
  let c ← rd u 2
  let c ← arr64ToSum c
  let z := (Mcl.Ffi.setStr L (Mcl.Ffi.zero L) (decimal (wordsVal c)) 10).1
  .ok (x, y, z)

end Kzg.TestData
