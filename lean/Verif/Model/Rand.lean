import Verif.Model.GroupInterface
/-!
# Random elements through the traits (`Fr::rand`, `G1::rand`, kzg/src/lib.rs:13 and 53)

The words and bytes that the random number generator gives are arguments. mcl-kzg and Arkworks ask their libraries for a
random element of the field; Arkworks also for a random point.
-/

namespace Kzg.Iface
open Kzg.Zk

/-- `Fr::rand` of blst-from-scratch, blst-from-scratch/src/types/fr.rs:27-40: four random words, reduced. -/
def blstFrRand (u : List Nat) : Fr := frFromWords u

/-- `Fr::rand` of zkcrypto, zkcrypto/src/zkfr.rs:36-38: four random words, through `from_raw`. -/
def zkFrRand (u : List Nat) : Scalar := Scalar.fromRaw (u.getD 0 0) (u.getD 1 0) (u.getD 2 0) (u.getD 3 0)

/-- `G1::rand` of blst-from-scratch, blst-from-scratch/src/types/g1.rs:36-39. -/
def blstG1Rand {G : Type} [AddCommGroup G] (g : G) (u : List Nat) : Res G := g1Mul g (blstFrRand u)

/-- `G1::rand` of zkcrypto, zkcrypto/src/kzg_types.rs:125-128; `chk` says whether overflow checks are on. -/
def zkG1Rand (chk : Bool) (u : List Nat) : Res G1.Proj := (zkG1 chk).mul G1.generatorProj (zkFrRand u)

/-- `G1::random`, mcl-kzg/kzg/src/kzg10.rs:31-34, with the random field element `x`. -/
def mclG1Random {G : Type} [AddCommGroup G] [Module Fr G] (g : G) (x : Fr) : G := x • g

/-- `Polynomial::random`, mcl-kzg/kzg/src/kzg10.rs:390-394: `order` random coefficients, here the first of the stream
`xs`. -/
def mclPolyRandom (xs : Nat → Fr) (order : Nat) : List Fr := (List.range order).map xs

end Kzg.Iface
