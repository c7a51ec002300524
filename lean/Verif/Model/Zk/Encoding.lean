import Verif.Model.Zk.G1
import Verif.Model.Zk.G2
/-!
# The group traits of zkcrypto (zkcrypto/src/curve/g1.rs:1252-1402 and g2.rs:1257-1406)

The traits `GroupEncoding`, `UncompressedEncoding`, `Curve` and `WnafGroup`. The other functions of the traits are the functions of
the types themselves. `chk` says whether arithmetic is checked for overflow, as in `Verif/Model/Zk/G1.lean`.
-/

namespace Kzg.Zk

namespace G1

/-- `GroupEncoding::to_bytes` of `G1Affine`, zkcrypto/src/curve/g1.rs:1382-1384. -/
def affToBytes (p : Aff) : List Nat := toCompressed p

/-- `GroupEncoding::from_bytes` of `G1Affine`, zkcrypto/src/curve/g1.rs:1374-1376. -/
def affFromBytes (chk : Bool) (bytes : List Nat) : Res (Option Aff) := fromCompressed chk bytes

/-- `GroupEncoding::from_bytes_unchecked` of `G1Affine`, zkcrypto/src/curve/g1.rs:1378-1380. -/
def affFromBytesUnchecked (bytes : List Nat) : Option Aff := fromCompressedUnchecked bytes

/-- `GroupEncoding::to_bytes` of `G1Projective`, zkcrypto/src/curve/g1.rs:1366-1368. -/
def projToBytes (p : Proj) : List Nat := affToBytes (Affine.ofProjective p)

/-- `GroupEncoding::from_bytes` of `G1Projective`, zkcrypto/src/curve/g1.rs:1358-1360. -/
def projFromBytes (chk : Bool) (bytes : List Nat) : Res (Option Proj) := do
  let a ← affFromBytes chk bytes
  .ok (a.map Projective.ofAffine)

/-- `GroupEncoding::from_bytes_unchecked` of `G1Projective`, zkcrypto/src/curve/g1.rs:1362-1364. -/
def projFromBytesUnchecked (bytes : List Nat) : Option Proj := (affFromBytesUnchecked bytes).map Projective.ofAffine

/-- `RECOMMENDATIONS`, zkcrypto/src/curve/g1.rs:1300-1301. -/
def recommendations : List Nat := [1, 3, 7, 20, 43, 120, 273, 563, 1630, 3128, 7933, 62569]

end G1

namespace G2

/-- `GroupEncoding::to_bytes` of `G2Affine`, zkcrypto/src/curve/g2.rs:1386-1388. -/
def affToBytes (p : Aff) : List Nat := toCompressed p

/-- `GroupEncoding::from_bytes` of `G2Affine`, zkcrypto/src/curve/g2.rs:1378-1380. -/
def affFromBytes (bytes : List Nat) : Option Aff := fromCompressed bytes

/-- `GroupEncoding::from_bytes_unchecked` of `G2Affine`, zkcrypto/src/curve/g2.rs:1382-1384. -/
def affFromBytesUnchecked (bytes : List Nat) : Option Aff := fromCompressedUnchecked bytes

/-- `GroupEncoding::to_bytes` of `G2Projective`, zkcrypto/src/curve/g2.rs:1370-1372. -/
def projToBytes (p : Proj) : List Nat := affToBytes (Affine.ofProjective p)

/-- `GroupEncoding::from_bytes` of `G2Projective`, zkcrypto/src/curve/g2.rs:1362-1364. -/
def projFromBytes (bytes : List Nat) : Option Proj := (affFromBytes bytes).map Projective.ofAffine

/-- `GroupEncoding::from_bytes_unchecked` of `G2Projective`, zkcrypto/src/curve/g2.rs:1366-1368. -/
def projFromBytesUnchecked (bytes : List Nat) : Option Proj := (affFromBytesUnchecked bytes).map Projective.ofAffine

/-- `RECOMMENDATIONS`, zkcrypto/src/curve/g2.rs:1305. -/
def recommendations : List Nat := [1, 3, 8, 20, 47, 126, 260, 826, 1501, 4555, 84071]

end G2

/-- The loop of `recommended_wnaf_for_num_scalars`, zkcrypto/src/curve/g1.rs:1303-1310 and g2.rs:1307-1314. -/
def wnafLoop (numScalars : Nat) : List Nat → Nat → Nat
  | [], ret => ret
  | r :: rs, ret => if numScalars > r then wnafLoop numScalars rs (ret + 1) else ret

/-- `recommended_wnaf_for_num_scalars`, zkcrypto/src/curve/g1.rs:1299-1313 and g2.rs:1304-1317. -/
def recommendedWnaf (recommendations : List Nat) (numScalars : Nat) : Nat := wnafLoop numScalars recommendations 4

end Kzg.Zk
