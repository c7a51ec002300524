import Verif.Model.Zk.Limbs
/-!
# The bits of a byte string
-/

namespace Kzg.Zk

/-- The bits of bytes, most significant bit of the last byte first: the iterator
`.iter().rev().flat_map(|byte| (0..8).rev().map(move |i| Choice::from((byte >> i) & 1u8)))` of
zkcrypto/src/curve/pairings.rs:496-500 and zkcrypto/src/curve/g2.rs:1002-1005. -/
def bitsOf (bytes : List Nat) : List Bool :=
  bytes.reverse.flatMap fun byte => (List.range 8).reverse.map fun i => decide (shr byte i &&& 1 = 1)

end Kzg.Zk
