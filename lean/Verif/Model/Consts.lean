import Verif.Model.Zk.Convert
import Verif.Model.Zk.Tower
/-!
# The generators and identities of the backends, as they stand in the source

Words are those of the source. The points of blst, ckzg, Arkworks and mcl are triples in Jacobian coordinates, those
of zkcrypto in homogeneous coordinates.
-/

namespace Kzg.Consts
open Kzg.Zk

/-- `struct blst_p2` of the blst library, and `G2` of mcl (mcl-kzg/kzg/src/data_types/g2.rs:32-38). -/
structure BlstP2 where
  x : Fp2 Fp
  y : Fp2 Fp
  z : Fp2 Fp
deriving DecidableEq

/-- `struct G2Projective`, zkcrypto/src/curve/g2.rs:682-686. -/
structure ZkP2 where
  x : Fp2 Fp
  y : Fp2 Fp
  z : Fp2 Fp
deriving DecidableEq

/-- `G1_GENERATOR`, blst-from-scratch/src/consts.rs:52-85. -/
def blstG1Generator : BlstP1 :=
  ⟨⟨0x5cb38790fd530c16, 0x7817fc679976fff5, 0x154f95c7143ba1c1, 0xf0ae6acdf3d0e747, 0xedce6ecc21dbf440, 0x120177419e0bfb75⟩,
    ⟨0xbaac93d50ce72271, 0x8c22631a7918fd8e, 0xdd595f13570725ce, 0x51ac582950405194, 0x0e1c8c3fad0059c0, 0x0bbc3efc5008a26a⟩,
    ⟨0x760900000002fffd, 0xebf4000bc40c0002, 0x5f48985753c758ba, 0x77ce585370525745, 0x5c071a97a256ec6d, 0x15f65ec3fa80e493⟩⟩

/-- `G1_NEGATIVE_GENERATOR`, blst-from-scratch/src/consts.rs:87-120. -/
def blstG1NegativeGenerator : BlstP1 :=
  ⟨⟨0x5cb38790fd530c16, 0x7817fc679976fff5, 0x154f95c7143ba1c1, 0xf0ae6acdf3d0e747, 0xedce6ecc21dbf440, 0x120177419e0bfb75⟩,
    ⟨0xff526c2af318883a, 0x92899ce4383b0270, 0x89d7738d9fa9d055, 0x12caf35ba344c12a, 0x3cff1b76964b5317, 0x0e44d2ede9774430⟩,
    ⟨0x760900000002fffd, 0xebf4000bc40c0002, 0x5f48985753c758ba, 0x77ce585370525745, 0x5c071a97a256ec6d, 0x15f65ec3fa80e493⟩⟩

/-- `G2_GENERATOR`, blst-from-scratch/src/consts.rs:122-197. -/
def blstG2Generator : BlstP2 :=
  ⟨⟨⟨0xf5f28fa202940a10, 0xb3f5fb2687b4961a, 0xa1a893b53e2ae580, 0x9894999d1a3caee9, 0x6f67b7631863366b, 0x058191924350bcd7⟩,
      ⟨0xa5a9c0759e23f606, 0xaaa0c59dbccd60c3, 0x3bb17e18e2867806, 0x1b1ab6cc8541b367, 0xc2b6ed0ef2158547, 0x11922a097360edf3⟩⟩,
    ⟨⟨0x4c730af860494c4a, 0x597cfa1f5e369c5a, 0xe7e6856caa0a635a, 0xbbefb5e96e0d495f, 0x07d3a975f0ef25a2, 0x0083fd8e7e80dae5⟩,
      ⟨0xadc0fc92df64b05d, 0x18aa270a2b1461dc, 0x86adac6a3be4eba0, 0x79495c4ec93da33a, 0xe7175850a43ccaed, 0x0b2bc2a163de1bf2⟩⟩,
    ⟨⟨0x760900000002fffd, 0xebf4000bc40c0002, 0x5f48985753c758ba, 0x77ce585370525745, 0x5c071a97a256ec6d, 0x15f65ec3fa80e493⟩,
      ⟨0x0000000000000000, 0x0000000000000000, 0x0000000000000000, 0x0000000000000000, 0x0000000000000000, 0x0000000000000000⟩⟩⟩

/-- `G2_NEGATIVE_GENERATOR`, blst-from-scratch/src/consts.rs:199-274. -/
def blstG2NegativeGenerator : BlstP2 :=
  ⟨⟨⟨0xf5f28fa202940a10, 0xb3f5fb2687b4961a, 0xa1a893b53e2ae580, 0x9894999d1a3caee9, 0x6f67b7631863366b, 0x058191924350bcd7⟩,
      ⟨0xa5a9c0759e23f606, 0xaaa0c59dbccd60c3, 0x3bb17e18e2867806, 0x1b1ab6cc8541b367, 0xc2b6ed0ef2158547, 0x11922a097360edf3⟩⟩,
    ⟨⟨0x6d8bf5079fb65e61, 0xc52f05df531d63a5, 0x7f4a4d344ca692c9, 0xa887959b8577c95f, 0x4347fe40525c8734, 0x197d145bbaff0bb5⟩,
      ⟨0x0c3e036d209afa4e, 0x0601d8f4863f9e23, 0xe0832636bacc0a84, 0xeb2def362a476f84, 0x64044f659f0ee1e9, 0x0ed54f48d5a1caa7⟩⟩,
    ⟨⟨0x760900000002fffd, 0xebf4000bc40c0002, 0x5f48985753c758ba, 0x77ce585370525745, 0x5c071a97a256ec6d, 0x15f65ec3fa80e493⟩,
      ⟨0x0000000000000000, 0x0000000000000000, 0x0000000000000000, 0x0000000000000000, 0x0000000000000000, 0x0000000000000000⟩⟩⟩

/-- `G1_NEGATIVE_GENERATOR`, ckzg/src/consts.rs:104-108. -/
def ckzgG1NegativeGenerator : BlstP1 :=
  ⟨⟨0x5cb38790fd530c16, 0x7817fc679976fff5, 0x154f95c7143ba1c1, 0xf0ae6acdf3d0e747, 0xedce6ecc21dbf440, 0x120177419e0bfb75⟩,
    ⟨0xff526c2af318883a, 0x92899ce4383b0270, 0x89d7738d9fa9d055, 0x12caf35ba344c12a, 0x3cff1b76964b5317, 0x0e44d2ede9774430⟩,
    ⟨0x760900000002fffd, 0xebf4000bc40c0002, 0x5f48985753c758ba, 0x77ce585370525745, 0x5c071a97a256ec6d, 0x15f65ec3fa80e493⟩⟩

/-- `G2_NEGATIVE_GENERATOR`, ckzg/src/consts.rs:110-129. -/
def ckzgG2NegativeGenerator : BlstP2 :=
  ⟨⟨⟨0xf5f28fa202940a10, 0xb3f5fb2687b4961a, 0xa1a893b53e2ae580, 0x9894999d1a3caee9, 0x6f67b7631863366b, 0x058191924350bcd7⟩,
      ⟨0xa5a9c0759e23f606, 0xaaa0c59dbccd60c3, 0x3bb17e18e2867806, 0x1b1ab6cc8541b367, 0xc2b6ed0ef2158547, 0x11922a097360edf3⟩⟩,
    ⟨⟨0x6d8bf5079fb65e61, 0xc52f05df531d63a5, 0x7f4a4d344ca692c9, 0xa887959b8577c95f, 0x4347fe40525c8734, 0x197d145bbaff0bb5⟩,
      ⟨0x0c3e036d209afa4e, 0x0601d8f4863f9e23, 0xe0832636bacc0a84, 0xeb2def362a476f84, 0x64044f659f0ee1e9, 0x0ed54f48d5a1caa7⟩⟩,
    ⟨⟨0x760900000002fffd, 0xebf4000bc40c0002, 0x5f48985753c758ba, 0x77ce585370525745, 0x5c071a97a256ec6d, 0x15f65ec3fa80e493⟩,
      ⟨0x0000000000000000, 0x0000000000000000, 0x0000000000000000, 0x0000000000000000, 0x0000000000000000, 0x0000000000000000⟩⟩⟩

/-- `G1_GENERATOR`, Arkworks/src/fft_g1.rs:17-48. -/
def arkG1Generator : BlstP1 :=
  ⟨⟨0x5cb38790fd530c16, 0x7817fc679976fff5, 0x154f95c7143ba1c1, 0xf0ae6acdf3d0e747, 0xedce6ecc21dbf440, 0x120177419e0bfb75⟩,
    ⟨0xbaac93d50ce72271, 0x8c22631a7918fd8e, 0xdd595f13570725ce, 0x51ac582950405194, 0x0e1c8c3fad0059c0, 0x0bbc3efc5008a26a⟩,
    ⟨0x760900000002fffd, 0xebf4000bc40c0002, 0x5f48985753c758ba, 0x77ce585370525745, 0x5c071a97a256ec6d, 0x15f65ec3fa80e493⟩⟩

/-- `G1_NEGATIVE_GENERATOR`, Arkworks/src/fft_g1.rs:7-14. -/
def arkG1NegativeGenerator : BlstP1 :=
  ⟨⟨0x5cb38790fd530c16, 0x7817fc679976fff5, 0x154f95c7143ba1c1, 0xf0ae6acdf3d0e747, 0xedce6ecc21dbf440, 0x120177419e0bfb75⟩,
    ⟨0xff526c2af318883a, 0x92899ce4383b0270, 0x89d7738d9fa9d055, 0x12caf35ba344c12a, 0x3cff1b76964b5317, 0x0e44d2ede9774430⟩,
    ⟨0x760900000002fffd, 0xebf4000bc40c0002, 0x5f48985753c758ba, 0x77ce585370525745, 0x5c071a97a256ec6d, 0x15f65ec3fa80e493⟩⟩

/-- `G2_GENERATOR`, Arkworks/src/kzg_proofs.rs:549-560. -/
def arkG2Generator : BlstP2 :=
  ⟨⟨⟨0xf5f28fa202940a10, 0xb3f5fb2687b4961a, 0xa1a893b53e2ae580, 0x9894999d1a3caee9, 0x6f67b7631863366b, 0x058191924350bcd7⟩,
      ⟨0xa5a9c0759e23f606, 0xaaa0c59dbccd60c3, 0x3bb17e18e2867806, 0x1b1ab6cc8541b367, 0xc2b6ed0ef2158547, 0x11922a097360edf3⟩⟩,
    ⟨⟨0x4c730af860494c4a, 0x597cfa1f5e369c5a, 0xe7e6856caa0a635a, 0xbbefb5e96e0d495f, 0x07d3a975f0ef25a2, 0x0083fd8e7e80dae5⟩,
      ⟨0xadc0fc92df64b05d, 0x18aa270a2b1461dc, 0x86adac6a3be4eba0, 0x79495c4ec93da33a, 0xe7175850a43ccaed, 0x0b2bc2a163de1bf2⟩⟩,
    ⟨⟨0x760900000002fffd, 0xebf4000bc40c0002, 0x5f48985753c758ba, 0x77ce585370525745, 0x5c071a97a256ec6d, 0x15f65ec3fa80e493⟩,
      ⟨0x0000000000000000, 0x0000000000000000, 0x0000000000000000, 0x0000000000000000, 0x0000000000000000, 0x0000000000000000⟩⟩⟩

/-- `G2_NEGATIVE_GENERATOR`, Arkworks/src/kzg_proofs.rs:562-581. -/
def arkG2NegativeGenerator : BlstP2 :=
  ⟨⟨⟨0xf5f28fa202940a10, 0xb3f5fb2687b4961a, 0xa1a893b53e2ae580, 0x9894999d1a3caee9, 0x6f67b7631863366b, 0x058191924350bcd7⟩,
      ⟨0xa5a9c0759e23f606, 0xaaa0c59dbccd60c3, 0x3bb17e18e2867806, 0x1b1ab6cc8541b367, 0xc2b6ed0ef2158547, 0x11922a097360edf3⟩⟩,
    ⟨⟨0x6d8bf5079fb65e61, 0xc52f05df531d63a5, 0x7f4a4d344ca692c9, 0xa887959b8577c95f, 0x4347fe40525c8734, 0x197d145bbaff0bb5⟩,
      ⟨0x0c3e036d209afa4e, 0x0601d8f4863f9e23, 0xe0832636bacc0a84, 0xeb2def362a476f84, 0x64044f659f0ee1e9, 0x0ed54f48d5a1caa7⟩⟩,
    ⟨⟨0x760900000002fffd, 0xebf4000bc40c0002, 0x5f48985753c758ba, 0x77ce585370525745, 0x5c071a97a256ec6d, 0x15f65ec3fa80e493⟩,
      ⟨0x0000000000000000, 0x0000000000000000, 0x0000000000000000, 0x0000000000000000, 0x0000000000000000, 0x0000000000000000⟩⟩⟩

/-- `G1_GENERATOR`, zkcrypto/src/kzg_types.rs:51-55. -/
def zkG1Generator : ZkP1 :=
  ⟨⟨0x5cb38790fd530c16, 0x7817fc679976fff5, 0x154f95c7143ba1c1, 0xf0ae6acdf3d0e747, 0xedce6ecc21dbf440, 0x120177419e0bfb75⟩,
    ⟨0xbaac93d50ce72271, 0x8c22631a7918fd8e, 0xdd595f13570725ce, 0x51ac582950405194, 0x0e1c8c3fad0059c0, 0x0bbc3efc5008a26a⟩,
    ⟨0x760900000002fffd, 0xebf4000bc40c0002, 0x5f48985753c758ba, 0x77ce585370525745, 0x5c071a97a256ec6d, 0x15f65ec3fa80e493⟩⟩

/-- `G1_NEGATIVE_GENERATOR`, zkcrypto/src/kzg_types.rs:57-61. -/
def zkG1NegativeGenerator : ZkP1 :=
  ⟨⟨0x5cb38790fd530c16, 0x7817fc679976fff5, 0x154f95c7143ba1c1, 0xf0ae6acdf3d0e747, 0xedce6ecc21dbf440, 0x120177419e0bfb75⟩,
    ⟨0xff526c2af318883a, 0x92899ce4383b0270, 0x89d7738d9fa9d055, 0x12caf35ba344c12a, 0x3cff1b76964b5317, 0x0e44d2ede9774430⟩,
    ⟨0x760900000002fffd, 0xebf4000bc40c0002, 0x5f48985753c758ba, 0x77ce585370525745, 0x5c071a97a256ec6d, 0x15f65ec3fa80e493⟩⟩

/-- `G2_GENERATOR`, zkcrypto/src/kzg_types.rs:69-87. -/
def zkG2Generator : ZkP2 :=
  ⟨⟨⟨0xf5f28fa202940a10, 0xb3f5fb2687b4961a, 0xa1a893b53e2ae580, 0x9894999d1a3caee9, 0x6f67b7631863366b, 0x058191924350bcd7⟩,
      ⟨0xa5a9c0759e23f606, 0xaaa0c59dbccd60c3, 0x3bb17e18e2867806, 0x1b1ab6cc8541b367, 0xc2b6ed0ef2158547, 0x11922a097360edf3⟩⟩,
    ⟨⟨0x4c730af860494c4a, 0x597cfa1f5e369c5a, 0xe7e6856caa0a635a, 0xbbefb5e96e0d495f, 0x07d3a975f0ef25a2, 0x0083fd8e7e80dae5⟩,
      ⟨0xadc0fc92df64b05d, 0x18aa270a2b1461dc, 0x86adac6a3be4eba0, 0x79495c4ec93da33a, 0xe7175850a43ccaed, 0x0b2bc2a163de1bf2⟩⟩,
    ⟨⟨0x760900000002fffd, 0xebf4000bc40c0002, 0x5f48985753c758ba, 0x77ce585370525745, 0x5c071a97a256ec6d, 0x15f65ec3fa80e493⟩,
      ⟨0x0000000000000000, 0x0000000000000000, 0x0000000000000000, 0x0000000000000000, 0x0000000000000000, 0x0000000000000000⟩⟩⟩

/-- `G2_NEGATIVE_GENERATOR`, zkcrypto/src/kzg_types.rs:89-104. -/
def zkG2NegativeGenerator : ZkP2 :=
  ⟨⟨⟨0xf5f28fa202940a10, 0xb3f5fb2687b4961a, 0xa1a893b53e2ae580, 0x9894999d1a3caee9, 0x6f67b7631863366b, 0x058191924350bcd7⟩,
      ⟨0xa5a9c0759e23f606, 0xaaa0c59dbccd60c3, 0x3bb17e18e2867806, 0x1b1ab6cc8541b367, 0xc2b6ed0ef2158547, 0x11922a097360edf3⟩⟩,
    ⟨⟨0x6d8bf5079fb65e61, 0xc52f05df531d63a5, 0x7f4a4d344ca692c9, 0xa887959b8577c95f, 0x4347fe40525c8734, 0x197d145bbaff0bb5⟩,
      ⟨0x0c3e036d209afa4e, 0x0601d8f4863f9e23, 0xe0832636bacc0a84, 0xeb2def362a476f84, 0x64044f659f0ee1e9, 0x0ed54f48d5a1caa7⟩⟩,
    ⟨⟨0x760900000002fffd, 0xebf4000bc40c0002, 0x5f48985753c758ba, 0x77ce585370525745, 0x5c071a97a256ec6d, 0x15f65ec3fa80e493⟩,
      ⟨0x0000000000000000, 0x0000000000000000, 0x0000000000000000, 0x0000000000000000, 0x0000000000000000, 0x0000000000000000⟩⟩⟩

/-- `G1_GENERATOR`, mcl-kzg/kzg/src/fk20_fft.rs:75-79. -/
def mclG1Generator : BlstP1 :=
  ⟨⟨0x5cb38790fd530c16, 0x7817fc679976fff5, 0x154f95c7143ba1c1, 0xf0ae6acdf3d0e747, 0xedce6ecc21dbf440, 0x120177419e0bfb75⟩,
    ⟨0xbaac93d50ce72271, 0x8c22631a7918fd8e, 0xdd595f13570725ce, 0x51ac582950405194, 0x0e1c8c3fad0059c0, 0x0bbc3efc5008a26a⟩,
    ⟨0x760900000002fffd, 0xebf4000bc40c0002, 0x5f48985753c758ba, 0x77ce585370525745, 0x5c071a97a256ec6d, 0x15f65ec3fa80e493⟩⟩

/-- `G1_NEGATIVE_GENERATOR`, mcl-kzg/kzg/src/fk20_fft.rs:81-85. -/
def mclG1NegativeGenerator : BlstP1 :=
  ⟨⟨0x5cb38790fd530c16, 0x7817fc679976fff5, 0x154f95c7143ba1c1, 0xf0ae6acdf3d0e747, 0xedce6ecc21dbf440, 0x120177419e0bfb75⟩,
    ⟨0xff526c2af318883a, 0x92899ce4383b0270, 0x89d7738d9fa9d055, 0x12caf35ba344c12a, 0x3cff1b76964b5317, 0x0e44d2ede9774430⟩,
    ⟨0x760900000002fffd, 0xebf4000bc40c0002, 0x5f48985753c758ba, 0x77ce585370525745, 0x5c071a97a256ec6d, 0x15f65ec3fa80e493⟩⟩

/-- `G2_NEGATIVE_GENERATOR`, mcl-kzg/kzg/src/data_types/g2.rs:59-81. -/
def mclG2NegativeGenerator : BlstP2 :=
  ⟨⟨⟨0xf5f28fa202940a10, 0xb3f5fb2687b4961a, 0xa1a893b53e2ae580, 0x9894999d1a3caee9, 0x6f67b7631863366b, 0x058191924350bcd7⟩,
      ⟨0xa5a9c0759e23f606, 0xaaa0c59dbccd60c3, 0x3bb17e18e2867806, 0x1b1ab6cc8541b367, 0xc2b6ed0ef2158547, 0x11922a097360edf3⟩⟩,
    ⟨⟨0x6d8bf5079fb65e61, 0xc52f05df531d63a5, 0x7f4a4d344ca692c9, 0xa887959b8577c95f, 0x4347fe40525c8734, 0x197d145bbaff0bb5⟩,
      ⟨0x0c3e036d209afa4e, 0x0601d8f4863f9e23, 0xe0832636bacc0a84, 0xeb2def362a476f84, 0x64044f659f0ee1e9, 0x0ed54f48d5a1caa7⟩⟩,
    ⟨⟨0x760900000002fffd, 0xebf4000bc40c0002, 0x5f48985753c758ba, 0x77ce585370525745, 0x5c071a97a256ec6d, 0x15f65ec3fa80e493⟩,
      ⟨0x0000000000000000, 0x0000000000000000, 0x0000000000000000, 0x0000000000000000, 0x0000000000000000, 0x0000000000000000⟩⟩⟩

/-- `G1_IDENTITY`, blst-from-scratch/src/consts.rs:6-10, Arkworks/src/fft_g1.rs:60-70 and
mcl-kzg/kzg/src/data_types/g1.rs:68-78; `default` and `identity`, ckzg/src/finite.rs:188-202. -/
def g1Identity : BlstP1 := ⟨⟨0, 0, 0, 0, 0, 0⟩, ⟨0, 0, 0, 0, 0, 0⟩, ⟨0, 0, 0, 0, 0, 0⟩⟩

/-- `G1_IDENTITY`, zkcrypto/src/kzg_types.rs:63-66. -/
def zkG1Identity : ZkP1 := ⟨Fp.zero, Fp.one, Fp.zero⟩

/-- `G1::gen`, mcl-kzg/kzg/src/kzg10.rs:7-8 and 15-21: the integers of the coordinates. `set_str` reads a decimal
number; the last coordinate is set to one. -/
def mclG1Gen : Nat × Nat × Nat :=
  (3685416753713387016781088315183077757961620795782546409894578378688607592378376318836054947676345821548104185464507,
    1339506544944476473020471379941921221584933875938349620426543736416511423956333506472724655353366534992391756441569, 1)

/-- `G2::gen`, mcl-kzg/kzg/src/kzg10.rs:9-12 and 104-114: the integers of the coordinates, each a pair. -/
def mclG2Gen : (Nat × Nat) × (Nat × Nat) × (Nat × Nat) :=
  ((352701069587466618187139116011060144890029952792775240219908644239793785735715026873347600343865175952761926303160,
    3059144344244213709971259814753781636986470325476647558659373206291635324768958432433509563104347017837885763365758),
   (1985150602287291935568054521177171638300868978215655730859378665066344726373823718423869104263333984641494340347905,
    927553665492332455747201965776037880757740193453592970025027978793976877002675564980949289727957565575433344219582), (1, 0))

end Kzg.Consts
