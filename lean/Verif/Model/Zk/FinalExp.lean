import Verif.Model.Zk.Bits
import Verif.Model.Zk.Tower
import Verif.Base.Res
/-!
# The target group of zkcrypto (zkcrypto/src/curve/pairings.rs)

`MillerLoopResult` and `Gt` are wrappers of an `Fp12`; the model drops the wrappers.
-/

namespace Kzg.Zk
namespace Gt

section
variable {K : Type} [Field K] [DecidableEq K]

/-- `BLS_X`, zkcrypto/src/curve/pairings.rs:28. -/
def blsX : Nat := 0xd201000000010000

/-- `fp4_square`, zkcrypto/src/curve/pairings.rs:238-249. -/
def fp4Square (a b : Fp2 K) : Fp2 K × Fp2 K :=
  let t0 := a.square
  let t1 := b.square
  let t2 := t1.mulByNonresidue
  let c0 := t2 + t0
  let t2 := a + b
  let t2 := t2.square
  let t2 := t2 - t0
  let c1 := t2 - t1
  (c0, c1)

/-- `cyclotomic_square`, zkcrypto/src/curve/pairings.rs:254-302. -/
def cyclotomicSquare (f : Fp12 K) : Fp12 K :=
  let z0 := f.c0.c0
  let z4 := f.c0.c1
  let z3 := f.c0.c2
  let z2 := f.c1.c0
  let z1 := f.c1.c1
  let z5 := f.c1.c2
  let t := fp4Square z0 z1
  let t0 := t.1
  let t1 := t.2
  let z0 := t0 - z0
  let z0 := z0 + z0 + t0
  let z1 := t1 + z1
  let z1 := z1 + z1 + t1
  let t := fp4Square z2 z3
  let t0 := t.1
  let t1 := t.2
  let t' := fp4Square z4 z5
  let t2 := t'.1
  let t3 := t'.2
  let z4 := t0 - z4
  let z4 := z4 + z4 + t0
  let z5 := t1 + z5
  let z5 := z5 + z5 + t1
  let t0 := t3.mulByNonresidue
  let z2 := t0 + z2
  let z2 := z2 + z2 + t0
  let z3 := t2 - z3
  let z3 := z3 + z3 + t2
  ⟨⟨z0, z4, z3⟩, ⟨z2, z1, z5⟩⟩

/-- The loop of `cycolotomic_exp` over the bits `n - 1` to `0`, zkcrypto/src/curve/pairings.rs:307-317. -/
def cyclotomicExpLoop (f : Fp12 K) (x : Nat) : (n : Nat) → (tmp : Fp12 K) → (foundOne : Bool) → Fp12 K
  | 0, tmp, _ => tmp
  | b + 1, tmp, foundOne =>
    let i := decide (shr x b &&& 1 = 1)
    let tmp' := if foundOne then cyclotomicSquare tmp else tmp
    let found' := if foundOne then foundOne else i
    cyclotomicExpLoop f x b (if i then tmp' * f else tmp') found'

/-- `cycolotomic_exp`, zkcrypto/src/curve/pairings.rs:303-320. -/
def cyclotomicExp (f : Fp12 K) : Fp12 K := (cyclotomicExpLoop f blsX 64 1 false).conjugate

/-- The closure of `final_exponentiation`, zkcrypto/src/curve/pairings.rs:331-358. -/
def finalExpBody (t0 t1 : Fp12 FpW) : Fp12 FpW :=
  let t2 := t0 * t1
  let t1 := t2
  let t2 := t2.frobeniusMap.frobeniusMap
  let t2 := t2 * t1
  let t1 := (cyclotomicSquare t2).conjugate
  let t3 := cyclotomicExp t2
  let t4 := cyclotomicSquare t3
  let t5 := t1 * t3
  let t1 := cyclotomicExp t5
  let t0 := cyclotomicExp t1
  let t6 := cyclotomicExp t0
  let t6 := t6 * t4
  let t4 := cyclotomicExp t6
  let t5 := t5.conjugate
  let t4 := t4 * (t5 * t2)
  let t5 := t2.conjugate
  let t1 := t1 * t2
  let t1 := t1.frobeniusMap.frobeniusMap.frobeniusMap
  let t6 := t6 * t5
  let t6 := t6.frobeniusMap
  let t3 := t3 * t0
  let t3 := t3.frobeniusMap.frobeniusMap
  let t3 := t3 * t1
  let t3 := t3 * t6
  t3 * t4

/-- `final_exponentiation`, zkcrypto/src/curve/pairings.rs:236-364. The `unwrap` is a panic for zero. -/
def finalExponentiation (f : Fp12 FpW) : Res (Fp12 FpW) :=
  let t0 := f.frobeniusMap.frobeniusMap.frobeniusMap.frobeniusMap.frobeniusMap.frobeniusMap
  f.invert.elim .panic fun t1 => .ok (finalExpBody t0 t1)

/-- `MillerLoopResult::add`, zkcrypto/src/curve/pairings.rs:366-374. -/
def millerAdd (a b : Fp12 K) : Fp12 K := a * b

/-- `identity`, zkcrypto/src/curve/pairings.rs:436-438. -/
def identity : Fp12 K := 1

/-- `is_identity`, zkcrypto/src/curve/pairings.rs:685-687, with `ct_eq`, pairings.rs:414-418. -/
def isIdentity (a : Fp12 K) : Bool := Fp12.ctEq a identity

/-- `double`, zkcrypto/src/curve/pairings.rs:441-443. -/
def double (a : Fp12 K) : Fp12 K := a.square

/-- `neg`, zkcrypto/src/curve/pairings.rs:446-454. -/
def neg (a : Fp12 K) : Fp12 K := a.conjugate

/-- `add`, zkcrypto/src/curve/pairings.rs:464-473. -/
def add (a b : Fp12 K) : Fp12 K := a * b

/-- `sub`, zkcrypto/src/curve/pairings.rs:475-482. -/
def sub (a b : Fp12 K) : Fp12 K := add a (neg b)

/-- `mul`, zkcrypto/src/curve/pairings.rs:484-508. -/
def mul (a : Fp12 K) (s : Scalar) : Fp12 K :=
  ((bitsOf (Scalar.toBytes s)).drop 1).foldl (fun acc bit =>
    let acc := double acc
    Fp12.select acc (add acc a) bit) identity

/-- `sum`, zkcrypto/src/curve/pairings.rs:513-524. -/
def sum (l : List (Fp12 K)) : Fp12 K := l.foldl add identity

end

/-- `generator`, zkcrypto/src/curve/pairings.rs:567-683. -/
def generator : Fp12 FpW :=
  ⟨⟨⟨.raw 0x1972e433a01f85c5 0x97d32b76fd772538 0xc8ce546fc96bcdf9 0xcef63e7366d40614
        0xa611342781843780 0x13f3448a3fc6d825 (by decide +kernel),
      .raw 0xd26331b02e9d6995 0x9d68a482f7797e7d 0x9c9b29248d39ea92 0xf4801ca2e13107aa
        0xa16c0732bdbcb066 0x083ca4afba360478 (by decide +kernel)⟩,
    ⟨.raw 0x59e261db0916b641 0x2716b6f4b23e960d 0xc8e55b10a0bd9c45 0x0bdb0bd99c4deda8
        0x8cf89ebf57fdaac5 0x12d6b7929e777a5e (by decide +kernel),
      .raw 0x5fc85188b0e15f35 0x34a06e3a8f096365 0xdb3126a6e02ad62c 0xfc6f5aa97d9a990b
        0xa12f55f5eb89c210 0x1723703a926f8889 (by decide +kernel)⟩,
    ⟨.raw 0x93588f2971828778 0x43f65b8611ab7585 0x3183aaf5ec279fdf 0xfa73d7e18ac99df6
        0x64e176a6a64c99b0 0x179fa78c58388f1f (by decide +kernel),
      .raw 0x672a0a11ca2aef12 0x0d11b9b52aa3f16b 0xa44412d0699d056e 0xc01d0177221a5ba5
        0x66e0cede6c735529 0x05f5a71e9fddc339 (by decide +kernel)⟩⟩,
    ⟨⟨.raw 0xd30a88a1b062c679 0x5ac56a5d35fc8304 0xd0c834a6a81f290d 0xcd5430c2da3707c7
        0xf0c27ff780500af0 0x09245da6e2d72eae (by decide +kernel),
      .raw 0x9f2e0676791b5156 0xe2d1c8234918fe13 0x4c9e459f3c561bf4 0xa3e85e53b9d3e3c1
        0x820a121e21a70020 0x15af618341c59acc (by decide +kernel)⟩,
    ⟨.raw 0x7c95658c24993ab1 0x73eb38721ca886b9 0x5256d749477434bc 0x8ba41902ea504a8b
        0x04a3d3f80c86ce6d 0x18a64a87fb686eaa (by decide +kernel),
      .raw 0xbb83e71bb920cf26 0x2a5277ac92a73945 0xfc0ee59f94f046a0 0x7158cdf3786058f7
        0x7cc1061b82f945f6 0x03f847aa9fdbe567 (by decide +kernel)⟩,
    ⟨.raw 0x8078dba56134e657 0x1cd7ec9a43998a6e 0xb1aa599a1a993766 0xc9a0f62f0842ee44
        0x8e159be3b605dffa 0x0c86ba0d4af13fc2 (by decide +kernel),
      .raw 0xe80ff2a06a52ffb1 0x7694ca48721a906c 0x7583183e03b08514 0xf567afdd40cee4e2
        0x9a6d96d2e526a5fc 0x197e9f49861f2242 (by decide +kernel)⟩⟩⟩

/-- `random`, zkcrypto/src/curve/pairings.rs:549-561, with at most `fuel` iterations of the loop; `none` means it is
still running. The random number generator is not used, so it is not an argument. -/
def random : (fuel : Nat) → Option (Res (Fp12 FpW))
  | 0 => none
  | fuel + 1 => if !Fp12.isZero (1 : Fp12 FpW) then some (finalExponentiation 1) else random fuel

end Gt
end Kzg.Zk
