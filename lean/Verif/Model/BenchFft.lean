import Verif.Model.BenchRecover
import Verif.Model.Zk.Kzg
/-!
# The shared tests of transforms (kzg-bench/src/tests/fft_fr.rs, kzg-bench/src/tests/fft_g1.rs) as programs

As in `Verif.Model.Bench`: what a test fixes is an argument, a failed assertion is a panic. These tests make their settings themselves,
so the constructor is part of the interface and a size that it rejects makes the test panic. The data are given by a function of the
position (`fft_fr.rs`) or by the function that the backend hands in (`fft_g1.rs`).

Shifts are those of a build with overflow checks, as tests are run.
-/

namespace Kzg.Bench
open Kzg

/-- What the tests of transforms call, for the field (`M = F`) or for points: `new`, `get_max_width` and `get_expanded_roots_of_unity` of
`FFTSettings` (kzg/src/lib.rs:119-141), `fft_fr` or `fft_g1` (kzg/src/lib.rs:91-97), and `equals` and `default` of the elements. -/
structure FftApi (F M : Type) where
  new : Nat → Res (FFTSettings F)
  fft : FFTSettings F → List M → Bool → Res (List M)
  equals : M → M → Bool
  default : M

/-- The type of `fft_fr_slow`, `fft_fr_fast`, `fft_g1_slow` and `fft_g1_fast`, kzg-bench/src/tests/fft_fr.rs:5-6 and
kzg-bench/src/tests/fft_g1.rs:4-5: output, data, stride, roots, stride of the roots; the output is returned. -/
abbrev Transform (F M : Type) := List M → List M → Nat → List F → Nat → Res (List M)

/-- `a << k` for `usize`. -/
def shlU (a k : Nat) : Res Nat := if k < 64 then .ok (a <<< k % 2 ^ 64) else .panic

/-- The loops at the end of the tests, e.g. kzg-bench/src/tests/fft_fr.rs:35-37. -/
def allEqual {M : Type} (equals : M → M → Bool) (n : Nat) (a b : List M) : Res Unit := each n fun i => do
  let x ← rd a i
  let y ← rd b i
  assertT (equals x y)

variable {F M : Type}

/-- `compare_sft_fft`, kzg-bench/src/tests/fft_fr.rs:4-38; the test takes size 12 and the numbers of the positions. -/
def frCompare (A : FftApi F M) (slow fast : Transform F M) (size : Nat) (data : Nat → M) : Res Unit := do
  let fs ← (A.new size).unwrap
  let data ← tab fs.maxWidth fun i => .ok (data i)
  let out0 ← slow (List.replicate fs.maxWidth A.default) data 1 fs.expandedRoots 1
  let out1 ← fast (List.replicate fs.maxWidth A.default) data 1 fs.expandedRoots 1
  allEqual A.equals fs.maxWidth out0 out1

/-- `roundtrip_fft`, kzg-bench/src/tests/fft_fr.rs:41-59; the test takes size 12 and the numbers of the positions. -/
def frRoundtrip (A : FftApi F M) (size : Nat) (data : Nat → M) : Res Unit := do
  let fs ← (A.new size).unwrap
  let starting ← tab fs.maxWidth fun i => .ok (data i)
  let forward ← (A.fft fs starting false).unwrap
  let inverse ← (A.fft fs forward true).unwrap
  allEqual A.equals fs.maxWidth starting inverse

/-- `inverse_fft`, kzg-bench/src/tests/fft_fr.rs:62-95; the test takes size 4, the numbers of the positions and sixteen expected values. -/
def frInverse (A : FftApi F M) (size : Nat) (data : Nat → M) (expected : List M) : Res Unit := do
  let fs ← (A.new size).unwrap
  let data ← tab fs.maxWidth fun i => .ok (data i)
  let forward ← (A.fft fs data true).unwrap
  assertT (expected.length == fs.maxWidth)
  allEqual A.equals expected.length expected forward

/-- `stride_fft`, kzg-bench/src/tests/fft_fr.rs:98-121; the test takes sizes 9 and 12 and the numbers of the positions. -/
def frStride (A : FftApi F M) (size1 size2 : Nat) (data : Nat → M) : Res Unit := do
  let width ← shlU 1 size1
  let fs1 ← (A.new size1).unwrap
  let fs2 ← (A.new size2).unwrap
  let data ← tab width fun i => .ok (data i)
  let result1 ← (A.fft fs1 data false).unwrap
  let result2 ← (A.fft fs2 data false).unwrap
  allEqual A.equals width result1 result2

/-- `assert_eq!(n, 2 << size - 1)`, e.g. kzg-bench/src/tests/fft_g1.rs:10; the subtraction binds tighter than the shift. -/
def assertWidth (n size : Nat) : Res Unit := do
  let k ← subU size 1
  let w ← shlU 2 k
  assertT (n == w)

/-- `compare_ft_fft`, kzg-bench/src/tests/fft_g1.rs:3-36; the test takes size 6. -/
def g1CompareFt (A : FftApi F M) (slow fast : Transform F M) (makeData : Nat → Res (List M)) (size : Nat) : Res Unit := do
  let fs ← (A.new size).unwrap
  assertWidth fs.maxWidth size
  let data ← makeData fs.maxWidth
  let stride ← divU fs.maxWidth data.length
  let f ← fast (List.replicate data.length A.default) data 1 fs.expandedRoots stride
  let s ← slow (List.replicate data.length A.default) data 1 fs.expandedRoots stride
  allEqual A.equals fs.maxWidth f s

/-- `roundtrip_fft`, kzg-bench/src/tests/fft_g1.rs:38-60; the test takes size 10. -/
def g1Roundtrip (A : FftApi F M) (makeData : Nat → Res (List M)) (size : Nat) : Res Unit := do
  let fs ← (A.new size).unwrap
  assertWidth fs.maxWidth size
  let expected ← makeData fs.maxWidth
  let data ← makeData fs.maxWidth
  let coeffs ← (A.fft fs data false).unwrap
  assertWidth coeffs.length size
  let data ← (A.fft fs coeffs true).unwrap
  assertWidth data.length size
  allEqual A.equals fs.maxWidth expected data

/-- `stride_fft`, kzg-bench/src/tests/fft_g1.rs:62-90; the test takes sizes 9 and 12. -/
def g1Stride (A : FftApi F M) (makeData : Nat → Res (List M)) (size1 size2 : Nat) : Res Unit := do
  let width ← (if size1 < size2 then shlU 1 size1 else shlU 1 size2)
  let fs1 ← (A.new size1).unwrap
  assertWidth fs1.maxWidth size1
  let fs2 ← (A.new size2).unwrap
  assertWidth fs2.maxWidth size2
  let data ← makeData width
  let coeffs1 ← (A.fft fs1 data false).unwrap
  assertT (coeffs1.length == width)
  let coeffs2 ← (A.fft fs2 data false).unwrap
  assertT (coeffs2.length == width)
  allEqual A.equals width coeffs1 coeffs2

/-- `compare_sft_fft`, kzg-bench/src/tests/fft_g1.rs:89-121; the two functions take the width as a sixth argument. The test takes
size 6. -/
def g1CompareSft (A : FftApi F M) (slow fast : List M → List M → Nat → List F → Nat → Nat → Res (List M))
    (makeData : Nat → Res (List M)) (size : Nat) : Res Unit := do
  let fs ← (A.new size).unwrap
  let data ← makeData fs.maxWidth
  let s ← slow (List.replicate fs.maxWidth A.default) data 1 fs.expandedRoots 1 fs.maxWidth
  let f ← fast (List.replicate fs.maxWidth A.default) data 1 fs.expandedRoots 1 fs.maxWidth
  allEqual A.equals fs.maxWidth s f

/-- The values that `inverse_fft` expects, kzg-bench/src/tests/fft_fr.rs:64-82, as numbers. -/
def inverseExpected : List Nat :=
  [0x39f6d3a994cebea4199cec0404d0ec02a9ded2017fff2dff7fffffff80000008,
   0x13993b7d05187205f06dfe5c7fca260dd5b902cbcef9c1b6ef296e7ffb8ca216,
   0x5dbc603bc53c7a3a83a712d1dd818c8f40e02aff48e2b16be930fdda2306c7d4,
   0x2e0d216170831056ee7a9a5f0410e423cdf85d0a339d7782f9925986d0d25e90,
   0x39f6d3a994cebea46045d26b3fd26e6b1fe05202bb00adff80007fff80000000,
   0x5a6faf90394516736843be68485784b1cbb94f168ddacca927325dd08ac4cee9,
   0x5dbc603bc53c7a39f6554603677e87be54dd2afcd2dfb16be92ffdda2306c7d4,
   0x3ffbc9abcdda78214f9388c8d80abcf9fb73f4d33d3116dd1cc772c9b57f126f,
   0x39f6d3a994cebea4199cec0404d0ec02a9ded2017fff2dff7fffffff80000000,
   0x33f1dda75bc30526e3a64f3f31971b0b5849af2fc2cd4521e3388d354a80ed91,
   0x163147176461030e3ce49204a2235046fee079062d1eaa9316d00224dcf9382c,
   0x197df7c2f05866d4caf6199fc14a5353880454ec72238f55d8cda22e753b3117,
   0x39f6d3a994cebea3d2f4059cc9cf699a33dd520044fdadff7fff7fff80000000,
   0x45e085f1b91a6cf144bf3da90590f3e185c546f8cc60e47c066da6782f2da170,
   0x163147176461030daf92c5362c204b7612dd7903b71baa9316cf0224dcf9382c,
   0x60546bd624850b4242cbd9ab89d7b1f77e04a13731049a4810d6917f04735dea]

/-- `from_u64_arr` of the numbers of a list, which are below the modulus. -/
def castAll (F : Type) [Field F] (l : List Nat) : List F := l.map fun n => ((n : Nat) : F)

/-! ### The backends -/

/-- The fields of blst-from-scratch (`F = Fr`) and zkcrypto, blst-from-scratch/tests/fft_fr.rs:9-26 and zkcrypto/tests/fft_fr.rs:9-27. -/
def plainFr (F : Type) [Field F] [DecidableEq F] [FrTable F] : FftApi F F where
  new := FFTSettings.new
  fft := fun fs => fs.fftFr
  equals := fun a b => decide (a = b)
  default := 0

/-- The points of blst-from-scratch, blst-from-scratch/tests/fft_g1.rs:25-37. -/
def blstG1 (G : Type) [AddCommGroup G] [Module Fr G] [DecidableEq G] : FftApi Fr G where
  new := FFTSettings.new
  fft := fun fs => fs.fftG1
  equals := fun a b => decide (a = b)
  default := 0

/-- The points of zkcrypto, zkcrypto/tests/fft_g1.rs:24-36. -/
def zkG1 (chk : Bool) : FftApi Zk.ScW Zk.G1.Proj where
  new := FFTSettings.new
  fft := ZkP.fftG1 (Zk.Top.g1Ops chk)
  equals := fun a b => a.ctEq b
  default := Zk.Projective.identity

/-- The field of Arkworks, Arkworks/tests/fft_fr.rs:9-26. -/
def arkFr : FftApi Fr Fr where
  new := Ark.settingsNew
  fft := Ark.fftFr
  equals := fun a b => decide (a = b)
  default := 0

/-- The points of Arkworks, Arkworks/tests/fft_g1.rs:9-21. -/
def arkG1 (G : Type) [AddCommGroup G] [Module Fr G] [DecidableEq G] : FftApi Fr G where
  new := Ark.settingsNew
  fft := Ark.fftG1
  equals := fun a b => decide (a = b)
  default := 0

/-- The field of mcl-kzg, mcl-kzg/kzg-bench/src/shared_tests/fft_fr.rs:9-31; `new` is the one of the trait (C95 shows that its result does
not depend on earlier calls). -/
def mclFr [Mcl.Lib Fr] : FftApi Fr Fr where
  new := Mcl.FFTSettings.new7
  fft := Mcl.fft
  equals := fun a b => decide (a = b)
  default := 0

/-- The points of mcl-kzg, mcl-kzg/kzg-bench/src/shared_tests/fft_g1.rs:10-26. -/
def mclG1 [Mcl.Lib Fr] (G : Type) [AddCommGroup G] [Module Fr G] [DecidableEq G] : FftApi Fr G where
  new := Mcl.FFTSettings.new7
  fft := Mcl.fftG1
  equals := fun a b => decide (a = b)
  default := 0

end Kzg.Bench
