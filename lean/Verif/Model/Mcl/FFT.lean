import Verif.Model.FFT
import Verif.Model.Fr
import Verif.Model.FK20
import Verif.Model.Mcl.Utils
/-!
# FFT settings and transforms of mcl-kzg (mcl-kzg/kzg/src/fk20_fft.rs)

Field elements and points are those of the mcl library, called through its C interface (trusted base). What
the library does for the inverse of zero and for a division by zero is left open: `Lib` holds an arbitrary
outcome for each.
-/

namespace Kzg.Mcl
open Kzg

/-- The cases the library leaves open: `mclBnFr_inv` of zero and `mclBnFr_div` by zero
(mcl-kzg/kzg/src/data_types/fr.rs:37-38). -/
class Lib (F : Type) where
  invZero : Res F
  divZero : F → Res F

section Ops
variable {F : Type} [Field F] [DecidableEq F] [Lib F]

/-- `Fr::inverse` (mcl-kzg/kzg/src/data_types/fr.rs:65-69) and `get_inv` (mcl-kzg/kzg/src/kzg10.rs:149-154). -/
def frInv (x : F) : Res F := if x = 0 then Lib.invZero else .ok x⁻¹

/-- `Fr::div`, mcl-kzg/kzg/src/kzg10.rs:174-182 and mcl-kzg/kzg/src/trait_implementations/fr.rs:37-41. -/
def frDiv (x y : F) : Res F := if y = 0 then Lib.divZero x else .ok (x * y⁻¹)

end Ops

/-! ### Settings -/

/-- `SCALE_2_ROOT_OF_UNITY_PR5_STRINGS`, mcl-kzg/kzg/src/fk20_fft.rs:9-40, copied row by row. -/
def rootsPR5 : List Nat :=
  [1,
   52435875175126190479447740508185965837690552500527637822603658699938581184512,
   3465144826073652318776269530687742778270252468765361963008,
   28761180743467419819834788392525162889723178799021384024940474588120723734663,
   35811073542294463015946892559272836998938171743018714161809767624935956676211,
   32311457133713125762627935188100354218453688428796477340173861531654182464166,
   6460039226971164073848821215333189185736442942708452192605981749202491651199,
   3535074550574477753284711575859241084625659976293648650204577841347885064712,
   21071158244812412064791010377580296085971058123779034548857891862303448703672,
   12531186154666751577774347439625638674013361494693625348921624593362229945844,
   21328829733576761151404230261968752855781179864716879432436835449516750606329,
   30450688096165933124094588052280452792793350252342406284806180166247113753719,
   7712148129911606624315688729500842900222944762233088101895611600385646063109,
   4862464726302065505506688039068558711848980475932963135959468859464391638674,
   36362449573598723777784795308133589731870287401357111047147227126550012376068,
   30195699792882346185164345110260439085017223719129789169349923251189180189908,
   46605497109352149548364111935960392432509601054990529243781317021485154656122,
   2655041105015028463885489289298747241391034429256407017976816639065944350782,
   42951892408294048319804799042074961265671975460177021439280319919049700054024,
   26418991338149459552592774439099778547711964145195139895155358980955972635668,
   23615957371642610195417524132420957372617874794160903688435201581369949179370,
   50175287592170768174834711592572954584642344504509533259061679462536255873767,
   1664636601308506509114953536181560970565082534259883289958489163769791010513,
   36760611456605667464829527713580332378026420759024973496498144810075444759800,
   13205172441828670567663721566567600707419662718089030114959677511969243860524,
   10335750295308996628517187959952958185340736185617535179904464397821611796715,
   51191008403851428225654722580004101559877486754971092640244441973868858562750,
   24000695595003793337811426892222725080715952703482855734008731462871475089715,
   18727201054581607001749469507512963489976863652151448843860599973148080906836,
   50819341139666003587274541409207395600071402220052213520254526953892511091577,
   3811138593988695298394477416060533432572377403639180677141944665584601642504,
   43599901455287962219281063402626541872197057165786841304067502694013639882090]

/-- `SCALE_2_ROOT_OF_UNITY_PR7_STRINGS`, mcl-kzg/kzg/src/fk20_fft.rs:42-73, copied row by row. -/
def rootsPR7 : List Nat :=
  [1,
   52435875175126190479447740508185965837690552500527637822603658699938581184512,
   3465144826073652318776269530687742778270252468765361963008,
   23674694431658770659612952115660802947967373701506253797663184111817857449850,
   14788168760825820622209131888203028446852016562542525606630160374691593895118,
   36581797046584068049060372878520385032448812009597153775348195406694427778894,
   31519469946562159605140591558550197856588417350474800936898404023113662197331,
   3535074550574477753284711575859241084625659976293648650204577841347885064712,
   21071158244812412064791010377580296085971058123779034548857891862303448703672,
   12531186154666751577774347439625638674013361494693625348921624593362229945844,
   21328829733576761151404230261968752855781179864716879432436835449516750606329,
   30450688096165933124094588052280452792793350252342406284806180166247113753719,
   7712148129911606624315688729500842900222944762233088101895611600385646063109,
   4862464726302065505506688039068558711848980475932963135959468859464391638674,
   36362449573598723777784795308133589731870287401357111047147227126550012376068,
   30195699792882346185164345110260439085017223719129789169349923251189180189908,
   46605497109352149548364111935960392432509601054990529243781317021485154656122,
   2655041105015028463885489289298747241391034429256407017976816639065944350782,
   42951892408294048319804799042074961265671975460177021439280319919049700054024,
   26418991338149459552592774439099778547711964145195139895155358980955972635668,
   23615957371642610195417524132420957372617874794160903688435201581369949179370,
   50175287592170768174834711592572954584642344504509533259061679462536255873767,
   1664636601308506509114953536181560970565082534259883289958489163769791010513,
   36760611456605667464829527713580332378026420759024973496498144810075444759800,
   13205172441828670567663721566567600707419662718089030114959677511969243860524,
   10335750295308996628517187959952958185340736185617535179904464397821611796715,
   51191008403851428225654722580004101559877486754971092640244441973868858562750,
   24000695595003793337811426892222725080715952703482855734008731462871475089715,
   18727201054581607001749469507512963489976863652151448843860599973148080906836,
   50819341139666003587274541409207395600071402220052213520254526953892511091577,
   3811138593988695298394477416060533432572377403639180677141944665584601642504,
   43599901455287962219281063402626541872197057165786841304067502694013639882090]

/-- The two tables as field elements; `Fr::from_str` reads a decimal number below the group order. -/
class Tables (F : Type) where
  pr5 : List F
  pr7 : List F

instance : Tables Fr where
  pr5 := rootsPR5.map fun n : Nat => (n : Fr)
  pr7 := rootsPR7.map fun n : Nat => (n : Fr)

/-- The mutable statics `SCALE_2_ROOT_OF_UNITY`, `GLOBALS_INITIALIZED`, `DEFAULT_GLOBALS_INITIALIZED`,
mcl-kzg/kzg/src/fk20_fft.rs:87-89. -/
structure Globals (F : Type) where
  table : List F
  initialized : Bool
  isDefault : Bool

/-- Their initial values. -/
def Globals.start {F : Type} : Globals F := ⟨[], false, false⟩

section Settings
variable {F : Type} [Field F] [DecidableEq F]

/-- The `while` loop of `expand_root_of_unity`, mcl-kzg/kzg/src/fk20_fft.rs:136-140, on the reversed list. The
source puts no bound on it; a vector of elements of 32 bytes has at most `2^58` of them, so running out of
that much fuel is a failed allocation. -/
def expandLoop (root : F) : (fuel : Nat) → List F → Res (List F)
  | 0, _ => .panic
  | fuel + 1, rev =>
    match rev with
    | [] => .panic
    | last :: _ => if last = 1 then .ok rev.reverse else expandLoop root fuel ((last * root) :: rev)

/-- `expand_root_of_unity`, mcl-kzg/kzg/src/fk20_fft.rs:133-142. -/
def expandRoot (root : F) : Res (List F) := expandLoop root (2 ^ 58) [root, 1]

/-- `init_globals`, mcl-kzg/kzg/src/fk20_fft.rs:109-119. -/
def initGlobals [Tables F] (g : Globals F) : Globals F :=
  if g.initialized && g.isDefault then g else ⟨Tables.pr5, true, true⟩

/-- The parsing of the strings, mcl-kzg/kzg/src/fk20_fft.rs:125-127; a string that is no number below the group
order is `none`, and `unwrap` panics on it. -/
def parseAll : List (Option F) → Res (List F)
  | [] => .ok []
  | none :: _ => .panic
  | some x :: l => do
    let l ← parseAll l
    .ok (x :: l)

/-- `init_globals_custom`, mcl-kzg/kzg/src/fk20_fft.rs:124-131. -/
def initGlobalsCustom (roots : List (Option F)) : Res (Globals F) := do
  let t ← parseAll roots
  .ok ⟨t, true, false⟩

/-- The settings of a root, mcl-kzg/kzg/src/fk20_fft.rs:166-175 and 191-200. -/
def settingsOf (root : F) (maxScale : Nat) : Res (FFTSettings F) := do
  let rootZ ← expandRoot root
  .ok { maxWidth := 1 <<< maxScale, rootOfUnity := root, expandedRoots := rootZ, reverseRoots := rootZ.reverse }

/-- `FFTSettings::new` (the inherent one), mcl-kzg/kzg/src/fk20_fft.rs:160-176, with the statics after it. -/
def newPR5 [Tables F] (g : Globals F) (maxScale : Nat) : Res (FFTSettings F) × Globals F :=
  let g := initGlobals g
  ((do
    let root ← rd g.table maxScale
    settingsOf root maxScale), g)

/-- `new_custom_primitive_roots`, mcl-kzg/kzg/src/fk20_fft.rs:181-201, with the statics after it. A panic while
parsing leaves the statics as they were. -/
def newCustom (g : Globals F) (maxScale : Nat) (roots : List (Option F)) : Res (FFTSettings F) × Globals F :=
  match initGlobalsCustom roots with
  | .ok g =>
    (if maxScale ≥ g.table.length then
      .err "Scale is expected to be within root of unity matrix row size"
     else do
      let root ← rd g.table maxScale
      settingsOf root maxScale, g)
  | .err e => (.err e, g)
  | .panic => (.panic, g)

/-- `new` of the trait, mcl-kzg/kzg/src/trait_implementations/fft_settings.rs:10-13; `scale as u8` keeps the low
eight bits. -/
def newTrait [Tables F] (g : Globals F) (scale : Nat) : Res (FFTSettings F) × Globals F :=
  newCustom g (scale % 256) (Tables.pr7.map some)

/-- The inherent `new` on fresh statics. -/
def FFTSettings.new5 [Tables F] (maxScale : Nat) : Res (FFTSettings F) := (newPR5 Globals.start maxScale).1

/-- The `new` of the trait on fresh statics. -/
def FFTSettings.new7 [Tables F] (scale : Nat) : Res (FFTSettings F) := (newTrait Globals.start scale).1

end Settings

/-! ### Transforms -/

section FFT
variable {F M : Type} [Field F] [DecidableEq F] [Lib F] [AddCommGroup M] [Module F M]

/-- The loops of `_simple_ftt` (mcl-kzg/kzg/src/fk20_fft.rs:246-255) and `_fft_g1_simple` (395-405), without the
first product. -/
def simpleLoop (first : Res M) (values : List M) (offset stride : Nat) (roots : List F) (rootStride : Nat)
    (out : List M) : Res (List M) :=
  let outLen := out.length
  forRange 0 outLen out fun i out => do
    let initLast ← first
    let last ← forRange 1 outLen initLast fun j last => do
      let jv ← rd values (offset + j * stride)
      let r ← rd roots (((i * j) % outLen) * rootStride)
      .ok (last + r • jv)
    wr out i last

/-- The product with the first root, mcl-kzg/kzg/src/fk20_fft.rs:244 and 397. -/
def firstTerm (values : List M) (offset : Nat) (roots : List F) : Res M := do
  let v ← rd values offset
  let r ← rd roots 0
  .ok (r • v)

/-- `_simple_ftt`, mcl-kzg/kzg/src/fk20_fft.rs:242-256: the first product is computed before the loop. -/
def simpleFft (values : List M) (offset stride : Nat) (roots : List F) (rootStride : Nat) (out : List M) :
    Res (List M) := do
  let initLast ← firstTerm values offset roots
  simpleLoop (.ok initLast) values offset stride roots rootStride out

/-- `_fft_g1_simple`, mcl-kzg/kzg/src/fk20_fft.rs:393-406: the first product is computed in every iteration. -/
def simpleFftG1 (values : List M) (offset stride : Nat) (roots : List F) (rootStride : Nat) (out : List M) :
    Res (List M) :=
  simpleLoop (firstTerm values offset roots) values offset stride roots rootStride out

/-- An iteration of the last loop of `_fft`, mcl-kzg/kzg/src/fk20_fft.rs:234-239. -/
def bflyFr (roots : List F) (rootStride half i : Nat) (out : List M) : Res (List M) := do
  let root ← rd roots (i * rootStride)
  let y ← rd out (i + half)
  let yTimesRoot := root • y
  let x ← rd out i
  let out ← wr out (i + half) (x - yTimesRoot)
  let x ← rd out i
  wr out i (x + yTimesRoot)

/-- An iteration of the last loop of `_fft_g1`, mcl-kzg/kzg/src/fk20_fft.rs:382-390. -/
def bflyG1 (roots : List F) (rootStride half i : Nat) (out : List M) : Res (List M) := do
  let x ← rd out i
  let y ← rd out (i + half)
  let root ← rd roots (i * rootStride)
  let yTimesRoot := root • y
  let out ← wr out i (x + yTimesRoot)
  wr out (i + half) (x - yTimesRoot)

/-- `_fft` (mcl-kzg/kzg/src/fk20_fft.rs:204-240) and `_fft_g1` (357-391), sequential variants, over the function
for at most four values and the iteration of the last loop. The functions have the same text around these. -/
def fftRec (simple : List M → Nat → Nat → List F → Nat → List M → Res (List M))
    (bfly : List F → Nat → Nat → Nat → List M → Res (List M))
    (values : List M) (offset stride : Nat) (roots : List F) (rootStride : Nat) (out : List M) : Res (List M) :=
  if _h : out.length ≤ 4 then simple values offset stride roots rootStride out
  else do
    let half := out.length >>> 1
    let lo ← fftRec simple bfly values offset (stride <<< 1) roots (rootStride <<< 1) (out.take half)
    let hi ← fftRec simple bfly values (offset + stride) (stride <<< 1) roots (rootStride <<< 1) (out.drop half)
    forRange 0 half (lo ++ hi) fun i out => bfly roots rootStride half i out
termination_by out.length
decreasing_by
  · simp only [List.length_take, Nat.shiftRight_eq_div_pow, Nat.pow_one]; omega
  · simp only [List.length_drop, Nat.shiftRight_eq_div_pow, Nat.pow_one]; omega

/-- The `inv_len` of mcl-kzg/kzg/src/fk20_fft.rs:266 and 347: the length passes through a signed 32-bit
integer. -/
def invLen (n : Nat) : Res F := frInv ((asI32 n : Int) : F)

/-- The transform behind `inplace_fft` (mcl-kzg/kzg/src/fk20_fft.rs:258-280), `fft_g1` (315-324) and
`fft_g1_inv` (338-353). -/
def inplace (rec : List M → Nat → Nat → List F → Nat → List M → Res (List M)) (fs : FFTSettings F)
    (values : List M) (inv : Bool) : Res (List M) := do
  let rootZ := (if inv then fs.reverseRoots else fs.expandedRoots).take fs.maxWidth
  let stride ← divU fs.maxWidth values.length
  let out ← rec values 0 1 rootZ stride (List.replicate values.length (0 : M))
  if inv then do
    let c ← invLen (F := F) values.length
    .ok (out.map fun x => c • x)
  else .ok out

/-- `inplace_fft`, mcl-kzg/kzg/src/fk20_fft.rs:258-280. -/
def inplaceFft (fs : FFTSettings F) (values : List F) (inv : Bool) : Res (List F) :=
  inplace (fftRec simpleFft bflyFr) fs values inv

/-- `fft`, mcl-kzg/kzg/src/fk20_fft.rs:282-295, which is `fft_fr` of the trait. -/
def fft (fs : FFTSettings F) (values : List F) (inv : Bool) : Res (List F) :=
  if values.length > fs.maxWidth then .err "Supplied values is longer than the available max width"
  else do
    let n ← nextPowOf2 values.length
    let diff ← subU n values.length
    inplaceFft fs (values ++ List.replicate diff 0) inv

/-- `fft_g1` and `fft_g1_inv`, mcl-kzg/kzg/src/fk20_fft.rs:305-354, chosen by the flag as in
mcl-kzg/kzg/src/trait_implementations/fft_g1.rs:6-12. -/
def fftG1 (fs : FFTSettings F) (values : List M) (inv : Bool) : Res (List M) :=
  if values.length > fs.maxWidth then .err "length of values is longer than the available max width"
  else do
    if !(← isPowerOf2 values.length) then .err "length of values must be a power of two"
    else inplace (fftRec simpleFftG1 bflyG1) fs values inv

/-- `fft_fr_slow` and `fft_fr_fast`, mcl-kzg/kzg/src/fk20_fft.rs:297-303. -/
def fftFrSlow (result values : List F) (stride : Nat) (roots : List F) (rootStride : Nat) : Res (List F) :=
  simpleFft values 0 stride roots rootStride result

@[inherit_doc fftFrSlow]
def fftFrFast (result values : List F) (stride : Nat) (roots : List F) (rootStride : Nat) : Res (List F) :=
  fftRec simpleFft bflyFr values 0 stride roots rootStride result

/-- `fft_g1_slow` and `fft_g1_fast`, mcl-kzg/kzg/src/fk20_fft.rs:408-414; the length argument is unused. -/
def fftG1Slow (out values : List M) (stride : Nat) (roots : List F) (rootStride : Nat) (_n : Nat) : Res (List M) :=
  simpleFftG1 values 0 stride roots rootStride out

@[inherit_doc fftG1Slow]
def fftG1Fast (out values : List M) (stride : Nat) (roots : List F) (rootStride : Nat) (_n : Nat) : Res (List M) :=
  fftRec simpleFftG1 bflyG1 values 0 stride roots rootStride out

end FFT
end Kzg.Mcl
