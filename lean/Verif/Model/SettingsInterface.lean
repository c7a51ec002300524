import Verif.Model.Zk.Kzg
import Verif.Model.Mcl.FK20
import Verif.Model.Ark.FK20
/-!
# The settings of the backends as the traits show them (`trait FFTSettings`, kzg/src/lib.rs:120-134, and the
constructors without arguments, the copies and the accessor of `KZGSettings`, `FK20SingleSettings` and
`FK20MultiSettings`, kzg/src/lib.rs:179-256)

One record of functions for each backend, in the order of the traits, with `Clone`, which the traits ask for. Every
function answers in `Res`: indexing outside a table panics. The settings of mcl-kzg are modelled on fresh statics
(`C95_history`: earlier calls make no difference to the answer).
-/

namespace Kzg.Iface
open Kzg

/-- `trait FFTSettings`, kzg/src/lib.rs:120-134. -/
structure FftTrait (E : Type) where
  default : Res (FFTSettings E)
  new : Nat → Res (FFTSettings E)
  getMaxWidth : FFTSettings E → Res Nat
  getExpandedAt : FFTSettings E → Nat → Res E
  getExpanded : FFTSettings E → Res (List E)
  getReverseAt : FFTSettings E → Nat → Res E
  getReversed : FFTSettings E → Res (List E)
  clone : FFTSettings E → Res (FFTSettings E)

/-- `impl FFTSettings for FsFFTSettings`, blst-from-scratch/src/types/fft_settings.rs:13-62, with `Clone`, 64-73: new settings of scale 0
with every field overwritten. -/
def blstFft : FftTrait Fr where
  default := (FFTSettings.new 0).unwrap
  new := FFTSettings.new
  getMaxWidth := fun fs => .ok fs.maxWidth
  getExpandedAt := fun fs i => rd fs.expandedRoots i
  getExpanded := fun fs => .ok fs.expandedRoots
  getReverseAt := fun fs i => rd fs.reverseRoots i
  getReversed := fun fs => .ok fs.reverseRoots
  clone := fun fs => do
    let o ← (FFTSettings.new (F := Fr) 0).unwrap
    .ok { o with maxWidth := fs.maxWidth, rootOfUnity := fs.rootOfUnity, expandedRoots := fs.expandedRoots,
                 reverseRoots := fs.reverseRoots }

/-- `impl FFTSettings for ZkFFTSettings`, zkcrypto/src/fftsettings.rs:174-228; `#[derive(Clone)]`, 14. -/
def zkFft : FftTrait Zk.ScW where
  default := .ok Zk.Top.fftDefault
  new := FFTSettings.new
  getMaxWidth := fun fs => .ok fs.maxWidth
  getExpandedAt := fun fs i => rd fs.expandedRoots i
  getExpanded := fun fs => .ok fs.expandedRoots
  getReverseAt := fun fs i => rd fs.reverseRoots i
  getReversed := fun fs => .ok fs.reverseRoots
  clone := fun fs => .ok fs

/-- `impl CommonFFTSettings for FFTSettings`, mcl-kzg/kzg/src/trait_implementations/fft_settings.rs:5-34; `default` is the inherent
`new(0)` (mcl-kzg/kzg/src/fk20_fft.rs:153-155); `#[derive(Clone)]`, mcl-kzg/kzg/src/fk20_fft.rs:144. -/
def mclFft : FftTrait Fr where
  default := Mcl.FFTSettings.new5 0
  new := Mcl.FFTSettings.new7
  getMaxWidth := fun fs => .ok fs.maxWidth
  getExpandedAt := fun fs i => rd fs.expandedRoots i
  getExpanded := fun fs => .ok fs.expandedRoots
  getReverseAt := fun fs i => rd fs.reverseRoots i
  getReversed := fun fs => .ok fs.reverseRoots
  clone := fun fs => .ok fs

/-- `impl FFTSettings for LFFTSettings`, Arkworks/src/kzg_types.rs:346-400, with `Clone`, 402-411. -/
def arkFft : FftTrait Fr where
  default := .ok Ark.settingsDefault
  new := Ark.settingsNew
  getMaxWidth := fun fs => .ok fs.maxWidth
  getExpandedAt := fun fs i => rd fs.expandedRoots i
  getExpanded := fun fs => .ok fs.expandedRoots
  getReverseAt := fun fs i => rd fs.reverseRoots i
  getReversed := fun fs => .ok fs.reverseRoots
  clone := Ark.settingsClone

/-- `default`, `clone` and `get_expanded_roots_of_unity_at` of `trait KZGSettings`, kzg/src/lib.rs:179-220, and `default` and `clone` of
`trait FK20SingleSettings` and `trait FK20MultiSettings`, kzg/src/lib.rs:222-256. `S`, `S1`, `S2` are the three types. -/
structure KeepTrait (E S S1 S2 : Type) where
  default : Res S
  clone : S → Res S
  rootAt : S → Nat → Res E
  singleDefault : Res S1
  singleClone : S1 → Res S1
  multiDefault : Res S2
  multiClone : S2 → Res S2

/-- blst-from-scratch/src/types/kzg_settings.rs:19-36 and 179-181, blst-from-scratch/src/types/fk20_single_settings.rs:16-33,
blst-from-scratch/src/types/fk20_multi_settings.rs:17-36. -/
def blstKeep (G1 G2 : Type) : KeepTrait Fr (KZGSettings Fr G1 G2) (FK20Single Fr G1 G2) (FK20Multi Fr G1 G2) where
  default := do
    let fs ← blstFft.default
    .ok ⟨fs, [], []⟩
  clone := fun ks => do
    let fs ← blstFft.clone ks.fs
    .ok ⟨fs, ks.secretG1, ks.secretG2⟩
  rootAt := fun ks i => blstFft.getExpandedAt ks.fs i
  singleDefault := do
    let fs ← blstFft.default
    .ok ⟨⟨fs, [], []⟩, []⟩
  singleClone := fun fk => do
    let fs ← blstFft.clone fk.ks.fs
    .ok ⟨⟨fs, fk.ks.secretG1, fk.ks.secretG2⟩, fk.xExtFft⟩
  multiDefault := do
    let fs ← blstFft.default
    .ok ⟨⟨fs, [], []⟩, 1, []⟩
  multiClone := fun fk => do
    let fs ← blstFft.clone fk.ks.fs
    .ok ⟨⟨fs, fk.ks.secretG1, fk.ks.secretG2⟩, fk.chunkLen, fk.xExtFftFiles⟩

/-- `default_kzg`, zkcrypto/src/kzg_proofs.rs:42-49 (and `Default`, 31-40); `Clone` by `new`, zkcrypto/src/kzg_types.rs:265-269; the
accessor, 260-262; zkcrypto/src/fk20.rs:14-31 and 106-123. -/
def zkKeep : KeepTrait Zk.ScW Zk.Top.Settings (FK20Single Zk.ScW Zk.G1.Proj Zk.G2.Proj)
    (FK20Multi Zk.ScW Zk.G1.Proj Zk.G2.Proj) where
  default := do
    let fs ← zkFft.default
    .ok ⟨fs, [], []⟩
  clone := fun ks => do
    let fs ← zkFft.clone ks.fs
    (Zk.Top.new ks.secretG1 ks.secretG2 ks.secretG1.length fs).unwrap
  rootAt := fun ks i => zkFft.getExpandedAt ks.fs i
  singleDefault := do
    let fs ← zkFft.default
    .ok ⟨⟨fs, [], []⟩, []⟩
  singleClone := fun fk => do
    let fs ← zkFft.clone fk.ks.fs
    let ks ← (Zk.Top.new fk.ks.secretG1 fk.ks.secretG2 fk.ks.secretG1.length fs).unwrap
    .ok ⟨ks, fk.xExtFft⟩
  multiDefault := do
    let fs ← zkFft.default
    .ok ⟨⟨fs, [], []⟩, 1, []⟩
  multiClone := fun fk => do
    let fs ← zkFft.clone fk.ks.fs
    let ks ← (Zk.Top.new fk.ks.secretG1 fk.ks.secretG2 fk.ks.secretG1.length fs).unwrap
    .ok ⟨ks, fk.chunkLen, fk.xExtFftFiles⟩

/-- mcl-kzg/kzg/src/kzg_settings.rs:7-19 with `Curve::default`, mcl-kzg/kzg/src/kzg10.rs:599-623 (the generators and the order are not part
of the modelled settings), the accessor of mcl-kzg/kzg/src/trait_implementations/kzg_settings.rs:36-38,
mcl-kzg/kzg/src/fk20_matrix.rs:47-51, 82-87 and 126-139; the copies are derived. -/
def mclKeep (G1 G2 : Type) : KeepTrait Fr (KZGSettings Fr G1 G2) (FK20Single Fr G1 G2) (FK20Multi Fr G1 G2) where
  default := do
    let fs ← mclFft.default
    .ok ⟨fs, [], []⟩
  clone := fun ks => .ok ks
  rootAt := fun ks i => mclFft.getExpandedAt ks.fs i
  singleDefault := do
    let fs ← mclFft.default
    .ok ⟨⟨fs, [], []⟩, []⟩
  singleClone := fun fk => .ok fk
  multiDefault := do
    let fs ← mclFft.default
    .ok ⟨⟨fs, [], []⟩, 1, []⟩
  multiClone := fun fk => .ok fk

/-- `default_kzg`, Arkworks/src/kzg_proofs.rs:332-342; `Clone` and the accessor, Arkworks/src/kzg_types.rs:443-456;
Arkworks/src/fk20_proofs.rs:10-45 and 99-106. -/
def arkKeep {P G1 G2 GT : Type} [AddCommGroup G1] [Module Fr G1] [AddCommGroup G2] [Module Fr G2]
    [CommGroup GT] [DecidableEq GT] (B : Ark.Backend P G1 G2 GT) (g1 : G1) (g2 : G2) :
    KeepTrait Fr (Ark.Settings P G1 G2) (Ark.FKSingle P G1 G2) (Ark.FKMulti P G1 G2) where
  default := .ok (Ark.defaultSettings B)
  clone := fun ks => ks.clone B g1 g2
  rootAt := fun ks i => arkFft.getExpandedAt ks.fs i
  singleDefault := .ok (Ark.FKSingle.default B)
  singleClone := fun fk => fk.clone B g1 g2
  multiDefault := .ok (Ark.FKMulti.default B)
  multiClone := fun fk => fk.clone B g1 g2

end Kzg.Iface
