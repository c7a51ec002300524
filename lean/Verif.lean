import Verif.Props.FFT
import Verif.Props.Poly
import Verif.Props.Utils
import Verif.Props.DAS
import Verif.Props.ZeroPoly
import Verif.Props.Recovery
import Verif.Props.KZG
import Verif.Props.FK20
import Verif.Props.ZkScalar
import Verif.Props.ZkFp
import Verif.Props.ZkMsm
import Verif.Props.Parallel
import Verif.Props.OnceCell
import Verif.Props.ZkCurve
import Verif.Props.ZkG1
import Verif.Props.ZkG1Bytes
import Verif.Props.ZkPoly
import Verif.Props.ZkRecover
import Verif.Props.ZkTower
import Verif.Props.ZkGt
import Verif.Props.ZkG2
import Verif.Props.ZkPairing
import Verif.Props.ZkKzg
import Verif.Props.ZkFK20
import Verif.Props.ZkDas
import Verif.Props.MclFFT
import Verif.Props.MclPoly
import Verif.Props.MclRecover
import Verif.Props.MclKzg
import Verif.Props.MclFK20
import Verif.Props.ArkFFT
import Verif.Props.ArkPoly
import Verif.Props.ArkRecover
import Verif.Props.ArkKzg
import Verif.Props.ArkFK20
import Verif.Props.ZkConvert
import Verif.Props.Consts
import Verif.Props.CkzgUtils
import Verif.Props.CkzgFfi
import Verif.Props.CkzgMem
import Verif.Props.Interface
import Verif.Props.GroupInterface
import Verif.Props.ZkRandom
import Verif.Proofs.Torsion
import Verif.Props.RealGroups
import Verif.Props.Interop
import Verif.Props.InteropFFT
import Verif.Props.InteropFK20
import Verif.Props.InteropRecover
import Verif.Props.PolyInterface
import Verif.Props.InteropPoly
import Verif.Props.SettingsInterface
import Verif.Props.CkzgInterface
import Verif.Props.Rand
import Verif.Props.Soundness
import Verif.Model.Bench
import Verif.Model.BenchRecover
import Verif.Proofs.Bench
import Verif.Proofs.BenchRecover
import Verif.Props.Bench
import Verif.Props.BenchRecover
import Verif.Model.Mcl.Ffi
import Verif.Props.MclFfi
import Verif.Model.Zk.Encoding
import Verif.Props.ZkEncoding
import Verif.Props.Sampling
import Verif.Props.BenchZero
import Verif.Props.BenchFft
import Verif.Props.BenchPoly
import Verif.Props.BenchFr
import Verif.Props.BenchGroup
import Verif.Props.BenchConsts
import Verif.Props.BenchKnown
import Verif.Props.BenchSettings
import Verif.Props.Binding
import Verif.Props.Distance
import Verif.Props.MclInverse
import Verif.Props.Survival
import Verif.Props.Guarded
import Verif.Props.ArkSeed
import Verif.Props.Reextend
import Verif.Props.ZkVectors
import Verif.Props.Linear
import Verif.Props.ZkVectors2
import Verif.Proofs.SizeDiv
import Verif.Proofs.SizeMulti
import Verif.Props.LongProofs
import Verif.Proofs.SizeInv
import Verif.Props.LongPoly
import Verif.Props.BenchLong
import Verif.Props.BenchPolyLong
import Verif.Model.TestData
import Verif.Props.TestData
import Verif.Model.Zk.ScalarBits
import Verif.Props.ZkBits
import Verif.Proofs.FK20Short
import Verif.Proofs.Zk.MulTotal
import Verif.Props.ZkFK20Short
import Verif.Model.BenchAmortised
import Verif.Props.BenchAmortised
import Verif.Model.BenchRuns
import Verif.Props.BenchRuns
import Verif.Model.BenchDivCommit
import Verif.Props.BenchDivCommit
import Verif.Model.BenchConstant
import Verif.Props.BenchConstant
import Verif.Model.BenchLocal
import Verif.Props.BenchLocal
import Verif.Model.BenchMclOwn
import Verif.Props.BenchMclOwn
import Verif.Model.BenchMclTimed
import Verif.Props.BenchMclTimed
import Verif.Props.Rotation
import Verif.Props.Symmetry
import Verif.Props.Convolution
import Verif.Props.OnePoint
