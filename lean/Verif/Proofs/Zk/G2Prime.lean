import Verif.Proofs.FpPrime
/-!
# The large prime factor of the cofactor of the second group

A chain of certificates as for the size of the base field.
-/

namespace Kzg.Zk.G2

/-- The large prime factor of the number of points. -/
def cofactorPrime : Nat :=
  402096035359507321594726366720466575392706800671181159425656785868777272553337714697862511267018014931937703598282857976535744623203249

theorem prime_44 : Nat.Prime 12192593745179 := by
  refine lucas_of_factors (a := 2) (fuel := 44) [2, 7, 11, 107, 541, 1367711] (by norm_num) (by norm_num) ?_
    (by norm_num) (by decide +kernel) (by decide +kernel)
  simp only [List.mem_cons, List.not_mem_nil, or_false]
  rintro q (rfl | rfl | rfl | rfl | rfl | rfl) <;> norm_num

theorem prime_49 : Nat.Prime 512088937297519 :=
  pocklington (a := 2) (fuel := 49)
    (c := 4398046511103)
    (d := 194591274223640)
    (by decide +kernel) (by decide +kernel) prime_44 (by decide +kernel) (by decide +kernel)
    (by decide +kernel) (by decide +kernel) (by decide +kernel)

theorem prime_61 : Nat.Prime 1857858664515398933 :=
  pocklington (a := 2) (fuel := 61)
    (c := 364711527723577203)
    (d := 1236402836366665646)
    (by decide +kernel) (by decide +kernel) prime_49 (by decide +kernel) (by decide +kernel)
    (by decide +kernel) (by decide +kernel) (by decide +kernel)

theorem prime_65 : Nat.Prime 22294303974184787197 :=
  pocklington (a := 2) (fuel := 65)
    (c := 4095)
    (d := 7523987324132692529)
    (by decide +kernel) (by decide +kernel) prime_61 (by decide +kernel) (by decide +kernel)
    (by decide +kernel) (by decide +kernel) (by decide +kernel)

theorem prime_75 : Nat.Prime 19931107752921199754119 :=
  pocklington (a := 2) (fuel := 75)
    (c := 3685394013329786069739)
    (d := 9302164181215546643137)
    (by decide +kernel) (by decide +kernel) prime_65 (by decide +kernel) (by decide +kernel)
    (by decide +kernel) (by decide +kernel) (by decide +kernel)

theorem prime_146 : Nat.Prime 81162125843606155545104998607900118769099783 :=
  pocklington (a := 2) (fuel := 146)
    (c := 37916707211710977199640885181451238404651891)
    (d := 17761861072643055516775716555374632761099671)
    (by decide +kernel) (by decide +kernel) prime_75 (by decide +kernel) (by decide +kernel)
    (by decide +kernel) (by decide +kernel) (by decide +kernel)

theorem prime_224 : Nat.Prime 26935696298915610574513298451669528361624243820491956655650666425177 :=
  pocklington (a := 2) (fuel := 224)
    (c := 6496585956164446936996240791050089041049976888615541788678518946890)
    (d := 343018900097218335727188288694046116764152099260135964239395187015)
    (by decide +kernel) (by decide +kernel) prime_146 (by decide +kernel) (by decide +kernel)
    (by decide +kernel) (by decide +kernel) (by decide +kernel)

theorem prime_381 : Nat.Prime 4638704574076146691498289350639807119782054683906549022985642612861209609656189848749536921852444848596916990932297 :=
  pocklington (a := 2) (fuel := 381)
    (c := 885641044549642137573437696400711361154856893636132131408553329775163670270687198825513889479936152959758207143037)
    (d := 301179848101838158637429221577536891252586276265428575942064732005081606677345289555941200827058757267344231180072)
    (by decide +kernel) (by decide +kernel) prime_224 (by decide +kernel) (by decide +kernel)
    (by decide +kernel) (by decide +kernel) (by decide +kernel)

theorem prime_448 : Nat.Prime cofactorPrime :=
  pocklington (a := 2) (fuel := 448)
    (c := 18784536854436767134371734921310204285470312091340463237014958786160394233721130856119444449548849612285628029278311866262167948819844)
    (d := 319784230445419903509767207952060705769347233125295332290745112750552601258167418384123844594125382842167442337474935395548518455133488)
    (by decide +kernel) (by decide +kernel) prime_381 (by decide +kernel) (by decide +kernel)
    (by decide +kernel) (by decide +kernel) (by decide +kernel)

end Kzg.Zk.G2
