import Verif.Proofs.Zk.PairingSpec
import Verif.Proofs.Zk.NatTower
/-!
# The pairing of the two generators, by evaluation in the kernel
-/

set_option exponentiation.threshold 10000

namespace Kzg.Zk.Miller
open Kzg Kzg.Res CurveConsts LawfulCurve Pairing G2

local notation "p" => fpModulus
local notation "r" => frModulus

/-! ## The steps on integers -/

/-- Negation. -/
def n2neg (x : N2) : N2 := n2sub ⟨0, 0⟩ x

theorem neg_cast (x : N2) : (n2neg x).cast = -x.cast := by
  rw [n2neg, n2sub_cast, N2.zero_cast, zero_sub]

/-- `doublingStep` on integers. -/
def nDbl (s : NPt) : NPt × N2 × N2 × N2 :=
  let tmp0 := s.x.mul s.x
  let tmp1 := s.y.mul s.y
  let tmp2 := tmp1.mul tmp1
  let tmp3 := n2sub (n2sub ((tmp1.add s.x).mul (tmp1.add s.x)) tmp0) tmp2
  let tmp3 := tmp3.add tmp3
  let tmp4 := (tmp0.add tmp0).add tmp0
  let tmp6 := s.x.add tmp4
  let tmp5 := tmp4.mul tmp4
  let zsquared := s.z.mul s.z
  let rx := n2red (n2sub (n2sub tmp5 tmp3) tmp3)
  let rz := n2red (n2sub (n2sub ((s.z.add s.y).mul (s.z.add s.y)) tmp1) zsquared)
  let ry := (n2sub tmp3 rx).mul tmp4
  let tmp2 := tmp2.add tmp2
  let tmp2 := tmp2.add tmp2
  let tmp2 := tmp2.add tmp2
  let ry := n2red (n2sub ry tmp2)
  let tmp3 := tmp4.mul zsquared
  let tmp3 := tmp3.add tmp3
  let tmp3 := n2neg tmp3
  let tmp6 := n2sub (n2sub (tmp6.mul tmp6) tmp0) tmp5
  let tmp1 := tmp1.add tmp1
  let tmp1 := tmp1.add tmp1
  let tmp6 := n2red (n2sub tmp6 tmp1)
  let tmp0 := rz.mul zsquared
  let tmp0 := tmp0.add tmp0
  (⟨rx, ry, rz⟩, (tmp0, tmp3, tmp6))

/-- `additionStep` on integers. -/
def nAdd (s q : NPt) : NPt × N2 × N2 × N2 :=
  let zsquared := s.z.mul s.z
  let ysquared := q.y.mul q.y
  let t0 := zsquared.mul q.x
  let t1 := (n2sub (n2sub ((q.y.add s.z).mul (q.y.add s.z)) ysquared) zsquared).mul zsquared
  let t2 := n2sub t0 s.x
  let t3 := t2.mul t2
  let t4 := t3.add t3
  let t4 := t4.add t4
  let t5 := t4.mul t2
  let t6 := n2sub (n2sub t1 s.y) s.y
  let t9 := t6.mul q.x
  let t7 := t4.mul s.x
  let rx := n2red (n2sub (n2sub (n2sub (t6.mul t6) t5) t7) t7)
  let rz := n2red (n2sub (n2sub ((s.z.add t2).mul (s.z.add t2)) zsquared) t3)
  let t10 := q.y.add rz
  let t8 := (n2sub t7 rx).mul t6
  let t0 := s.y.mul t5
  let t0 := t0.add t0
  let ry := n2red (n2sub t8 t0)
  let t10 := n2sub (t10.mul t10) ysquared
  let ztsquared := rz.mul rz
  let t10 := n2sub t10 ztsquared
  let t9 := n2red (n2sub (t9.add t9) t10)
  let t10 := rz.add rz
  let t6 := n2neg t6
  let t1 := n2red (t6.add t6)
  (⟨rx, ry, rz⟩, (t10, t1, t9))

/-- Coefficients as the words hold them. -/
def castC (c : N2 × N2 × N2) : Coeffs (Fp2 FpW) := (c.1.cast, c.2.1.cast, c.2.2.cast)

theorem nDbl_cast (s : NPt) : doublingStep s.cast = ((nDbl s).1.cast, castC (nDbl s).2) := by
  simp only [nDbl, doublingStep, NPt.cast, castC, n2red_cast, neg_cast, n2sub_cast, N2.mul_cast, N2.add_cast]

theorem nAdd_cast (s q : NPt) (inf : Bool) :
    additionStep s.cast ⟨q.x.cast, q.y.cast, inf⟩ = ((nAdd s q).1.cast, castC (nAdd s q).2) := by
  simp only [nAdd, additionStep, NPt.cast, castC, n2red_cast, neg_cast, n2sub_cast, N2.mul_cast, N2.add_cast]

/-- `ell` on integers. -/
def nEll (f : N12) (c : N2 × N2 × N2) (x y : Nat) : N12 :=
  f.mul ⟨c.2.2, ⟨0, 0⟩, c.2.1.mul ⟨x, 0⟩, c.1.mul ⟨y, 0⟩, ⟨0, 0⟩, ⟨0, 0⟩⟩

theorem nEll_cast (f : N12) (c : N2 × N2 × N2) (x y : Nat) (inf : Bool) :
    ell f.cast (castC c) ⟨x, y, inf⟩ = (nEll f c x y).cast := by
  have h : ∀ (c : Fp2 FpW) (x : Nat), (⟨c.c0 * x, c.c1 * x⟩ : Fp2 FpW) = c * N2.cast ⟨x, 0⟩ := by
    intro c x
    ext <;> simp [N2.cast]
  have hx : (⟨⟨c.2.2.cast, ⟨c.2.1.cast.c0 * x, c.2.1.cast.c1 * x⟩, 0⟩, ⟨0, ⟨c.1.cast.c0 * y, c.1.cast.c1 * y⟩, 0⟩⟩ : Fp12 FpW)
      = N12.cast ⟨c.2.2, ⟨0, 0⟩, c.2.1.mul ⟨x, 0⟩, c.1.mul ⟨y, 0⟩, ⟨0, 0⟩, ⟨0, 0⟩⟩ := by
    rw [h, h, N12.cast, N2.mul_cast, N2.mul_cast, N2.zero_cast]
  rw [nEll, N12.mul_cast, ← hx, ell, Fp12.mulBy014_eq]
  rfl

/-- The loop on integers. -/
def nLoop (q : NPt) (x y : Nat) : List Bool → NPt × N12 → NPt × N12
  | [], s => s
  | c :: l, s =>
    let d := nDbl s.1
    let f := nEll s.2 d.2 x y
    if c then
      let a := nAdd d.1 q
      let f := nEll f a.2 x y
      nLoop q x y l (a.1, f.mul f)
    else nLoop q x y l (d.1, f.mul f)

theorem nLoop_cast (q : NPt) (x y : Nat) (l : List Bool) : ∀ s : NPt × N12,
    loopOver (pairingDriver ⟨q.x.cast, q.y.cast, false⟩ ⟨x, y, false⟩) l (true, s.1.cast, s.2.cast)
      = .ok (true, (nLoop q x y l s).1.cast, (nLoop q x y l s).2.cast) := by
  induction l with
  | nil => exact fun s => rfl
  | cons c l ih =>
    intro s
    have hd : (pairingDriver ⟨q.x.cast, q.y.cast, false⟩ ⟨x, y, false⟩).doublingStep s.1.cast s.2.cast
        = .ok ((nDbl s.1).1.cast, (nEll s.2 (nDbl s.1).2 x y).cast) := by
      rw [(pairing_evaluating _ _).dbl, nDbl_cast, ← nEll_cast _ _ _ _ false]
    have ha : ∀ (u : NPt) (f : N12), (pairingDriver ⟨q.x.cast, q.y.cast, false⟩ ⟨x, y, false⟩).additionStep u.cast f.cast
        = .ok ((nAdd u q).1.cast, (nEll f (nAdd u q).2 x y).cast) := by
      intro u f
      rw [(pairing_evaluating _ _).add]
      simp only [nAdd_cast, nEll_cast]
    have hs : ∀ f : N12, (pairingDriver ⟨q.x.cast, q.y.cast, false⟩ ⟨x, y, false⟩).squareOutput f.cast = (f.mul f).cast := by
      intro f
      rw [(pairing_evaluating _ _).sq, Fp12.square_eq, N12.mul_cast]
    rw [loopOver, loopBody]
    simp only [Bool.not_true, Bool.false_eq_true, if_false, hd, bind_ok]
    cases c with
    | false =>
      simp only [Bool.false_eq_true, if_false, bind_ok, hs, nLoop]
      exact ih (_, _)
    | true =>
      simp only [if_true, ha, bind_ok, hs, nLoop]
      exact ih (_, _)

/-- The conjugate on integers. -/
def nConj (f : N12) : N12 :=
  ⟨f.a0, n2neg f.a1, f.a2, n2neg f.a3, f.a4, n2neg f.a5⟩

theorem nConj_cast (f : N12) : (nConj f).cast = f.cast.conjugate := by
  simp only [nConj, N12.cast, neg_cast]
  rfl

/-- The whole loop on integers. -/
def nMiller (q : NPt) (x y : Nat) : N12 :=
  let s := nLoop q x y tailBits (⟨q.x, q.y, ⟨1, 0⟩⟩, N12.one)
  nConj (nEll s.2 (nDbl s.1).2 x y)

theorem nMiller_cast (q : NPt) (x y : Nat) : ∃ cur,
    millerLoop (pairingDriver ⟨q.x.cast, q.y.cast, false⟩ ⟨x, y, false⟩) (Projective.ofAffine ⟨q.x.cast, q.y.cast, false⟩)
      = .ok (cur, (nMiller q x y).cast) := by
  have h0 : (Projective.ofAffine ⟨q.x.cast, q.y.cast, false⟩ : Proj) = NPt.cast ⟨q.x, q.y, ⟨1, 0⟩⟩ := by
    rw [NPt.cast, N2.one_cast]
    rfl
  have h := nLoop_cast q x y tailBits (⟨q.x, q.y, ⟨1, 0⟩⟩, N12.one)
  rw [N12.one_cast] at h
  refine ⟨(nDbl (nLoop q x y tailBits (⟨q.x, q.y, ⟨1, 0⟩⟩, N12.one)).1).1.cast, ?_⟩
  rw [millerLoop, loop_head _ loopBits_eq, h0, (pairing_evaluating _ _).one, h, bind_ok]
  simp only [(pairing_evaluating _ _).dbl, bind_ok, nDbl_cast, nEll_cast, (pairing_evaluating _ _).cj]
  rw [nMiller, nConj_cast]

/-! ## The values -/

/-- The value of the Miller loop. -/
def fN : N12 :=
  ⟨⟨0x5194f5785436c8debf0eb2bab4c6ef3de7dc0633c85769173777b782bf897fa45025fd03e7be941123c4ee19910e62e,
      0xe760e96f911ae38a6042da82d7b0e30787864e725e9d5462d224c91c4497104d838d566d894564bc19e09d8af706c3f⟩,
    ⟨0x5d928cb508feeb3329e51aa0bec4f33ba865a22da5a4e97eb31b78c0150c0c6134f0f94bd0154b28430ee4c6052e82b,
      0x159bfbbdc31bb5cb0082c59e5f744773335ef1fdddb8ed86a1c23f61f18800b647ff7dae335fb9ab5fcf2188cb64d72d⟩,
    ⟨0x751a051e0beb4a0e2351a7527d813b371e189056307d718a446e4016a3df787568a842f3401768dc03b966bd1db90ac,
      0xcbc592a19a3f60c9938676b257b9c01ed9d708f9428b29e272a811d13d734485970d9d3f1c097b12bfa3d1678096b1d⟩,
    ⟨0x1431225e128c5e2bfafb9eba23746150907688583f52e07fcde4cc93452b0c2bcd0f0893b48a696c403c6980d0940741,
      0x7508024863ec263bded120e45deb29c1f1303a056b279e116cb5fdb03013db19f81e78fa2b2b409cb2ce8e3ba96f4e6⟩,
    ⟨0x159ef660e2d84185f55c0ccae1dd7f8f71b12c0beb7a431fede9e62794d9154e9a0ce4715f64b032492459076224c99b,
      0x87d1320fe5bad5c2d8e12c49e6aff41a0b80e1497bbe85682e22ed853f256041bdf97ef02bdb5d80a5f9bc31d85f25e⟩,
    ⟨0x1868172fbbeb861d69c6c10f315c273d08312812c643dbf60588d0de3d2c4b3e9b21acd402f7ddee53f1c4797646ba96,
      0x1562633d4f2387ff79a0f625a6989072296a946ca6bbfa3fef879defde15ed96d205b2eebb454f48fb76fa8a845bcba7⟩⟩

/-- Its inverse. -/
def fiN : N12 :=
  ⟨⟨0x53903e889ae2ba2d16305c5cdcf5e0eee53bafa6a69dfffc644706442bca01ff1840862e02753b21646e3b84d31856e,
      0xdf2b1b8f18a4c2e7ed01ae21bafcf06ebd1cf371e9e53cc70cb957f1f57a8ff39357c18ed364541bd18c8eca59bd74b⟩,
    ⟨0x1402b746d4479a91689af10cb415bc98f5cb1c2a91c838becb81e7543bed8f95bfe5fdb09b6d4655855383bfec522e80,
      0x53a334c688101c3f5bde64266322bc859c4e3527a7e19d6410008b8c0fb182f23b1c4142926f1dda7601d006a359b3f⟩,
    ⟨0x163c125ee357653c981a1c062efb9cf37bbfa6cd043505f156ae5d966ec3953ad433af75a3f36dabe0bfe65ff35a1b34,
      0xae73ba8d2a77ef0b11e0f7e0dd1784fad46a2df7e5d8f8fa2bd2ae44ffde83f3a5b33a7990ae16a51d5e97ee1fb838c⟩,
    ⟨0x2a7a494dcd4db3e050ab699ab641229b0db6aabb2ec1825c99e2f98ee9071c4332dd20eaf71ecd66da09007b70cc92,
      0xf541bc21851953e1cdaef8bb7da9ffacaadfde838698e9e189838e8b2663528924c0ab2baf94e97599192714940c59d⟩,
    ⟨0x1081357eb0089c7e75dac531d40ad52d7748be51c4efe71bcdf27734eab43daf456cc1d50b5f5392c94e617c9b7de394,
      0xe328e5eac3e8a5cf63faca643e6398ebe50387ffef8d1a16173d1ce7521b767f6051ee77d4abae880a431f8ae218510⟩,
    ⟨0x995da8ce8330c58f1854fa554142958196ef978ff197a23c88d5ce2216e31166badee238168a8958c18b94c76a43ce8,
      0x173ce3e68bc01cf350a52174685461f1d0d73f5081057e944e1d4129eaaef94daa5dd91e62bea7b1f58205de41570808⟩⟩

/-- `f ^ (p^6 - 1)`. -/
def t1N : N12 :=
  ⟨⟨0x6be97656430a72bbddd2956af84b739f8abb1dc15e1abfd461b6e8450f45bca343f06c866221c965d6d06ac6eb21fb9,
      0x168f12763552999c495652cfccddcb22945426184855a20815b1763a7f0ae7cc09871f67d473f57e857be0867dd65ab3⟩,
    ⟨0x727da4570d2feb481c847e5e498b5d01684324260c6fcd48164a7a47d6be22e00472b9b0a1109147081364dcbc4966c,
      0x167e86fdf01f1a103acffce274f15f76da2c4277c03bdd0df21a0303384fd44a9823832b02251c73653f8e88941f0822⟩,
    ⟨0x107727221dcb2fb68fa53e5c6380d55d477423701aba45b38c62fbd7c6d0b04aa5c642f478b44a8516b8ae48314d71f9,
      0x1781930be186b1c9604d6860d7fa6722b3aa7908761ff643cd3f71133ac3bea92e0e1e6d0dee35160762410a36a5808⟩,
    ⟨0x145e4616905624ea83de2d2364309b5b8575a4b1e9d283709c3699d761131a7e0ccdeff3a9fc4ce99cb5a2e3b9de7c6,
      0x85e479e64e98cfee90d8647e0841082aaec92385571fc83a4f68ed51b8edeffe676a0f80ccdd09a9a99961a1fd29c82⟩,
    ⟨0x78b930cd2d5ad3b9b71607969d0d4d5a2d1417639651dd74b27fe1d0d09a97ff7ee1b4af9c7f67f19490eed12aefb70,
      0xef470ef7a657259b997edd40b7371eb34dba4afea1ce79893779a85683edabdae92cad020ca82cbea735373845221bb⟩,
    ⟨0x1334ef8a76dfbceb0e836bc4507fc268e53914445405b0f9750b35a125cd4ab67bda7937f7c3de3aa2748fbb8a3305eb,
      0x152ab35cd1b00ea4b37fd8b6f9c3edc8fb2ecd385dbec5d2214ba3ba1a2c7161fa36d5a114226bf3b2637218140ef36b⟩⟩

/-- Its `p`-th power. -/
def t1pN : N12 :=
  ⟨⟨0x6be97656430a72bbddd2956af84b739f8abb1dc15e1abfd461b6e8450f45bca343f06c866221c965d6d06ac6eb21fb9,
      0x371ff74042d4cfe01c554e6766de1b4d023256cab2f70b7517f5c6677a60e581524e096dce00a8134831f7982294ff8⟩,
    ⟨0xa4af2297ab73fca74542f24ccb01d3ad933812737f6457156942833e5c75f9b9c50e6f084044b53c7722c39c748e291,
      0xd0aea742f8d8541f74a767eea6fa7c37d729bb32705fb1537624013d7333157224fccddd4155cae568f688916923a35⟩,
    ⟨0x36922a309f6066766cd890ee9f55734fab616af5429d5f6671aeba80e8e9127da9ed36e402f9f23ce5eefd01a083de6,
      0x118a688b05538d7ba948b28b20ae23404569f8df4acd69b544351d4fc83ad7ca9d85024bafae29e29b09bc1c8d70d842⟩,
    ⟨0xe6ed88f6fe17875c4292b7426d2c015568628c64f5050099040cbfadd113dc218c5c20edef2b2790ec17a23387f2fb5,
      0xe49682ad71691a20e9ccad0062b9de76d4249d1edf59ab864130cd49f2d4a79b39ce70e29d4d965558143ee4877cb1e⟩,
    ⟨0x79c3efe2567db75da39d38e59cee96235c95b1c7a4482b81ede69b28b0e43e46891980f974390056eea0f0028338fc7,
      0xc87898fd545b10d326c30c38add4f6eef9b1c3e8504cd7c1d289aac5283ea0f86b643ca9ec04e97258fc87ebd760516⟩,
    ⟨0xcc7faf10b64e8a28eea1cf229653d5f61242a2bcd706d7ef9a2febc21cf746d0910eac4300280505fc4230861f21f9f,
      0x156aaebe4f13def42ecbd8141d1e449e6bcdf61d28af7db647c03269ec3f4ab5b12bdb2eb6ebcf11bf79503371b53573⟩⟩

/-- `f ^ ((p^6 - 1)(p^2 + 1))`. -/
def mN : N12 :=
  ⟨⟨0x9cfb5cdbdfb170f707acf2a119c60c7a42d9607400a07cf0a1ca6a66d678258b11fd6eef8dab538549b29fbe5e940a5,
      0x54010ee2fce8b2ef40ad45f69f8f34e8bff542a075af25a51b5558a3e20587f26c49ecb8f9d5e4f53502eca461a0191⟩,
    ⟨0x55c3a150de9f27ddd94f8a9f44dff985452d80beb58d9109bbbc9b7155768c3e2ac57399be682674f77f5a593cf5fa3,
      0x80686fcf89ea3bea2bad2570e6882097895ea3828ad67d807349e2cf032a7c965d83e06f795f295135ab0991f958aef⟩,
    ⟨0x181b92344a97b2be5183ff569d4e788a5c265eeff42b00016ccabe069eb66045bb202f93fdff68c4a69c5a2b114983a6,
      0x1828b41889e6745acefd33c061bac175eff11b68853690f3fd4cf86bfa7da384d65c7694187f771c1dee96dd0e3e50ca⟩,
    ⟨0x11f5e6bd624a29d8effc4ec21dd46d995045e66cc8657fb91a582b06bfdb925b343b9b7c279e547f8373ae7c9b601f3d,
      0x19aa5557f245b2ca84ed238cb32b279150dbbf88415386a23c6fb0f05f167b86bef07a74921f06bb88092a6206cc58c3⟩,
    ⟨0x152c9372d5c5379f2bc83de4767d582caad6d14a09b91556bcdb58f78cdc23e9726014205ca6e4daea514e835c30ffa6,
      0xf63c4bee282d774a5f565bff148c57d6c872f426cfa0118f3326a32e339321ba7caf65c22bac0bbc12e567aafa5e20b⟩,
    ⟨0x832f3fef66f64b46560617243b5e38291a18c2e1c4e5c3383bfcf87b2f40996f5505d61197a00ac57ac462e389aeeb9,
      0x7e850bc5bf5dcb89dc030a689f045f36e464093aa549b95c3eace6873451db6cf6374a8a9c29bed19e0f3fa2899f03b⟩⟩

/-- `m ^ (n + 1)`. -/
def a1N : N12 :=
  ⟨⟨0x3240f814c0796fabeb0d9599e29237a935cb9853efb71dc83ff272e7d14e9946f243955ffe3e8be4784a91c7d6a345c,
      0xe707db65d9e4becb1ba55cf5fc60183098b6b709eed0a0e41520920be2ec40d4dbebe4eadfe922defb86fae8fd3d899⟩,
    ⟨0xc86707a22df9a169609114961af0a7e232de4bbf43935ace7fe4acac98f39f0417988818e0ab739666274c7fa551932,
      0x5814839f5eafc9c39e1308df3923f003e2b894f21945551686dfd3f65ab2fbfc44591390b9a5d85eb3c9344d09e44ed⟩,
    ⟨0xa763e062db5c86dd8a35148744e9c6e2a494221eb6b26c0aa008f584bd1326ad94843b712c8b1068a798fe8c14460f7,
      0x193ab8772a037c5ebe20e68f5fb6ac5fe5b76acbe70721f3465eac420e599c6539bb586e576dd2c07ed359a57f0c8e3e⟩,
    ⟨0x14abac1cebe5306a6651c5537d24b96ef6701e687aceff98831c36b83bdd34888cafc15670893d6e33f987bb4058854d,
      0x1984614ec85f7fa70e598881c29b875acf777859f8b1241a03c935aef2a0f76ed1ccd847867fff309af17c9e38236b0b⟩,
    ⟨0x16a83ba1f33240c014fcb3128462d8eb33426cc265f7d90334234f2b6298457c229bb726f3b5ac41609e5a39533a237d,
      0x549a416e9ecf1607f6748f37f4fb2104a29bb142cd56a854147da85751ac8147eaa6a9f18c318c34188a5df6a45345d⟩,
    ⟨0x19184cafa7a6b6e1edb9901d6f735ea16872ae1bda83b9097a8c79585f7288e5c53f5e7724e1cf1187ce161d57bd634d,
      0xf0788c902f707b95f6c2de5f770919a30fb79cd5e67f61e1a90e21b23c925c1b6e5746e9b26a4d3a1a49f6007d9a6ae⟩⟩

/-- `m ^ (n + 1)²`. -/
def a2N : N12 :=
  ⟨⟨0x10b96d713c6a1d57b5f44811407ab0989d3cda4a4207df71e72d85b42f08ee52b5725a2943f6852acc00d32f0d9e948,
      0x5a8bbe5314127bcaeff8c2fbb11fcb7a3eff294c8ea67394a43e2c055a75d79657c482fa22fc6dc51ae9cdc18c7bccf⟩,
    ⟨0x4735a83086ea18d2fdcd83997c2b2552c0896520a5a5b6e597af7725e5ad0f65139fbfc099b32b2cbea8a75ba28cb33,
      0x184a9acc4b1b3aead9cf68f9fc00edb827ef417f6d8f5be524fec92ff9334e73872dc8f699bf47b778531e3dabd2a050⟩,
    ⟨0xa5207103b2af3659f2cf62bae11f8cbc0160c039a800edef3beebd8999ab40a111fb8a97f35ed0f485e92b16c850ba8,
      0xe59dd660ec174dfdfcd1ca547a86ce3d14eddb94ef2dccf97fdfd6a07da5c2a610908ee1a77bd11dc08c03f0cc55950⟩,
    ⟨0x1340a3186e2ff753ad9caf0d7cb2308a2ce1f613580b9f470e52677e2fd6819a544d44f4d3dc30b507c212bc86f326f0,
      0xf62b516be39668b9b1cfd5ca960e9ad7c8edac1c3622c9a9e2b106108b73570ff4efb6677ac6c862dd36f33300ee165⟩,
    ⟨0x1948034adeee49af6781d4750329ae4515f9e6fa73c0dc7dedce6c3c391f08ded1992ec833f6fac6647315ec37d2d9ad,
      0x1214b1c57d23f83ed38d54935fc5a1ff0cb27b3a0bbc608833c6ad295393f81c82f8a269cbc6e0f8ba6be2db158f4ef5⟩,
    ⟨0x83c1afd6259c9c20481e2ddb4cda0448d81aec62ae27d2e338379ab235dc209c1ea343eae6acc14d0c24fa3533f9f46,
      0x92c13705b4c69e708373cb950f5533731c8113537e1bb0151688a5dd04dcd8815ad3fc172094866d6e1112ccc08c851⟩⟩

/-- `m ^ ((n + 1)² n)`. -/
def c1N : N12 :=
  ⟨⟨0xed3a39c0d38345cec1c35398ab1da50a2d9fabda59e99f4874d06deac7401c23c52c6faca0d87301f173d37008a9c6b,
      0x1777de35e37c046551ac63d1651885a24b1fab9f36fce50e559f819beda792ad0d1432cce8b6e28ebde3f285a647adcd⟩,
    ⟨0x18c3aaa70c8d7f12012950eb0d156d403ec9461fc3546169a9144bfaa76d5866f85e71d7c1e2341736d3f6c3ab2d1d50,
      0x411af40e73d4bf38cfeefaeddd52a7e4a7b2c3c8e42e70bc499bb70395424592d24f092ef6bc2a5ed06b452e286bdff⟩,
    ⟨0xbd1b5253e700319aedd0316a6b33ada3b94103174ab8fc8d01bfaf185270f40aa8204d50b84ca60c5328476698fda53,
      0x72ba3727822e7cdca011e611124ab4f10cc9f3baa7c6eb57ee67618469eaec7922cfc1682424373899e839564ed5252⟩,
    ⟨0x559ac63d50f931d9f0fda268db4406c13da43a031f0229d24a1a92e32ff3a68d599d4d084c25c198e936452b0c32692,
      0x1465ec7f3de56de96e439b97849765d7c57c114a4a05b955cd48626bc6f74cb81e80fef87f21ec494c885bb85b7e29a⟩,
    ⟨0x172511dadcae35707aae2ee7e7161d81e74e9aba4c26bbfb339c5258534467d59ce56416394deaace7e6fcbfdaf8efaf,
      0x5854f75573a89d27e2bc8277ee09615e96dc8d13f987aeae753c91414cdba7745eefd76694e4eee827d7439396c046d⟩,
    ⟨0x176c56bde39355c729f6b511f71ecaaf1a4352fd8625098958d5c98cf8523c179febad2e6d6db09d01635070d5d880c2,
      0x16e02c1e83d049e1cd5171c158366657d29998201e2fc986eb59fa4865a5147f38a6f6400b60842cfcbc621e94414026⟩⟩

/-- The `p`-th power of `a2`. -/
def a2pN : N12 :=
  ⟨⟨0x10b96d713c6a1d57b5f44811407ab0989d3cda4a4207df71e72d85b42f08ee52b5725a2943f6852acc00d32f0d9e948,
      0x14585605083ebedd9c1c1b868839b01fc08758f02a9aab861cecefe0a10998aab92fb7cf0f24392368506323e737eddc⟩,
    ⟨0xfeb5a312b89a9185c7ac677c6912af194cab6fea1da654dd99dd6674b6b436abc2694e1c3350331b55b152da4ccdc58,
      0x2928838ea480f23b47a7392981a0e94d1b0f1df9ea11adba84d3d58eddff53d4f2553819caa1fa8254759aa81a284af⟩,
    ⟨0xd27180255c402cae0e62f4723d5028812cb7af2512cb90fe8d85c690623d4a1608b29ec32e9be5f3136373dc2680bf9,
      0x5c787e6e9e8b2f832f442b5b93e58c16fd9b83dbc2cf848c7e412444296cf858503a0e16730a95cdeb217771f964971⟩,
    ⟨0x69925762d9196174a597fb97962044baa49cd38c404bd18b03dc0fae2518a3394cf3d0aaeb32dcf53c5eecd8bbb3a3c,
      0x1bfddba950e0a98a1aae2d6daa396c78487b47c4816098f81654a78277f6b9028b8906954d1ea5dd93345006ccd56bf⟩,
    ⟨0x19c3e98ca4bb854907d26ff6cf5a136c5e7b45bf6b60dff72c2a80a718aa7fe73bfeb0eda70bccce24fcd4e0e89305cd,
      0x6c782ce8f25f2d6c881de03eef7933126efbbc22c0675420a7850a4fdc77902f7196a00cfb33810df89161860edd30b⟩,
    ⟨0x5ba72ec4c6e0a299468bbad2c13aaf8566845309f76bc0cee72c4f4d645e52bd511fe18c364b52606aa6e54a0fd1094,
      0x6500eba8370cd79bf2abc6e99e1f82b7a7de6ecfddcb396aca585245f6c8c65bd6fa920bb509e0d7dcd9af090f86b8b⟩⟩

/-- `a2p` over `c1`. -/
def bN : N12 :=
  ⟨⟨0x1130048e59bd85150d7d6b16f1ab240d6dc396c0edc8d7661bae66e441ccc0cfe93c7596ef271e5d19b72be97fe86527,
      0x26b53d6110a5f5570760cf00669c597a398f19f03a1fc7a9da3e1ebca88cf771885d01c80302e4faada0e03dd04d2d8⟩,
    ⟨0x12b689b1a75ecece22255408dccc4a947f8caf6eae8663cb67ceb2c4b8261b7bd46d9e2839a9b2a2896e7701d93ec3ac,
      0x1271ba6ecaa75c9070ebbbb88447a2475b32d6bd722f3c931b958efc5ff265412b13824ec5638099854032e2ea286a82⟩,
    ⟨0x1623d231c97dde6c2b6d2625e7581bddd8928b1249cc167ce76f810a434c9d7b8761fc24c77ecce8863bad5a26e1f0db,
      0x14f5f16ce9495c09ff03f86f22d6f2cd5cc10fa3c7c7782174ec897902e2baef63464012016361dad2ffe90527a70c5c⟩,
    ⟨0x189cc100ad2307a0e9515ea68877b7e4e3712fc4a4da5e4ca52c35747d9c54e429df91d037893e17e47c21d6627da6c4,
      0x131701c9c77629170f086e0186acebaeac65d72e4c26f7bfdda36d571f01f0aaa28ddbdcb347ba4d6c150ffb7457a7c1⟩,
    ⟨0x9bd7623f7fad2690f4fc703088f13310b70fd5d67f3c6ca9e7e81478dc6b68db3493e7e224964a5219f45291c84ff09,
      0x135d1923243c985cac22b350c0aca89287c5d3f2ae294171596d1b9ea87227ec4efcbb9630c5b9b3bd683a361f1024cf⟩,
    ⟨0x1813ed7c8c230021f5ab8a85c41870f1386989d6f044cd7a1a92e42037bbb4008de639a58bb6a576bbc7ec6cc0e295e4,
      0x49c55d9ac560074af46da6a8200f222e884275ff435740880ec47b7acc417587e75d94420da09b104d9ea8c9f8f23f6⟩⟩

/-- `b ^ n`. -/
def d1N : N12 :=
  ⟨⟨0x7954ede2c3a2e9eb388aa00056123c70f48693a2f2052c92c8c018d21ad6bc804007c73a7ec8cff4fd6679500b77d61,
      0x14c47524248db45327c02a91ab53fc4b06c55a904a45a1f63ffd3e7b4c9ebd0b0e66140e5ba9e3cd8963a1ffeaa890cb⟩,
    ⟨0x5db8b97d172f1f3ba9a6a822340ec5d81ebe726ee56f33bdd195d1f31e0eaa906c7f7c2bbbcd459e8b200412f178aae,
      0xae81e89eb5986a405db426f9dd716e3005c68762a99a5004e9892d365e05432e18c5fc043abfd2b7d79a944cdadf86f⟩,
    ⟨0x6f0fb5f5ae69f3775a792db347fbf3ff5403bf368879bf46a3ea4311a3b0651e15cc52d8679a04b823bb5f142d5728d,
      0x75f1841925076df89d4c5dd46a84486054a715aa61e19ece952429d073b466afecaea2a4d700a58386a4a6f140d2f91⟩,
    ⟨0x9f3373356336b0ae31226b9cba7d8e311df308d044c12fdd1846a41eed0ae57d74006850a14ec42e0030b6339731fa0,
      0x7cc66394e1fc89553ee27d68f364ce63825ca917aff3358a5a27a7e63956db1b70506a18c41e9f33cf3c2974961605c⟩,
    ⟨0x6202843e54982f652939c50ff13e61e639de8824718a4c098c411a80085df84ea7b28f65c67434f41053348b3cf2d81,
      0x903efb777128abbe814e6bb23966664889c4c859a3f0807ed8cb6c06a4745a3fb0ff3a22250810f8779cf36ffb37860⟩,
    ⟨0x12dabfbe987c7c3bcaa4be94acb8a9d7b176f07233eab7bd740286288840dcc9a3f772e147b66f664fd5e12096ac0748,
      0x63d868048b4e16f299ffe7796046aa0ac8cab68815bd8d11dcecd3e1c78155b810aade03b2c216b47883e27cb792464⟩⟩

/-- `b ^ n²`. -/
def d2N : N12 :=
  ⟨⟨0x1edca2c3cf8171d3032ef7341b68aa0fe89c8e75d55c131ccbf30957ae7432bb00c4143144a33f5fffd3d0166781444,
      0x562daae722cc94386586e2bf339cc52700f04e72ad4abe53b23d85780d79874694537d17483ce6ae41b7f125d307d7b⟩,
    ⟨0x12e85da9936449b8df1a873c142dbb89c0b60aac2f4334cb349d562f4a51db831fdf966460215a2625256048acd8d5c2,
      0xa32012f862b7021df8490e9eaec5a7b7f0dd68dd50fddea842371961db8d2c24044af347a8aca2c0d75719b6b50f856⟩,
    ⟨0x13e68e2d98ad316750ca5d1479adcd89f2784de0e9e96e0cd2ff78a83348abedfdec15fa4a8c61b7dde93573cde0cabe,
      0xd4a8dec27e72b42918f1792c0fccb2c5f4548701ddf91d010744b318ca796db2e5788bed08a0fc0117d8888edbd4bab⟩,
    ⟨0x14fe94913ae8d35f1ba95fcb4dc634115514ce2fa380127e106ace3428a37dc631424982a3a1a25df1f0f81b74b92ffe,
      0x91100316c75dbc4a6e354d61186481f3f3350b9fcac9c0aa5d1f5937a90fcb8922777037a6de48dc9c672b01d089161⟩,
    ⟨0x1362eb0d67263ddc0c91af7f8213f92f93b17f01525cef66ea34d2056537068b16fc9d71ac96480c58e083a0f4bf6728,
      0x81eeb15914e917409b120afdd8cbe088f7a451b44131e7dcad8775b3ee299375385d6b107b707bfc98b22509b96745e⟩,
    ⟨0x872c665e3d9fda5d8e7df3dfb3a25af9d0e7b275ad1c4d26f271abc99916f7ac7dd51c0d43806f0a562e951d211482c,
      0x18e22f0e63bbb6f5e2757310cf47a92f8e9db1a50ebcf7b3a6c5c9cd87162917fa10a73b9f2c1c43906fbbaa450975c3⟩⟩

/-- The `p`-th power of `b`. -/
def bpN : N12 :=
  ⟨⟨0x1130048e59bd85150d7d6b16f1ab240d6dc396c0edc8d7661bae66e441ccc0cfe93c7596ef271e5d19b72be97fe86527,
      0x1795be1428758744daa59ac63ce1e73fc0de59e5efe31644c98cf0b52c2826ad06262fe23123d1b00f24f1fc22fad7d3⟩,
    ⟨0x44987b23a2a69a6d2c700440e279801fa506e8a9dda73cc18f103d9b802e6bafaa123e94c107def79bade379bd8c76b,
      0x18f775e05f7bbd21eddcfed3608a2db7986b748ba6f291745d89654acaa7ea7e773373da9b15c2dd3be35fefa017d39e⟩,
    ⟨0xf41a2dab512486fcf45b5f4b15552414971bb29fe726ff71393fc335f3aa240f822b8f91048ab40c23fbf5559ef5c21,
      0x345203077518ded5c97287bcd4737f1fe97bcdac500cf04e556194ec9a455969392a8cf9cd961ebe826d9a3af992eb5⟩,
    ⟨0x142c9d5298478620ca22a5819ed2d4bdd34ff82203e21a083c6d74b28d482020f391959dc5085f71f82618d5a28fb6bf,
      0x7bee71f17915b304691e4de24b5874d00e23515985cd114bfe07930b06865e8e554f8e1415b59ea7c2cbd555f57ea86⟩,
    ⟨0x6123ecb92fd205b33b6c99347cdf70c090cb3694741facf13a4f7bab51cfc7574993266241b659c8401393db63739e6,
      0x5d231c567b21d5a2cea0de904f7187e463f965769c1e488a0b890b16fb6a91dfec561b8488ad9183d2bc61ad664ef1⟩,
    ⟨0x1667f39849d298c215fc93e966543b4d2bae4af339ae93158768e030a5ea31e379a3e106dc51284130e20c1be098f94d,
      0x4870e9c1b8bfc7d69e2425d0e1e72373583c88a0f2709c3f29b990e3188f063a0bed73b229ca48a31036be27fd68129⟩⟩

/-- The `p²`-th power of `b`. -/
def bp2N : N12 :=
  ⟨⟨0x1130048e59bd85150d7d6b16f1ab240d6dc396c0edc8d7661bae66e441ccc0cfe93c7596ef271e5d19b72be97fe86527,
      0x26b53d6110a5f5570760cf00669c597a398f19f03a1fc7a9da3e1ebca88cf771885d01c80302e4faada0e03dd04d2d8⟩,
    ⟨0xa85d7092318ca8acea8f98ac4160edab33621981cff0f6256ff94541e29eae765fcd4ed169dbd6666e98773cb51063e,
      0x15fb256b847b7315071f4bd6900846b95185584a2f78f6bc51a3a784ea5df1130ca3129fb61bafc350d40aa3d1f7a57⟩,
    ⟨0x981f87f8b07a40c31759148eac59078d4d0397e4b82d3d9a6b3847e9c0031203b75b0a4cfbd12b4b9c790229848b1b,
      0xfca8f8cd4a428bac7eda108b26b14a022bbcc3c20d03d6645e11f958b448f17e1ef06f250fbf2e3debe57a57e68ecd9⟩,
    ⟨0x16450e98c5cdef961ca490fbad3f4f281061bc04eaab472c2049d2c7914a13ff4cc6e2e79cac1e7d582de299d8203e7,
      0x6ea10207209bd833c1339b4bc9ec128b8117456a75e1aff898d6549d7af05797c1e2421fe0c45b24de9f0048ba802ea⟩,
    ⟨0x1655da91d482348c6f82aa46828a90b262130190d2d346c3dc5749141e073c0bdffbf3e6b32600f71c60f41499b1e588,
      0x646d5aabec82c67fc2a5386f24f92bcf84d7e2ccebfb30583b82df7374363a5efc2ee4cfc0598ba78c40968338936eb⟩,
    ⟨0xa1b6bb72bfebcdd0ca69719fb43ae1b2efd61edc70e03e5b7a49f227b7c4ef5ce58a59924ae3b2357a1012f56c479c5,
      0xa5c8082957a895a2d1e30c2a6f76bfab1fc1305c0d72f05a43ffc6272ff5639456702a3e133dcfdbbd96f757e5836ae⟩⟩

/-- `d2` times `bp2` over `b`. -/
def cN : N12 :=
  ⟨⟨0x16bbc7dc3bf50bc397eecf3d97bdc58307d4ff698de11c68c57290ee171f6a497f58774c2c5db2b440cc237a86939535,
      0x952afcccc60000ae338a2f0c3885875ea1394734eae4e3674c5bd5e210ecf86a5b4d7d685202fbdc13d35836bd81ee4⟩,
    ⟨0xf49c0843b7cc00eee28010fac60d292cebb5ff1ab41e9d2c24768418429b3037080468e4f6faae4e62a1ea7cd6f4934,
      0x28995105a7eeceb2c1fb2da80581e4f4aac4096a91603a91a4a1cacf994269965876da3c1601263fe308239413103d9⟩,
    ⟨0x9c8d415753b3ab7513b718dd0285bbc32e9ea5cb3554a4175fc1d3c3dc70843cea06f5dd94cb7d1e1324686fe5f910a,
      0x66ad925b7ddd304a4b546c2fc711dbeb838198e5106568ef2575fa60d75d841da681ac55de60f796922131715e9fa4b⟩,
    ⟨0xf4abb0e194521603c5eafb308a5dab54d28e1b0e97b7cabf808b39692f3613aee2bb592eedc0005e37f9fa93a244920,
      0x72d7aac0c8ab83cee9758d163e19c25f7f7fa652be208efb06be0fcde501ce47b7f91d7b2a39a6e5a502704fc4d3632⟩,
    ⟨0x13b4a40cc32442f5b1d50d80e753c29f7bedc015be18d60bd7f8faac98d81d12e0f5e6ccd58f2d62a2d79f69e875d61b,
      0x14975a3ef6dd34e78178acaae4ba01f506c959d1a5836ea76a6ef1dc0505b6cebb1b343a31cc7b1d69003488f723bcd7⟩,
    ⟨0xa1ff00a7487e78d851dbdaa736edceaccf7b83ef3f30f28473eea628e7488348798df672a42060b47e37470b188cce5,
      0x39405c223ae2100fa7f0f9894594ed1725dd868d33bc1ab2660bc624882e0068ccbb65e1060c12fd9ad5bd2145e5d64⟩⟩

theorem pow_lit {x y : N12} (fuel n : Nat) (h : n < 2 ^ fuel) (hc : (N12.pow fuel x n N12.one).Cong y = true) :
    x.cast ^ n = y.cast := by
  rw [← N12.cast_eq_of_cong hc, N12.pow_cast fuel x n _ h, N12.one_cast, one_mul]

theorem mul_lit {x y z : N12} (hc : (x.mul y).Cong z = true) : x.cast * y.cast = z.cast := by
  rw [← N12.cast_eq_of_cong hc, N12.mul_cast]

theorem conj_mul_lit {x y z : N12} (hc : ((nConj x).mul y).Cong z = true) : x.cast ^ p ^ 6 * y.cast = z.cast := by
  rw [← N12.cast_eq_of_cong hc, N12.mul_cast, nConj_cast, Fp12.conjugate_eq]

theorem miller_lit : (nMiller ng G1.gxNat G1.gyNat).cast = fN.cast := N12.cast_eq_of_cong (by decide +kernel)

/-- The length of the loop. -/
def nX : Nat := 0xd201000000010000

theorem exp_alg {f fi t1 t1p m a1 a2 c1 a2p b d1 d2 bp bp2 c : Fp12 FpW} (hi : f * fi = 1) (ht : f ^ p ^ 6 * fi = t1)
    (htp : t1 ^ p = t1p) (hm : t1p ^ p * t1 = m) (h1 : m ^ (nX + 1) = a1) (h2 : a1 ^ (nX + 1) = a2) (h3 : a2 ^ nX = c1)
    (h4 : a2 ^ p = a2p) (h5 : c1 ^ p ^ 6 * a2p = b) (h6 : b ^ nX = d1) (h7 : d1 ^ nX = d2) (h8 : b ^ p = bp)
    (h9 : bp ^ p = bp2) (h10 : b ^ p ^ 6 * (d2 * bp2) = c) : f ^ finalExp = c * (m * (m * m)) := by
  have hf : f ≠ 0 := by
    rintro rfl
    rw [zero_mul] at hi
    exact zero_ne_one hi
  have e1 : t1 = f ^ (p ^ 6 - 1) := by
    rw [← ht]
    have : f ^ p ^ 6 = f ^ (p ^ 6 - 1) * f := by rw [← pow_succ, show p ^ 6 - 1 + 1 = p ^ 6 by decide +kernel]
    rw [this, mul_assoc, hi, mul_one]
  have e2 : m = f ^ ((p ^ 6 - 1) * (p ^ 2 + 1)) := by
    rw [← hm, ← htp, e1, ← pow_mul, ← pow_mul, ← pow_add]
    congr 1
  have e3 : a2 = m ^ ((nX + 1) ^ 2) := by
    rw [← h2, ← h1, ← pow_mul, pow_two]
  have e4 : b = m ^ ((nX + 1) ^ 2 * (p + nX * p ^ 6)) := by
    rw [← h5, ← h4, ← h3, e3, ← pow_mul, ← pow_mul, ← pow_mul, ← pow_add]
    congr 1
  have e5 : c = b ^ (nX ^ 2 + p ^ 2 + p ^ 6) := by
    rw [← h10, ← h9, ← h8, ← h7, ← h6, ← pow_mul, ← pow_mul, ← pow_add, ← pow_add]
    congr 1
  have e6 : c * (m * (m * m)) = m ^ ((nX + 1) ^ 2 * (p + nX * p ^ 6) * (nX ^ 2 + p ^ 2 + p ^ 6) + 3) := by
    rw [e5, e4, ← pow_mul]
    generalize (nX + 1) ^ 2 * (p + nX * p ^ 6) * (nX ^ 2 + p ^ 2 + p ^ 6) = k
    ring
  rw [e6, e2, ← pow_mul]
  have key : (p ^ 6 - 1) * (p ^ 2 + 1) * ((nX + 1) ^ 2 * (p + nX * p ^ 6) * (nX ^ 2 + p ^ 2 + p ^ 6) + 3)
      = finalExp + (p ^ 12 - 1) * (((p ^ 6 - 1) * (p ^ 2 + 1) * ((nX + 1) ^ 2 * (p + nX * p ^ 6) * (nX ^ 2 + p ^ 2 + p ^ 6) + 3)
        - finalExp) / (p ^ 12 - 1)) := by decide +kernel
  rw [key, pow_add, pow_mul _ (p ^ 12 - 1), Fp12.pow_card hf, one_pow, mul_one]

theorem final_lit : fN.cast ^ finalExp = Gt.generator := by
  rw [exp_alg (f := fN.cast) (fi := fiN.cast) (t1 := t1N.cast) (t1p := t1pN.cast) (m := mN.cast) (a1 := a1N.cast)
    (a2 := a2N.cast) (c1 := c1N.cast) (a2p := a2pN.cast) (b := bN.cast) (d1 := d1N.cast) (d2 := d2N.cast)
    (bp := bpN.cast) (bp2 := bp2N.cast) (c := cN.cast)
    (by rw [← N12.one_cast]; exact mul_lit (by decide +kernel))
    (conj_mul_lit (by decide +kernel))
    (pow_lit 384 p (by decide +kernel) (by decide +kernel))
    (by
      rw [mul_comm, ← N12.pow_cast 384 t1pN p t1N (by decide +kernel)]
      exact N12.cast_eq_of_cong (by decide +kernel))
    (pow_lit 64 (nX + 1) (by decide +kernel) (by decide +kernel))
    (pow_lit 64 (nX + 1) (by decide +kernel) (by decide +kernel))
    (pow_lit 64 nX (by decide +kernel) (by decide +kernel))
    (pow_lit 384 p (by decide +kernel) (by decide +kernel))
    (conj_mul_lit (by decide +kernel))
    (pow_lit 64 nX (by decide +kernel) (by decide +kernel))
    (pow_lit 64 nX (by decide +kernel) (by decide +kernel))
    (pow_lit 384 p (by decide +kernel) (by decide +kernel))
    (pow_lit 384 p (by decide +kernel) (by decide +kernel))
    (by rw [← N12.mul_cast]; exact conj_mul_lit (by decide +kernel))]
  rw [N12.gen_cast, ← N12.mul_cast, ← N12.mul_cast, ← N12.mul_cast]
  exact N12.cast_eq_of_cong (by decide +kernel)

/-- The pairing of the generators is the generator of the target group. -/
theorem e_gen : e G1.gen gen = Gt.generator := by
  obtain ⟨cur, h1⟩ := nMiller_cast ng G1.gxNat G1.gyNat
  have hq : (⟨ng.x.cast, ng.y.cast, false⟩ : G2.Aff) = G2.generator := by
    rw [G2.generator, gx_eq, gy_eq]
    rfl
  have ha : (⟨(G1.gxNat : FpW), (G1.gyNat : FpW), false⟩ : G1.Aff) = G1.generator := by
    rw [G1.generator, G1.gx_eq, G1.gy_eq]
  rw [hq, ha, miller_lit] at h1
  obtain ⟨cur', f, h2, hv⟩ := loop_val G1.generator_is G1.gen_ne G2.generator_is G2.order_gen G2.gen_ne
  rw [h1] at h2
  cases h2
  rw [← hv.eq, final_lit]

end Kzg.Zk.Miller
