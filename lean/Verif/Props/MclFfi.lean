import Verif.Model.Mcl.Ffi
import Verif.Props.CkzgFfi
import Mathlib.Data.Nat.Digits.Lemmas
/-!
# Property C173: texts and bytes of mcl-kzg

`CType` and `CGlobal` are any library. What is assumed of it is stated in each theorem.
-/

namespace Kzg.Props
open Kzg Kzg.Mcl.Ffi
open Kzg.Ckzg (Out ffi)

variable {T F : Type}

/-- The library writes within the buffer, and returns a number of bytes it wrote. -/
def KeepsBuffer (f : Nat → T → Nat × List Nat) : Prop :=
  ∀ max x, (f max x).2.length ≤ max ∧ (f max x).1 ≤ (f max x).2.length

/-- The library writes the bytes `enc x` if they fit, and returns zero otherwise. -/
def Writes (f : Nat → T → Nat × List Nat) (enc : T → List Nat) : Prop :=
  ∀ max x, ((enc x).length ≤ max → f max x = ((enc x).length, enc x)) ∧ (max < (enc x).length → f max x = (0, []))

/-- The library writes the text `t x` if there is room for it and one more byte, and returns zero if it does not fit. -/
def Prints (f : Nat → T → Nat × List Nat) (t : T → List Nat) : Prop :=
  ∀ max x, ((t x).length < max → f max x = ((t x).length, t x)) ∧ (max < (t x).length → f max x = (0, []))

/-- C173: serialising never leaves the buffer and never shows bytes that were not written; it panics exactly if the library
returns zero. -/
theorem C173_serialize_safe (L : CType T F) (h : KeepsBuffer L.serialize) (size : Nat) (x : T) :
    Mcl.Ffi.serialize L size x ≠ .ub ∧ (Mcl.Ffi.serialize L size x = .panic ↔ (L.serialize size x).1 = 0) := by
  obtain ⟨h1, h2⟩ := h size x
  rw [Mcl.Ffi.serialize, ffi_le (by simpa using h1)]
  split
  · rename_i e; simp [e]
  · rename_i e; rw [ffi_le (by simpa using h2)]; simp [e]

/-- C173: a library that returns more than it wrote, or writes beyond the buffer, makes serialising undefined: the wrapper checks
neither. -/
theorem C173_serialize_unchecked (L : CType T F) (size : Nat) (x : T)
    (h : size < (L.serialize size x).2.length ∨ (L.serialize size x).2.length < (L.serialize size x).1) :
    Mcl.Ffi.serialize L size x = .ub := by
  rw [Mcl.Ffi.serialize]
  by_cases h1 : size < (L.serialize size x).2.length
  · rw [ffi, if_neg (by simpa using h1)]
  · have h2 := h.resolve_left h1
    rw [ffi_le (by simpa using h1), if_neg (by omega), ffi, if_neg (by simpa using h2)]

/-- C173: with the sizes of BLS12-381 every buffer has the size of the encoding: 32 bytes for `Fr`, 48 for `Fp` and `G1`, 96 for
`Fp2` and `G2`, 576 for `GT`. -/
theorem C173_sizes (G : CGlobal) (hr : G.frBytes = 32) (hp : G.fpBytes = 48) :
    frSize G = .ok 32 ∧ fpSize G = .ok 48 ∧ fp2Size G = .ok 96 ∧ g1Size G = .ok 48 ∧ g2Size G = .ok 96 ∧
      gtSize G = .ok 576 := by
  simp [frSize, fpSize, fp2Size, g1Size, g2Size, gtSize, mulU32, hr, hp]

/-- C173: the sizes that are products panic (with overflow checks) exactly when the product does not fit 32 bits. -/
theorem C173_sizes_overflow (G : CGlobal) : (fp2Size G = .panic ↔ 2 ^ 32 ≤ 2 * G.fpBytes) ∧ g2Size G = fp2Size G ∧
    (gtSize G = .panic ↔ 2 ^ 32 ≤ 12 * G.fpBytes) := by
  refine ⟨?_, rfl, ?_⟩
  · rw [fp2Size, mulU32]
    split
    · simp; omega
    · simp; omega
  · rw [gtSize, mulU32]
    split
    · simp; omega
    · simp; omega

/-- C173: if the encoding fits, serialising returns it; bytes from serialising are read back to the value. -/
theorem C173_serialize (L : CType T F) (enc : T → List Nat) (h : Writes L.serialize enc) (size : Nat) (x : T)
    (h0 : enc x ≠ []) (hs : (enc x).length ≤ size) :
    Mcl.Ffi.serialize L size x = .ok (enc x) := by
  rw [Mcl.Ffi.serialize, (h size x).1 hs]
  dsimp only
  rw [ffi_le (by simpa using hs), if_neg (by simpa using h0), ffi_le (by simp), List.take_length]

/-- C173: an encoding that is longer than the buffer is a panic. -/
theorem C173_serialize_small (L : CType T F) (enc : T → List Nat) (h : Writes L.serialize enc) (size : Nat) (x : T)
    (hs : size < (enc x).length) : Mcl.Ffi.serialize L size x = .panic := by
  rw [Mcl.Ffi.serialize, (h size x).2 hs]
  simp [ffi]

/-- C173: reading bytes says yes whatever follows the encoding; the number of bytes read is not compared with the length. -/
theorem C173_deserialize_trailing (L : CType T F) (enc : T → List Nat)
    (h : ∀ old x rest, L.deserialize old (enc x ++ rest) = (x, (enc x).length)) (old x : T) (rest : List Nat)
    (h0 : enc x ≠ []) : Mcl.Ffi.deserialize L old (enc x ++ rest) = (x, true) := by
  rw [Mcl.Ffi.deserialize, h]
  simpa using List.length_pos_iff.mpr h0

/-! ### Texts -/

theorem numText_length (b n : Nat) (hb : 1 < b) (k : Nat) (hk : 0 < k) (h : n < b ^ k) : (numText b n).length ≤ k := by
  rw [numText]
  split
  · simpa [Nat.one_le_iff_ne_zero] using hk.ne'
  · rw [List.length_map, List.length_reverse]
    exact (Nat.digits_length_le_iff hb n).mpr h

theorem numText_long (b n : Nat) (hb : 1 < b) (k : Nat) (h : b ^ k ≤ n) : k < (numText b n).length := by
  have : n ≠ 0 := by have := Nat.pow_pos (n := k) (show 0 < b by omega); omega
  rw [numText, if_neg this, List.length_map, List.length_reverse]
  exact (Nat.lt_digits_length_iff hb n).mpr h

theorem numsText_length (b k : Nat) (hb : 1 < b) (hk : 0 < k) : ∀ ns : List Nat, (∀ n ∈ ns, n < b ^ k) →
    (numsText b ns).length ≤ (k + 1) * ns.length
  | [], _ => by simp [numsText]
  | [n], h => by
    have := numText_length b n hb k hk (h n (by simp))
    simp [numsText]; omega
  | n :: m :: ns, h => by
    have h1 := numText_length b n hb k hk (h n (by simp))
    have h2 := numsText_length b k hb hk (m :: ns) fun x hx => h x (by simp only [List.mem_cons] at hx ⊢; tauto)
    simp only [numsText, List.length_append, List.length_cons] at h2 ⊢
    have : (k + 1) * (ns.length + 1 + 1) = (k + 1) * (ns.length + 1) + (k + 1) := by ring
    omega

theorem numsText_long (b k : Nat) (hb : 1 < b) : ∀ ns : List Nat, (∀ n ∈ ns, b ^ k ≤ n) → ns ≠ [] →
    (k + 2) * ns.length ≤ (numsText b ns).length + 1
  | [], _, h0 => absurd rfl h0
  | [n], h, _ => by
    have := numText_long b n hb k (h n (by simp))
    simp [numsText]; omega
  | n :: m :: ns, h, _ => by
    have h1 := numText_long b n hb k (h n (by simp))
    have h2 := numsText_long b k hb (m :: ns) (fun x hx => h x (by simp only [List.mem_cons] at hx ⊢; tauto)) (by simp)
    simp only [numsText, List.length_append, List.length_cons] at h2 ⊢
    have : (k + 2) * (ns.length + 1 + 1) = (k + 2) * (ns.length + 1) + (k + 2) := by ring
    omega

theorem numText_ascii (b n : Nat) (hb : 1 < b) (hb2 : b ≤ 16) : ∀ c ∈ numText b n, c < 128 := by
  intro c hc
  rw [numText] at hc
  split at hc
  · simp at hc; omega
  · obtain ⟨d, hd, rfl⟩ := List.mem_map.mp hc
    have := Nat.digits_lt_base hb (List.mem_reverse.mp hd)
    split <;> omega

theorem numsText_ascii (b : Nat) (hb : 1 < b) (hb2 : b ≤ 16) : ∀ ns : List Nat, ∀ c ∈ numsText b ns, c < 128
  | [], c, h => by simp [numsText] at h
  | [n], c, h => numText_ascii b n hb hb2 c h
  | n :: m :: ns, c, h => by
    simp only [numsText, List.mem_append, List.mem_cons] at h
    rcases h with h | h | h
    · exact numText_ascii b n hb hb2 c h
    · omega
    · exact numsText_ascii b hb hb2 (m :: ns) c h

theorem numText_ne_nil (b n : Nat) : numText b n ≠ [] := by
  rw [numText]
  split
  · simp
  · rename_i h; simpa using Nat.digits_ne_nil_iff_ne_zero.mpr h

theorem numsText_ne_nil (b : Nat) : ∀ ns : List Nat, ns ≠ [] → numsText b ns ≠ []
  | [], h => absurd rfl h
  | [n], _ => numText_ne_nil b n
  | n :: m :: ns, _ => by simp [numsText]

theorem pow_384 : (2 : Nat) ^ 384 ≤ 10 ^ 116 := by
  rw [show (384 : Nat) = 128 * 3 from rfl, pow_mul]; norm_num

theorem textOf_fits {size : Nat} {t : List Nat} (h0 : t ≠ []) (ha : ∀ c ∈ t, c < 128) (h : t.length ≤ size) :
    textOf size (t.length, t) = .ok t := by
  have e : (over size t).take t.length = t := by rw [over, List.take_left']; rfl
  rw [textOf, ffi_le (by simpa using h)]
  dsimp only
  rw [if_neg (by simpa using h0), if_neg (by omega), e, if_pos (by simpa using ha)]

/-- C173: elements of `Fr`, `Fp`, `Fp2`, `G1` and `G2` (at most five numbers below `2^384`) are printed in full in the bases 10 and
16. -/
theorem C173_text_fits_partial (L : CType T F) (b : Nat) (hb : b = 10 ∨ b = 16) (nums : T → List Nat)
    (h : Prints (fun max x => L.getStr max x b) fun x => numsText b (nums x)) (x : T) (h0 : nums x ≠ [])
    (h5 : (nums x).length ≤ 5) (hn : ∀ n ∈ nums x, n < 2 ^ 384) :
    Mcl.Ffi.getStr L x b = .ok (numsText b (nums x)) := by
  have hl : (numsText b (nums x)).length < 1024 := by
    have h1 : 1 < b := by omega
    have := numsText_length b 116 h1 (by omega) (nums x) fun n hm => by
      refine lt_of_lt_of_le (hn n hm) ?_
      exact pow_384.trans (Nat.pow_le_pow_left (by omega) 116)
    have : (116 + 1) * (nums x).length ≤ 117 * 5 := Nat.mul_le_mul (by omega) h5
    omega
  have hg := (h 1024 x).1 hl
  simp only at hg
  rw [Mcl.Ffi.getStr, hg]
  exact textOf_fits (numsText_ne_nil b _ h0) (numsText_ascii b (by omega) (by omega) _) (by omega)

/-- C173, refuted for `GT` and for other bases: a text of more than 1024 bytes is a panic. -/
theorem C173_text_panics (L : CType T F) (b : Nat) (nums : T → List Nat)
    (h : Prints (fun max x => L.getStr max x b) fun x => numsText b (nums x)) (x : T)
    (hl : 1024 < (numsText b (nums x)).length) : Mcl.Ffi.getStr L x b = .panic := by
  have hg := (h 1024 x).2 hl
  simp only at hg
  rw [Mcl.Ffi.getStr, hg]
  simp [textOf, ffi]

/-- C173: an element of `GT` whose twelve coordinates have at least 86 decimal digits cannot be printed. -/
theorem C173_gt_panics (L : CType T F) (nums : T → List Nat)
    (h : Prints (fun max x => L.getStr max x 10) fun x => numsText 10 (nums x)) (x : T)
    (h12 : (nums x).length = 12) (hn : ∀ n ∈ nums x, 10 ^ 85 ≤ n) : Mcl.Ffi.getStr L x 10 = .panic := by
  have := numsText_long 10 85 (by omega) (nums x) hn (by intro e; simp [e] at h12)
  exact C173_text_panics L 10 nums h x (by rw [h12] at this; omega)

/-- C173: a point of `G2` whose four coordinates have at least 256 bits cannot be printed in base 2. -/
theorem C173_binary_panics (L : CType T F) (nums : T → List Nat)
    (h : Prints (fun max x => L.getStr max x 2) fun x => numsText 2 (nums x)) (x : T)
    (h4 : ∃ a, nums x = 1 :: a ∧ a.length = 4 ∧ ∀ n ∈ a, 2 ^ 255 ≤ n) : Mcl.Ffi.getStr L x 2 = .panic := by
  obtain ⟨a, ha, hl, hn⟩ := h4
  have := numsText_long 2 255 (by omega) a hn (by intro e; simp [e] at hl)
  refine C173_text_panics L 2 nums h x ?_
  rw [ha]
  match a, hl with
  | c :: cs, hl =>
    simp only [numsText, List.length_append, List.length_cons] at this ⊢
    have h1 : 0 < (numText 2 1).length := List.length_pos_iff.mpr (numText_ne_nil 2 1)
    simp only [List.length_cons] at hl
    have : (255 + 2) * (cs.length + 1) = 257 * 4 := by rw [hl]
    omega

/-- C173: the orders of the field and of the group, numbers below `2^384`, are printed in full. -/
theorem C173_orders (G : CGlobal) (p r : Nat) (hp : Prints (fun m (_ : Unit) => G.fieldOrder m) fun _ => numText 10 p)
    (hr : Prints (fun m (_ : Unit) => G.curveOrder m) fun _ => numText 10 r) (h1 : p < 2 ^ 384) (h2 : r < 2 ^ 384) :
    getFieldOrder G = .ok (numText 10 p) ∧ getCurveOrder G = .ok (numText 10 r) := by
  have hl : ∀ n, n < 2 ^ 384 → (numText 10 n).length ≤ 116 := fun n hn =>
    numText_length 10 n (by omega) 116 (by omega) (lt_of_lt_of_le hn pow_384)
  have e1 := (hp 256 ()).1 (by have := hl p h1; simp only; omega)
  have e2 := (hr 256 ()).1 (by have := hl r h2; simp only; omega)
  simp only at e1 e2
  rw [getFieldOrder, getCurveOrder, e1, e2]
  exact ⟨textOf_fits (numText_ne_nil 10 p) (numText_ascii 10 p (by omega) (by omega)) (by have := hl p h1; omega),
    textOf_fits (numText_ne_nil 10 r) (numText_ascii 10 r (by omega) (by omega)) (by have := hl r h2; omega)⟩

/-- C173: the operators give what the library stores for the operands in their order; the assigning variants give the same. Reading
a text yields a value exactly if the library returns zero, and that value; a predicate holds exactly if the library returns one. -/
theorem C173_answers (L : CType T F) (x y old : T) (s : F) (t : List Nat) (b : Int) (v : Int) :
    (addOp L x y = L.add L.zeroed x y ∧ addAssign L x y = addOp L x y) ∧
    (subOp L x y = L.sub L.zeroed x y ∧ subAssign L x y = subOp L x y) ∧
    (mulOp L x y = L.mul L.zeroed x y ∧ mulAssign L x y = mulOp L x y) ∧
    (divOp L x y = L.div L.zeroed x y ∧ divAssign L x y = divOp L x y) ∧
    getNeg L x = L.neg L.zeroed x ∧ getInv L x = L.inv L.zeroed x ∧ mulScalar L x s = L.mulFr L.zeroed x s ∧
    (∀ z, fromStr L t b = some z ↔ L.setStr L.zeroed t b = (z, 0)) ∧ fromInt L v = L.setInt L.zeroed v ∧
    clear L x = L.zeroed ∧ zero L = L.zeroed ∧
    (Mcl.Ffi.eq L x y = true ↔ L.isEqual x y = 1) ∧ (Mcl.Ffi.isZero L x = true ↔ L.isZero x = 1) ∧
    (isValid L x = true ↔ L.isValid x = 1) ∧ (Mcl.Ffi.isOne L x = true ↔ L.isOne x = 1) ∧
    (isOdd L x = true ↔ L.isOdd x = 1) ∧ (isNegative L x = true ↔ L.isNegative x = 1) ∧
    (∀ z, setLittleEndian L old t = (z, true) ↔ L.setLittleEndian old t = (z, 0)) ∧
    (∀ z, setLittleEndianMod L old t = (z, true) ↔ L.setLittleEndianMod old t = (z, 0)) ∧
    (∀ z, setHashOf L old t = (z, true) ↔ L.setHashOf old t = (z, 0)) ∧
    (∀ z, squareRoot L old x = (z, true) ↔ L.squareRoot old x = (z, 0)) := by
  refine ⟨⟨rfl, rfl⟩, ⟨rfl, rfl⟩, ⟨rfl, rfl⟩, ⟨rfl, rfl⟩, rfl, rfl, rfl, fun z => ?_, rfl, rfl, rfl, ?_, ?_, ?_, ?_, ?_, ?_,
    fun z => ?_, fun z => ?_, fun z => ?_, fun z => ?_⟩
  · have e : fromStr L t b = if ((L.setStr L.zeroed t b).2 == 0) = true then some (L.setStr L.zeroed t b).1 else none := rfl
    rw [e, Prod.ext_iff]
    by_cases h : (L.setStr L.zeroed t b).2 = 0 <;> simp [h]
  all_goals simp [Mcl.Ffi.eq, Mcl.Ffi.isZero, isValid, Mcl.Ffi.isOne, isOdd, isNegative, setLittleEndian, setLittleEndianMod,
    setHashOf, squareRoot, Prod.ext_iff]

/-- C173: the library is initialised for the curve BLS12-381 with number 5 and the sizes 4 and 6 of its elements in words. -/
theorem C173_init (G : CGlobal) : init G .bls12_381 = true ↔ G.init 5 46 = 0 := by
  simp [init, CurveType.code]

/-! ### Examples: a library for numbers below `2^384` -/

/-- A library that prints lists of numbers and stores nothing else. -/
def listLib : CType (List Nat) Nat where
  zeroed := []
  isEqual x y := if x = y then 1 else 0
  isZero x := if x = [] then 1 else 0
  isValid _ := 1
  isOne x := if x = [1] then 1 else 0
  isOdd x := (x.getD 0 0 % 2 : Nat)
  isNegative _ := 0
  serialize max x := if x.length ≤ max then (x.length, x) else (0, [])
  deserialize _ b := (b.take 2, (b.take 2).length)
  setStr old t _ := if t = [48] then ([0], 0) else (old, -1)
  getStr max x b := if (numsText b.toNat x).length < max then ((numsText b.toNat x).length, numsText b.toNat x) else (0, [])
  setInt _ v := [v.toNat]
  setLittleEndian _ b := (b, 0)
  setLittleEndianMod _ b := (b, 0)
  setHashOf _ b := (b, 0)
  squareRoot y _ := (y, -1)
  add _ x y := x ++ y
  sub _ x _ := x
  neg _ x := x.reverse
  mul _ x y := x ++ y
  div _ x _ := x
  inv _ x := x
  sqr _ x := x ++ x
  dbl _ x := x ++ x
  mulFr _ x s := s :: x
  normalize _ x := x

theorem listLib_prints (b : Nat) : Prints (fun max x => listLib.getStr max x b) fun x => numsText b x := by
  intro max x
  constructor
  · intro h; simp only [listLib, Int.toNat_natCast]; rw [if_pos h]
  · intro h; simp only [listLib, Int.toNat_natCast]; rw [if_neg (Nat.lt_asymm h)]

/-- A point of `G1` is printed as `1 17 305`; twelve large numbers are a panic. -/
example : Mcl.Ffi.getStr listLib [1, 17, 305] 10 = .ok [49, 32, 49, 55, 32, 51, 48, 53] ∧
    Mcl.Ffi.getStr listLib (List.replicate 12 (10 ^ 100)) 10 = .panic := by
  constructor
  · have := C173_text_fits_partial listLib 10 (.inl rfl) id (listLib_prints 10) [1, 17, 305] (by simp) (by simp) fun n hn =>
      lt_of_lt_of_le (show n < 2 ^ 9 by simp only [List.mem_cons, id, List.not_mem_nil, or_false] at hn; omega) (Nat.pow_le_pow_right (by omega) (by omega))
    rw [show ((10 : Nat) : Int) = 10 from rfl] at this
    rw [this]
    have e : numsText 10 (id [1, 17, 305]) = [49, 32, 49, 55, 32, 51, 48, 53] := by norm_num [numsText, numText]
    rw [e]
  · exact C173_gt_panics listLib id (listLib_prints 10) _ (by simp) fun n hn => by
      rw [List.eq_of_mem_replicate hn]; norm_num

/-- C173 in full is false: some library prints as it should, and yet a value cannot be printed. -/
theorem C173_full_statement_false : ¬ ∀ (L : CType (List Nat) Nat) (nums : List Nat → List Nat),
    Prints (fun max x => L.getStr max x 10) (fun x => numsText 10 (nums x)) →
    ∀ x, (nums x).length ≤ 12 → (∀ n ∈ nums x, n < 10 ^ 115) → ∃ t, Mcl.Ffi.getStr L x 10 = .ok t := by
  intro h
  obtain ⟨t, ht⟩ := h listLib id (listLib_prints 10) (List.replicate 12 (10 ^ 100)) (by simp) fun n hn => by
    rw [List.eq_of_mem_replicate hn]; norm_num
  rw [C173_gt_panics listLib id (listLib_prints 10) _ (by simp) fun n hn => by
    rw [List.eq_of_mem_replicate hn]; norm_num] at ht
  cases ht

/-- Serialising and reading with a byte too many. -/
example : Mcl.Ffi.serialize listLib 2 [7, 8] = .ok [7, 8] ∧ Mcl.Ffi.serialize listLib 1 [7, 8] = .panic ∧
    Mcl.Ffi.deserialize listLib [] [7, 8, 9] = ([7, 8], true) := by
  refine ⟨by decide, by decide, by decide⟩

example : frSize ⟨fun _ _ => 0, 32, 48, fun _ => (0, []), fun _ => (0, [])⟩ = .ok 32 := (C173_sizes _ rfl rfl).1

end Kzg.Props
