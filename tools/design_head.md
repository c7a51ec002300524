# Design

## What is modelled

The repository contains several implementations of one KZG interface.
The primary target is `blst-from-scratch` (Rust over the blst FFI): all of its modules except the FFI itself.
The second target is `zkcrypto`, which implements the curve arithmetic itself in Rust (`zkcrypto/src/curve`) and has its
own polynomials, zero polynomials and recovery on top.
The third is `mcl-kzg` (Rust over the C++ library mcl), which shares no code with the others.
The fourth is `Arkworks` (over the arkworks libraries).
Of `ckzg` (a wrapper of a C library that is not in the repository) the Rust side is modelled.

All Lean sources are in `lean/Verif`.

| directory | content |
| --- | --- |
| `Verif/Base` | result type, vector reads and writes, loops, bit operations |
| `Verif/Model` | the functions of the code, one definition per function, each citing its lines |
| `Verif/Spec` | small specification vocabulary (polynomial of a list, integer of words or bytes) |
| `Verif/Proofs` | helper lemmas |
| `Verif/Props` | property theorems `Cnn_*` with concrete instances |

### Modelling rules

* `Res α` is `ok a`, `err msg` (a Rust `Err`) or `panic` (an unwinding path: index out of bounds,
  unsigned underflow, `unwrap` of an `Err`, failed `assert`).
* Vectors are lists. Reads `v[i]` and writes `v[i] = x` are `Res`-valued and panic out of bounds.
  `&mut` arguments become returned values.
* `for i in lo..hi` is a recursion over the counter that threads the mutable state through `Res`.
  `while` loops are recursions with a termination measure, or with fuel whose exhaustion is a panic and
  proved unreachable.
* `usize` is `Nat`. Subtraction is checked (underflow is a panic, as in debug builds).
  Addition and multiplication on lengths do not overflow: a vector of field elements has fewer than
  2^58 entries. Where overflow or machine word bits matter (`utils.rs`, limb arithmetic) the model uses
  64-bit semantics explicitly.
* Field elements of the blst backend are elements of a field `F` with the root table,
  instantiated by `ZMod r`, r the BLS12-381 group order, and the table of `consts.rs`.
  Property theorems are about this instance.
* G1 and G2 of the blst backend are arbitrary modules over the field. Multi-scalar multiplication and pairing
  check are a structure `Backend` whose laws (`Backend.Lawful`) are the trusted interface of blst.
* Scalars of zkcrypto are the type `ScW` of reduced four-word vectors, whose field operations are the word operations of
  `scalar.rs`. The polynomial layer is written over a field with a root table and used at `ScW`. Functions whose text is
  that of the blst backend share its definition; the doc comments list them with both line ranges.
* Points of zkcrypto are structures of coordinates. The formulas are written once over a field `K`; `FpW` is the
  type of reduced six-word vectors whose field operations are the word operations of `fp.rs`. The specification is
  Mathlib's `WeierstrassCurve.Affine.Point`, linked by `Affine.Is` and `Projective.Is`. Code whose behaviour depends
  on overflow checks takes `chk : Bool` (debug or release build).
* The extension fields of zkcrypto are structures over a field `K` with the operation sequences of the source, used at
  `K = FpW` (C70–C74). The second group is on the curve over the quadratic one (C78–C82). The
  target group is the set of their elements with x^r = 1 (C75–C77). The pairing (C83–C85) is proved bilinear by comparing
  divisors of the line functions in Mathlib's coordinate ring, and its value at the generators is evaluated by the kernel.
* The commitment layer of zkcrypto (C86–C93) runs on coordinates. Its theorems are about `Top.At1 p x`: the coordinates `p`
  stand for x·g1. Loops shared with the blst backend are transported along a relation between runs
  (`Verif/Base/Rel.lean`), which also covers runs that panic where the abstract one does not.
* mcl-kzg (`Verif/Model/Mcl`, C94 on): field elements and points are those of the library. What the library does for the
  inverse of zero and for a division by zero is an arbitrary parameter (`Lib`), so theorems hold whatever it does. The
  static tables that the settings constructors share are a state `Globals` passed from call to call.
* Arkworks (`Verif/Model/Ark`, C113 on): field elements are those of the library; the root of a domain is computed as the
  library does. `DensePolynomial` is a list without trailing zeros, and conversions from coefficient lists do (or do not)
  truncate as the library functions called do. Functions whose text is that of the blst backend share its definition.
  In the commitment layer (C125–C131) stored points are coordinates and results group elements, because the seed of the
  settings is read from coordinates; the drawn scalar is a function of the seed.
* ckzg (`Verif/Model/Ckzg`, C134–C137): the library is a structure of arbitrary functions; a call lists the buffers with the
  number of entries present and touched, and touching too many is undefined behaviour (`Out.ub`). Ownership is a separate
  model of allocations and variables (`Mem.lean`).
* The traits `Fr`, `G1` and `G2` (C138–C145, `Interface.lean`, `GroupInterface.lean`) are records of functions, one per
  backend; one contract, stated with the relation between representations and residues or points, is asked of each.
  The comparison `==` of the crate blst on points is an arbitrary function there.
* Random elements (C146, `Zk/Random.lean`): the generator is the list of its answers, so the theorems are about what can come out,
  not about distributions.
* The polynomial interface (`Model/PolyInterface.lean`, C154–C156): one record of functions for each backend, pointing at the
  functions modelled before.
* The settings as the traits show them (`Model/SettingsInterface.lean`, C157–C160): constructors, accessors, defaults and copies of the
  FFT settings, and defaults and copies of the settings for commitments and amortised proofs, one record for each backend.
* The groups of ckzg (`Model/Ckzg/Groups.lean`, C161): the wrapper around the C library, whose functions are parameters.
* Random elements through the traits (`Model/Rand.lean`, C162): the random words are arguments; what is counted is how many of them give
  an element.
* The real groups (C148–C153, `Proofs/Torsion.lean`, `RealGroups.lean`, `Interop*.lean`): the points of order r of Mathlib's curves as modules
  over the field, with the pairing of C83–C85, are an instance of the assumed libraries. Backends are compared there, with
  `Stands c P` between coordinates of zkcrypto and points.
* Limb arithmetic (zkcrypto) is modelled on natural numbers below 2^64 with explicit carries.
* Concurrent code: `Verif/Model/Conc.lean` has tasks made of single reads and writes, sequencing and `join`,
  with a small-step relation whose executions are all interleavings. `Verif/Model/OnceCell.lean` is a
  transition system over all calls of the process.

### Trusted base

* Lean's kernel. The axioms used are at most `propext`, `Classical.choice`, `Quot.sound`.
  There is no `sorry`, no axiom, no `native_decide`, no `bv_decide`. Finite tables are evaluated by the kernel
  (`decide +kernel`).
* The reading of the Rust code: every definition cites file and lines. As a check on it, the tests of the repository are
  modelled too and the model passes or fails them as the source says it must: the shared tests of `kzg-bench` for every backend
  (C167 to C187, with findings where a test cannot pass), and the unit tests of zkcrypto with the values written in them
  (C193, C195).
* blst FFI: `blst_fr_*` compute in the field of order r with `inverse(0) = 0`;
  `blst_p1_*`, `blst_p2_*` compute in the prime order groups; `blst_p1s_mult_pippenger` computes the
  linear combination; miller loop plus final exponentiation is a bilinear non-degenerate pairing.
  Two blst behaviours differ between versions and are explicit hypotheses where they matter:
  `MsmTotal` (identity among the points of a multi-scalar multiplication) and `PairTotal` (identity in a pairing).
* mcl FFI: `mclBnFr_*` compute in the field of order r, `mclBnG1_*`, `mclBnG2_*` in the prime order groups,
  `mclBn_FrEvaluatePolynomial` the value of a polynomial, `mclBnFr_setInt32` the residue of a signed integer,
  `mclBnFr_setStr` of a decimal string, failing from r on; `mclBnG1_mulVec` the linear combination of equally long lists;
  `mclBn_pairing` followed by one more `mclBn_finalExp` (as the code does) a bilinear non-degenerate pairing raised to
  a power that is not divisible by r (C108_final_exponent).
* arkworks: `Fr` computes in the field of order r, `inverse` of zero is `None` and division by zero panics;
  `from_repr` gives `None` from r on; `Radix2EvaluationDomain` has the size rounded up to a power of two
  and the root 2^32-th root raised to the power 2^(32-k), `fft_in_place` evaluates at its powers; `DensePolynomial` division
  is Euclidean; the points compute in the prime order groups; `FixedBaseMSM` and `VariableBaseMSM` give multiples and linear
  combinations; `KZG10::commit` and `check` compute the formulas of `libCommit` and `libCheck`; `StdRng` is a function of its
  seed; multiples of the point at infinity all have the same coordinates.
* c-kzg: touches no more entries than the lengths it is given; for functions without a length the number beside the call in
  `Ffi.lean`. blst types are Montgomery words, its points Jacobian coordinates with last coordinate 0 for infinity (C132, C133).
* rayon: `join` runs both closures and returns when both have finished; an indexed parallel `map … collect`
  keeps the order. once_cell: the contract of `get_or_init`. Memory accesses are sequentially consistent;
  for tasks without conflicting accesses, which is what is proved, weaker models give the same executions.
* The laws assumed of blst, mcl and arkworks for the groups hold for the actual groups and pairing of BLS12-381 (C148), so they are
  satisfiable together. That the libraries implement these groups stays trusted.
* Proved rather than trusted: primality of r and of the base field size (Lucas certificates), order of the roots
  of unity, all field arithmetic of zkcrypto on words, the number of points of both curves.
* Not modelled: randomness (`rand`), memory safety of `unsafe` blocks outside ckzg, performance, allocation failure,
  the C library behind `ckzg`, serialisation of benchmarks, group elements of blst outside the prime order subgroups.

### Tests of the theorems against wrong programs

`seeded/LOG.jsonl` records edits of the model in a scratch copy, each like a realistic bug, with the theorems that
no longer prove. Edits marked "equivalent" do not change any claim; they are recorded to show what breaks although
nothing is wrong.

## Properties

Status, theorems and remarks (from `MANIFEST.json`); the model is in the files the theorems import.

