# Design

## What is modelled

The repository contains several implementations of one KZG interface.
The primary target is `blst-from-scratch` (Rust over the blst FFI): all of its modules except the FFI itself.
The second target is `zkcrypto`, which implements the curve arithmetic itself in Rust (`zkcrypto/src/curve`) and has its
own polynomials, zero polynomials and recovery on top.
The third is `mcl-kzg` (Rust over the C++ library mcl), which shares no code with the others.
The fourth is `Arkworks` (over the arkworks libraries).
Of `ckzg` (a wrapper of a C library that is not in the repository) the Rust side is modelled.

All Lean sources are in `lean/Verif`.

| directory | content |
| --- | --- |
| `Verif/Base` | result type, vector reads and writes, loops, bit operations |
| `Verif/Model` | the functions of the code, one definition per function, each citing its lines |
| `Verif/Spec` | small specification vocabulary (polynomial of a list, integer of words or bytes) |
| `Verif/Proofs` | helper lemmas |
| `Verif/Props` | property theorems `Cnn_*` with concrete instances |

### Modelling rules

* `Res α` is `ok a`, `err msg` (a Rust `Err`) or `panic` (an unwinding path: index out of bounds,
  unsigned underflow, `unwrap` of an `Err`, failed `assert`).
* Vectors are lists. Reads `v[i]` and writes `v[i] = x` are `Res`-valued and panic out of bounds.
  `&mut` arguments become returned values.
* `for i in lo..hi` is a recursion over the counter that threads the mutable state through `Res`.
  `while` loops are recursions with a termination measure, or with fuel whose exhaustion is a panic and
  proved unreachable.
* `usize` is `Nat`. Subtraction is checked (underflow is a panic, as in debug builds).
  Addition and multiplication on lengths do not overflow: a vector of field elements has fewer than
  2^58 entries. Where overflow or machine word bits matter (`utils.rs`, limb arithmetic) the model uses
  64-bit semantics explicitly.
* Field elements of the blst backend are elements of a field `F` with the root table,
  instantiated by `ZMod r`, r the BLS12-381 group order, and the table of `consts.rs`.
  Property theorems are about this instance.
* G1 and G2 of the blst backend are arbitrary modules over the field. Multi-scalar multiplication and pairing
  check are a structure `Backend` whose laws (`Backend.Lawful`) are the trusted interface of blst.
* Scalars of zkcrypto are the type `ScW` of reduced four-word vectors, whose field operations are the word operations of
  `scalar.rs`. The polynomial layer is written over a field with a root table and used at `ScW`. Functions whose text is
  that of the blst backend share its definition; the doc comments list them with both line ranges.
* Points of zkcrypto are structures of coordinates. The formulas are written once over a field `K`; `FpW` is the
  type of reduced six-word vectors whose field operations are the word operations of `fp.rs`. The specification is
  Mathlib's `WeierstrassCurve.Affine.Point`, linked by `Affine.Is` and `Projective.Is`. Code whose behaviour depends
  on overflow checks takes `chk : Bool` (debug or release build).
* The extension fields of zkcrypto are structures over a field `K` with the operation sequences of the source, used at
  `K = FpW` (C70–C74). The second group is on the curve over the quadratic one (C78–C82). The
  target group is the set of their elements with x^r = 1 (C75–C77). The pairing (C83–C85) is proved bilinear by comparing
  divisors of the line functions in Mathlib's coordinate ring, and its value at the generators is evaluated by the kernel.
* The commitment layer of zkcrypto (C86–C93) runs on coordinates. Its theorems are about `Top.At1 p x`: the coordinates `p`
  stand for x·g1. Loops shared with the blst backend are transported along a relation between runs
  (`Verif/Base/Rel.lean`), which also covers runs that panic where the abstract one does not.
* mcl-kzg (`Verif/Model/Mcl`, C94 on): field elements and points are those of the library. What the library does for the
  inverse of zero and for a division by zero is an arbitrary parameter (`Lib`), so theorems hold whatever it does. The
  static tables that the settings constructors share are a state `Globals` passed from call to call.
* Arkworks (`Verif/Model/Ark`, C113 on): field elements are those of the library; the root of a domain is computed as the
  library does. `DensePolynomial` is a list without trailing zeros, and conversions from coefficient lists do (or do not)
  truncate as the library functions called do. Functions whose text is that of the blst backend share its definition.
  In the commitment layer (C125–C131) stored points are coordinates and results group elements, because the seed of the
  settings is read from coordinates; the drawn scalar is a function of the seed.
* ckzg (`Verif/Model/Ckzg`, C134–C137): the library is a structure of arbitrary functions; a call lists the buffers with the
  number of entries present and touched, and touching too many is undefined behaviour (`Out.ub`). Ownership is a separate
  model of allocations and variables (`Mem.lean`).
* The traits `Fr`, `G1` and `G2` (C138–C145, `Interface.lean`, `GroupInterface.lean`) are records of functions, one per
  backend; one contract, stated with the relation between representations and residues or points, is asked of each.
  The comparison `==` of the crate blst on points is an arbitrary function there.
* Random elements (C146, `Zk/Random.lean`): the generator is the list of its answers, so the theorems are about what can come out,
  not about distributions.
* The polynomial interface (`Model/PolyInterface.lean`, C154–C156): one record of functions for each backend, pointing at the
  functions modelled before.
* The settings as the traits show them (`Model/SettingsInterface.lean`, C157–C160): constructors, accessors, defaults and copies of the
  FFT settings, and defaults and copies of the settings for commitments and amortised proofs, one record for each backend.
* The groups of ckzg (`Model/Ckzg/Groups.lean`, C161): the wrapper around the C library, whose functions are parameters.
* Random elements through the traits (`Model/Rand.lean`, C162): the random words are arguments; what is counted is how many of them give
  an element.
* The real groups (C148–C153, `Proofs/Torsion.lean`, `RealGroups.lean`, `Interop*.lean`): the points of order r of Mathlib's curves as modules
  over the field, with the pairing of C83–C85, are an instance of the assumed libraries. Backends are compared there, with
  `Stands c P` between coordinates of zkcrypto and points.
* Limb arithmetic (zkcrypto) is modelled on natural numbers below 2^64 with explicit carries.
* Concurrent code: `Verif/Model/Conc.lean` has tasks made of single reads and writes, sequencing and `join`,
  with a small-step relation whose executions are all interleavings. `Verif/Model/OnceCell.lean` is a
  transition system over all calls of the process.

### Trusted base

* Lean's kernel. The axioms used are at most `propext`, `Classical.choice`, `Quot.sound`.
  There is no `sorry`, no axiom, no `native_decide`, no `bv_decide`. Finite tables are evaluated by the kernel
  (`decide +kernel`).
* The reading of the Rust code: every definition cites file and lines. As a check on it, the tests of the repository are
  modelled too and the model passes or fails them as the source says it must: the shared tests of `kzg-bench` for every backend
  (C167 to C187, with findings where a test cannot pass), and the unit tests of zkcrypto with the values written in them
  (C193, C195).
* blst FFI: `blst_fr_*` compute in the field of order r with `inverse(0) = 0`;
  `blst_p1_*`, `blst_p2_*` compute in the prime order groups; `blst_p1s_mult_pippenger` computes the
  linear combination; miller loop plus final exponentiation is a bilinear non-degenerate pairing.
  Two blst behaviours differ between versions and are explicit hypotheses where they matter:
  `MsmTotal` (identity among the points of a multi-scalar multiplication) and `PairTotal` (identity in a pairing).
* mcl FFI: `mclBnFr_*` compute in the field of order r, `mclBnG1_*`, `mclBnG2_*` in the prime order groups,
  `mclBn_FrEvaluatePolynomial` the value of a polynomial, `mclBnFr_setInt32` the residue of a signed integer,
  `mclBnFr_setStr` of a decimal string, failing from r on; `mclBnG1_mulVec` the linear combination of equally long lists;
  `mclBn_pairing` followed by one more `mclBn_finalExp` (as the code does) a bilinear non-degenerate pairing raised to
  a power that is not divisible by r (C108_final_exponent).
* arkworks: `Fr` computes in the field of order r, `inverse` of zero is `None` and division by zero panics;
  `from_repr` gives `None` from r on; `Radix2EvaluationDomain` has the size rounded up to a power of two
  and the root 2^32-th root raised to the power 2^(32-k), `fft_in_place` evaluates at its powers; `DensePolynomial` division
  is Euclidean; the points compute in the prime order groups; `FixedBaseMSM` and `VariableBaseMSM` give multiples and linear
  combinations; `KZG10::commit` and `check` compute the formulas of `libCommit` and `libCheck`; `StdRng` is a function of its
  seed; multiples of the point at infinity all have the same coordinates.
* c-kzg: touches no more entries than the lengths it is given; for functions without a length the number beside the call in
  `Ffi.lean`. blst types are Montgomery words, its points Jacobian coordinates with last coordinate 0 for infinity (C132, C133).
* rayon: `join` runs both closures and returns when both have finished; an indexed parallel `map … collect`
  keeps the order. once_cell: the contract of `get_or_init`. Memory accesses are sequentially consistent;
  for tasks without conflicting accesses, which is what is proved, weaker models give the same executions.
* The laws assumed of blst, mcl and arkworks for the groups hold for the actual groups and pairing of BLS12-381 (C148), so they are
  satisfiable together. That the libraries implement these groups stays trusted.
* Proved rather than trusted: primality of r and of the base field size (Lucas certificates), order of the roots
  of unity, all field arithmetic of zkcrypto on words, the number of points of both curves.
* Not modelled: randomness (`rand`), memory safety of `unsafe` blocks outside ckzg, performance, allocation failure,
  the C library behind `ckzg`, serialisation of benchmarks, group elements of blst outside the prime order subgroups.

### Tests of the theorems against wrong programs

`seeded/LOG.jsonl` records edits of the model in a scratch copy, each like a realistic bug, with the theorems that
no longer prove. Edits marked "equivalent" do not change any claim; they are recorded to show what breaks although
nothing is wrong.

## Properties

Status, theorems and remarks (from `MANIFEST.json`); the model is in the files the theorems import.

| id | title | status | theorems | remarks |
| --- | --- | --- | --- | --- |
| C01 | FFT settings hold a full cycle of a primitive root | proved | `C01_settings_new`, `C01_settings_reject` | All scales; root order by a squaring chain over the whole 32-row table, field primality by a Lucas certificate. |
| C02 | Forward FFT is evaluation at the roots of unity | proved | `C02_fft_is_evaluation` | All scales, lengths and inputs. |
| C03 | Inverse FFT undoes FFT in both orders | proved | `C03_fft_roundtrip` | Both orders. |
| C04 | FFT rejects exactly the unsupported lengths | proved | `C04_fft_rejects_exactly` | Field and group versions; panic is a separate outcome and excluded. |
| C05 | Fast and slow FFT agree | proved | `C05_fast_eq_slow` | Forward and backward tables, field and group. |
| C06 | Group FFT is the field FFT in the exponent | proved | `C06_fft_g1`, `C06_fft_g1_roundtrip`, `C06_fft_exponent` | Group is an arbitrary Fr-module. |
| C07 | Parallel FFT gives the sequential result under every schedule | proved | `C07_fft_every_schedule`, `C07_fft_fr`, `C07_fft_g1`, `C07_das_every_schedule` | Small-step semantics of joined tasks over a shared buffer: every interleaving of single reads and writes, at every recursion level, for every choice of which calls are joined; termination, absence of panics and equality with the sequential transform; field, group and DAS version. |
| C08 | Polynomial evaluation | partial | `C08_eval_partial`, `C08_eval_constant_panics`, `C08_full_statement_false` | Proved for every polynomial except one-coefficient ones at nonzero points, where the code underflows and panics; the negation of the full statement is proved with a witness. |
| C09 | Direct multiplication is the truncated product | proved | `C09_mul_direct` | All nonempty inputs and output lengths. |
| C10 | FFT multiplication agrees with direct multiplication | proved | `C10_mul_agree` | All nonempty inputs with product length at most 2^31. |
| C11 | Polynomial inverse is the power series inverse | proved | `C11_inverse`, `C11_inverse_errors` | Newton iteration invariant over the bits of the length. |
| C12 | Long division returns the Euclidean quotient | proved | `C12_long_div`, `C12_long_div_errors` | All dividends and divisors. |
| C13 | Fast division agrees with long division | proved | `C13_fast_div`, `C13_div`, `C13_fast_div_empty_panics` | Also records the panic of a direct fast division of the empty dividend. |
| C14 | Scaling and unscaling are mutually inverse substitutions | proved | `C14_scale_values`, `C14_scale_roundtrip`, `C14_scale_limit`, `C14_poly_methods` | Includes the panic beyond 65536 coefficients. |
| C15 | Scale tables are independent of call history | proved | `C15_history_independent`, `C15_tables`, `C15_all_calls_finish` | Transition system of the two shared cells and any number of calls; invariant over all reachable states; result of every finished call depends only on its arguments; published tables never change; no deadlock, no infinite execution without new calls. OnceCell::get_or_init is modelled by its contract. |
| C16 | Data availability extension interpolates the odd positions | proved | `C16_das_extension` | All sizes up to half of the width and all input vectors. |
| C17 | Data availability extension rejects exactly the unsupported lengths | proved | `C17_das_rejection` | All bad lengths. |
| C18 | Partial zero polynomial is the product of linear factors | proved | `C18_product`, `C18_empty` | All index lists and strides in range. |
| C19 | Reducing partials multiplies polynomials | proved | `C19_reduce`, `C19_reduce_errors` | All lists of nonempty polynomials, fitting or not. |
| C20 | Zero polynomial vanishes exactly at the missing positions | partial | `C20_zero_poly_partial`, `C20_safe_up_to_4096`, `C20_safe_half`, `C20_dense_error`, `C20_full_statement_false`, `C20_zero_poly_edges` | The code refuses index sets with more than 63*(D/64+1) entries (possible from D = 8192 on), so the full statement is false; proved exactly up to that bound and proved to be an error beyond. |
| C21 | Recovery returns the original data | partial | `C21_recovery_partial`, `C21_recovery_general_partial`, `C21_recovery_null_partial`, `C21_large_domain_panics`, `C21_full_statement_false` | Proved for all domains up to 65536, all polynomials, all erasure patterns. The full statement is false: above 65536 the scaling tables are too short and the code panics (proved for every input). |
| C22 | Recovery never contradicts a known sample | proved | `C22_recovery_sound`, `C22_recovery_null_sound`, `C22_every_value_accepted`, `C22_bad_length` | Every sample list, including corrupted ones; includes uniqueness of the codeword. Corruption is never noticed: any values present can be interpolated, so the final comparison of the code cannot fail. |
| C23 | Missing-sample marker never collides with data | partial | `C23_kept_partial`, `C23_null_is_element`, `C23_collision`, `C23_full_statement_false` | Refuted for the null element itself, which is an ordinary field element in the blst backend; proved for all other elements. |
| C24 | Recovery with nothing missing returns the data | partial | `C24_one_dropped_partial`, `C24_complete_panics`, `C24_full_statement_false` | Refuted: recovery panics on every complete list (the zero polynomial evaluation is empty). Proved after dropping any one sample. |
| C25 | Commitment is the evaluation at the secret in the exponent | proved | `C25_commit`, `C25_commit_rejects`, `C25_commit_linear`, `C25_settings_new` | For every lawful group backend. The identity reaches the multi-scalar multiplication only for a zero secret; blst's behaviour there is a hypothesis of its own (MsmTotal). |
| C26 | Single proofs: completeness | proved | `C26_single_complete`, `C26_single_tiny_setup` | Every polynomial that fits and every point; the point equal to the secret needs PairTotal (pairing with the identity). A setup with fewer than two points panics (proved). |
| C27 | Single proofs: exact acceptance condition | proved | `C27_single_accepts_iff`, `C27_single_unique_proof`, `C27_single_binding`, `C27_single_two_openings` | Every commitment, proof, point and value. |
| C28 | Multi proofs: completeness | partial | `C28_multi_complete_partial`, `C28_full_width_panics`, `C28_full_statement_false` | Proved for n below the setup length. The full statement is false for n equal to the setup length, where secret_g2[n] is out of bounds (proved for all inputs). Sizes beyond 2^30: C196. |
| C29 | Multi proofs: exact acceptance condition | proved | `C29_multi_accepts_iff`, `C29_interpolant_exists`, `C29_multi_binding`, `C29_false_values_exist` | Every commitment, proof, nonzero point and value list. Also proved that for n >= 2 false lists accepted with the honest proof exist, so nothing stronger than the stated condition holds. |
| C30 | FK20 single: all proofs at once equal individual proofs | proved | `C30_settings_new`, `C30_fk20_single`, `C30_fk20_single_order`, `C30_rejects` | All sizes, polynomials and secrets; settings constructor and rejections characterised exactly. |
| C31 | FK20 multi: all chunk proofs at once equal individual proofs | proved | `C31_settings_new`, `C31_fk20_multi`, `C31_fk20_multi_order` | All sizes, chunk lengths, polynomials and secrets. |
| C32 | Bit reversal ordering is an involutive permutation | proved | `C32_reverse_bit_order`, `C32_involution`, `C32_reversal_unique`, `C32_empty_panics` | All element types, all power-of-two lengths below 2^64. |
| C33 | Power-of-two helpers | proved | `C33_is_power_of_two`, `C33_next_power_of_two`, `C33_next_power_of_two_zero`, `C33_next_power_of_two_overflow`, `C33_log2_pow2`, `C33_log2_pow2_beyond`, `C33_log2_u64`, `C33_log_2_byte`, `C33_min_max` | All 64-bit values; byte and power-of-two logarithms by kernel evaluation of the whole finite table. |
| C34 | Field exponentiation | proved | `C34_pow` | All elements and exponents. |
| C35 | Scalar multiplication passes the exact bit length | proved | `C35_bit_count`, `C35_g1_mul` | All byte strings and scalars; blst_p1_mult is trusted to multiply by the low nbits bits. |
| C36 | Scalar field add, subtract, negate, double are exact modular arithmetic on limbs | proved | `C36_rep_element`, `C36_rep_words`, `C36_eq`, `C36_add_integers`, `C36_sub_integers`, `C36_add`, `C36_sub`, `C36_neg`, `C36_double`, `C36_constants` | Words, carries and borrows of add, sub, neg, double, constants; representation is a bijection. |
| C37 | Montgomery multiplication is exact | proved | `C37_mul_integers`, `C37_mul`, `C37_square`, `C37_square_eq_mul`, `C37_from_raw`, `C37_from_u64`, `C37_round_trip`, `C37_round_trip_words` | Montgomery mul, square, from_raw, From<u64>, reduce. |
| C38 | Scalar encoding round trip and canonicity | proved | `C38_from_bytes`, `C38_to_bytes`, `C38_decode_encode`, `C38_encode_decode` | from_bytes, to_bytes. |
| C39 | Wide reduction is exact | proved | `C39_from_bytes_wide`, `C39_remainder` | from_u512, from_bytes_wide. |
| C40 | Scalar inversion and exponentiation | proved | `C40_invert`, `C40_invert_zero`, `C40_pow_vartime`, `C40_pow` | Addition chain of invert, pow, pow_vartime. |
| C41 | Variable base multi-scalar multiplication is the linear combination | proved | `C41_msm_variable_base`, `C41_msm_module`, `C41_every_width` | All lists, all window widths, arbitrary commutative group. |
| C42 | Base field arithmetic on limbs is exact | proved | `C42_rep_element`, `C42_rep_words`, `C42_eq`, `C42_is_zero`, `C42_add_integers`, `C42_sub_integers`, `C42_mul_integers`, `C42_add`, `C42_sub`, `C42_neg`, `C42_mul`, `C42_square`, `C42_square_eq_mul`, `C42_constants`, `C42_prime` | Base field limbs, all operations; the representation is a bijection between reduced vectors and the field, and the field size is proved prime. |
| C43 | FK20 settings used with polynomials of other lengths | partial | `C43_right_size_partial`, `C43_longer_panics`, `C43_shorter_wrong`, `C43_full_statement_false` | Refuted: a shorter polynomial is accepted and the result is not its proofs (for every secret and generator), a longer one panics. Proved for the matching length. |
| C44 | Scalar square root is complete and sound | proved | `C44_sqrt_complete`, `C44_sqrt_sound`, `C44_sqrt_none` | Both loops of the Tonelli-Shanks routine, two-phase invariant. |
| C45 | Right shift of the words is division by a power of two | proved | `C45_divn`, `C45_divn_large` | divn for every amount. |
| C46 | The missing-value marker is no scalar (zkcrypto) | proved | `C46_null_is_no_value` | null is unreduced. |
| C47 | Base field encoding round trip and canonicity | proved | `C47_from_bytes`, `C47_to_bytes`, `C47_decode_encode`, `C47_encode_decode` | 48-byte big-endian encoding. |
| C48 | Base field powers, inverses and square roots | proved | `C48_pow_vartime`, `C48_invert`, `C48_invert_zero`, `C48_sqrt_complete`, `C48_sqrt_sound`, `C48_sqrt_none` | Powers, inverse, square root (sound, complete, fails exactly on non-squares). |
| C49 | The sign bit of a base field element | proved | `C49_lexicographically_largest`, `C49_negation`, `C49_zero` | Sign of an element. |
| C50 | Reduction of 768 bits to a base field element | partial | `C50_from_u768_partial`, `C50_not_big_endian` | The doc comment says the twelve limbs are most significant first. The code swaps the two halves: the result is high half + 2^384 low half. The swapped reading is proved exactly, and the documented reading is disproved with a witness. Only random() uses it, where the swap does not change the distribution. |
| C51 | Signed digit recoding and Pippenger's method | proved | `C51_radix`, `C51_pippenger`, `C51_agree` | Signed digits of width 6, 7, 8; digit columns; agreement with the other method. The code is compiled only under a feature that the manifest does not declare. |
| C52 | The point formulas of zkcrypto are complete | proved | `C52_add`, `C52_add_mixed`, `C52_double`, `C52_neg`, `C52_sub`, `C52_sum`, `C52_mul_by_x`, `C52_coordinates` | For every field and curve y^2=x^3+b without two-torsion; the first group is shown to be an instance, with the word operations as field operations. |
| C53 | Comparison and normalisation of points | proved | `C53_eq`, `C53_eq_affine`, `C53_is_identity`, `C53_convert`, `C53_batch_normalize`, `C53_is_on_curve` | is_on_curve of projective coordinates with z = 0 accepts any x and y by design of the code; the theorem is about z not zero. |
| C54 | Scalar multiplication in the first group | partial | `C54_mul_partial`, `C54_mul_affine_partial`, `C54_small_scalars`, `C54_debug_panics`, `C54_refuted_debug`, `C54_refuted_release`, `C54_refuted_outside`, `C54_release_returns` | Holds on the prime order subgroup for all scalars whose rounding step does not overflow (all below 2^191, and all but about one in 2^65). Refuted in full: debug builds panic, release builds return a wrong point, and outside the subgroup the product is wrong. Without overflow checks there is always a result (C54_release_returns). |
| C55 | The subgroup test of the first group is exact | proved | `C55_is_torsion_free`, `C55_multiples` |  |
| C56 | Generator and group order | proved | `C56_generator`, `C56_generates`, `C56_points`, `C56_endomorphism` |  |
| C57 | Clearing the cofactor lands in the subgroup | proved | `C57_clear_cofactor`, `C57_accepted`, `C57_injective` |  |
| C58 | Compressed points of the first group | proved | `C58_decode`, `C58_round_trip`, `C58_unchecked`, `C58_canonical`, `C58_format` |  |
| C59 | Uncompressed points of the first group | proved | `C59_decode`, `C59_round_trip`, `C59_unchecked`, `C59_format` |  |
| C60 | Division of polynomials in zkcrypto | partial | `C60_div_partial`, `C60_div_by_zero`, `C60_zero_dividend_panics`, `C60_full_statement_false` | The zero dividend panics (proved negation). |
| C61 | The two division methods of zkcrypto | partial | `C61_division_entry_points_partial`, `C61_empty`, `C61_zero_lead_wrong`, `C61_full_statement_false` | Divisors with zero last coefficient give a wrong quotient, empty dividends panic (proved negation). |
| C62 | Synthetic division | partial | `C62_ruffini_partial`, `C62_trailing_zero_panics`, `C62_full_statement_false` | Nonzero polynomials with a trailing zero panic (proved negation). |
| C63 | Multiplication of polynomials in zkcrypto | proved | `C63_mul` |  |
| C64 | Inverse power series in zkcrypto | proved | `C64_inverse`, `C64_inverse_errors`, `C64_inverse_zero_length` | Requested length zero panics. |
| C65 | Zero polynomials in zkcrypto | partial | `C65_product`, `C65_reduce`, `C65_zero_poly_partial`, `C65_dense_error`, `C65_zero_poly_edges`, `C65_full_statement_false` | Dense sets are an error from domain 8192 on (proved negation). |
| C66 | Recovery in zkcrypto returns the original data | proved | `C66_recovery_general`, `C66_recovery` |  |
| C67 | Recovery in zkcrypto never contradicts a known sample | proved | `C67_recovery_sound`, `C67_recovery_outcome` |  |
| C68 | The scaling tables do not depend on the history | proved | `C68_history_independent`, `C68_scaling` |  |
| C69 | Concurrent recoveries do not disturb each other | partial | `C69_threads_partial`, `C69_race`, `C69_full_statement_false`, `C69_guarded`, `C69_alone`, `C69_guard_needed` | A schedule of two threads on the empty table gives wrong results (proved negation). Tables that are long enough are safe under every schedule (C69_threads_partial), and so are all tables under every schedule in which no call starts while another makes the table longer (C69_guarded); a call alone always ends with the right result (C69_alone). |
| C70 | The quadratic extension field of zkcrypto | proved | `C70_irreducible`, `C70_operations`, `C70_invert`, `C70_from_fp`, `C70_select`, `C70_pow` | Isomorphic to Mathlib's AdjoinRoot of the irreducible polynomial, on reduced six-word coefficients. |
| C71 | The sextic extension field of zkcrypto | proved | `C71_irreducible`, `C71_operations`, `C71_sparse`, `C71_invert`, `C71_from`, `C71_select` |  |
| C72 | The dodecic extension field of zkcrypto | proved | `C72_irreducible`, `C72_operations`, `C72_sparse`, `C72_conjugate`, `C72_invert`, `C72_from`, `C72_select` |  |
| C73 | The Frobenius maps of zkcrypto are powers with the prime | proved | `C73_fp2`, `C73_fp6`, `C73_fp12`, `C73_conjugate`, `C73_order` | The constants are checked by exponentiation in the kernel. |
| C74 | Square roots and their order in the quadratic extension of zkcrypto | proved | `C74_sqrt`, `C74_larger_root` |  |
| C75 | The final exponentiation of zkcrypto is the power it stands for | proved | `C75_exponent`, `C75_power`, `C75_panic`, `C75_order`, `C75_add`, `C75_onto` | The exponent of the chain is checked as an integer identity in the kernel. |
| C76 | The target group of zkcrypto | proved | `C76_identity`, `C76_add`, `C76_neg`, `C76_neg_outside`, `C76_mul`, `C76_mul_action`, `C76_sum`, `C76_generator` |  |
| C77 | Random elements of the target group | partial | `C77_random_partial`, `C77_random_is_identity` | Refuted: the code returns final_exponentiation(1), the identity, whatever the generator (C77_random_is_identity). The partial theorem: the result is in the group. |
| C78 | Scalar multiplication in the second group of zkcrypto | proved | `C78_mul`, `C78_mul_affine`, `C78_linear` | Every curve point, every scalar. |
| C79 | The subgroup test and the order of the second group of zkcrypto | proved | `C79_is_torsion_free`, `C79_multiples`, `C79_generator`, `C79_points` | The point count is proved from points of the prime orders of the cofactor, with a Pocklington certificate for its 448-bit prime factor. |
| C80 | Encodings of points of the second group of zkcrypto | proved | `C80_decode_compressed`, `C80_decode_uncompressed`, `C80_round_trip`, `C80_unchecked`, `C80_format_compressed`, `C80_format_uncompressed` | All byte strings of the right length. |
| C81 | The untwist-Frobenius-twist endomorphism of zkcrypto | proved | `C81_endomorphism`, `C81_psi2`, `C81_characteristic`, `C81_eigenvalue` | Every curve point; the characteristic equation by reduction to seven points that generate the group under psi. |
| C82 | Clearing the cofactor in the second group of zkcrypto | proved | `C82_clear_cofactor`, `C82_homomorphism`, `C82_accepted`, `C82_subgroup`, `C82_injective` | Every curve point. |
| C83 | The pairing of zkcrypto | proved | `C83_pairing`, `C83_all`, `C83_add_left`, `C83_add_right`, `C83_nondegenerate`, `C83_outside` | points of the second group in the prime order subgroup |
| C84 | Prepared points and products of pairings of zkcrypto | proved | `C84_prepare`, `C84_product` |  |
| C85 | Comparison of pairings of zkcrypto | proved | `C85_pairings_verify`, `C85_compare` | C85_compare: first arguments anywhere on the curve |
| C86 | The trusted setup of zkcrypto | partial | `C86_setup_partial`, `C86_debug_panics`, `C86_large_secret_panics`, `C86_refuted_debug`, `C86_refuted_release`, `C86_test_secret` | Right in either build unless the rounding of the multiplication overflows for a power of the secret; right for the secret of the tests and up to 16385 powers. False otherwise: a panic with overflow checks, a wrong point without. |
| C87 | Commitments of zkcrypto | proved | `C87_commit`, `C87_commit_eq`, `C87_commit_add`, `C87_too_long_panics`, `C87_new_accepts` | For all setups made by the library for which C86 holds. Polynomials longer than the setup panic. |
| C88 | Single proofs of zkcrypto | partial | `C88_accepts_iff`, `C88_complete_partial`, `C88_binding`, `C88_unique_proof`, `C88_tiny_setup`, `C88_zero_panics`, `C88_refuted_zero`, `C88_debug_panics`, `C88_refuted_release` | Complete, binding, and one proof per value, for nonzero polynomials and values for which the multiplication does not overflow. False otherwise: the zero polynomial panics, overflowing values panic or are rejected. |
| C89 | Multi proofs of zkcrypto | partial | `C89_accepts_iff`, `C89_complete_partial`, `C89_binding`, `C89_zero_point_panics`, `C89_zero_poly_panics`, `C89_refuted`, `C89_full_width_panics`, `C89_sizes` | For nonzero polynomials and x not 0. False otherwise (panics). |
| C90 | Transforms of points of zkcrypto | partial | `C90_fft_g1_roots`, `C90_fft_g1_partial`, `C90_debug`, `C90_values`, `C90_roundtrip`, `C90_rejects`, `C90_slow`, `C90_release` | Proved in either build for scales up to 16, and for any scale if no root overflows; with overflow checks right or a panic for every scale. Without overflow checks it always returns as many points. |
| C91 | Amortised single proofs of zkcrypto | partial | `C91_single_partial`, `C91_debug`, `C91_agrees`, `C91_order`, `C91_new_rejects`, `C91_rejects`, `C91_wrong_release`, `C91_panics_debug`, `C91_refuted_release`, `C91_refuted_debug`, `C91_single_short_partial`, `C91_short_panics`, `C91_release`, `C91_agrees_short` | Proved for scales up to 16 if no factor overflows; with overflow checks right or a panic always. False in general in both builds. Setups need n - 1 points and nothing more; with fewer the settings panic. Without overflow checks the calls always return 2n points. |
| C92 | Amortised multi proofs of zkcrypto | partial | `C92_multi_partial`, `C92_debug`, `C92_agrees`, `C92_order`, `C92_new_rejects`, `C92_refuted_release`, `C92_refuted_debug`, `C92_multi_short_partial`, `C92_short_panics`, `C92_release`, `C92_agrees_short` | As C91, for every chunk length; the settings need n - l points. |
| C93 | Extension of data and settings constructors of zkcrypto | proved | `C93_das_extension`, `C93_das_rejects`, `C93_from_scale`, `C93_new_fft_settings` |  |
| C94 | Integer helpers of mcl-kzg | partial | `C94_is_power_of_2_partial`, `C94_is_power_of_2_zero`, `C94_log_2`, `C94_next_pow_of_2`, `C94_next_pow_of_2_overflow`, `C94_order_by_rev_bit_order_partial`, `C94_involution`, `C94_order_single`, `C94_reverse_bits_limited`, `C94_reverse_bits_length` | Zero and single element lists panic. |
| C95 | FFT settings of mcl-kzg do not depend on the history of the process | partial | `C95_history`, `C95_new_partial`, `C95_new_panics`, `C95_trait_new_partial`, `C95_trait_truncates`, `C95_trait_root`, `C95_scale_independent`, `C95_scale_dependent`, `C95_threads` | Independent of the history for sequential calls. False: new panics for scales from 32 on, the trait cuts scales to 8 bits, its table mixes roots that do not belong together, and two threads can mix the tables. |
| C96 | Transforms of field elements of mcl-kzg | partial | `C96_fft_is_evaluation`, `C96_fft_roundtrip_partial`, `C96_fft_roundtrip_31`, `C96_fft_rejects` | Round trip up to 2^30 values; at 2^31 it gives the negatives (proved). |
| C97 | Recursive and quadratic transforms of mcl-kzg agree | proved | `C97_fast_eq_slow` |  |
| C98 | Transforms of points of mcl-kzg | partial | `C98_fft_g1`, `C98_roundtrip_partial`, `C98_roundtrip_31`, `C98_rejects`, `C98_empty` | Round trip up to 2^30 points; at 2^31 it gives the negatives; the empty list panics (proved). |
| C99 | Multiplication of polynomials of mcl-kzg | partial | `C99_eval`, `C99_mul_direct`, `C99_mul_fft_partial`, `C99_mul_partial`, `C99_mul_fft_negated`, `C99_mul_fft_narrow`, `C99_mul_fft_empty` | Up to 2^30 coefficients of the product; above that the product is negated (proved). Two empty operands panic. |
| C100 | Division of polynomials of mcl-kzg | partial | `C100_long_division`, `C100_fast_div_partial`, `C100_fast_div_negated`, `C100_div_partial`, `C100_rejects`, `C100_fast_div_long`, `C100_fast_div_panics`, `C100_div_choice` | Long division for all lengths. Fast division for quotients up to 2^29 coefficients. Refuted above: negated, right again, or three times the quotient in the upper half, by the lengths (C100_fast_div_long); a panic above 2^30 (C100_fast_div_panics). |
| C101 | Inverse power series of mcl-kzg | partial | `C101_inverse_partial`, `C101_rejects`, `C101_constant`, `C101_right_partial`, `C101_negated`, `C101_wrong`, `C101_panics`, `C101_right_iff`, `C101_rejects_iff` | Refuted above 2^30 coefficients, with the exact domain (C101_right_iff). Right if n <= 2^30 and the second product of the last step has at most 2^30 coefficients, always for n up to 2/3 of 2^30 and for constants. Otherwise negated (C101_negated), wrong by a factor -3 (C101_wrong), or a panic above 2^30 (C101_panics). |
| C102 | Extension of data of mcl-kzg | partial | `C102_das_extension`, `C102_das_rejects_partial`, `C102_trait_panics` | The trait function panics instead of returning an error (proved). |
| C103 | Zero polynomials of mcl-kzg | partial | `C103_product`, `C103_reduce`, `C103_reduce_long`, `C103_zero_poly_signed`, `C103_zero_poly_partial`, `C103_negated_31`, `C103_dense_panics`, `C103_zero_poly_edges`, `C103_full_statement_false` | Refuted for dense sets: beyond 63*(D/64+1) missing positions the call panics (C103_dense_panics), and for D = 2^31 with 64*ceil(m/63) > 2^30 the result is negated (C103_negated_31). Proved for every other nonempty list of missing positions and every domain (C103_zero_poly_signed covers both signs). With nothing missing it returns zeros. |
| C104 | Recovery of mcl-kzg | proved | `C104_recovery_general`, `C104_recovery`, `C104_unwrap_default` | All domains up to 2^31. On 2^31 the zero polynomial may be negated (C103) and the inverse transform negates (C96); the signs cancel. |
| C105 | Recovery of mcl-kzg agrees with the samples | partial | `C105_agrees_partial`, `C105_complete_ignored`, `C105_complete_wrong`, `C105_rejects` | Refuted if nothing is missing: the result then does not depend on the samples (C105_complete_ignored, C105_complete_wrong). Proved for all sample lists with at least one missing and one present value and at most 63*(D/64+1) missing; more missing values panic. |
| C106 | Recovery of mcl-kzg with the parallel feature | partial | `C106_parallel_partial`, `C106_large_panics` | Refuted above 65536 samples: the parallel version panics there (C106_large_panics). Proved up to 65536. |
| C107 | Trusted setup and settings of mcl-kzg | proved | `C107_secret`, `C107_setup`, `C107_setup_large`, `C107_settings_new`, `C107_reading_differs` | Both ways to make a setup; settings with any numbers of points. C107_reading_differs: the bytes are read in another order than in blst-from-scratch. |
| C108 | Commitments and single proofs of mcl-kzg | partial | `C108_commit`, `C108_single_proof_partial`, `C108_single_complete`, `C108_single_accepts_iff`, `C108_single_unique`, `C108_single_tiny_setup`, `C108_long_proof_wrong`, `C108_final_exponent` | Everything for polynomials that fit the setup (proofs: one coefficient more). C108_long_proof_wrong: for two coefficients more the proof returned is wrong and refused. C108_single_tiny_setup: fewer than two points panic. |
| C109 | Proofs for several points of mcl-kzg | partial | `C109_multi_proof`, `C109_multi_complete_partial`, `C109_multi_accepts_iff`, `C109_multi_full_width_panics`, `C109_multi_sizes`, `C109_missing_values_are_zero` | n up to 2^30 below the setup length, polynomials up to 2^29 coefficients, x not 0. C109_multi_full_width_panics: n equal to the setup length panics. C109_missing_values_are_zero: too short value lists count as filled with zeros. Longer polynomials: C196. |
| C110 | Amortised single proofs of mcl-kzg (FK20) | partial | `C110_settings_new`, `C110_fk20_single_partial`, `C110_largest_negated`, `C110_fk20_single_order`, `C110_rejects` | All sizes up to 2^30. C110_largest_negated: for size 2^31 every entry is the negation of the proof. |
| C111 | Amortised multi proofs of mcl-kzg (FK20) | partial | `C111_settings_new`, `C111_fk20_multi_partial`, `C111_fk20_multi_values`, `C111_fk20_multi_order`, `C111_rejects` | Comparison with compute_proof_multi up to 2^29 coefficients; the values of all entries except for chunk length 1 at size 2^31 (C111_fk20_multi_values). |
| C112 | Amortised proofs of mcl-kzg for every accepted polynomial | partial | `C112_right_size_partial`, `C112_longer_too_few`, `C112_shorter_wrong`, `C112_full_statement_false`, `C112_multi_longer_panics`, `C112_multi_below_chunk_panics`, `C112_multi_unextended` | Holds for the length the settings were made for. Refuted otherwise: C112_longer_too_few, C112_shorter_wrong, C112_full_statement_false; multi proofs panic or, unextended, come out half as many. |
| C113 | Settings of the Arkworks backend | proved | `C113_new`, `C113_same_settings`, `C113_clone`, `C113_default` |  |
| C114 | Field transforms of the Arkworks backend | partial | `C114_fft`, `C114_same_transform`, `C114_rejects`, `C114_fast_eq_slow_partial`, `C114_fast_ignores_roots`, `C114_inverse_table_differs` | fft_fr is proved in full, and agrees with blst-from-scratch. Refuted for the low level functions: C114_fast_ignores_roots, C114_inverse_table_differs; they agree for the forward table (C114_fast_eq_slow_partial). |
| C115 | Point transforms and linear combinations of the Arkworks backend | partial | `C115_fft_g1`, `C115_rejects`, `C115_fast_eq_slow_partial`, `C115_slow_one_point`, `C115_linear_combination`, `C115_make_data` | fft_g1 and linear combinations are proved in full. Refuted for the low level functions on one point: C115_slow_one_point. |
| C116 | Field element interface of the Arkworks backend | partial | `C116_words_roundtrip`, `C116_from_words_partial`, `C116_from_words_large`, `C116_null_is_an_element`, `C116_null_ne`, `C116_inverse_div`, `C116_eucl_inverse` | Proved for words below r. Refuted: words from r on give zero (C116_from_words_large), null is an ordinary element (C116_null_is_an_element), eucl_inverse always panics (C116_eucl_inverse). |
| C117 | Evaluation and products of the Arkworks backend | partial | `C117_eval`, `C117_mul_direct_partial`, `C117_mul_direct_zero`, `C117_mul_fft`, `C117_mul_fft_narrow`, `C117_mul_fft_empty`, `C117_mul_partial`, `C117_mul_zero` | Nonzero operands; mul_fft also zero ones. Refuted: a zero operand gives the empty list in mul_direct (C117_mul_direct_zero, C117_mul_zero); nothing to multiply panics (C117_mul_fft_empty). |
| C118 | Inverse and division of the Arkworks backend | partial | `C118_inverse_partial`, `C118_inverse_rejects`, `C118_inverse_panics`, `C118_long_division`, `C118_long_division_by_zero`, `C118_fast_div_partial`, `C118_fast_div_rejects`, `C118_fast_div_zero`, `C118_div_partial`, `C118_div_trailing_zeros` | Nonzero dividends, divisors with nonzero last coefficient, up to 2^30 coefficients. Refuted for the lengths 0 and above 2^30 (C118_inverse_panics), zero divisors (C118_long_division_by_zero), zero dividends of fast_div (C118_fast_div_zero) and zeros at the top of long divisors (C118_div_trailing_zeros). |
| C119 | Zero polynomials of the Arkworks backend | partial | `C119_product`, `C119_reduce`, `C119_zero_poly_partial`, `C119_dense_error`, `C119_zero_poly_edges`, `C119_full_statement_false` | Refuted for dense sets from domain 8192 on: an error exactly if more than 63*(D/64+1) positions are missing (C119_dense_error, C119_full_statement_false). |
| C120 | Recovery of the Arkworks backend | proved | `C120_recovery_general`, `C120_recovery` |  |
| C121 | Recovery of the Arkworks backend: soundness and outcome | proved | `C121_recovery_sound`, `C121_recovery_outcome` |  |
| C122 | Shared scaling tables of the Arkworks backend, calls one at a time | proved | `C122_history_independent`, `C122_scaling`, `C122_scaling_empty` | C122_scaling_empty: for the empty polynomial scale_poly panics with the parallel feature only. |
| C123 | Shared scaling tables of the Arkworks backend, concurrent calls | partial | `C123_threads_partial`, `C123_race`, `C123_full_statement_false`, `C123_guarded`, `C123_alone`, `C123_guard_needed` | Refuted: C123_race, C123_full_statement_false. Holds if the table is long enough before (C123_threads_partial) and if no call starts while another makes the table longer (C123_guarded); a call alone always ends with the right result (C123_alone). |
| C124 | Data availability extension of the Arkworks backend | proved | `C124_das_extension`, `C124_das_rejects` |  |
| C125 | Trusted setup of the Arkworks backend | partial | `C125_secret_partial`, `C125_identity`, `C125_same_for_all_secrets`, `C125_large`, `C125_setup_test`, `C125_full_statement_false` | Refuted: the points multiplied are made with the flag for infinity set, so every setup consists of identity points and is the same for all secrets. Proved: the reading of the secret, the panic for large ones, and that generate_trusted_setup_test gives the powers. |
| C126 | Settings of the Arkworks backend | partial | `C126_settings_partial`, `C126_secret_ignored`, `C126_same_for_all_secrets`, `C126_empty_panics`, `C126_clone`, `C126_default`, `C126_seed`, `C126_seed_iff` | Refuted: the given points are used only to seed the generator that draws another secret (the first 32 bytes of x of the last point), so with points of generate_trusted_setup all settings belong to one constant; a clone is one longer and belongs to another scalar; an empty list and clones of default settings panic. Proved: the settings consist of consistent powers of the drawn scalar. |
| C127 | Commitments and single proofs of the Arkworks backend | proved | `C127_commit`, `C127_last_point_unused`, `C127_single_proof`, `C127_single_complete`, `C127_single_accepts_iff`, `C127_single_unique`, `C127_length_zero` |  |
| C128 | Proofs for several points of the Arkworks backend | partial | `C128_multi_proof`, `C128_multi_complete_partial`, `C128_multi_accepts_iff`, `C128_multi_long_panics`, `C128_zero_polynomial_panics`, `C128_zero_points`, `C128_full_statement_false` | Missing: a zero polynomial with n >= 127 points and length from n+2 to n+127 panics (proved, negation of the full statement); polynomials of more than 2^30 coefficients (see C196). n above the length, the point zero and other numbers of values panic. |
| C129 | FK20 single proofs of the Arkworks backend | proved | `C129_settings_new`, `C129_fk20_single_values`, `C129_fk20_single`, `C129_fk20_single_order`, `C129_rejects` |  |
| C130 | FK20 multi proofs of the Arkworks backend | proved | `C130_settings_new`, `C130_fk20_multi_values`, `C130_fk20_multi`, `C130_fk20_multi_order`, `C130_rejects` |  |
| C131 | FK20 of the Arkworks backend with mismatched sizes, clones and defaults | partial | `C131_right_size_partial`, `C131_longer_panics`, `C131_shorter_wrong`, `C131_multi_longer_panics`, `C131_multi_below_chunk_panics`, `C131_clone_panics`, `C131_defaults`, `C131_full_statement_false`, `C131_default_fields` | Refuted: shorter polynomials get wrong lists without an error, longer ones and ones shorter than a chunk panic, cloning FK20 settings always panics. Proved: the right size. |
| C132 | Conversions between zkcrypto and blst | partial | `C132_scalar`, `C132_scalar_round_trip`, `C132_u64_arr`, `C132_poly_out`, `C132_poly_in`, `C132_poly_in_wrong`, `C132_fp_out`, `C132_fp_in`, `C132_fp_in_wrong`, `C132_point_out`, `C132_point_out_wrong`, `C132_point_round_trip`, `C132_point_in_partial`, `C132_point_in_infinity`, `C132_point_in_wrong`, `C132_full_statement_false` | Refuted: polynomials from blst keep only the low word of the Montgomery form of each coefficient, base field elements from blst come out divided by 2^384, points with a last coordinate other than 0 and 1 become other points (C132_point_out is exact), and the point at infinity of blst has no counterpart. Proved: scalars both ways, word arrays, polynomials to blst, round trips of points. |
| C133 | Generators and identities of all backends | proved | `C133_g1_generator`, `C133_g1_negative`, `C133_g2_generator`, `C133_g2_negative`, `C133_identity`, `C133_mcl_gen`, `C133_unique` |  |
| C134 | Integer helpers and root expansion of ckzg | proved | `C134_log2`, `C134_is_power_of_2`, `C134_next_pow_of_2`, `C134_next_pow_of_2_overflow`, `C134_log_2_byte`, `C134_expand`, `C134_expand_rejects`, `C134_expand_mcl_diverges` | The second expansion does not stop for elements of which no power is one (C134_expand_mcl_diverges). |
| C135 | Setup, test data and scales of ckzg | partial | `C135_setup`, `C135_setup_agrees`, `C135_make_data`, `C135_make_data_wrong`, `C135_make_data_partial`, `C135_scale_truncated`, `C135_scale_partial`, `C135_add_or_dbl` | Refuted: make_data drops the sums it computes and returns copies of the generator; the scale is taken modulo 2^32. Proved: the setup, and the rest for at most one entry and scales below 2^32. |
| C136 | Buffers and answers of ckzg | partial | `C136_safe_partial`, `C136_tables`, `C136_answer`, `C136_recover`, `C136_unchecked`, `C136_mul_fft_empty`, `C136_forwards` | Refuted: check_proof_multi, KZGSettings::new, linear_combination_g1, the accessors by index and the benchmark transforms do not compare lengths and indices with the buffers; C136_unchecked says exactly when they go outside. poly_mul_fft of empty polynomials panics. Proved for all other functions, for libraries that make polynomials of the length asked for. |
| C137 | Ownership of memory in ckzg | partial | `C137_careful_partial`, `C137_no_leak`, `C137_start`, `C137_clone_double_free`, `C137_clone_use`, `C137_default_poly`, `C137_settings_outlive` | Refuted: derived clones share memory, so ending both frees it twice; default polynomials and failed divisions free a dangling pointer; settings do not keep those they refer to alive. Proved for programs that avoid this (Careful). |
| C138 | The field interface of zkcrypto | proved | `C138_contract`, `C138_inverse_zero` | For all reduced words; the inverse of zero panics. |
| C139 | The field interface of blst-from-scratch | partial | `C139_contract_partial`, `C139_null_is_an_element`, `C139_null_iff`, `C139_inverse_zero` | Refuted: the element (2^256-1) mod r is taken for null (C139_null_iff: only that one). Everything else is proved. |
| C140 | The field interface of mcl-kzg | partial | `C140_contract_partial`, `C140_from_words_panics`, `C140_pow_zero`, `C140_eucl_inverse`, `C140_null_is_an_element`, `C140_full_statement_false` | Refuted: pow(0) returns the element, words from r on panic, eucl_inverse panics, null is an ordinary element. The rest is proved. |
| C141 | The field interfaces of ckzg and Arkworks | partial | `C141_ckzg_panics`, `C141_ckzg_false`, `C141_ark_partial`, `C141_ark_false`, `C141_ckzg_partial` | Refuted: ckzg panics for sub, inverse and eucl_inverse whatever the library does; Arkworks gives zero for words from r on, panics for divisions by zero and eucl_inverse, and takes an ordinary element for null. The rest is proved for Arkworks, and for ckzg relative to its library. |
| C142 | The field interfaces of the backends agree | partial | `C142_agreement_partial`, `C142_words_differ`, `C142_zero_differs`, `C142_null_differs` | Refuted for words from r on, zero divisors and null; agreement proved for all else. |
| C143 | The group interfaces of zkcrypto | partial | `C143_g2_contract`, `C143_g1_contract_partial`, `C143_g1_false` | Refuted for G1 products with overflow checks: those whose rounding overflows panic (C54). Everything else is proved, for G2 without exception. |
| C144 | The group interfaces of Arkworks | partial | `C144_values_partial`, `C144_add_overwrites`, `C144_equals_points_partial`, `C144_equals_words`, `C144_g2_default`, `C144_constants` | Refuted: add_or_dbl writes the sum to its first argument; the default of G2 panics; equals is wrong if the crate blst compares words (and right if it compares points). The values are proved right given a lawful library. |
| C145 | The group interfaces of blst-from-scratch and mcl-kzg | proved | `C145_blst`, `C145_mcl` | Given libraries that compute in the prime order groups. |
| C146 | Random elements of the zkcrypto backend | proved | `C146_fp`, `C146_fp_onto`, `C146_scalar`, `C146_g1`, `C146_g1_onto`, `C146_g1_again`, `C146_g2`, `C146_g2_onto` | The generator is the list of its answers; a loop that uses up the list gives none. Not about distributions. |
| C147 | The constants and small functions of the scalar field traits of zkcrypto | proved | `C147_is_odd`, `C147_bits`, `C147_two_adicity`, `C147_generator`, `C147_root`, `C147_sum` | The order of 7 from the factorisation of r - 1. |
| C148 | The groups of BLS12-381 satisfy what the model assumes of the libraries | proved | `C148_blst`, `C148_mcl`, `C148_ark`, `C148_pairing`, `C148_scalar`, `C148_members` | The pairing is the one zkcrypto computes (C83-C85). Coordinates of Arkworks points, its random numbers and test parameters stay arbitrary. |
| C149 | Commitments and single proofs are interchangeable between backends | partial | `C149_commit`, `C149_proof_partial`, `C149_zero_polynomial`, `C149_check_partial`, `C149_across` | Refuted for zkcrypto: proofs of the zero polynomial panic there and are the identity elsewhere (C149_zero_polynomial), and its check overflows for the values of C54. Proved: commitments; proofs of nonzero polynomials of at most 2^30 coefficients; the checks for all other values; acceptance across backends. |
| C150 | Multi proofs are interchangeable between backends | partial | `C150_roots`, `C150_check_partial`, `C150_proof`, `C150_mcl_roots`, `C150_mcl_refuses` | Refuted for mcl-kzg: its cosets of eight or more points are others unless the settings come from the constructor of the trait with scale below 7 (C150_mcl_roots, an equivalence), and then it refuses proofs and values that the other three accept (C150_mcl_refuses). Proved: proofs of nonzero polynomials of at most 2^29 coefficients agree in all four, cosets and checks in the other three. |
| C151 | Transforms are interchangeable between backends | partial | `C151_settings`, `C151_fft`, `C151_das`, `C151_fft_g1_partial`, `C151_mcl_settings`, `C151_mcl_partial`, `C151_mcl_differs`, `C151_mcl_pads` | Refuted for mcl-kzg: its settings are the others for scales below 3, or below 7 from the constructor of the trait, and no others (C151_mcl_settings, an equivalence); then some transform differs (C151_mcl_differs), and lengths that the others refuse are filled up (C151_mcl_pads). Proved: settings, transforms of field elements and extensions of the other three for all inputs; points for zkcrypto with scale at most 16 or no overflowing root; mcl-kzg where its settings are the same. |
| C152 | Amortised proofs are interchangeable between backends | partial | `C152_single_partial`, `C152_multi_partial`, `C152_mcl_differs` | Refuted for mcl-kzg where its root of unity is another one: the second proof of X^2 differs (C152_mcl_differs). Proved: blst-from-scratch and Arkworks for all sizes; mcl-kzg where the root is the same and lists have at most 2^30 entries; zkcrypto with scale at most 16 and no overflowing factor. |
| C153 | Samples of one backend are recovered by the others | partial | `C153_recover_partial`, `C153_refuses`, `C153_mcl_differs` | Refuted for mcl-kzg where its root of unity is another one (C153_mcl_differs), and for blst-from-scratch beyond 65536 samples, where it panics. Proved: Arkworks recovers exactly what zkcrypto recovers, with the same data (C153_refuses); blst-from-scratch up to 65536 samples, mcl-kzg with the same root in all sizes. |
| C154 | Polynomials keep their coefficients | proved | `C154_storage`, `C154_default`, `C154_writes` | Storage contract, default and history of writes for all four backends. |
| C155 | Scaling a polynomial substitutes x/5 | partial | `C155_ark_partial`, `C155_extra_factor`, `C155_full_statement_false`, `C155_mcl_panics`, `C155_roundtrip` | Proved for Arkworks. Refuted: blst-from-scratch and zkcrypto return p(x/5)/5 and 5p(5x) (C155_extra_factor, C155_full_statement_false); mcl-kzg panics (C155_mcl_panics). The round trips hold. |
| C156 | Polynomial arithmetic is interchangeable between backends | partial | `C156_eval`, `C156_mul_partial`, `C156_inverse_partial`, `C156_inverse_rejects`, `C156_inverse_differs`, `C156_div_partial`, `C156_mul_zero`, `C156_div_by_zero`, `C156_div_differs` | Proved for operands that are not zero and have no zeros at the top, up to 2^29 coefficients. Refuted: constants, zero operands, inverse length 0, zero divisors and zeros at the top (C156_eval, C156_mul_zero, C156_inverse_differs, C156_div_by_zero, C156_div_differs). |
| C157 | Settings of every scale show the right roots | partial | `C157_contract`, `C157_mcl_partial`, `C157_mcl_truncates`, `C157_mcl_full_statement_false` | Refuted: mcl-kzg takes scales modulo 256 (C157_mcl_truncates, C157_mcl_full_statement_false). Proved for blst-from-scratch, zkcrypto and Arkworks for all scales, and for mcl-kzg below 256. |
| C158 | Default FFT settings are those of scale 0 | partial | `C158_default_partial`, `C158_empty_defaults`, `C158_full_statement_false` | Refuted: the defaults of zkcrypto and Arkworks have width 0 and no roots (C158_empty_defaults, C158_full_statement_false). Proved for blst-from-scratch and mcl-kzg. |
| C159 | Copies of settings equal the originals | partial | `C159_fft`, `C159_clone_partial`, `C159_ark`, `C159_full_statement_false` | Refuted: clones of settings for commitments of Arkworks differ from the originals and clones of settings for amortised proofs panic (C159_ark, C159_full_statement_false). Proved for the other backends, and for FFT settings in all. |
| C160 | Default settings refuse polynomials with an error | partial | `C160_commit_partial`, `C160_panics`, `C160_amortised` | Refuted: zkcrypto and Arkworks panic instead (C160_panics), mcl-kzg panics for the empty polynomial (C160_amortised). Proved for the rest. |
| C161 | The groups of ckzg keep the group contract | proved | `C161_g1`, `C161_g2`, `C161_rand` | Relative to the C library doing what its functions are named for (trusted base). |
| C162 | Random elements are equally likely | partial | `C162_fr`, `C162_uneven`, `C162_full_statement_false`, `C162_wide_partial`, `C162_g1_blst`, `C162_g1_zk_partial`, `C162_g1_zk_panics`, `C162_mcl_poly`, `C162_mcl_g1` | Refuted: of the 2^256 quadruples of words an element comes from three or from two (C162_uneven), and G1::rand of zkcrypto panics for some words with overflow checks (C162_g1_zk_panics). What holds: every element can come out, the two backends give the same residue, and points are the right multiples unless the rounding overflows; counting is nearly even for the 512-bit function that the trait does not use. |
| C163 | Few secrets let a wrong value through | proved | `C163_blst`, `C163_blst_any`, `C163_blst_tight`, `C163_mcl`, `C163_ark`, `C163_zk` | Counts secrets; for blst-from-scratch also without assuming that the library handles points at infinity, with two more. |
| C164 | Few secrets let a wrong value through a release build of zkcrypto | partial | `C164_partial`, `C164_forged`, `C164_full_statement_false` | Refuted: there are two values such that honest proofs for the one are accepted with the other for every secret (C164_forged, C164_full_statement_false). Proved for values whose product does not overflow. |
| C165 | Few secrets let wrong values on a coset through | proved | `C165_blst`, `C165_blst_any`, `C165_mcl`, `C165_ark`, `C165_zk` | For blst-from-scratch, mcl-kzg (m at most 30), Arkworks and zkcrypto, both builds. |
| C166 | Few secrets give two polynomials one commitment | proved | `C166_blst`, `C166_mcl`, `C166_ark`, `C166_zk` | For blst-from-scratch the secret zero counts only if the library handles points at infinity. |
| C167 | The shared test of single proofs passes for every input | partial | `C167_blst_partial`, `C167_mcl`, `C167_ark`, `C167_constant_blst`, `C167_zk_partial`, `C167_constant_zk` | Refuted for polynomials of one coefficient in blst-from-scratch and zkcrypto (C167_constant_blst, C167_constant_zk). Proved for every other polynomial in blst-from-scratch, for every polynomial in mcl-kzg and Arkworks, and for zkcrypto for polynomials that are not zero and factors that are not rounded beyond the type. Where the library has no result for an infinite sum, blst-from-scratch excludes the secret as the point and the secret zero. |
| C168 | The shared test of multi-point proofs passes for every input | partial | `C168_blst_partial`, `C168_mcl_partial`, `C168_ark_partial`, `C168_zk_partial`, `C168_blst_exact`, `C168_ark_exact`, `C168_zk_exact`, `C168_mcl_sized`, `C168_mcl_fails` | Refuted for some inputs that fit: exactly which in blst-from-scratch, Arkworks and zkcrypto (C168_blst_exact, C168_ark_exact, C168_zk_exact): one coefficient (eval panics) in the first and last, the zero polynomial in zkcrypto and for some lengths in Arkworks, and the sizes of C196. mcl-kzg: passes for quotients of up to 2^29 coefficients and all long divisions (C168_mcl_sized), fails where proofs are negated or cannot be computed (C168_mcl_fails). Cosets without 0 and the secret, as in the statement. |
| C169 | The shared tests of amortised single proofs pass for every input | partial | `C169_blst_partial`, `C169_mcl_partial`, `C169_ark`, `C169_zk_partial`, `C169_zk_short_partial` | Proved for 2^m coefficients; 0 < m in blst-from-scratch and zkcrypto (eval panics otherwise), m at most 29 in mcl-kzg, all m in Arkworks. zkcrypto: scales up to 16 and only where no factor is rounded beyond the type. |
| C170 | The shared test of amortised chunk proofs passes for every input | partial | `C170_blst_partial`, `C170_mcl_partial`, `C170_ark`, `C170_zk_partial`, `C170_zk_short_partial` | Proved for 2^(m+c) coefficients and chunks of 2^c; more than one coefficient in blst-from-scratch and zkcrypto (eval panics otherwise), m + c at most 29 in mcl-kzg, all in Arkworks. zkcrypto: scales up to 16 and only where no factor is rounded beyond the type. |
| C171 | The shared tests of recovery pass for every input | partial | `C171_blst_partial`, `C171_blst_large`, `C171_mcl_partial`, `C171_mcl_31`, `C171_ark`, `C171_zk`, `C171_simple` | Refuted for scales above 16 in blst-from-scratch (C171_blst_large: the test panics for every input) and for the scale 31 in mcl-kzg (C171_mcl_31: the last comparison panics for every nonzero polynomial). Proved for scales up to 16 there, up to 30 in mcl-kzg and for all scales in Arkworks and zkcrypto; recover_simple for all four. |
| C172 | The shared test of the extension passes for every input | proved | `C172_blst`, `C172_zk`, `C172_ark`, `C172_mcl` |  |
| C173 | Texts and bytes of mcl-kzg | partial | `C173_serialize_safe`, `C173_serialize_unchecked`, `C173_sizes`, `C173_serialize`, `C173_serialize_small`, `C173_deserialize_trailing`, `C173_text_fits_partial`, `C173_text_panics`, `C173_gt_panics`, `C173_binary_panics`, `C173_orders`, `C173_answers`, `C173_init`, `C173_full_statement_false`, `C173_sizes_overflow` | Refuted for texts of more than 1024 bytes: most elements of GT (C173_gt_panics, C173_full_statement_false) and points of G2 in base 2 (C173_binary_panics) panic; deserialize ignores what follows (C173_deserialize_trailing). Proved: texts of all other types in the bases 10 and 16, bytes, operators, predicates, for libraries that print numbers separated by spaces. |
| C174 | Encodings of projective points of zkcrypto | proved | `C174_g1_bytes`, `C174_g1_round_trip`, `C174_g1_decode`, `C174_g2_bytes`, `C174_g2_round_trip`, `C174_g2_decode`, `C174_wnaf` |  |
| C175 | Chunks that pass their checks give the committed data | partial | `C175_blst_partial`, `C175_blst_any`, `C175_mcl`, `C175_ark`, `C175_zk`, `C175_blst_large` | Refuted for blst-from-scratch with more than 65536 values, on which recovery panics for every secret (C175_blst_large). Proved for blst-from-scratch up to 65536, zkcrypto and Arkworks in all sizes, mcl-kzg in all sizes with chunks of up to 2^30 values; N + 2*2^m secrets if the foreign functions of blst treat the identity wrongly. |
| C176 | Honest chunks are accepted and any half of them is enough | partial | `C176_blst_partial`, `C176_mcl`, `C176_ark`, `C176_zk` | Proved for blst-from-scratch up to 65536 values (recovery panics beyond, C21), mcl-kzg for polynomials of up to 2^29 coefficients (longer quotients are negated, C109), Arkworks and zkcrypto in all sizes, for chunks shorter than the setup (C28, C89, C109, C128). Left out because it panics: the zero polynomial in zkcrypto and, for some lengths, in Arkworks (C89, C128). |
| C177 | The shared tests of zero polynomials pass for every set of positions | partial | `C177_blst_exact`, `C177_zk_exact`, `C177_ark_exact`, `C177_mcl_exact`, `C177_mcl_31`, `C177_passes_partial`, `C177_nothing_missing`, `C177_all_but_one`, `C177_252` | Refuted: nothing missing panics in three backends (C177_nothing_missing), dense sets panic in all (C177_all_but_one), mcl-kzg fails with 2^31 positions (C177_mcl_31); the exact theorems say when a round passes. |
| C178 | The shared test of partial products holds in every round, and says so | partial | `C178_passes_partial`, `C178_blind` | Refuted in its last part: the comparisons are dropped and any products of enough coefficients pass (C178_blind). Every comparison holds in all four backends; in mcl-kzg up to 2^30 positions. |
| C179 | The shared tests of transforms of scalars pass for all data and sizes | partial | `C179_blst`, `C179_zk`, `C179_ark`, `C179_mcl_compare`, `C179_mcl_partial`, `C179_mcl_31`, `C179_mcl_stride_partial`, `C179_mcl_stride`, `C179_mcl_stride_exact`, `C179_inverse`, `C179_inverse_other_table` | Refuted for mcl-kzg: the round trip at size 31 returns the negated data (C179_mcl_31), and the stride test fails for sizes of which one is from 3 to 6 and the other at least 7 (C179_mcl_stride_exact). Proved in full for blst-from-scratch, zkcrypto and Arkworks, with the exact sizes that pass. Arkworks and mcl-kzg take ranges of sizes from the domain of their number types. ckzg transforms inside its C library. |
| C180 | The shared tests of transforms of points pass for all data and sizes | partial | `C180_blst`, `C180_ark_partial`, `C180_ark_zero`, `C180_mcl_compare`, `C180_mcl_partial`, `C180_mcl_31`, `C180_mcl_stride`, `C180_zk_partial` | Refuted for mcl-kzg (C180_mcl_31, C180_mcl_stride) and at size 0: for blst-from-scratch (C180_blst) and Arkworks (C180_ark_zero). Proved for blst-from-scratch with the exact sizes, for Arkworks from size 1, for mcl-kzg with the exact sizes, and for zkcrypto with sizes 1 to 16; missing there are 17 to 31, as in C90. |
| C181 | The shared random tests of polynomials pass whatever is drawn | partial | `C181_mul_random_partial`, `C181_div_random_partial`, `C181_random_empty`, `C181_mul_random_no_output`, `C181_mul_random_mcl_long`, `C181_div_random_mcl_long`, `C181_mul_random_exact`, `C181_div_random_exact` | Holds for at most 2^30+1 coefficients together and dividends of at most 2^29, in all four backends, far beyond what the tests draw. The exact lengths of blst-from-scratch, zkcrypto and Arkworks, beyond which a round panics, are in C181_mul_random_exact and C181_div_random_exact. Refuted beyond: in mcl-kzg the product with transforms and the fast quotient come out negated and the tests fail. With an empty operand every backend fails, with an empty result mcl-kzg and Arkworks. |
| C182 | The shared tests of polynomials with fixed values pass exactly with the right values | partial | `C182_create`, `C182_eval_check_partial`, `C182_eval_zero_check`, `C182_eval_nil`, `C182_inverse_simple`, `C182_div_case`, `C182_div_table`, `C182_div_seventh`, `C182_div_by_zero`, `C182_mul_case`, `C182_mul_values` | Holds except: poly_eval_check with one coefficient fails in blst-from-scratch and zkcrypto, and poly_div_by_zero fails in Arkworks (where the test is marked should_panic). Refuted as stated by these. Inverses up to 2^29 - 2 coefficients, dividends up to 2^29. |
| C183 | The shared tests of field elements pass exactly with the right values | partial | `C183_null`, `C183_zero_one`, `C183_equal`, `C183_equal_reduced`, `C183_negate`, `C183_pow_partial`, `C183_pow_zero`, `C183_div`, `C183_div_by_zero`, `C183_roundtrip`, `C183_log_2_byte` | Every test is stated as an equation: it passes exactly when its values are right, in all four backends, with all values. Missing: the exponent zero of fr_pow_works, with which the test fails in mcl-kzg for every base but one (C183_pow_zero), and a zero divisor in mcl-kzg (depends on the library) and Arkworks (panics, as its mark says) (C183_div_by_zero). |
| C184 | The shared tests of points, linear combinations and pairings pass whatever is drawn | partial | `C184_points`, `C184_mul_partial`, `C184_linear_combinations`, `C184_pairings_blst`, `C184_pairings` | All tests in all backends. Missing: p1_mul_works in zkcrypto without overflow checks with a scalar whose rounding overflows (C54), which the test never takes. |
| C185 | The shared tests of the tables of roots pass exactly for the right scales and tables | proved | `C185_out_of_bounds`, `C185_roots`, `C185_expand`, `C185_settings`, `C185_tables`, `C185_weak_table` | Exact conditions in all four backends, the expansion of ckzg included; C185_weak_table shows a wrong table that the tests let through. |
| C186 | The shared tests with precomputed values pass exactly with the right tables | proved | `C186_das`, `C186_zero`, `C186_data`, `C186_reduce`, `C186_data_multiples`, `C186_known`, `C186_data_zeros` | Every backend; the three tests of zero polynomials in mcl-kzg up to 2^30 positions, as stated. |
| C187 | The shared tests of commitments and of settings for multi proofs pass exactly with the right sizes | partial | `C187_commit_blst`, `C187_commit_mcl`, `C187_commit_ark`, `C187_message_ark`, `C187_settings_blst`, `C187_settings_mcl`, `C187_settings_ark`, `C187_commit_zk`, `C187_message_zk`, `C187_settings_zk_partial`, `C187_settings_zk_release`, `C187_settings_zk_short_partial`, `C187_settings_zk_debug` | Missing: fk_multi_settings in zkcrypto with overflow checks for scales above 16 and sizes it should pass with. Without overflow checks it is exact for every scale and every setup (C187_settings_zk_release). |
| C188 | Claims about one commitment that contradict each other break the assumption behind the scheme | proved | `C188_blst`, `C188_mcl`, `C188_ark`, `C188_mcl_single`, `C188_ark_single`, `C188_determines`, `C188_zk`, `C188_zk_single` | For blst-from-scratch under the conditions of C27 and C29; mcl-kzg up to 2^30 values; zkcrypto for values without overflow. |
| C189 | Accepted claims add up | proved | `C189_blst_single`, `C189_mcl_single`, `C189_ark_single`, `C189_blst_multi`, `C189_mcl_multi`, `C189_ark_multi`, `C189_zk_single`, `C189_zk_multi` | Conditions as in C188; single claims of zkcrypto with the factor one. |
| C190 | Extended data differ in more than half of the samples | proved | `C190_blst`, `C190_mcl`, `C190_ark`, `C190_zk` |  |
| C191 | Extended data survive the loss of any half of the samples, and no more | partial | `C191_blst_partial`, `C191_blst_panics`, `C191_mcl`, `C191_ark`, `C191_zk`, `C191_mcl_parallel_partial` | Proved for mcl-kzg, Arkworks and zkcrypto, for blst-from-scratch and for mcl-kzg in parallel up to 2^16 samples. Refuted: from 2^17 samples on recovery of blst-from-scratch panics (C191_blst_panics). |
| C192 | Extending what recovery returned shows whether the samples belong to any data | partial | `C192_blst_partial`, `C192_mcl`, `C192_ark`, `C192_zk` | For mcl-kzg, Arkworks and zkcrypto for all sizes. blst-from-scratch up to 2^16 samples: from 2^17 samples its recovery panics (C191_blst_panics), so the statement for all sizes does not hold there. |
| C193 | The values written in the unit tests of the fields and curves come out | proved | `C193_fp_conditional_selection`, `C193_fp_equality`, `C193_fp_squaring`, `C193_fp_multiplication`, `C193_fp_addition`, `C193_fp_subtraction`, `C193_fp_negation`, `C193_fp_debug`, `C193_fp_from_bytes`, `C193_fp_sqrt`, `C193_fp_inversion`, `C193_fp_lexicographic_largest`, `C193_scalar_inv`, `C193_scalar_debug`, `C193_scalar_equality`, `C193_scalar_to_bytes`, `C193_scalar_from_bytes`, `C193_scalar_from_u512_zero`, `C193_scalar_from_u512_r`, `C193_scalar_from_u512_r2`, `C193_scalar_from_u512_max`, `C193_scalar_from_bytes_wide_r2`, `C193_scalar_from_bytes_wide_negative_one`, `C193_scalar_from_bytes_wide_maximum`, `C193_scalar_zero`, `C193_scalar_addition`, `C193_scalar_negation`, `C193_scalar_subtraction`, `C193_scalar_from_raw`, `C193_scalar_double`, `C193_scalar_multiplication`, `C193_scalar_inversion`, `C193_scalar_invert_is_pow`, `C193_scalar_inversion_loop`, `C193_scalar_invert_is_pow_loop`, `C193_scalar_sqrt`, `C193_fp2_conditional_selection`, `C193_fp2_equality`, `C193_fp2_squaring`, `C193_fp2_multiplication`, `C193_fp2_addition`, `C193_fp2_subtraction`, `C193_fp2_negation`, `C193_fp2_sqrt`, `C193_fp2_inversion`, `C193_fp2_lexicographic_largest`, `C193_g1_doubling`, `C193_g1_projective_addition`, `C193_g1_mixed_addition`, `C193_g2_doubling`, `C193_g2_projective_addition`, `C193_g2_mixed_addition`, `C193_g2_psi`, `C193_g1_is_torsion_free`, `C193_g2_is_torsion_free` | Known answers from the tests of the library, evaluated on the model. Of the debug tests the digits are covered, not the formatting. Not restated: the zeroize tests and the other tests of g1.rs and g2.rs, and those of fp6.rs, fp12.rs and pairings.rs; the laws they sample are the subject of C52 to C57 and C70 to C85. |
| C194 | Results for a combination are the combination of the results | proved | `C194_blst_transforms`, `C194_mcl_transforms`, `C194_ark_transforms`, `C194_zk_transforms`, `C194_blst_proofs`, `C194_mcl_proofs`, `C194_ark_proofs`, `C194_mcl_commit`, `C194_ark_commit`, `C194_zk_single`, `C194_zk_multi` |  |
| C195 | The remaining unit tests of the groups, towers and pairing of zkcrypto pass | proved | `C195_fp6_arithmetic`, `C195_fp12_arithmetic`, `C195_g1_is_on_curve`, `C195_g1_affine_point_equality`, `C195_g1_projective_point_equality`, `C195_g1_conditionally_select`, `C195_g1_projective_to_affine`, `C195_g1_affine_to_projective`, `C195_g1_negation_and_subtraction`, `C195_g1_batch_normalize`, `C195_g2_is_on_curve`, `C195_g2_affine_point_equality`, `C195_g2_projective_point_equality`, `C195_g2_conditionally_select`, `C195_g2_projective_to_affine`, `C195_g2_affine_to_projective`, `C195_g2_negation_and_subtraction`, `C195_g2_batch_normalize`, `C195_g1_scalar_multiplication`, `C195_g2_scalar_multiplication`, `C195_g1_mul_by_x`, `C195_g2_mul_by_x`, `C195_g1_clear_cofactor`, `C195_g2_clear_cofactor`, `C195_gt_generator`, `C195_bilinearity`, `C195_unitary`, `C195_multi_miller_loop`, `C195_miller_loop_result_default` |  |
| C196 | For which sizes proofs for several points can be computed | proved | `C196_blst`, `C196_blst_panics`, `C196_blst_single`, `C196_log2_pow2`, `C196_zkcrypto`, `C196_zkcrypto_panics`, `C196_arkworks`, `C196_arkworks_panics`, `C196_mcl`, `C196_mcl_negated_refused` | All four backends; right, negated, other coefficients or panic for every size. The check of the negated proofs for m up to 30. |
| C197 | For which sizes polynomials can be multiplied, inverted and divided | proved | `C197_mul_blst`, `C197_mul_fft_blst`, `C197_inverse_blst`, `C197_div_blst`, `C197_mul_zk`, `C197_inverse_zk`, `C197_div_zk`, `C197_mul_ark`, `C197_div_ark` | Exact sizes for blst-from-scratch and zkcrypto (product, inverse, division) and Arkworks (product with transforms, division); for mcl-kzg the sizes are in C99 to C101. |
| C198 | Test data of points, and points of mcl-kzg from words | proved | `C198_blst`, `C198_mcl`, `C198_zk`, `C198_distinct`, `C198_blst_tests`, `C198_mcl_tests`, `C198_zk_tests`, `C198_from_arr_64`, `C198_from_arr_64_generator` | Points of blst-from-scratch and mcl-kzg are group elements, those of zkcrypto coordinates. The tests with these data: all sizes for blst-from-scratch, sizes from 1 to 31 for mcl-kzg (where 31 and mixed strides fail, as C180 says), 1 to 16 for zkcrypto. How the library reads decimal text is a hypothesis (ReadsDecimal). The words of G1_GENERATOR, read by from_arr_64, are on no curve: the constants are multiplied by 2^384, from_arr_64 expects plain integers; nothing in the crate calls it. |
| C199 | The bits of scalars of zkcrypto | proved | `C199_to_le_bits`, `C199_injective`, `C199_char_le_bits`, `C199_num_bits` | All reduced scalars and all positions, both variants of the code. The crate does not declare the feature bits, so this code is not compiled at present. |
| C200 | The benchmarks of amortised proofs | partial | `C200_pattern`, `C200_pattern_independent_partial`, `C200_pattern_long`, `C200_pattern_depends`, `C200_same_benchmark`, `C200_optimized_not_timed`, `C200_single_blst`, `C200_multi_blst`, `C200_single_mcl`, `C200_multi_mcl`, `C200_single_ark`, `C200_multi_ark`, `C200_single_zk`, `C200_multi_zk` | All four benchmarks end, with the expected number of proofs (C200_single_*, C200_multi_*); what the polynomial is for every chunk length (C200_pattern), and that it does not depend on it up to 16 (C200_pattern_independent_partial). Refuted: fk_multi_da_chunk_32_optimized times the plain call (C200_same_benchmark, C200_optimized_not_timed), and with chunks of 32 the polynomial is another one (C200_pattern_depends). zkcrypto in release builds, which is how benchmarks are built. |
| C201 | The benchmarks of recovery and of zero polynomials | partial | `C201_recover_blst_partial`, `C201_recover_blst_large`, `C201_recover_mcl`, `C201_recover_ark`, `C201_recover_zk`, `C201_zero_poly` | All sequences of draws and all shuffles. Refuted: bench_recover in blst-from-scratch above 2^16 samples, where recovery panics (C201_recover_blst_large); the benchmark stops at 2^15. Missing: bench_zero_poly in mcl-kzg with 2^31 positions. |
| C202 | The benchmarks of division and of commitments | proved | `C202_div`, `C202_commit_blst`, `C202_commit_mcl`, `C202_commit_ark`, `C202_commit_zk` |  |
| C203 | The benchmarks of transforms and of the extension run on constant data | partial | `C203_constant`, `C203_fft_fr`, `C203_fft_g1`, `C203_fft_g1_zk_partial`, `C203_das` | All backends and all elements drawn, at all scales below 32. Missing: the points of zkcrypto above scale 16, as in C90; the benchmark stops at 7. |
| C204 | The local tests that are switched off | proved | `C204_roots_repeat`, `C204_roots_repeat_mcl`, `C204_pad` |  |
| C205 | The tests of its own that mcl-kzg has for polynomials and settings | proved | `C205_eval`, `C205_extend`, `C205_long_division`, `C205_constant_ignored`, `C205_longer_divisor`, `C205_div_by_zero`, `C205_roots` | That elements are compared as decimal strings is read as equality of elements. That the third row of the long division would pass is the case of a divisor longer than the dividend. |
| C206 | The benchmarks of its own that mcl-kzg has | proved | `C206_fft`, `C206_fft_half`, `C206_fft_g1`, `C206_das_runs`, `C206_das_returns`, `C206_commit` | The sequential variant of the code; the benchmarks are switched off in Cargo.toml at present. |
| C207 | Extending an extension gives the data back, moved by one place | proved | `C207_blst`, `C207_mcl`, `C207_ark`, `C207_zk` | The sequential variants of the code. |
| C208 | Two transforms in a row, and transforms of moved data | proved | `C208_blst`, `C208_mcl`, `C208_ark`, `C208_zk` | The sequential variants of the code. For zkcrypto the transform of scalars; its transform of points is in C90. |
| C209 | Transforms turn cyclic convolutions into products | proved | `C209_blst`, `C209_mcl`, `C209_ark`, `C209_zk` | The sequential variants of the code. For zkcrypto the transform of scalars; its transform of points is in C90. |
| C210 | A coset of one point is a single point | partial | `C210_blst_check`, `C210_ark_check`, `C210_ark_proof`, `C210_mcl_check`, `C210_mcl_proof`, `C210_zk_check_partial`, `C210_zk_overflow`, `C210_zk_release` | Proved for blst-from-scratch, Arkworks and mcl-kzg, proofs included; for blst-from-scratch and zkcrypto the single proof is computed by calling the multi proof. Proofs: at most 2^30 coefficients (Arkworks), 2^29 (mcl-kzg). In zkcrypto the checks agree unless the multiplication by the value overflows, and differ there (C210_zk_overflow, C210_zk_release). |

### How the proofs go

| properties | method |
| --- | --- |
| C01 | loop invariant for the table; the 32 rows of `consts.rs` checked by kernel evaluation; primality certificate |
| C02–C06 | induction on log2 of the length, generalised over strides and over the module; orthogonality of roots |
| C07 | footprints: tasks whose joined parts touch disjoint cells; every step preserves the sequential meaning of what remains; well-founded task tree |
| C08–C13 | coefficient sums, convolution theorem, Newton iteration modulo x^d, remainder invariant, reversal |
| C14, C15 | pointwise; invariant over all reachable states of the cells and calls |
| C16, C17 | induction on log2 of the length against the interpolating polynomial |
| C18–C20 | in-place product invariant; reduction loop invariant (slots hold products of disjoint groups) |
| C21–C24 | polynomial identity D·Z, the coset shifted by 5 is free of roots; the final comparison for soundness |
| C25–C29 | linear algebra over the field in the exponent |
| C30, C31, C43 | circular convolution by the group FFT, Toeplitz matrices |
| C32, C33 | bit lemmas over all 64-bit values; loop invariant over swaps |
| C34, C35 | invariant out·temp^n; exact bit length of byte strings |
| C36–C40, C42, C44–C50 | exact integer equations of the carry chains, combined linearly; Fermat and Euler for inverses and roots |
| C52, C53 | polynomial identities against Mathlib's Weierstrass group law; no point of order two, so the complete formulas never vanish |
| C54, C55 | exact integer splitting, digit recoding by induction, invariant of the main loop in the group; φ²+φ+1 = 0 gives the exact test |
| C56, C57 | kernel computation with points of orders 3, 11, 10177, 859267, 52437899 and r bounds the number of points from below, two y per x from above; `l²` points killed by each factor `l` |
| C58, C59 | flags of the first byte by exhaustion over 256 values, the rest from C47–C49 |
| C60–C67 | step by step refinement to the functions of the other backend, then C08–C24; normalisation lemmas |
| C68, C69 | invariant: the tables hold consecutive powers; per-thread invariant over all schedules; a ten step schedule as counterexample |
| C70–C74 | ring structure from the operation sequences, irreducibility by Euler criteria in the kernel, isomorphism with Mathlib's `AdjoinRoot`; constants by kernel exponentiation |
| C94–C112 | refinement to the functions of the blst backend; an invariant of the global tables for C95; truncation lemmas for products; the sign of the largest inverse transform carried along for FK20 |
| C113–C124 | refinement to the functions of the blst backend; the library root equals the table row for all 32 scales by kernel evaluation |
| C125–C131 | exact outcomes for settings made from any lists of points; the quotient arguments of C107–C112 |
| C138–C145 | each trait function against one contract, from C34–C46 for words and C52–C57, C78 for points |
| C146, C147 | C50, C57, C82 for the cleared points; order of seven by its powers at the maximal divisors of r - 1 |
| C148–C150 | torsion points as a module over the field; the exact acceptance equations of C25–C29, C87–C89, C108, C109, C127, C128 side by side |
| C151–C153 | equal tables up to the reading of scalar words; the outcomes of transforms, amortised proofs and recovery side by side; for other roots, a power of X that tells them apart |
| C154–C156 | coefficient lists; values of scaled lists as sums; uniqueness of the quotient and of the inverse modulo X^n among lists of one length |
| C157–C160 | contents of settings from `new_spec` of each backend; defaults by computation |
| C161–C162 | constants from C133; counting by a numbering of the words and Mathlib's count of a residue class below a bound |
| C163–C166 | accepting says that the secret is a root of a polynomial (C27, C29, …); it is not zero since the claim is wrong; count its roots |
| C167–C172 | each test is a program over a record of the functions it calls; it runs to its end if these satisfy the completeness and binding statements, which C25–C31, C87–C93, C108–C111, C120, C127–C130 and C16, C21, C66, C104 give; a changed value differs as a polynomial at every secret outside the coset |
| C173 | every macro is a function of an arbitrary library; lengths of texts from the number of digits of a number below a power of the base |
| C174 | conversion to affine coordinates is determined by the point, so that C58 and C80 apply; the loop over sorted thresholds counts those exceeded |
| C175 | either all values that have come are right, and recovery is C21, C66, C104 or C120, or one chunk has a wrong value, and C165 counts |
| C176 | C28, C89, C109, C128 for every chunk; the samples of the chunks that have come are an erasure of the data |
| C177 | C20, C65, C103, C119 for the missing positions; the inverse transform undoes the values, up to the sign of the largest mcl-kzg domain |
| C178 | products of partial polynomials are products of linear factors in the same order; `insist` asserts what the test drops |
| C179 | one structure `FftOk` (forward, backward up to a factor, equality) per backend and size; the failures by a transform of 1, 2, 3, … that differs when the roots do |
| C180 | the same with points; the factor is -1 for mcl-kzg at size 31 |
| C181 | one structure `PolyGood` per backend, from C09–C13, C60–C64, C99–C101, C117 and C118; the failures from the negated results of mcl-kzg |
| C182 | the same structure; the quotient is compared as a polynomial, the table by an identity of integer polynomials |
| C183 | one structure `FrGood` per backend, from the contracts C138–C141; every test is an equation with `passIf` |
| C184 | structures `G1Good` and `G2Good` per backend, from C142–C144, and `LinCombRight` and `Verifies` for linear combinations and pairings |
| C185 | any answer of the expansion is the powers up to the order of the root; the settings from C157; the orders of the tables from C02 and C95 |
| C186 | the extension from C16, the zero polynomial from C20, C65, C103 and C119, uniqueness of interpolation; the tables of the tests by computation with numbers |
| C187 | the values and errors of C25, C87, C108 and C127 at zero polynomials; the sizes of C31, C92, C111 and C130; in zkcrypto without overflow checks that every operation on points returns, which makes the relation between runs hold at every scale |
| C188 | the acceptance conditions of C27, C29, C88, C89, C108, C109, C127 and C128, divided by `X - a` |
| C189 | the same conditions are linear; the interpolating polynomial of a combination is the combination |
| C190 | two polynomials of degree below `2^m` agree in fewer than `2^m` points; the root is the same for all data (C16, C93, C102, C124) |
| C191 | the samples are the values of a polynomial of degree below `2^m` (C190), which is what recovery needs (C21, C66, C104, C120) |
| C192 | recovery agrees with what it got (C191); a list is an extension exactly if its odd half is the extension of its even half; two lists of samples differ in more than half of the places (C190) |
| C193 | evaluation of the model in the kernel; the repeated assertions from C36, C38, C40, C44 and C47; square roots in the quadratic extension from a root or a power given with the proof; C53 for normalisation; subgroup tests from C55 and C79 with multiples computed on integers |
| C194 | the values the results are known to have (transforms, quotients at the secret) are linear in the list; for the extension, uniqueness of the interpolating polynomial; for zkcrypto points C91 and C92 with overflow checks |
| C195 | evaluation of the model in the kernel for the short tests; products with scalars from C54 and C78 on multiples of the generators, with the side condition of C54 evaluated; C57 and C82 for the cofactor, with multiples computed on integers; C72, C73, C83, C84 for the fields and pairings |
| C196 | the division lemmas behind C13, C61 and C118 without their bounds: products and inverses in terms of the number of points of their transforms, and a panic where that number has no settings; C100 for mcl-kzg |
| C197 | as C196: the lemmas `*_sized` for the sizes within, and `*_beyond`, where one of the products needs settings that `log2_pow2` or `new` does not give, for those beyond |
| C198 | the loops by an invariant on the entries written; the tests from C180; the decimal text of a number by induction on its digits, and what the library makes of it as a hypothesis; the constants in the kernel |
| C199 | C38 for the bytes; parts of a byte string as quotient and remainder of its number; the constants in the kernel |
| C200 | Invariant of the two loops of the polynomial; the runs from C25, C30, C31, C87, C91, C92, C108, C110, C111, C127, C129, C130; the timed call by definition, a made-up implementation for the refutation |
| C201 | Induction on the draws, counting the positions that still hold a sample; then C21, C66, C104, C120 and C20, C65, C103, C119 |
| C202 | What the repair of the top coefficient leaves, written out; then the division of the shared interface (`PolyGood.div`, see C181) and C25, C108, C127, C87 |
| C203 | The sum of the powers of a root of unity is zero unless the root is one; a polynomial of degree below `n` with one value at `n` points is constant; then C02, C06, C90, C96, C98, C114, C115 and C16, C93, C102, C124 |
| C204 | The tests reduce to one equation between roots, decided as in C179; padding by its closed form |
| C205 | Each test is brought to one condition on what it expects; the quotient by C100, the roots by the form of the settings |
| C206 | Transforms by their values, with the square of one root being the root of the scale below; repeated extension by induction on the calls, each of which replaces p(X) by p(ωX) |
| C207 | An extension replaces p(X) by p(ωX), as both have the same values at the even powers; two of them are a move by one place, and the rest follows from that alone |
| C208 | The second sum is the inverse one at the place counted from the end; moving by one place takes the first term of the sum to its end |
| C209 | The sums are exchanged, and the power of the root depends on the index modulo n only |
| C210 | The interpolating polynomial of one value is the constant; both checks answer whether the same equation holds |
| C41, C51 | bucket sums, window positional system, signed digit recoding |

## Disagreements between the code and the expected properties

Each is proved with a witness or for all inputs of the kind named, next to the theorem for the remaining inputs
(suffix `_partial`).

1. `FsPoly::eval` of a one-coefficient polynomial at a nonzero point underflows `len - 2` and panics (C08).
2. `FsFr::null()` is (2^256 - 1) mod r, an ordinary field element, so a sample with that value counts as missing (C23).
   The zkcrypto marker is not the encoding of any element (C46).
3. Recovery with nothing missing panics for every complete list (C24). So does recovery with everything missing.
4. `scale_poly` and `unscale_poly` panic beyond 65536 coefficients, and with them recovery on larger domains,
   although settings up to 2^31 can be created (C14, C21).
5. `zero_poly_via_multiplication` succeeds for m missing of D exactly if m ≤ 63·(D/64+1), 0 < m < D. Denser sets are
   an error from D = 8192 on (C20).
6. `fast_div` of the empty polynomial panics (C13). `next_power_of_two` panics for 0 and above 2^63, `log2_pow2` is
   zero above 2^31, `reverse_bit_order` of the empty list panics (C32, C33).
7. Multi proofs: `n` equal to the setup length indexes past `secret_g2` (C28). At x = 0 the check has no meaning:
   the theorems require x ≠ 0. For n ≥ 2 there are false value lists that the honest proof verifies; finding one
   means knowing a root relation of the secret (C29).
8. A setup with fewer than two points panics in the single check (C26); `KZGSettings::new` with a length above
   that of the secret lists panics (C25).
9. FK20 settings for another size: a shorter polynomial gives a list that is not its proofs, without error; a longer
   one panics (C43).
10. `Fp::from_u768` swaps the two halves of its argument relative to its comment (C50).
11. zkcrypto: `glv_recoding` adds the rounding bit to one word without carrying into the next. For the scalars where this
    overflows (for instance 2^64·0xac45a4010001a40200000000ffffffff, and about one in 2^65), multiplication in the first
    group panics with overflow checks and returns a wrong point without (C54). Outside the prime order
    subgroup the product is k1·P + k2·φ(P), which is not k·P in general (C54); the subgroup test built on it is
    nevertheless exact (C55).
12. zkcrypto: `div` of the zero polynomial by a nonzero one panics (C60); `poly_long_div` with a zero last coefficient in
    the divisor returns a wrong quotient without an error, since dividing by zero gives zero, and panics for an empty
    dividend (C61); `ruffini` panics for a nonzero polynomial with a trailing zero (C62); `inverse` to length zero
    panics (C64); `zero_poly_via_multiplication` has the bound of item 5 (C65).
13. Recovery accepts every list of values: d values lie on a polynomial of degree below d, so the comparison at the end
    of the recovery functions never fails and corrupted samples are not noticed (C22, C67). zkcrypto: recovery panics
    instead of returning an error, for lengths that are no power of two, for nothing missing and for everything
    missing (C67).
14. zkcrypto with the parallel feature: two threads in `unscale_poly` (or `scale_poly`) can both find the shared vector
    empty and both push a one. Both then return wrong results, and so does every later call in the process (C69).
15. zkcrypto: `Gt::random` ignores its generator and returns the final exponentiation of one, the identity (C77).
16. zkcrypto: the trusted setup multiplies by the powers of the secret with the multiplication of item 11. For a secret with
    an overflowing power it panics with overflow checks and contains a wrong point without (C86). Secrets not below r
    panic (C86). `KZGSettings::new` accepts any lists and any settings (C87); a polynomial longer than the setup panics
    in `commit_to_poly` instead of giving an error (C87).
17. zkcrypto: `compute_single` of the zero polynomial panics (C88). `check_single` multiplies by the claimed value with the
    multiplication of item 11: for an overflowing value of the polynomial it panics with overflow checks and rejects
    the right proof without (C88). A setup with fewer than two points panics (C88).
18. zkcrypto: `check_multi` panics at x = 0 and for n equal to the setup length; `compute_multi` of the zero polynomial
    panics (C89).
19. zkcrypto: the amortised proofs multiply by transformed coefficients with the multiplication of item 11. For
    a + 2^64·λ·X all four proofs are wrong without overflow checks; with them the call panics (C91, C92).
20. zkcrypto: `from_scale` returns settings without roots, with which every transform panics; `new_fft_settings` ignores
    its argument and returns settings of width zero (C93).
21. mcl-kzg: lengths pass through a signed 32-bit integer. The inverse transforms of 2^31 values return the negatives
    (C96, C98), products with more than 2^30 coefficients come out negated (C99), and so do quotients of more than 2^29
    coefficients by long divisors (C100), and zero polynomials on 2^31 points with many missing positions (C103). Recovery
    on 2^31 points is right all the same, because the signs cancel (C104), but the shared test of it fails there (C171).
22. mcl-kzg: `is_power_of_2(0)` underflows, so the point transforms of the empty list panic (C94, C98); reordering a list of
    one element panics; `reverse_bits_limited` called with the length 2^k instead of 2^k - 1 reverses one bit too many (C94).
23. mcl-kzg: `new` panics for scales of 32 or more; the trait function takes the scale modulo 256, so 256 + s gives the
    settings for s (C95). Its roots are those of the other backends below scale 7 only, and the roots of scale 3 and
    7 do not belong together. If two threads make settings at the same time, one can take its root from the table of
    the other (C95).
24. mcl-kzg: multiplication with transforms panics if there is nothing to multiply (C99); `das_fft_extension` of the trait
    panics where the method returns an error (C102).
25. mcl-kzg: with nothing missing the zero polynomial is the zero vector, and the result of recovery does not depend on the
    samples at all (C103, C105). The sets of item 5 panic instead of being an error (C103). With the parallel feature
    recovery panics on domains above 65536 (C106).
26. mcl-kzg: secret bytes are read in another order than in the other backends, and secrets from r on panic (C107). The
    proof for a polynomial that exceeds the setup by two or more is computed from a truncated quotient, without an
    error, and is not accepted (C108). `check_proof_multi` with n equal to the setup length panics; missing values
    count as zeros (C109). A setup with fewer than two points panics in the single check (C108).
27. mcl-kzg: amortised proofs of size 2^31 are negated (C110). With settings for another size, a longer polynomial gets too few
    single proofs and a shorter one wrong ones, both without an error; multi proofs panic (C112). The optimised
    call for multi proofs takes the extended polynomial, unlike the other backends: given the polynomial itself, it returns
    half as many entries (C112).
28. Arkworks: `fft_fr_fast` ignores the roots and the stride passed to it (C114); `fft_g1_slow` leaves the output unset for one
    point (C115); `null()` is an ordinary element, words from r on give zero, `eucl_inverse` is `todo!()` (C116).
29. Arkworks: products with a zero polynomial have no coefficients below the size thresholds and `len` above (C117); `inverse`
    panics for length 0 and above 2^30; `div` ignores zeros at the top of divisors with fewer than 128 coefficients and
    rejects longer ones; `fast_div` of zero dividends panics (C118).
30. Arkworks: the bound of item 5 (C119); recovery of unsupported lists panics instead of an error, except for lengths that are no
    power of two (C121); with the parallel feature scaling the empty polynomial panics (C122), and the race of item 14
    exists here, too (C123).
31. Arkworks: `generate_trusted_setup` multiplies points made with the flag for infinity, so the setup consists of identity
    points for every secret (C125). `KZGSettings::new` uses the points only to seed a generator and draws its own secret
    from 32 bytes of the last one; made from `generate_trusted_setup` all settings share one constant secret. A clone is
    one longer and belongs to yet another scalar; clones of default and of all FK20 settings panic (C126, C131).
32. Arkworks: the settings hold one point more than asked for, but polynomials of that length panic, except at length 2
    (C127). A zero polynomial of n+2 to n+127 coefficients with n >= 127 points panics in `compute_proof_multi`; no size
    is refused there, n = 0 gives the commitment itself (C128). FK20 with other sizes: item 27, but longer polynomials
    panic (C131).
33. zkcrypto: the conversions of polynomials, base field elements and points from and to blst do not keep the values: they
    keep one word of four, forget the Montgomery factor and pass homogeneous coordinates as Jacobian ones (C132).
34. ckzg: `make_data` drops the sums and returns one point repeatedly; scales are taken modulo 2^32 (C135). Lengths and
    indices passed by the caller are not compared with the buffers in `check_proof_multi`, `KZGSettings::new`,
    `linear_combination_g1` and the accessors (C136). Clones share memory that both free; default polynomials free a
    dangling pointer; settings keep a pointer to other settings that may be gone (C137).
35. The traits: the power zero of mcl-kzg is the element itself, its words from r on panic, `eucl_inverse` panics (C140); ckzg
    panics for differences and inverses, Arkworks for divisions by zero and `eucl_inverse` (C141); the backends give
    three different answers to words from r on (C142). In Arkworks `add_or_dbl` overwrites its first argument with the sum,
    the default of G2 panics, and `equals` is wrong if the crate blst compares words (C144).
36. Between backends: mcl-kzg refuses multi proofs of eight or more points made by the others, except for small settings of one
    constructor, because its roots of unity are others (C150). For the same reason its transforms (C151), lists of
    amortised proofs (C152) and recovered data (C153) differ. Beyond 65536 samples blst-from-scratch panics where the others
    recover (C153). Proofs of the zero polynomial panic in zkcrypto only (C149).
37. The trait functions `scale` and `unscale` of blst-from-scratch and zkcrypto multiply every coefficient by one power of 5 more
    than the substitution needs: p(x/5)/5 and 5p(5x). Those of mcl-kzg panic (C155).
38. The same polynomial arithmetic differs for edge inputs: constants are not evaluated by blst-from-scratch and zkcrypto; products
    with zero are empty in Arkworks; inverses of length 0 are an error, a panic or empty; zeros at the top change the number of
    coefficients of a quotient, or make it wrong or an error (C156).
39. Default settings: width 1 in blst-from-scratch and mcl-kzg, width 0 without roots in zkcrypto and Arkworks (C158). Committing with
    them is an error in the first two and a panic in the other two; asking mcl-kzg for amortised proofs of the empty
    polynomial panics (C160). Clones of settings for commitments of Arkworks are other settings (C159).
40. `Fr::rand` of blst-from-scratch, zkcrypto and ckzg reduces 256 random bits: some elements come from three strings, the others from
    two. zkcrypto has a function that takes 512 bits, but the trait does not use it. `G1::rand` of zkcrypto panics for some random
    words when overflow checks are on (C162).
41. In a release build of zkcrypto there are two different values such that an honest commitment and proof for the one are accepted
    with the other, for every setup, point and polynomial (C164): the rounding step in the product of the generator with
    some scalars overflows (C54).
42. With a polynomial of one coefficient the shared test of single proofs panics in blst-from-scratch and zkcrypto at every point but 0
    (C167), since `eval` reads outside its vector; with settings of a scale above 16 the shared test of recovery panics in
    blst-from-scratch for every input (C171).
43. The buffer of `get_str` in mcl-kzg has 1024 bytes for every type. An element of GT has twelve numbers of up to 115 decimal digits, so that
    printing it panics unless some are short (C173); the same holds for points of G2 in base 2. `deserialize` does not compare the number of
    bytes read with the length given, so that anything may follow an encoding.
44. `zero_poly_random` passes because of its seeds. A round whose random numbers are all even leaves nothing missing. Then
    `zero_poly_via_multiplication` returns two empty vectors in blst-from-scratch, zkcrypto and Arkworks, the transform of the empty vector is
    an error, and the test panics (C177). With eight positions this is one round of 256. mcl-kzg returns zeros and passes.
45. `test_reduce_partials` and `reduce_partials_random` call `equals` and drop the result, so they pass with any products of enough
    coefficients (C178). The comparisons would hold if they were asserted.
46. The stride tests of mcl-kzg run with sizes 9 and 12, both past the seven rows of its other table. With a size from 3 to 6 and one of 7
    or more the two settings use different roots and the test fails (C179, C180). `inverse_fft` passes there because the constructor of the
    trait takes size 4 from the table of the other crates; with the roots of the crate's own table the expected values are wrong.
47. The round trip of mcl-kzg at size 31 returns the negated data (C179, C180).
48. The tests of points fail at size 0 by themselves: `2 << (size - 1)` underflows. The comparison of Arkworks has no such expression, and at
    size 0 passes only for the identity, because the slow transform leaves a single point out (C180).
49. The shared random test of multiplication never draws an empty result. With one it would pass in blst-from-scratch and zkcrypto and panic
    in mcl-kzg and Arkworks (C181).
50. `poly_eval_check` with one coefficient in place of ten would panic in blst-from-scratch and zkcrypto (C182; the cause is in C08).
51. The table of quotients has a seventh entry whose divisor ends with a zero, and the loops stop before it or skip it. With it the tests would fail in
    blst-from-scratch (`div`, `long_div`), mcl-kzg (`long_div`, `fast_div`) and Arkworks (`fast_div`) (C182).
52. `poly_div_by_zero` asks for an error. Arkworks panics instead, or gives the empty list for a zero dividend, and its copy of the test is
    marked `#[should_panic]` (C182).
53. The shared test of powers never takes the exponent zero. With it the test would fail in mcl-kzg for every base but one (C183; the cause is in C140).
54. Four words at or above the modulus survive giving in and taking out in no backend: mcl-kzg panics, Arkworks gives zero, the others reduce
    (C183).
55. `fr_div_by_zero` asks for zero. Arkworks panics, and its copy of the test is marked `#[should_panic]`; in mcl-kzg the outcome depends on the
    library (C183).
56. The tests of linear combinations of zkcrypto are commented out, so nothing there compares the bucket sums with single products (C184).
57. The shared tests of the tables let wrong tables through: 32 rows of ones with the right row 15 pass all of them in every backend (C185).
58. `check_test_data` passes with tables of zeros in every backend, and with every multiple of the right ones (C186).
59. mcl-kzg: above `2^30` coefficients `inverse` gives the negative of the inverse, a series whose product is -3, or a panic, and `fast_div` the
    negative of the quotient, the right one, three times it, or a panic (C100, C101; the cause is item 21).
60. All backends: recovery does not notice that too few samples are left. After the loss of more than half it returns success with a list that
    agrees with the samples given but need not be the extension of anything (C191; no backend
    looks at the upper half of the coefficients).
61. zkcrypto: the loops of `test_batch_normalize` in g1.rs and g2.rs, written to put the identity in each of three places or not, run over `0..1`
    and so never put it anywhere (C195; the function is right with the identity too).
62. blst-from-scratch, zkcrypto: `log2_pow2` masks 32 bits and returns 0 for `2^32` and more. Settings made for a product of more than
    `2^31` coefficients then have the wrong size. Proofs for 128 or more points of polynomials beyond about `2^30` coefficients panic; the
    exact sizes, and those of the other backends, are in C196.
63. kzg-bench: the benchmark `fk_multi_da_chunk_32_optimized` (kzg-bench/src/benches/fk20.rs:213-219) passes `false` for `optimized`, so it
    times `data_availability` a second time and `data_availability_optimized` is never timed for chunks
    (`C200_same_benchmark`, `C200_optimized_not_timed`). Its polynomial is not "independent of chunk_len": the counter is the start of the
    chunk over 16, so with chunks of 32 every second row repeats the counter of the row before it (`C200_pattern_depends`).
64. kzg-bench: the benchmarks of transforms and of the extension (kzg-bench/src/benches/fft.rs:7,18, das.rs:7) make their data with
    `vec![TFr::rand(); n]`, which draws once and clones. The data are constant, the transform of them is one value and zeros, and in the
    recursive transforms everything multiplied by a root other than one is zero or the point at infinity. What is timed is not the typical
    case (C203).
65. mcl-kzg: `poly_test_long_division` (mcl-kzg/kzg-bench/src/poly.rs:120) compares the coefficients from 1 on, so a wrong constant
    coefficient of the quotient passes. The third row of its data (poly.rs:87) is left out as one that does not work; with the present
    `long_division` it would pass (C205).
66. mcl-kzg: its own benchmarks of transforms (mcl-kzg/kzg-bench/benches/bench_fft.rs:18,34) take half as many data as the scale in their names
    says, so each number is that of the scale below; `bench_fft_fr` of kzg-bench takes all of them, and the two cannot be compared
    scale by scale (C206, C203). The benchmarks are switched off at present.
67. zkcrypto: check_proof_multi with one point and check_proof_single disagree (zkcrypto/src/kzg_proofs.rs:94-101,130-152): in a release build there is a true opening of a constant that the first accepts and the second rejects (`C210_zk_release`); with overflow checks the second panics (`C210_zk_overflow`).

Seen while reading, not part of a theorem:

* The reduction loop of `zero_poly.rs` computes the output degree from `partial_lens[i + j]` instead of
  `[start + j]`; the estimate is never too small, so the product is right (the theorem C19 covers the code as written).
* `Poly::scale` multiplies coefficient i by 5^-(i+1), one factor more than `scale_poly`; the round trip holds (C14).
* Arkworks: `Eq` of points (crate-internal, unused) compares `y`, `z` with `x`.
* mcl-kzg: `Poly::scale` and `unscale` are `todo!()`; `Fr::pow(0)` returns the base.
* `to_le_bits`, `char_le_bits` and the `WnafGroup` instances of zkcrypto are compiled only with features (`bits`, `alloc`) that the
  crate does not declare.
* `pippenger` of `multiscalar_mul.rs` is compiled only with a feature `std` that the crate does not declare.
