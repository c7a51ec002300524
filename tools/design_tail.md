
### How the proofs go

| properties | method |
| --- | --- |
| C01 | loop invariant for the table; the 32 rows of `consts.rs` checked by kernel evaluation; primality certificate |
| C02–C06 | induction on log2 of the length, generalised over strides and over the module; orthogonality of roots |
| C07 | footprints: tasks whose joined parts touch disjoint cells; every step preserves the sequential meaning of what remains; well-founded task tree |
| C08–C13 | coefficient sums, convolution theorem, Newton iteration modulo x^d, remainder invariant, reversal |
| C14, C15 | pointwise; invariant over all reachable states of the cells and calls |
| C16, C17 | induction on log2 of the length against the interpolating polynomial |
| C18–C20 | in-place product invariant; reduction loop invariant (slots hold products of disjoint groups) |
| C21–C24 | polynomial identity D·Z, the coset shifted by 5 is free of roots; the final comparison for soundness |
| C25–C29 | linear algebra over the field in the exponent |
| C30, C31, C43 | circular convolution by the group FFT, Toeplitz matrices |
| C32, C33 | bit lemmas over all 64-bit values; loop invariant over swaps |
| C34, C35 | invariant out·temp^n; exact bit length of byte strings |
| C36–C40, C42, C44–C50 | exact integer equations of the carry chains, combined linearly; Fermat and Euler for inverses and roots |
| C52, C53 | polynomial identities against Mathlib's Weierstrass group law; no point of order two, so the complete formulas never vanish |
| C54, C55 | exact integer splitting, digit recoding by induction, invariant of the main loop in the group; φ²+φ+1 = 0 gives the exact test |
| C56, C57 | kernel computation with points of orders 3, 11, 10177, 859267, 52437899 and r bounds the number of points from below, two y per x from above; `l²` points killed by each factor `l` |
| C58, C59 | flags of the first byte by exhaustion over 256 values, the rest from C47–C49 |
| C60–C67 | step by step refinement to the functions of the other backend, then C08–C24; normalisation lemmas |
| C68, C69 | invariant: the tables hold consecutive powers; per-thread invariant over all schedules; a ten step schedule as counterexample |
| C70–C74 | ring structure from the operation sequences, irreducibility by Euler criteria in the kernel, isomorphism with Mathlib's `AdjoinRoot`; constants by kernel exponentiation |
| C94–C112 | refinement to the functions of the blst backend; an invariant of the global tables for C95; truncation lemmas for products; the sign of the largest inverse transform carried along for FK20 |
| C113–C124 | refinement to the functions of the blst backend; the library root equals the table row for all 32 scales by kernel evaluation |
| C125–C131 | exact outcomes for settings made from any lists of points; the quotient arguments of C107–C112 |
| C138–C145 | each trait function against one contract, from C34–C46 for words and C52–C57, C78 for points |
| C146, C147 | C50, C57, C82 for the cleared points; order of seven by its powers at the maximal divisors of r - 1 |
| C148–C150 | torsion points as a module over the field; the exact acceptance equations of C25–C29, C87–C89, C108, C109, C127, C128 side by side |
| C151–C153 | equal tables up to the reading of scalar words; the outcomes of transforms, amortised proofs and recovery side by side; for other roots, a power of X that tells them apart |
| C154–C156 | coefficient lists; values of scaled lists as sums; uniqueness of the quotient and of the inverse modulo X^n among lists of one length |
| C157–C160 | contents of settings from `new_spec` of each backend; defaults by computation |
| C161–C162 | constants from C133; counting by a numbering of the words and Mathlib's count of a residue class below a bound |
| C163–C166 | accepting says that the secret is a root of a polynomial (C27, C29, …); it is not zero since the claim is wrong; count its roots |
| C167–C172 | each test is a program over a record of the functions it calls; it runs to its end if these satisfy the completeness and binding statements, which C25–C31, C87–C93, C108–C111, C120, C127–C130 and C16, C21, C66, C104 give; a changed value differs as a polynomial at every secret outside the coset |
| C173 | every macro is a function of an arbitrary library; lengths of texts from the number of digits of a number below a power of the base |
| C174 | conversion to affine coordinates is determined by the point, so that C58 and C80 apply; the loop over sorted thresholds counts those exceeded |
| C175 | either all values that have come are right, and recovery is C21, C66, C104 or C120, or one chunk has a wrong value, and C165 counts |
| C176 | C28, C89, C109, C128 for every chunk; the samples of the chunks that have come are an erasure of the data |
| C177 | C20, C65, C103, C119 for the missing positions; the inverse transform undoes the values, up to the sign of the largest mcl-kzg domain |
| C178 | products of partial polynomials are products of linear factors in the same order; `insist` asserts what the test drops |
| C179 | one structure `FftOk` (forward, backward up to a factor, equality) per backend and size; the failures by a transform of 1, 2, 3, … that differs when the roots do |
| C180 | the same with points; the factor is -1 for mcl-kzg at size 31 |
| C181 | one structure `PolyGood` per backend, from C09–C13, C60–C64, C99–C101, C117 and C118; the failures from the negated results of mcl-kzg |
| C182 | the same structure; the quotient is compared as a polynomial, the table by an identity of integer polynomials |
| C183 | one structure `FrGood` per backend, from the contracts C138–C141; every test is an equation with `passIf` |
| C184 | structures `G1Good` and `G2Good` per backend, from C142–C144, and `LinCombRight` and `Verifies` for linear combinations and pairings |
| C185 | any answer of the expansion is the powers up to the order of the root; the settings from C157; the orders of the tables from C02 and C95 |
| C186 | the extension from C16, the zero polynomial from C20, C65, C103 and C119, uniqueness of interpolation; the tables of the tests by computation with numbers |
| C187 | the values and errors of C25, C87, C108 and C127 at zero polynomials; the sizes of C31, C92, C111 and C130; in zkcrypto without overflow checks that every operation on points returns, which makes the relation between runs hold at every scale |
| C188 | the acceptance conditions of C27, C29, C88, C89, C108, C109, C127 and C128, divided by `X - a` |
| C189 | the same conditions are linear; the interpolating polynomial of a combination is the combination |
| C190 | two polynomials of degree below `2^m` agree in fewer than `2^m` points; the root is the same for all data (C16, C93, C102, C124) |
| C191 | the samples are the values of a polynomial of degree below `2^m` (C190), which is what recovery needs (C21, C66, C104, C120) |
| C192 | recovery agrees with what it got (C191); a list is an extension exactly if its odd half is the extension of its even half; two lists of samples differ in more than half of the places (C190) |
| C193 | evaluation of the model in the kernel; the repeated assertions from C36, C38, C40, C44 and C47; square roots in the quadratic extension from a root or a power given with the proof; C53 for normalisation; subgroup tests from C55 and C79 with multiples computed on integers |
| C194 | the values the results are known to have (transforms, quotients at the secret) are linear in the list; for the extension, uniqueness of the interpolating polynomial; for zkcrypto points C91 and C92 with overflow checks |
| C195 | evaluation of the model in the kernel for the short tests; products with scalars from C54 and C78 on multiples of the generators, with the side condition of C54 evaluated; C57 and C82 for the cofactor, with multiples computed on integers; C72, C73, C83, C84 for the fields and pairings |
| C196 | the division lemmas behind C13, C61 and C118 without their bounds: products and inverses in terms of the number of points of their transforms, and a panic where that number has no settings; C100 for mcl-kzg |
| C197 | as C196: the lemmas `*_sized` for the sizes within, and `*_beyond`, where one of the products needs settings that `log2_pow2` or `new` does not give, for those beyond |
| C198 | the loops by an invariant on the entries written; the tests from C180; the decimal text of a number by induction on its digits, and what the library makes of it as a hypothesis; the constants in the kernel |
| C199 | C38 for the bytes; parts of a byte string as quotient and remainder of its number; the constants in the kernel |
| C200 | Invariant of the two loops of the polynomial; the runs from C25, C30, C31, C87, C91, C92, C108, C110, C111, C127, C129, C130; the timed call by definition, a made-up implementation for the refutation |
| C201 | Induction on the draws, counting the positions that still hold a sample; then C21, C66, C104, C120 and C20, C65, C103, C119 |
| C202 | What the repair of the top coefficient leaves, written out; then the division of the shared interface (`PolyGood.div`, see C181) and C25, C108, C127, C87 |
| C203 | The sum of the powers of a root of unity is zero unless the root is one; a polynomial of degree below `n` with one value at `n` points is constant; then C02, C06, C90, C96, C98, C114, C115 and C16, C93, C102, C124 |
| C204 | The tests reduce to one equation between roots, decided as in C179; padding by its closed form |
| C205 | Each test is brought to one condition on what it expects; the quotient by C100, the roots by the form of the settings |
| C206 | Transforms by their values, with the square of one root being the root of the scale below; repeated extension by induction on the calls, each of which replaces p(X) by p(ωX) |
| C207 | An extension replaces p(X) by p(ωX), as both have the same values at the even powers; two of them are a move by one place, and the rest follows from that alone |
| C208 | The second sum is the inverse one at the place counted from the end; moving by one place takes the first term of the sum to its end |
| C209 | The sums are exchanged, and the power of the root depends on the index modulo n only |
| C210 | The interpolating polynomial of one value is the constant; both checks answer whether the same equation holds |
| C41, C51 | bucket sums, window positional system, signed digit recoding |

## Disagreements between the code and the expected properties

Each is proved with a witness or for all inputs of the kind named, next to the theorem for the remaining inputs
(suffix `_partial`).

1. `FsPoly::eval` of a one-coefficient polynomial at a nonzero point underflows `len - 2` and panics (C08).
2. `FsFr::null()` is (2^256 - 1) mod r, an ordinary field element, so a sample with that value counts as missing (C23).
   The zkcrypto marker is not the encoding of any element (C46).
3. Recovery with nothing missing panics for every complete list (C24). So does recovery with everything missing.
4. `scale_poly` and `unscale_poly` panic beyond 65536 coefficients, and with them recovery on larger domains,
   although settings up to 2^31 can be created (C14, C21).
5. `zero_poly_via_multiplication` succeeds for m missing of D exactly if m ≤ 63·(D/64+1), 0 < m < D. Denser sets are
   an error from D = 8192 on (C20).
6. `fast_div` of the empty polynomial panics (C13). `next_power_of_two` panics for 0 and above 2^63, `log2_pow2` is
   zero above 2^31, `reverse_bit_order` of the empty list panics (C32, C33).
7. Multi proofs: `n` equal to the setup length indexes past `secret_g2` (C28). At x = 0 the check has no meaning:
   the theorems require x ≠ 0. For n ≥ 2 there are false value lists that the honest proof verifies; finding one
   means knowing a root relation of the secret (C29).
8. A setup with fewer than two points panics in the single check (C26); `KZGSettings::new` with a length above
   that of the secret lists panics (C25).
9. FK20 settings for another size: a shorter polynomial gives a list that is not its proofs, without error; a longer
   one panics (C43).
10. `Fp::from_u768` swaps the two halves of its argument relative to its comment (C50).
11. zkcrypto: `glv_recoding` adds the rounding bit to one word without carrying into the next. For the scalars where this
    overflows (for instance 2^64·0xac45a4010001a40200000000ffffffff, and about one in 2^65), multiplication in the first
    group panics with overflow checks and returns a wrong point without (C54). Outside the prime order
    subgroup the product is k1·P + k2·φ(P), which is not k·P in general (C54); the subgroup test built on it is
    nevertheless exact (C55).
12. zkcrypto: `div` of the zero polynomial by a nonzero one panics (C60); `poly_long_div` with a zero last coefficient in
    the divisor returns a wrong quotient without an error, since dividing by zero gives zero, and panics for an empty
    dividend (C61); `ruffini` panics for a nonzero polynomial with a trailing zero (C62); `inverse` to length zero
    panics (C64); `zero_poly_via_multiplication` has the bound of item 5 (C65).
13. Recovery accepts every list of values: d values lie on a polynomial of degree below d, so the comparison at the end
    of the recovery functions never fails and corrupted samples are not noticed (C22, C67). zkcrypto: recovery panics
    instead of returning an error, for lengths that are no power of two, for nothing missing and for everything
    missing (C67).
14. zkcrypto with the parallel feature: two threads in `unscale_poly` (or `scale_poly`) can both find the shared vector
    empty and both push a one. Both then return wrong results, and so does every later call in the process (C69).
15. zkcrypto: `Gt::random` ignores its generator and returns the final exponentiation of one, the identity (C77).
16. zkcrypto: the trusted setup multiplies by the powers of the secret with the multiplication of item 11. For a secret with
    an overflowing power it panics with overflow checks and contains a wrong point without (C86). Secrets not below r
    panic (C86). `KZGSettings::new` accepts any lists and any settings (C87); a polynomial longer than the setup panics
    in `commit_to_poly` instead of giving an error (C87).
17. zkcrypto: `compute_single` of the zero polynomial panics (C88). `check_single` multiplies by the claimed value with the
    multiplication of item 11: for an overflowing value of the polynomial it panics with overflow checks and rejects
    the right proof without (C88). A setup with fewer than two points panics (C88).
18. zkcrypto: `check_multi` panics at x = 0 and for n equal to the setup length; `compute_multi` of the zero polynomial
    panics (C89).
19. zkcrypto: the amortised proofs multiply by transformed coefficients with the multiplication of item 11. For
    a + 2^64·λ·X all four proofs are wrong without overflow checks; with them the call panics (C91, C92).
20. zkcrypto: `from_scale` returns settings without roots, with which every transform panics; `new_fft_settings` ignores
    its argument and returns settings of width zero (C93).
21. mcl-kzg: lengths pass through a signed 32-bit integer. The inverse transforms of 2^31 values return the negatives
    (C96, C98), products with more than 2^30 coefficients come out negated (C99), and so do quotients of more than 2^29
    coefficients by long divisors (C100), and zero polynomials on 2^31 points with many missing positions (C103). Recovery
    on 2^31 points is right all the same, because the signs cancel (C104), but the shared test of it fails there (C171).
22. mcl-kzg: `is_power_of_2(0)` underflows, so the point transforms of the empty list panic (C94, C98); reordering a list of
    one element panics; `reverse_bits_limited` called with the length 2^k instead of 2^k - 1 reverses one bit too many (C94).
23. mcl-kzg: `new` panics for scales of 32 or more; the trait function takes the scale modulo 256, so 256 + s gives the
    settings for s (C95). Its roots are those of the other backends below scale 7 only, and the roots of scale 3 and
    7 do not belong together. If two threads make settings at the same time, one can take its root from the table of
    the other (C95).
24. mcl-kzg: multiplication with transforms panics if there is nothing to multiply (C99); `das_fft_extension` of the trait
    panics where the method returns an error (C102).
25. mcl-kzg: with nothing missing the zero polynomial is the zero vector, and the result of recovery does not depend on the
    samples at all (C103, C105). The sets of item 5 panic instead of being an error (C103). With the parallel feature
    recovery panics on domains above 65536 (C106).
26. mcl-kzg: secret bytes are read in another order than in the other backends, and secrets from r on panic (C107). The
    proof for a polynomial that exceeds the setup by two or more is computed from a truncated quotient, without an
    error, and is not accepted (C108). `check_proof_multi` with n equal to the setup length panics; missing values
    count as zeros (C109). A setup with fewer than two points panics in the single check (C108).
27. mcl-kzg: amortised proofs of size 2^31 are negated (C110). With settings for another size, a longer polynomial gets too few
    single proofs and a shorter one wrong ones, both without an error; multi proofs panic (C112). The optimised
    call for multi proofs takes the extended polynomial, unlike the other backends: given the polynomial itself, it returns
    half as many entries (C112).
28. Arkworks: `fft_fr_fast` ignores the roots and the stride passed to it (C114); `fft_g1_slow` leaves the output unset for one
    point (C115); `null()` is an ordinary element, words from r on give zero, `eucl_inverse` is `todo!()` (C116).
29. Arkworks: products with a zero polynomial have no coefficients below the size thresholds and `len` above (C117); `inverse`
    panics for length 0 and above 2^30; `div` ignores zeros at the top of divisors with fewer than 128 coefficients and
    rejects longer ones; `fast_div` of zero dividends panics (C118).
30. Arkworks: the bound of item 5 (C119); recovery of unsupported lists panics instead of an error, except for lengths that are no
    power of two (C121); with the parallel feature scaling the empty polynomial panics (C122), and the race of item 14
    exists here, too (C123).
31. Arkworks: `generate_trusted_setup` multiplies points made with the flag for infinity, so the setup consists of identity
    points for every secret (C125). `KZGSettings::new` uses the points only to seed a generator and draws its own secret
    from 32 bytes of the last one; made from `generate_trusted_setup` all settings share one constant secret. A clone is
    one longer and belongs to yet another scalar; clones of default and of all FK20 settings panic (C126, C131).
32. Arkworks: the settings hold one point more than asked for, but polynomials of that length panic, except at length 2
    (C127). A zero polynomial of n+2 to n+127 coefficients with n >= 127 points panics in `compute_proof_multi`; no size
    is refused there, n = 0 gives the commitment itself (C128). FK20 with other sizes: item 27, but longer polynomials
    panic (C131).
33. zkcrypto: the conversions of polynomials, base field elements and points from and to blst do not keep the values: they
    keep one word of four, forget the Montgomery factor and pass homogeneous coordinates as Jacobian ones (C132).
34. ckzg: `make_data` drops the sums and returns one point repeatedly; scales are taken modulo 2^32 (C135). Lengths and
    indices passed by the caller are not compared with the buffers in `check_proof_multi`, `KZGSettings::new`,
    `linear_combination_g1` and the accessors (C136). Clones share memory that both free; default polynomials free a
    dangling pointer; settings keep a pointer to other settings that may be gone (C137).
35. The traits: the power zero of mcl-kzg is the element itself, its words from r on panic, `eucl_inverse` panics (C140); ckzg
    panics for differences and inverses, Arkworks for divisions by zero and `eucl_inverse` (C141); the backends give
    three different answers to words from r on (C142). In Arkworks `add_or_dbl` overwrites its first argument with the sum,
    the default of G2 panics, and `equals` is wrong if the crate blst compares words (C144).
36. Between backends: mcl-kzg refuses multi proofs of eight or more points made by the others, except for small settings of one
    constructor, because its roots of unity are others (C150). For the same reason its transforms (C151), lists of
    amortised proofs (C152) and recovered data (C153) differ. Beyond 65536 samples blst-from-scratch panics where the others
    recover (C153). Proofs of the zero polynomial panic in zkcrypto only (C149).
37. The trait functions `scale` and `unscale` of blst-from-scratch and zkcrypto multiply every coefficient by one power of 5 more
    than the substitution needs: p(x/5)/5 and 5p(5x). Those of mcl-kzg panic (C155).
38. The same polynomial arithmetic differs for edge inputs: constants are not evaluated by blst-from-scratch and zkcrypto; products
    with zero are empty in Arkworks; inverses of length 0 are an error, a panic or empty; zeros at the top change the number of
    coefficients of a quotient, or make it wrong or an error (C156).
39. Default settings: width 1 in blst-from-scratch and mcl-kzg, width 0 without roots in zkcrypto and Arkworks (C158). Committing with
    them is an error in the first two and a panic in the other two; asking mcl-kzg for amortised proofs of the empty
    polynomial panics (C160). Clones of settings for commitments of Arkworks are other settings (C159).
40. `Fr::rand` of blst-from-scratch, zkcrypto and ckzg reduces 256 random bits: some elements come from three strings, the others from
    two. zkcrypto has a function that takes 512 bits, but the trait does not use it. `G1::rand` of zkcrypto panics for some random
    words when overflow checks are on (C162).
41. In a release build of zkcrypto there are two different values such that an honest commitment and proof for the one are accepted
    with the other, for every setup, point and polynomial (C164): the rounding step in the product of the generator with
    some scalars overflows (C54).
42. With a polynomial of one coefficient the shared test of single proofs panics in blst-from-scratch and zkcrypto at every point but 0
    (C167), since `eval` reads outside its vector; with settings of a scale above 16 the shared test of recovery panics in
    blst-from-scratch for every input (C171).
43. The buffer of `get_str` in mcl-kzg has 1024 bytes for every type. An element of GT has twelve numbers of up to 115 decimal digits, so that
    printing it panics unless some are short (C173); the same holds for points of G2 in base 2. `deserialize` does not compare the number of
    bytes read with the length given, so that anything may follow an encoding.
44. `zero_poly_random` passes because of its seeds. A round whose random numbers are all even leaves nothing missing. Then
    `zero_poly_via_multiplication` returns two empty vectors in blst-from-scratch, zkcrypto and Arkworks, the transform of the empty vector is
    an error, and the test panics (C177). With eight positions this is one round of 256. mcl-kzg returns zeros and passes.
45. `test_reduce_partials` and `reduce_partials_random` call `equals` and drop the result, so they pass with any products of enough
    coefficients (C178). The comparisons would hold if they were asserted.
46. The stride tests of mcl-kzg run with sizes 9 and 12, both past the seven rows of its other table. With a size from 3 to 6 and one of 7
    or more the two settings use different roots and the test fails (C179, C180). `inverse_fft` passes there because the constructor of the
    trait takes size 4 from the table of the other crates; with the roots of the crate's own table the expected values are wrong.
47. The round trip of mcl-kzg at size 31 returns the negated data (C179, C180).
48. The tests of points fail at size 0 by themselves: `2 << (size - 1)` underflows. The comparison of Arkworks has no such expression, and at
    size 0 passes only for the identity, because the slow transform leaves a single point out (C180).
49. The shared random test of multiplication never draws an empty result. With one it would pass in blst-from-scratch and zkcrypto and panic
    in mcl-kzg and Arkworks (C181).
50. `poly_eval_check` with one coefficient in place of ten would panic in blst-from-scratch and zkcrypto (C182; the cause is in C08).
51. The table of quotients has a seventh entry whose divisor ends with a zero, and the loops stop before it or skip it. With it the tests would fail in
    blst-from-scratch (`div`, `long_div`), mcl-kzg (`long_div`, `fast_div`) and Arkworks (`fast_div`) (C182).
52. `poly_div_by_zero` asks for an error. Arkworks panics instead, or gives the empty list for a zero dividend, and its copy of the test is
    marked `#[should_panic]` (C182).
53. The shared test of powers never takes the exponent zero. With it the test would fail in mcl-kzg for every base but one (C183; the cause is in C140).
54. Four words at or above the modulus survive giving in and taking out in no backend: mcl-kzg panics, Arkworks gives zero, the others reduce
    (C183).
55. `fr_div_by_zero` asks for zero. Arkworks panics, and its copy of the test is marked `#[should_panic]`; in mcl-kzg the outcome depends on the
    library (C183).
56. The tests of linear combinations of zkcrypto are commented out, so nothing there compares the bucket sums with single products (C184).
57. The shared tests of the tables let wrong tables through: 32 rows of ones with the right row 15 pass all of them in every backend (C185).
58. `check_test_data` passes with tables of zeros in every backend, and with every multiple of the right ones (C186).
59. mcl-kzg: above `2^30` coefficients `inverse` gives the negative of the inverse, a series whose product is -3, or a panic, and `fast_div` the
    negative of the quotient, the right one, three times it, or a panic (C100, C101; the cause is item 21).
60. All backends: recovery does not notice that too few samples are left. After the loss of more than half it returns success with a list that
    agrees with the samples given but need not be the extension of anything (C191; no backend
    looks at the upper half of the coefficients).
61. zkcrypto: the loops of `test_batch_normalize` in g1.rs and g2.rs, written to put the identity in each of three places or not, run over `0..1`
    and so never put it anywhere (C195; the function is right with the identity too).
62. blst-from-scratch, zkcrypto: `log2_pow2` masks 32 bits and returns 0 for `2^32` and more. Settings made for a product of more than
    `2^31` coefficients then have the wrong size. Proofs for 128 or more points of polynomials beyond about `2^30` coefficients panic; the
    exact sizes, and those of the other backends, are in C196.
63. kzg-bench: the benchmark `fk_multi_da_chunk_32_optimized` (kzg-bench/src/benches/fk20.rs:213-219) passes `false` for `optimized`, so it
    times `data_availability` a second time and `data_availability_optimized` is never timed for chunks
    (`C200_same_benchmark`, `C200_optimized_not_timed`). Its polynomial is not "independent of chunk_len": the counter is the start of the
    chunk over 16, so with chunks of 32 every second row repeats the counter of the row before it (`C200_pattern_depends`).
64. kzg-bench: the benchmarks of transforms and of the extension (kzg-bench/src/benches/fft.rs:7,18, das.rs:7) make their data with
    `vec![TFr::rand(); n]`, which draws once and clones. The data are constant, the transform of them is one value and zeros, and in the
    recursive transforms everything multiplied by a root other than one is zero or the point at infinity. What is timed is not the typical
    case (C203).
65. mcl-kzg: `poly_test_long_division` (mcl-kzg/kzg-bench/src/poly.rs:120) compares the coefficients from 1 on, so a wrong constant
    coefficient of the quotient passes. The third row of its data (poly.rs:87) is left out as one that does not work; with the present
    `long_division` it would pass (C205).
66. mcl-kzg: its own benchmarks of transforms (mcl-kzg/kzg-bench/benches/bench_fft.rs:18,34) take half as many data as the scale in their names
    says, so each number is that of the scale below; `bench_fft_fr` of kzg-bench takes all of them, and the two cannot be compared
    scale by scale (C206, C203). The benchmarks are switched off at present.
67. zkcrypto: check_proof_multi with one point and check_proof_single disagree (zkcrypto/src/kzg_proofs.rs:94-101,130-152): in a release build there is a true opening of a constant that the first accepts and the second rejects (`C210_zk_release`); with overflow checks the second panics (`C210_zk_overflow`).

Seen while reading, not part of a theorem:

* The reduction loop of `zero_poly.rs` computes the output degree from `partial_lens[i + j]` instead of
  `[start + j]`; the estimate is never too small, so the product is right (the theorem C19 covers the code as written).
* `Poly::scale` multiplies coefficient i by 5^-(i+1), one factor more than `scale_poly`; the round trip holds (C14).
* Arkworks: `Eq` of points (crate-internal, unused) compares `y`, `z` with `x`.
* mcl-kzg: `Poly::scale` and `unscale` are `todo!()`; `Fr::pow(0)` returns the base.
* `to_le_bits`, `char_le_bits` and the `WnafGroup` instances of zkcrypto are compiled only with features (`bits`, `alloc`) that the
  crate does not declare.
* `pippenger` of `multiscalar_mul.rs` is compiled only with a feature `std` that the crate does not declare.
