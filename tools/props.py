import json
P=[]
def p(title, statement, quantifier, why, anchors):
    P.append(dict(id="C%02d"%(len(P)+1), title=title, statement=statement, quantifier=quantifier, why_tests_cant=why, anchors=anchors))
B="blst-from-scratch/src/"
Z="zkcrypto/src/"
p("FFT settings hold a full cycle of a primitive root",
  "For every scale below 32, creating FFT settings succeeds. Its width is 2^scale. Its forward table has width+1 entries, entry i is the i-th power of one field element, that element has multiplicative order exactly 2^scale, and the backward table entry i is the inverse of forward entry i. For every scale of 32 or more, creation returns an error and never panics.",
  "every scale (all natural numbers)",
  "The table for scale 31 has two billion entries, so no test builds it; a wrong constant at one unused scale goes unnoticed.",
  [B+"types/fft_settings.rs: FsFFTSettings::new, expand_root_of_unity", B+"consts.rs: SCALE2_ROOT_OF_UNITY"])
p("Forward FFT is evaluation at the roots of unity",
  "For every coefficient list whose length n is a power of two no larger than the settings width, the forward FFT succeeds with n values and value k is the polynomial evaluated at the k-th power of the primitive n-th root of unity.",
  "every settings scale, every list length that is an allowed power of two, every list of field elements, every output index",
  "Tests compare a few sizes on a few vectors; the claim is an identity over all field vectors and all widths and strides.",
  [B+"fft_fr.rs: fft_fr, fft_fr_fast"])
p("Inverse FFT undoes FFT in both orders",
  "For every list of allowed length, inverse FFT of the forward FFT gives the list back, and forward FFT of the inverse FFT gives the list back.",
  "every settings scale, allowed length and list of field elements",
  "Round trip tests sample a few vectors at one or two sizes.",
  [B+"fft_fr.rs: fft_fr"])
p("FFT rejects exactly the unsupported lengths",
  "The FFT over field elements and the FFT over group elements return an error exactly when the input is longer than the width or its length is not a power of two (this includes the empty list). Otherwise they return a list of the same length. They never panic, for both directions.",
  "every settings scale, every input list of any length, both directions",
  "Index arithmetic (strides, half splits, table lookups) must stay in bounds for every length and width combination.",
  [B+"fft_fr.rs: fft_fr", B+"fft_g1.rs: fft_g1"])
p("Fast and slow FFT agree",
  "For every list of allowed length the fast recursive transform and the quadratic reference transform return identical results, over field elements and over group elements, for the forward and the backward root table.",
  "every settings scale, allowed length, data list",
  "The slow version is only usable in tests on small sizes.",
  [B+"fft_fr.rs: fft_fr_fast, fft_fr_slow", B+"fft_g1.rs: fft_g1_fast, fft_g1_slow"])
p("Group FFT is the field FFT in the exponent",
  "For every list of group elements of allowed length, output k of the forward group FFT is the sum of the inputs weighted by powers of the root; inverse undoes forward in both orders; and transforming scalars then multiplying a base point equals multiplying first and transforming the points.",
  "every settings scale, allowed length, list of group elements, list of scalars and base point",
  "Quantifies over all vectors of group elements.",
  [B+"fft_g1.rs: fft_g1, fft_g1_fast"])
p("Parallel FFT gives the sequential result under every schedule",
  "With the parallel feature the two halves of the transform run as concurrent tasks. For every interleaving of the memory operations of all concurrently running tasks, at every recursion level, the final buffer equals the one the sequential code computes.",
  "every interleaving of the concurrent tasks, every input and size, field and group version",
  "A test observes one schedule per run; data races appear only under rare interleavings.",
  [B+"fft_fr.rs: fft_fr_fast (feature parallel)", B+"fft_g1.rs: fft_g1_fast (feature parallel)", B+"data_availability_sampling.rs: das_fft_extension_stride (feature parallel)"])
p("Polynomial evaluation",
  "Evaluating a polynomial at any point returns the sum of coefficient times power, for every polynomial, including the empty one and the constants, and never panics.",
  "every coefficient list and every point",
  "Tests evaluate a handful of polynomials; length-one input is a boundary the tests skip.",
  [B+"types/poly.rs: Poly::eval"])
p("Direct multiplication is the truncated product",
  "Multiplying two nonempty polynomials with a requested output length returns exactly that many coefficients, coefficient k being the k-th coefficient of the true product.",
  "every pair of polynomials and every requested length",
  "Truncation boundaries depend on three lengths; tests fix them.",
  [B+"types/poly.rs: mul_direct"])
p("FFT multiplication agrees with direct multiplication",
  "For every pair of nonempty polynomials whose product fits in 2^31 coefficients, and every requested output length, multiplication by FFT returns the same coefficient list as direct multiplication, so the automatic choice between them never changes a result.",
  "every pair of polynomials and requested length",
  "Aliasing errors of circular convolution show only at particular length combinations.",
  [B+"types/poly.rs: mul_fft, mul, FFTSettingsPoly::poly_mul_fft"])
p("Polynomial inverse is the power series inverse",
  "For every polynomial with nonzero constant term and every positive output length n within the transform capacity (input plus output length, and twice the output length, at most 2^31), inversion succeeds and the product of the result with the input is 1 modulo x^n; the result has n coefficients. Zero output length, empty input and zero constant term are errors.",
  "every polynomial and every output length",
  "The doubling schedule depends on the bits of the length; tests try a few lengths.",
  [B+"types/poly.rs: inverse"])
p("Long division returns the Euclidean quotient",
  "For every dividend and every divisor with nonzero leading coefficient, long division returns a quotient q with dividend = q*divisor + remainder and remainder of lower degree than the divisor; the quotient has max(0, len a - len b + 1) coefficients. Empty divisors and divisors with a zero leading coefficient are errors.",
  "every dividend and divisor",
  "Quantifies over all degrees and coefficients.",
  [B+"types/poly.rs: long_div, poly_quotient_length"])
p("Fast division agrees with long division",
  "For every nonempty dividend of at most 2^30 coefficients and valid divisor, division by reversed power series inversion returns the same quotient as long division, hence the size based dispatch in division never changes a result.",
  "every dividend and divisor",
  "The fast path is only taken for divisors of length 128 or more; tests seldom reach it.",
  [B+"types/poly.rs: fast_div, div"])
p("Scaling and unscaling are mutually inverse substitutions",
  "Scaling a coefficient list multiplies coefficient i by 5^-i (the substitution x to x/5), unscaling multiplies it by 5^i, and each undoes the other for every list of up to 65536 coefficients. The polynomial methods of the same name also undo each other for every length.",
  "every list of field elements and length",
  "Quantifies over all lists; the lookup table boundary 65536 is far beyond tests.",
  [B+"recovery.rs: scale_poly, unscale_poly", B+"types/poly.rs: scale, unscale"])
p("Scale tables are independent of call history",
  "The shared lazily initialised power tables give every caller the same factors, whatever calls from whatever threads came before, in whatever order they won the initialisation race.",
  "every history and interleaving of scale and unscale calls",
  "Depends on the history of the process, not on one call.",
  [B+"recovery.rs: INVERSE_FACTORS, UNSCALE_FACTOR_POWERS, scale_poly, unscale_poly"])
p("Data availability extension interpolates the odd positions",
  "For every list of n field elements with n a power of two and 2n within the width, extension returns n values such that interleaving (input at even, output at odd positions) gives the 2n evaluations of a polynomial with fewer than n+1 coefficients: the upper half of the inverse FFT of the interleaving is zero.",
  "every settings scale, allowed length, list of field elements",
  "Quantifies over all data vectors and all sizes and strides.",
  [B+"data_availability_sampling.rs: das_fft_extension, das_fft_extension_stride"])
p("Data availability extension rejects exactly the unsupported lengths",
  "Extension returns an error exactly for the empty list, lengths that are no power of two and lengths above half of the width. It never panics.",
  "every settings scale and list",
  "All length and width combinations.",
  [B+"data_availability_sampling.rs: das_fft_extension"])
p("Partial zero polynomial is the product of linear factors",
  "For every nonempty list of indices (duplicates allowed) and stride with all index*stride inside the root table, the partial zero polynomial is the monic product of (x - root[index*stride]); the empty list is an error.",
  "every settings scale, index list, stride",
  "In place update order matters for every length.",
  [B+"zero_poly.rs: do_zero_poly_mul_partial"])
p("Reducing partials multiplies polynomials",
  "For every nonempty list of nonempty polynomials whose product fits in a power-of-two domain within the width, reduction returns the exact product; otherwise it returns an error.",
  "every settings scale, list of polynomials and domain size",
  "Quantifies over number, lengths and coefficients of the partials.",
  [B+"zero_poly.rs: reduce_partials, pad_poly"])
p("Zero polynomial vanishes exactly at the missing positions",
  "For every domain size that is a power of two within the width and every strictly increasing list of missing positions that is nonempty and shorter than the domain, the call succeeds with domain-size many coefficients and evaluations, the polynomial is the product of (x - w^i) over the missing i, and evaluation j is zero exactly when j is missing.",
  "every settings scale, domain size, set of missing positions",
  "The number of subsets is exponential; the grouping and reduction schedule has many boundary cases.",
  [B+"zero_poly.rs: zero_poly_via_multiplication"])
p("Recovery returns the original data",
  "If samples are taken from the evaluations of a polynomial of degree below half of the domain, with at least one and at most half of the positions missing, recovery returns exactly all original evaluations.",
  "every settings scale, power of two domain, polynomial of allowed degree, erasure pattern",
  "Exponentially many erasure patterns times all data.",
  [B+"types/poly.rs: recover_poly_from_samples", B+"recovery.rs: recover_poly_from_samples"])
p("Recovery never contradicts a known sample",
  "Whenever recovery returns data, the data agrees with every sample that was present, and it is the evaluation list of a polynomial of degree below the domain size minus the number of missing positions, so it is the unique consistent codeword.",
  "every settings scale, every sample list whatever its origin (also corrupted)",
  "Quantifies over arbitrary corrupted inputs.",
  [B+"types/poly.rs: recover_poly_from_samples", B+"recovery.rs: recover_poly_from_samples"])
p("Missing-sample marker never collides with data",
  "A sample equal to a field element that can occur as data is never treated as missing by the recovery that marks missing samples with the null element.",
  "every field element",
  "One value out of 2^255 is affected; random tests do not hit it.",
  [B+"types/fr.rs: null, is_null", B+"recovery.rs: recover_poly_from_samples"])
p("Recovery with nothing missing returns the data",
  "Recovery applied to a complete, consistent sample list returns that list.",
  "every settings scale and complete sample list",
  "Boundary case not covered by the erasure tests.",
  [B+"types/poly.rs: recover_poly_from_samples", B+"zero_poly.rs: zero_poly_via_multiplication"])
p("Commitment is the evaluation at the secret in the exponent",
  "With a trusted setup made from a secret s, committing to any polynomial no longer than the setup gives p(s) times the generator; commitments are additive and homogeneous; longer polynomials are rejected with an error.",
  "every secret, setup length and polynomial",
  "Quantifies over all secrets and polynomials.",
  [B+"types/kzg_settings.rs: commit_to_poly, new", B+"kzg_proofs.rs: g1_linear_combination", B+"utils.rs: generate_trusted_setup"])
p("Single proofs: completeness",
  "For every polynomial that fits the setup and every point x, the proof computed at x verifies against the commitment with the value p(x).",
  "every secret, setup, polynomial and point",
  "Tests check one polynomial at a few points.",
  [B+"types/kzg_settings.rs: compute_proof_single, check_proof_single"])
p("Single proofs: exact acceptance condition",
  "A single proof is accepted exactly when commitment - y*G = (s - x)*proof. In particular for a commitment to p and x different from s there is exactly one accepted proof per claimed value, the honest proof is never accepted for a value other than p(x), and two different values with two accepted proofs at one x reveal s.",
  "every secret, commitment, proof, point and value, honest or forged",
  "A statement about all adversarial inputs.",
  [B+"types/kzg_settings.rs: check_proof_single", B+"kzg_proofs.rs: pairings_verify"])
p("Multi proofs: completeness",
  "For every polynomial that fits the setup, every power of two n within the width, and nonzero x, the multi proof verifies with the n values of p at x*w^i, w the primitive n-th root.",
  "every secret, setup, polynomial, nonzero point and power of two n",
  "Quantifies over all coset sizes and polynomials.",
  [B+"types/kzg_settings.rs: compute_proof_multi, check_proof_multi"])
p("Multi proofs: exact acceptance condition",
  "A multi proof for n values at a nonzero x is accepted exactly when commitment - I(s)*G = (s^n - x^n)*proof, I being the unique polynomial of degree below n through the claimed values on the coset. The honest proof is accepted for a list of values exactly when its interpolant and that of the true values agree at s, so an accepted false list exhibits a nonzero polynomial of degree below n with s as a root.",
  "every secret, commitment, proof, nonzero point, value list",
  "A statement about all adversarial inputs.",
  [B+"types/kzg_settings.rs: check_proof_multi"])
p("FK20 single: all proofs at once equal individual proofs",
  "For every polynomial of length n, with settings made for size 2n, the amortised computation returns 2n proofs and proof i equals the single proof at the i-th power of the 2n-th root; the final API returns them in bit-reversed order.",
  "every secret, power of two n within half of the width, polynomial",
  "Quantifies over all polynomials and sizes.",
  [B+"types/fk20_single_settings.rs: new, data_availability, data_availability_optimized", B+"fk20_proofs.rs: toeplitz_part_1, toeplitz_part_2, toeplitz_part_3, toeplitz_coeffs_step"])
p("FK20 multi: all chunk proofs at once equal individual proofs",
  "For every polynomial of length n and chunk length l (powers of two, l at most n), with settings made for 2n and l, the amortised computation returns 2n/l proofs and proof i equals the multi proof for l values at the i-th power of the 2n-th root; the final API returns them in bit-reversed order.",
  "every secret, power of two n and chunk length, polynomial",
  "Quantifies over all polynomials, sizes and chunk lengths.",
  [B+"types/fk20_multi_settings.rs: new, data_availability, data_availability_optimized", B+"fk20_proofs.rs: toeplitz_coeffs_stride"])
p("Bit reversal ordering is an involutive permutation",
  "For every list of power-of-two length 2^k, reordering moves element i to the position whose k-bit representation is reversed; applying it twice gives the list back; nothing is lost or duplicated.",
  "every list of power-of-two length",
  "Quantifies over all lengths and element types.",
  [B+"utils.rs: reverse_bit_order"])
p("Power-of-two helpers",
  "The power-of-two test is true exactly on powers of two. Rounding up returns the least power of two that is at least the argument, for every argument from 1 to 2^63. The logarithm helpers return the exact (for powers of two below 2^32) respectively the floor logarithm for every positive argument, and the byte logarithm for every byte.",
  "every 64-bit value",
  "2^64 inputs; bit tricks fail at isolated values.",
  [B+"utils.rs: is_power_of_two, next_power_of_two, log2_pow2, log2_u64, log_2_byte"])
p("Field exponentiation",
  "Raising a field element to any machine integer exponent equals repeated multiplication, including exponent zero.",
  "every field element, every exponent",
  "2^64 exponents times 2^255 elements.",
  [B+"types/fr.rs: pow"])
p("Scalar multiplication passes the exact bit length",
  "Multiplying a group element by a scalar skips leading zero bytes and bits; the number of bits handed to the multiplication routine always covers the scalar completely and is exactly its bit length, so the product is never that of a truncated scalar.",
  "every scalar (32 bytes)",
  "A wrong bit count at some byte boundary only affects some scalars.",
  [B+"types/g1.rs: G1Mul::mul", B+"utils.rs: log_2_byte"])
p("Scalar field add, subtract, negate, double are exact modular arithmetic on limbs",
  "The pure Rust scalar field implementation keeps every result reduced below the modulus and computes the exact modular sum, difference, negation and double, for all carries and borrows of its 4x64-bit limbs.",
  "every pair of reduced 256-bit limb vectors",
  "Carry chains fail only on particular limb patterns out of 2^510 pairs.",
  [Z+"curve/scalar.rs: add, sub, neg, double", Z+"curve/scalar.rs: adc, sbb, mac"])
p("Montgomery multiplication is exact",
  "Multiplication and squaring in the pure Rust scalar field return the reduced limb vector of a*b*2^-256 modulo the group order; conversion from and to integers composes to the identity; squaring agrees with multiplication by itself.",
  "every pair of reduced limb vectors",
  "Carry propagation bugs are reachable only on rare limb patterns.",
  [Z+"curve/scalar.rs: mul, square, montgomery_reduce, from_raw"])
p("Scalar encoding round trip and canonicity",
  "Decoding 32 little endian bytes succeeds exactly when the integer is below the modulus; encoding then gives the same bytes; encoding any scalar then decoding gives the same scalar.",
  "every 32-byte string and every scalar",
  "2^256 byte strings.",
  [Z+"curve/scalar.rs: from_bytes, to_bytes"])
p("Wide reduction is exact",
  "Decoding 64 bytes returns the 512-bit integer modulo the group order.",
  "every 64-byte string",
  "2^512 inputs.",
  [Z+"curve/scalar.rs: from_bytes_wide, from_u512"])
p("Scalar inversion and exponentiation",
  "Inversion returns nothing for zero and otherwise the multiplicative inverse; both exponentiation routines return the power for every 256-bit exponent.",
  "every scalar and every exponent",
  "An addition chain of 256 squarings and many multiplications cannot be checked by sampling for all inputs.",
  [Z+"curve/scalar.rs: invert, pow, pow_vartime"])
p("Variable base multi-scalar multiplication is the linear combination",
  "The bucket method returns the sum of scalar times point for all lists of points and scalars (the shorter list length decides), for every window size it selects.",
  "every list of points and scalars",
  "Window boundaries and the special case for the scalar one depend on data and size.",
  [Z+"curve/multiscalar_mul.rs: msm_variable_base", Z+"curve/scalar.rs: divn, reduce"])
p("Base field arithmetic on limbs is exact",
  "The pure Rust base field implementation (6x64-bit limbs) keeps every result reduced and computes the exact modular sum, difference, negation and Montgomery product.",
  "every pair of reduced 384-bit limb vectors",
  "Carry chains fail only on particular limb patterns.",
  [Z+"curve/fp.rs: add, sub, neg, subtract_p, mul, square, montgomery_reduce"])
p("FK20 settings used with polynomials of other lengths",
  "Whenever the amortised single proof computation accepts a polynomial, the returned list consists of its proofs, also if the settings were made for another size.",
  "every settings size, every accepted polynomial length",
  "Tests use matching sizes; the claim is about every pair of sizes.",
  [B+"types/fk20_single_settings.rs: data_availability_optimized", B+"fk20_proofs.rs: toeplitz_part_2"])
p("Scalar square root is complete and sound",
  "The constant-time Tonelli-Shanks routine returns a square root for every square (including zero) and nothing for every non-square.",
  "every scalar",
  "Nested loops with data-dependent masks; half of the 2^255 inputs must succeed, the other half must fail.",
  ["zkcrypto/src/curve/scalar.rs: sqrt"])
p("Right shift of the words is division by a power of two",
  "divn by n leaves the integer in the words divided by 2^n, for every n, within and beyond the width.",
  "every word vector and every shift amount",
  "Word and bit shifts interact at every boundary.",
  ["zkcrypto/src/curve/scalar.rs: divn"])
p("The missing-value marker is no scalar (zkcrypto)",
  "The words used to mark a missing value are not the words of any reduced scalar, so a present value is never taken for a missing one.",
  "every reduced scalar",
  "Quantifies over all scalars.",
  ["zkcrypto/src/curve/scalar.rs: null, ct_eq"])
p("Base field encoding round trip and canonicity",
  "Decoding 48 big endian bytes succeeds exactly when the integer is below the field size; encoding then gives the same bytes; encoding any element then decoding gives the same element.",
  "every 48-byte string and every base field element",
  "2^384 byte strings.",
  [Z+"curve/fp.rs: from_bytes, to_bytes"])
p("Base field powers, inverses and square roots",
  "Exponentiation returns the power for every 384-bit exponent; inversion returns nothing for zero and otherwise the inverse; the square root returns a root of every square and nothing for every non-square.",
  "every base field element and every exponent",
  "Exponents with hundreds of bits; half of the field must succeed and the other half must fail.",
  [Z+"curve/fp.rs: pow_vartime, invert, sqrt"])
p("The sign bit of a base field element",
  "The sign used by compressed points is set exactly when the canonical integer exceeds (p-1)/2, so of every nonzero element and its negation exactly one has it set.",
  "every base field element",
  "The boundary is one pair of values out of 2^381.",
  [Z+"curve/fp.rs: lexicographically_largest"])
p("Reduction of 768 bits to a base field element",
  "Twelve limbs, most significant first, are reduced to the 768-bit integer modulo the field size.",
  "every vector of twelve 64-bit limbs",
  "2^768 inputs; the only caller feeds random bytes, so no test of outputs exists.",
  [Z+"curve/fp.rs: from_u768, random"])
p("Signed digit recoding and Pippenger's method",
  "Recoding a scalar into signed digits of 6, 7 or 8 bits preserves its value with every digit in range and without overflow of 8-bit arithmetic; the sum built from the digit columns is the linear combination of the points.",
  "every scalar, every list of scalars and points",
  "Carries between digits and words that straddle two limbs occur only for some bit patterns.",
  [Z+"curve/multiscalar_mul.rs: to_radix_2w, pippenger, mul_by_pow_2"])
p("The point formulas of zkcrypto are complete",
  "Addition (projective, mixed), doubling, negation, subtraction and summation return the group sum for every input, including equal points, opposite points and the identity in any scaling.",
  "every pair of points of the curve in any projective coordinates, every list",
  "Exceptional cases of point formulas (equal, opposite, identity) are measure-zero; completeness over all 2^762 pairs is algebra.",
  [Z+"curve/g1.rs: add, add_mixed, double, neg, sub, sum, mul_by_x, mul_by_3b", Z+"curve/g2.rs: add, add_mixed, double, neg, sub, sum, mul_by_x, mul_by_3b"])
p("Comparison and normalisation of points",
  "Equality holds exactly for the same group element whatever the coordinates; conversion to affine keeps the point and is canonical; batch normalisation equals normalising one by one, with identities anywhere in the batch; the curve test is exact for finite coordinates.",
  "every point, every list of points",
  "The batch trick shares one inversion, and an identity in the batch would poison it; scaled coordinates are infinitely many.",
  [Z+"curve/g1.rs: ct_eq, is_identity, is_on_curve, batch_normalize, From", Z+"curve/g2.rs: ct_eq, is_identity, is_on_curve, batch_normalize, From"])
p("Scalar multiplication in the first group",
  "The product of a point and a scalar is the corresponding multiple of the point, and the call never panics.",
  "every point of the curve, every scalar, with and without overflow checks",
  "The scalar is split and recoded in constant time; failures occur for about one scalar in 2^65.",
  [Z+"curve/g1.rs: multiply, glv_recoding, regular_recoding, precompute, linear_pass, mul_short, sub_borrow"])
p("The subgroup test of the first group is exact",
  "is_torsion_free never panics and answers true exactly for the points killed by the group order, that is for the multiples of the generator.",
  "every point of the curve",
  "It uses the endomorphism method outside the range for which that method multiplies correctly; one wrongly accepted point is a small subgroup attack.",
  [Z+"curve/g1.rs: is_torsion_free, multiply"])
p("Generator and group order",
  "The generator constant lies on the curve, has exactly the order of the scalar field and generates all points killed by it; the curve has (z-1)^2/3 times that many points; the constant BETA acts on the subgroup as the eigenvalue.",
  "every point killed by the order",
  "Statements about a group with 2^381 elements.",
  [Z+"curve/g1.rs: generator, BETA, B"])
p("Clearing the cofactor lands in the subgroup",
  "For every point of the curve, clear_cofactor returns a point of the prime order subgroup, which the subgroup test accepts; it does not send a non-trivial subgroup point to the identity.",
  "every point of the curve",
  "The multiplier is not the cofactor but its square root; that it suffices depends on the structure of the whole group.",
  [Z+"curve/g1.rs: clear_cofactor, mul_by_x"])
p("Compressed points of the first group",
  "Decoding 48 bytes never panics and succeeds exactly when the bytes are the encoding of a point of the subgroup, returning that point; decoding inverts encoding; no two points share an encoding; the bytes are the flags and the big endian first coordinate.",
  "every 48-byte string, every point",
  "2^384 strings; non-canonical flags and coordinates must all be rejected.",
  [Z+"curve/g1.rs: to_compressed, from_compressed, from_compressed_unchecked"])
p("Uncompressed points of the first group",
  "Decoding 96 bytes never panics and succeeds exactly when the bytes are the encoding of a point of the subgroup, returning that point; decoding inverts encoding.",
  "every 96-byte string, every point",
  "2^768 strings; off-curve pairs, wrong flags and non-canonical coordinates must all be rejected.",
  [Z+"curve/g1.rs: to_uncompressed, from_uncompressed, from_uncompressed_unchecked"])
p("Division of polynomials in zkcrypto",
  "Dividing any polynomial by any nonzero polynomial returns the quotient of the division with remainder, whatever trailing zero coefficients the two lists have; dividing by zero is an error.",
  "every dividend of degree below 2^30 and every divisor",
  "The method changes with the lengths, and trailing zeros change the lengths; all values at all lengths.",
  [Z+"poly.rs: div, new_poly_div, poly_norm, poly_long_div, poly_fast_div"])
p("The two division methods of zkcrypto",
  "The long and the fast division return the same quotient, and a returned quotient is always right.",
  "every dividend and divisor",
  "Agreement of two algorithms on all inputs, including non-normalised ones.",
  [Z+"poly.rs: poly_long_div, poly_fast_div, poly_flip, poly_inverse"])
p("Synthetic division",
  "Dividing a polynomial by x - z with ruffini returns the quotient without trailing zeros; the remainder is the value at z.",
  "every polynomial, every point",
  "All polynomials of all degrees; opening proofs are built from this quotient.",
  [Z+"poly.rs: ruffini, from_coefficients_vec, truncate_leading_zeros, degree"])
p("Multiplication of polynomials in zkcrypto",
  "Direct and transform based multiplication, the automatic choice and the trait entry point all return exactly the requested number of coefficients of the product.",
  "every pair of nonempty polynomials with a product of at most 2^31 coefficients, every requested length",
  "The choice depends on three lengths; agreement must hold for all coefficient values and truncations.",
  [Z+"poly.rs: poly_mul, poly_mul_fft, poly_mul_direct, pad", Z+"fftsettings.rs: poly_mul_fft"])
p("Inverse power series in zkcrypto",
  "The inverse of a polynomial with nonzero constant term to n > 0 coefficients is its inverse modulo x^n; an empty polynomial or a zero constant term is an error.",
  "every polynomial and length",
  "Newton iteration over all bit patterns of the length.",
  [Z+"poly.rs: inverse, poly_inverse"])
p("Zero polynomials in zkcrypto",
  "For every nonempty set of missing positions smaller than the domain, the result is the monic polynomial vanishing exactly at the missing positions, padded to the domain size, with its evaluations.",
  "every settings scale, power of two domain, list of missing positions",
  "All subsets of all domains.",
  [Z+"zero_poly.rs: zero_poly_via_multiplication, do_zero_poly_mul_partial, reduce_partials"])
p("Recovery in zkcrypto returns the original data",
  "If samples are taken from the evaluations of a polynomial of degree below half of the domain, with at least one and at most half of the positions missing, recovery returns exactly all original evaluations, on domains of every size.",
  "every settings scale, power of two domain, polynomial of allowed degree, erasure pattern",
  "Exponentially many erasure patterns times all data.",
  [Z+"recover.rs: recover_poly_from_samples, scale_poly, unscale_poly"])
p("Recovery in zkcrypto never contradicts a known sample",
  "Whenever recovery returns data, the data agrees with every present sample and is the only consistent codeword; the call returns data exactly if the length is a power of two within the width and at least one sample is missing, at least one present, and at most 63*(D/64+1) missing; in every other case it panics.",
  "every settings scale, every sample list whatever its origin (also corrupted)",
  "Quantifies over arbitrary corrupted inputs.",
  [Z+"recover.rs: recover_poly_from_samples"])
p("The scaling tables do not depend on the history",
  "With the parallel feature the powers used by recovery are kept in global vectors that grow on demand. After any sequence of calls, one at a time, recovery returns what it returns without the feature.",
  "every sequence of earlier calls with polynomials of any length, every sample list",
  "The state of the process is unbounded; a test sees one order of calls.",
  [Z+"recover.rs: scale_poly, unscale_poly, INVERSE_FACTORS, UNSCALE_FACTOR_POWERS, recover_poly_from_samples"])
p("Concurrent recoveries do not disturb each other",
  "With the parallel feature, several threads that recover at the same time each obtain the result they would obtain alone, whatever the schedule.",
  "every number of threads, every interleaving",
  "The interleavings that break it are rare and depend on the scheduler.",
  [Z+"recover.rs: scale_poly, unscale_poly, INVERSE_FACTORS, UNSCALE_FACTOR_POWERS"])
p("The quadratic extension field of zkcrypto",
  "The operations of Fp2 (sum, difference, negation, product, square, product with the non-residue, powers, comparison) are those of the field Fq[u]/(u^2+1), in which every element is represented exactly once; inversion fails exactly for zero.",
  "all pairs of elements, all exponents",
  "Karatsuba-like shortcuts over a field of p^2 elements; carries and signs cannot be sampled.",
  [Z+"curve/fp2.rs: mul, square, add, sub, neg, invert, mul_by_nonresidue, pow_vartime"])
p("The sextic extension field of zkcrypto",
  "The operations of Fp6 are those of the field F2[v]/(v^3-(u+1)), in which every element is represented exactly once; the products with sparse elements are the products; inversion fails exactly for zero.",
  "all pairs of elements",
  "Interpolation formulas over a field of p^6 elements.",
  [Z+"curve/fp6.rs: mul, square, invert, mul_by_1, mul_by_01, mul_by_nonresidue"])
p("The dodecic extension field of zkcrypto",
  "The operations of Fp12 are those of the field F6[w]/(w^2-v), in which every element is represented exactly once; the product with a line is the product; the conjugate changes the sign of w; inversion fails exactly for zero.",
  "all pairs of elements",
  "Formulas over a field of p^12 elements.",
  [Z+"curve/fp12.rs: mul, square, invert, mul_by_014, conjugate"])
p("The Frobenius maps of zkcrypto are powers with the prime",
  "frobenius_map of Fp2, Fp6 and Fp12 raises every element to the power p, and conjugation of Fp12 raises to the power p^6.",
  "all elements of the three fields",
  "A wrong constant is invisible in the subfields; the claim concerns p^12 elements.",
  [Z+"curve/fp2.rs: frobenius_map", Z+"curve/fp6.rs: frobenius_map", Z+"curve/fp12.rs: frobenius_map, conjugate"])
p("Square roots and their order in the quadratic extension of zkcrypto",
  "Fp2::sqrt returns a root exactly for the squares, and lexicographically_largest holds exactly for the elements that come after their negative (coefficient of u first).",
  "all elements",
  "The special case of the algorithm is hit by a vanishing share of inputs.",
  [Z+"curve/fp2.rs: sqrt, lexicographically_largest"])
p("The final exponentiation of zkcrypto is the power it stands for",
  "final_exponentiation raises every nonzero element of Fp12 to 3(p^12-1)/r, by a chain of Frobenius maps, cyclotomic squarings and multiplications; it panics exactly for zero. The result has order dividing r, sums of Miller loop results go to sums, and every element of the target group is reached.",
  "every element of Fp12",
  "A chain of some 380 operations over a field of p^12 elements, right only on a subgroup.",
  [Z+"curve/pairings.rs: MillerLoopResult::final_exponentiation, fp4_square, cyclotomic_square, cycolotomic_exp"])
p("The target group of zkcrypto",
  "On the elements with x^r = 1, identity, comparison, sum, doubling, negation, difference, sum of a list and multiplication by a scalar are the operations of the cyclic group of order r, and the constant generator generates it.",
  "all elements of the target group, all scalars, all lists",
  "A group of r elements; the shortcut for the inverse holds only there.",
  [Z+"curve/pairings.rs: Gt::identity, double, neg, add, sub, mul, sum, generator, is_identity"])
p("Random elements of the target group",
  "random returns an element of the target group, and every element may be returned.",
  "every state of the random number generator",
  "A test that draws elements and checks that they are in the group passes.",
  [Z+"curve/pairings.rs: Gt::random"])
p("Scalar multiplication in the second group of zkcrypto",
  "The product of a point with a scalar is the multiple of the point, for every point of the curve, inside the prime order subgroup or not, and never panics.",
  "all points of the curve in all coordinates, all scalars",
  "Over 2^254 scalars; the multiplication of the first group is wrong for some of them, which no test shows.",
  [Z+"curve/g2.rs: multiply, Mul<&Scalar> for G2Projective and G2Affine"])
p("The subgroup test and the order of the second group of zkcrypto",
  "is_torsion_free is true exactly for the multiples of the generator; the generator has order r; the curve has h2*r points.",
  "all points of the curve",
  "The number of points has 761 bits.",
  [Z+"curve/g2.rs: is_torsion_free, generator"])
p("Encodings of points of the second group of zkcrypto",
  "The checked decoders accept exactly the encodings of points of the prime order subgroup, and decode them to the point with that encoding; the encodings have the stated layout and flags; the unchecked decoders accept exactly the encodings of curve points (compressed) or of pairs of coordinates (uncompressed).",
  "all byte strings of 96 and 192 bytes, all points",
  "Malformed encodings form a set of 2^768 strings.",
  [Z+"curve/g2.rs: to_compressed, to_uncompressed, from_compressed, from_uncompressed and their unchecked forms"])
p("The untwist-Frobenius-twist endomorphism of zkcrypto",
  "psi is an endomorphism of the group of points, psi2 is psi applied twice, psi meets the characteristic equation of the Frobenius map on every point and is multiplication by the curve parameter on the prime order subgroup.",
  "all points of the curve in all coordinates",
  "A wrong constant can keep some points on the curve; the equation concerns all of them.",
  [Z+"curve/g2.rs: psi, psi2"])
p("Clearing the cofactor in the second group of zkcrypto",
  "clear_cofactor sends every point of the curve into the prime order subgroup, is a homomorphism, and sends no point of the subgroup but the identity to the identity.",
  "all points of the curve",
  "The argument needs the number of points of the curve and the equation of psi; random points never meet the small factors of the cofactor.",
  [Z+"curve/g2.rs: clear_cofactor, mul_by_x"])
p("The pairing of zkcrypto",
  "pairing(m*g1, n*g2) is the generator of the target group to the power m*n; this covers all points that pass the subgroup tests. It is linear in each argument, and the identity exactly if one of the points is the identity. It is linear in the first argument on the whole first curve.",
  "all points of the first curve and all points of the prime order subgroup of the second",
  "Bilinearity and non-degeneracy concern 2^510 pairs; random tests see a handful.",
  [Z+"curve/pairings.rs: pairing, miller_loop, ell, doubling_step, addition_step"])
p("Prepared points and products of pairings of zkcrypto",
  "Preparing a point never panics and gives 68 coefficients. multi_miller_loop on prepared terms followed by the final exponentiation is the sum of the pairings of the terms.",
  "all coordinate pairs; all lists of terms, with identities among them",
  "The number of terms is unbounded; identities take special paths.",
  [Z+"curve/pairings.rs: G2Prepared, multi_miller_loop"])
p("Comparison of pairings of zkcrypto",
  "pairings_verify(a1, a2, b1, b2) is true exactly if e(a1, a2) = e(b1, b2); in logarithms, exactly if the products agree in the scalar field. It never panics.",
  "all points of the prime order subgroups, in all projective coordinates, the identity included",
  "Soundness is about all unequal pairs; a verifier that accepts too much passes tests with honest proofs.",
  [Z+"kzg_types.rs: pairings_verify"])
p("The trusted setup of zkcrypto",
  "generate_trusted_setup(n, secret) returns the n powers s^i*g1 and s^i*g2 of the secret number; it panics for secrets that are not below r.",
  "all 32 byte secrets, all lengths, builds with and without overflow checks",
  "The multiplication is wrong for about one power in 2^65, and the later powers are pseudorandom.",
  [Z+"kzg_proofs.rs: generate_trusted_setup"])
p("Commitments of zkcrypto",
  "With a setup for s, commit_to_poly(p) is p(s)*g1: commitments compare equal exactly if the polynomials agree at s, and they add. A polynomial longer than the setup never gets a commitment. KZGSettings::new makes settings of the lists it is given.",
  "all polynomials, all setups of any size",
  "Equality of commitments is about all pairs of polynomials; the multi-scalar multiplication takes size dependent paths.",
  [Z+"kzg_proofs.rs: poly_commit, new_kzg_settings", Z+"kzg_types.rs: commit_to_poly, KZGSettings::new"])
p("Single proofs of zkcrypto",
  "The proof computed for p at x verifies with the value p(x) and with no other value. For any commitment and proof in the group, the check accepts exactly if com - y*g1 = (s-x)*proof.",
  "all polynomials that fit the setup, all points, all claimed values, all group elements as commitment and proof",
  "Soundness is about all wrong values and all proofs, which tests cannot list.",
  [Z+"kzg_proofs.rs: compute_single, check_single", Z+"kzg_types.rs: compute_proof_single, check_proof_single"])
p("Multi proofs of zkcrypto",
  "The proof computed for p at the n points x*w^i verifies with the n values of p at these points. The check accepts exactly if com - I(s)*g1 = (s^n - x^n)*proof for the interpolation I of the claimed values.",
  "all polynomials that fit the setup, all x, all lists of n values, all powers of two n",
  "The relation concerns every coset and every list of claimed values.",
  [Z+"kzg_proofs.rs: compute_multi, check_multi"])
p("Transforms of points of zkcrypto",
  "fft_g1 of the points d_i*g1 gives the points whose factors are the transform of the d_i, in both directions; forward and inverse transform undo each other; the quadratic version agrees; other lengths are an error.",
  "all lists of group elements of lengths that are powers of two up to the width",
  "It multiplies by every root of unity of the settings; the multiplication is wrong for some scalars.",
  [Z+"fft_g1.rs: fft_g1, fft_g1_fast, fft_g1_slow"])
p("Amortised single proofs of zkcrypto",
  "With settings for 2n, data_availability_optimized of a polynomial of n coefficients returns the 2n proofs for the powers of the 2n-th root of unity, equal to the ones computed one by one; data_availability returns them in bit-reversed order.",
  "all polynomials of n = 2^m coefficients, all m below the scale, builds with and without overflow checks",
  "The factors multiplied by are transforms of the coefficients; some of them overflow.",
  [Z+"fk20.rs: ZkFK20SingleSettings::new, data_availability, data_availability_optimized, toeplitz_part_1, toeplitz_part_2, toeplitz_part_3"])
p("Amortised multi proofs of zkcrypto",
  "With settings for 2n and chunk length l, data_availability_optimized returns the 2n/l multi proofs for l values each, equal to the ones computed one by one; data_availability returns them in bit-reversed order.",
  "all polynomials of n = 2^(m+c) coefficients, all chunk lengths 2^c, builds with and without overflow checks",
  "As for single proofs, for every chunk offset.",
  [Z+"fk20.rs: ZkFK20MultiSettings::new, data_availability, data_availability_optimized, toeplitz_coeffs_stride"])
p("Extension of data and settings constructors of zkcrypto",
  "das_fft_extension returns the odd values of the polynomial of degree below n with the given even values; it never panics and is an error exactly for empty lists, lengths that are no power of two and lengths above half the width. from_scale and new_fft_settings, unlike new, return settings that transform nothing.",
  "all lists, all scales",
  "Unbounded list lengths and 2^254 values per entry.",
  [Z+"das.rs: das_fft_extension", Z+"fftsettings.rs: das_fft_extension_stride, from_scale, new_fft_settings"])
M="mcl-kzg/kzg/src/"
p("Integer helpers of mcl-kzg",
  "is_power_of_2, log_2 and next_pow_of_2 give the exact answers on 64-bit words. order_by_rev_bit_order of a list of 2^k elements moves each to the position with reversed bits and is its own inverse. reverse_bits_limited reverses the low bits.",
  "all 64-bit words, all lists of lengths that are powers of two",
  "Tests try a few words; the edges 0, 1 and 2^63 are not tried.",
  [M+"utilities.rs: is_power_of_2, log_2, next_pow_of_2, order_by_rev_bit_order, reverse_bits_limited"])
p("FFT settings of mcl-kzg do not depend on the history of the process",
  "Whatever settings were made before, in whatever order and with whatever scales, by new, by the trait function and by new_custom_primitive_roots, the same call gives the same settings. For scales below 32 they hold a full cycle of a primitive root of order 2^scale; for others the call is an error. A root of a larger domain raised to the ratio of the sizes gives the root of the smaller.",
  "all sequences of calls, all scales, all interleavings of two threads",
  "The constructors share global tables that one overwrites and another reads; what counts is the order of all calls of a process.",
  [M+"fk20_fft.rs: init_globals, init_globals_custom, new, new_custom_primitive_roots, expand_root_of_unity", M+"trait_implementations/fft_settings.rs: FFTSettings::new"])
p("Transforms of field elements of mcl-kzg",
  "fft of any list up to the width is the list of values of the polynomial at the powers of the root whose order is the length rounded up to a power of two. Forward and inverse transform undo each other on lists of 2^m values. Lists longer than the width are an error.",
  "all settings, all lists up to the width",
  "The length is cut to 32 bits with a sign, which shows only at 2^31 values.",
  [M+"fk20_fft.rs: fft, inplace_fft, _fft, _simple_ftt"])
p("Recursive and quadratic transforms of mcl-kzg agree",
  "fft_fr_fast and fft_fr_slow, and fft_g1_fast and fft_g1_slow, give the same result for both root tables, whatever the result vectors held before.",
  "all lists of field elements and points of lengths that are powers of two up to the width",
  "The recursion stops at length four with its own loop; tests compare a few random vectors.",
  [M+"fk20_fft.rs: _fft, _simple_ftt, fft_fr_slow, fft_fr_fast, fft_g1_slow, fft_g1_fast", M+"trait_implementations/fft_fr.rs", M+"trait_implementations/fft_g1.rs"])
p("Transforms of points of mcl-kzg",
  "fft_g1 of 2^m points gives the points whose k-th entry is the combination with the powers of the k-th power of the root; forward and inverse transform undo each other; other lengths are an error.",
  "all settings, all lists of points",
  "As for field elements, with multiplication of points.",
  [M+"fk20_fft.rs: fft_g1, fft_g1_inv, _fft_g1, _fft_g1_simple"])
p("Multiplication of polynomials of mcl-kzg",
  "mul_direct, mul_fft, mul and mul_ return the first len coefficients of the product, padded with zeros. Settings that are too narrow for the product are an error. eval_at gives the value of the polynomial.",
  "all pairs of polynomials, all lengths, all settings",
  "The choice of method depends on the sizes, and the size that goes wrong needs a product of 2^30 coefficients.",
  [M+"kzg10.rs: mul_direct, mul_fft, mul, mul_, pad_coeffs, eval_at"])
p("Division of polynomials of mcl-kzg",
  "long_division and fast_div return the Euclidean quotient, with one coefficient for each power up to the difference of the lengths, for every divisor whose last coefficient is not zero, and an error for all others. div does so for every divisor that is not the zero polynomial, also with zeros on top.",
  "all pairs of polynomials",
  "Three methods and a threshold; the quotient is checked against random polynomials only.",
  [M+"kzg10.rs: long_division, fast_div, div, normalise_coeffs, flip_coeffs"])
p("Inverse power series of mcl-kzg",
  "inverse(n) of a polynomial with nonzero constant term returns n coefficients whose product with the polynomial is 1 modulo x^n. A zero constant term is an error. The empty polynomial and n = 0 give the empty polynomial.",
  "all polynomials, all n",
  "The iteration doubles the length along the bits of n - 1; each n takes another path.",
  [M+"kzg10.rs: inverse"])
p("Extension of data of mcl-kzg",
  "das_fft_extension returns the odd values of the polynomial of degree below n with the given even values. Empty lists, lengths that are no power of two and lengths above half the width are errors, for the method and for the trait function.",
  "all lists, all settings",
  "Unbounded list lengths and 2^254 values per entry.",
  [M+"das.rs: das_fft_extension", M+"trait_implementations/das.rs: das_fft_extension"])
p("Zero polynomials of mcl-kzg",
  "For a domain of D points and a list of missing positions below D, not empty and not all, zero_poly_via_multiplication returns the D coefficients of the product of the x - w^i over the missing i and its D values; value j is zero exactly for missing j. The two helpers return the products of linear factors and of polynomials. Everything missing, a domain that is too wide or no power of two is an error.",
  "all settings, all domain sizes, all lists of positions",
  "The reduction tree depends on the number of missing positions; tests use a few sizes.",
  [M+"zero_poly.rs: zero_poly_via_multiplication, reduce_partials, do_zero_poly_mul_partial, pad_poly"])
p("Recovery of mcl-kzg",
  "For every polynomial of degree below half of the domain and every erasure of at least one and at most half of its values, recover_from_samples returns all values.",
  "all settings, all power-of-two domains up to the width, all polynomials, all erasure patterns",
  "There are exponentially many erasure patterns.",
  [M+"data_recovery.rs: recover_from_samples, shift_in_place, unshift_in_place", M+"trait_implementations/poly.rs: recover_poly_from_samples"])
p("Recovery of mcl-kzg agrees with the samples",
  "Whenever recovery returns data, the data agrees with every sample that was present and is the only consistent codeword.",
  "all settings, every sample list whatever its origin",
  "The code does not compare its result with the samples, so a wrong result would go unnoticed.",
  [M+"data_recovery.rs: recover_from_samples"])
p("Recovery of mcl-kzg with the parallel feature",
  "With the parallel feature recovery returns what it returns without.",
  "all settings, all sample lists",
  "The feature replaces the factors by a table of fixed size; a test of the feature runs on one size.",
  [M+"data_recovery.rs: shift_in_place, unshift_in_place, recover_from_samples"])
p("Trusted setup and settings of mcl-kzg",
  "generate_trusted_setup and Curve::new return the powers of the secret times the generators of both groups; the 32 secret bytes are four big-endian words, the lowest first, and a secret not below the group order panics. KZGSettings::new keeps the first length points, returns an error for a setup or length below the width, and panics for a length above a long enough setup.",
  "all secrets, lengths and settings",
  "Secrets are 256 bits; a wrong byte order is visible only against another implementation.",
  [M+"kzg10.rs: Curve::new", M+"kzg_settings.rs: generate_trusted_setup, KZGSettings::new, new_from_curve", M+"trait_implementations/fr.rs: from_scalar"])
p("Commitments and single proofs of mcl-kzg",
  "A commitment is p(s) times the generator if p fits the setup and an error otherwise. The proof at x is the commitment to the quotient by X - x. The check accepts the commitment, proof and point with the value p(x) and with no other value; away from the secret exactly one proof is accepted for each claimed value.",
  "all setups, polynomials, points, claimed values, commitments and proofs",
  "Soundness is about all false values; completeness about all lengths, also those beyond the setup.",
  [M+"kzg10.rs: commit, gen_proof_at, is_proof_valid, verify_pairing", M+"trait_implementations/kzg_settings.rs: commit_to_poly, compute_proof_single, check_proof_single"])
p("Proofs for several points of mcl-kzg",
  "The multi proof is the commitment to the quotient by X^n - x^n. For every polynomial that fits the setup it is accepted with the n values on the coset; arbitrary commitments, proofs and values are accepted exactly if the interpolating polynomial satisfies the equation in the secret.",
  "all setups, polynomials, nonzero points, powers of two n and value lists",
  "Lists of n field elements; the size equal to the setup length is not among the tests.",
  [M+"kzg_settings.rs: compute_proof_multi, check_proof_multi"])
p("Amortised single proofs of mcl-kzg (FK20)",
  "For a polynomial of n coefficients, n a power of two, and settings made for 2n, fk20_single_dao_optimized returns the 2n single proofs at the powers of the 2n-th root, and dau_using_fk20_single the same in bit-reversed order. Settings exist for the powers of two from 2 to the width; other sizes and other polynomial lengths are errors, size and length 0 panic.",
  "all setups, sizes and polynomials",
  "Each size runs a transform of another depth; the tests compare one or two sizes.",
  [M+"fk20_matrix.rs: FK20SingleMatrix, toeplitz_part_1, toeplitz_part_2, toeplitz_part_3, toeplitz_coeffs_step_strided", M+"trait_implementations/fk20.rs"])
p("Amortised multi proofs of mcl-kzg (FK20)",
  "For a polynomial of n coefficients and settings made for 2n and chunk length l, dau_using_fk20_multi returns the 2n/l multi proofs for l values in bit-reversed order; fk20_multi_dao_optimized, given the polynomial with any n coefficients appended, returns them in order. Settings exist for powers of two with 2l up to n2 and n2 up to the width.",
  "all setups, sizes, chunk lengths and polynomials",
  "Two sizes interact through strides and offsets; tests use a few pairs.",
  [M+"fk20_matrix.rs: FK20Matrix, x_ext_fft_precompute, fk20_multi_dao_optimized, dau_using_fk20_multi, extend"])
p("Amortised proofs of mcl-kzg for every accepted polynomial",
  "Whenever the amortised computation returns a list, the list consists of the proofs of the polynomial.",
  "all settings, all polynomials, also of other lengths than the settings were made for",
  "The tests use the length the settings were made for.",
  [M+"fk20_matrix.rs: fk20_single_dao_optimized, fk20_multi_dao_optimized, dau_using_fk20_multi"])
A="Arkworks/src/"
p("Settings of the Arkworks backend",
  "For every scale below 32 new succeeds; the root has order 2^scale, the forward table holds its powers, the reverse table the powers backwards, and the settings equal those of blst-from-scratch for the same scale. Larger scales are an error, default is scale zero without roots, a clone is equal to the original.",
  "all scales",
  "Scales up to 31 have tables of 2^31 entries; agreement with another backend is not tested.",
  [A+"kzg_proofs.rs: expand_root_of_unity, FFTSettings::from_scale", A+"kzg_types.rs: FFTSettings::new, default, Clone"])
p("Field transforms of the Arkworks backend",
  "fft_fr evaluates at the powers of the root of the size (and inverse interpolates), both are mutual inverses, sizes that are no power of two or exceed the width are errors. fft_fr_fast and fft_fr_slow compute the same for every argument.",
  "all settings, sizes, inputs, directions, strides and root lists",
  "All powers of two up to 2^31 and all field values; argument lists of the low level functions are never varied.",
  [A+"fft.rs: fft_fr, fft_fr_fast, fft_fr_slow"])
p("Point transforms and linear combinations of the Arkworks backend",
  "fft_g1 is the transform with point outputs and its inverse; fft_g1_fast and fft_g1_slow agree for every input; a linear combination is the sum of the products.",
  "all settings, sizes, points, directions",
  "All sizes, including length one, and all points.",
  [A+"fft_g1.rs: fft_g1, fft_g1_fast, fft_g1_slow, g1_linear_combination, make_data"])
p("Field element interface of the Arkworks backend",
  "from_u64_arr and to_u64_arr are inverse to each other for every four words; null is a marker that no element equals; inverse and div are those of the field; eucl_inverse is the inverse.",
  "all words and elements",
  "256-bit inputs; the behaviour at and above the modulus is not tested.",
  [A+"kzg_types.rs: FsFr"])
p("Evaluation and products of the Arkworks backend",
  "eval is the value of the polynomial; mul_direct, mul_fft and mul return the first len coefficients of the product, as a list of len coefficients.",
  "all coefficient lists, lengths and settings",
  "Zero polynomials, trailing zeros and lengths around 64 and 128 multiply the cases.",
  [A+"poly.rs: poly_mul, poly_mul_direct, poly_mul_fft", A+"kzg_types.rs: Poly::eval"])
p("Inverse and division of the Arkworks backend",
  "inverse returns the power series inverse modulo x^len; fast_div, long_div and div return the quotient of the division with remainder.",
  "all polynomials and lengths",
  "Coefficient lists with trailing zeros and lengths that are not near powers of two are not tested.",
  [A+"poly.rs: poly_inverse, poly_long_div, poly_fast_div, poly_flip", A+"kzg_types.rs: Poly::div"])
p("Zero polynomials of the Arkworks backend",
  "For every power-of-two domain within the width and every nonempty proper set of positions the call returns the coefficients of the product of the x - w^i and its evaluations, zero exactly at the positions.",
  "all scales, domains and sets of positions",
  "Sets are exponentially many; the reduction has several rounds only for large sets.",
  [A+"zero_poly.rs: do_zero_poly_mul_partial, reduce_partials, zero_poly_via_multiplication"])
p("Recovery of the Arkworks backend",
  "For every power-of-two domain within the width, every polynomial of degree below half the domain and every erasure of one up to half of the evaluations, recovery returns all original evaluations.",
  "all scales, domains, polynomials, erasure patterns",
  "Exponentially many patterns on domains up to 2^31.",
  [A+"recover.rs: recover_poly_from_samples, scale_poly, unscale_poly"])
p("Recovery of the Arkworks backend: soundness and outcome",
  "Whatever the samples: data that is returned agrees with all of them and is the only consistent codeword; the call returns data exactly for supported lengths and numbers of erasures, returns an error exactly for lengths that are no power of two, and panics otherwise.",
  "all settings and sample lists",
  "About arbitrary values, also inconsistent ones.",
  [A+"recover.rs: recover_poly_from_samples"])
p("Shared scaling tables of the Arkworks backend, calls one at a time",
  "With the parallel feature, whatever calls came before, recovery returns what it returns without the feature, and the scaling functions divide and multiply coefficient i by 5^i (scaling: nonempty polynomials).",
  "all sequences of earlier calls, all samples and polynomials",
  "The tables persist in the process; tests do not vary what ran before.",
  [A+"recover.rs: scale_poly, unscale_poly, INVERSE_FACTORS, UNSCALE_FACTOR_POWERS"])
p("Shared scaling tables of the Arkworks backend, concurrent calls",
  "Any number of concurrent calls, however interleaved, scale their polynomials.",
  "all schedules of all numbers of threads",
  "A race needs a particular interleaving at the first use in the process.",
  [A+"recover.rs: scale_poly, unscale_poly"])
p("Data availability extension of the Arkworks backend",
  "das_fft_extension maps the values of a polynomial of degree below n at the even powers of the 2n-th root to its values at the odd powers; the empty list, lengths that are no power of two and those above half the width are errors.",
  "all settings, sizes, values",
  "All sizes up to 2^30 and all values.",
  [A+"das.rs: das_fft_extension, das_fft_extension_stride"])
p("Trusted setup of the Arkworks backend",
  "generate_trusted_setup returns, for every secret and length, the powers of the secret times the generators in G1 and G2; a secret that is not below the group order is refused with a panic.",
  "all secrets and lengths",
  "The tests only check that proofs verify, which also holds for settings that ignore the secret.",
  [A+"kzg_proofs.rs: generate_trusted_setup, generate_trusted_setup_test, read_be_u64"])
p("Settings of the Arkworks backend",
  "KZGSettings::new keeps the points it is given, so that the settings belong to the secret of the setup; a clone equals the original.",
  "all lists of points, lengths and FFT settings",
  "Settings with another secret behave alike in every test that uses a single settings object.",
  [A+"kzg_proofs.rs: new_kzg_settings, generate_rng_seed, setup, default_kzg", A+"kzg_types.rs: KZGSettings::new, Clone, default"])
p("Commitments and single proofs of the Arkworks backend",
  "With settings made with length L >= 1, the commitment of every polynomial of at most L coefficients is its value at the secret of the settings times the generator, longer ones than L+1 panic; the proof at every point is accepted with the value of the polynomial and with no other value; a proof is accepted exactly if it satisfies the verification equation, and away from the secret exactly one is.",
  "all settings, polynomials, points, values, commitments and proofs",
  "About all field elements; the polynomials with one coefficient more than L are not tested.",
  [A+"kzg_proofs.rs: commit_to_poly, compute_proof_single, check_proof_single, trim, open", A+"kzg_types.rs: KZGSettings::commit_to_poly"])
p("Proofs for several points of the Arkworks backend",
  "For every polynomial that fits the settings, nonzero point x and power of two n within the width and not above the length, the multi proof is the commitment to the quotient by X^n - x^n and is accepted with the values on the coset of x; it is accepted exactly if it satisfies the verification equation.",
  "all settings, polynomials, points, sizes, values, commitments and proofs",
  "Zero polynomials, full size and sizes from 128 on are not tested.",
  [A+"kzg_proofs.rs: compute_proof_multi, check_proof_multi"])
p("FK20 single proofs of the Arkworks backend",
  "For every polynomial of n = 2^m coefficients, with settings for 2n, the amortised computation returns 2n proofs, proof j is the one for the j-th power of the 2n-th root alone and is accepted; data_availability returns them in bit-reversed order; other sizes are errors.",
  "all settings, sizes and polynomials",
  "All sizes and all polynomials; tests use one size.",
  [A+"fk20_proofs.rs: KzgFK20SingleSettings, fk20_single_da_opt, toeplitz_part_1, toeplitz_part_2, toeplitz_part_3, toeplitz_coeffs_step"])
p("FK20 multi proofs of the Arkworks backend",
  "For every polynomial of n = 2^(m+c) coefficients, with settings for 2n and chunk length l = 2^c, the amortised computation returns 2n/l proofs, proof j is the multi proof for l points at the j-th power of the 2n-th root and is accepted with the values on its coset; data_availability returns them in bit-reversed order; other sizes are errors.",
  "all settings, sizes, chunk lengths and polynomials",
  "All sizes, chunk lengths and polynomials; tests use few sizes.",
  [A+"fk20_proofs.rs: KzgFK20MultiSettings, fk20_multi_da_opt, toeplitz_coeffs_stride"])
p("FK20 of the Arkworks backend with mismatched sizes, clones and defaults",
  "Whatever the length of the polynomial, a list that is returned consists of its proofs; cloned FK20 settings work like the original.",
  "all settings, sizes and polynomials",
  "Tests always use the size the settings were made for and never clone them.",
  [A+"fk20_proofs.rs: fk20_single_da_opt, fk20_multi_da_opt, Clone, default"])
p("Conversions between zkcrypto and blst",
  "The conversion functions keep the value: scalars, words, base field elements, polynomials and points of the one library become those of the same value in the other, and the round trip is the identity.",
  "all scalars, field elements, polynomials and points",
  "The functions are public and called by no test.",
  ["zkcrypto/src/utils.rs: zk_fr_into_blst_fr, blst_fr_into_zk_fr, blst_fp_into_zk_fp, zk_fp_into_blst_fp, blst_poly_into_zk_poly, pc_poly_into_blst_poly, zk_g1projective_into_blst_p1, blst_p1_into_zk_g1projective"])
p("Generators and identities of all backends",
  "The generator, negated generator and identity constants of blst-from-scratch, ckzg, zkcrypto, Arkworks and mcl-kzg, in Jacobian or homogeneous coordinates and as decimal strings, stand for the same points g, -g, 0 of the same curves.",
  "all constants; finitely many words of up to 384 bits",
  "A wrong limb of a constant that no test multiplies with goes unnoticed.",
  ["blst-from-scratch/src/consts.rs", "ckzg/src/consts.rs: G1_NEGATIVE_GENERATOR, G2_NEGATIVE_GENERATOR", "zkcrypto/src/consts.rs", "Arkworks/src/consts.rs", "mcl-kzg/kzg/src/consts.rs"])
p("Integer helpers and root expansion of ckzg",
  "log_2, is_power_of_2, next_pow_of_2 and log_2_byte compute what their names say on all words where the result fits, and panic at 0 respectively beyond 2^63; both expansions of a root of unity of order N are its N+1 powers; the first refuses elements without a small order.",
  "all 64-bit words, all fields, all orders",
  "All words and all orders.",
  ["ckzg/src/utils.rs", "ckzg/src/consts.rs: expand_root_of_unity, expand_root_of_unity_mcl"])
p("Setup, test data and scales of ckzg",
  "generate_trusted_setup returns the powers of the secret times both generators, as blst-from-scratch does; entry i of make_data is i+1 times the generator; FFTSettings::new passes the scale on to the library.",
  "all secrets, lengths and scales",
  "Transforms of constant data also round trip, so tests do not notice that make_data returns one point only.",
  ["ckzg/src/kzgsettings.rs: generate_trusted_setup", "ckzg/src/fftsettings.rs: make_data, FFTSettings::new"])
p("Buffers and answers of ckzg",
  "Whatever the C library does within the lengths it is given, no function of ckzg lets it touch memory outside of a buffer, and each returns Ok with what the library computed exactly if the library reported success, and its code otherwise.",
  "all libraries, all arguments",
  "Memory errors at the boundary need not be visible in a test; the library is linked as a binary.",
  ["ckzg/src/fftsettings.rs", "ckzg/src/poly.rs", "ckzg/src/kzgsettings.rs", "ckzg/src/fk20settings.rs", "ckzg/src/finite.rs: linear_combination_g1"])
p("Ownership of memory in ckzg",
  "No program that the compiler accepts frees the memory behind a polynomial or settings twice, frees memory that was never allocated, reads memory after it was freed, or leaks it.",
  "all sequences of constructions, clones, defaults, uses and drops of all kinds of values",
  "Double frees need clones, defaults or failing calls, which tests avoid.",
  ["ckzg/src/poly.rs: KzgPoly, Drop", "ckzg/src/fftsettings.rs: KzgFFTSettings, Drop", "ckzg/src/kzgsettings.rs: KzgKZGSettings, Drop", "ckzg/src/fk20settings.rs: KzgFK20SingleSettings, KzgFK20MultiSettings, Drop"])
p("The field interface of zkcrypto",
  "The 20 functions of the trait Fr, as implemented on Scalar words, compute in the field of order r: constants, integers and four words modulo r, the canonical words, comparisons, sums, products, squares, differences, powers with every 64-bit exponent, inverses of nonzero elements by both functions, quotients with zero for a division by zero; null is recognised and no element is taken for it.",
  "all elements, words and exponents",
  "The shared tests ask for single values; inverses, powers and words are never asked for near r.",
  ["kzg/src/lib.rs: Fr", "zkcrypto/src/zkfr.rs: impl Fr for blsScalar"])
p("The field interface of blst-from-scratch",
  "The functions of the trait Fr, as implemented for FsFr, keep the same contract: arithmetic, words, comparisons, powers, inverses, division by zero, and null is no element.",
  "all elements, words and exponents",
  "The one element that is taken for null is met by no test.",
  ["kzg/src/lib.rs: Fr", "blst-from-scratch/src/types/fr.rs: impl Fr for FsFr"])
p("The field interface of mcl-kzg",
  "The functions of the trait Fr, as implemented for mcl's Fr, keep the same contract, whatever the library does for the inverse of zero.",
  "all elements, words and exponents",
  "No test takes the power zero, words from r on or eucl_inverse.",
  ["kzg/src/lib.rs: Fr", "mcl-kzg/kzg/src/trait_implementations/fr.rs"])
p("The field interfaces of ckzg and Arkworks",
  "The functions of the trait Fr, as implemented for BlstFr (ckzg) and for Arkworks' FsFr, keep the same contract.",
  "all elements, words, exponents, and all C libraries",
  "Unimplemented functions are simply not called in the tests of the backend.",
  ["kzg/src/lib.rs: Fr", "ckzg/src/finite.rs: impl Fr for BlstFr", "Arkworks/src/kzg_types.rs: impl Fr for FsFr"])
p("The field interfaces of the backends agree",
  "Calls of the trait Fr with arguments that stand for the same residues give results that stand for the same residues in blst-from-scratch, zkcrypto, Arkworks and mcl-kzg.",
  "all elements, words and exponents",
  "No test compares two backends.",
  ["kzg/src/lib.rs: Fr", "blst-from-scratch/src/types/fr.rs", "zkcrypto/src/zkfr.rs", "Arkworks/src/kzg_types.rs", "mcl-kzg/kzg/src/trait_implementations/fr.rs"])
p("The group interfaces of zkcrypto",
  "The functions of the traits G1, G2, G1Mul and G2Mul, as implemented on projective coordinates, compute in the groups: default and identity, generators, sums also of equal and opposite points without changing the first argument, doubles, differences, comparison, the test for the identity, products with every scalar for the points of order r.",
  "all coordinates, points and scalars",
  "About all coordinates of all points; equal and opposite points and the identity take separate branches.",
  ["kzg/src/lib.rs: G1, G1Mul, G2, G2Mul", "zkcrypto/src/kzg_types.rs: impl G1 for ZkG1Projective, impl G2 for ZkG2Projective"])
p("The group interfaces of Arkworks",
  "The functions of the traits G1, G2, G1Mul and G2Mul, as implemented on Jacobian coordinates, keep the same contract.",
  "all coordinates, points and scalars, all coordinates the library may choose",
  "No test looks at the first argument of a sum again or at the default of the second group.",
  ["kzg/src/lib.rs: G1, G1Mul, G2, G2Mul", "Arkworks/src/kzg_types.rs: impl G1 for ArkG1, impl G2 for ArkG2"])
p("The group interfaces of blst-from-scratch and mcl-kzg",
  "The functions of the traits G1, G2, G1Mul and G2Mul of both backends keep the same contract, given libraries that compute in the groups.",
  "all points and scalars",
  "About all points; blst-from-scratch passes the scalar with a bit length computed from its bytes and treats 0 and 1 apart.",
  ["kzg/src/lib.rs: G1, G1Mul, G2, G2Mul", "blst-from-scratch/src/types/g1.rs", "blst-from-scratch/src/types/g2.rs", "mcl-kzg/kzg/src/trait_implementations/g1.rs", "mcl-kzg/kzg/src/trait_implementations/g2.rs"])
p("Random elements of the zkcrypto backend",
  "Whatever the generator answers, the random field elements are reduced and are the 768-bit or 512-bit number in the bytes modulo the modulus; a random point of G1 or G2 is a curve point of order exactly r. Every field element and every point of order r can come out, and an iteration of the point loop is repeated exactly when no point has the drawn coordinate or its order divides the cofactor that is cleared.",
  "all answers of the generator, all loop counts",
  "The tests draw some elements from one seeded generator; the rejected iterations (point of small order) never happen in a test.",
  ["zkcrypto/src/curve/fp.rs: random", "zkcrypto/src/curve/fp2.rs: random", "zkcrypto/src/curve/scalar.rs: Field::random", "zkcrypto/src/curve/g1.rs: Group::random", "zkcrypto/src/curve/g2.rs: Group::random"])
p("The constants and small functions of the scalar field traits of zkcrypto",
  "NUM_BITS and CAPACITY are the exact bit lengths, S the exact power of two in r - 1, multiplicative_generator generates all nonzero elements and is no square, root_of_unity is its power of order exactly 2^S; is_odd is the parity of the canonical integer; Sum adds any number of scalars.",
  "all scalars, all lists of scalars",
  "That seven generates the field is a statement about 2^255 powers.",
  ["zkcrypto/src/curve/scalar.rs: impl PrimeField for Scalar, impl Sum"])
p("The groups of BLS12-381 satisfy what the model assumes of the libraries",
  "The points of order dividing r of the two curves, with the generators of the code, scalar multiplication by canonical integers and the pairing computed by zkcrypto, satisfy every law that the theorems about blst-from-scratch, mcl-kzg and Arkworks assume of their libraries. So those theorems hold for the real groups, and the hypotheses are not contradictory.",
  "all points of order r of both curves, all scalars",
  "Tests run one library; that the assumed laws can hold together is not observable.",
  ["blst-from-scratch/src/kzg_proofs.rs", "mcl-kzg/kzg/src/kzg10.rs", "Arkworks/src/kzg_proofs.rs", "zkcrypto/src/curve/pairings.rs"])
p("Commitments and single proofs are interchangeable between backends",
  "With the same secret, blst-from-scratch, zkcrypto, mcl-kzg and Arkworks return the same commitment and the same single proof for every polynomial that fits, and give the same answer for every commitment, proof, point and value; so what one backend makes every other accepts, with exactly the value of the polynomial.",
  "all secrets, lengths, polynomials, points, values, commitments and proofs in the group, all coordinates that stand for them",
  "No test passes data between backends.",
  ["blst-from-scratch/src/types/kzg_settings.rs: commit_to_poly, compute_proof_single, check_proof_single", "zkcrypto/src/kzg_proofs.rs: commit_to_poly, compute_proof_single, check_proof_single", "mcl-kzg/kzg/src/kzg10.rs: commit, gen_proof_at", "mcl-kzg/kzg/src/kzg_settings.rs: check_proof_single", "Arkworks/src/kzg_proofs.rs: commit_to_poly, compute_proof_single, check_proof_single"])
p("Multi proofs are interchangeable between backends",
  "With the same secret the four backends return the same proof for 2^m points, use the same cosets, and give the same answer for every commitment, proof, nonzero point and list of 2^m values.",
  "all secrets, settings, numbers of points, polynomials, values, commitments and proofs in the group",
  "No test passes data between backends; each backend checks its own cosets.",
  ["blst-from-scratch/src/types/kzg_settings.rs: compute_proof_multi, check_proof_multi", "zkcrypto/src/kzg_proofs.rs: compute_proof_multi, check_proof_multi", "mcl-kzg/kzg/src/kzg_settings.rs: compute_proof_multi, check_proof_multi", "Arkworks/src/kzg_proofs.rs: compute_proof_multi, check_proof_multi"])
p("Transforms are interchangeable between backends",
  "For every scale the constructors of the settings succeed or fail together and make the same roots of unity. Every list of field elements has the same transform in both directions and the same extension in all four backends, or is refused by all; the same holds for lists of points.",
  "all scales, lists, directions, all coordinates that stand for the points",
  "No test passes data between backends; each compares its results with its own roots.",
  ["blst-from-scratch/src/fft_fr.rs: fft_fr", "blst-from-scratch/src/fft_g1.rs: fft_g1", "zkcrypto/src/fft_fr.rs: fft_fr", "zkcrypto/src/fft_g1.rs: fft_g1", "mcl-kzg/kzg/src/fk20_fft.rs", "Arkworks/src/fft.rs: fft_fr", "Arkworks/src/fft_g1.rs", "Arkworks/src/das.rs"])
p("Amortised proofs are interchangeable between backends",
  "With the same secret the four backends can make the settings for amortised single and multi proofs of the same sizes and return the same lists of proofs for every polynomial, in natural and in bit-reversed order.",
  "all secrets, settings, polynomials, sizes and chunk lengths",
  "No test passes data between backends; the expected proofs are made by the tested backend.",
  ["blst-from-scratch/src/fk20_proofs.rs", "zkcrypto/src/fk20.rs", "mcl-kzg/kzg/src/fk20_matrix.rs", "Arkworks/src/fk20_proofs.rs"])
p("Samples of one backend are recovered by the others",
  "For every list of samples with missing positions, the four backends return the same data or all refuse.",
  "all scales, lists of samples and positions of the missing ones",
  "No test passes data between backends; the coded data is always made by the tested backend.",
  ["blst-from-scratch/src/recovery.rs", "zkcrypto/src/recover.rs", "mcl-kzg/kzg/src/data_recovery.rs", "Arkworks/src/recover.rs"])
p("Polynomials keep their coefficients",
  "In every backend a new polynomial has the requested number of coefficients, all zero, and after any sequence of writes every coefficient is the value last written to it. Reading and writing outside the list panic. The default polynomial is zero: it has no coefficient, in Arkworks one.",
  "all sizes, positions, values and sequences of writes, four backends",
  "The tests write each coefficient once and never compare the defaults of the backends.",
  ["kzg/src/lib.rs: Poly", "blst-from-scratch/src/types/poly.rs: Poly for FsPoly", "zkcrypto/src/poly.rs: Poly for ZPoly", "mcl-kzg/kzg/src/trait_implementations/poly.rs", "Arkworks/src/kzg_types.rs: Poly for LPoly"])
p("Scaling a polynomial substitutes x/5",
  "The trait function scale replaces the polynomial p(x) by p(x/5) and unscale by p(5x), in every backend and for every number of coefficients; each undoes the other.",
  "all polynomials and points, four backends",
  "No test calls the trait functions; those of recovery are other functions.",
  ["kzg/src/lib.rs: Poly::scale, Poly::unscale", "blst-from-scratch/src/types/poly.rs: scale, unscale", "zkcrypto/src/poly.rs: scale, unscale", "mcl-kzg/kzg/src/trait_implementations/poly.rs: scale, unscale", "Arkworks/src/kzg_types.rs: scale, unscale"])
p("Polynomial arithmetic is interchangeable between backends",
  "Evaluation, both multiplications, the inverse and the three divisions of the polynomial trait return the same coefficients in the four backends for every input, or all refuse it.",
  "all polynomials, points and lengths",
  "No test compares backends, and the test polynomials have no zeros at the top, are not zero and have two or more coefficients.",
  ["kzg/src/lib.rs: Poly, FFTSettingsPoly", "blst-from-scratch/src/types/poly.rs", "zkcrypto/src/poly.rs", "mcl-kzg/kzg/src/kzg10.rs: Polynomial", "Arkworks/src/poly.rs"])
p("Settings of every scale show the right roots",
  "Through the trait FFTSettings, new accepts exactly the scales below 32; the settings have width 2^scale, and the accessors show the powers 0 to 2^scale of a root of that order and their inverses in the same order, position by position and as lists. Positions beyond panic. This holds in every backend.",
  "all scales and positions, four backends",
  "The tests use small scales and read positions inside the tables.",
  ["kzg/src/lib.rs: FFTSettings", "blst-from-scratch/src/types/fft_settings.rs", "zkcrypto/src/fftsettings.rs", "mcl-kzg/kzg/src/trait_implementations/fft_settings.rs", "Arkworks/src/kzg_types.rs: FFTSettings for LFFTSettings"])
p("Default FFT settings are those of scale 0",
  "FFTSettings::default returns settings of width 1 with the table [1, 1], with which a list of one element is transformed to itself, in every backend.",
  "four backends, all elements",
  "The tests use the defaults as placeholders only.",
  ["kzg/src/lib.rs: FFTSettings::default", "blst-from-scratch/src/types/fft_settings.rs: default", "zkcrypto/src/fftsettings.rs: default", "mcl-kzg/kzg/src/fk20_fft.rs: default", "Arkworks/src/kzg_types.rs: default"])
p("Copies of settings equal the originals",
  "In every backend a clone of FFT settings, of settings for commitments and of settings for amortised proofs equals the original.",
  "all settings, four backends",
  "No test compares a clone with its original.",
  ["kzg/src/lib.rs: Clone bounds", "blst-from-scratch/src/types/kzg_settings.rs: Clone", "zkcrypto/src/kzg_types.rs: Clone for LKZGSettings", "mcl-kzg/kzg/src/kzg_settings.rs", "Arkworks/src/kzg_types.rs: Clone for LKZGSettings"])
p("Default settings refuse polynomials with an error",
  "In every backend committing with default settings to a polynomial with at least one coefficient is an error, and so is asking default settings for amortised proofs of any polynomial.",
  "all polynomials, four backends",
  "No test computes with default settings.",
  ["kzg/src/lib.rs: KZGSettings::default, FK20SingleSettings::default, FK20MultiSettings::default", "blst-from-scratch/src/types/kzg_settings.rs: default", "zkcrypto/src/kzg_proofs.rs: default_kzg", "mcl-kzg/kzg/src/fk20_matrix.rs: default", "Arkworks/src/kzg_proofs.rs: default_kzg"])
p("The groups of ckzg keep the group contract",
  "If the functions of the C library do what they are named for, the points of ckzg keep the contract of the traits G1, G1Mul, G2 and G2Mul: default and identity are the point at infinity, the constants are the generators and their negatives, sums, doubles, differences, comparisons and products are right, adding leaves its argument alone, and a random point is a multiple of the generator, any of which can come out.",
  "all points of the curves, all scalars, all lawful C libraries",
  "The tests add and multiply a few points; the constants of the wrapper are not compared with those of the library.",
  ["kzg/src/lib.rs: G1, G1Mul, G2, G2Mul", "ckzg/src/finite.rs: impl G1 for BlstP1, impl G2 for BlstP2", "ckzg/src/consts.rs"])
p("Random elements are equally likely",
  "Through the traits, Fr::rand takes equally likely words to equally likely field elements, and G1::rand always returns a multiple of the generator, in blst-from-scratch and zkcrypto; Polynomial::random of mcl-kzg gives as many coefficients as asked for.",
  "all words of the random number generator, all field elements",
  "A test draws a few elements and cannot see how often each comes out.",
  ["kzg/src/lib.rs: Fr::rand, G1::rand", "blst-from-scratch/src/types/fr.rs: rand", "blst-from-scratch/src/types/g1.rs: rand", "zkcrypto/src/zkfr.rs: rand", "zkcrypto/src/kzg_types.rs: rand", "mcl-kzg/kzg/src/kzg10.rs: Polynomial::random"])
p("Few secrets let a wrong value through",
  "Fix two lists of at most N coefficients, a point and a value that is not the value of the first polynomial there. Among all secrets of a setup with N powers, at most N (two more if the library has no result for the infinite sums) make check_proof_single accept the commitment of the first as commitment and that of the second as proof. The bound is reached. This holds for blst-from-scratch, mcl-kzg, Arkworks and the debug build of zkcrypto.",
  "all lists of coefficients, all points, all wrong values, all sizes of setup",
  "A test draws one secret; how many of the 2^255 secrets would have accepted cannot be seen from it.",
  ["blst-from-scratch/src/types/kzg_settings.rs: commit_to_poly, check_proof_single, check_proof_multi", "zkcrypto/src/kzg_proofs.rs: commit_to_poly, check_proof_single, check_proof_multi", "mcl-kzg/kzg/src/kzg_settings.rs: check_proof_single, check_proof_multi", "Arkworks/src/kzg_proofs.rs: commit_to_poly, check_proof_single, check_proof_multi"])
p("Few secrets let a wrong value through a release build of zkcrypto",
  "The same bound holds for check_proof_single of zkcrypto when overflow checks are off.",
  "all lists of coefficients, all points, all wrong values, all sizes of setup",
  "The difference to the debug build shows only for about one value in 2^65.",
  ["zkcrypto/src/kzg_proofs.rs: check_proof_single", "zkcrypto/src/curve/g1.rs: multiply, glv_recoding"])
p("Few secrets let wrong values on a coset through",
  "Fix two lists of at most N coefficients, a coset of 2^m points and 2^m values, one of which is wrong for the first polynomial. Among all secrets of a setup with N powers, at most N + 2^m - 1 make check_proof_multi accept the commitment of the first as commitment and that of the second as proof.",
  "all lists of coefficients, all cosets, all lists of values with one wrong, all sizes of setup, all backends written in Rust",
  "A test draws one secret and changes one value.",
  ["blst-from-scratch/src/types/kzg_settings.rs: commit_to_poly, check_proof_single, check_proof_multi", "zkcrypto/src/kzg_proofs.rs: commit_to_poly, check_proof_single, check_proof_multi", "mcl-kzg/kzg/src/kzg_settings.rs: check_proof_single, check_proof_multi", "Arkworks/src/kzg_proofs.rs: commit_to_poly, check_proof_single, check_proof_multi"])
p("Few secrets give two polynomials one commitment",
  "Two lists of at most N coefficients that are different polynomials get equal commitments from commit_to_poly for at most N - 1 secrets of a setup with N powers.",
  "all pairs of different polynomials, all sizes of setup, all backends written in Rust",
  "A test draws one secret and a few polynomials.",
  ["blst-from-scratch/src/types/kzg_settings.rs: commit_to_poly, check_proof_single, check_proof_multi", "zkcrypto/src/kzg_proofs.rs: commit_to_poly, check_proof_single, check_proof_multi", "mcl-kzg/kzg/src/kzg_settings.rs: check_proof_single, check_proof_multi", "Arkworks/src/kzg_proofs.rs: commit_to_poly, check_proof_single, check_proof_multi"])
p("The shared test of single proofs passes for every input",
  "The program of proof_single (commit, prove, evaluate, check, change the value, check again) runs to its end with settings made from any secret, for every polynomial that fits and every point: no call panics or returns an error, the true value is accepted and the changed one is rejected.",
  "all polynomials that fit, all points, all secrets, all sizes of setup, all backends written in Rust",
  "The test fixes one polynomial of 16 coefficients, the point 25 and one secret.",
  ["kzg-bench/src/tests/kzg_proofs.rs: proof_single", "kzg/src/lib.rs: KZGSettings"])
p("The shared test of multi-point proofs passes for every input",
  "The program of proof_multi (commit with one settings value, prove with another of the size of the coset, evaluate, check, change one value, check again) runs to its end for every polynomial that fits, every coset that does not contain the secret or zero, and every position of the changed value.",
  "all polynomials that fit, all cosets, all positions, all secrets, all sizes, all backends written in Rust",
  "The test fixes one polynomial, the point 5431, eight values and position 4, and says itself that it was not verified.",
  ["kzg-bench/src/tests/kzg_proofs.rs: proof_multi", "kzg/src/lib.rs: KZGSettings"])
p("The shared tests of amortised single proofs pass for every input",
  "The programs of fk_single and fk_single_strided (commit, all proofs at once, check that the proofs are bit-reversed, check every proof against the value of the polynomial at its root of unity) run to their end for every polynomial of the length of the settings and every secret.",
  "all polynomials of the required length, all secrets, all sizes and strides, all backends written in Rust",
  "The tests fix one polynomial, one secret and one size.",
  ["kzg-bench/src/tests/fk20_proofs.rs: fk_single, fk_single_strided"])
p("The shared test of amortised chunk proofs passes for every input",
  "The program of fk_multi_case (commit, all chunk proofs at once, extend the polynomial, reverse the order, for every chunk compare the values with those of the polynomial, check the proof) runs to its end for every polynomial of the length of the settings, every length of chunks and every secret.",
  "all polynomials of the required length, all lengths of chunks, all secrets, all backends written in Rust",
  "The test fixes one pattern of coefficients, one secret and three lengths of chunks.",
  ["kzg-bench/src/tests/fk20_proofs.rs: fk_multi_case, reverse_bits_limited"])
p("The shared tests of recovery pass for every input",
  "The programs of recover_simple and recover_random (transform, erase the first positions of a shuffled list, recover, compare, transform back, compare) run to their end for all coefficients of the lower half, every order of the positions and every number of known values from half of the width to all but one.",
  "all coefficients, all permutations of the positions, all numbers of known values, all scales, all backends written in Rust",
  "The tests fix the coefficients 0, 1, 2, … and draw four permutations for each of ten numbers of known values.",
  ["kzg-bench/src/tests/recover.rs: recover_simple, recover_random, random_missing", "kzg/src/lib.rs: PolyRecover"])
p("The shared test of the extension passes for every input",
  "The program of das_extension_test_random (extend, interleave, transform back, compare the upper half with zero) runs to its end for every scale within the settings and all values.",
  "all values, all scales from 1 up to that of the settings, all backends written in Rust",
  "The test draws four lists for each of 15 scales.",
  ["kzg-bench/src/tests/das.rs: das_extension_test_random", "kzg/src/lib.rs: DAS"])
p("Texts and bytes of mcl-kzg",
  "get_str returns the text of every value, for the types Fr, Fp, Fp2, G1, G2 and GT and every base the library knows, and serialize its bytes; no call goes outside of its buffer. Operators hand their operands over in order, x += y gives x + y, from_str gives a value exactly if the library accepts the text, and the predicates hold exactly if the library returns one.",
  "all values, all libraries that keep to the buffers they are told about",
  "The tests print and serialise one value of each type; none prints an element of GT.",
  ["mcl-kzg/kzg/src/init_def.rs: serialize_impl, str_impl, int_impl, base_field_impl, add_op_impl, field_mul_op_impl", "mcl-kzg/kzg/src/mcl_methods.rs: get_field_order, get_curve_order, get_g1_serialized_size, init"])
p("Encodings of projective points of zkcrypto",
  "The bytes of GroupEncoding depend only on the point, not on its coordinates, and differ for different points. Reading them back gives an equal point with last coordinate 0 or 1; what from_bytes accepts is a point of the subgroup with exactly these bytes, and it refuses only bytes that no such point has. The recommended window grows with the number of scalars and stays between 4 and 16.",
  "all points of both groups in all coordinates, all byte strings of the right length, all numbers of scalars",
  "The tests of the traits encode a few multiples of the generator in affine coordinates.",
  ["zkcrypto/src/curve/g1.rs: GroupEncoding, WnafGroup", "zkcrypto/src/curve/g2.rs: GroupEncoding, WnafGroup"])
p("Chunks that pass their checks give the committed data",
  "Fix a polynomial of at most half as many coefficients as there are values, claimed values and proofs for chunks of 2^m positions each. At most N + 2^m - 1 secrets of a setup with N powers let check_proof_multi accept every chunk that has arrived, at least half of all, against the commitment without recover_poly_from_samples returning the values of the committed polynomial at all positions.",
  "all polynomials, claims, sizes of data and chunks, sets of missing chunks",
  "No test of the repository joins checks and recovery, and the tests of recovery use honest samples.",
  ["blst-from-scratch/src/types/kzg_settings.rs: check_proof_multi, commit_to_poly", "blst-from-scratch/src/recovery.rs: recover_poly_from_samples", "zkcrypto/src/kzg_proofs.rs: check_proof_multi", "zkcrypto/src/recover.rs: recover_poly_from_samples", "mcl-kzg/kzg/src/kzg_settings.rs: check_proof_multi", "mcl-kzg/kzg/src/trait_implementations/poly.rs: recover_poly_from_samples", "Arkworks/src/kzg_proofs.rs: check_proof_multi", "Arkworks/src/recover.rs: recover_poly_from_samples"])
p("Honest chunks are accepted and any half of them is enough",
  "For every polynomial of at most half as many coefficients as there are values, compute_proof_multi gives a proof for every chunk, check_proof_multi accepts the values of the chunk with it, and the values of any half of the chunks, with at least one missing, are completed to all values by recover_poly_from_samples.",
  "all polynomials, secrets, sizes of data and chunks, sets of missing chunks",
  "The tests of chunks and of recovery take one polynomial each, and recovery is never run on chunks.",
  ["blst-from-scratch/src/types/kzg_settings.rs: compute_proof_multi, check_proof_multi", "blst-from-scratch/src/recovery.rs: recover_poly_from_samples", "zkcrypto/src/kzg_proofs.rs: compute_proof_multi", "mcl-kzg/kzg/src/kzg_settings.rs: compute_proof_multi", "Arkworks/src/kzg_proofs.rs: compute_proof_multi"])
p("The shared tests of zero polynomials pass for every set of positions",
  "zero_poly_random, zero_poly_all_but_one and zero_poly_252 run to their end for every set of missing positions and every scale of the settings: zero_poly_via_multiplication succeeds, its polynomial evaluates to zero at every missing position, and the inverse transform of its values gives its coefficients.",
  "all scales and sets of missing positions",
  "zero_poly_random draws its sets from eight fixed seeds with scales 3 to 12; zero_poly_all_but_one runs with 256 positions.",
  ["kzg-bench/src/tests/zero_poly.rs: zero_poly_random, zero_poly_all_but_one, zero_poly_252", "blst-from-scratch/src/zero_poly.rs: zero_poly_via_multiplication", "zkcrypto/src/zero_poly.rs: zero_poly_via_multiplication", "mcl-kzg/kzg/src/zero_poly.rs: zero_poly_via_multiplication", "Arkworks/src/zero_poly.rs: zero_poly_via_multiplication"])
p("The shared test of partial products holds in every round, and says so",
  "For every order of the positions and every number of missing ones, from one to all but one, reduce_partials_random runs to its end, and every coefficient of reduce_partials that it compares is that of do_zero_poly_mul_partial. A backend with other products fails the test.",
  "all scales, orders of the positions and numbers of missing positions",
  "The test compares coefficients and drops the result of each comparison, so that it passes whatever is computed.",
  ["kzg-bench/src/tests/zero_poly.rs: reduce_partials_random, test_reduce_partials", "blst-from-scratch/src/zero_poly.rs: reduce_partials, do_zero_poly_mul_partial", "zkcrypto/src/zero_poly.rs: reduce_partials", "mcl-kzg/kzg/src/zero_poly.rs: reduce_partials", "Arkworks/src/zero_poly.rs: reduce_partials"])
p("The shared tests of transforms of scalars pass for all data and sizes",
  "compare_sft_fft, roundtrip_fft and stride_fft run to their end for all data and every size the settings can have: the slow and the fast transform agree, the inverse transform undoes the forward one, and settings of different sizes transform the same data alike. inverse_fft passes: its expected values are the inverse transform of 0, 1, …, 15.",
  "all data, all sizes of the tests",
  "The tests run with one size each (8 or 12, and 9 with 12) and with the data 0, 1, 2, ….",
  ["kzg-bench/src/tests/fft_fr.rs: compare_sft_fft, roundtrip_fft, inverse_fft, stride_fft", "blst-from-scratch/src/fft_fr.rs: fft_fr", "zkcrypto/src/fft_fr.rs: fft_fr", "Arkworks/src/fft.rs: fft_fr", "mcl-kzg/kzg/src/trait_implementations/fft_fr.rs: fft_fr"])
p("The shared tests of transforms of points pass for all data and sizes",
  "compare_ft_fft, compare_sft_fft, roundtrip_fft and stride_fft of fft_g1.rs run to their end for all points and every size the settings can have.",
  "all data, all sizes of the tests",
  "The tests run with one size each (6 or 10, and 9 with 12) and with multiples of the generator.",
  ["kzg-bench/src/tests/fft_g1.rs: compare_ft_fft, roundtrip_fft, stride_fft, compare_sft_fft", "blst-from-scratch/src/fft_g1.rs: fft_g1", "zkcrypto/src/fft_g1.rs: fft_g1", "Arkworks/src/fft_g1.rs: fft_g1", "mcl-kzg/kzg/src/trait_implementations/fft_g1.rs: fft_g1"])
p("The shared random tests of polynomials pass whatever is drawn",
  "poly_mul_random and poly_div_random run to their end for all coefficients and all positive lengths in all four backends: multiplication with transforms agrees with direct multiplication, and fast division with long division.",
  "all coefficients, all positive lengths",
  "The tests draw 256 pairs of polynomials with at most 1001 coefficients.",
  ["kzg-bench/src/tests/poly.rs: poly_mul_random, poly_div_random", "blst-from-scratch/src/types/poly.rs: mul_direct, poly_mul_fft, long_div, fast_div", "zkcrypto/src/poly.rs: mul_direct, poly_mul_fft, long_div, fast_div", "mcl-kzg/kzg/src/kzg10.rs: mul_fft, long_division, fast_div", "Arkworks/src/poly.rs: poly_mul_direct, poly_mul_fft, poly_long_div, poly_fast_div"])
p("The shared tests of polynomials with fixed values pass exactly with the right values",
  "create_poly_of_length_ten, poly_eval_check, poly_eval_0_check, poly_eval_nil_check, poly_inverse_simple_0 and _1 pass in all four backends for any length in place of theirs. A round of poly_test_div, poly_div_long_test, poly_div_fast_test, poly_mul_direct_test or poly_mul_fft_test whose operands do not end with zero passes exactly when the expected coefficients are right, and those of the tests are. poly_div_by_zero passes with any dividend.",
  "all lengths, coefficients and expected values in place of those of the tests",
  "The tests fix one length or six entries of a table.",
  ["kzg-bench/src/tests/poly.rs: create_poly_of_length_ten, poly_eval_check, poly_eval_0_check, poly_eval_nil_check, poly_inverse_simple_0, poly_inverse_simple_1, poly_test_div, poly_div_by_zero, poly_mul_direct_test, poly_mul_fft_test, poly_div_long_test, poly_div_fast_test", "Arkworks/tests/poly.rs: poly_div_by_zero_"])
p("The shared tests of field elements pass exactly with the right values",
  "With any values in place of theirs, fr_is_zero, fr_is_one, fr_equal_works, fr_negate_works, fr_from_uint64_works, fr_pow_works, fr_div_works, fr_div_by_zero, fr_uint64s_roundtrip and log_2_byte_works pass in every backend exactly when the values are right: the words differ, the word is the modulus less one, the words are below the modulus, the expected logarithm is right; powers agree with repeated products and quotients with products for every base, exponent and divisor but zero.",
  "all 64-bit numbers, all quadruples of words, all exponents",
  "The tests fix one value each, or draw one.",
  ["kzg-bench/src/tests/bls12_381.rs: log_2_byte_works, fr_is_null_works, fr_is_zero_works, fr_is_one_works, fr_equal_works, fr_negate_works, fr_pow_works, fr_div_works, fr_div_by_zero, fr_uint64s_roundtrip", "Arkworks/tests/bls12_381.rs: fr_div_by_zero_"])
p("The shared tests of points, linear combinations and pairings pass whatever is drawn",
  "p1_sub_works, p2_add_or_dbl_works, p2_sub_works, g1_identity_is_infinity and g1_identity_is_identity pass in every backend. p1_mul_works and p2_mul_works, taken with any scalar, pass exactly for the modulus less one. g1_make_linear_combination and g1_random_linear_combination pass for all lengths and all coefficients in the backends that run them. pairings_work, taken with any two factors, passes exactly when they differ.",
  "all scalars, lengths, coefficients and factors",
  "The tests fix the scalar, the lengths 255 and 8192 and the factors, and draw coefficients once.",
  ["kzg-bench/src/tests/bls12_381.rs: p1_mul_works, p1_sub_works, p2_add_or_dbl_works, p2_mul_works, p2_sub_works, g1_identity_is_infinity, g1_identity_is_identity, g1_make_linear_combination, g1_random_linear_combination, pairings_work", "mcl-kzg/kzg-bench/src/shared_tests/bls12_381.rs", "Arkworks/src/fft_g1.rs: g1_linear_combination"])
p("The shared tests of the tables of roots pass exactly for the right scales and tables",
  "With any table of 32 rows below the modulus, roots_of_unity_are_plausible passes in every backend exactly when each entry raised to its power of two is one, and expand_roots_is_plausible, taken with any scale below 32, exactly when the entry has the right order; each backend's own table passes both for every scale. new_fft_settings_is_plausible passes exactly for the scales below 32, and roots_of_unity_out_of_bounds_fails exactly for the others, except that mcl-kzg takes the scale modulo 256 first.",
  "all tables of 32 rows below the modulus, all scales, all earlier uses of the statics of mcl-kzg",
  "The tests take one table and the scales 32, 15 and 21.",
  ["kzg-bench/src/tests/consts.rs: roots_of_unity_is_the_expected_size, roots_of_unity_out_of_bounds_fails, roots_of_unity_are_plausible, expand_roots_is_plausible, new_fft_settings_is_plausible", "mcl-kzg/kzg-bench/src/shared_tests/consts.rs: expand_root_of_unityarr"])
p("The shared tests with precomputed values pass exactly with the right tables",
  "With any table of expected values, das_extension_test_known passes in every backend exactly when the rows are the values, at the odd powers of the root, of the polynomial that has the given values at the even powers; zero_poly_known passes exactly when the two tables are the values and the coefficients of the zero polynomial of the missing positions; check_test_data passes exactly when the tables belong to one polynomial that is zero at the missing positions and has no coefficient above the middle, which for half of the positions are the multiples of the zero polynomial, zero included; test_reduce_partials runs to its end, and would pass with assertions exactly when its lists have the same positions. The tables in the repository pass in all four backends. In mcl-kzg the three tests of zero polynomials are taken up to 2^30 positions.",
  "all settings of the trait, all values, all tables of rows below the modulus, all lists of positions",
  "The tests take one scale, one list of positions and one table; nothing says that the tables are right except the code that made them.",
  ["kzg-bench/src/tests/das.rs: das_extension_test_known", "kzg-bench/src/tests/zero_poly.rs: check_test_data, zero_poly_known, test_reduce_partials"])
p("The shared tests of commitments and of settings for multi proofs pass exactly with the right sizes",
  "With settings for N secrets and a zero polynomial of any length, commit_to_nil_poly passes exactly when the polynomial is no longer than the setup (one coefficient more in Arkworks). commit_to_too_long_poly_returns_err passes in blst-from-scratch and mcl-kzg exactly with longer ones, and never in Arkworks and zkcrypto. commit_to_too_long_poly panics in Arkworks and zkcrypto exactly with longer ones, with the message expected by the test, and passes with every length in the other two. fk_multi_settings passes exactly with a size and a chunk length that are powers of two, the chunk at most half of the size, the size at most the width, and, where the setup may be shorter than the width, with enough points.",
  "all lengths, all settings, all sizes; builds with and without overflow checks",
  "The tests take 16 secrets and the lengths 0 and 32, and the sizes 32 and 4; the bounds themselves are never tried.",
  ["kzg-bench/src/tests/kzg_proofs.rs: commit_to_nil_poly, commit_to_too_long_poly, commit_to_too_long_poly_returns_err", "kzg-bench/src/tests/fk20_proofs.rs: fk_multi_settings"])
p("Claims about one commitment that contradict each other break the assumption behind the scheme",
  "Take two claims about the same commitment, each accepted by check_proof_single or check_proof_multi, that give different values at a point a they have in common. Then dividing their polynomials by X - a gives coefficients, known to whoever knows the claims, with which the two proofs and the generator combine to 1/(s - a) times the generator. For two single proofs this is (proof - proof')/(y' - y), a computation with group operations alone. The element fits no other secret.",
  "all settings, commitments, proofs, points and values, single against single, single against multi and multi against multi, all four backends; in blst-from-scratch under the conditions of C27 and C29, in mcl-kzg up to 2^30 values, in zkcrypto for values without overflow (C54)",
  "That a forged proof would break an assumption about the group is a statement about all proofs; a test can only see that some changed value is refused.",
  ["blst-from-scratch/src/types/kzg_settings.rs: check_proof_single, check_proof_multi", "mcl-kzg/kzg/src/kzg_settings.rs: check_proof_single, check_proof_multi", "Arkworks/src/kzg_proofs.rs: check_proof_single, check_proof_multi", "zkcrypto/src/kzg_proofs.rs: check_proof_single, check_proof_multi"])
p("Accepted claims add up",
  "Given a claim about a commitment at a point (or on a coset) that is accepted, adding c times another claim at the same place, that is c times its commitment, proof and values, gives a claim that is accepted exactly if the other one is, for every nonzero c. So openings can be combined, and a false claim is not hidden by adding a true one.",
  "all settings, commitments, proofs, places, values and nonzero factors, single and multi, all four backends; conditions as in C188; single claims of zkcrypto with the factor one",
  "The shared tests check no sums of commitments or proofs.",
  ["blst-from-scratch/src/types/kzg_settings.rs: check_proof_single, check_proof_multi", "mcl-kzg/kzg/src/kzg_settings.rs: check_proof_single, check_proof_multi", "Arkworks/src/kzg_proofs.rs: check_proof_single, check_proof_multi", "zkcrypto/src/kzg_proofs.rs: check_proof_single, check_proof_multi"])
p("Extended data differ in more than half of the samples",
  "das_fft_extension of 2^m data gives 2^(m+1) samples, the data at the even positions and its result at the odd ones. The samples of different data differ in more than 2^m positions. This is the exact distance: for any 2^m - 1 positions there are other data whose samples agree exactly there. A list that differs from the samples of some data in at most a quarter of the positions does so for no other data.",
  "all settings, all m below the scale, all data, all four backends",
  "A statement about all pairs of data.",
  ["blst-from-scratch/src/data_availability_sampling.rs: das_fft_extension", "mcl-kzg/kzg/src/das.rs: das_fft_extension", "Arkworks/src/das.rs: das_fft_extension", "zkcrypto/src/das.rs: das_fft_extension"])
p("Extended data survive the loss of any half of the samples, and no more",
  "Any data of 2^m elements can be extended, and from the 2^(m+1) samples without at least one and at most 2^m of them, whichever these are, recovery returns all samples, with the data at the even positions. After the loss of more than 2^m samples there are always other data whose samples look the same; recovery does not notice: unless everything or more than 63 per 64 is lost it returns success with some list that agrees with what it got.",
  "all settings, all m below the scale, all data, all sets of lost positions, all four backends, mcl-kzg also with the parallel feature; in blst-from-scratch and in mcl-kzg in parallel up to 2^16 samples",
  "The shared test tries random losses of random data of some sizes; the promise of data availability sampling is about every half, and that more cannot be survived is about all data.",
  ["blst-from-scratch/src/data_availability_sampling.rs: das_fft_extension", "blst-from-scratch/src/recovery.rs: recover_poly_from_samples", "mcl-kzg/kzg/src/trait_implementations/poly.rs: recover_poly_from_samples", "Arkworks/src/recover.rs: recover_poly_from_samples", "zkcrypto/src/recover.rs: recover_poly_from_samples"])
p("Extending what recovery returned shows whether the samples belong to any data",
  "From any 2^(m+1) values, at least one and at most half of them missing, recovery returns a list that agrees with them. Extending the even half of that list gives its odd half exactly if there are data whose samples agree with the values. If the values are samples of some data with at most half of them missing or wrong, and at least one missing, this finds out whether one is wrong; if none is, the even half is the data.",
  "all settings, all m below the scale, all values, all missing positions, all four backends; in blst-from-scratch up to 2^16 samples",
  "No test hands recovery values that belong to no data; that one more extension tells such values from samples is about all values.",
  ["blst-from-scratch/src/data_availability_sampling.rs: das_fft_extension", "blst-from-scratch/src/recovery.rs: recover_poly_from_samples", "mcl-kzg/kzg/src/trait_implementations/poly.rs: recover_poly_from_samples", "Arkworks/src/recover.rs: recover_poly_from_samples", "zkcrypto/src/recover.rs: recover_poly_from_samples"])
p("The values written in the unit tests of the fields and curves come out",
  "Every assertion of the unit tests of fp.rs, fp2.rs and scalar.rs of zkcrypto that are not behind the zeroize feature holds, with the words written in the tests; so do those of the tests of doubling, projective and mixed addition and subgroup membership in g1.rs and g2.rs and of the endomorphism in g2.rs. Of the tests of debug output the bytes printed are stated, not the text. Where a test repeats an assertion for a hundred elements, it holds for every reduced one (for inversion: every one but zero, and none of the hundred is zero); of the hundred numbers of test_sqrt exactly 49 have no root.",
  "the fixed inputs of 54 unit tests; all reduced elements for the repeated assertions except those on square roots",
  "These are tests; that they pass on the model ties the model to numbers computed elsewhere, and the repeated assertions hold beyond the hundred inputs tried.",
  ["zkcrypto/src/curve/fp.rs: test_squaring", "zkcrypto/src/curve/fp2.rs: test_multiplication", "zkcrypto/src/curve/scalar.rs: test_sqrt", "zkcrypto/src/curve/g1.rs: test_projective_addition", "zkcrypto/src/curve/g2.rs: test_psi"])
p("Results for a combination are the combination of the results","For lists p and q of one length and scalars a and b, what is returned for a*p + b*q is a times what is returned for p plus b times what is returned for q: for the transforms in both directions, the extension and the amortised proofs, and for the commitments of mcl-kzg and Arkworks (C25 has those of blst-from-scratch). For zkcrypto: the transforms of scalars and the extension; with overflow checks, when the calls return, the amortised proofs of p and q add up to points equal to those of p + q.","all lists of lengths the functions accept, all scalars, settings of all scales, all secrets and points","Tests never call the functions on two related lists.",["blst-from-scratch/src/fft_fr.rs: fft_fr","blst-from-scratch/src/fft_g1.rs: fft_g1","blst-from-scratch/src/data_availability_sampling.rs: das_fft_extension","blst-from-scratch/src/types/fk20_single_settings.rs: data_availability_optimized","blst-from-scratch/src/types/fk20_multi_settings.rs: data_availability_optimized","mcl-kzg/kzg/src/trait_implementations: fft_fr, fft_g1, das_fft_extension, commit_to_poly, data_availability_optimized","Arkworks/src: fft_fr, fft_g1, das_fft_extension, commit_to_poly, data_availability_optimized","zkcrypto/src: fft_fr, das_fft_extension, data_availability_optimized"])
p("The remaining unit tests of the groups, towers and pairing of zkcrypto pass",
  "Every assertion of the unit tests of g1.rs, g2.rs, fp6.rs, fp12.rs and pairings.rs of zkcrypto that are neither commented out, nor behind the zeroize feature, nor part of C193 holds on the model, with the words written in the tests: curve membership, comparison, selection and conversion of points, negation, products with scalars, multiplication by the curve parameter, clearing of the cofactor, normalisation, the laws of the two extension fields, and bilinearity and products of pairings. No call panics, with or without overflow checks. The laws of the extension fields hold for all elements, and twelve Frobenius maps are the identity on all of them. Normalisation is also right with the identity in any of the three places; the loops of the test, which run over 0..1, never put it there.",
  "the fixed inputs of 35 unit tests; all elements for the laws of the extension fields",
  "These are tests; that they pass on the model ties the model to points and field elements chosen by the authors. The test of normalisation does not try what its loops are written for.",
  ["zkcrypto/src/curve/g1.rs: test_clear_cofactor", "zkcrypto/src/curve/g2.rs: test_batch_normalize", "zkcrypto/src/curve/fp12.rs: test_arithmetic", "zkcrypto/src/curve/pairings.rs: test_multi_miller_loop"])
p("For which sizes proofs for several points can be computed",
  "For n = 2^m points compute_proof_multi has no bound on the polynomial if n is at most 64. From 128 points on it returns the commitment to the quotient, which check_proof_multi accepts with the values on the coset, exactly up to these sizes. blst-from-scratch, and zkcrypto for nonzero polynomials and counting the coefficients without zeros on top: fewer than n + 128 coefficients, or twice as many at most 2^31 + 1 + n; it panics for more. Arkworks, for any number of points from 127 on: a quotient of at most 2^30 coefficients, and not a zero polynomial of n + 2 to n + 127 coefficients; otherwise it panics. mcl-kzg: a quotient of at most 2^29 coefficients; up to 2^30 it returns the negative of the proof, the proof, or the commitment to other coefficients, by stated sizes, and panics beyond 2^30. The negative is refused unless the proof is zero or the secret lies on the coset.",
  "all polynomials, up to 2^62 coefficients where a panic is stated, that fit the setup where a proof is; all points x (not 0 for the check), all setups",
  "A test of these sizes would need setups of more than 2^29 points.",
  ["blst-from-scratch/src/types/kzg_settings.rs: compute_proof_multi", "blst-from-scratch/src/types/poly.rs: fast_div", "blst-from-scratch/src/utils.rs: log2_pow2", "zkcrypto/src/kzg_proofs.rs: compute_multi", "Arkworks/src/kzg_proofs.rs: compute_proof_multi", "mcl-kzg/kzg/src/kzg_settings.rs: compute_proof_multi"])
p("For which sizes polynomials can be multiplied, inverted and divided",
  "Within these sizes the result is right, beyond them the call panics. blst-from-scratch and zkcrypto: the product of nonempty lists, if both have at least 64 coefficients and at least 128 are asked for, needs lengths that add up to at most 2^31 + 1 (poly_mul_fft of blst-from-scratch always does). The inverse of a list of two or more coefficients with nonzero constant term to n coefficients, n at least 128, needs n at most 2^30 and n plus the length at most 2^31 + 1. A division with at least 128 coefficients of divisor and of quotient needs twice the length of the dividend to be at most 2^31 plus that of the divisor; the last coefficient of the divisor is nonzero (blst-from-scratch), or lengths are counted without zeros on top (zkcrypto). Arkworks: the product with transforms and without settings needs the two lengths, each cut at the length asked for, to add up to at most 2^31 + 1; a nonzero list divided by one of at least 128 coefficients, the last nonzero, needs a quotient of at most 2^30 coefficients.",
  "all lists and lengths asked for, with lengths up to 2^62 where a panic is stated (for products a sum up to 2^63)",
  "A test would need lists of 2^30 scalars.",
  ["blst-from-scratch/src/types/poly.rs: inverse, div, poly_mul_fft, mul", "zkcrypto/src/poly.rs: inverse, new_poly_div, poly_mul", "Arkworks/src/poly.rs: poly_mul_fft, poly_fast_div"])
p("Test data of points, and points of mcl-kzg from words",
  "make_data of blst-from-scratch, zkcrypto and mcl-kzg returns as many points as it is asked for; the one at position i is i+1 times the generator, and up to the order of the group no two are equal. With these data the shared tests of transforms of points pass for the sizes that C180 names. from_arr_64 of mcl-kzg sets the three coordinates to the integers whose words it is given, which are not the words of the constants of the same crate.",
  "all lengths, generators and words of numbers below the size of the field",
  "The data are only seen through round trips, which constant data pass as well; from_arr_64 is called by no test.",
  ["blst-from-scratch/tests/fft_g1.rs: make_data","zkcrypto/tests/fft_g1.rs: make_data","mcl-kzg/kzg/src/fk20_fft.rs: make_data","mcl-kzg/kzg/src/data_types/g1.rs: from_arr_64","mcl-kzg/kzg/src/utilities.rs: arr64_6_to_g1_sum"])

p("The bits of scalars of zkcrypto",
  "to_le_bits of a scalar gives 256 bits, and the bit at each position is that of the canonical integer, on targets of 64 bits as on others; scalars with the same bits are equal. char_le_bits gives the bits of the modulus on both; the highest bit set is at NUM_BITS - 1.",
  "all scalars and positions",
  "The code is behind a feature that the crate does not declare, so no test compiles it.",
  ["zkcrypto/src/curve/scalar.rs: to_le_bits, char_le_bits, MODULUS_LIMBS_32, MODULUS_BITS"])

p("The benchmarks of amortised proofs",
"The benchmarks fk_single_da, fk_single_da_optimized, fk_multi_da_chunk_32 and fk_multi_da_chunk_32_optimized of kzg-bench run to their end at every scale and for every random number, and each times the call of its name. The test polynomial they share with the tests of chunks is independent of the chunk length, as its comment says.",
"All scales (from 5 to 30 for chunks), random numbers, setups made by the public constructors; blst-from-scratch, mcl-kzg, Arkworks, zkcrypto in release builds; all chunk lengths that divide the length of the polynomial.",
"A benchmark has no assertion on what it times: it ends normally whichever call it makes and whatever polynomial it makes it for.",
["kzg-bench/src/benches/fk20.rs: fk_single_da, fk_single_da_optimized, fk_multi_da, fk_multi_da_chunk_32, fk_multi_da_chunk_32_optimized","kzg-bench/src/tests/fk20_proofs.rs: fk_multi_case"])
p("The benchmarks of recovery and of zero polynomials",
  "bench_recover draws positions until half of the samples are erased, which happens as soon as the numbers drawn reach half of the positions and not before, and then recovers the data it started from, whichever numbers are drawn. bench_zero_poly times the making of a polynomial and never an error, whatever the shuffle, and its values vanish exactly at the first half of the shuffled positions.",
  "all scales, coefficients, sequences of random numbers and shuffles; all four backends",
  "A benchmark does not look at the result; bench_zero_poly does not even unwrap it, so an error would be timed without notice. The random numbers differ in every run.",
  ["kzg-bench/src/benches/recover.rs: bench_recover","kzg-bench/src/benches/zero_poly.rs: bench_zero_poly"])
p("The benchmarks of division and of commitments",
  "bench_new_poly_div times a division that returns the Euclidean quotient of what was drawn, with a one in place of a zero at the top, and the quotient has half as many coefficients as the dividend plus one. kzg_proof, which times a commitment and no proof, commits to exactly the polynomial drawn; a setup with as many points as coefficients is enough.",
  "all scales (division: 1 to 29), all coefficients, secrets and settings made from them; all four backends; for the blst backend a nonzero secret, fewer than 8 points, or a library whose multi-scalar multiplication accepts infinity",
  "A benchmark does not look at the quotient or the commitment, and the coefficients are random: a zero at the top is never met in practice.",
  ["kzg-bench/src/benches/poly.rs: bench_new_poly_div","kzg-bench/src/benches/kzg.rs: kzg_proof"])
p("The benchmarks of transforms and of the extension run on constant data",
  "bench_fft_fr and bench_fft_g1 draw one element x and repeat it, so that the call they time always returns n·x followed by n - 1 zeros, and so does every transform of half the length inside it. bench_das_extension draws one element and returns as many copies of it as it was given. None of the timed calls is an error.",
  "all elements and points drawn; all scales below 32 (zkcrypto's points: up to 16; the extension: from 1 on); all four backends",
  "A benchmark drops the result, so nothing shows that the input is constant and the output nearly all zero; the numbers it reports look as good as any.",
  ["kzg-bench/src/benches/fft.rs: bench_fft_fr, bench_fft_g1","kzg-bench/src/benches/das.rs: bench_das_extension"])
p("The local tests that are switched off",
  "roots_of_unity_repeat_at_stride, which compares the roots of one scale with every second and every fourth of the next two, passes in blst-from-scratch, Arkworks and zkcrypto exactly at the scales below 30. With mcl-kzg it fails at 5 and 6, where the table of roots changes, and passes at the other scales below 30. poly_pad_works_rand passes exactly if the polynomial is not longer than what it is padded to.",
  "all scales (mcl-kzg: below 30), lengths and coefficients",
  "The tests are commented out, and the first one is written for a single scale at which all backends agree.",
  ["blst-from-scratch/tests/local_tests/local_consts.rs: roots_of_unity_repeat_at_stride","blst-from-scratch/tests/local_tests/local_poly.rs: poly_pad_works_rand","blst-from-scratch/src/types/poly.rs: pad"])
p("The tests of its own that mcl-kzg has for polynomials and settings",
  "The tests of eval_at pass exactly if the expected number is the value of the polynomial, and the test of extend exactly if the expected coefficients are those given, with zeros beyond them. poly_test_long_division passes exactly if the expected list has the length of the quotient and its coefficients from that of X on: the constant one is not looked at, and a test that passes goes on to pass with any other. The third row of its data, left out and marked as one that does not work, would pass. poly_div_by_zero passes exactly if the divisor is empty or has a zero at the top. fftsettings_new_creates_valid_settings passes exactly if the expected values are the first powers of the root of the table, as far as both lists go.",
  "all coefficients, points, sizes and expected values; divisors of every length; all scales below 32",
  "A test cannot show what it leaves out; here a comparison starts at 1 in place of 0 and another stops at the shorter list.",
  ["mcl-kzg/kzg-bench/src/poly.rs: polynomial_eval_at_should_specific_value_given_exact_inputs, extend_poly_appends_fr_zero, poly_eval_0_check, poly_test_long_division, poly_div_by_zero","mcl-kzg/kzg-bench/src/fft_common.rs: fftsettings_new_creates_valid_settings","mcl-kzg/kzg/src/kzg10.rs: from_i32, eval_at, long_division"])
p("The benchmarks of its own that mcl-kzg has",
  "bench_fft_fr and bench_fft_g1 of mcl-kzg transform half the data their settings allow: what is timed under the name of a scale is the full transform of the scale below, the values of the data's polynomial at the powers of that scale's root. bench_das_fft_extension extends one vector in place over and over: after k calls it holds the values of one polynomial at the powers k, k+2, ... of the root, after two calls the data moved by one place, and after as many calls as the domain has points the data themselves. The benchmarks of commitments return the value at the secret times the generator. None of the calls is an error.",
  "all elements drawn; all scales from 1 to 31; all numbers of calls; all polynomials and secrets",
  "A benchmark drops the result, and criterion decides how often a call is repeated; neither the size that is timed nor what the repeated calls work on is visible.",
  ["mcl-kzg/kzg-bench/benches/bench_fft.rs: _fft_fr, _fft_g1","mcl-kzg/kzg-bench/benches/bench_das.rs: _set_up_and_bench","mcl-kzg/kzg-bench/benches/bench_commits.rs: bench_simple_commit, bench_large_commit","mcl-kzg/kzg/src/das.rs: das_fft_extension"])
p("Extending an extension gives the data back, moved by one place",
  "das_fft_extension of a power of two of data, at most half the domain, and then of its own result returns the data with the first element moved to the end. The extension of moved data is the moved extension, 2k calls in a row move the data by k places, and every list is the extension of exactly one list of data, which one more call and one move give back. So the data can be had from the extension alone, without recovery.",
  "all data and all lengths 2^m with 2^(m+1) within the domain; all scales; all numbers of places and calls; all four backends",
  "The tests extend once and compare with an inverse transform or fixed values; the relation holds between two calls, for all data.",
  ["blst-from-scratch/src/data_availability_sampling.rs: das_fft_extension","mcl-kzg/kzg/src/das.rs: das_fft_extension","Arkworks/src/das.rs: das_fft_extension","zkcrypto/src/das.rs: das_fft_extension"])
p("Two transforms in a row, and transforms of moved data",
  "The forward transform of the forward transform of n data is n times the data, the first in its place and the others counted from the end. If the data are moved by k places, entry i of the transform is divided by the i*k-th power of one primitive n-th root, the same for all data. This holds for fft_fr of all four backends and for fft_g1 of blst-from-scratch, mcl-kzg and Arkworks.",
  "all data, all lengths 2^m within the domain, all scales, all numbers of places",
  "The tests compare a transform with its inverse or with the slow transform; what two calls have to do with each other for related data is in none of them.",
  ["blst-from-scratch/src/fft_fr.rs: fft_fr","blst-from-scratch/src/fft_g1.rs: fft_g1","mcl-kzg/kzg/src/fk20_fft.rs: fft, fft_g1","Arkworks/src/fft.rs: fft_fr","Arkworks/src/fft_g1.rs: fft_g1","zkcrypto/src/fftsettings.rs: fft_fr"])
p("Transforms turn cyclic convolutions into products",
  "The forward transform of the cyclic convolution of n scalars with n scalars, in which indices add up modulo n, is the product of the two transforms place by place. The same holds for scalars with points: fft_g1 of the convolution is fft_g1 of the points, each multiplied with the entry of fft_fr of the scalars. This holds for scalars with all four backends, and for points with blst-from-scratch, mcl-kzg and Arkworks. It is what products of polynomials and amortised proofs rest on.",
  "all scalars and points, all lengths 2^m within the domain, all scales",
  "No test computes a cyclic convolution; products of polynomials are tested with lengths at which nothing wraps around.",
  ["blst-from-scratch/src/fft_fr.rs: fft_fr","blst-from-scratch/src/fft_g1.rs: fft_g1","mcl-kzg/kzg/src/fk20_fft.rs: fft, fft_g1","Arkworks/src/fft.rs: fft_fr","Arkworks/src/fft_g1.rs: fft_g1","zkcrypto/src/fftsettings.rs: fft_fr"])
p("A coset of one point is a single point",
  "For every commitment, proof, value and nonzero point, check_proof_multi with n = 1 and the one value answers what check_proof_single answers; and compute_proof_multi with n = 1 gives the proof of compute_proof_single.",
  "all settings of at least two secrets, all commitments, proofs, values, nonzero points, and polynomials that fit",
  "Tests use cosets of more than one point; the functions for single and for many points are never compared.",
  ["blst-from-scratch/src/types/kzg_settings.rs: check_proof_single, check_proof_multi","Arkworks/src/kzg_proofs.rs: compute_proof_single, check_proof_single, compute_proof_multi, check_proof_multi","mcl-kzg/kzg/src/kzg10.rs: gen_proof_at","mcl-kzg/kzg/src/kzg_settings.rs: check_proof_single, compute_proof_multi, check_proof_multi","zkcrypto/src/kzg_proofs.rs: check_proof_single, check_proof_multi"])
open('/verif/properties.jsonl','w').write(''.join(json.dumps(x)+'\n' for x in P))
print(len(P))
