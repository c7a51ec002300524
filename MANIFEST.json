{
 "claims": [
  {
   "property": "C01",
   "status": "proved",
   "theorems": [
    "Kzg.Props.C01_settings_new",
    "Kzg.Props.C01_settings_reject"
   ],
   "note": "All scales; root order by a squaring chain over the whole 32-row table, field primality by a Lucas certificate."
  },
  {
   "property": "C02",
   "status": "proved",
   "theorems": [
    "Kzg.Props.C02_fft_is_evaluation"
   ],
   "note": "All scales, lengths and inputs."
  },
  {
   "property": "C03",
   "status": "proved",
   "theorems": [
    "Kzg.Props.C03_fft_roundtrip"
   ],
   "note": "Both orders."
  },
  {
   "property": "C04",
   "status": "proved",
   "theorems": [
    "Kzg.Props.C04_fft_rejects_exactly"
   ],
   "note": "Field and group versions; panic is a separate outcome and excluded."
  },
  {
   "property": "C05",
   "status": "proved",
   "theorems": [
    "Kzg.Props.C05_fast_eq_slow"
   ],
   "note": "Forward and backward tables, field and group."
  },
  {
   "property": "C06",
   "status": "proved",
   "theorems": [
    "Kzg.Props.C06_fft_g1",
    "Kzg.Props.C06_fft_g1_roundtrip",
    "Kzg.Props.C06_fft_exponent"
   ],
   "note": "Group is an arbitrary Fr-module."
  },
  {
   "property": "C07",
   "status": "proved",
   "theorems": [
    "Kzg.Props.C07_fft_every_schedule",
    "Kzg.Props.C07_fft_fr",
    "Kzg.Props.C07_fft_g1",
    "Kzg.Props.C07_das_every_schedule"
   ],
   "note": "Small-step semantics of joined tasks over a shared buffer: every interleaving of single reads and writes, at every recursion level, for every choice of which calls are joined; termination, absence of panics and equality with the sequential transform; field, group and DAS version."
  },
  {
   "property": "C08",
   "status": "partial",
   "theorems": [
    "Kzg.Props.C08_eval_partial",
    "Kzg.Props.C08_eval_constant_panics",
    "Kzg.Props.C08_full_statement_false"
   ],
   "note": "Proved for every polynomial except one-coefficient ones at nonzero points, where the code underflows and panics; the negation of the full statement is proved with a witness."
  },
  {
   "property": "C09",
   "status": "proved",
   "theorems": [
    "Kzg.Props.C09_mul_direct"
   ],
   "note": "All nonempty inputs and output lengths."
  },
  {
   "property": "C10",
   "status": "proved",
   "theorems": [
    "Kzg.Props.C10_mul_agree"
   ],
   "note": "All nonempty inputs with product length at most 2^31."
  },
  {
   "property": "C11",
   "status": "proved",
   "theorems": [
    "Kzg.Props.C11_inverse",
    "Kzg.Props.C11_inverse_errors"
   ],
   "note": "Newton iteration invariant over the bits of the length."
  },
  {
   "property": "C12",
   "status": "proved",
   "theorems": [
    "Kzg.Props.C12_long_div",
    "Kzg.Props.C12_long_div_errors"
   ],
   "note": "All dividends and divisors."
  },
  {
   "property": "C13",
   "status": "proved",
   "theorems": [
    "Kzg.Props.C13_fast_div",
    "Kzg.Props.C13_div",
    "Kzg.Props.C13_fast_div_empty_panics"
   ],
   "note": "Also records the panic of a direct fast division of the empty dividend."
  },
  {
   "property": "C14",
   "status": "proved",
   "theorems": [
    "Kzg.Props.C14_scale_values",
    "Kzg.Props.C14_scale_roundtrip",
    "Kzg.Props.C14_scale_limit",
    "Kzg.Props.C14_poly_methods"
   ],
   "note": "Includes the panic beyond 65536 coefficients."
  },
  {
   "property": "C15",
   "status": "proved",
   "theorems": [
    "Kzg.Props.C15_history_independent",
    "Kzg.Props.C15_tables",
    "Kzg.Props.C15_all_calls_finish"
   ],
   "note": "Transition system of the two shared cells and any number of calls; invariant over all reachable states; result of every finished call depends only on its arguments; published tables never change; no deadlock, no infinite execution without new calls. OnceCell::get_or_init is modelled by its contract."
  },
  {
   "property": "C16",
   "status": "proved",
   "theorems": [
    "Kzg.Props.C16_das_extension"
   ],
   "note": "All sizes up to half of the width and all input vectors."
  },
  {
   "property": "C17",
   "status": "proved",
   "theorems": [
    "Kzg.Props.C17_das_rejection"
   ],
   "note": "All bad lengths."
  },
  {
   "property": "C18",
   "status": "proved",
   "theorems": [
    "Kzg.Props.C18_product",
    "Kzg.Props.C18_empty"
   ],
   "note": "All index lists and strides in range."
  },
  {
   "property": "C19",
   "status": "proved",
   "theorems": [
    "Kzg.Props.C19_reduce",
    "Kzg.Props.C19_reduce_errors"
   ],
   "note": "All lists of nonempty polynomials, fitting or not."
  },
  {
   "property": "C20",
   "status": "partial",
   "theorems": [
    "Kzg.Props.C20_zero_poly_partial",
    "Kzg.Props.C20_safe_up_to_4096",
    "Kzg.Props.C20_safe_half",
    "Kzg.Props.C20_dense_error",
    "Kzg.Props.C20_full_statement_false",
    "Kzg.Props.C20_zero_poly_edges"
   ],
   "note": "The code refuses index sets with more than 63*(D/64+1) entries (possible from D = 8192 on), so the full statement is false; proved exactly up to that bound and proved to be an error beyond."
  },
  {
   "property": "C21",
   "status": "partial",
   "theorems": [
    "Kzg.Props.C21_recovery_partial",
    "Kzg.Props.C21_recovery_general_partial",
    "Kzg.Props.C21_recovery_null_partial",
    "Kzg.Props.C21_large_domain_panics",
    "Kzg.Props.C21_full_statement_false"
   ],
   "note": "Proved for all domains up to 65536, all polynomials, all erasure patterns. The full statement is false: above 65536 the scaling tables are too short and the code panics (proved for every input)."
  },
  {
   "property": "C22",
   "status": "proved",
   "theorems": [
    "Kzg.Props.C22_recovery_sound",
    "Kzg.Props.C22_recovery_null_sound",
    "Kzg.Props.C22_every_value_accepted",
    "Kzg.Props.C22_bad_length"
   ],
   "note": "Every sample list, including corrupted ones; includes uniqueness of the codeword. Corruption is never noticed: any values present can be interpolated, so the final comparison of the code cannot fail."
  },
  {
   "property": "C23",
   "status": "partial",
   "theorems": [
    "Kzg.Props.C23_kept_partial",
    "Kzg.Props.C23_null_is_element",
    "Kzg.Props.C23_collision",
    "Kzg.Props.C23_full_statement_false"
   ],
   "note": "Refuted for the null element itself, which is an ordinary field element in the blst backend; proved for all other elements."
  },
  {
   "property": "C24",
   "status": "partial",
   "theorems": [
    "Kzg.Props.C24_one_dropped_partial",
    "Kzg.Props.C24_complete_panics",
    "Kzg.Props.C24_full_statement_false"
   ],
   "note": "Refuted: recovery panics on every complete list (the zero polynomial evaluation is empty). Proved after dropping any one sample."
  },
  {
   "property": "C25",
   "status": "proved",
   "theorems": [
    "Kzg.Props.C25_commit",
    "Kzg.Props.C25_commit_rejects",
    "Kzg.Props.C25_commit_linear",
    "Kzg.Props.C25_settings_new"
   ],
   "note": "For every lawful group backend. The identity reaches the multi-scalar multiplication only for a zero secret; blst's behaviour there is a hypothesis of its own (MsmTotal)."
  },
  {
   "property": "C26",
   "status": "proved",
   "theorems": [
    "Kzg.Props.C26_single_complete",
    "Kzg.Props.C26_single_tiny_setup"
   ],
   "note": "Every polynomial that fits and every point; the point equal to the secret needs PairTotal (pairing with the identity). A setup with fewer than two points panics (proved)."
  },
  {
   "property": "C27",
   "status": "proved",
   "theorems": [
    "Kzg.Props.C27_single_accepts_iff",
    "Kzg.Props.C27_single_unique_proof",
    "Kzg.Props.C27_single_binding",
    "Kzg.Props.C27_single_two_openings"
   ],
   "note": "Every commitment, proof, point and value."
  },
  {
   "property": "C28",
   "status": "partial",
   "theorems": [
    "Kzg.Props.C28_multi_complete_partial",
    "Kzg.Props.C28_full_width_panics",
    "Kzg.Props.C28_full_statement_false"
   ],
   "note": "Proved for n below the setup length. The full statement is false for n equal to the setup length, where secret_g2[n] is out of bounds (proved for all inputs). Sizes beyond 2^30: C196."
  },
  {
   "property": "C29",
   "status": "proved",
   "theorems": [
    "Kzg.Props.C29_multi_accepts_iff",
    "Kzg.Props.C29_interpolant_exists",
    "Kzg.Props.C29_multi_binding",
    "Kzg.Props.C29_false_values_exist"
   ],
   "note": "Every commitment, proof, nonzero point and value list. Also proved that for n >= 2 false lists accepted with the honest proof exist, so nothing stronger than the stated condition holds."
  },
  {
   "property": "C30",
   "status": "proved",
   "theorems": [
    "Kzg.Props.C30_settings_new",
    "Kzg.Props.C30_fk20_single",
    "Kzg.Props.C30_fk20_single_order",
    "Kzg.Props.C30_rejects"
   ],
   "note": "All sizes, polynomials and secrets; settings constructor and rejections characterised exactly."
  },
  {
   "property": "C31",
   "status": "proved",
   "theorems": [
    "Kzg.Props.C31_settings_new",
    "Kzg.Props.C31_fk20_multi",
    "Kzg.Props.C31_fk20_multi_order"
   ],
   "note": "All sizes, chunk lengths, polynomials and secrets."
  },
  {
   "property": "C32",
   "status": "proved",
   "theorems": [
    "Kzg.Props.C32_reverse_bit_order",
    "Kzg.Props.C32_involution",
    "Kzg.Props.C32_reversal_unique",
    "Kzg.Props.C32_empty_panics"
   ],
   "note": "All element types, all power-of-two lengths below 2^64."
  },
  {
   "property": "C33",
   "status": "proved",
   "theorems": [
    "Kzg.Props.C33_is_power_of_two",
    "Kzg.Props.C33_next_power_of_two",
    "Kzg.Props.C33_next_power_of_two_zero",
    "Kzg.Props.C33_next_power_of_two_overflow",
    "Kzg.Props.C33_log2_pow2",
    "Kzg.Props.C33_log2_pow2_beyond",
    "Kzg.Props.C33_log2_u64",
    "Kzg.Props.C33_log_2_byte",
    "Kzg.Props.C33_min_max"
   ],
   "note": "All 64-bit values; byte and power-of-two logarithms by kernel evaluation of the whole finite table."
  },
  {
   "property": "C34",
   "status": "proved",
   "theorems": [
    "Kzg.Props.C34_pow"
   ],
   "note": "All elements and exponents."
  },
  {
   "property": "C35",
   "status": "proved",
   "theorems": [
    "Kzg.Props.C35_bit_count",
    "Kzg.Props.C35_g1_mul"
   ],
   "note": "All byte strings and scalars; blst_p1_mult is trusted to multiply by the low nbits bits."
  },
  {
   "property": "C36",
   "status": "proved",
   "theorems": [
    "Kzg.Props.C36_rep_element",
    "Kzg.Props.C36_rep_words",
    "Kzg.Props.C36_eq",
    "Kzg.Props.C36_add_integers",
    "Kzg.Props.C36_sub_integers",
    "Kzg.Props.C36_add",
    "Kzg.Props.C36_sub",
    "Kzg.Props.C36_neg",
    "Kzg.Props.C36_double",
    "Kzg.Props.C36_constants"
   ],
   "note": "Words, carries and borrows of add, sub, neg, double, constants; representation is a bijection."
  },
  {
   "property": "C37",
   "status": "proved",
   "theorems": [
    "Kzg.Props.C37_mul_integers",
    "Kzg.Props.C37_mul",
    "Kzg.Props.C37_square",
    "Kzg.Props.C37_square_eq_mul",
    "Kzg.Props.C37_from_raw",
    "Kzg.Props.C37_from_u64",
    "Kzg.Props.C37_round_trip",
    "Kzg.Props.C37_round_trip_words"
   ],
   "note": "Montgomery mul, square, from_raw, From<u64>, reduce."
  },
  {
   "property": "C38",
   "status": "proved",
   "theorems": [
    "Kzg.Props.C38_from_bytes",
    "Kzg.Props.C38_to_bytes",
    "Kzg.Props.C38_decode_encode",
    "Kzg.Props.C38_encode_decode"
   ],
   "note": "from_bytes, to_bytes."
  },
  {
   "property": "C39",
   "status": "proved",
   "theorems": [
    "Kzg.Props.C39_from_bytes_wide",
    "Kzg.Props.C39_remainder"
   ],
   "note": "from_u512, from_bytes_wide."
  },
  {
   "property": "C40",
   "status": "proved",
   "theorems": [
    "Kzg.Props.C40_invert",
    "Kzg.Props.C40_invert_zero",
    "Kzg.Props.C40_pow_vartime",
    "Kzg.Props.C40_pow"
   ],
   "note": "Addition chain of invert, pow, pow_vartime."
  },
  {
   "property": "C41",
   "status": "proved",
   "theorems": [
    "Kzg.Props.C41_msm_variable_base",
    "Kzg.Props.C41_msm_module",
    "Kzg.Props.C41_every_width"
   ],
   "note": "All lists, all window widths, arbitrary commutative group."
  },
  {
   "property": "C42",
   "status": "proved",
   "theorems": [
    "Kzg.Props.C42_rep_element",
    "Kzg.Props.C42_rep_words",
    "Kzg.Props.C42_eq",
    "Kzg.Props.C42_is_zero",
    "Kzg.Props.C42_add_integers",
    "Kzg.Props.C42_sub_integers",
    "Kzg.Props.C42_mul_integers",
    "Kzg.Props.C42_add",
    "Kzg.Props.C42_sub",
    "Kzg.Props.C42_neg",
    "Kzg.Props.C42_mul",
    "Kzg.Props.C42_square",
    "Kzg.Props.C42_square_eq_mul",
    "Kzg.Props.C42_constants",
    "Kzg.Props.C42_prime"
   ],
   "note": "Base field limbs, all operations; the representation is a bijection between reduced vectors and the field, and the field size is proved prime."
  },
  {
   "property": "C43",
   "status": "partial",
   "theorems": [
    "Kzg.Props.C43_right_size_partial",
    "Kzg.Props.C43_longer_panics",
    "Kzg.Props.C43_shorter_wrong",
    "Kzg.Props.C43_full_statement_false"
   ],
   "note": "Refuted: a shorter polynomial is accepted and the result is not its proofs (for every secret and generator), a longer one panics. Proved for the matching length."
  },
  {
   "property": "C44",
   "status": "proved",
   "theorems": [
    "Kzg.Props.C44_sqrt_complete",
    "Kzg.Props.C44_sqrt_sound",
    "Kzg.Props.C44_sqrt_none"
   ],
   "note": "Both loops of the Tonelli-Shanks routine, two-phase invariant."
  },
  {
   "property": "C45",
   "status": "proved",
   "theorems": [
    "Kzg.Props.C45_divn",
    "Kzg.Props.C45_divn_large"
   ],
   "note": "divn for every amount."
  },
  {
   "property": "C46",
   "status": "proved",
   "theorems": [
    "Kzg.Props.C46_null_is_no_value"
   ],
   "note": "null is unreduced."
  },
  {
   "property": "C47",
   "status": "proved",
   "theorems": [
    "Kzg.Props.C47_from_bytes",
    "Kzg.Props.C47_to_bytes",
    "Kzg.Props.C47_decode_encode",
    "Kzg.Props.C47_encode_decode"
   ],
   "note": "48-byte big-endian encoding."
  },
  {
   "property": "C48",
   "status": "proved",
   "theorems": [
    "Kzg.Props.C48_pow_vartime",
    "Kzg.Props.C48_invert",
    "Kzg.Props.C48_invert_zero",
    "Kzg.Props.C48_sqrt_complete",
    "Kzg.Props.C48_sqrt_sound",
    "Kzg.Props.C48_sqrt_none"
   ],
   "note": "Powers, inverse, square root (sound, complete, fails exactly on non-squares)."
  },
  {
   "property": "C49",
   "status": "proved",
   "theorems": [
    "Kzg.Props.C49_lexicographically_largest",
    "Kzg.Props.C49_negation",
    "Kzg.Props.C49_zero"
   ],
   "note": "Sign of an element."
  },
  {
   "property": "C50",
   "status": "partial",
   "theorems": [
    "Kzg.Props.C50_from_u768_partial",
    "Kzg.Props.C50_not_big_endian"
   ],
   "note": "The doc comment says the twelve limbs are most significant first. The code swaps the two halves: the result is high half + 2^384 low half. The swapped reading is proved exactly, and the documented reading is disproved with a witness. Only random() uses it, where the swap does not change the distribution."
  },
  {
   "property": "C51",
   "status": "proved",
   "theorems": [
    "Kzg.Props.C51_radix",
    "Kzg.Props.C51_pippenger",
    "Kzg.Props.C51_agree"
   ],
   "note": "Signed digits of width 6, 7, 8; digit columns; agreement with the other method. The code is compiled only under a feature that the manifest does not declare."
  },
  {
   "property": "C52",
   "status": "proved",
   "theorems": [
    "Kzg.Props.C52_add",
    "Kzg.Props.C52_add_mixed",
    "Kzg.Props.C52_double",
    "Kzg.Props.C52_neg",
    "Kzg.Props.C52_sub",
    "Kzg.Props.C52_sum",
    "Kzg.Props.C52_mul_by_x",
    "Kzg.Props.C52_coordinates"
   ],
   "note": "For every field and curve y^2=x^3+b without two-torsion; the first group is shown to be an instance, with the word operations as field operations."
  },
  {
   "property": "C53",
   "status": "proved",
   "theorems": [
    "Kzg.Props.C53_eq",
    "Kzg.Props.C53_eq_affine",
    "Kzg.Props.C53_is_identity",
    "Kzg.Props.C53_convert",
    "Kzg.Props.C53_batch_normalize",
    "Kzg.Props.C53_is_on_curve"
   ],
   "note": "is_on_curve of projective coordinates with z = 0 accepts any x and y by design of the code; the theorem is about z not zero."
  },
  {
   "property": "C54",
   "status": "partial",
   "theorems": [
    "Kzg.Props.C54_mul_partial",
    "Kzg.Props.C54_mul_affine_partial",
    "Kzg.Props.C54_small_scalars",
    "Kzg.Props.C54_debug_panics",
    "Kzg.Props.C54_refuted_debug",
    "Kzg.Props.C54_refuted_release",
    "Kzg.Props.C54_refuted_outside",
    "Kzg.Props.C54_release_returns"
   ],
   "note": "Holds on the prime order subgroup for all scalars whose rounding step does not overflow (all below 2^191, and all but about one in 2^65). Refuted in full: debug builds panic, release builds return a wrong point, and outside the subgroup the product is wrong. Without overflow checks there is always a result (C54_release_returns)."
  },
  {
   "property": "C55",
   "status": "proved",
   "theorems": [
    "Kzg.Props.C55_is_torsion_free",
    "Kzg.Props.C55_multiples"
   ],
   "note": ""
  },
  {
   "property": "C56",
   "status": "proved",
   "theorems": [
    "Kzg.Props.C56_generator",
    "Kzg.Props.C56_generates",
    "Kzg.Props.C56_points",
    "Kzg.Props.C56_endomorphism"
   ],
   "note": ""
  },
  {
   "property": "C57",
   "status": "proved",
   "theorems": [
    "Kzg.Props.C57_clear_cofactor",
    "Kzg.Props.C57_accepted",
    "Kzg.Props.C57_injective"
   ],
   "note": ""
  },
  {
   "property": "C58",
   "status": "proved",
   "theorems": [
    "Kzg.Props.C58_decode",
    "Kzg.Props.C58_round_trip",
    "Kzg.Props.C58_unchecked",
    "Kzg.Props.C58_canonical",
    "Kzg.Props.C58_format"
   ],
   "note": ""
  },
  {
   "property": "C59",
   "status": "proved",
   "theorems": [
    "Kzg.Props.C59_decode",
    "Kzg.Props.C59_round_trip",
    "Kzg.Props.C59_unchecked",
    "Kzg.Props.C59_format"
   ],
   "note": ""
  },
  {
   "property": "C60",
   "status": "partial",
   "theorems": [
    "Kzg.Props.C60_div_partial",
    "Kzg.Props.C60_div_by_zero",
    "Kzg.Props.C60_zero_dividend_panics",
    "Kzg.Props.C60_full_statement_false"
   ],
   "note": "The zero dividend panics (proved negation)."
  },
  {
   "property": "C61",
   "status": "partial",
   "theorems": [
    "Kzg.Props.C61_division_entry_points_partial",
    "Kzg.Props.C61_empty",
    "Kzg.Props.C61_zero_lead_wrong",
    "Kzg.Props.C61_full_statement_false"
   ],
   "note": "Divisors with zero last coefficient give a wrong quotient, empty dividends panic (proved negation)."
  },
  {
   "property": "C62",
   "status": "partial",
   "theorems": [
    "Kzg.Props.C62_ruffini_partial",
    "Kzg.Props.C62_trailing_zero_panics",
    "Kzg.Props.C62_full_statement_false"
   ],
   "note": "Nonzero polynomials with a trailing zero panic (proved negation)."
  },
  {
   "property": "C63",
   "status": "proved",
   "theorems": [
    "Kzg.Props.C63_mul"
   ],
   "note": ""
  },
  {
   "property": "C64",
   "status": "proved",
   "theorems": [
    "Kzg.Props.C64_inverse",
    "Kzg.Props.C64_inverse_errors",
    "Kzg.Props.C64_inverse_zero_length"
   ],
   "note": "Requested length zero panics."
  },
  {
   "property": "C65",
   "status": "partial",
   "theorems": [
    "Kzg.Props.C65_product",
    "Kzg.Props.C65_reduce",
    "Kzg.Props.C65_zero_poly_partial",
    "Kzg.Props.C65_dense_error",
    "Kzg.Props.C65_zero_poly_edges",
    "Kzg.Props.C65_full_statement_false"
   ],
   "note": "Dense sets are an error from domain 8192 on (proved negation)."
  },
  {
   "property": "C66",
   "status": "proved",
   "theorems": [
    "Kzg.Props.C66_recovery_general",
    "Kzg.Props.C66_recovery"
   ],
   "note": ""
  },
  {
   "property": "C67",
   "status": "proved",
   "theorems": [
    "Kzg.Props.C67_recovery_sound",
    "Kzg.Props.C67_recovery_outcome"
   ],
   "note": ""
  },
  {
   "property": "C68",
   "status": "proved",
   "theorems": [
    "Kzg.Props.C68_history_independent",
    "Kzg.Props.C68_scaling"
   ],
   "note": ""
  },
  {
   "property": "C69",
   "status": "partial",
   "theorems": [
    "Kzg.Props.C69_threads_partial",
    "Kzg.Props.C69_race",
    "Kzg.Props.C69_full_statement_false",
    "Kzg.Props.C69_guarded",
    "Kzg.Props.C69_alone",
    "Kzg.Props.C69_guard_needed"
   ],
   "note": "A schedule of two threads on the empty table gives wrong results (proved negation). Tables that are long enough are safe under every schedule (C69_threads_partial), and so are all tables under every schedule in which no call starts while another makes the table longer (C69_guarded); a call alone always ends with the right result (C69_alone)."
  },
  {
   "property": "C70",
   "status": "proved",
   "theorems": [
    "Kzg.Props.C70_irreducible",
    "Kzg.Props.C70_operations",
    "Kzg.Props.C70_invert",
    "Kzg.Props.C70_from_fp",
    "Kzg.Props.C70_select",
    "Kzg.Props.C70_pow"
   ],
   "note": "Isomorphic to Mathlib's AdjoinRoot of the irreducible polynomial, on reduced six-word coefficients."
  },
  {
   "property": "C71",
   "status": "proved",
   "theorems": [
    "Kzg.Props.C71_irreducible",
    "Kzg.Props.C71_operations",
    "Kzg.Props.C71_sparse",
    "Kzg.Props.C71_invert",
    "Kzg.Props.C71_from",
    "Kzg.Props.C71_select"
   ],
   "note": ""
  },
  {
   "property": "C72",
   "status": "proved",
   "theorems": [
    "Kzg.Props.C72_irreducible",
    "Kzg.Props.C72_operations",
    "Kzg.Props.C72_sparse",
    "Kzg.Props.C72_conjugate",
    "Kzg.Props.C72_invert",
    "Kzg.Props.C72_from",
    "Kzg.Props.C72_select"
   ],
   "note": ""
  },
  {
   "property": "C73",
   "status": "proved",
   "theorems": [
    "Kzg.Props.C73_fp2",
    "Kzg.Props.C73_fp6",
    "Kzg.Props.C73_fp12",
    "Kzg.Props.C73_conjugate",
    "Kzg.Props.C73_order"
   ],
   "note": "The constants are checked by exponentiation in the kernel."
  },
  {
   "property": "C74",
   "status": "proved",
   "theorems": [
    "Kzg.Props.C74_sqrt",
    "Kzg.Props.C74_larger_root"
   ],
   "note": ""
  },
  {
   "property": "C75",
   "status": "proved",
   "theorems": [
    "Kzg.Props.C75_exponent",
    "Kzg.Props.C75_power",
    "Kzg.Props.C75_panic",
    "Kzg.Props.C75_order",
    "Kzg.Props.C75_add",
    "Kzg.Props.C75_onto"
   ],
   "note": "The exponent of the chain is checked as an integer identity in the kernel."
  },
  {
   "property": "C76",
   "status": "proved",
   "theorems": [
    "Kzg.Props.C76_identity",
    "Kzg.Props.C76_add",
    "Kzg.Props.C76_neg",
    "Kzg.Props.C76_neg_outside",
    "Kzg.Props.C76_mul",
    "Kzg.Props.C76_mul_action",
    "Kzg.Props.C76_sum",
    "Kzg.Props.C76_generator"
   ],
   "note": ""
  },
  {
   "property": "C77",
   "status": "partial",
   "theorems": [
    "Kzg.Props.C77_random_partial",
    "Kzg.Props.C77_random_is_identity"
   ],
   "note": "Refuted: the code returns final_exponentiation(1), the identity, whatever the generator (C77_random_is_identity). The partial theorem: the result is in the group."
  },
  {
   "property": "C78",
   "status": "proved",
   "theorems": [
    "Kzg.Props.C78_mul",
    "Kzg.Props.C78_mul_affine",
    "Kzg.Props.C78_linear"
   ],
   "note": "Every curve point, every scalar."
  },
  {
   "property": "C79",
   "status": "proved",
   "theorems": [
    "Kzg.Props.C79_is_torsion_free",
    "Kzg.Props.C79_multiples",
    "Kzg.Props.C79_generator",
    "Kzg.Props.C79_points"
   ],
   "note": "The point count is proved from points of the prime orders of the cofactor, with a Pocklington certificate for its 448-bit prime factor."
  },
  {
   "property": "C80",
   "status": "proved",
   "theorems": [
    "Kzg.Props.C80_decode_compressed",
    "Kzg.Props.C80_decode_uncompressed",
    "Kzg.Props.C80_round_trip",
    "Kzg.Props.C80_unchecked",
    "Kzg.Props.C80_format_compressed",
    "Kzg.Props.C80_format_uncompressed"
   ],
   "note": "All byte strings of the right length."
  },
  {
   "property": "C81",
   "status": "proved",
   "theorems": [
    "Kzg.Props.C81_endomorphism",
    "Kzg.Props.C81_psi2",
    "Kzg.Props.C81_characteristic",
    "Kzg.Props.C81_eigenvalue"
   ],
   "note": "Every curve point; the characteristic equation by reduction to seven points that generate the group under psi."
  },
  {
   "property": "C82",
   "status": "proved",
   "theorems": [
    "Kzg.Props.C82_clear_cofactor",
    "Kzg.Props.C82_homomorphism",
    "Kzg.Props.C82_accepted",
    "Kzg.Props.C82_subgroup",
    "Kzg.Props.C82_injective"
   ],
   "note": "Every curve point."
  },
  {
   "property": "C83",
   "status": "proved",
   "theorems": [
    "Kzg.Props.C83_pairing",
    "Kzg.Props.C83_all",
    "Kzg.Props.C83_add_left",
    "Kzg.Props.C83_add_right",
    "Kzg.Props.C83_nondegenerate",
    "Kzg.Props.C83_outside"
   ],
   "note": "points of the second group in the prime order subgroup"
  },
  {
   "property": "C84",
   "status": "proved",
   "theorems": [
    "Kzg.Props.C84_prepare",
    "Kzg.Props.C84_product"
   ],
   "note": ""
  },
  {
   "property": "C85",
   "status": "proved",
   "theorems": [
    "Kzg.Props.C85_pairings_verify",
    "Kzg.Props.C85_compare"
   ],
   "note": "C85_compare: first arguments anywhere on the curve"
  },
  {
   "property": "C86",
   "status": "partial",
   "theorems": [
    "Kzg.Props.C86_setup_partial",
    "Kzg.Props.C86_debug_panics",
    "Kzg.Props.C86_large_secret_panics",
    "Kzg.Props.C86_refuted_debug",
    "Kzg.Props.C86_refuted_release",
    "Kzg.Props.C86_test_secret"
   ],
   "note": "Right in either build unless the rounding of the multiplication overflows for a power of the secret; right for the secret of the tests and up to 16385 powers. False otherwise: a panic with overflow checks, a wrong point without."
  },
  {
   "property": "C87",
   "status": "proved",
   "theorems": [
    "Kzg.Props.C87_commit",
    "Kzg.Props.C87_commit_eq",
    "Kzg.Props.C87_commit_add",
    "Kzg.Props.C87_too_long_panics",
    "Kzg.Props.C87_new_accepts"
   ],
   "note": "For all setups made by the library for which C86 holds. Polynomials longer than the setup panic."
  },
  {
   "property": "C88",
   "status": "partial",
   "theorems": [
    "Kzg.Props.C88_accepts_iff",
    "Kzg.Props.C88_complete_partial",
    "Kzg.Props.C88_binding",
    "Kzg.Props.C88_unique_proof",
    "Kzg.Props.C88_tiny_setup",
    "Kzg.Props.C88_zero_panics",
    "Kzg.Props.C88_refuted_zero",
    "Kzg.Props.C88_debug_panics",
    "Kzg.Props.C88_refuted_release"
   ],
   "note": "Complete, binding, and one proof per value, for nonzero polynomials and values for which the multiplication does not overflow. False otherwise: the zero polynomial panics, overflowing values panic or are rejected."
  },
  {
   "property": "C89",
   "status": "partial",
   "theorems": [
    "Kzg.Props.C89_accepts_iff",
    "Kzg.Props.C89_complete_partial",
    "Kzg.Props.C89_binding",
    "Kzg.Props.C89_zero_point_panics",
    "Kzg.Props.C89_zero_poly_panics",
    "Kzg.Props.C89_refuted",
    "Kzg.Props.C89_full_width_panics",
    "Kzg.Props.C89_sizes"
   ],
   "note": "For nonzero polynomials and x not 0. False otherwise (panics)."
  },
  {
   "property": "C90",
   "status": "partial",
   "theorems": [
    "Kzg.Props.C90_fft_g1_roots",
    "Kzg.Props.C90_fft_g1_partial",
    "Kzg.Props.C90_debug",
    "Kzg.Props.C90_values",
    "Kzg.Props.C90_roundtrip",
    "Kzg.Props.C90_rejects",
    "Kzg.Props.C90_slow",
    "Kzg.Props.C90_release"
   ],
   "note": "Proved in either build for scales up to 16, and for any scale if no root overflows; with overflow checks right or a panic for every scale. Without overflow checks it always returns as many points."
  },
  {
   "property": "C91",
   "status": "partial",
   "theorems": [
    "Kzg.Props.C91_single_partial",
    "Kzg.Props.C91_debug",
    "Kzg.Props.C91_agrees",
    "Kzg.Props.C91_order",
    "Kzg.Props.C91_new_rejects",
    "Kzg.Props.C91_rejects",
    "Kzg.Props.C91_wrong_release",
    "Kzg.Props.C91_panics_debug",
    "Kzg.Props.C91_refuted_release",
    "Kzg.Props.C91_refuted_debug",
    "Kzg.Props.C91_single_short_partial",
    "Kzg.Props.C91_short_panics",
    "Kzg.Props.C91_release",
    "Kzg.Props.C91_agrees_short"
   ],
   "note": "Proved for scales up to 16 if no factor overflows; with overflow checks right or a panic always. False in general in both builds. Setups need n - 1 points and nothing more; with fewer the settings panic. Without overflow checks the calls always return 2n points."
  },
  {
   "property": "C92",
   "status": "partial",
   "theorems": [
    "Kzg.Props.C92_multi_partial",
    "Kzg.Props.C92_debug",
    "Kzg.Props.C92_agrees",
    "Kzg.Props.C92_order",
    "Kzg.Props.C92_new_rejects",
    "Kzg.Props.C92_refuted_release",
    "Kzg.Props.C92_refuted_debug",
    "Kzg.Props.C92_multi_short_partial",
    "Kzg.Props.C92_short_panics",
    "Kzg.Props.C92_release",
    "Kzg.Props.C92_agrees_short"
   ],
   "note": "As C91, for every chunk length; the settings need n - l points."
  },
  {
   "property": "C93",
   "status": "proved",
   "theorems": [
    "Kzg.Props.C93_das_extension",
    "Kzg.Props.C93_das_rejects",
    "Kzg.Props.C93_from_scale",
    "Kzg.Props.C93_new_fft_settings"
   ],
   "note": ""
  },
  {
   "property": "C94",
   "status": "partial",
   "theorems": [
    "Kzg.Props.C94_is_power_of_2_partial",
    "Kzg.Props.C94_is_power_of_2_zero",
    "Kzg.Props.C94_log_2",
    "Kzg.Props.C94_next_pow_of_2",
    "Kzg.Props.C94_next_pow_of_2_overflow",
    "Kzg.Props.C94_order_by_rev_bit_order_partial",
    "Kzg.Props.C94_involution",
    "Kzg.Props.C94_order_single",
    "Kzg.Props.C94_reverse_bits_limited",
    "Kzg.Props.C94_reverse_bits_length"
   ],
   "note": "Zero and single element lists panic."
  },
  {
   "property": "C95",
   "status": "partial",
   "theorems": [
    "Kzg.Props.C95_history",
    "Kzg.Props.C95_new_partial",
    "Kzg.Props.C95_new_panics",
    "Kzg.Props.C95_trait_new_partial",
    "Kzg.Props.C95_trait_truncates",
    "Kzg.Props.C95_trait_root",
    "Kzg.Props.C95_scale_independent",
    "Kzg.Props.C95_scale_dependent",
    "Kzg.Props.C95_threads"
   ],
   "note": "Independent of the history for sequential calls. False: new panics for scales from 32 on, the trait cuts scales to 8 bits, its table mixes roots that do not belong together, and two threads can mix the tables."
  },
  {
   "property": "C96",
   "status": "partial",
   "theorems": [
    "Kzg.Props.C96_fft_is_evaluation",
    "Kzg.Props.C96_fft_roundtrip_partial",
    "Kzg.Props.C96_fft_roundtrip_31",
    "Kzg.Props.C96_fft_rejects"
   ],
   "note": "Round trip up to 2^30 values; at 2^31 it gives the negatives (proved)."
  },
  {
   "property": "C97",
   "status": "proved",
   "theorems": [
    "Kzg.Props.C97_fast_eq_slow"
   ],
   "note": ""
  },
  {
   "property": "C98",
   "status": "partial",
   "theorems": [
    "Kzg.Props.C98_fft_g1",
    "Kzg.Props.C98_roundtrip_partial",
    "Kzg.Props.C98_roundtrip_31",
    "Kzg.Props.C98_rejects",
    "Kzg.Props.C98_empty"
   ],
   "note": "Round trip up to 2^30 points; at 2^31 it gives the negatives; the empty list panics (proved)."
  },
  {
   "property": "C99",
   "status": "partial",
   "theorems": [
    "Kzg.Props.C99_eval",
    "Kzg.Props.C99_mul_direct",
    "Kzg.Props.C99_mul_fft_partial",
    "Kzg.Props.C99_mul_partial",
    "Kzg.Props.C99_mul_fft_negated",
    "Kzg.Props.C99_mul_fft_narrow",
    "Kzg.Props.C99_mul_fft_empty"
   ],
   "note": "Up to 2^30 coefficients of the product; above that the product is negated (proved). Two empty operands panic."
  },
  {
   "property": "C100",
   "status": "partial",
   "theorems": [
    "Kzg.Props.C100_long_division",
    "Kzg.Props.C100_fast_div_partial",
    "Kzg.Props.C100_fast_div_negated",
    "Kzg.Props.C100_div_partial",
    "Kzg.Props.C100_rejects",
    "Kzg.Props.C100_fast_div_long",
    "Kzg.Props.C100_fast_div_panics",
    "Kzg.Props.C100_div_choice"
   ],
   "note": "Long division for all lengths. Fast division for quotients up to 2^29 coefficients. Refuted above: negated, right again, or three times the quotient in the upper half, by the lengths (C100_fast_div_long); a panic above 2^30 (C100_fast_div_panics)."
  },
  {
   "property": "C101",
   "status": "partial",
   "theorems": [
    "Kzg.Props.C101_inverse_partial",
    "Kzg.Props.C101_rejects",
    "Kzg.Props.C101_constant",
    "Kzg.Props.C101_right_partial",
    "Kzg.Props.C101_negated",
    "Kzg.Props.C101_wrong",
    "Kzg.Props.C101_panics",
    "Kzg.Props.C101_right_iff",
    "Kzg.Props.C101_rejects_iff"
   ],
   "note": "Refuted above 2^30 coefficients, with the exact domain (C101_right_iff). Right if n <= 2^30 and the second product of the last step has at most 2^30 coefficients, always for n up to 2/3 of 2^30 and for constants. Otherwise negated (C101_negated), wrong by a factor -3 (C101_wrong), or a panic above 2^30 (C101_panics)."
  },
  {
   "property": "C102",
   "status": "partial",
   "theorems": [
    "Kzg.Props.C102_das_extension",
    "Kzg.Props.C102_das_rejects_partial",
    "Kzg.Props.C102_trait_panics"
   ],
   "note": "The trait function panics instead of returning an error (proved)."
  },
  {
   "property": "C103",
   "status": "partial",
   "theorems": [
    "Kzg.Props.C103_product",
    "Kzg.Props.C103_reduce",
    "Kzg.Props.C103_reduce_long",
    "Kzg.Props.C103_zero_poly_signed",
    "Kzg.Props.C103_zero_poly_partial",
    "Kzg.Props.C103_negated_31",
    "Kzg.Props.C103_dense_panics",
    "Kzg.Props.C103_zero_poly_edges",
    "Kzg.Props.C103_full_statement_false"
   ],
   "note": "Refuted for dense sets: beyond 63*(D/64+1) missing positions the call panics (C103_dense_panics), and for D = 2^31 with 64*ceil(m/63) > 2^30 the result is negated (C103_negated_31). Proved for every other nonempty list of missing positions and every domain (C103_zero_poly_signed covers both signs). With nothing missing it returns zeros."
  },
  {
   "property": "C104",
   "status": "proved",
   "theorems": [
    "Kzg.Props.C104_recovery_general",
    "Kzg.Props.C104_recovery",
    "Kzg.Props.C104_unwrap_default"
   ],
   "note": "All domains up to 2^31. On 2^31 the zero polynomial may be negated (C103) and the inverse transform negates (C96); the signs cancel."
  },
  {
   "property": "C105",
   "status": "partial",
   "theorems": [
    "Kzg.Props.C105_agrees_partial",
    "Kzg.Props.C105_complete_ignored",
    "Kzg.Props.C105_complete_wrong",
    "Kzg.Props.C105_rejects"
   ],
   "note": "Refuted if nothing is missing: the result then does not depend on the samples (C105_complete_ignored, C105_complete_wrong). Proved for all sample lists with at least one missing and one present value and at most 63*(D/64+1) missing; more missing values panic."
  },
  {
   "property": "C106",
   "status": "partial",
   "theorems": [
    "Kzg.Props.C106_parallel_partial",
    "Kzg.Props.C106_large_panics"
   ],
   "note": "Refuted above 65536 samples: the parallel version panics there (C106_large_panics). Proved up to 65536."
  },
  {
   "property": "C107",
   "status": "proved",
   "theorems": [
    "Kzg.Props.C107_secret",
    "Kzg.Props.C107_setup",
    "Kzg.Props.C107_setup_large",
    "Kzg.Props.C107_settings_new",
    "Kzg.Props.C107_reading_differs"
   ],
   "note": "Both ways to make a setup; settings with any numbers of points. C107_reading_differs: the bytes are read in another order than in blst-from-scratch."
  },
  {
   "property": "C108",
   "status": "partial",
   "theorems": [
    "Kzg.Props.C108_commit",
    "Kzg.Props.C108_single_proof_partial",
    "Kzg.Props.C108_single_complete",
    "Kzg.Props.C108_single_accepts_iff",
    "Kzg.Props.C108_single_unique",
    "Kzg.Props.C108_single_tiny_setup",
    "Kzg.Props.C108_long_proof_wrong",
    "Kzg.Props.C108_final_exponent"
   ],
   "note": "Everything for polynomials that fit the setup (proofs: one coefficient more). C108_long_proof_wrong: for two coefficients more the proof returned is wrong and refused. C108_single_tiny_setup: fewer than two points panic."
  },
  {
   "property": "C109",
   "status": "partial",
   "theorems": [
    "Kzg.Props.C109_multi_proof",
    "Kzg.Props.C109_multi_complete_partial",
    "Kzg.Props.C109_multi_accepts_iff",
    "Kzg.Props.C109_multi_full_width_panics",
    "Kzg.Props.C109_multi_sizes",
    "Kzg.Props.C109_missing_values_are_zero"
   ],
   "note": "n up to 2^30 below the setup length, polynomials up to 2^29 coefficients, x not 0. C109_multi_full_width_panics: n equal to the setup length panics. C109_missing_values_are_zero: too short value lists count as filled with zeros. Longer polynomials: C196."
  },
  {
   "property": "C110",
   "status": "partial",
   "theorems": [
    "Kzg.Props.C110_settings_new",
    "Kzg.Props.C110_fk20_single_partial",
    "Kzg.Props.C110_largest_negated",
    "Kzg.Props.C110_fk20_single_order",
    "Kzg.Props.C110_rejects"
   ],
   "note": "All sizes up to 2^30. C110_largest_negated: for size 2^31 every entry is the negation of the proof."
  },
  {
   "property": "C111",
   "status": "partial",
   "theorems": [
    "Kzg.Props.C111_settings_new",
    "Kzg.Props.C111_fk20_multi_partial",
    "Kzg.Props.C111_fk20_multi_values",
    "Kzg.Props.C111_fk20_multi_order",
    "Kzg.Props.C111_rejects"
   ],
   "note": "Comparison with compute_proof_multi up to 2^29 coefficients; the values of all entries except for chunk length 1 at size 2^31 (C111_fk20_multi_values)."
  },
  {
   "property": "C112",
   "status": "partial",
   "theorems": [
    "Kzg.Props.C112_right_size_partial",
    "Kzg.Props.C112_longer_too_few",
    "Kzg.Props.C112_shorter_wrong",
    "Kzg.Props.C112_full_statement_false",
    "Kzg.Props.C112_multi_longer_panics",
    "Kzg.Props.C112_multi_below_chunk_panics",
    "Kzg.Props.C112_multi_unextended"
   ],
   "note": "Holds for the length the settings were made for. Refuted otherwise: C112_longer_too_few, C112_shorter_wrong, C112_full_statement_false; multi proofs panic or, unextended, come out half as many."
  },
  {
   "property": "C113",
   "status": "proved",
   "theorems": [
    "Kzg.Props.C113_new",
    "Kzg.Props.C113_same_settings",
    "Kzg.Props.C113_clone",
    "Kzg.Props.C113_default"
   ],
   "note": ""
  },
  {
   "property": "C114",
   "status": "partial",
   "theorems": [
    "Kzg.Props.C114_fft",
    "Kzg.Props.C114_same_transform",
    "Kzg.Props.C114_rejects",
    "Kzg.Props.C114_fast_eq_slow_partial",
    "Kzg.Props.C114_fast_ignores_roots",
    "Kzg.Props.C114_inverse_table_differs"
   ],
   "note": "fft_fr is proved in full, and agrees with blst-from-scratch. Refuted for the low level functions: C114_fast_ignores_roots, C114_inverse_table_differs; they agree for the forward table (C114_fast_eq_slow_partial)."
  },
  {
   "property": "C115",
   "status": "partial",
   "theorems": [
    "Kzg.Props.C115_fft_g1",
    "Kzg.Props.C115_rejects",
    "Kzg.Props.C115_fast_eq_slow_partial",
    "Kzg.Props.C115_slow_one_point",
    "Kzg.Props.C115_linear_combination",
    "Kzg.Props.C115_make_data"
   ],
   "note": "fft_g1 and linear combinations are proved in full. Refuted for the low level functions on one point: C115_slow_one_point."
  },
  {
   "property": "C116",
   "status": "partial",
   "theorems": [
    "Kzg.Props.C116_words_roundtrip",
    "Kzg.Props.C116_from_words_partial",
    "Kzg.Props.C116_from_words_large",
    "Kzg.Props.C116_null_is_an_element",
    "Kzg.Props.C116_null_ne",
    "Kzg.Props.C116_inverse_div",
    "Kzg.Props.C116_eucl_inverse"
   ],
   "note": "Proved for words below r. Refuted: words from r on give zero (C116_from_words_large), null is an ordinary element (C116_null_is_an_element), eucl_inverse always panics (C116_eucl_inverse)."
  },
  {
   "property": "C117",
   "status": "partial",
   "theorems": [
    "Kzg.Props.C117_eval",
    "Kzg.Props.C117_mul_direct_partial",
    "Kzg.Props.C117_mul_direct_zero",
    "Kzg.Props.C117_mul_fft",
    "Kzg.Props.C117_mul_fft_narrow",
    "Kzg.Props.C117_mul_fft_empty",
    "Kzg.Props.C117_mul_partial",
    "Kzg.Props.C117_mul_zero"
   ],
   "note": "Nonzero operands; mul_fft also zero ones. Refuted: a zero operand gives the empty list in mul_direct (C117_mul_direct_zero, C117_mul_zero); nothing to multiply panics (C117_mul_fft_empty)."
  },
  {
   "property": "C118",
   "status": "partial",
   "theorems": [
    "Kzg.Props.C118_inverse_partial",
    "Kzg.Props.C118_inverse_rejects",
    "Kzg.Props.C118_inverse_panics",
    "Kzg.Props.C118_long_division",
    "Kzg.Props.C118_long_division_by_zero",
    "Kzg.Props.C118_fast_div_partial",
    "Kzg.Props.C118_fast_div_rejects",
    "Kzg.Props.C118_fast_div_zero",
    "Kzg.Props.C118_div_partial",
    "Kzg.Props.C118_div_trailing_zeros"
   ],
   "note": "Nonzero dividends, divisors with nonzero last coefficient, up to 2^30 coefficients. Refuted for the lengths 0 and above 2^30 (C118_inverse_panics), zero divisors (C118_long_division_by_zero), zero dividends of fast_div (C118_fast_div_zero) and zeros at the top of long divisors (C118_div_trailing_zeros)."
  },
  {
   "property": "C119",
   "status": "partial",
   "theorems": [
    "Kzg.Props.C119_product",
    "Kzg.Props.C119_reduce",
    "Kzg.Props.C119_zero_poly_partial",
    "Kzg.Props.C119_dense_error",
    "Kzg.Props.C119_zero_poly_edges",
    "Kzg.Props.C119_full_statement_false"
   ],
   "note": "Refuted for dense sets from domain 8192 on: an error exactly if more than 63*(D/64+1) positions are missing (C119_dense_error, C119_full_statement_false)."
  },
  {
   "property": "C120",
   "status": "proved",
   "theorems": [
    "Kzg.Props.C120_recovery_general",
    "Kzg.Props.C120_recovery"
   ],
   "note": ""
  },
  {
   "property": "C121",
   "status": "proved",
   "theorems": [
    "Kzg.Props.C121_recovery_sound",
    "Kzg.Props.C121_recovery_outcome"
   ],
   "note": ""
  },
  {
   "property": "C122",
   "status": "proved",
   "theorems": [
    "Kzg.Props.C122_history_independent",
    "Kzg.Props.C122_scaling",
    "Kzg.Props.C122_scaling_empty"
   ],
   "note": "C122_scaling_empty: for the empty polynomial scale_poly panics with the parallel feature only."
  },
  {
   "property": "C123",
   "status": "partial",
   "theorems": [
    "Kzg.Props.C123_threads_partial",
    "Kzg.Props.C123_race",
    "Kzg.Props.C123_full_statement_false",
    "Kzg.Props.C123_guarded",
    "Kzg.Props.C123_alone",
    "Kzg.Props.C123_guard_needed"
   ],
   "note": "Refuted: C123_race, C123_full_statement_false. Holds if the table is long enough before (C123_threads_partial) and if no call starts while another makes the table longer (C123_guarded); a call alone always ends with the right result (C123_alone)."
  },
  {
   "property": "C124",
   "status": "proved",
   "theorems": [
    "Kzg.Props.C124_das_extension",
    "Kzg.Props.C124_das_rejects"
   ],
   "note": ""
  },
  {
   "property": "C125",
   "status": "partial",
   "theorems": [
    "Kzg.Props.C125_secret_partial",
    "Kzg.Props.C125_identity",
    "Kzg.Props.C125_same_for_all_secrets",
    "Kzg.Props.C125_large",
    "Kzg.Props.C125_setup_test",
    "Kzg.Props.C125_full_statement_false"
   ],
   "note": "Refuted: the points multiplied are made with the flag for infinity set, so every setup consists of identity points and is the same for all secrets. Proved: the reading of the secret, the panic for large ones, and that generate_trusted_setup_test gives the powers."
  },
  {
   "property": "C126",
   "status": "partial",
   "theorems": [
    "Kzg.Props.C126_settings_partial",
    "Kzg.Props.C126_secret_ignored",
    "Kzg.Props.C126_same_for_all_secrets",
    "Kzg.Props.C126_empty_panics",
    "Kzg.Props.C126_clone",
    "Kzg.Props.C126_default",
    "Kzg.Props.C126_seed",
    "Kzg.Props.C126_seed_iff"
   ],
   "note": "Refuted: the given points are used only to seed the generator that draws another secret (the first 32 bytes of x of the last point), so with points of generate_trusted_setup all settings belong to one constant; a clone is one longer and belongs to another scalar; an empty list and clones of default settings panic. Proved: the settings consist of consistent powers of the drawn scalar."
  },
  {
   "property": "C127",
   "status": "proved",
   "theorems": [
    "Kzg.Props.C127_commit",
    "Kzg.Props.C127_last_point_unused",
    "Kzg.Props.C127_single_proof",
    "Kzg.Props.C127_single_complete",
    "Kzg.Props.C127_single_accepts_iff",
    "Kzg.Props.C127_single_unique",
    "Kzg.Props.C127_length_zero"
   ],
   "note": ""
  },
  {
   "property": "C128",
   "status": "partial",
   "theorems": [
    "Kzg.Props.C128_multi_proof",
    "Kzg.Props.C128_multi_complete_partial",
    "Kzg.Props.C128_multi_accepts_iff",
    "Kzg.Props.C128_multi_long_panics",
    "Kzg.Props.C128_zero_polynomial_panics",
    "Kzg.Props.C128_zero_points",
    "Kzg.Props.C128_full_statement_false"
   ],
   "note": "Missing: a zero polynomial with n >= 127 points and length from n+2 to n+127 panics (proved, negation of the full statement); polynomials of more than 2^30 coefficients (see C196). n above the length, the point zero and other numbers of values panic."
  },
  {
   "property": "C129",
   "status": "proved",
   "theorems": [
    "Kzg.Props.C129_settings_new",
    "Kzg.Props.C129_fk20_single_values",
    "Kzg.Props.C129_fk20_single",
    "Kzg.Props.C129_fk20_single_order",
    "Kzg.Props.C129_rejects"
   ],
   "note": ""
  },
  {
   "property": "C130",
   "status": "proved",
   "theorems": [
    "Kzg.Props.C130_settings_new",
    "Kzg.Props.C130_fk20_multi_values",
    "Kzg.Props.C130_fk20_multi",
    "Kzg.Props.C130_fk20_multi_order",
    "Kzg.Props.C130_rejects"
   ],
   "note": ""
  },
  {
   "property": "C131",
   "status": "partial",
   "theorems": [
    "Kzg.Props.C131_right_size_partial",
    "Kzg.Props.C131_longer_panics",
    "Kzg.Props.C131_shorter_wrong",
    "Kzg.Props.C131_multi_longer_panics",
    "Kzg.Props.C131_multi_below_chunk_panics",
    "Kzg.Props.C131_clone_panics",
    "Kzg.Props.C131_defaults",
    "Kzg.Props.C131_full_statement_false",
    "Kzg.Props.C131_default_fields"
   ],
   "note": "Refuted: shorter polynomials get wrong lists without an error, longer ones and ones shorter than a chunk panic, cloning FK20 settings always panics. Proved: the right size."
  },
  {
   "property": "C132",
   "status": "partial",
   "theorems": [
    "Kzg.Props.C132_scalar",
    "Kzg.Props.C132_scalar_round_trip",
    "Kzg.Props.C132_u64_arr",
    "Kzg.Props.C132_poly_out",
    "Kzg.Props.C132_poly_in",
    "Kzg.Props.C132_poly_in_wrong",
    "Kzg.Props.C132_fp_out",
    "Kzg.Props.C132_fp_in",
    "Kzg.Props.C132_fp_in_wrong",
    "Kzg.Props.C132_point_out",
    "Kzg.Props.C132_point_out_wrong",
    "Kzg.Props.C132_point_round_trip",
    "Kzg.Props.C132_point_in_partial",
    "Kzg.Props.C132_point_in_infinity",
    "Kzg.Props.C132_point_in_wrong",
    "Kzg.Props.C132_full_statement_false"
   ],
   "note": "Refuted: polynomials from blst keep only the low word of the Montgomery form of each coefficient, base field elements from blst come out divided by 2^384, points with a last coordinate other than 0 and 1 become other points (C132_point_out is exact), and the point at infinity of blst has no counterpart. Proved: scalars both ways, word arrays, polynomials to blst, round trips of points."
  },
  {
   "property": "C133",
   "status": "proved",
   "theorems": [
    "Kzg.Props.C133_g1_generator",
    "Kzg.Props.C133_g1_negative",
    "Kzg.Props.C133_g2_generator",
    "Kzg.Props.C133_g2_negative",
    "Kzg.Props.C133_identity",
    "Kzg.Props.C133_mcl_gen",
    "Kzg.Props.C133_unique"
   ],
   "note": ""
  },
  {
   "property": "C134",
   "status": "proved",
   "theorems": [
    "Kzg.Props.C134_log2",
    "Kzg.Props.C134_is_power_of_2",
    "Kzg.Props.C134_next_pow_of_2",
    "Kzg.Props.C134_next_pow_of_2_overflow",
    "Kzg.Props.C134_log_2_byte",
    "Kzg.Props.C134_expand",
    "Kzg.Props.C134_expand_rejects",
    "Kzg.Props.C134_expand_mcl_diverges"
   ],
   "note": "The second expansion does not stop for elements of which no power is one (C134_expand_mcl_diverges)."
  },
  {
   "property": "C135",
   "status": "partial",
   "theorems": [
    "Kzg.Props.C135_setup",
    "Kzg.Props.C135_setup_agrees",
    "Kzg.Props.C135_make_data",
    "Kzg.Props.C135_make_data_wrong",
    "Kzg.Props.C135_make_data_partial",
    "Kzg.Props.C135_scale_truncated",
    "Kzg.Props.C135_scale_partial",
    "Kzg.Props.C135_add_or_dbl"
   ],
   "note": "Refuted: make_data drops the sums it computes and returns copies of the generator; the scale is taken modulo 2^32. Proved: the setup, and the rest for at most one entry and scales below 2^32."
  },
  {
   "property": "C136",
   "status": "partial",
   "theorems": [
    "Kzg.Props.C136_safe_partial",
    "Kzg.Props.C136_tables",
    "Kzg.Props.C136_answer",
    "Kzg.Props.C136_recover",
    "Kzg.Props.C136_unchecked",
    "Kzg.Props.C136_mul_fft_empty",
    "Kzg.Props.C136_forwards"
   ],
   "note": "Refuted: check_proof_multi, KZGSettings::new, linear_combination_g1, the accessors by index and the benchmark transforms do not compare lengths and indices with the buffers; C136_unchecked says exactly when they go outside. poly_mul_fft of empty polynomials panics. Proved for all other functions, for libraries that make polynomials of the length asked for."
  },
  {
   "property": "C137",
   "status": "partial",
   "theorems": [
    "Kzg.Props.C137_careful_partial",
    "Kzg.Props.C137_no_leak",
    "Kzg.Props.C137_start",
    "Kzg.Props.C137_clone_double_free",
    "Kzg.Props.C137_clone_use",
    "Kzg.Props.C137_default_poly",
    "Kzg.Props.C137_settings_outlive"
   ],
   "note": "Refuted: derived clones share memory, so ending both frees it twice; default polynomials and failed divisions free a dangling pointer; settings do not keep those they refer to alive. Proved for programs that avoid this (Careful)."
  },
  {
   "property": "C138",
   "status": "proved",
   "theorems": [
    "Kzg.Props.C138_contract",
    "Kzg.Props.C138_inverse_zero"
   ],
   "note": "For all reduced words; the inverse of zero panics."
  },
  {
   "property": "C139",
   "status": "partial",
   "theorems": [
    "Kzg.Props.C139_contract_partial",
    "Kzg.Props.C139_null_is_an_element",
    "Kzg.Props.C139_null_iff",
    "Kzg.Props.C139_inverse_zero"
   ],
   "note": "Refuted: the element (2^256-1) mod r is taken for null (C139_null_iff: only that one). Everything else is proved."
  },
  {
   "property": "C140",
   "status": "partial",
   "theorems": [
    "Kzg.Props.C140_contract_partial",
    "Kzg.Props.C140_from_words_panics",
    "Kzg.Props.C140_pow_zero",
    "Kzg.Props.C140_eucl_inverse",
    "Kzg.Props.C140_null_is_an_element",
    "Kzg.Props.C140_full_statement_false"
   ],
   "note": "Refuted: pow(0) returns the element, words from r on panic, eucl_inverse panics, null is an ordinary element. The rest is proved."
  },
  {
   "property": "C141",
   "status": "partial",
   "theorems": [
    "Kzg.Props.C141_ckzg_panics",
    "Kzg.Props.C141_ckzg_false",
    "Kzg.Props.C141_ark_partial",
    "Kzg.Props.C141_ark_false",
    "Kzg.Props.C141_ckzg_partial"
   ],
   "note": "Refuted: ckzg panics for sub, inverse and eucl_inverse whatever the library does; Arkworks gives zero for words from r on, panics for divisions by zero and eucl_inverse, and takes an ordinary element for null. The rest is proved for Arkworks, and for ckzg relative to its library."
  },
  {
   "property": "C142",
   "status": "partial",
   "theorems": [
    "Kzg.Props.C142_agreement_partial",
    "Kzg.Props.C142_words_differ",
    "Kzg.Props.C142_zero_differs",
    "Kzg.Props.C142_null_differs"
   ],
   "note": "Refuted for words from r on, zero divisors and null; agreement proved for all else."
  },
  {
   "property": "C143",
   "status": "partial",
   "theorems": [
    "Kzg.Props.C143_g2_contract",
    "Kzg.Props.C143_g1_contract_partial",
    "Kzg.Props.C143_g1_false"
   ],
   "note": "Refuted for G1 products with overflow checks: those whose rounding overflows panic (C54). Everything else is proved, for G2 without exception."
  },
  {
   "property": "C144",
   "status": "partial",
   "theorems": [
    "Kzg.Props.C144_values_partial",
    "Kzg.Props.C144_add_overwrites",
    "Kzg.Props.C144_equals_points_partial",
    "Kzg.Props.C144_equals_words",
    "Kzg.Props.C144_g2_default",
    "Kzg.Props.C144_constants"
   ],
   "note": "Refuted: add_or_dbl writes the sum to its first argument; the default of G2 panics; equals is wrong if the crate blst compares words (and right if it compares points). The values are proved right given a lawful library."
  },
  {
   "property": "C145",
   "status": "proved",
   "theorems": [
    "Kzg.Props.C145_blst",
    "Kzg.Props.C145_mcl"
   ],
   "note": "Given libraries that compute in the prime order groups."
  },
  {
   "property": "C146",
   "status": "proved",
   "theorems": [
    "Kzg.Props.C146_fp",
    "Kzg.Props.C146_fp_onto",
    "Kzg.Props.C146_scalar",
    "Kzg.Props.C146_g1",
    "Kzg.Props.C146_g1_onto",
    "Kzg.Props.C146_g1_again",
    "Kzg.Props.C146_g2",
    "Kzg.Props.C146_g2_onto"
   ],
   "note": "The generator is the list of its answers; a loop that uses up the list gives none. Not about distributions."
  },
  {
   "property": "C147",
   "status": "proved",
   "theorems": [
    "Kzg.Props.C147_is_odd",
    "Kzg.Props.C147_bits",
    "Kzg.Props.C147_two_adicity",
    "Kzg.Props.C147_generator",
    "Kzg.Props.C147_root",
    "Kzg.Props.C147_sum"
   ],
   "note": "The order of 7 from the factorisation of r - 1."
  },
  {
   "property": "C148",
   "status": "proved",
   "theorems": [
    "Kzg.Props.C148_blst",
    "Kzg.Props.C148_mcl",
    "Kzg.Props.C148_ark",
    "Kzg.Props.C148_pairing",
    "Kzg.Props.C148_scalar",
    "Kzg.Props.C148_members"
   ],
   "note": "The pairing is the one zkcrypto computes (C83-C85). Coordinates of Arkworks points, its random numbers and test parameters stay arbitrary."
  },
  {
   "property": "C149",
   "status": "partial",
   "theorems": [
    "Kzg.Props.C149_commit",
    "Kzg.Props.C149_proof_partial",
    "Kzg.Props.C149_zero_polynomial",
    "Kzg.Props.C149_check_partial",
    "Kzg.Props.C149_across"
   ],
   "note": "Refuted for zkcrypto: proofs of the zero polynomial panic there and are the identity elsewhere (C149_zero_polynomial), and its check overflows for the values of C54. Proved: commitments; proofs of nonzero polynomials of at most 2^30 coefficients; the checks for all other values; acceptance across backends."
  },
  {
   "property": "C150",
   "status": "partial",
   "theorems": [
    "Kzg.Props.C150_roots",
    "Kzg.Props.C150_check_partial",
    "Kzg.Props.C150_proof",
    "Kzg.Props.C150_mcl_roots",
    "Kzg.Props.C150_mcl_refuses"
   ],
   "note": "Refuted for mcl-kzg: its cosets of eight or more points are others unless the settings come from the constructor of the trait with scale below 7 (C150_mcl_roots, an equivalence), and then it refuses proofs and values that the other three accept (C150_mcl_refuses). Proved: proofs of nonzero polynomials of at most 2^29 coefficients agree in all four, cosets and checks in the other three."
  },
  {
   "property": "C151",
   "status": "partial",
   "theorems": [
    "Kzg.Props.C151_settings",
    "Kzg.Props.C151_fft",
    "Kzg.Props.C151_das",
    "Kzg.Props.C151_fft_g1_partial",
    "Kzg.Props.C151_mcl_settings",
    "Kzg.Props.C151_mcl_partial",
    "Kzg.Props.C151_mcl_differs",
    "Kzg.Props.C151_mcl_pads"
   ],
   "note": "Refuted for mcl-kzg: its settings are the others for scales below 3, or below 7 from the constructor of the trait, and no others (C151_mcl_settings, an equivalence); then some transform differs (C151_mcl_differs), and lengths that the others refuse are filled up (C151_mcl_pads). Proved: settings, transforms of field elements and extensions of the other three for all inputs; points for zkcrypto with scale at most 16 or no overflowing root; mcl-kzg where its settings are the same."
  },
  {
   "property": "C152",
   "status": "partial",
   "theorems": [
    "Kzg.Props.C152_single_partial",
    "Kzg.Props.C152_multi_partial",
    "Kzg.Props.C152_mcl_differs"
   ],
   "note": "Refuted for mcl-kzg where its root of unity is another one: the second proof of X^2 differs (C152_mcl_differs). Proved: blst-from-scratch and Arkworks for all sizes; mcl-kzg where the root is the same and lists have at most 2^30 entries; zkcrypto with scale at most 16 and no overflowing factor."
  },
  {
   "property": "C153",
   "status": "partial",
   "theorems": [
    "Kzg.Props.C153_recover_partial",
    "Kzg.Props.C153_refuses",
    "Kzg.Props.C153_mcl_differs"
   ],
   "note": "Refuted for mcl-kzg where its root of unity is another one (C153_mcl_differs), and for blst-from-scratch beyond 65536 samples, where it panics. Proved: Arkworks recovers exactly what zkcrypto recovers, with the same data (C153_refuses); blst-from-scratch up to 65536 samples, mcl-kzg with the same root in all sizes."
  },
  {
   "property": "C154",
   "status": "proved",
   "theorems": [
    "Kzg.Props.C154_storage",
    "Kzg.Props.C154_default",
    "Kzg.Props.C154_writes"
   ],
   "note": "Storage contract, default and history of writes for all four backends."
  },
  {
   "property": "C155",
   "status": "partial",
   "theorems": [
    "Kzg.Props.C155_ark_partial",
    "Kzg.Props.C155_extra_factor",
    "Kzg.Props.C155_full_statement_false",
    "Kzg.Props.C155_mcl_panics",
    "Kzg.Props.C155_roundtrip"
   ],
   "note": "Proved for Arkworks. Refuted: blst-from-scratch and zkcrypto return p(x/5)/5 and 5p(5x) (C155_extra_factor, C155_full_statement_false); mcl-kzg panics (C155_mcl_panics). The round trips hold."
  },
  {
   "property": "C156",
   "status": "partial",
   "theorems": [
    "Kzg.Props.C156_eval",
    "Kzg.Props.C156_mul_partial",
    "Kzg.Props.C156_inverse_partial",
    "Kzg.Props.C156_inverse_rejects",
    "Kzg.Props.C156_inverse_differs",
    "Kzg.Props.C156_div_partial",
    "Kzg.Props.C156_mul_zero",
    "Kzg.Props.C156_div_by_zero",
    "Kzg.Props.C156_div_differs"
   ],
   "note": "Proved for operands that are not zero and have no zeros at the top, up to 2^29 coefficients. Refuted: constants, zero operands, inverse length 0, zero divisors and zeros at the top (C156_eval, C156_mul_zero, C156_inverse_differs, C156_div_by_zero, C156_div_differs)."
  },
  {
   "property": "C157",
   "status": "partial",
   "theorems": [
    "Kzg.Props.C157_contract",
    "Kzg.Props.C157_mcl_partial",
    "Kzg.Props.C157_mcl_truncates",
    "Kzg.Props.C157_mcl_full_statement_false"
   ],
   "note": "Refuted: mcl-kzg takes scales modulo 256 (C157_mcl_truncates, C157_mcl_full_statement_false). Proved for blst-from-scratch, zkcrypto and Arkworks for all scales, and for mcl-kzg below 256."
  },
  {
   "property": "C158",
   "status": "partial",
   "theorems": [
    "Kzg.Props.C158_default_partial",
    "Kzg.Props.C158_empty_defaults",
    "Kzg.Props.C158_full_statement_false"
   ],
   "note": "Refuted: the defaults of zkcrypto and Arkworks have width 0 and no roots (C158_empty_defaults, C158_full_statement_false). Proved for blst-from-scratch and mcl-kzg."
  },
  {
   "property": "C159",
   "status": "partial",
   "theorems": [
    "Kzg.Props.C159_fft",
    "Kzg.Props.C159_clone_partial",
    "Kzg.Props.C159_ark",
    "Kzg.Props.C159_full_statement_false"
   ],
   "note": "Refuted: clones of settings for commitments of Arkworks differ from the originals and clones of settings for amortised proofs panic (C159_ark, C159_full_statement_false). Proved for the other backends, and for FFT settings in all."
  },
  {
   "property": "C160",
   "status": "partial",
   "theorems": [
    "Kzg.Props.C160_commit_partial",
    "Kzg.Props.C160_panics",
    "Kzg.Props.C160_amortised"
   ],
   "note": "Refuted: zkcrypto and Arkworks panic instead (C160_panics), mcl-kzg panics for the empty polynomial (C160_amortised). Proved for the rest."
  },
  {
   "property": "C161",
   "status": "proved",
   "theorems": [
    "Kzg.Props.C161_g1",
    "Kzg.Props.C161_g2",
    "Kzg.Props.C161_rand"
   ],
   "note": "Relative to the C library doing what its functions are named for (trusted base)."
  },
  {
   "property": "C162",
   "status": "partial",
   "theorems": [
    "Kzg.Props.C162_fr",
    "Kzg.Props.C162_uneven",
    "Kzg.Props.C162_full_statement_false",
    "Kzg.Props.C162_wide_partial",
    "Kzg.Props.C162_g1_blst",
    "Kzg.Props.C162_g1_zk_partial",
    "Kzg.Props.C162_g1_zk_panics",
    "Kzg.Props.C162_mcl_poly",
    "Kzg.Props.C162_mcl_g1"
   ],
   "note": "Refuted: of the 2^256 quadruples of words an element comes from three or from two (C162_uneven), and G1::rand of zkcrypto panics for some words with overflow checks (C162_g1_zk_panics). What holds: every element can come out, the two backends give the same residue, and points are the right multiples unless the rounding overflows; counting is nearly even for the 512-bit function that the trait does not use."
  },
  {
   "property": "C163",
   "status": "proved",
   "theorems": [
    "Kzg.Props.C163_blst",
    "Kzg.Props.C163_blst_any",
    "Kzg.Props.C163_blst_tight",
    "Kzg.Props.C163_mcl",
    "Kzg.Props.C163_ark",
    "Kzg.Props.C163_zk"
   ],
   "note": "Counts secrets; for blst-from-scratch also without assuming that the library handles points at infinity, with two more."
  },
  {
   "property": "C164",
   "status": "partial",
   "theorems": [
    "Kzg.Props.C164_partial",
    "Kzg.Props.C164_forged",
    "Kzg.Props.C164_full_statement_false"
   ],
   "note": "Refuted: there are two values such that honest proofs for the one are accepted with the other for every secret (C164_forged, C164_full_statement_false). Proved for values whose product does not overflow."
  },
  {
   "property": "C165",
   "status": "proved",
   "theorems": [
    "Kzg.Props.C165_blst",
    "Kzg.Props.C165_blst_any",
    "Kzg.Props.C165_mcl",
    "Kzg.Props.C165_ark",
    "Kzg.Props.C165_zk"
   ],
   "note": "For blst-from-scratch, mcl-kzg (m at most 30), Arkworks and zkcrypto, both builds."
  },
  {
   "property": "C166",
   "status": "proved",
   "theorems": [
    "Kzg.Props.C166_blst",
    "Kzg.Props.C166_mcl",
    "Kzg.Props.C166_ark",
    "Kzg.Props.C166_zk"
   ],
   "note": "For blst-from-scratch the secret zero counts only if the library handles points at infinity."
  },
  {
   "property": "C167",
   "status": "partial",
   "theorems": [
    "Kzg.Props.C167_blst_partial",
    "Kzg.Props.C167_mcl",
    "Kzg.Props.C167_ark",
    "Kzg.Props.C167_constant_blst",
    "Kzg.Props.C167_zk_partial",
    "Kzg.Props.C167_constant_zk"
   ],
   "note": "Refuted for polynomials of one coefficient in blst-from-scratch and zkcrypto (C167_constant_blst, C167_constant_zk). Proved for every other polynomial in blst-from-scratch, for every polynomial in mcl-kzg and Arkworks, and for zkcrypto for polynomials that are not zero and factors that are not rounded beyond the type. Where the library has no result for an infinite sum, blst-from-scratch excludes the secret as the point and the secret zero."
  },
  {
   "property": "C168",
   "status": "partial",
   "theorems": [
    "Kzg.Props.C168_blst_partial",
    "Kzg.Props.C168_mcl_partial",
    "Kzg.Props.C168_ark_partial",
    "Kzg.Props.C168_zk_partial",
    "Kzg.Props.C168_blst_exact",
    "Kzg.Props.C168_ark_exact",
    "Kzg.Props.C168_zk_exact",
    "Kzg.Props.C168_mcl_sized",
    "Kzg.Props.C168_mcl_fails"
   ],
   "note": "Refuted for some inputs that fit: exactly which in blst-from-scratch, Arkworks and zkcrypto (C168_blst_exact, C168_ark_exact, C168_zk_exact): one coefficient (eval panics) in the first and last, the zero polynomial in zkcrypto and for some lengths in Arkworks, and the sizes of C196. mcl-kzg: passes for quotients of up to 2^29 coefficients and all long divisions (C168_mcl_sized), fails where proofs are negated or cannot be computed (C168_mcl_fails). Cosets without 0 and the secret, as in the statement."
  },
  {
   "property": "C169",
   "status": "partial",
   "theorems": [
    "Kzg.Props.C169_blst_partial",
    "Kzg.Props.C169_mcl_partial",
    "Kzg.Props.C169_ark",
    "Kzg.Props.C169_zk_partial",
    "Kzg.Props.C169_zk_short_partial"
   ],
   "note": "Proved for 2^m coefficients; 0 < m in blst-from-scratch and zkcrypto (eval panics otherwise), m at most 29 in mcl-kzg, all m in Arkworks. zkcrypto: scales up to 16 and only where no factor is rounded beyond the type."
  },
  {
   "property": "C170",
   "status": "partial",
   "theorems": [
    "Kzg.Props.C170_blst_partial",
    "Kzg.Props.C170_mcl_partial",
    "Kzg.Props.C170_ark",
    "Kzg.Props.C170_zk_partial",
    "Kzg.Props.C170_zk_short_partial"
   ],
   "note": "Proved for 2^(m+c) coefficients and chunks of 2^c; more than one coefficient in blst-from-scratch and zkcrypto (eval panics otherwise), m + c at most 29 in mcl-kzg, all in Arkworks. zkcrypto: scales up to 16 and only where no factor is rounded beyond the type."
  },
  {
   "property": "C171",
   "status": "partial",
   "theorems": [
    "Kzg.Props.C171_blst_partial",
    "Kzg.Props.C171_blst_large",
    "Kzg.Props.C171_mcl_partial",
    "Kzg.Props.C171_mcl_31",
    "Kzg.Props.C171_ark",
    "Kzg.Props.C171_zk",
    "Kzg.Props.C171_simple"
   ],
   "note": "Refuted for scales above 16 in blst-from-scratch (C171_blst_large: the test panics for every input) and for the scale 31 in mcl-kzg (C171_mcl_31: the last comparison panics for every nonzero polynomial). Proved for scales up to 16 there, up to 30 in mcl-kzg and for all scales in Arkworks and zkcrypto; recover_simple for all four."
  },
  {
   "property": "C172",
   "status": "proved",
   "theorems": [
    "Kzg.Props.C172_blst",
    "Kzg.Props.C172_zk",
    "Kzg.Props.C172_ark",
    "Kzg.Props.C172_mcl"
   ],
   "note": ""
  },
  {
   "property": "C173",
   "status": "partial",
   "theorems": [
    "Kzg.Props.C173_serialize_safe",
    "Kzg.Props.C173_serialize_unchecked",
    "Kzg.Props.C173_sizes",
    "Kzg.Props.C173_serialize",
    "Kzg.Props.C173_serialize_small",
    "Kzg.Props.C173_deserialize_trailing",
    "Kzg.Props.C173_text_fits_partial",
    "Kzg.Props.C173_text_panics",
    "Kzg.Props.C173_gt_panics",
    "Kzg.Props.C173_binary_panics",
    "Kzg.Props.C173_orders",
    "Kzg.Props.C173_answers",
    "Kzg.Props.C173_init",
    "Kzg.Props.C173_full_statement_false",
    "Kzg.Props.C173_sizes_overflow"
   ],
   "note": "Refuted for texts of more than 1024 bytes: most elements of GT (C173_gt_panics, C173_full_statement_false) and points of G2 in base 2 (C173_binary_panics) panic; deserialize ignores what follows (C173_deserialize_trailing). Proved: texts of all other types in the bases 10 and 16, bytes, operators, predicates, for libraries that print numbers separated by spaces."
  },
  {
   "property": "C174",
   "status": "proved",
   "theorems": [
    "Kzg.Props.C174_g1_bytes",
    "Kzg.Props.C174_g1_round_trip",
    "Kzg.Props.C174_g1_decode",
    "Kzg.Props.C174_g2_bytes",
    "Kzg.Props.C174_g2_round_trip",
    "Kzg.Props.C174_g2_decode",
    "Kzg.Props.C174_wnaf"
   ],
   "note": ""
  },
  {
   "property": "C175",
   "status": "partial",
   "theorems": [
    "Kzg.Props.C175_blst_partial",
    "Kzg.Props.C175_blst_any",
    "Kzg.Props.C175_mcl",
    "Kzg.Props.C175_ark",
    "Kzg.Props.C175_zk",
    "Kzg.Props.C175_blst_large"
   ],
   "note": "Refuted for blst-from-scratch with more than 65536 values, on which recovery panics for every secret (C175_blst_large). Proved for blst-from-scratch up to 65536, zkcrypto and Arkworks in all sizes, mcl-kzg in all sizes with chunks of up to 2^30 values; N + 2*2^m secrets if the foreign functions of blst treat the identity wrongly."
  },
  {
   "property": "C176",
   "status": "partial",
   "theorems": [
    "Kzg.Props.C176_blst_partial",
    "Kzg.Props.C176_mcl",
    "Kzg.Props.C176_ark",
    "Kzg.Props.C176_zk"
   ],
   "note": "Proved for blst-from-scratch up to 65536 values (recovery panics beyond, C21), mcl-kzg for polynomials of up to 2^29 coefficients (longer quotients are negated, C109), Arkworks and zkcrypto in all sizes, for chunks shorter than the setup (C28, C89, C109, C128). Left out because it panics: the zero polynomial in zkcrypto and, for some lengths, in Arkworks (C89, C128)."
  },
  {
   "property": "C177",
   "status": "partial",
   "theorems": [
    "Kzg.Props.C177_blst_exact",
    "Kzg.Props.C177_zk_exact",
    "Kzg.Props.C177_ark_exact",
    "Kzg.Props.C177_mcl_exact",
    "Kzg.Props.C177_mcl_31",
    "Kzg.Props.C177_passes_partial",
    "Kzg.Props.C177_nothing_missing",
    "Kzg.Props.C177_all_but_one",
    "Kzg.Props.C177_252"
   ],
   "note": "Refuted: nothing missing panics in three backends (C177_nothing_missing), dense sets panic in all (C177_all_but_one), mcl-kzg fails with 2^31 positions (C177_mcl_31); the exact theorems say when a round passes."
  },
  {
   "property": "C178",
   "status": "partial",
   "theorems": [
    "Kzg.Props.C178_passes_partial",
    "Kzg.Props.C178_blind"
   ],
   "note": "Refuted in its last part: the comparisons are dropped and any products of enough coefficients pass (C178_blind). Every comparison holds in all four backends; in mcl-kzg up to 2^30 positions."
  },
  {
   "property": "C179",
   "status": "partial",
   "theorems": [
    "Kzg.Props.C179_blst",
    "Kzg.Props.C179_zk",
    "Kzg.Props.C179_ark",
    "Kzg.Props.C179_mcl_compare",
    "Kzg.Props.C179_mcl_partial",
    "Kzg.Props.C179_mcl_31",
    "Kzg.Props.C179_mcl_stride_partial",
    "Kzg.Props.C179_mcl_stride",
    "Kzg.Props.C179_mcl_stride_exact",
    "Kzg.Props.C179_inverse",
    "Kzg.Props.C179_inverse_other_table"
   ],
   "note": "Refuted for mcl-kzg: the round trip at size 31 returns the negated data (C179_mcl_31), and the stride test fails for sizes of which one is from 3 to 6 and the other at least 7 (C179_mcl_stride_exact). Proved in full for blst-from-scratch, zkcrypto and Arkworks, with the exact sizes that pass. Arkworks and mcl-kzg take ranges of sizes from the domain of their number types. ckzg transforms inside its C library."
  },
  {
   "property": "C180",
   "status": "partial",
   "theorems": [
    "Kzg.Props.C180_blst",
    "Kzg.Props.C180_ark_partial",
    "Kzg.Props.C180_ark_zero",
    "Kzg.Props.C180_mcl_compare",
    "Kzg.Props.C180_mcl_partial",
    "Kzg.Props.C180_mcl_31",
    "Kzg.Props.C180_mcl_stride",
    "Kzg.Props.C180_zk_partial"
   ],
   "note": "Refuted for mcl-kzg (C180_mcl_31, C180_mcl_stride) and at size 0: for blst-from-scratch (C180_blst) and Arkworks (C180_ark_zero). Proved for blst-from-scratch with the exact sizes, for Arkworks from size 1, for mcl-kzg with the exact sizes, and for zkcrypto with sizes 1 to 16; missing there are 17 to 31, as in C90."
  },
  {
   "property": "C181",
   "status": "partial",
   "theorems": [
    "Kzg.Props.C181_mul_random_partial",
    "Kzg.Props.C181_div_random_partial",
    "Kzg.Props.C181_random_empty",
    "Kzg.Props.C181_mul_random_no_output",
    "Kzg.Props.C181_mul_random_mcl_long",
    "Kzg.Props.C181_div_random_mcl_long",
    "Kzg.Props.C181_mul_random_exact",
    "Kzg.Props.C181_div_random_exact"
   ],
   "note": "Holds for at most 2^30+1 coefficients together and dividends of at most 2^29, in all four backends, far beyond what the tests draw. The exact lengths of blst-from-scratch, zkcrypto and Arkworks, beyond which a round panics, are in C181_mul_random_exact and C181_div_random_exact. Refuted beyond: in mcl-kzg the product with transforms and the fast quotient come out negated and the tests fail. With an empty operand every backend fails, with an empty result mcl-kzg and Arkworks."
  },
  {
   "property": "C182",
   "status": "partial",
   "theorems": [
    "Kzg.Props.C182_create",
    "Kzg.Props.C182_eval_check_partial",
    "Kzg.Props.C182_eval_zero_check",
    "Kzg.Props.C182_eval_nil",
    "Kzg.Props.C182_inverse_simple",
    "Kzg.Props.C182_div_case",
    "Kzg.Props.C182_div_table",
    "Kzg.Props.C182_div_seventh",
    "Kzg.Props.C182_div_by_zero",
    "Kzg.Props.C182_mul_case",
    "Kzg.Props.C182_mul_values"
   ],
   "note": "Holds except: poly_eval_check with one coefficient fails in blst-from-scratch and zkcrypto, and poly_div_by_zero fails in Arkworks (where the test is marked should_panic). Refuted as stated by these. Inverses up to 2^29 - 2 coefficients, dividends up to 2^29."
  },
  {
   "property": "C183",
   "status": "partial",
   "theorems": [
    "Kzg.Props.C183_null",
    "Kzg.Props.C183_zero_one",
    "Kzg.Props.C183_equal",
    "Kzg.Props.C183_equal_reduced",
    "Kzg.Props.C183_negate",
    "Kzg.Props.C183_pow_partial",
    "Kzg.Props.C183_pow_zero",
    "Kzg.Props.C183_div",
    "Kzg.Props.C183_div_by_zero",
    "Kzg.Props.C183_roundtrip",
    "Kzg.Props.C183_log_2_byte"
   ],
   "note": "Every test is stated as an equation: it passes exactly when its values are right, in all four backends, with all values. Missing: the exponent zero of fr_pow_works, with which the test fails in mcl-kzg for every base but one (C183_pow_zero), and a zero divisor in mcl-kzg (depends on the library) and Arkworks (panics, as its mark says) (C183_div_by_zero)."
  },
  {
   "property": "C184",
   "status": "partial",
   "theorems": [
    "Kzg.Props.C184_points",
    "Kzg.Props.C184_mul_partial",
    "Kzg.Props.C184_linear_combinations",
    "Kzg.Props.C184_pairings_blst",
    "Kzg.Props.C184_pairings"
   ],
   "note": "All tests in all backends. Missing: p1_mul_works in zkcrypto without overflow checks with a scalar whose rounding overflows (C54), which the test never takes."
  },
  {
   "property": "C185",
   "status": "proved",
   "theorems": [
    "Kzg.Props.C185_out_of_bounds",
    "Kzg.Props.C185_roots",
    "Kzg.Props.C185_expand",
    "Kzg.Props.C185_settings",
    "Kzg.Props.C185_tables",
    "Kzg.Props.C185_weak_table"
   ],
   "note": "Exact conditions in all four backends, the expansion of ckzg included; C185_weak_table shows a wrong table that the tests let through."
  },
  {
   "property": "C186",
   "status": "proved",
   "theorems": [
    "Kzg.Props.C186_das",
    "Kzg.Props.C186_zero",
    "Kzg.Props.C186_data",
    "Kzg.Props.C186_reduce",
    "Kzg.Props.C186_data_multiples",
    "Kzg.Props.C186_known",
    "Kzg.Props.C186_data_zeros"
   ],
   "note": "Every backend; the three tests of zero polynomials in mcl-kzg up to 2^30 positions, as stated."
  },
  {
   "property": "C187",
   "status": "partial",
   "theorems": [
    "Kzg.Props.C187_commit_blst",
    "Kzg.Props.C187_commit_mcl",
    "Kzg.Props.C187_commit_ark",
    "Kzg.Props.C187_message_ark",
    "Kzg.Props.C187_settings_blst",
    "Kzg.Props.C187_settings_mcl",
    "Kzg.Props.C187_settings_ark",
    "Kzg.Props.C187_commit_zk",
    "Kzg.Props.C187_message_zk",
    "Kzg.Props.C187_settings_zk_partial",
    "Kzg.Props.C187_settings_zk_release",
    "Kzg.Props.C187_settings_zk_short_partial",
    "Kzg.Props.C187_settings_zk_debug"
   ],
   "note": "Missing: fk_multi_settings in zkcrypto with overflow checks for scales above 16 and sizes it should pass with. Without overflow checks it is exact for every scale and every setup (C187_settings_zk_release)."
  },
  {
   "property": "C188",
   "status": "proved",
   "theorems": [
    "Kzg.Props.C188_blst",
    "Kzg.Props.C188_mcl",
    "Kzg.Props.C188_ark",
    "Kzg.Props.C188_mcl_single",
    "Kzg.Props.C188_ark_single",
    "Kzg.Props.C188_determines",
    "Kzg.Props.C188_zk",
    "Kzg.Props.C188_zk_single"
   ],
   "note": "For blst-from-scratch under the conditions of C27 and C29; mcl-kzg up to 2^30 values; zkcrypto for values without overflow."
  },
  {
   "property": "C189",
   "status": "proved",
   "theorems": [
    "Kzg.Props.C189_blst_single",
    "Kzg.Props.C189_mcl_single",
    "Kzg.Props.C189_ark_single",
    "Kzg.Props.C189_blst_multi",
    "Kzg.Props.C189_mcl_multi",
    "Kzg.Props.C189_ark_multi",
    "Kzg.Props.C189_zk_single",
    "Kzg.Props.C189_zk_multi"
   ],
   "note": "Conditions as in C188; single claims of zkcrypto with the factor one."
  },
  {
   "property": "C190",
   "status": "proved",
   "theorems": [
    "Kzg.Props.C190_blst",
    "Kzg.Props.C190_mcl",
    "Kzg.Props.C190_ark",
    "Kzg.Props.C190_zk"
   ],
   "note": ""
  },
  {
   "property": "C191",
   "status": "partial",
   "theorems": [
    "Kzg.Props.C191_blst_partial",
    "Kzg.Props.C191_blst_panics",
    "Kzg.Props.C191_mcl",
    "Kzg.Props.C191_ark",
    "Kzg.Props.C191_zk",
    "Kzg.Props.C191_mcl_parallel_partial"
   ],
   "note": "Proved for mcl-kzg, Arkworks and zkcrypto, for blst-from-scratch and for mcl-kzg in parallel up to 2^16 samples. Refuted: from 2^17 samples on recovery of blst-from-scratch panics (C191_blst_panics)."
  },
  {
   "property": "C192",
   "status": "partial",
   "theorems": [
    "Kzg.Props.C192_blst_partial",
    "Kzg.Props.C192_mcl",
    "Kzg.Props.C192_ark",
    "Kzg.Props.C192_zk"
   ],
   "note": "For mcl-kzg, Arkworks and zkcrypto for all sizes. blst-from-scratch up to 2^16 samples: from 2^17 samples its recovery panics (C191_blst_panics), so the statement for all sizes does not hold there."
  },
  {
   "property": "C193",
   "status": "proved",
   "theorems": [
    "Kzg.Props.C193_fp_conditional_selection",
    "Kzg.Props.C193_fp_equality",
    "Kzg.Props.C193_fp_squaring",
    "Kzg.Props.C193_fp_multiplication",
    "Kzg.Props.C193_fp_addition",
    "Kzg.Props.C193_fp_subtraction",
    "Kzg.Props.C193_fp_negation",
    "Kzg.Props.C193_fp_debug",
    "Kzg.Props.C193_fp_from_bytes",
    "Kzg.Props.C193_fp_sqrt",
    "Kzg.Props.C193_fp_inversion",
    "Kzg.Props.C193_fp_lexicographic_largest",
    "Kzg.Props.C193_scalar_inv",
    "Kzg.Props.C193_scalar_debug",
    "Kzg.Props.C193_scalar_equality",
    "Kzg.Props.C193_scalar_to_bytes",
    "Kzg.Props.C193_scalar_from_bytes",
    "Kzg.Props.C193_scalar_from_u512_zero",
    "Kzg.Props.C193_scalar_from_u512_r",
    "Kzg.Props.C193_scalar_from_u512_r2",
    "Kzg.Props.C193_scalar_from_u512_max",
    "Kzg.Props.C193_scalar_from_bytes_wide_r2",
    "Kzg.Props.C193_scalar_from_bytes_wide_negative_one",
    "Kzg.Props.C193_scalar_from_bytes_wide_maximum",
    "Kzg.Props.C193_scalar_zero",
    "Kzg.Props.C193_scalar_addition",
    "Kzg.Props.C193_scalar_negation",
    "Kzg.Props.C193_scalar_subtraction",
    "Kzg.Props.C193_scalar_from_raw",
    "Kzg.Props.C193_scalar_double",
    "Kzg.Props.C193_scalar_multiplication",
    "Kzg.Props.C193_scalar_inversion",
    "Kzg.Props.C193_scalar_invert_is_pow",
    "Kzg.Props.C193_scalar_inversion_loop",
    "Kzg.Props.C193_scalar_invert_is_pow_loop",
    "Kzg.Props.C193_scalar_sqrt",
    "Kzg.Props.C193_fp2_conditional_selection",
    "Kzg.Props.C193_fp2_equality",
    "Kzg.Props.C193_fp2_squaring",
    "Kzg.Props.C193_fp2_multiplication",
    "Kzg.Props.C193_fp2_addition",
    "Kzg.Props.C193_fp2_subtraction",
    "Kzg.Props.C193_fp2_negation",
    "Kzg.Props.C193_fp2_sqrt",
    "Kzg.Props.C193_fp2_inversion",
    "Kzg.Props.C193_fp2_lexicographic_largest",
    "Kzg.Props.C193_g1_doubling",
    "Kzg.Props.C193_g1_projective_addition",
    "Kzg.Props.C193_g1_mixed_addition",
    "Kzg.Props.C193_g2_doubling",
    "Kzg.Props.C193_g2_projective_addition",
    "Kzg.Props.C193_g2_mixed_addition",
    "Kzg.Props.C193_g2_psi",
    "Kzg.Props.C193_g1_is_torsion_free",
    "Kzg.Props.C193_g2_is_torsion_free"
   ],
   "note": "Known answers from the tests of the library, evaluated on the model. Of the debug tests the digits are covered, not the formatting. Not restated: the zeroize tests and the other tests of g1.rs and g2.rs, and those of fp6.rs, fp12.rs and pairings.rs; the laws they sample are the subject of C52 to C57 and C70 to C85."
  },
  {
   "property": "C194",
   "status": "proved",
   "theorems": [
    "Kzg.Props.C194_blst_transforms",
    "Kzg.Props.C194_mcl_transforms",
    "Kzg.Props.C194_ark_transforms",
    "Kzg.Props.C194_zk_transforms",
    "Kzg.Props.C194_blst_proofs",
    "Kzg.Props.C194_mcl_proofs",
    "Kzg.Props.C194_ark_proofs",
    "Kzg.Props.C194_mcl_commit",
    "Kzg.Props.C194_ark_commit",
    "Kzg.Props.C194_zk_single",
    "Kzg.Props.C194_zk_multi"
   ],
   "note": ""
  },
  {
   "property": "C195",
   "status": "proved",
   "theorems": [
    "Kzg.Props.C195_fp6_arithmetic",
    "Kzg.Props.C195_fp12_arithmetic",
    "Kzg.Props.C195_g1_is_on_curve",
    "Kzg.Props.C195_g1_affine_point_equality",
    "Kzg.Props.C195_g1_projective_point_equality",
    "Kzg.Props.C195_g1_conditionally_select",
    "Kzg.Props.C195_g1_projective_to_affine",
    "Kzg.Props.C195_g1_affine_to_projective",
    "Kzg.Props.C195_g1_negation_and_subtraction",
    "Kzg.Props.C195_g1_batch_normalize",
    "Kzg.Props.C195_g2_is_on_curve",
    "Kzg.Props.C195_g2_affine_point_equality",
    "Kzg.Props.C195_g2_projective_point_equality",
    "Kzg.Props.C195_g2_conditionally_select",
    "Kzg.Props.C195_g2_projective_to_affine",
    "Kzg.Props.C195_g2_affine_to_projective",
    "Kzg.Props.C195_g2_negation_and_subtraction",
    "Kzg.Props.C195_g2_batch_normalize",
    "Kzg.Props.C195_g1_scalar_multiplication",
    "Kzg.Props.C195_g2_scalar_multiplication",
    "Kzg.Props.C195_g1_mul_by_x",
    "Kzg.Props.C195_g2_mul_by_x",
    "Kzg.Props.C195_g1_clear_cofactor",
    "Kzg.Props.C195_g2_clear_cofactor",
    "Kzg.Props.C195_gt_generator",
    "Kzg.Props.C195_bilinearity",
    "Kzg.Props.C195_unitary",
    "Kzg.Props.C195_multi_miller_loop",
    "Kzg.Props.C195_miller_loop_result_default"
   ],
   "note": ""
  },
  {
   "property": "C196",
   "status": "proved",
   "theorems": [
    "Kzg.Props.C196_blst",
    "Kzg.Props.C196_blst_panics",
    "Kzg.Props.C196_blst_single",
    "Kzg.Props.C196_log2_pow2",
    "Kzg.Props.C196_zkcrypto",
    "Kzg.Props.C196_zkcrypto_panics",
    "Kzg.Props.C196_arkworks",
    "Kzg.Props.C196_arkworks_panics",
    "Kzg.Props.C196_mcl",
    "Kzg.Props.C196_mcl_negated_refused"
   ],
   "note": "All four backends; right, negated, other coefficients or panic for every size. The check of the negated proofs for m up to 30."
  },
  {
   "property": "C197",
   "status": "proved",
   "theorems": [
    "Kzg.Props.C197_mul_blst",
    "Kzg.Props.C197_mul_fft_blst",
    "Kzg.Props.C197_inverse_blst",
    "Kzg.Props.C197_div_blst",
    "Kzg.Props.C197_mul_zk",
    "Kzg.Props.C197_inverse_zk",
    "Kzg.Props.C197_div_zk",
    "Kzg.Props.C197_mul_ark",
    "Kzg.Props.C197_div_ark"
   ],
   "note": "Exact sizes for blst-from-scratch and zkcrypto (product, inverse, division) and Arkworks (product with transforms, division); for mcl-kzg the sizes are in C99 to C101."
  },
  {
   "property": "C198",
   "status": "proved",
   "theorems": [
    "Kzg.Props.C198_blst",
    "Kzg.Props.C198_mcl",
    "Kzg.Props.C198_zk",
    "Kzg.Props.C198_distinct",
    "Kzg.Props.C198_blst_tests",
    "Kzg.Props.C198_mcl_tests",
    "Kzg.Props.C198_zk_tests",
    "Kzg.Props.C198_from_arr_64",
    "Kzg.Props.C198_from_arr_64_generator"
   ],
   "note": "Points of blst-from-scratch and mcl-kzg are group elements, those of zkcrypto coordinates. The tests with these data: all sizes for blst-from-scratch, sizes from 1 to 31 for mcl-kzg (where 31 and mixed strides fail, as C180 says), 1 to 16 for zkcrypto. How the library reads decimal text is a hypothesis (ReadsDecimal). The words of G1_GENERATOR, read by from_arr_64, are on no curve: the constants are multiplied by 2^384, from_arr_64 expects plain integers; nothing in the crate calls it."
  },
  {
   "property": "C199",
   "status": "proved",
   "theorems": [
    "Kzg.Props.C199_to_le_bits",
    "Kzg.Props.C199_injective",
    "Kzg.Props.C199_char_le_bits",
    "Kzg.Props.C199_num_bits"
   ],
   "note": "All reduced scalars and all positions, both variants of the code. The crate does not declare the feature bits, so this code is not compiled at present."
  },
  {
   "property": "C200",
   "status": "partial",
   "theorems": [
    "Kzg.Props.C200_pattern",
    "Kzg.Props.C200_pattern_independent_partial",
    "Kzg.Props.C200_pattern_long",
    "Kzg.Props.C200_pattern_depends",
    "Kzg.Props.C200_same_benchmark",
    "Kzg.Props.C200_optimized_not_timed",
    "Kzg.Props.C200_single_blst",
    "Kzg.Props.C200_multi_blst",
    "Kzg.Props.C200_single_mcl",
    "Kzg.Props.C200_multi_mcl",
    "Kzg.Props.C200_single_ark",
    "Kzg.Props.C200_multi_ark",
    "Kzg.Props.C200_single_zk",
    "Kzg.Props.C200_multi_zk"
   ],
   "note": "All four benchmarks end, with the expected number of proofs (C200_single_*, C200_multi_*); what the polynomial is for every chunk length (C200_pattern), and that it does not depend on it up to 16 (C200_pattern_independent_partial). Refuted: fk_multi_da_chunk_32_optimized times the plain call (C200_same_benchmark, C200_optimized_not_timed), and with chunks of 32 the polynomial is another one (C200_pattern_depends). zkcrypto in release builds, which is how benchmarks are built."
  },
  {
   "property": "C201",
   "status": "partial",
   "theorems": [
    "Kzg.Props.C201_recover_blst_partial",
    "Kzg.Props.C201_recover_blst_large",
    "Kzg.Props.C201_recover_mcl",
    "Kzg.Props.C201_recover_ark",
    "Kzg.Props.C201_recover_zk",
    "Kzg.Props.C201_zero_poly"
   ],
   "note": "All sequences of draws and all shuffles. Refuted: bench_recover in blst-from-scratch above 2^16 samples, where recovery panics (C201_recover_blst_large); the benchmark stops at 2^15. Missing: bench_zero_poly in mcl-kzg with 2^31 positions."
  },
  {
   "property": "C202",
   "status": "proved",
   "theorems": [
    "Kzg.Props.C202_div",
    "Kzg.Props.C202_commit_blst",
    "Kzg.Props.C202_commit_mcl",
    "Kzg.Props.C202_commit_ark",
    "Kzg.Props.C202_commit_zk"
   ],
   "note": ""
  },
  {
   "property": "C203",
   "status": "partial",
   "theorems": [
    "Kzg.Props.C203_constant",
    "Kzg.Props.C203_fft_fr",
    "Kzg.Props.C203_fft_g1",
    "Kzg.Props.C203_fft_g1_zk_partial",
    "Kzg.Props.C203_das"
   ],
   "note": "All backends and all elements drawn, at all scales below 32. Missing: the points of zkcrypto above scale 16, as in C90; the benchmark stops at 7."
  },
  {
   "property": "C204",
   "status": "proved",
   "theorems": [
    "Kzg.Props.C204_roots_repeat",
    "Kzg.Props.C204_roots_repeat_mcl",
    "Kzg.Props.C204_pad"
   ],
   "note": ""
  },
  {
   "property": "C205",
   "status": "proved",
   "theorems": [
    "Kzg.Props.C205_eval",
    "Kzg.Props.C205_extend",
    "Kzg.Props.C205_long_division",
    "Kzg.Props.C205_constant_ignored",
    "Kzg.Props.C205_longer_divisor",
    "Kzg.Props.C205_div_by_zero",
    "Kzg.Props.C205_roots"
   ],
   "note": "That elements are compared as decimal strings is read as equality of elements. That the third row of the long division would pass is the case of a divisor longer than the dividend."
  },
  {
   "property": "C206",
   "status": "proved",
   "theorems": [
    "Kzg.Props.C206_fft",
    "Kzg.Props.C206_fft_half",
    "Kzg.Props.C206_fft_g1",
    "Kzg.Props.C206_das_runs",
    "Kzg.Props.C206_das_returns",
    "Kzg.Props.C206_commit"
   ],
   "note": "The sequential variant of the code; the benchmarks are switched off in Cargo.toml at present."
  },
  {
   "property": "C207",
   "status": "proved",
   "theorems": [
    "Kzg.Props.C207_blst",
    "Kzg.Props.C207_mcl",
    "Kzg.Props.C207_ark",
    "Kzg.Props.C207_zk"
   ],
   "note": "The sequential variants of the code."
  },
  {
   "property": "C208",
   "status": "proved",
   "theorems": [
    "Kzg.Props.C208_blst",
    "Kzg.Props.C208_mcl",
    "Kzg.Props.C208_ark",
    "Kzg.Props.C208_zk"
   ],
   "note": "The sequential variants of the code. For zkcrypto the transform of scalars; its transform of points is in C90."
  },
  {
   "property": "C209",
   "status": "proved",
   "theorems": [
    "Kzg.Props.C209_blst",
    "Kzg.Props.C209_mcl",
    "Kzg.Props.C209_ark",
    "Kzg.Props.C209_zk"
   ],
   "note": "The sequential variants of the code. For zkcrypto the transform of scalars; its transform of points is in C90."
  },
  {
   "property": "C210",
   "status": "partial",
   "theorems": [
    "Kzg.Props.C210_blst_check",
    "Kzg.Props.C210_ark_check",
    "Kzg.Props.C210_ark_proof",
    "Kzg.Props.C210_mcl_check",
    "Kzg.Props.C210_mcl_proof",
    "Kzg.Props.C210_zk_check_partial",
    "Kzg.Props.C210_zk_overflow",
    "Kzg.Props.C210_zk_release"
   ],
   "note": "Proved for blst-from-scratch, Arkworks and mcl-kzg, proofs included; for blst-from-scratch and zkcrypto the single proof is computed by calling the multi proof. Proofs: at most 2^30 coefficients (Arkworks), 2^29 (mcl-kzg). In zkcrypto the checks agree unless the multiplication by the value overflows, and differ there (C210_zk_overflow, C210_zk_release)."
  }
 ]
}