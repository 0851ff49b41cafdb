{
 "claims": [
  {
   "property": "C01",
   "status": "proved",
   "theorems": [
    "Bellman.C01_lc_value",
    "Bellman.C01_evaluators"
   ],
   "note": ""
  },
  {
   "property": "C02",
   "status": "proved",
   "theorems": [
    "Bellman.C02_enforce",
    "Bellman.C02_enforce_panics",
    "Bellman.C02_alloc",
    "Bellman.C02_run"
   ],
   "note": ""
  },
  {
   "property": "C03",
   "status": "proved",
   "theorems": [
    "Bellman.C03_prover_follows_keygen",
    "Bellman.C03_keygen_and_prover",
    "Bellman.C03_keygen_and_test",
    "Bellman.C03_keygen_ignores_witness"
   ],
   "note": ""
  },
  {
   "property": "C04",
   "status": "proved",
   "theorems": [
    "Bellman.C04_isSatisfied",
    "Bellman.C04_isSatisfied_false",
    "Bellman.C04_which",
    "Bellman.C04_constraints",
    "Bellman.C04_setAll",
    "Bellman.C04_get_set",
    "Bellman.C04_get_set_any",
    "Bellman.C04_get_input",
    "Bellman.C04_verify",
    "Bellman.C04_sound_adequate"
   ],
   "note": ""
  },
  {
   "property": "C05",
   "status": "proved",
   "theorems": [
    "Bellman.C05_path",
    "Bellman.C05_path_inj",
    "Bellman.C05_stack_clean",
    "Bellman.C05_reuse_panics",
    "Bellman.C05_run_distinct",
    "Bellman.C05_scopes_restored",
    "Bellman.C05_nested"
   ],
   "note": ""
  },
  {
   "property": "C06",
   "status": "proved",
   "theorems": [
    "Bellman.C06_alloc_sound",
    "Bellman.C06_alloc_complete",
    "Bellman.C06_allocConditionally_sound",
    "Bellman.C06_allocConditionally_complete",
    "Bellman.C06_alloc_missing",
    "Bellman.C06_allocConditionally_missing"
   ],
   "note": ""
  },
  {
   "property": "C07",
   "status": "proved",
   "theorems": [
    "Bellman.C07_bit_xor_sound",
    "Bellman.C07_bit_xor_complete",
    "Bellman.C07_bit_and_sound",
    "Bellman.C07_bit_and_complete",
    "Bellman.C07_bit_andNot_sound",
    "Bellman.C07_bit_andNot_complete",
    "Bellman.C07_bit_nor_sound",
    "Bellman.C07_bit_nor_complete",
    "Bellman.C07_xor_sound",
    "Bellman.C07_xor_complete",
    "Bellman.C07_and_sound",
    "Bellman.C07_and_complete",
    "Bellman.C07_not",
    "Bellman.C07_enforceEqual_sound",
    "Bellman.C07_enforceEqual_complete",
    "Bellman.C07_enforceEqual_constants",
    "Bellman.C07_bit_and_missing"
   ],
   "note": ""
  },
  {
   "property": "C08",
   "status": "proved",
   "theorems": [
    "Bellman.C08_ch_sound",
    "Bellman.C08_ch_complete",
    "Bellman.C08_maj_sound",
    "Bellman.C08_maj_complete"
   ],
   "note": ""
  },
  {
   "property": "C09",
   "status": "proved",
   "theorems": [
    "Bellman.C09_mul_sound",
    "Bellman.C09_mul_complete",
    "Bellman.C09_square_sound",
    "Bellman.C09_square_complete",
    "Bellman.C09_assertNonzero_sound",
    "Bellman.C09_assertNonzero_complete",
    "Bellman.C09_assertNonzero_zero",
    "Bellman.C09_conditionallyReverse_sound",
    "Bellman.C09_conditionallyReverse_complete",
    "Bellman.C09_inputize_sound",
    "Bellman.C09_inputize_complete",
    "Bellman.C09_num_sum",
    "Bellman.C09_num_value",
    "Bellman.C09_num_ofAllocated"
   ],
   "note": ""
  },
  {
   "property": "C10",
   "status": "proved",
   "theorems": [
    "Bellman.C10_strict_sound",
    "Bellman.C10_strict_unique",
    "Bellman.C10_strict_complete"
   ],
   "note": ""
  },
  {
   "property": "C11",
   "status": "proved",
   "theorems": [
    "Bellman.C11_toBitsLe_sound",
    "Bellman.C11_toBitsLe_complete",
    "Bellman.C11_toBitsLe_not_unique"
   ],
   "note": ""
  },
  {
   "property": "C12",
   "status": "proved",
   "theorems": [
    "Bellman.C12_synth",
    "Bellman.C12_lookup3_sound",
    "Bellman.C12_lookup3_complete",
    "Bellman.C12_lookupNeg_sound",
    "Bellman.C12_lookupNeg_complete"
   ],
   "note": ""
  },
  {
   "property": "C13",
   "status": "proved",
   "theorems": [
    "Bellman.C13_pack_sound",
    "Bellman.C13_pack_complete",
    "Bellman.C13_pack_count",
    "Bellman.C13_multipacking_spec",
    "Bellman.C13_multipacking_inj",
    "Bellman.C13_bytesToBitsLe",
    "Bellman.C13_bytesToBits",
    "Bellman.C13_bytes_injective"
   ],
   "note": ""
  },
  {
   "property": "C14",
   "status": "proved",
   "theorems": [
    "Bellman.C14_sound",
    "Bellman.C14_complete",
    "Bellman.C14_iff"
   ],
   "note": ""
  },
  {
   "property": "C15",
   "status": "proved",
   "theorems": [
    "Bellman.C15.C15_word_spec",
    "Bellman.C15.C15_constant",
    "Bellman.C15.C15_alloc_sound",
    "Bellman.C15.C15_alloc_complete",
    "Bellman.C15.C15_intoBits",
    "Bellman.C15.C15_fromBits",
    "Bellman.C15.C15_fromBits_complete",
    "Bellman.C15.C15_fromBitsBe",
    "Bellman.C15.C15_rotr",
    "Bellman.C15.C15_shr",
    "Bellman.C15.C15_xor_sound",
    "Bellman.C15.C15_xor_complete",
    "Bellman.C15.C15_ch_sound",
    "Bellman.C15.C15_ch_complete",
    "Bellman.C15.C15_maj_sound",
    "Bellman.C15.C15_maj_complete",
    "Bellman.C15.C15_addmany_sound",
    "Bellman.C15.C15_addmany_complete",
    "Bellman.C15.C15_addChain_sound"
   ],
   "note": ""
  },
  {
   "property": "C16",
   "status": "proved",
   "theorems": [
    "Bellman.C16_sha256_sound",
    "Bellman.C16_sha256_complete",
    "Bellman.C16_sha256Block_sound",
    "Bellman.C16_sha256Block_complete"
   ],
   "note": ""
  },
  {
   "property": "C17",
   "status": "proved",
   "theorems": [
    "Bellman.C17_blake2s_sound",
    "Bellman.C17_blake2s_complete"
   ],
   "note": ""
  },
  {
   "property": "C18",
   "status": "proved",
   "theorems": [
    "Bellman.C18_alloc",
    "Bellman.C18_bits",
    "Bellman.C18_booleans",
    "Bellman.C18_num",
    "Bellman.C18_lookup_pack",
    "Bellman.C18_words",
    "Bellman.C18_addmany",
    "Bellman.C18_hashes",
    "Bellman.C18_addmany_needs_known_constants"
   ],
   "note": "Proved for every gadget function of the library. Exception proved as C18_addmany_needs_known_constants: raw compositions of UInt32 operations whose result bits are all constant but whose value is unknown without a witness (e.g. sha256_ch with two equal constants) make addmany allocate in key generation but not in proving. sha256 and blake2s are proved unaffected."
  },
  {
   "property": "C19",
   "status": "proved",
   "theorems": [
    "Bellman.C19_from_coeffs",
    "Bellman.C19_refused"
   ],
   "note": ""
  },
  {
   "property": "C20",
   "status": "proved",
   "theorems": [
    "Bellman.C20_fft",
    "Bellman.C20_serial",
    "Bellman.C20_parallel",
    "Bellman.C20_too_long",
    "Bellman.C20_wrong_length",
    "Bellman.C20_length_bound"
   ],
   "note": ""
  },
  {
   "property": "C21",
   "status": "proved",
   "theorems": [
    "Bellman.C21_schedule",
    "Bellman.C21_threads",
    "Bellman.C21_interleaving"
   ],
   "note": ""
  },
  {
   "property": "C22",
   "status": "proved",
   "theorems": [
    "Bellman.C22_ifft_fft",
    "Bellman.C22_fft_ifft",
    "Bellman.C22_coset_fft",
    "Bellman.C22_icoset_coset",
    "Bellman.C22_coset_icoset"
   ],
   "note": ""
  },
  {
   "property": "C23",
   "status": "proved",
   "theorems": [
    "Bellman.C23_divide",
    "Bellman.C23_pointwise",
    "Bellman.C23_interpolate",
    "Bellman.C23_quotient",
    "Bellman.C23_general"
   ],
   "note": ""
  },
  {
   "property": "C24",
   "status": "proved",
   "theorems": [
    "Bellman.C24_multiexp",
    "Bellman.C24_window",
    "Bellman.C24_ok",
    "Bellman.C24_bases",
    "Bellman.C24_schedule",
    "Bellman.C24_full"
   ],
   "note": ""
  },
  {
   "property": "C25",
   "status": "proved",
   "theorems": [
    "Bellman.C25_ok",
    "Bellman.C25_eof",
    "Bellman.C25_identity",
    "Bellman.C25_total",
    "Bellman.C25_size_mismatch",
    "Bellman.C25_length_limit"
   ],
   "note": ""
  },
  {
   "property": "C26",
   "status": "proved",
   "theorems": [
    "Bellman.C26_tracker",
    "Bellman.C26_inc",
    "Bellman.C26_panics"
   ],
   "note": ""
  },
  {
   "property": "C27",
   "status": "proved",
   "theorems": [
    "Bellman.C27_chunk_size",
    "Bellman.C27_chunks",
    "Bellman.C27_log2_floor",
    "Bellman.C27_loop",
    "Bellman.C27_distribute_powers",
    "Bellman.C27_pointwise",
    "Bellman.C27_powers_of_tau",
    "Bellman.C27_h_query",
    "Bellman.C27_eval"
   ],
   "note": ""
  },
  {
   "property": "C28",
   "status": "proved",
   "theorems": [
    "Bellman.Compute.C28_own_result",
    "Bellman.Compute.C28_once",
    "Bellman.Compute.C28_backlog",
    "Bellman.Compute.C28_counter",
    "Bellman.Compute.C28_counter_zero",
    "Bellman.Compute.C28_terminates",
    "Bellman.Compute.C28_all_delivered",
    "Bellman.Compute.C28_backlog_attained"
   ],
   "note": ""
  },
  {
   "property": "C29",
   "status": "proved",
   "theorems": [
    "Bellman.C29_crs",
    "Bellman.C29_lengths",
    "Bellman.C29_polynomials",
    "Bellman.C29_outcome",
    "Bellman.C29_unused_variable",
    "Bellman.C29_synthesis_error"
   ],
   "note": ""
  },
  {
   "property": "C30",
   "status": "proved",
   "theorems": [
    "Bellman.C30_completeness"
   ],
   "note": ""
  },
  {
   "property": "C31",
   "status": "proved",
   "theorems": [
    "Bellman.C31_outcome",
    "Bellman.C31_synthesis_error",
    "Bellman.C31_regular_trace",
    "Bellman.C31_regular",
    "Bellman.C31_cancel"
   ],
   "note": ""
  },
  {
   "property": "C32",
   "status": "proved",
   "theorems": [
    "Bellman.C32_verify",
    "Bellman.C32_other_inputs",
    "Bellman.C32_changed_input",
    "Bellman.C32_unique_c"
   ],
   "note": ""
  },
  {
   "property": "C33",
   "status": "proved",
   "theorems": [
    "Bellman.C33_unsatisfied"
   ],
   "note": ""
  },
  {
   "property": "C34",
   "status": "proved",
   "theorems": [
    "Bellman.C34_bijection",
    "Bellman.C34_distribution",
    "Bellman.C34_simulation"
   ],
   "note": ""
  },
  {
   "property": "C35",
   "status": "proved",
   "theorems": [
    "Bellman.C35_single",
    "Bellman.C35_multicore",
    "Bellman.C35_no_error",
    "Bellman.C35_empty",
    "Bellman.C35_queue",
    "Bellman.C35_queued"
   ],
   "note": ""
  },
  {
   "property": "C36",
   "status": "proved",
   "theorems": [
    "Bellman.C36_length",
    "Bellman.C36_single",
    "Bellman.C36_one_invalid",
    "Bellman.C36_queued",
    "Bellman.C36_multicore",
    "Bellman.C36_one_invalid_multicore",
    "Bellman.C36_single_count",
    "Bellman.C36_multicore_count"
   ],
   "note": ""
  },
  {
   "property": "C37",
   "status": "proved",
   "theorems": [
    "Bellman.C37_proof",
    "Bellman.C37_proof_canonical",
    "Bellman.C37_vk",
    "Bellman.C37_vk_canonical",
    "Bellman.C37_parameters",
    "Bellman.C37_parameters_canonical",
    "Bellman.C37_unchecked",
    "Bellman.C37_truncated"
   ],
   "note": ""
  },
  {
   "property": "C38",
   "status": "proved",
   "theorems": [
    "Bellman.C38_proof_identity",
    "Bellman.C38_proof_accepted",
    "Bellman.C38_vk_identity",
    "Bellman.C38_vk_accepted",
    "Bellman.C38_parameters_identity",
    "Bellman.C38_parameters_accepted",
    "Bellman.C38_no_panic",
    "Bellman.C38_proof_cut",
    "Bellman.C38_vk_cut",
    "Bellman.C38_parameters_cut"
   ],
   "note": ""
  },
  {
   "property": "C39",
   "status": "proved",
   "theorems": [
    "Bellman.C39_multicore",
    "Bellman.C39_no_multicore",
    "Bellman.C39_no_multicore_returns"
   ],
   "note": ""
  },
  {
   "property": "C40",
   "status": "proved",
   "theorems": [
    "Bellman.C40_normal_form",
    "Bellman.C40_same_value",
    "Bellman.C40_canonical",
    "Bellman.C40_hash_congr",
    "Bellman.C40_hash_inj",
    "Bellman.C40_hash"
   ],
   "note": "BLAKE2s (external crate) is modelled by its specification, RFC 7693; identification is up to explicit BLAKE2s collisions."
  },
  {
   "property": "C41",
   "status": "proved",
   "theorems": [
    "Bellman.Compute.C41_no_abort",
    "Bellman.Compute.C41_drop_aborts",
    "Bellman.Compute.C41_counter_leak"
   ],
   "note": ""
  },
  {
   "property": "C42",
   "status": "proved",
   "theorems": [
    "Bellman.C42_knowledge",
    "Bellman.C42_no_witness",
    "Bellman.C42_honest"
   ],
   "note": "Algebraic (affine) adversaries with coefficients fixed before the trapdoors are drawn; no computational assumption is used or needed."
  },
  {
   "property": "C43",
   "status": "proved",
   "theorems": [
    "Bellman.C43_alloc",
    "Bellman.C43_bits",
    "Bellman.C43_booleans",
    "Bellman.C43_num",
    "Bellman.C43_lookup",
    "Bellman.C43_words",
    "Bellman.C43_hashes",
    "Bellman.C43_inputize",
    "Bellman.C43_pack",
    "Bellman.C43_seq",
    "Bellman.C43_keygen",
    "Bellman.C43_prover"
   ],
   "note": "No public input is allocated in runs that do not panic; the input counts of inputize and pack_into_inputs are for successful runs."
  },
  {
   "property": "C44",
   "status": "proved",
   "theorems": [
    "Bellman.C44_key",
    "Bellman.C44_sound",
    "Bellman.C44_accept",
    "Bellman.C44_knowledge",
    "Bellman.C44_other_hash",
    "Bellman.C44_hiding",
    "Bellman.C44_length"
   ],
   "note": "Algebraic adversaries as in C42. Acceptance is for runs in which key generation and proving succeed."
  },
  {
   "property": "C45",
   "status": "proved",
   "theorems": [
    "Bellman.C45_complete",
    "Bellman.C45_knowledge",
    "Bellman.C45_zero_knowledge",
    "Bellman.C45_documentation"
   ],
   "note": "The generator is any function on states; 'uniform' is a condition on the number of states that lead to each tuple. Algebraic adversaries as in C42."
  },
  {
   "property": "C46",
   "status": "proved",
   "theorems": [
    "Bellman.C46_unconstrained",
    "Bellman.C46_constrained",
    "Bellman.C46_storable",
    "Bellman.C46_files",
    "Bellman.C46_proof_storable"
   ],
   "note": "The fraction counts failures of the exact conditions in C29_outcome. Point codecs are those of C37/C38. C46_proof_storable counts the blinding factors for which an honest proof contains an identity element, which Proof::read refuses."
  },
  {
   "property": "C47",
   "status": "proved",
   "theorems": [
    "Bellman.C47_u64_sound",
    "Bellman.C47_u64_complete",
    "Bellman.C47_counts",
    "Bellman.C47_field_sound",
    "Bellman.C47_field_complete",
    "Bellman.C47_field_free",
    "Bellman.C47_missing"
   ],
   "note": ""
  },
  {
   "property": "C48",
   "status": "proved",
   "theorems": [
    "Bellman.C48_native",
    "Bellman.C48_key",
    "Bellman.C48_sound",
    "Bellman.C48_complete",
    "Bellman.C48_pipeline",
    "Bellman.C48_knowledge",
    "Bellman.C48_other_image",
    "Bellman.C48_hiding",
    "Bellman.C48_incomplete",
    "Bellman.C48_tests"
   ],
   "note": "No step is assumed to succeed. Algebraic adversaries as in C42. C48_tests is the integration tests test_mimc and batch_verify as written (prove, write, read, verify, batch), with the drawn values as arguments."
  },
  {
   "property": "C49",
   "status": "proved",
   "theorems": [
    "Bellman.C49_bits",
    "Bellman.C49_bit_allocation",
    "Bellman.C49_booleans",
    "Bellman.C49_num",
    "Bellman.C49_lookup_pack",
    "Bellman.C49_words",
    "Bellman.C49_hashes",
    "Bellman.C49_examples",
    "Bellman.C49_seq",
    "Bellman.C49_namespace",
    "Bellman.C49_no_name_panic",
    "Bellman.C49_fresh_namespace",
    "Bellman.C49_tests_pass"
   ],
   "note": "Panics of the gadgets themselves (wrong lengths) are not excluded by this property; the theorem says that no others occur."
  },
  {
   "property": "C50",
   "status": "proved",
   "theorems": [
    "Bellman.C50_same_run",
    "Bellman.C50_passing_test",
    "Bellman.C50_failing_test",
    "Bellman.C50_same_success",
    "Bellman.C50_answers",
    "Bellman.C50_honest",
    "Bellman.C50_mimc",
    "Bellman.C50_preimage"
   ],
   "note": "Proof acceptance is conditional on parameter generation and proof creation returning Ok; when they do is C31 and C46."
  },
  {
   "property": "C51",
   "status": "proved",
   "theorems": [
    "Bellman.C51_alloc",
    "Bellman.C51_bits",
    "Bellman.C51_booleans",
    "Bellman.C51_num",
    "Bellman.C51_lookup",
    "Bellman.C51_words",
    "Bellman.C51_hashes",
    "Bellman.C51_pack",
    "Bellman.C51_seq",
    "Bellman.C51_keygen",
    "Bellman.C51_documentation"
   ],
   "note": "Bounds are upper bounds, not exact counts: gadgets given constants make fewer constraints."
  },
  {
   "property": "C52",
   "status": "proved",
   "theorems": [
    "Bellman.C52_sha256",
    "Bellman.C52_blake2s",
    "Bellman.C52_packed",
    "Bellman.C52_documentation",
    "Bellman.C52_pipeline",
    "Bellman.C52_cancels"
   ],
   "note": "Both hash gadgets are covered, with and without packing of the hash into public inputs."
  },
  {
   "property": "C53",
   "status": "proved",
   "theorems": [
    "Bellman.C53_pipeline",
    "Bellman.C53_xor_sound",
    "Bellman.C53_xor_pipeline",
    "Bellman.C53_xor_knowledge",
    "Bellman.C53_zero_pipeline",
    "Bellman.C53_xor_test",
    "Bellman.C53_zero_test"
   ],
   "note": "The test vectors are concrete facts checked by kernel evaluation, next to the general theorems; they tie the model to numbers that the code is tested against."
  },
  {
   "property": "C54",
   "status": "proved",
   "theorems": [
    "Bellman.C54_rerandomize",
    "Bellman.C54_unique",
    "Bellman.C54_identity",
    "Bellman.C54_honest",
    "Bellman.C54_inputs",
    "Bellman.C54_single_input",
    "Bellman.C54_collision"
   ],
   "note": "Proofs are malleable by design of Groth16; stated so that callers know that a proof does not identify a signer or a message beyond the inputs. The colliding inputs exist but finding them takes discrete logarithms."
  },
  {
   "property": "C55",
   "status": "proved",
   "theorems": [
    "Bellman.C55_seq",
    "Bellman.C55_sha256_block",
    "Bellman.C55_sha256",
    "Bellman.C55_sha256_short",
    "Bellman.C55_blake2s",
    "Bellman.C55_constants",
    "Bellman.C55_documentation_size",
    "Bellman.C55_documentation"
   ],
   "note": "CAPACITY matters because MultiEq packs equations; the counts of variables would be the same in other fields. The result for constants is proved separately for every field."
  },
  {
   "property": "C56",
   "status": "proved",
   "theorems": [
    "Bellman.C56_arithmetic",
    "Bellman.C56_conversions",
    "Bellman.C56_invert",
    "Bellman.C56_prime_field",
    "Bellman.C56_contract",
    "Bellman.C56_sqrt",
    "Bellman.C56_encoding",
    "Bellman.C56_random",
    "Bellman.C56_engine",
    "Bellman.C56_group"
   ],
   "note": "sqrt differs from the ff contract on non-squares and zero; nothing in the crate calls it. sqrt_ratio (an external helper), Display, WnafGroup and the encodings of FakePoint (unimplemented!) are not modelled."
  },
  {
   "property": "C57",
   "status": "proved",
   "theorems": [
    "Bellman.C57_transparent",
    "Bellman.C57_frame",
    "Bellman.C57_push",
    "Bellman.C57_combinators"
   ],
   "note": "Borrowing discipline is structural: a program can use only the innermost handle in scope, as the borrow checker enforces."
  },
  {
   "property": "C58",
   "status": "proved",
   "theorems": [
    "Bellman.C58_parameters",
    "Bellman.C58_log",
    "Bellman.C58_requests",
    "Bellman.C58_enough"
   ],
   "note": "Sources that panic or diverge are not modelled. Builders are (Arc<Vec>, usize), the only implementation of SourceBuilder."
  },
  {
   "property": "C59",
   "status": "proved",
   "theorems": [
    "Bellman.C59_proof",
    "Bellman.C59_vk",
    "Bellman.C59_parameters",
    "Bellman.C59_size"
   ],
   "note": "Equality of points is equality of group elements."
  },
  {
   "property": "C60",
   "status": "proved",
   "theorems": [
    "Bellman.C60_result",
    "Bellman.C60_no_abort",
    "Bellman.C60_progress",
    "Bellman.C60_terminates",
    "Bellman.C60_completes",
    "Bellman.C60_leftover",
    "Bellman.C60_pool",
    "Bellman.C60_create_proof",
    "Bellman.C60_error",
    "Bellman.C60_subversion",
    "Bellman.C60_create_proof_in_pool"
   ],
   "note": "Panics of closures inside the pool abort the process and are covered by C41."
  },
  {
   "property": "C61",
   "status": "proved",
   "theorems": [
    "Bellman.C61_sha256_accept",
    "Bellman.C61_sha256_inputs",
    "Bellman.C61_sha256_sound",
    "Bellman.C61_sha256_knowledge",
    "Bellman.C61_sha256_other_hash",
    "Bellman.C61_sha256_hiding",
    "Bellman.C61_sha256_length",
    "Bellman.C61_blake2s_accept",
    "Bellman.C61_blake2s_inputs",
    "Bellman.C61_blake2s_sound",
    "Bellman.C61_blake2s_knowledge",
    "Bellman.C61_blake2s_other_hash",
    "Bellman.C61_blake2s_hiding",
    "Bellman.C61_blake2s_length"
   ],
   "note": "The client circuit itself is not in the repository; it is the documentation example with the gadget and the length exchanged. Counting bound: 8 len + 27045 * ((len + 72) / 64) + 11 rows at most for SHA-256, 8 len + 21889 * max 1 ((len + 63) / 64) + 11 for BLAKE2s."
  },
  {
   "property": "C62",
   "status": "proved",
   "theorems": [
    "Bellman.C62_batch",
    "Bellman.C62_batch_multicore"
   ],
   "note": "Provers are algebraic (coefficients fixed before the parameters are made), as in C42; the weights are uniform and nonzero, which is what the rejection loop of the code leaves."
  },
  {
   "property": "C63",
   "status": "proved",
   "theorems": [
    "Bellman.C63_total",
    "Bellman.C63_values",
    "Bellman.C63_set",
    "Bellman.C63_witness",
    "Bellman.C63_faithful",
    "Bellman.C63_identifies",
    "Bellman.C63_power"
   ],
   "note": "`Debug` of the field (external) is a parameter. Without the restrictions on names the printout is ambiguous, since names are not escaped."
  },
  {
   "property": "C64",
   "status": "proved",
   "theorems": [
    "Bellman.C64_mimc",
    "Bellman.C64_betrays",
    "Bellman.C64_reduction",
    "Bellman.C64_candidates",
    "Bellman.C64_powers",
    "Bellman.C64_batch",
    "Bellman.C64_batch_multicore"
   ],
   "note": "The reduction is an explicit definition; that it runs in polynomial time is visible from the definition but not a theorem. Provers are algebraic: they give the coefficients of their proof elements."
  },
  {
   "property": "C65",
   "status": "proved",
   "theorems": [
    "Bellman.C65_accepted",
    "Bellman.C65_simulator",
    "Bellman.C65_adaptive",
    "Bellman.C65_mimc"
   ],
   "note": "Uniform blinding factors are counted exactly (a length-preserving bijection between the random tapes); sampling itself is C45."
  },
  {
   "property": "C66",
   "status": "proved",
   "theorems": [
    "Bellman.C66_bits",
    "Bellman.C66_booleans",
    "Bellman.C66_num",
    "Bellman.C66_toBitsLe_choice",
    "Bellman.C66_lookup",
    "Bellman.C66_pack",
    "Bellman.C66_words",
    "Bellman.C66_hashes",
    "Bellman.C66_seq",
    "Bellman.C66_tested",
    "Bellman.C66_documentation",
    "Bellman.C66_documentation_bijection",
    "Bellman.C66_mimc_bijection",
    "Bellman.C66_sha256_one_witness",
    "Bellman.C66_blake2s_one_witness"
   ],
   "note": "The hash functions and sums of words assume that the operands are bits; all other gadgets assume nothing about the operands. to_bits_le is proved not to have the property whenever value + p fits into NUM_BITS bits."
  },
  {
   "property": "C67",
   "status": "proved",
   "theorems": [
    "Bellman.C67_allocated_num",
    "Bellman.C67_squaring",
    "Bellman.C67_multiplication",
    "Bellman.C67_reversal",
    "Bellman.C67_nonzero",
    "Bellman.C67_nonzero_error",
    "Bellman.C67_into_bits",
    "Bellman.C67_into_bits_strict",
    "Bellman.C67_lookup",
    "Bellman.C67_synth",
    "Bellman.C67_multipacking",
    "Bellman.C67_allocated_bit",
    "Bellman.C67_bit_operations",
    "Bellman.C67_enforce_equal",
    "Bellman.C67_negation",
    "Bellman.C67_boolean_tables",
    "Bellman.C67_u64_bits",
    "Bellman.C67_field_bits",
    "Bellman.C67_alloc_conditionally",
    "Bellman.C67_test_cs"
   ],
   "note": "The tests that run through a table of operand kinds (booleanXor, booleanAnd, ch, maj, enforceEqual) are evaluated at the scalar field of BLS12-381, the field of the tests; the others are proved for every prime field. test_into_bits needs an odd characteristic and a representation with one bit more than the modulus, both facts of the field of the test."
  },
  {
   "property": "C68",
   "status": "proved",
   "theorems": [
    "Bellman.C68_from_bits",
    "Bellman.C68_bitwise",
    "Bellman.C68_shifts",
    "Bellman.C68_addmany",
    "Bellman.C68_sha256_blank",
    "Bellman.C68_sha256_full_block",
    "Bellman.C68_sha256_vectors",
    "Bellman.C68_sha256_no_constants",
    "Bellman.C68_blake2s_blank",
    "Bellman.C68_blake2s_constraints",
    "Bellman.C68_blake2s_constant",
    "Bellman.C68_blake2s_vectors",
    "Bellman.C68_blake2s_expected",
    "Bellman.C68_blake2s_written",
    "Bellman.C68_blake2s_no_constants"
   ],
   "note": "The tests of the number of constraints need a field of capacity 254, as in the tests. The crates sha2 and blake2s_simd are represented by the specifications."
  },
  {
   "property": "C69",
   "status": "proved",
   "theorems": [
    "Bellman.C69_polynomial_arith",
    "Bellman.C69_fft_composition",
    "Bellman.C69_parallel_fft_test",
    "Bellman.C69_parallel_fft",
    "Bellman.C69_parallel_fft_blind",
    "Bellman.C69_multiexp",
    "Bellman.C69_log2_floor",
    "Bellman.C69_verification_error",
    "Bellman.C69_synthesis_error",
    "Bellman.C69_serialization_turn",
    "Bellman.C69_serialization"
   ],
   "note": "The sizes of encoded points (48, 96, 192 bytes) are those of BLS12-381 and enter as hypotheses on the codecs."
  },
  {
   "property": "C70",
   "status": "proved",
   "theorems": [
    "Bellman.C70_same",
    "Bellman.C70_different",
    "Bellman.C70_relation",
    "Bellman.C70_files",
    "Bellman.C70_distinct",
    "Bellman.C70_vk_alone"
   ],
   "note": "Parameters are compared for the same trapdoor and generators. Places past the last constraint up to the domain size count as zero rows."
  },
  {
   "property": "C71",
   "status": "proved",
   "theorems": [
    "Bellman.C71_algebraic",
    "Bellman.C71_wrong_key",
    "Bellman.C71_room",
    "Bellman.C71_same_matrices"
   ],
   "note": "If the density of the prover does not match the key, it multiplies bases of other variables; the theorem covers that, because the coefficients are fixed all the same."
  },
  {
   "property": "C72",
   "status": "proved",
   "theorems": [
    "Bellman.C72_shifted",
    "Bellman.C72_guess",
    "Bellman.C72_detected",
    "Bellman.C72_xor"
   ],
   "note": "The hypothesis is that no shifted element is the identity (else create_proof reports UnexpectedIdentity)."
  },
  {
   "property": "C73",
   "status": "proved",
   "theorems": [
    "Bellman.C73_prepare",
    "Bellman.C73_single",
    "Bellman.C73_batch",
    "Bellman.C73_batch_mismatch",
    "Bellman.C73_batch_none",
    "Bellman.C73_multicore",
    "Bellman.C73_one_by_one",
    "Bellman.C73_comparison",
    "Bellman.C73_bench"
   ],
   "note": "The counted functions are proved equal in result to the verifiers of the other properties. Additions in the groups and field operations are not counted."
  },
  {
   "property": "C74",
   "status": "proved",
   "theorems": [
    "Bellman.C74_same",
    "Bellman.C74_count",
    "Bellman.C74_bound",
    "Bellman.C74_total",
    "Bellman.C74_bench"
   ],
   "note": "The counted functions are proved equal in result to the multiexp of C24 and C25. As there, the logarithm in f64 is modelled by the real logarithm. What is done before an error is reported is not counted."
  },
  {
   "property": "C75",
   "status": "proved",
   "theorems": [
    "Bellman.C75_simulated",
    "Bellman.C75_knowledge",
    "Bellman.C75_no_witness",
    "Bellman.C75_copy",
    "Bellman.C75_mimc"
   ],
   "note": "Provers are algebraic and non-adaptive, as in C42: the coefficients and the statements do not depend on the parameters or the proofs seen. Elements of the first group enter only elements of the first group, as there is no efficient map between the groups."
  },
  {
   "property": "C76",
   "status": "proved",
   "theorems": [
    "Bellman.C76_same_first",
    "Bellman.C76_same_second",
    "Bellman.C76_other_first",
    "Bellman.C76_other_second",
    "Bellman.C76_same_proof",
    "Bellman.C76_guess",
    "Bellman.C76_hidden",
    "Bellman.C76_mimc",
    "Bellman.C76_xor"
   ],
   "note": "Equality of the values of the factors is needed as a hypothesis: witnesses that differ only where the factors do not see it give equal proofs (example in the file)."
  },
  {
   "property": "C77",
   "status": "proved",
   "theorems": [
    "Bellman.C77_ratio",
    "Bellman.C77_identity",
    "Bellman.C77_equal",
    "Bellman.C77_zero",
    "Bellman.C77_rare",
    "Bellman.C77_tau",
    "Bellman.C77_xor"
   ],
   "note": "That only these leaks are harmful is not claimed: what holds with none of the trapdoors known is C42 and C64."
  },
  {
   "property": "C78",
   "status": "proved",
   "theorems": [
    "Bellman.C78_serial",
    "Bellman.C78_parallel",
    "Bellman.C78_best",
    "Bellman.C78_quotient",
    "Bellman.C78_overhead",
    "Bellman.C78_one_thread",
    "Bellman.C78_speedup",
    "Bellman.C78_gain"
   ],
   "note": "A power (pow_vartime) and an inversion count as one operation whatever the exponent; bit reversal, copying and unshuffling are not counted, as they do no arithmetic."
  },
  {
   "property": "C79",
   "status": "proved",
   "theorems": [
    "Bellman.C79_same",
    "Bellman.C79_count",
    "Bellman.C79_fixed",
    "Bellman.C79_xor"
   ],
   "note": "Synthesis of the circuit (closures of the caller) and evaluation of linear combinations are not counted. Scalar multiplication of single group elements counts as one operation."
  },
  {
   "property": "C80",
   "status": "proved",
   "theorems": [
    "Bellman.C80_same",
    "Bellman.C80_count",
    "Bellman.C80_queries",
    "Bellman.C80_fixed",
    "Bellman.C80_xor"
   ],
   "note": "Additions of scalars outside the transform, normalization and the inner work of a window table multiplication are not counted."
  },
  {
   "property": "C81",
   "status": "proved",
   "theorems": [
    "Bellman.C81_predictable",
    "Bellman.C81_predictable_multicore",
    "Bellman.C81_one",
    "Bellman.C81_order",
    "Bellman.C81_attained",
    "Bellman.C81_few",
    "Bellman.C81_chosen",
    "Bellman.C81_multicore_attained"
   ],
   "note": ""
  },
  {
   "property": "C82",
   "status": "proved",
   "theorems": [
    "Bellman.C82_xor",
    "Bellman.C82_and",
    "Bellman.C82_ch",
    "Bellman.C82_ch_true",
    "Bellman.C82_maj",
    "Bellman.C82_xor_words",
    "Bellman.C82_ch_words",
    "Bellman.C82_maj_words",
    "Bellman.C82_addmany",
    "Bellman.C82_addmany_constants",
    "Bellman.C82_alloc",
    "Bellman.C82_num",
    "Bellman.C82_enforceEqual",
    "Bellman.C82_lookup",
    "Bellman.C82_pack"
   ],
   "note": "The exception (sha256_ch with constant true) costs a gate but is sound."
  },
  {
   "property": "C83",
   "status": "proved",
   "theorems": [
    "Bellman.C83_chunking_proof",
    "Bellman.C83_chunking_vk",
    "Bellman.C83_chunking_parameters",
    "Bellman.C83_read_proof",
    "Bellman.C83_read_vk",
    "Bellman.C83_read_parameters",
    "Bellman.C83_no_panic",
    "Bellman.C83_work_proof",
    "Bellman.C83_work_vk",
    "Bellman.C83_work_parameters",
    "Bellman.C83_write_proof",
    "Bellman.C83_write_vk",
    "Bellman.C83_write_parameters",
    "Bellman.C83_transport_proof",
    "Bellman.C83_transport_vk",
    "Bellman.C83_transport_parameters"
   ],
   "note": "std::io read_exact, write_all and byteorder are modelled from their documentation. The decoding count also bounds the vectors, which are grown by push."
  },
  {
   "property": "C84",
   "status": "proved",
   "theorems": [
    "Bellman.C84_words",
    "Bellman.C84_log2_floor",
    "Bellman.C84_from_coeffs",
    "Bellman.C84_serial_fft",
    "Bellman.C84_transforms",
    "Bellman.C84_fft",
    "Bellman.C84_inverse",
    "Bellman.C84_multiexp",
    "Bellman.C84_window",
    "Bellman.C84_window_limit",
    "Bellman.C84_window_panics",
    "Bellman.C84_addmany"
   ],
   "note": "`usize` has 64 bits. The `f64` logarithm of the window size stays idealised; any window below 64 bits is covered by C84_window."
  },
  {
   "property": "C85",
   "status": "proved",
   "theorems": [
    "Bellman.C85_debug_sound",
    "Bellman.C85_release_sound",
    "Bellman.C85_same",
    "Bellman.C85_release_loses",
    "Bellman.C85_sha256",
    "Bellman.C85_blake2s"
   ],
   "note": "The compression functions are those of the unbounded model; they call MultiEq with 33 to 36 bits."
  },
  {
   "property": "C86",
   "status": "proved",
   "theorems": [
    "Bellman.C86_quotient",
    "Bellman.C86_generate",
    "Bellman.C86_prove",
    "Bellman.C86_threads",
    "Bellman.C86_completeness",
    "Bellman.C86_unsatisfied"
   ],
   "note": "The counters that synthesis increments by one are words only in C87."
  },
  {
   "property": "C87",
   "status": "proved",
   "theorems": [
    "Bellman.C87_refine",
    "Bellman.C87_debug",
    "Bellman.C87_error",
    "Bellman.C87_fits",
    "Bellman.C87_variables",
    "Bellman.C87_release",
    "Bellman.C87_debug_stops",
    "Bellman.C87_release_wraps",
    "Bellman.C87_generate",
    "Bellman.C87_generate_fits",
    "Bellman.C87_completeness"
   ],
   "note": "The inner vectors, one per variable, are not limited. Memory itself is not limited: 2^64 constraints are only ruled out by time."
  },
  {
   "property": "C88",
   "status": "proved",
   "theorems": [
    "Bellman.C88_assign",
    "Bellman.C88_assign_bounds",
    "Bellman.C88_assign_fits",
    "Bellman.C88_prove",
    "Bellman.C88_generate",
    "Bellman.C88_prove_fits",
    "Bellman.C88_prove_stops",
    "Bellman.C88_generate_threads",
    "Bellman.C88_prove_threads",
    "Bellman.C88_genuine",
    "Bellman.C88_completeness",
    "Bellman.C88_unsatisfied"
   ],
   "note": "The limits of Vec and of the crate bitvec are taken from their documentation. The conversion of the assignments into exponents allocates vectors of the same lengths and is not limited again."
  },
  {
   "property": "C89",
   "status": "proved",
   "theorems": [
    "Bellman.C89_proof",
    "Bellman.C89_vk",
    "Bellman.C89_parameters",
    "Bellman.C89_genuine",
    "Bellman.C89_completeness",
    "Bellman.C89_unsatisfied"
   ],
   "note": "The bound of 2^32 is that of the lengths in the file format; C37_truncated shows what happens beyond it."
  },
  {
   "property": "C90",
   "status": "proved",
   "theorems": [
    "Bellman.C90_verify",
    "Bellman.C90_batch",
    "Bellman.C90_multicore",
    "Bellman.C90_accepts",
    "Bellman.C90_completeness",
    "Bellman.C90_unsatisfied",
    "Bellman.C90_batch_completeness",
    "Bellman.C90_batch_invalid"
   ],
   "note": "Other numbers in verification are lengths of vectors that exist; the capacities of the vectors built by batch verification are not limited."
  }
 ]
}