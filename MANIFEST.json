{
 "claims": [
  {
   "property": "C01",
   "status": "proved",
   "theorems": [
    "Abe.C01_authorised_decryption"
   ],
   "note": "For any reachable policy, any chain of generation/delegation/randomisation, any curve satisfying the bilinear laws."
  },
  {
   "property": "C02",
   "status": "proved",
   "theorems": [
    "Abe.C02_unauthorised_decryption"
   ],
   "note": "Exact outcome: Ok(None), or the error 'empty input matrix' when no attribute is shared."
  },
  {
   "property": "C03",
   "status": "proved",
   "theorems": [
    "Abe.C03_matrix_realises_formula"
   ],
   "note": "Over every field; the coefficients outside the set are zero."
  },
  {
   "property": "C04",
   "status": "proved",
   "theorems": [
    "Abe.C04_solver",
    "Abe.C04_solver_empty"
   ],
   "note": "Rectangular matrices with at least one row; the empty matrix is the separate error case."
  },
  {
   "property": "C05",
   "status": "proved",
   "theorems": [
    "Abe.C05_matrix_shape"
   ],
   "note": ""
  },
  {
   "property": "C06",
   "status": "proved",
   "theorems": [
    "Abe.C06_hierarchical_access"
   ],
   "note": ""
  },
  {
   "property": "C07",
   "status": "proved",
   "theorems": [
    "Abe.C07_key_generation_success"
   ],
   "note": "Exact condition on reachable policies."
  },
  {
   "property": "C08",
   "status": "proved",
   "theorems": [
    "Abe.C08_all_key"
   ],
   "note": ""
  },
  {
   "property": "C09",
   "status": "proved",
   "theorems": [
    "Abe.C09_rotation_revokes",
    "Abe.C09_rotation_preserves"
   ],
   "note": ""
  },
  {
   "property": "C10",
   "status": "proved",
   "theorems": [
    "Abe.C10_all_key_not_exempt",
    "Abe.C10_all_key_refutation"
   ],
   "note": "The refutation exhibits an All key that does not open ciphertexts for values created later."
  },
  {
   "property": "C11",
   "status": "proved",
   "theorems": [
    "Abe.C11_randomisation"
   ],
   "note": ""
  },
  {
   "property": "C12",
   "status": "proved",
   "theorems": [
    "Abe.C12_delegation_to_restriction"
   ],
   "note": ""
  },
  {
   "property": "C13",
   "status": "proved",
   "theorems": [
    "Abe.C13_delegation_to_and_broken"
   ],
   "note": "Refutes the documentation at engine.rs:63-71: the delegated key decrypts to a wrong message."
  },
  {
   "property": "C14",
   "status": "proved",
   "theorems": [
    "Abe.C14_delegation_new_attribute_refused",
    "Abe.C14_delegated_parts_independent",
    "Abe.C14_delegation_outcome"
   ],
   "note": "Exact outcome of delegation (success, refusal, out of bounds access); independence of the delegated parts from the master secret."
  },
  {
   "property": "C15",
   "status": "proved",
   "theorems": [
    "Abe.C15_unauthorised_parts_independent"
   ],
   "note": "Perfect (information-theoretic) statement: a bijection of the randomness."
  },
  {
   "property": "C16",
   "status": "proved",
   "theorems": [
    "Abe.C16_no_linear_collusion"
   ],
   "note": ""
  },
  {
   "property": "C17",
   "status": "proved",
   "theorems": [
    "Abe.C17_encryption_outcome",
    "Abe.C17_full_budget_panics"
   ],
   "note": "Includes the negative finding that a policy with exhausted budget makes encryption panic."
  },
  {
   "property": "C18",
   "status": "proved",
   "theorems": [
    "Abe.C18_count",
    "Abe.C18_master_keys_consistent"
   ],
   "note": ""
  },
  {
   "property": "C19",
   "status": "proved",
   "theorems": [
    "Abe.C19_attribute_order_irrelevant"
   ],
   "note": ""
  },
  {
   "property": "C20",
   "status": "proved",
   "theorems": [
    "Abe.C20_access_monotone"
   ],
   "note": ""
  },
  {
   "property": "C21",
   "status": "proved",
   "theorems": [
    "Abe.C21_u32",
    "Abe.C21_i32",
    "Abe.C21_scalar",
    "Abe.C21_point",
    "Abe.C21_distinct",
    "Abe.C21_order"
   ],
   "note": "Point encodings under the recorded law Codecs.Lawful; u32, i32 and scalar encodings are concrete."
  },
  {
   "property": "C22",
   "status": "proved",
   "theorems": [
    "Abe.C22_vec_round_trip"
   ],
   "note": "Every target whose address space holds the bytes."
  },
  {
   "property": "C23",
   "status": "proved",
   "theorems": [
    "Abe.C23_vec_decode_panic",
    "Abe.C23_vec_decode_64"
   ],
   "note": "Exact panic condition on every target of at least 32 bits."
  },
  {
   "property": "C24",
   "status": "proved",
   "theorems": [
    "Abe.C24_master_keys_round_trip",
    "Abe.C24_no_slot_refuted",
    "Abe.C24_generated_keys_round_trip"
   ],
   "note": "Refuted for zero slots (concrete witness), proved otherwise."
  },
  {
   "property": "C25",
   "status": "proved",
   "theorems": [
    "Abe.C25_user_key_round_trip"
   ],
   "note": ""
  },
  {
   "property": "C26",
   "status": "proved",
   "theorems": [
    "Abe.C26_ciphertext_round_trip",
    "Abe.C26_no_attribute_refuted"
   ],
   "note": "Refuted for the empty attribute list (concrete witness), proved otherwise."
  },
  {
   "property": "C27",
   "status": "proved",
   "theorems": [
    "Abe.C27_matrix_round_trip",
    "Abe.C27_matrix",
    "Abe.C27_matrix_no_panic",
    "Abe.C27_matrix_wasm_refuted",
    "Abe.C27_zero_dimension_refuted"
   ],
   "note": "Exact panic condition on every target; zero dimensions and the panic on wasm32 by concrete witnesses."
  },
  {
   "property": "C28",
   "status": "proved",
   "theorems": [
    "Abe.C28_canonical",
    "Abe.C28_injective",
    "Abe.C28_zero_labels_refuted"
   ],
   "note": "The zero-count second encoding of one-label ciphertexts in release builds is the refutation."
  },
  {
   "property": "C29",
   "status": "proved",
   "theorems": [
    "Abe.C29_truncation",
    "Abe.C29_user_key_truncation"
   ],
   "note": ""
  },
  {
   "property": "C30",
   "status": "proved",
   "theorems": [
    "Abe.C30_ciphertext_len"
   ],
   "note": ""
  },
  {
   "property": "C31",
   "status": "proved",
   "theorems": [
    "Abe.C31_consistent_no_panic",
    "Abe.C31_crafted_ciphertext",
    "Abe.C31_crafted_key"
   ],
   "note": "Panic-freedom for consistent inputs; crafted inputs exist for every key and every ciphertext family."
  },
  {
   "property": "C32",
   "status": "proved",
   "theorems": [
    "Abe.C32_vec_capacity",
    "Abe.C32_matrix_row_capacity",
    "Abe.C32_matrix_column_capacity_refuted",
    "Abe.C32_vec_capacity_wasm_refuted",
    "Abe.C32_results",
    "Abe.C32_accepted"
   ],
   "note": "Stated on decoders that record the requested capacities; bounds proved, two refuted with witnesses (columns; wrap-around on 32-bit)."
  },
  {
   "property": "C33",
   "status": "proved",
   "theorems": [
    "Abe.C33_authorised",
    "Abe.C33_unauthorised"
   ],
   "note": "Uses the law of SHAKE256 only for the output length."
  },
  {
   "property": "C34",
   "status": "proved",
   "theorems": [
    "Abe.C34_element",
    "Abe.C34_encodable",
    "Abe.C34_collisions"
   ],
   "note": ""
  },
  {
   "property": "C35",
   "status": "proved",
   "theorems": [
    "Abe.C35_header_round_trip",
    "Abe.C35_header_encrypts"
   ],
   "note": ""
  },
  {
   "property": "C36",
   "status": "proved",
   "theorems": [
    "Abe.C36_layout",
    "Abe.C36_length"
   ],
   "note": ""
  },
  {
   "property": "C37",
   "status": "proved",
   "theorems": [
    "Abe.C37_encrypted_header",
    "Abe.C37_clear_header",
    "Abe.C37_panic",
    "Abe.C37_short_refuted"
   ],
   "note": "Panic characterised exactly; short-input panic is the refutation."
  },
  {
   "property": "C38",
   "status": "proved",
   "theorems": [
    "Abe.C38_blocks",
    "Abe.C38_block_decrypts",
    "Abe.C38_block_sizes"
   ],
   "note": ""
  },
  {
   "property": "C39",
   "status": "proved",
   "theorems": [
    "Abe.C39_unauthorised",
    "Abe.C39_framing",
    "Abe.C39_panic",
    "Abe.C39_crafted_header"
   ],
   "note": "Panics of header decryption characterised exactly."
  },
  {
   "property": "C40",
   "status": "proved",
   "theorems": [
    "Abe.C40_round_trip",
    "Abe.C40_short_input_panics",
    "Abe.C40_cut_message_panics"
   ],
   "note": "Round trip and two panic findings."
  },
  {
   "property": "C41",
   "status": "proved",
   "theorems": [
    "Abe.C41_total",
    "Abe.C41_grammar",
    "Abe.C41_unambiguous",
    "Abe.C41_counter_refuted"
   ],
   "note": "Texts below 2^31 characters; beyond, the i32 counter overflows (refutation for checked builds)."
  },
  {
   "property": "C42",
   "status": "proved",
   "theorems": [
    "Abe.C42_parse_print",
    "Abe.C42_spaces",
    "Abe.C42_right_associative"
   ],
   "note": ""
  },
  {
   "property": "C43",
   "status": "proved",
   "theorems": [
    "Abe.C43_rejects"
   ],
   "note": ""
  },
  {
   "property": "C44",
   "status": "proved",
   "theorems": [
    "Abe.C44_encryption",
    "Abe.C44_encryption_distinct",
    "Abe.C44_encryption_overwritten",
    "Abe.C44_decryption",
    "Abe.C44_decryption_distinct",
    "Abe.C44_decryption_overwritten"
   ],
   "note": "Every interleaving of any number of threads; the overwriting after 2^32 creations is proved as well."
  },
  {
   "property": "C45",
   "status": "proved",
   "theorems": [
    "Abe.C45_unknown_encryption_handle",
    "Abe.C45_unknown_decryption_handle",
    "Abe.C45_encryption",
    "Abe.C45_encryption_refused",
    "Abe.C45_encryption_destroy",
    "Abe.C45_decryption",
    "Abe.C45_decryption_refused",
    "Abe.C45_decryption_destroy"
   ],
   "note": ""
  },
  {
   "property": "C46",
   "status": "proved",
   "theorems": [
    "Abe.C46_encryption",
    "Abe.C46_decryption",
    "Abe.C46_created_encryption",
    "Abe.C46_created_decryption",
    "Abe.C46_encryption_history",
    "Abe.C46_decryption_history"
   ],
   "note": "Equality of results, memory and last error of the cached and uncached call."
  },
  {
   "property": "C47",
   "status": "proved",
   "theorems": [
    "Abe.C47_master_keys",
    "Abe.C47_user_key",
    "Abe.C47_rotation",
    "Abe.C47_encrypt_block",
    "Abe.C47_decrypt_block",
    "Abe.C47_retry",
    "Abe.C47_encrypt_header_using_cache",
    "Abe.C47_encrypt_header",
    "Abe.C47_decrypt_header_using_cache",
    "Abe.C47_decrypt_header"
   ],
   "note": "Per function: needed size reported or (blocks) not; negative capacities disable the check."
  },
  {
   "property": "C48",
   "status": "proved",
   "theorems": [
    "Abe.C48_nul",
    "Abe.C48_reports",
    "Abe.C48_set_error",
    "Abe.C48_failure",
    "Abe.C48_kept",
    "Abe.C48_unseen",
    "Abe.C48_last_error",
    "Abe.C48_message",
    "Abe.C48_round_trip",
    "Abe.C48_cut_character"
   ],
   "note": ""
  },
  {
   "property": "C49",
   "status": "proved",
   "theorems": [
    "Abe.C49_refused",
    "Abe.C49_unchecked_pointers",
    "Abe.C49_get_last_error"
   ],
   "note": "The unchecked pointers and the silent get_last_error are proved as negative findings."
  },
  {
   "property": "C50",
   "status": "proved",
   "theorems": [
    "Abe.C50_budget",
    "Abe.C50_wraps"
   ],
   "note": ""
  },
  {
   "property": "C51",
   "status": "proved",
   "theorems": [
    "Abe.C51_master_keys",
    "Abe.C51_js_master_keys"
   ],
   "note": ""
  },
  {
   "property": "C52",
   "status": "proved",
   "theorems": [
    "Abe.C52_ffi",
    "Abe.C52_ffi_ambiguous",
    "Abe.C52_python",
    "Abe.C52_js"
   ],
   "note": "C: exact answer for every input; ambiguity of the error code proved."
  },
  {
   "property": "C53",
   "status": "proved",
   "theorems": [
    "Abe.C53_ffi_rotations",
    "Abe.C53_python_rotations",
    "Abe.C53_reachable_well_formed",
    "Abe.C53_rotation",
    "Abe.C53_add_axis",
    "Abe.C53_js_rotations"
   ],
   "note": "The add_axis/rotate model is a reconstruction of the external crate."
  },
  {
   "property": "C54",
   "status": "proved",
   "theorems": [
    "Abe.C54_truncated_header"
   ],
   "note": "The undetected cut before the metadata is part of the theorem."
  },
  {
   "property": "C55",
   "status": "proved",
   "theorems": [
    "Abe.C55_trailing_bytes"
   ],
   "note": ""
  },
  {
   "property": "C56",
   "status": "proved",
   "theorems": [
    "Abe.C56_round_trip",
    "Abe.C56_calls"
   ],
   "note": ""
  },
  {
   "property": "C57",
   "status": "proved",
   "theorems": [
    "Abe.C57_round_trip",
    "Abe.C57_whole_output"
   ],
   "note": ""
  },
  {
   "property": "C58",
   "status": "proved",
   "theorems": [
    "Abe.C58_encryption_handle",
    "Abe.C58_decryption_handle",
    "Abe.C58_encryption_unknown",
    "Abe.C58_decryption_unknown",
    "Abe.C58_empty_uid_refuted"
   ],
   "note": "Histories without panic and at most 2^32 creations; the empty identifier difference is the refutation."
  },
  {
   "property": "C59",
   "status": "proved",
   "theorems": [
    "Abe.C59_encryption_disabled",
    "Abe.C59_decryption_disabled",
    "Abe.C59_crafted_header"
   ],
   "note": "Relies on the no-threads RwLock and on traps not unwinding (see DESIGN.md)."
  },
  {
   "property": "C60",
   "status": "proved",
   "theorems": [
    "Abe.C60_js_blocks",
    "Abe.C60_js_refusals",
    "Abe.C60_js_decryption_refusals"
   ],
   "note": ""
  },
  {
   "property": "C61",
   "status": "proved",
   "theorems": [
    "Abe.C61_no_pairing_attack",
    "Abe.C61_authorised_opens"
   ],
   "note": "Strategies are fixed linear combinations of group elements and pairings, working for all randomness; C61_authorised_opens is the converse."
  },
  {
   "property": "C62",
   "status": "proved",
   "theorems": [
    "Abe.C62_shift",
    "Abe.C62_homomorphic",
    "Abe.C62_removal"
   ],
   "note": ""
  },
  {
   "property": "C63",
   "status": "proved",
   "theorems": [
    "Abe.C63_foreign_key"
   ],
   "note": ""
  },
  {
   "property": "C64",
   "status": "proved",
   "theorems": [
    "Abe.C64_interoperability"
   ],
   "note": "Master keys, user keys (also delegated or randomised) and headers from any interface of builds of at least 32 bits."
  },
  {
   "property": "C65",
   "status": "proved",
   "theorems": [
    "Abe.C65_blocks",
    "Abe.C65_negative_number_refuted"
   ],
   "note": "The negative block number finding is the refutation."
  },
  {
   "property": "C66",
   "status": "proved",
   "theorems": [
    "Abe.C66_text_to_matrix",
    "Abe.C66_text_to_decryption"
   ],
   "note": "Texts below 2^31 characters."
  },
  {
   "property": "C67",
   "status": "proved",
   "theorems": [
    "Abe.C67_display"
   ],
   "note": ""
  },
  {
   "property": "C68",
   "status": "proved",
   "theorems": [
    "Abe.C68_decode_panics",
    "Abe.C68_release",
    "Abe.C68_wasm_refuted"
   ],
   "note": "The exception for user keys on 32-bit targets by a concrete witness."
  },
  {
   "property": "C69",
   "status": "proved",
   "theorems": [
    "Abe.C69_builds_agree"
   ],
   "note": ""
  },
  {
   "property": "C70",
   "status": "proved",
   "theorems": [
    "Abe.C70_no_capacity_overflow",
    "Abe.C70_wasm_refuted"
   ],
   "note": "Element sizes in memory are a parameter; refuted on 32-bit targets by a concrete witness."
  },
  {
   "property": "C71",
   "status": "proved",
   "theorems": [
    "Abe.C71_later_ciphertext",
    "Abe.C71_earlier_ciphertext"
   ],
   "note": "Induction over histories (Spec/History: Evolves, Issued); exact in both directions of time."
  },
  {
   "property": "C72",
   "status": "proved",
   "theorems": [
    "Abe.C72_delegation_later",
    "Abe.C72_delegation_earlier"
   ],
   "note": "Success or failure for restrictions that are valid under the policy of the key."
  },
  {
   "property": "C73",
   "status": "proved",
   "theorems": [
    "Abe.C73_call",
    "Abe.C73_history"
   ],
   "note": "Caller contract in Spec/FfiContract: output buffers null or of the announced non-negative capacity, inputs null or as announced, handle pointer not null; the violations that lead to undefined behaviour are in C47 and C49."
  },
  {
   "property": "C74",
   "status": "proved",
   "theorems": [
    "Abe.C74_js_non_reg_block",
    "Abe.C74_bench",
    "Abe.C74_span_programs",
    "Abe.C74_matrix_bytes",
    "Abe.C74_elements",
    "Abe.C74_bytes",
    "Abe.C74_verify_access_policy",
    "Abe.C74_hybrid",
    "Abe.C74_ffi",
    "Abe.C74_symmetric_key",
    "Abe.C74_generate_files",
    "Abe.C74_generate_another",
    "Abe.C74_js_generate_keys",
    "Abe.C74_js_decrypt_header",
    "Abe.C74_js_encrypt_header",
    "Abe.C74_js_encrypt_block",
    "Abe.C74_policy_group",
    "Abe.C74_policy_group_from_java",
    "Abe.C74_py_demo",
    "Abe.C74_py_notebook",
    "Abe.C74_demo",
    "Abe.C74_demo_unused_key",
    "Abe.C74_complex_access_policy",
    "Abe.C74_multiple_key_pair",
    "Abe.C74_encrypt_decrypt"
   ],
   "note": "The programs are modelled in Model/RepoTests, Model/RepoBytesTests, Model/RepoFfiTests, Model/RepoFileTests, Model/RepoJsTests, Model/RepoPyDemo and Model/RepoPyNotebook; boolean expressions and attribute lists, parsed by an external crate, are given as values; key files are arguments; printing is left out."
  },
  {
   "property": "C75",
   "status": "proved",
   "theorems": [
    "Abe.C75_policy_changes",
    "Abe.C75_engine",
    "Abe.C75_keys_agree"
   ],
   "note": "C75_keys_agree covers generated, delegated and randomised keys."
  },
  {
   "property": "C76",
   "status": "proved",
   "theorems": [
    "Abe.C76_generic_security",
    "Abe.C76_authorised_wins"
   ],
   "note": "Generic group model: a proof that no attack uses the groups as black boxes, not a proof of computational security. Deterministic attackers; the bound extends to randomised ones by averaging. The messages of the challenge are elements the attacker computes."
  },
  {
   "property": "C77",
   "status": "proved",
   "theorems": [
    "Abe.C77_randomised_as_fresh",
    "Abe.C77_delegated_as_fresh",
    "Abe.C77_unlinkable",
    "Abe.C77_same_probabilities"
   ],
   "note": "A shift of the draws is a bijection, hence equality of distributions for uniform draws (C77_same_probabilities counts them)."
  },
  {
   "property": "C78",
   "status": "proved",
   "theorems": [
    "Abe.C78_encapsulation_one_way"
   ],
   "note": "Generic group model, by reduction to C76; the random element is a uniform multiple of the generator of Gt."
  },
  {
   "property": "C79",
   "status": "proved",
   "theorems": [
    "Abe.C79_enough_calls",
    "Abe.C79_exact_calls",
    "Abe.C79_bounded_stack_refuted"
   ],
   "note": "Counts nested calls; the size of a stack frame in bytes is not modelled."
  },
  {
   "property": "C80",
   "status": "proved",
   "theorems": [
    "Abe.C80_real_instances",
    "Abe.C80_random_instances",
    "Abe.C80_authorised_wins",
    "Abe.C80_selective_security"
   ],
   "note": "Selective game of Goyal, Pandey, Sahai and Waters. The reduction is an explicit definition that runs the attacker once and combines the elements of the instance linearly; running times are not modelled. The target group is assumed to be generated by its generator, as a group of prime order is."
  },
  {
   "property": "C81",
   "status": "proved",
   "theorems": [
    "Abe.C81_delegation_adds_nothing",
    "Abe.C81_delegation_secure"
   ],
   "note": "Keys are delegated under the policy they were made under. Follows from C77 by making every key only when the attacker obtains it."
  },
  {
   "property": "C82",
   "status": "proved",
   "theorems": [
    "Abe.C82_hybrid_confidentiality",
    "Abe.C82_authorised_wins"
   ],
   "note": "The symmetric scheme and SHAKE256 are parameters without any assumption in the bound; what they achieve is the advantage in symmetricGame. Both reductions are explicit definitions (kemAttacker, demAttacker)."
  },
  {
   "property": "C83",
   "status": "proved",
   "theorems": [
    "Abe.C83_adaptive_advantage",
    "Abe.C83_adaptive_security"
   ],
   "note": "The factor is the number of lists that may be named; for this scheme no better reduction is known. The reduction is an explicit definition (adaptiveDistinguisher)."
  },
  {
   "property": "C84",
   "status": "proved",
   "theorems": [
    "Abe.C84_many_advantage",
    "Abe.C84_many_security"
   ],
   "note": "The attribute values of the challenges are named in advance; the messages are chosen adaptively."
  },
  {
   "property": "C85",
   "status": "proved",
   "theorems": [
    "Abe.C85_life_security",
    "Abe.C85_revoked_keys"
   ],
   "note": "Corollary of C80 by the relation of values and attributes over a history (C71)."
  },
  {
   "property": "C86",
   "status": "proved",
   "theorems": [
    "Abe.C86_master_key_sizes",
    "Abe.C86_user_key_size",
    "Abe.C86_rotation_growth",
    "Abe.C86_readme_header_sizes"
   ],
   "note": "Sizes of encoded group elements are those of the lawful codecs (32, 48, 96 and 288 bytes); the 4-byte prefixes come from Vec::as_bytes."
  },
  {
   "property": "C87",
   "status": "proved",
   "theorems": [
    "Abe.C87_draws",
    "Abe.C87_randomised",
    "Abe.C87_number_of_keys",
    "Abe.C87_without_and"
   ],
   "note": "The columns of the sharing matrix are independent (shareL_inj); the count is over a finite scalar field."
  },
  {
   "property": "C88",
   "status": "proved",
   "theorems": [
    "Abe.C88_master_keys",
    "Abe.C88_user_keys",
    "Abe.C88_matrices",
    "Abe.C88_formula_matrices"
   ],
   "note": "hex::encode is modelled (external crate). The printing of matrix entries is a parameter assumed unambiguous, proved for i32."
  },
  {
   "property": "C89",
   "status": "proved",
   "theorems": [
    "Abe.C89_equality",
    "Abe.C89_span_programs"
   ],
   "note": "Equality of the elements of the groups is that of the model."
  },
  {
   "property": "C90",
   "status": "proved",
   "theorems": [
    "Abe.C90_refreshed",
    "Abe.C90_refreshed_opens",
    "Abe.C90_unlinkable",
    "Abe.C90_narrowed",
    "Abe.C90_chosen_ciphertext"
   ],
   "note": "The decryption oracle of the game refuses only the challenge header itself, as usual; the attacker asks for no key. Confidentiality without such an oracle is C82."
  },
  {
   "property": "C91",
   "status": "proved",
   "theorems": [
    "Abe.C91_messages_one_by_one",
    "Abe.C91_system_confidentiality"
   ],
   "note": "Combines C82, C84 and C85. The attributes and policies of the messages are fixed before the game (selective, as in C80); the contents are chosen adaptively. The reductions are explicit definitions (demAttacker, kemAttacker, distinguisher)."
  },
  {
   "property": "C92",
   "status": "proved",
   "theorems": [
    "Abe.C92_master_keys",
    "Abe.C92_user_key",
    "Abe.C92_encrypt_block",
    "Abe.C92_decrypt_block",
    "Abe.C92_encrypt_header",
    "Abe.C92_decrypt_header",
    "Abe.C92_rotation_refuted"
   ],
   "note": "Refuted for h_rotate_attributes (C92_rotation_refuted): ffi_bail! with a single literal does not format it."
  },
  {
   "property": "C93",
   "status": "proved",
   "theorems": [
    "Abe.C93_mixed",
    "Abe.C93_header",
    "Abe.C93_equivocation_refuted",
    "Abe.C93_agreement"
   ],
   "note": "Refutation of agreement (C93_equivocation_refuted) and the exact condition for agreement (C93_agreement). `mixed`, `mixedHeader` in Spec/Mixed are the programs of the sender; they use the public key only."
  },
  {
   "property": "C94",
   "status": "proved",
   "theorems": [
    "Abe.C94_results",
    "Abe.C94_any",
    "Abe.C94_minimal"
   ],
   "note": "`traced` (Spec/Trace) is the bilinear map with a record of the pairings; the generic code runs on it unchanged (C94_results). An exponentiation in the target group is not counted."
  },
  {
   "property": "C95",
   "status": "proved",
   "theorems": [
    "Abe.C95_values",
    "Abe.C95_attributes",
    "Abe.C95_differ",
    "Abe.C95_key"
   ],
   "note": ""
  },
  {
   "property": "C96",
   "status": "proved",
   "theorems": [
    "Abe.C96_zero_scalar",
    "Abe.C96_zero_secret",
    "Abe.C96_shown_iff",
    "Abe.C96_repeated_scalar",
    "Abe.C96_repeat_visible",
    "Abe.C96_repeated_slot",
    "Abe.C96_repeated_key_draws",
    "Abe.C96_collusion",
    "Abe.C96_zeros",
    "Abe.C96_repeats"
   ],
   "note": ""
  },
  {
   "property": "C97",
   "status": "proved",
   "theorems": [
    "Abe.C97_decrypt",
    "Abe.C97_encrypt",
    "Abe.C97_master_key",
    "Abe.C97_key_generation",
    "Abe.C97_key_delegation",
    "Abe.C97_key_randomization",
    "Abe.C97_engine_user_key",
    "Abe.C97_engine_delegation",
    "Abe.C97_engine_encrypt",
    "Abe.C97_symmetric_key",
    "Abe.C97_header",
    "Abe.C97_two_authorities"
   ],
   "note": ""
  },
  {
   "property": "C98",
   "status": "proved",
   "theorems": [
    "Abe.C98_integrity",
    "Abe.C98_places",
    "Abe.C98_reading",
    "Abe.C98_authorised_wins",
    "Abe.C98_messages_one_by_one",
    "Abe.C98_system_integrity"
   ],
   "note": "The assumption on the symmetric scheme is the probability in symmetricForgery, which is part of the bound; no scheme is assumed secure. Attributes and policies of the messages are fixed before the game (selective, as in C80), metadata and blocks are chosen adaptively. Outside of the statement: blocks left out or cut off at the end of a message, empty metadata put in place of others (readers take Metadata::default when nothing follows), and headers made anew by an outsider with the public key (C90)."
  },
  {
   "property": "C99",
   "status": "proved",
   "theorems": [
    "Abe.C99_private_key",
    "Abe.C99_public_key",
    "Abe.C99_delegation_key",
    "Abe.C99_user_key",
    "Abe.C99_ciphertext",
    "Abe.C99_header",
    "Abe.C99_block",
    "Abe.C99_ffi_header",
    "Abe.C99_ffi_header_using_cache",
    "Abe.C99_ffi_decryption_cache",
    "Abe.C99_ffi_decrypt_block",
    "Abe.C99_ffi_encrypt_block"
   ],
   "note": "Errors of other crates are opaque texts (Texts, External.Reports): what the symmetric library or serde_json writes is outside of the statement. `{:?}` of errors, used in one message of the C interface (creation of a decryption cache), is not modelled."
  },
  {
   "property": "C100",
   "status": "proved",
   "theorems": [
    "Abe.C100_later_header",
    "Abe.C100_earlier_header",
    "Abe.C100_later_error",
    "Abe.C100_later_message",
    "Abe.C100_earlier_message"
   ],
   "note": "For whole messages the bytes of keys and the JSON texts are those which the codecs and serde give (hypotheses on Lib); header and message below 4 GiB."
  },
  {
   "property": "C101",
   "status": "proved",
   "theorems": [
    "Abe.C101_lawful",
    "Abe.C101_exact",
    "Abe.C101_layout",
    "Abe.C101_sbox",
    "Abe.C101_nonce_reuse"
   ],
   "note": ""
  },
  {
   "property": "C102",
   "status": "proved",
   "theorems": [
    "Abe.C102_encryptions",
    "Abe.C102_decryptions",
    "Abe.C102_next_header",
    "Abe.C102_next_header_using_cache",
    "Abe.C102_one_output"
   ],
   "note": ""
  },
  {
   "property": "C103",
   "status": "proved",
   "theorems": [
    "Abe.C103_documents",
    "Abe.C103_attribute_names",
    "Abe.C103_attribute_text",
    "Abe.C103_policies",
    "Abe.C103_read",
    "Abe.C103_keeps",
    "Abe.C103_attributes",
    "Abe.C103_attributes_read",
    "Abe.C103_attribute_list",
    "Abe.C103_access",
    "Abe.C103_access_read",
    "Abe.C103_axes",
    "Abe.C103_metadata",
    "Abe.C103_deep",
    "Abe.C103_py_demo",
    "Abe.C103_policy_file",
    "Abe.C103_lost_attribute",
    "Abe.C103_wide",
    "Abe.C103_py_notebook",
    "Abe.C103_white_space"
   ],
   "note": ""
  },
  {
   "property": "C104",
   "status": "proved",
   "theorems": [
    "Abe.C104_field",
    "Abe.C104_hash",
    "Abe.C104_forgery",
    "Abe.C104_secrecy",
    "Abe.C104_blocks",
    "Abe.C104_block_secrecy",
    "Abe.C104_wrap"
   ],
   "note": ""
  },
  {
   "property": "C105",
   "status": "proved",
   "theorems": [
    "Abe.C105_confidentiality",
    "Abe.C105_system_confidentiality",
    "Abe.C105_integrity",
    "Abe.C105_system_integrity"
   ],
   "note": "C82/C91 (confidentiality) and C98 (integrity) with C104 in place of an assumption on the symmetric scheme. Nonces are drawn uniformly, hence the terms for repeated nonces. Unproved and left in the bounds: AES-256 against a random function, and the bilinear Diffie-Hellman problem. The derivation of the key is arbitrary: the bound speaks of AES under keys derived from a random element of the target group. Integrity excludes metadata which is not read as it was written (additional data that is present but empty)."
  },
  {
   "property": "C106",
   "status": "proved",
   "theorems": [
    "Abe.C106_panics",
    "Abe.C106_key_generation",
    "Abe.C106_complete",
    "Abe.C106_encryption",
    "Abe.C106_access",
    "Abe.C106_shared_value",
    "Abe.C106_python_javascript",
    "Abe.C106_c"
   ],
   "note": "Key generation is characterised for private keys without zero scalar (set-up never makes another, C18); the panic itself is proved for all keys. Includes a policy text that crashes the three interfaces."
  },
  {
   "property": "C107",
   "status": "proved",
   "theorems": [
    "Abe.C107_shake",
    "Abe.C107_sizes",
    "Abe.C107_pad",
    "Abe.C107_generate",
    "Abe.C107_decrypt",
    "Abe.C107_lengths",
    "Abe.C107_lawful"
   ],
   "note": ""
  },
  {
   "property": "C108",
   "status": "proved",
   "theorems": [
    "Abe.C108_later",
    "Abe.C108_earlier",
    "Abe.C108_rotation_calls"
   ],
   "note": ""
  },
  {
   "property": "C109",
   "status": "proved",
   "theorems": [
    "Abe.C109_values",
    "Abe.C109_formula",
    "Abe.C109_rotations",
    "Abe.Readme.C109_readme_order_refuted"
   ],
   "note": ""
  },
  {
   "property": "C110",
   "status": "proved",
   "theorems": [
    "Abe.C110_scalars",
    "Abe.C110_pairing",
    "Abe.C110_assumptions",
    "Abe.C110_constants",
    "Abe.C110_orders",
    "Abe.C110_generators",
    "Abe.C110_g1",
    "Abe.C110_g2",
    "Abe.C110_g1_number",
    "Abe.C110_g2_number",
    "Abe.C110_codecs"
   ],
   "note": "The source of cosmian_bls12_381 is not in the repository; its functions on points are modelled from the published format, against which the points of the stored keys are checked. That the pairing of the crate is bilinear, and the encoding of the target group, stay assumptions."
  },
  {
   "property": "C111",
   "status": "proved",
   "theorems": [
    "Abe.C111_scalar",
    "Abe.C111_vector",
    "Abe.C111_selective_security",
    "Abe.C111_system_confidentiality",
    "Abe.C111_system_integrity",
    "Abe.C111_elements"
   ],
   "note": "The source of cosmian_bls12_381 is not in the repository; Field::random of its scalars is modelled from the published procedure (64 bytes, low byte first, reduced). The generator of bytes is taken to be uniform and its calls independent. The source of random elements of the target group is an argument with its distance from uniform; C111_elements gives this distance if they come from a larger group by the final exponentiation, which is not modelled itself."
  }
 ]
}