{
 "claims": [
  {
   "property": "C01",
   "status": "proved",
   "theorems": [
    "Verif.Gmw.xor_sharing_roundtrip",
    "Verif.Gmw.xor_sharing_hides"
   ],
   "note": ""
  },
  {
   "property": "C02",
   "status": "proved",
   "theorems": [
    "Verif.Arith.additive_sharing_roundtrip",
    "Verif.Arith.additive_sharing_hides",
    "Verif.Arith.local_gate_homomorphic"
   ],
   "note": ""
  },
  {
   "property": "C03",
   "status": "proved",
   "theorems": [
    "Verif.Gmw.and_layer_correct"
   ],
   "note": ""
  },
  {
   "property": "C04",
   "status": "proved",
   "theorems": [
    "Verif.Gmw.simd_and_layer_correct",
    "Verif.Gmw.words_and_layer_correct"
   ],
   "note": "the second theorem is about the words of the bit vectors, for shares and triples starting at any position of a word"
  },
  {
   "property": "C05",
   "status": "partial",
   "theorems": [
    "Verif.Gmw.mixed_layer_incorrect",
    "Verif.Gmw.unmixed_layer_correct_partial",
    "Verif.Gmw.mixed_layer_reuses_mask"
   ],
   "note": "The claim is false of the code: negation proved with a witness; the partial theorem covers layers with one kind of interactive gate."
  },
  {
   "property": "C06",
   "status": "partial",
   "theorems": [
    "Verif.Gmw.local_gate_correct",
    "Verif.Gmw.local_gate_simd_correct",
    "Verif.Gmw.constant_simd_correct",
    "Verif.Gmw.words_xor_correct",
    "Verif.Gmw.words_xor_ignores"
   ],
   "note": "Without conditions for scalar gates and SIMD Inv, constants and outputs. A SIMD XOR is correct if both shares start at the same position of a word (words_xor_correct); otherwise it ignores operands (words_xor_ignores, C95)."
  },
  {
   "property": "C07",
   "status": "partial",
   "theorems": [
    "Verif.Arith.mul_layer_incorrect",
    "Verif.Arith.mul_gate_correct_iff",
    "Verif.Arith.mul_layer_correct_partial"
   ],
   "note": "The claim is false of the code: negation proved for every width; exact characterisation of the triples that work."
  },
  {
   "property": "C08",
   "status": "proved",
   "theorems": [
    "Verif.Exec.gmw_built_circuit_correct",
    "Verif.Exec.gmw_scalar_circuit_correct"
   ],
   "note": "every schedule of the two parties; executor, layer iterator, GMW and circuit construction are all modelled"
  },
  {
   "property": "C09",
   "status": "partial",
   "theorems": [
    "Verif.Gmw.and_message_masked",
    "Verif.Gmw.simd_and_message_masked",
    "Verif.Gmw.words_message_aligned",
    "Verif.Gmw.words_message_unmasked"
   ],
   "note": "Without conditions for scalar gates. SIMD messages are masked if the triples start at a word; otherwise the first lanes are sent unmasked (words_message_unmasked, C95)."
  },
  {
   "property": "C10",
   "status": "partial",
   "theorems": [
    "Verif.Circuit.layers_ok_partial",
    "Verif.Exec.base_layers_ok",
    "Verif.Exec.packed_input_panics",
    "Verif.Exec.packed_input_twice"
   ],
   "note": "Proved for single circuits and for sub-circuits whose inputs have one source each; false of the code for inputs with several sources (witness)."
  },
  {
   "property": "C100",
   "status": "proved",
   "theorems": [
    "Verif.Tensor.tensor_layer_messages_uniform",
    "Verif.Tensor.tensor_layer_messages_private",
    "Verif.Tensor.tensor_share_uniform",
    "Verif.Tensor.tensor_active_private"
   ],
   "note": "Distributions are bijections of the drawn values: for each layer, each sharing, and whole executions against a peer that follows any strategy. Circuits without constants (todo!() in the code) and without SIMD (not supported by this protocol); matrices whose dimensions fill bytes (others are refused by BitMatrix::random)."
  },
  {
   "property": "C101",
   "status": "partial",
   "theorems": [
    "Verif.Tensor.tensor_inputs_hidden",
    "Verif.Tensor.tensor_party_hidden_partial",
    "Verif.Tensor.tensor_mask_known_to_other_party"
   ],
   "note": "False of the code: the generator is selected by gate id whatever the circuit, so an AND gate in a sub-circuit can get a mask the peer knows (witness). Proved, from the sharing to the end of the execution, if no interactive gate has the id of an input of the peer; with masks drawn otherwise tensor_inputs_hidden needs no condition."
  },
  {
   "property": "C102",
   "status": "partial",
   "theorems": [
    "Verif.Mt.connections_served",
    "Verif.Mt.connections_two_clients",
    "Verif.Mt.lost_reply_mismatch",
    "Verif.Mt.receive_errors_spin"
   ],
   "note": "False of the code in two points: an entry is removed before its reply is sent, so a party that asks again after a lost reply gets triples that do not match those of the other party (witness); the loop is not left on receive errors, it spins as long as they last. The rest is proved."
  },
  {
   "property": "C103",
   "status": "partial",
   "theorems": [
    "Verif.Aby2.share_vec_correct",
    "Verif.Aby2.share_vec_new_unequal",
    "Verif.Aby2.setup_used_in_order",
    "Verif.Aby2.setup_append_used_first"
   ],
   "note": "False of the code in the last point: append puts new setup data in front (it is used first). It is not called on setup data of ABY2 in the repository. ShareVec::new accepts bit vectors of different lengths; then len fails in debug builds and the iterator announces a wrong length (proved). The rest is proved in full."
  },
  {
   "property": "C104",
   "status": "proved",
   "theorems": [
    "Verif.Exec.gmw_inputs_hidden",
    "Verif.Exec.encrypt_inputs_shared"
   ],
   "note": "About the factors of the triples see C88. The output share that party 0 of the example sends afterwards, and the plain key it sends with --validate, are not part of the view. The theorem on privacy is about any layout of the inputs whose lengths depend only on the lengths of the shares; keyParty and dataParty are the two of the example."
  },
  {
   "property": "C105",
   "status": "partial",
   "theorems": [
    "Verif.Aby2.static_iterators_same_partial",
    "Verif.Aby2.astra_static_setup_partial",
    "Verif.Aby2.astra_static_correct_partial",
    "Verif.Aby2.astra_static_single",
    "Verif.Aby2.aby_static_setup_partial",
    "Verif.Aby2.aby2_two_party_static_partial",
    "Verif.Aby2.aby2_two_party_static_single"
   ],
   "note": "Without conditions for circuits without sub-circuits (astra_static_single, aby2_two_party_static_single). With sub-circuits under the conditions of C47 (circuits first reached in the order of circ_map, calls of a shared circuit with equal layers, no empty circuit), without which precomputing itself is wrong (static_layers_swap_circuits, static_layers_panic, unreached_circuit_panics)."
  },
  {
   "property": "C106",
   "status": "partial",
   "theorems": [
    "Verif.Tensor.tensor_static_setup_partial",
    "Verif.Tensor.tensor_static_correct_partial",
    "Verif.Tensor.tensor_static_single"
   ],
   "note": "Without conditions for circuits without sub-circuits (tensor_static_single). With sub-circuits under the conditions of C47, as in C105."
  },
  {
   "property": "C11",
   "status": "proved",
   "theorems": [
    "Verif.Secret.low_depth_reduce_correct",
    "Verif.Secret.low_depth_reduce_pure",
    "Verif.Secret.and_reduce_denotes"
   ],
   "note": ""
  },
  {
   "property": "C12",
   "status": "proved",
   "theorems": [
    "Verif.Secret.fromConst_denotes",
    "Verif.Secret.bitXor_denotes",
    "Verif.Secret.bitAnd_denotes",
    "Verif.Secret.not_denotes",
    "Verif.Secret.output_denotes",
    "Verif.Secret.bitXorConst_denotes",
    "Verif.Secret.bitAndConst_denotes",
    "Verif.Secret.bitOr_denotes",
    "Verif.Secret.bitOrAssign_denotes",
    "Verif.Secret.bitOrConst_denotes",
    "Verif.Secret.bitOrAssignConst_denotes",
    "Verif.Secret.different_circuits_rejected"
   ],
   "note": ""
  },
  {
   "property": "C13",
   "status": "proved",
   "theorems": [
    "Verif.Circuit.operands_in_order"
   ],
   "note": ""
  },
  {
   "property": "C14",
   "status": "partial",
   "theorems": [
    "Verif.Circuit.add_sub_circuit_structure",
    "Verif.Circuit.add_sub_circuit_correct_partial",
    "Verif.Circuit.inlined_sub_swaps_operands"
   ],
   "note": "Operands of every copied gate are reversed; the claim holds for gates symmetric in their operands and is refuted for Sub by a witness."
  },
  {
   "property": "C15",
   "status": "partial",
   "theorems": [
    "Verif.Circuit.range_lookup_correct_partial",
    "Verif.Circuit.range_lookup_sound",
    "Verif.Circuit.insert_fails_only_inside",
    "Verif.Circuit.range_lookup_loses_connection"
   ],
   "note": "False of the code when a range is inserted that strictly contains an earlier one (witness); proved otherwise, soundness of lookups in all cases."
  },
  {
   "property": "C16",
   "status": "partial",
   "theorems": [
    "Verif.Circuit.group_gates_partial",
    "Verif.Circuit.group_gates_flatten",
    "Verif.Circuit.group_gates_merges_duplicates"
   ],
   "note": "False of the code if two neighbouring runs start with the same gate (witness); proved otherwise."
  },
  {
   "property": "C17",
   "status": "proved",
   "theorems": [
    "Verif.Parse.from_bristol_correct",
    "Verif.Parse.from_bristol_sub_circuit",
    "Verif.Parse.from_bristol_rejects",
    "Verif.Parse.bristol_file_executes",
    "Verif.Parse.unwritten_wire_reads_gate_zero"
   ],
   "note": "the last theorem records what happens to ill-formed descriptions"
  },
  {
   "property": "C18",
   "status": "partial",
   "theorems": [
    "Verif.Parse.fashion_round_trip",
    "Verif.Parse.parse_sound",
    "Verif.Parse.old_round_trip_partial",
    "Verif.Parse.old_format_rejected"
   ],
   "note": "Complete for Bristol fashion, with the converse; old-format files with a narrow first input can be rejected (witness)."
  },
  {
   "property": "C19",
   "status": "proved",
   "theorems": [
    "Verif.Mt.rot_triples_valid",
    "Verif.Mt.nextMultipleOf8_spec",
    "Verif.Mt.boolean_ot_history"
   ],
   "note": "boolean_ot_history is the composition with the OT extension (C28)"
  },
  {
   "property": "C20",
   "status": "proved",
   "theorems": [
    "Verif.Mt.provider_history",
    "Verif.Mt.buffered_request_exact",
    "Verif.Mt.provider_pair",
    "Verif.Mt.insecure_request_valid",
    "Verif.Mt.insecure_provider_repeats",
    "Verif.Mt.silent_requests",
    "Verif.Mt.silent_first_use"
   ],
   "note": "the test-only InsecureMTProvider repeats triples by design; the silent provider panics when its one batch is used up"
  },
  {
   "property": "C21",
   "status": "proved",
   "theorems": [
    "Verif.Mt.server_pairs",
    "Verif.Mt.server_two_clients",
    "Verif.Mt.second_amount_ignored"
   ],
   "note": "a differing second amount is ignored (recorded)"
  },
  {
   "property": "C22",
   "status": "proved",
   "theorems": [
    "Verif.Mt.seeds_expand_valid",
    "Verif.Mt.seed_server_pairs",
    "Verif.Mt.seed_second_amount_mismatch"
   ],
   "note": "differing amounts give stores of differing length (recorded)"
  },
  {
   "property": "C23",
   "status": "partial",
   "theorems": [
    "Verif.Mt.arith_request_valid_partial",
    "Verif.Mt.precompute_then_request_panics",
    "Verif.Mt.second_request_invalid"
   ],
   "note": "False of the code: precomputation makes every request panic and a second request gives invalid triples; a single request without precomputation is correct."
  },
  {
   "property": "C24",
   "status": "proved",
   "theorems": [
    "Verif.Mt.store_history",
    "Verif.Mt.store_pairwise"
   ],
   "note": ""
  },
  {
   "property": "C25",
   "status": "partial",
   "theorems": [
    "Verif.Mt.storage_conserves",
    "Verif.Mt.storage_in_order",
    "Verif.Mt.storage_pairwise",
    "Verif.Mt.store_mts_content",
    "Verif.Mt.boolean_storage_out_of_order",
    "Verif.Mt.boolean_batch_sizes_matter"
   ],
   "note": "Nothing lost or repeated, and both parties stay matching if they use equal batch sizes; generation order holds for arithmetic triples and is refuted for Boolean ones."
  },
  {
   "property": "C26",
   "status": "proved",
   "theorems": [
    "Verif.Ot.base_ot_correct",
    "Verif.Ot.base_ot_runs"
   ],
   "note": ""
  },
  {
   "property": "C27",
   "status": "proved",
   "theorems": [
    "Verif.Ot.sender_completes_iff",
    "Verif.Ot.receiver_completes_iff",
    "Verif.Ot.receiver_error_kinds"
   ],
   "note": ""
  },
  {
   "property": "C28",
   "status": "proved",
   "theorems": [
    "Verif.Ot.ot_ext_history",
    "Verif.Ot.ot_ext_with_base"
   ],
   "note": ""
  },
  {
   "property": "C29",
   "status": "partial",
   "theorems": [
    "Verif.Ot.early_close_not_reported",
    "Verif.Ot.early_close_wrong_ots",
    "Verif.Ot.ext_sender_errors_partial"
   ],
   "note": "False of the code: a closed channel ends the loop and Ok is returned; broken channels and unexpected messages are reported."
  },
  {
   "property": "C30",
   "status": "proved",
   "theorems": [
    "Verif.Ot.correlated_ot",
    "Verif.Ot.correlated_ot_ext"
   ],
   "note": ""
  },
  {
   "property": "C31",
   "status": "proved",
   "theorems": [
    "Verif.Silent.pprf_tree",
    "Verif.Silent.pprf_expand"
   ],
   "note": "all configurations the code accepts (depth at least 2, even leaf count); others panic"
  },
  {
   "property": "C32",
   "status": "proved",
   "theorems": [
    "Verif.Silent.pprf_layout",
    "Verif.Silent.pprf_expand"
   ],
   "note": "positions in range for choices accepted by sample_choice_bits"
  },
  {
   "property": "C33",
   "status": "proved",
   "theorems": [
    "Verif.Silent.compress_random_ot",
    "Verif.Silent.compress_correlated",
    "Verif.Silent.silent_random_ot"
   ],
   "note": "codes are arbitrary additive maps; libOTe and bitpolymul are external"
  },
  {
   "property": "C34",
   "status": "partial",
   "theorems": [
    "Verif.Silent.modp_spec_partial",
    "Verif.Silent.modp_odd_partial",
    "Verif.Silent.modp_aligned_wrong"
   ],
   "note": "Proved for every prime the configuration can choose; for p a multiple of 128 the shift by 0 panics (overflow checks) or adds bits twice (witness)."
  },
  {
   "property": "C35",
   "status": "partial",
   "theorems": [
    "Verif.Silent.gap_correct_partial",
    "Verif.Silent.gap_leaks_delta"
   ],
   "note": "Correct, but the hiding half is false of the code: delta can be computed from the message (proved)."
  },
  {
   "property": "C36",
   "status": "proved",
   "theorems": [
    "Verif.Aby2.sharing_lossless",
    "Verif.Aby2.directions_separate"
   ],
   "note": ""
  },
  {
   "property": "C37",
   "status": "proved",
   "theorems": [
    "Verif.Aby2.aby2_execute_correct",
    "Verif.Aby2.setup_masks",
    "Verif.Aby2.astra_execute_correct"
   ],
   "note": "executor level, all schedules, with sub-circuits (each sub-circuit input with one source, see C10); astra_execute_correct goes from the seeds to the outputs"
  },
  {
   "property": "C38",
   "status": "partial",
   "theorems": [
    "Verif.Aby2.and_correct_iff_partial",
    "Verif.Aby2.and_many_wrong"
   ],
   "note": "False of the code: proved that a gate with n operands is correct for all masks exactly if n is at most 2."
  },
  {
   "property": "C39",
   "status": "proved",
   "theorems": [
    "Verif.Aby2.astra_products",
    "Verif.Aby2.astra_execute_correct"
   ],
   "note": "scalar circuits with two-input AND gates (others panic)"
  },
  {
   "property": "C40",
   "status": "partial",
   "theorems": [
    "Verif.Tensor.tensor_layer_correct_partial",
    "Verif.Tensor.tensor_xor_correct",
    "Verif.Tensor.share_tensor_correct",
    "Verif.Tensor.setup_matmult_correct",
    "Verif.Tensor.setup_products",
    "Verif.Tensor.tensor_constant_matrix",
    "Verif.Tensor.tensor_constant_scalar_wrong",
    "Verif.Tensor.tensor_inv_wrong",
    "Verif.Tensor.tensor_inv_setup_panics",
    "Verif.Tensor.tensor_vec_reconstruct_panics"
   ],
   "note": "MatMult, And2, Xor, sharing and the setup circuit are correct for all dimensions that fill bytes; scalar constants and negation are wrong in the code (proved)."
  },
  {
   "property": "C41",
   "status": "partial",
   "theorems": [
    "Verif.Mixed.mixed_local_correct",
    "Verif.Mixed.mixed_layer_correct_partial",
    "Verif.Mixed.b2a_value",
    "Verif.Mixed.b2a_wrong_bits",
    "Verif.Mixed.second_b2a_wrong",
    "Verif.Mixed.b2a_bits_not_consumed"
   ],
   "note": "Right for every B2A gate whose Boolean shared bits match the last arithmetic ones (the first B2A of a run, or the all-zero bits of the insecure setup), in any interleaving with other gates; the code never removes arithmetic shared bits, so a second B2A is wrong (proved, with the exact error)."
  },
  {
   "property": "C42",
   "status": "partial",
   "theorems": [
    "Verif.Mixed.mixed_layer_correct_partial",
    "Verif.Mixed.a2b_correct",
    "Verif.Mixed.a2b_layer_value",
    "Verif.Mixed.two_a2b_in_one_layer",
    "Verif.Mixed.b2a_after_rcv_panics"
   ],
   "note": "Right when a layer's Rcv gate is followed by no B2A gate and only by Snd gates with the same operand, e.g. one a2b per layer; with n a2b calls in one layer the k-th call converts value k/2 (proved), and B2A after Rcv panics (proved)."
  },
  {
   "property": "C43",
   "status": "proved",
   "theorems": [
    "Verif.Bitmat.simple_transpose_correct",
    "Verif.Bitmat.block_transpose_correct",
    "Verif.Bitmat.block_eq_simple",
    "Verif.Bitmat.transpose_correct",
    "Verif.Bitmat.transpose_transpose",
    "Verif.Bitmat.transpose_invalid"
   ],
   "note": "the blocked implementation is modelled on 128 bit vectors; every unchecked access is shown to be in bounds; the branch with 16 bit loads is never reached"
  },
  {
   "property": "C44",
   "status": "partial",
   "theorems": [
    "Verif.Bitmat.mat_mul_correct_partial",
    "Verif.Bitmat.mat_mul_valid_iff",
    "Verif.Bitmat.mat_mul_chain",
    "Verif.Bitmat.mat_mul_right_operand_panics",
    "Verif.Bitmat.mat_mul_left_operand_extra_rows",
    "Verif.Bitmat.mat_mul_empty_inner",
    "Verif.Bitmat.identity_mul"
   ],
   "note": "The product is correct; the second half is false of the code: a product that does not fill a word cannot be a right operand (panics) and as left operand yields extra rows; an empty inner dimension panics."
  },
  {
   "property": "C45",
   "status": "partial",
   "theorems": [
    "Verif.Chan.bytes_conserved",
    "Verif.Chan.attribution",
    "Verif.Chan.run_result_panics_iff",
    "Verif.Chan.run_result_total",
    "Verif.Chan.without_unaccounted_broken",
    "Verif.Chan.without_unaccounted_ignored",
    "Verif.Chan.mean_value"
   ],
   "note": "Conservation holds for every interleaving and the attribution is exactly determined; the promise of without_unaccounted is false of the code: prev_phase is never assigned, so the option has no effect (proved)."
  },
  {
   "property": "C46",
   "status": "proved",
   "theorems": [
    "Verif.Chan.new_local_wired",
    "Verif.Chan.new_local_keys",
    "Verif.Chan.send_unknown",
    "Verif.Chan.delivery_prefix",
    "Verif.Chan.delivery_complete",
    "Verif.Chan.local_network_delivery"
   ],
   "note": "at most 2^32 parties (ids are u32); the channels of the remoc crate are reliable FIFO queues"
  },
  {
   "property": "C47",
   "status": "partial",
   "theorems": [
    "Verif.Circuit.static_layers_same_partial",
    "Verif.Circuit.sameLayers_of_injective",
    "Verif.Circuit.static_layers_swap_circuits",
    "Verif.Circuit.static_layers_panic",
    "Verif.Circuit.static_layers_reuse",
    "Verif.Circuit.unreached_circuit_panics"
   ],
   "note": "Equal when circuits are first reached in numbering order and calls of a shared circuit have equal layers. Otherwise false of the code: circuits are swapped, precompute_layers panics, or a call gets the layers of another (all three proved with well-formed circuits)."
  },
  {
   "property": "C48",
   "status": "proved",
   "theorems": [
    "Verif.Circuit.into_circuit_keeps_table"
   ],
   "note": ""
  },
  {
   "property": "C49",
   "status": "proved",
   "theorems": [
    "Verif.Circuit.bookkeeping",
    "Verif.Circuit.connect_gate_listed_twice"
   ],
   "note": "sub-circuit input list: only if add_sc_input_gate is called with SubCircuitInput gates (its documented use); the other case is shown to duplicate entries"
  },
  {
   "property": "C50",
   "status": "proved",
   "theorems": [
    "Verif.Util.le_bytes_roundtrip",
    "Verif.Util.le_bytes_roundtrip'",
    "Verif.Util.le_bytes_value",
    "Verif.Util.fromBlock_spec",
    "Verif.Util.blockHalves_spec",
    "Verif.Util.getBit_spec",
    "Verif.Util.log2Floor_spec",
    "Verif.Util.log2Ceil_spec",
    "Verif.Util.log2_zero_panics"
   ],
   "note": ""
  },
  {
   "property": "C51",
   "status": "partial",
   "theorems": [
    "Verif.Exec.calls_correct_partial",
    "Verif.Exec.program_correct",
    "Verif.Circuit.connect_calls_partial",
    "Verif.Circuit.connect_calls_loses_wire",
    "Verif.Circuit.connect_calls_panics",
    "Verif.Circuit.connect_duplicate_panics"
   ],
   "note": "End to end for scalar circuits: builder calls, circuit table, executor. Nested source ranges lose a wire or panic (witnesses)."
  },
  {
   "property": "C52",
   "status": "proved",
   "theorems": [
    "Verif.Mixed.bits_recompose",
    "Verif.Adder.adder_file_correct",
    "Verif.Adder.adder_sub_circuit",
    "Verif.Adder.adder_executes"
   ],
   "note": "the four stored files are reproduced in Verif/Adder/Files.lean; a certificate checker proved sound for all operands is evaluated on them in the kernel"
  },
  {
   "property": "C53",
   "status": "partial",
   "theorems": [
    "Verif.Exec.gmw_simd_circuit_correct",
    "Verif.Exec.gmw_execute_correct_partial",
    "Verif.Exec.output_operand_is_freed",
    "Verif.Exec.cross_operand_is_freed",
    "Verif.Exec.words_simd_circuit_correct_partial",
    "Verif.Exec.words_execute_wrong"
   ],
   "note": "Proved under the stated restrictions; each restriction is shown necessary by a witness (also C05, C10). On the level of words the lanes have to be multiples of 64, or the positions of the operands equal (C95): words_execute_wrong."
  },
  {
   "property": "C54",
   "status": "partial",
   "theorems": [
    "Verif.Silent.qc_silent_ot_partial",
    "Verif.Silent.qc_blocks_iff",
    "Verif.Silent.qc_pprf_ok",
    "Verif.Silent.qc_configure_panics",
    "Verif.Silent.Fft.qc_encoder_silent_ot_partial",
    "Verif.Silent.Fft.dual_encode_correct",
    "Verif.Silent.Fft.dual_encode_choice_correct",
    "Verif.Silent.Fft.recv_packed_correct",
    "Verif.Silent.Fft.recv_unpacked_correct",
    "Verif.Silent.Fft.configure_ok"
   ],
   "note": "False of the code for some numbers of OTs (17598 panics); exact characterisation for scaler 2, full protocol proved otherwise, also with the encoder itself (rows split over threads in any way, copy_out, separate choice bits) instead of an abstract code, up to 2^36 blocks."
  },
  {
   "property": "C55",
   "status": "partial",
   "theorems": [
    "Verif.Silent.exconv_silent_ot_partial",
    "Verif.Silent.silent_first_request",
    "Verif.Silent.silent_triples_biased"
   ],
   "note": "False of the code for the expand convolute code: N2 OTs are returned, and the triples handed out first have noise vector entries as shares (proved). The truncating codes are covered by C33/C54."
  },
  {
   "property": "C56",
   "status": "partial",
   "theorems": [
    "Verif.Aby2.mask_sources",
    "Verif.Aby2.and_masks_private_partial",
    "Verif.Aby2.and_mask_known_to_other_party"
   ],
   "note": "False of the code: the generator is selected by gate id whatever the circuit, so AND gates in sub-circuits can get masks the other party knows (witness). Exact source of every mask proved."
  },
  {
   "property": "C57",
   "status": "partial",
   "theorems": [
    "Verif.Mixed.from_iter_iff_partial",
    "Verif.Mixed.extend_appends",
    "Verif.Mixed.set_get",
    "Verif.Mixed.repeat_get",
    "Verif.Mixed.mixed_storage_set",
    "Verif.Mixed.mixed_outputs_panic"
   ],
   "note": "extend, set and get are right; collecting a heterogeneous sequence panics (proved)"
  },
  {
   "property": "C58",
   "status": "proved",
   "theorems": [
    "Verif.Chan.connect_wired",
    "Verif.Chan.connect_rejects_duplicates",
    "Verif.Chan.sub_channels_wired"
   ],
   "note": "TCP and remoc as reliable FIFO transport, every party completes its set-up"
  },
  {
   "property": "C59",
   "status": "partial",
   "theorems": [
    "Verif.Macro.sub_circuit_program_correct_partial",
    "Verif.Macro.sub_circuit_sharing",
    "Verif.Macro.sub_circuit_reset",
    "Verif.Macro.sub_circuit_inner_args_panic",
    "Verif.Macro.sub_circuit_repeated_arg_panic",
    "Verif.Macro.sub_circuit_without_args_fails",
    "Verif.Macro.sub_circuit_stale_cache"
   ],
   "note": "Proved for every program whose calls pass at least one secret and whose argument runs respect the connection maps. Otherwise false of the code: arguments inside those of an earlier call and repeated arguments panic, a function without arguments is never executed, and install + into_circuit leaves emptied circuits in the caches (all proved)."
  },
  {
   "property": "C60",
   "status": "partial",
   "theorems": [
    "Verif.AVec.aligned_vec_partial",
    "Verif.AVec.aligned_vec_no_leak",
    "Verif.AVec.from_slice_complete",
    "Verif.AVec.clone_double_drop",
    "Verif.AVec.reserve_undefined_behaviour",
    "Verif.AVec.reserve_wraps",
    "Verif.AVec.empty_unaligned"
   ],
   "note": "Proved for all programs that request less than a quarter of the address space and do not clone vectors whose elements have drop glue. Otherwise false of the code: clone copies bitwise (double drop), reserve on a vector with memory does not check isize::MAX before realloc, len + additional wraps in release builds, an empty vector's pointer is not aligned to ALIGN (all proved)."
  },
  {
   "property": "C61",
   "status": "proved",
   "theorems": [
    "Verif.Util.aes_rng_stream",
    "Verif.Util.aes_rng_chunking",
    "Verif.Util.aes_rng_chunking_bytes",
    "Verif.Util.aes_rng_fork",
    "Verif.Util.aes_rng_from_rng",
    "Verif.Util.aes_rng_counters",
    "Verif.Util.cr_hash_agree"
   ],
   "note": "The cipher is an arbitrary function per key. aes_rng_chunking_bytes is the limit of the chunking claim: requests that are not whole words lose the rest of a word."
  },
  {
   "property": "C62",
   "status": "partial",
   "theorems": [
    "Verif.Mixed.mixed_execute_correct_partial",
    "Verif.Mixed.mixed_circuit_correct_partial",
    "Verif.Mixed.a2b_circuit",
    "Verif.Mixed.a2b_executes",
    "Verif.Mixed.a2b_b2a_executes",
    "Verif.Mixed.insecure_setup_ok"
   ],
   "note": "Conditional on one a2b per layer and no B2A behind it, which the code needs (C42) but does not ensure; for single circuits the condition is on multiplicative depths. a2b_circuit is about the circuit builder function a2b with the stored adder files."
  },
  {
   "property": "C63",
   "status": "partial",
   "theorems": [
    "Verif.Exec.layer_is_depth",
    "Verif.Exec.rounds_eq_depth_partial",
    "Verif.Exec.calls_cost_rounds",
    "Verif.Exec.layer_is_call_depth",
    "Verif.Exec.callDepth_exists",
    "Verif.Exec.rounds_bounded_partial",
    "Verif.Exec.constants_cost_rounds"
   ],
   "note": "Proved for single circuits; false with sub-circuits (proved): entering a function takes a layer. With sub-circuits the exact layer of every gate is proved (connections between circuits count one), and that there are at most as many additional rounds as connections on a path to an interactive gate, where paths to constants of a sub-circuit begin with a connection to it (otherwise false: constants_cost_rounds)."
  },
  {
   "property": "C64",
   "status": "partial",
   "theorems": [
    "Verif.Mixed.mixed_sharing_roundtrip_partial",
    "Verif.Mixed.reconstruct_bools",
    "Verif.Mixed.reconstruct_ariths",
    "Verif.Mixed.a2b_end_to_end",
    "Verif.Mixed.mixed_storage_not_shared"
   ],
   "note": "The Mixed variant panics in share and reconstruct, also for an execution without outputs (proved)."
  },
  {
   "property": "C65",
   "status": "partial",
   "theorems": [
    "Verif.Fuse.fuse_inline_correct_partial",
    "Verif.Fuse.fuse_inline_plain_partial",
    "Verif.Fuse.convert_mode",
    "Verif.Fuse.convert_ignores_values",
    "Verif.Fuse.split_bit_wrong",
    "Verif.Fuse.constant_wrong",
    "Verif.Fuse.inlined_sub_wrong",
    "Verif.Fuse.no_entry_point",
    "Verif.Fuse.nested_call_panics",
    "Verif.Fuse.two_outputs_panic",
    "Verif.Fuse.missing_nodes_panics",
    "Verif.Fuse.forward_reference_panics",
    "Verif.Fuse.fuse_calls_connected_partial",
    "Verif.Fuse.fuse_calls_wires_partial",
    "Verif.Fuse.call_twice_panics",
    "Verif.Fuse.call_loses_wire"
   ],
   "note": "Proved for inlined calls (any nesting) and for modules without calls, if only first outputs are used, constants are true or 1, sub-circuits contain neither subtraction nor merge, and conversions are in different layers (C62). Otherwise false of the code: offsets and payloads are ignored, inlining swaps operands, missing parts panic or give an empty circuit (all proved). For connected calls it is proved which circuits and connections the module is converted to (one converted circuit per call, wired from the operands and back to the gate of the call), and that a call with a repeated operand panics and that nested ranges of operands lose a wire. Missing: that the connected circuit computes the value of the module."
  },
  {
   "property": "C66",
   "status": "proved",
   "theorems": [
    "Verif.Mail.privmail_search_correct",
    "Verif.Mail.query_two",
    "Verif.Mail.privmail_no_keywords",
    "Verif.Mail.privmail_empty_keyword"
   ],
   "note": "Base64 decoding is not modelled. A query without keywords and an empty keyword panic (last two theorems)."
  },
  {
   "property": "C67",
   "status": "partial",
   "theorems": [
    "Verif.Cbc.aes_cbc_correct",
    "Verif.Cbc.cbc_decrypts",
    "Verif.Cbc.aes_cbc_partial_block",
    "Verif.Cbc.data_encoding",
    "Verif.Cbc.key_encoding",
    "Verif.Cbc.key_encoding_wrong",
    "Verif.Cbc.default_key_wrong"
   ],
   "note": "Everything but the encoding of the key is proved in full. The key and the IV reach the circuit with the bytes of each 8-byte half reversed, unlike the data, so the last sentence is false for them: it holds exactly for keys whose halves are palindromes. That the file in test_resources computes AES is not proved; the theorem is for every file."
  },
  {
   "property": "C68",
   "status": "proved",
   "theorems": [
    "Verif.Chan.Sub.sub_channels_paired",
    "Verif.Chan.Sub.sub_channels_disagree"
   ],
   "note": "Channels are reliable queues; loss of the connection during set-up is not modelled here."
  },
  {
   "property": "C69",
   "status": "partial",
   "theorems": [
    "Verif.Chan.Sync.sync_barrier",
    "Verif.Chan.Sync.sync_completes",
    "Verif.Chan.Sync.sync_passes_closed_peer"
   ],
   "note": "All but the last sentence is proved in full. The last sentence is false of the code: sync ignores that the peer has closed the channel (witness)."
  },
  {
   "property": "C70",
   "status": "partial",
   "theorems": [
    "Verif.Cbc.aes_cbc_calls_correct",
    "Verif.Cbc.aes_cbc_calls_sharing",
    "Verif.Cbc.aes_cbc_calls_second_build_panics"
   ],
   "note": "All but the last sentence is proved in full. The last sentence is false: finishing a circuit empties the static AES_CIRC, so every later build panics (third theorem, for all sizes)."
  },
  {
   "property": "C71",
   "status": "partial",
   "theorems": [
    "Verif.Aby2.aby_setup_products",
    "Verif.Aby2.aby2_two_party_correct",
    "Verif.Aby2.aby_setup_order_wrong"
   ],
   "note": "The setup data is characterised for AND gates of every arity; the end-to-end statement is proved in full for two-input AND gates. Missing: gates with three or more operands, for which it is false. There the operands are sorted by first use, so the products do not fit the gate (third theorem), and the evaluation is wrong besides (C38)."
  },
  {
   "property": "C72",
   "status": "partial",
   "theorems": [
    "Verif.Arith.arith_execute_value",
    "Verif.Arith.arith_execute_linear",
    "Verif.Arith.arith_execute_correct_partial",
    "Verif.Arith.arith_built_linear",
    "Verif.Arith.arith_built_correct_partial",
    "Verif.Arith.arith_execute_wrong"
   ],
   "note": "What is computed is characterised for all circuits and triples; circuits without Mul are correct in full. Missing: Mul with general valid triples, for which it is false (arith_execute_wrong: the circuit of the unit test gives 99 instead of 100)."
  },
  {
   "property": "C73",
   "status": "partial",
   "theorems": [
    "Verif.Arith.opening_first_masked_partial",
    "Verif.Arith.opening_leaks",
    "Verif.Arith.opening_not_hiding",
    "Verif.Arith.mul_view",
    "Verif.Arith.arith_mul_leaks"
   ],
   "note": "d is masked. Missing: e, for which it is false: the code masks the second operand with c = a*b, so whenever d equals the first operand, e is the second operand in clear; in whole executions the peer can exclude shares, whatever it does (arith_mul_leaks)."
  },
  {
   "property": "C74",
   "status": "partial",
   "theorems": [
    "Verif.Exec.static_execute_same_partial",
    "Verif.Exec.static_execute_single",
    "Verif.Exec.static_execute_built",
    "Verif.Exec.gmw_static_correct_partial",
    "Verif.Exec.static_execute_wrong",
    "Verif.Exec.static_execute_panics"
   ],
   "note": "Proved in full for single circuits (static_execute_single). With sub-circuits: proved if the calls are reached in the order of circ_map, calls of a shared circuit have the same layers and no circuit is empty. Otherwise it is false: a wrong output (static_execute_wrong), a panic (static_execute_panics)."
  },
  {
   "property": "C75",
   "status": "partial",
   "theorems": [
    "Verif.Exec.precomputed_amount",
    "Verif.Exec.gmw_interleaved_correct",
    "Verif.Exec.gmw_precomputed_correct",
    "Verif.Exec.gmw_precomputed_static_partial"
   ],
   "note": "Amount and use of the buffer are proved for all circuits. The outputs need the conditions of C08 for several circuits (no layer with scalar and simd AND gates, C05; freed simd gates). With precomputed layers the conditions of C74 apply. SIMD circuits in addition need shares at equal positions in words (C95)."
  },
  {
   "property": "C76",
   "status": "proved",
   "theorems": [
    "Verif.Parse.bristol_file_precomputed"
   ],
   "note": "composition of C17, C18, C19, C28, C74 and C75; single scalar circuits need none of their conditions. Sub-channels and statistics are separate (C45, C68)."
  },
  {
   "property": "C77",
   "status": "partial",
   "theorems": [
    "Verif.Exec.gmw_view_uniform_partial",
    "Verif.Exec.gmw_view_independent_partial",
    "Verif.Exec.gmw_view_independent_other_partial",
    "Verif.Exec.gmw_circuit_private",
    "Verif.Gmw.mixed_layer_reuses_mask"
   ],
   "note": "holds without conditions for single circuits (gmw_circuit_private) and for circuits with sub-circuits under the conditions of C08. False when a layer has scalar and simd AND gates: mixed_layer_reuses_mask. For SIMD circuits the triples have to start at a word (C95). The sharing of inputs and the reconstruction of outputs are outside (C01)."
  },
  {
   "property": "C78",
   "status": "partial",
   "theorems": [
    "Verif.Mail.privmail_calls_correct_partial",
    "Verif.Mail.privmail_calls_sharing",
    "Verif.Mail.privmail_calls_shorter_keyword_panics",
    "Verif.Mail.privmail_calls_longer_keyword_fails",
    "Verif.Mail.privmail_calls_short_mail_fails",
    "Verif.Mail.privmail_calls_no_keywords",
    "Verif.Mail.privmail_calls_empty_keyword"
   ],
   "note": "holds when all keywords have the same length and no mail is shorter. False otherwise: a shorter keyword after a longer one panics when the circuit is built, a longer one after a shorter one fails when it is executed (both on one two-byte mail). A mail shorter than the keyword makes the execution fail as well (or_sc of an empty slice adds its gates to the main circuit, and the returned wire is connected to a gate that does not exist)."
  },
  {
   "property": "C79",
   "status": "partial",
   "theorems": [
    "Verif.Exec.gmw_stored_correct",
    "Verif.Exec.gmw_stored_file_correct",
    "Verif.Exec.gmw_stored_needs_triples",
    "Verif.Exec.gmw_looped_correct",
    "Verif.Exec.looped_file_leaks"
   ],
   "note": "conditions on circuits with sub-circuits as in C08 (no layer with scalar and simd AND gates, C05; freed simd gates); the generator gives valid triples (C19). SIMD circuits in addition need shares at equal positions in words (C95). bincode and the file system are assumed to return what was written. looped_file_leaks shows what reusing triples reveals (documented as insecure)."
  },
  {
   "property": "C80",
   "status": "proved",
   "theorems": [
    "Verif.Ot.base_ot_choices_hidden",
    "Verif.Ot.ot_ext_choices_hidden",
    "Verif.Ot.ot_ext_view_independent"
   ],
   "note": "uniformity is stated as a bijection between randomness and messages. The generators seeded with unknown base OT messages are idealised as uniform bits (the real statement holds up to the security of AES-CTR), the group is assumed to have a generator reached by each element for exactly one scalar (ristretto: prime order). Hiding the sender's other message rests on the hash function and cannot be expressed."
  },
  {
   "property": "C81",
   "status": "partial",
   "theorems": [
    "Verif.Aby2.aby2_inputs_hidden_partial",
    "Verif.Aby2.aby2_inputs_hidden_other_partial",
    "Verif.Aby2.aby2_same_view",
    "Verif.Aby2.aby2_same_view_other",
    "Verif.Aby2.and_value_visible"
   ],
   "note": "holds if no AND gate has a gate id that the input map assigns to the observer. False otherwise: for an AND gate in a sub-circuit with such an id the observer reads the value of the gate off the messages (and_value_visible, for all seeds). The bijection is stated as: exactly one value of the private bits used gives the same view. The private generators are idealised as uniform bits; reconstruction of outputs is outside."
  },
  {
   "property": "C82",
   "status": "proved",
   "theorems": [
    "Verif.Tensor.tensor_two_party_correct",
    "Verif.Tensor.tensor_setup_products",
    "Verif.Tensor.tensor_execute_correct",
    "Verif.Tensor.tensor_xor_matrix_setup_panics",
    "Verif.Tensor.tensor_constant_setup_panics",
    "Verif.Tensor.tensor_odd_setup_panics"
   ],
   "note": "whole protocol, from share_tensor to reconstruct_tensor, including the GMW execution of the setup circuit. Circuits without SIMD (the code panics for it). That the circuits outside (sums of matrices, constants, matrices that do not fill bytes) panic in the setup is proved for one circuit each. Vector inputs are not modelled; request_setup_output is split_off_last on the setup data, in the order of the layers (Answers)."
  },
  {
   "property": "C83",
   "status": "partial",
   "theorems": [
    "Verif.Exec.gmw_executor_reuse",
    "Verif.Exec.exhausted_provider_panics",
    "Verif.Exec.one_setup_one_execution",
    "Verif.Macro.bench_repeat"
   ],
   "note": "Boolean GMW: proved for any number of executions, conditions on circuits with sub-circuits as in C08. Each execution of the model runs to its end before the next (execute takes &mut self). False of the benchmark: with repeat and the global circuit every run but the first executes an empty circuit (bench_repeat)."
  },
  {
   "property": "C84",
   "status": "partial",
   "theorems": [
    "Verif.Global.circuitOf_spec",
    "Verif.Global.thread_builds_own_circuit",
    "Verif.Global.concurrent_builders_partial",
    "Verif.Global.disjoint_threads",
    "Verif.Global.sections_do_not_disturb",
    "Verif.Global.same_gate_type_mixes_circuits"
   ],
   "note": "holds for threads with different gate or index types and for tasks of one thread. False for two threads with the same gate type, for example two ABY2 parties in one process on different threads: one gets a circuit with another user's gates, whose circuit is lost, or a thread panics (same_gate_type_mixes_circuits). That threads with different gate types do not disturb each other holds for builders of any content, sub-circuits included (disjoint_threads); what a builder builds is modelled here without sub-circuits."
  },
  {
   "property": "C85",
   "status": "partial",
   "theorems": [
    "Verif.Global.calls_never_deadlock_partial",
    "Verif.Global.connect_to_main_circuit_never_returns"
   ],
   "note": "Secret::connect_to_main_circuit never returns (connect_to_main_circuit_never_returns). A #[sub_circuit] body only adds gates (nested calls panic, a body that takes the global circuit is not modelled)."
  },
  {
   "property": "C86",
   "status": "proved",
   "theorems": [
    "Verif.Exec.gmw_trusted_server",
    "Verif.Exec.gmw_trusted_seed_server",
    "Verif.Exec.serverRuns",
    "Verif.Exec.shared_id_mismatch"
   ],
   "note": "Conditions on the circuit as in C08, for SIMD circuits those of C95 (proved for their list model). Requests of one id by others between the requests of the parties break the session (shared_id_mismatch), so other clients are assumed to use other ids. Connections do not fail."
  },
  {
   "property": "C87",
   "status": "partial",
   "theorems": [
    "Verif.Parse.bristol_compile_simd",
    "Verif.Parse.compile_table",
    "Verif.Exec.simd_program_correct_partial",
    "Verif.Exec.simd_program_static_partial",
    "Verif.Exec.first_layer_main",
    "Verif.Exec.words_simd_program_correct_partial",
    "Verif.Exec.words_execute_wrong"
   ],
   "note": "True for lanes that are multiples of 64 (words_simd_program_correct_partial); for other sizes the shares get different positions in their words and XOR goes wrong (C95), which the model of the other theorems leaves out. The Bristol part has no condition beyond a well-formed file with at least one input. The general part is conditional: dynamic layers need NotFreed (C08), precomputed layers the conditions of C74 on circ_map. Serialization of the compiled circuit is not modelled here."
  },
  {
   "property": "C88",
   "status": "partial",
   "theorems": [
    "Verif.Exec.gmw_active_private",
    "Verif.Exec.gmw_circuit_active",
    "Verif.Exec.gmw_words_active_private",
    "Verif.Exec.words_leak"
   ],
   "note": "For scalar circuits as stated; for SIMD circuits the triples have to start at a word (gmw_words_active_private), otherwise the first lanes are sent in the clear (words_leak, C95). About input shares and messages of the execution; the reconstruction of outputs, where a deviating party can of course change its share, is outside, and no integrity is claimed: an example shows that a flipped bit changes the output without notice. With AND gates in scalar and simd circuits the claim is false (mixed_layer_reuses_mask, C05). Debug assertions are panics in the model."
  },
  {
   "property": "C89",
   "status": "partial",
   "theorems": [
    "Verif.Exec.execute_messages",
    "Verif.Exec.gmw_answered_partial",
    "Verif.Exec.gmw_circuit_active"
   ],
   "note": "First part without conditions, and the second for circuits without sub-circuits. With sub-circuits the second part needs the conditions of C08. On a closed connection the code panics (`ok().unwrap()`), although `execute` returns a `Result`."
  },
  {
   "property": "C90",
   "status": "partial",
   "theorems": [
    "Verif.Exec.gmw_silent_correct",
    "Verif.Exec.gmw_silent_needs_triples",
    "Verif.Exec.gmw_silent_quasi_cyclic_partial",
    "Verif.Exec.gmw_silent_exconv_partial",
    "Verif.Exec.QcRun.rotOk",
    "Verif.Exec.QcRun.exists"
   ],
   "note": "Proved for matching random OTs. For the quasi-cyclic code the sizes have to work (C54: for some numbers of OTs the code panics); for the default expand-convolute code the circuit is computed too, but the provider holds more triples than configured and their bits are biased (C55). Conditions on the circuit as in C08, for SIMD circuits also those of C95."
  },
  {
   "property": "C91",
   "status": "partial",
   "theorems": [
    "Verif.Aby2.aby2_active_private",
    "Verif.Aby2.aby2_active_hidden_partial",
    "Verif.Aby2.aby2_active_hidden_other_partial"
   ],
   "note": "With the helper it holds if no AND gate has a gate id that the input map assigns to the deviating party; otherwise already an honest observer reads the value of the gate (and_value_visible, C81). The statement for the executor with independent masks (aby2_active_private) has no such condition. As in C88 no integrity is claimed, and the reconstruction of outputs is outside. The private generators are idealised as uniform bits."
  },
  {
   "property": "C92",
   "status": "proved",
   "theorems": [
    "Verif.Util.Spawn.handle_result",
    "Verif.Util.Spawn.poll_delivers",
    "Verif.Util.Spawn.pool_progress",
    "Verif.Util.Spawn.pool_survives"
   ],
   "note": "Functions are computations that end. rayon (every job is started) and tokio's oneshot channel are trusted, the latter as written in the model."
  },
  {
   "property": "C93",
   "status": "partial",
   "theorems": [
    "Verif.Chan.Connect.connect_ok",
    "Verif.Chan.Connect.connect_err",
    "Verif.Chan.Connect.connect_panics",
    "Verif.Chan.Connect.connect_returns",
    "Verif.Chan.Connect.connect_refused_rate",
    "Verif.Chan.Connect.broken_spins"
   ],
   "note": "All but the absence of panics: with a timeout of zero, or if the timeout has passed before the first check, `last_err.unwrap()` panics (connect_panics, an exact condition). After a failed handshake the next attempt follows without waiting (broken_spins)."
  },
  {
   "property": "C94",
   "status": "partial",
   "theorems": [
    "Verif.Silent.Fft.product_correct",
    "Verif.Silent.Fft.reuse",
    "Verif.Silent.Fft.reduce_correct",
    "Verif.Silent.Fft.reduce_coefficients",
    "Verif.Silent.Fft.qcMul_add",
    "Verif.Silent.Fft.product_truncated",
    "Verif.Silent.Fft.product_truncated_witness",
    "Verif.Silent.Fft.decode_empty_panics",
    "Verif.Silent.Fft.reduce_scaler_one"
   ],
   "note": "For factors of equal nonzero length, as everywhere in the encoder. Factors of different lengths with the same power of two pass the assertion, and the upper words of the product are lost (product_truncated); decoding an empty polynomial and a scaler of 1 panic. The C library is assumed to be correct (`Fft.Correct`)."
  },
  {
   "property": "C95",
   "status": "partial",
   "theorems": [
    "Verif.Gmw.words_and_layer_correct",
    "Verif.Gmw.words_xor_correct",
    "Verif.Gmw.words_xor_ignores",
    "Verif.Gmw.words_message_aligned",
    "Verif.Gmw.words_message_unmasked",
    "Verif.Gmw.words_sizes_compared",
    "Verif.Exec.gmw_words_correct_partial",
    "Verif.Exec.gmw_words_aligned_partial",
    "Verif.Exec.words_simd_circuit_correct_partial",
    "Verif.Exec.words_simd_program_correct_partial",
    "Verif.Exec.words_execute_wrong",
    "Verif.Exec.gmw_words_active_private",
    "Verif.Exec.words_leak",
    "Verif.Exec.ot_provider_heads",
    "Verif.Exec.ot_provider_aligned_iff",
    "Verif.Exec.ot_provider_leak",
    "Verif.Exec.gmw_words_provider_correct_partial",
    "Verif.Exec.gmw_words_buffer_private"
   ],
   "note": "False in general. AND layers are correct for every position. XOR is correct if the operands start at the same position; this holds if all lanes are multiples of 64 (the k-th AND gate of a layer starts where the gates before it end), and words_execute_wrong is a circuit with one lane where it does not. Messages are masked if the triples start at a word; with triples at another position the first lanes are sent unmasked (words_leak). The OT based provider gives triples that begin at words exactly if the total is a multiple of 8 and each layer after the first a multiple of 64 (ot_provider_aligned_iff); with lanes that are multiples of 64 executions with it are correct and private (gmw_words_provider_correct_partial, gmw_words_buffer_private), with one AND gate and a number of lanes that is no multiple of 8 they leak (ot_provider_leak). Rests on the documented behaviour of bitvec that copies of slices keep their position (its source is not available here)."
  },
  {
   "property": "C96",
   "status": "partial",
   "theorems": [
    "Verif.Ot.slice_receive",
    "Verif.Ot.slice_receive_aligned",
    "Verif.Ot.slice_receive_wrong",
    "Verif.Bitmat.fromSlice_spec",
    "Verif.Bitmat.fromSlice_aligned",
    "Verif.Bitmat.fromSlice_wrong"
   ],
   "note": "False: both functions use the words of a copy of the slice, which keeps the position of its first bit, so everything is moved by that number of places. Exactly what they compute is proved; for slices that begin at a word, as everywhere in the repository, it is what was asked for. Same assumption on bitvec as C95."
  },
  {
   "property": "C97",
   "status": "proved",
   "theorems": [
    "Verif.Silent.sample_accepted",
    "Verif.Silent.sample_uniform",
    "Verif.Silent.sample_terminates",
    "Verif.Silent.sample_covers",
    "Verif.Silent.qc_sample",
    "Verif.Silent.exconv_sample"
   ],
   "note": "Coins of the generator are taken to be fair: distributions are counted over all sequences of draws. The format Plain is not implemented in the code."
  },
  {
   "property": "C98",
   "status": "partial",
   "theorems": [
    "Verif.Mixed.mixed_active_private_partial",
    "Verif.Mixed.mixed_inputs_hidden_partial",
    "Verif.Mixed.mul_view",
    "Verif.Mixed.mixed_mul_leaks",
    "Verif.Exec.masking_private"
   ],
   "note": "Proved for circuits without multiplications, also from the sharing of the inputs on with a peer that chooses its own shares depending on what it was sent (mixed_inputs_hidden_partial). Missing: multiplications, for which it is false: an operand is masked with the product of the triple (C73), and in whole executions the peer can exclude shares, for every width and whatever triple it holds (mixed_mul_leaks). The words that random() delivers are fixed in the theorem, it holds for each choice of them. The only setup provider of the code (InsecureMixedSetup) uses a constant seed, so its masks are not uniform; the theorem is about any provider whose masks are."
  },
  {
   "property": "C99",
   "status": "partial",
   "theorems": [
    "Verif.Silent.trunc_silent_ot",
    "Verif.Silent.trunc_correlated_partial",
    "Verif.Silent.based_exists"
   ],
   "note": "The random OTs are proved without restriction. With separate choice bits the claim is false for Silver: the choice bits are not truncated, there are N2 of them (at least twice as many as OTs); the relation holds for the requested ones. The encoders of libOTe are arbitrary additive maps on as many positions as configured."
  }
 ]
}