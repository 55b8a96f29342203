{"id": "C01", "title": "Boolean secret sharing is lossless and one share reveals nothing", "statement": "Splitting a bit string with XorSharing and reconstructing the two shares returns the original string, for every draw of the generator. Either share alone is consistent with every plaintext of that length through exactly one draw of the generator.", "quantifier": "every bit string of every length, every generator output", "why_tests_cant": "A test fixes finitely many lengths and seeds; hiding is a statement about all generator outputs at once.", "anchors": ["crates/seec/src/protocols/boolean_gmw.rs XorSharing::share/reconstruct"]}
{"id": "C02", "title": "Additive secret sharing is lossless and one share reveals nothing", "statement": "Splitting a vector of ring elements with AdditiveSharing and reconstructing returns the original vector modulo 2^BITS; each share alone is consistent with every plaintext through exactly one draw.", "quantifier": "every ring width, every vector of every length, every generator output", "why_tests_cant": "Wrap-around cases and the hiding claim quantify over all draws.", "anchors": ["crates/seec/src/protocols/arithmetic_gmw.rs AdditiveSharing::share/reconstruct"]}
{"id": "C03", "title": "A layer of AND gates evaluates correctly", "statement": "When both parties run the scalar compute_msg / evaluate_interactive exchange on a layer with matching valid multiplication triples, the reconstructed output of every gate is the AND of its two reconstructed inputs, the outputs come in gate order, and the untouched rest of both triple stores is still matching and valid.", "quantifier": "every layer size, every input sharing, every pair of stores of matching valid triples with at least as many triples as gates", "why_tests_cant": "Finite tests cover a handful of layer widths and share patterns; alignment of triples taken from the back in reverse order has to hold at every width.", "anchors": ["crates/seec/src/protocols/boolean_gmw.rs BooleanGmw::compute_msg/evaluate_interactive", "crates/seec/src/evaluate.rs and::compute_shares/evaluate", "crates/seec/src/mul_triple/boolean/mod.rs MulTriples::split_off_last/iter"]}
{"id": "C04", "title": "A layer of SIMD AND gates evaluates correctly lane by lane", "statement": "The SIMD exchange on a layer of vector AND gates (lengths may differ between gates) reconstructs to the lane-wise AND of the inputs of each gate, in gate order and with each gate's own length, consuming exactly the sum of the lengths from the triple store.", "quantifier": "every number of gates, every vector length per gate, every sharing, every pair of matching valid triple stores", "why_tests_cant": "Splitting one flat result by per-gate sizes against triples cut from the end of a store is an index argument over unbounded sizes.", "anchors": ["crates/seec/src/protocols/boolean_gmw.rs compute_msg_simd/evaluate_interactive_simd"]}
{"id": "C05", "title": "A layer holding both scalar and SIMD AND gates evaluates correctly", "statement": "When a layer holds scalar and vector AND gates the executor's combined exchange reconstructs each gate to the AND of its inputs, and no triple masks two different wires.", "quantifier": "every mix of scalar and vector gates in a layer, every store of valid triples", "why_tests_cant": "Mixed layers are not exercised by the repository's tests, and triple reuse is invisible to functional tests that use degenerate triples.", "anchors": ["crates/seec/src/executor.rs Executor::execute", "crates/seec/src/protocols/boolean_gmw.rs compute_msg/compute_msg_simd/evaluate_interactive/evaluate_interactive_simd"]}
{"id": "C06", "title": "Local Boolean gates act on shares as on plaintexts", "statement": "XOR, NOT, constants, identity-like gates computed locally by the two parties reconstruct to XOR, NOT, the constant and the input, both for scalar and for vector wires of every length.", "quantifier": "every share pair, every constant, every vector length", "why_tests_cant": "Needs both parties' asymmetric behaviour (only party 0 flips or injects) for all shares at once.", "anchors": ["crates/seec/src/protocols/boolean_gmw.rs evaluate_non_interactive/share_constant", "crates/seec/src/gate/base.rs default_evaluate", "crates/seec/src/protocols/mod.rs share_constant_simd/evaluate_non_interactive_simd"]}
{"id": "C07", "title": "A layer of arithmetic multiplication gates evaluates correctly", "statement": "With matching valid arithmetic triples, the exchange for a layer of Mul gates reconstructs every output to the product of its reconstructed inputs modulo 2^BITS; Add, Sub and constants are computed locally to the ring result.", "quantifier": "every ring width, layer size, sharing and store of valid triples", "why_tests_cant": "The repository's tests use all-zero triples, for which many wrong formulas give the right answer.", "anchors": ["crates/seec/src/protocols/arithmetic_gmw.rs ArithmeticGmw::compute_msg/evaluate_interactive/evaluate_non_interactive"]}
{"id": "C08", "title": "Two-party execution computes the circuit", "statement": "For a scalar circuit built through the API (gates added after their operands), running the executor at both parties on shares of the inputs with matching valid triples yields output shares that reconstruct to the plaintext evaluation of the circuit; both parties exchange one message per layer that contains interactive gates, their messages always have equal sizes, and neither party hits an error path.", "quantifier": "every circuit of every size, depth and fan-out, every input, every sharing randomness, every sufficient valid triple supply", "why_tests_cant": "An induction over layers; tests only sample circuits.", "anchors": ["crates/seec/src/executor.rs Executor::execute", "crates/seec/src/circuit/base_circuit.rs BaseLayerIter::next", "crates/seec/src/protocols/boolean_gmw.rs"]}
{"id": "C09", "title": "Exchanged AND-layer messages are perfectly masked", "statement": "For any fixed layer inputs, the message one party sends is a bijective function of the (a,b) parts of the triples it consumes, so the message distribution is independent of the inputs.", "quantifier": "every layer size, every input, every message value", "why_tests_cant": "Independence of a distribution from the inputs is not observable in any finite number of runs.", "anchors": ["crates/seec/src/protocols/boolean_gmw.rs compute_msg/compute_msg_simd"]}
{"id": "C10", "title": "Layer iteration schedules every gate exactly once, after its operands", "statement": "Iterating the layers of a circuit built through the API terminates, yields each gate exactly once, yields a gate only after all gates it depends on, and never yields in one layer an interactive gate together with a gate that depends on its result before that result exists.", "quantifier": "every circuit, every wiring order", "why_tests_cant": "It is an invariant of a breadth-first traversal with counters over all graphs.", "anchors": ["crates/seec/src/circuit/base_circuit.rs BaseLayerIter::new/next, BaseCircuit::layer_iter"]}
{"id": "C11", "title": "Balanced reduction equals the sequential fold", "statement": "low_depth_reduce with an associative operation returns the same value as folding the sequence from left to right, returns nothing only on the empty sequence, applies the operation exactly n-1 times, and produces an expression of depth exactly the ceiling of log2 n.", "quantifier": "every sequence of every length, every associative operation", "why_tests_cant": "All lengths, including every odd/even pattern in every round.", "anchors": ["crates/seec/src/secret.rs low_depth_reduce"]}
{"id": "C12", "title": "Operators on Secret build the circuit they denote", "statement": "Evaluating the gates appended by ^, &, |, ! and constants on Secrets yields the corresponding Boolean operation of the operand values, keeps all earlier gates' values unchanged, and operand order is preserved.", "quantifier": "every prior circuit, every pair of operand secrets of one circuit, every input assignment", "why_tests_cant": "Quantifies over all prior circuits.", "anchors": ["crates/seec/src/secret.rs impl BitXor/BitAnd/BitOr/Not for Secret", "crates/seec/src/circuit/base_circuit.rs add_gate/add_wire/add_wired_gate"]}
{"id": "C13", "title": "Operands are read back in the order they were wired", "statement": "For a gate appended with a list of operands, the parents reported for this gate are exactly this list in the same order, duplicates included, and no later API call that does not target this gate changes it.", "quantifier": "every construction history, every operand list", "why_tests_cant": "History-dependent: edges are kept in per-node linked lists whose order depends on all insertions.", "anchors": ["crates/seec/src/circuit/base_circuit.rs add_wired_gate/parent_gates"]}
{"id": "C14", "title": "Inlining a sub-circuit preserves its function", "statement": "add_sub_circuit returns gates whose values are the outputs of the inlined circuit applied to the values of the given input gates, for every gate type, including non-commutative ones.", "quantifier": "every host circuit, every sub-circuit, every input assignment", "why_tests_cant": "Repository tests only inline commutative Boolean circuits, for which operand order does not matter.", "anchors": ["crates/seec/src/circuit/base_circuit.rs add_sub_circuit"]}
{"id": "C15", "title": "Range connections between sub-circuits deliver every wire", "statement": "After a sequence of accepted range connections, looking up a gate returns exactly the gates the accepted ranges map it to.", "quantifier": "every sequence of range insertions, every queried gate", "why_tests_cant": "Depends on insertion order and overlap patterns; there are unboundedly many.", "anchors": ["crates/seec/src/circuit/circuit_connections.rs RangeSubCircuitConnections::insert/get_mapped_ranges"]}
{"id": "C16", "title": "Grouping of wires into ranges loses nothing", "statement": "Splitting a sequence of gates into maximal consecutive runs partitions the sequence: concatenating the runs gives the sequence back, each run stays within one circuit and is consecutive, and adjacent runs cannot be merged.", "quantifier": "every sequence of gates of every length", "why_tests_cant": "All sequences.", "anchors": ["crates/seec/src/circuit/builder.rs group_gates_iter"]}
{"id": "C17", "title": "A parsed Bristol circuit computes what the file says", "statement": "Converting a Bristol description whose gates are topologically ordered into a circuit and evaluating it gives, on the output wires in order, the value the gate list defines on the input wires in order.", "quantifier": "every well-formed Bristol description, every input", "why_tests_cant": "All circuits and inputs.", "anchors": ["crates/seec/src/circuit/base_circuit.rs BaseCircuit::from_bristol", "crates/seec/src/parse/bristol.rs"]}
{"id": "C18", "title": "Bristol files are read back exactly", "statement": "Parsing the text of a well-formed Bristol circuit, in the old or in the fashion format, yields exactly the header and gates it was written from.", "quantifier": "every header and gate list", "why_tests_cant": "The two header formats are distinguished by trial parsing; whether the choice is right depends on arbitrary later numbers in the file.", "anchors": ["crates/seec/src/parse/bristol.rs header/gate/circuit"]}
{"id": "C19", "title": "Random OTs yield valid multiplication triples", "statement": "Combining the two random-OT directions as the OT based provider does gives both parties triples with (a0^a1)&(b0^b1) = c0^c1 for every index, of the requested number rounded up to a multiple of eight.", "quantifier": "every amount, every OT output, every choice vector", "why_tests_cant": "All amounts and OT outputs.", "anchors": ["crates/seec/src/mul_triple/boolean/ot_ext.rs OtMTProvider::compute_mts"]}
{"id": "C20", "title": "Requests to the OT based Boolean triple provider return enough fresh triples", "statement": "Across any sequence of precompute and request calls to the OT based Boolean provider, every request returns at least the requested number of triples (exactly that many when served from the buffer), both parties issuing the same calls get matching valid triples, and no generated triple is returned twice.", "quantifier": "every sequence of precompute/request calls with arbitrary amounts", "why_tests_cant": "A history property.", "anchors": ["crates/seec/src/mul_triple/boolean/ot_ext.rs request_mts/precompute_mts", "crates/seec/src/mul_triple/boolean/silent_ot.rs"]}
{"id": "C21", "title": "The trusted triple server pairs up the two parties", "statement": "For every interleaving of two clients' requests under session ids, where both ask for the same amount under one id, the two replies for one id form matching valid triples of the requested length, each issued correlation reaches exactly two replies, and the server keeps nothing for an id once both were served.", "quantifier": "every interleaving of requests over every set of ids, every amount", "why_tests_cant": "All interleavings.", "anchors": ["crates/seec/src/mul_triple/boolean/trusted_provider.rs", "crates/seec/src/mul_triple/boolean/trusted_seed_provider.rs"]}
{"id": "C22", "title": "Seed-compressed triples expand to valid triples", "statement": "When the server answers one party with a seed and the other with a seed and a correction vector, expansion at the clients gives matching valid triples.", "quantifier": "every amount, every pair of seeds, every seed-expansion function", "why_tests_cant": "Holds for all PRG outputs.", "anchors": ["crates/seec/src/mul_triple/boolean/trusted_seed_provider.rs", "crates/seec/src/mul_triple/boolean/mod.rs random/random_with_fixed_c/compute_c_owned"]}
{"id": "C23", "title": "Arithmetic triples generated from OT are valid and of the requested length", "statement": "Requesting n arithmetic triples from the OT provider, with or without precomputation and any number of times, gives both parties n matching valid triples and never panics.", "quantifier": "every ring width, every amount, every call history", "why_tests_cant": "The repository test makes one single request without precomputation.", "anchors": ["crates/seec/src/mul_triple/arithmetic/ot_ext.rs OtMTProvider::compute_mts/request_mts/precompute_mts", "crates/seec/src/mul_triple/arithmetic/mod.rs MulTriples::split_off_last/iter"]}
{"id": "C24", "title": "Triple stores hand out each triple once", "statement": "For any sequence of append, split_off_last and remove_first operations on a triple store, the pieces handed out together with what remains are exactly the triples put in, a request for more than stored is a panic and never a short answer, and applying the same operations to both parties' stores keeps all pieces pairwise valid.", "quantifier": "every operation sequence", "why_tests_cant": "A history property.", "anchors": ["crates/seec/src/protocols/mod.rs SetupStorage", "crates/seec/src/mul_triple/boolean/mod.rs MulTriples", "crates/seec/src/mul_triple/arithmetic/mod.rs MulTriples"]}
{"id": "C25", "title": "Triples written to disk are read back in step by both parties", "statement": "Storing n triples in batches and later loading them through any sequence of requests gives each party the triples in generation order with none skipped or repeated, so that both parties' requests stay matching.", "quantifier": "every batch size, every stored count, every sequence of request sizes", "why_tests_cant": "All batch/request size combinations.", "anchors": ["crates/seec/src/mul_triple/storage.rs MTStorage"]}
{"id": "C26", "title": "Base OT delivers the chosen message key", "statement": "In the Chou-Orlandi base OT the receiver's key for every index equals the sender's key selected by the choice bit.", "quantifier": "every commutative group, generator, scalars, hash function, choice vector of every length", "why_tests_cant": "All scalars and choices; tests sample random ones.", "anchors": ["crates/zappot/src/base_ot/mod.rs Sender::send_random/Receiver::receive_random"]}
{"id": "C27", "title": "Base OT rejects deviating message sequences", "statement": "The base OT sender and receiver complete only if the messages arrive in the prescribed order with the prescribed counts and, at the receiver, the opened seed matches the commitment; every other message sequence, including early end of the channel, ends in an error and no keys.", "quantifier": "every sequence of incoming messages", "why_tests_cant": "All message sequences.", "anchors": ["crates/zappot/src/base_ot/mod.rs Sender::send_random/Receiver::receive_random"]}
{"id": "C28", "title": "OT extension delivers the chosen messages for every arrival order", "statement": "After any number of earlier batches, one batch of the OT extension gives the receiver for each index exactly the sender message selected by the choice bit, no matter in which order the row messages arrive.", "quantifier": "every batch history, every batch size that is a multiple of eight, every arrival order of the 128 rows, every choice vector, every PRG and hash", "why_tests_cant": "Arrival order is chosen by the thread scheduler; there are 128! of them.", "anchors": ["crates/zappot/src/ot_ext/mod.rs Sender::send_random/Receiver::receive_random"]}
{"id": "C29", "title": "OT extension reports a peer that stops early", "statement": "If the channel closes before all row messages of a batch arrived, the sender's call returns an error instead of OTs.", "quantifier": "every prefix of the row messages", "why_tests_cant": "Crash points of the peer.", "anchors": ["crates/zappot/src/ot_ext/mod.rs Sender::send_random"]}
{"id": "C30", "title": "Correlated OT realises the correlation", "statement": "In a correlated OT the receiver obtains the sender's returned block if the choice bit is 0 and the correlation function applied to index and block if it is 1.", "quantifier": "every count, correlation function, choice vector", "why_tests_cant": "All correlations and choices.", "anchors": ["crates/zappot/src/ot_ext/mod.rs send_correlated/receive_correlated"]}
{"id": "C31", "title": "The puncturable PRF expands to vectors differing in one place by delta", "statement": "After the exchange, for every tree the receiver's leaf vector equals the sender's except at the receiver's secret point, where they differ by exactly the sender's delta.", "quantifier": "every depth of at least 2, every tree count that is a multiple of eight, every point, every root seed, every PRG pair, every base OT string, every thread/arrival interleaving of tree groups", "why_tests_cant": "Trees of all depths and all arrival orders.", "anchors": ["crates/zappot/src/silent_ot/pprf.rs Sender::expand/Receiver::expand/get_active_path"]}
{"id": "C32", "title": "Reported noise positions match the expanded layout", "statement": "The positions reported for the secret points in either interleaved format are exactly the positions at which the flattened output vectors of the two parties differ, distinct trees and points never collide, and every position is within the output.", "quantifier": "every number of trees that is a multiple of eight, every domain, every point", "why_tests_cant": "An index bijection over unbounded sizes.", "anchors": ["crates/zappot/src/silent_ot/pprf.rs interleave_point/copy_out/get_level_output/out_dims"]}
{"id": "C33", "title": "Silent OT outputs are random OTs", "statement": "Given vectors that differ at the noise positions by delta, compressing both with the same linear code, hashing and extracting choice bits gives the receiver for each index the sender message selected by its extracted choice bit.", "quantifier": "every linear code, every delta, every noise set, every output length", "why_tests_cant": "All codes and noise patterns.", "anchors": ["crates/zappot/src/silent_ot/mod.rs Sender::hash/Receiver::hash/recv_compress/send_compress"]}
{"id": "C34", "title": "Reduction modulo x^p - 1 folds every bit exactly once", "statement": "modp writes to position j<p the XOR of all input bits whose index is congruent to j modulo p, and clears all positions from p on, for every prime the configuration can choose; for arbitrary p it must not silently drop or duplicate bits.", "quantifier": "every input length, every p, every bit pattern", "why_tests_cant": "Block-shift arithmetic over all sizes.", "anchors": ["crates/zappot/src/silent_ot/quasi_cyclic_encode.rs modp/bit_shift_xor"]}
{"id": "C35", "title": "Gap derandomisation is correct and hides delta", "statement": "After the gap exchange of silent OT the receiver's gap value is the sender's value plus choice times delta, and the message does not let a receiver that chose 0 compute delta.", "quantifier": "every OT string, delta and choice", "why_tests_cant": "Leakage is not visible in functional tests.", "anchors": ["crates/zappot/src/silent_ot/mod.rs derandomize_gap"]}
{"id": "C36", "title": "ABY2 sharing is lossless", "statement": "Sharing bits with the ABY2 delta sharing by either party and reconstructing returns the bits; both parties hold the same public part, and the mask derived by the non-owner equals the one used by the owner, across any interleaving of sharings by both parties.", "quantifier": "every sequence of share calls by both parties, every bit string, every PRG stream", "why_tests_cant": "The two parties' PRG streams must stay synchronised through all histories.", "anchors": ["crates/seec/src/protocols/aby2.rs DeltaSharing"]}
{"id": "C37", "title": "ABY2 evaluates circuits of two-input gates correctly", "statement": "With setup data in which the second-order mask shares reconstruct to the product of the input masks, online evaluation of XOR, NOT, constants and two-input AND reconstructs to the plaintext result, and both parties always hold identical public parts.", "quantifier": "every circuit of such gates, every input and mask", "why_tests_cant": "Induction over circuits.", "anchors": ["crates/seec/src/protocols/aby2.rs BooleanAby2 evaluate_non_interactive/compute_delta_share/evaluate_interactive"]}
{"id": "C38", "title": "ABY2 evaluates multi-input AND gates correctly", "statement": "An AND gate with n inputs reconstructs to the conjunction of its n inputs, given correct shares of all mask products.", "quantifier": "every n of at least 2, every input and mask", "why_tests_cant": "All n.", "anchors": ["crates/seec/src/protocols/aby2.rs compute_delta_share, SetupData"]}
{"id": "C39", "title": "Helper-assisted ABY2 setup gives correct mask products", "statement": "For every circuit the shares that the ASTRA helper protocol gives the two parties for each AND gate XOR to the product of the gate's two input masks, gate by gate in evaluation order.", "quantifier": "every sequence of AND gates, every mask, every helper randomness", "why_tests_cant": "Synchronisation of PRG streams across three parties for all circuits.", "anchors": ["crates/seec/src/protocols/aby2.rs AstraSetupHelper/AstraSetupProvider"]}
{"id": "C40", "title": "Tensor ABY2 matrix multiplication and constants are correct", "statement": "MatMult on masked matrices reconstructs to the GF(2) matrix product, for all compatible dimensions; constants and negation reconstruct to the constant and the negation.", "quantifier": "all dimensions, all matrices and masks", "why_tests_cant": "All dimensions.", "anchors": ["crates/seec/src/protocols/tensor_aby2.rs"]}
{"id": "C41", "title": "Boolean to arithmetic conversion is correct", "statement": "Each B2A gate of a layer reconstructs to the integer whose bits are its Boolean inputs, given shared bits that agree between the Boolean and the arithmetic domain, for any number of conversions in one layer.", "quantifier": "every ring width, every number of conversions, every share and shared-bit randomness", "why_tests_cant": "Repository tests use all-zero shared bits.", "anchors": ["crates/seec/src/protocols/mixed_gmw.rs compute_msg/evaluate_interactive B2A"]}
{"id": "C42", "title": "Arithmetic to Boolean resharing is correct", "statement": "The A2B send/receive gates give both parties XOR shares of each party's arithmetic share, for any number of conversions in one layer.", "quantifier": "every ring width, number of conversions, share and randomness", "why_tests_cant": "Several conversions in the same layer are an alignment property over all layer compositions.", "anchors": ["crates/seec/src/protocols/mixed_gmw.rs compute_msg/evaluate_interactive A2BBoolShareSnd/A2BBoolShareRcv"]}
{"id": "C43", "title": "Bit matrix transposition is correct in all implementations", "statement": "Transposing an r x c matrix gives the c x r matrix with element (i,j) moved to (j,i); transposing twice gives the original; the blocked vector implementation agrees with the simple one for all dimensions it accepts.", "quantifier": "all dimensions (multiples of eight, at least 16, for the blocked one), all contents", "why_tests_cant": "Index arithmetic over unbounded dimensions with two remainder cases.", "anchors": ["crates/seec-bitmatrix/src/simple.rs transpose", "crates/seec-bitmatrix/src/sse2_transpose.rs transpose", "crates/seec-bitmatrix/src/lib.rs fast_transpose"]}
{"id": "C44", "title": "Bit matrix multiplication is the GF(2) product", "statement": "mat_mul gives the GF(2) product for all compatible dimensions, and its result can be used as an operand of further multiplications.", "quantifier": "all dimensions and contents", "why_tests_cant": "All dimensions, including those not filling a storage word.", "anchors": ["crates/seec-bitmatrix/src/lib.rs BitMatrix::mat_mul/iter_rows"]}
{"id": "C45", "title": "Communication statistics account for every byte once", "statement": "For every sequence of recorded phases and traffic, the bytes attributed to all phases plus the bytes not yet attributed equal the bytes that passed through the counters; in addition traffic outside phases is attributed as the options promise.", "quantifier": "every history of record calls and traffic", "why_tests_cant": "A history property.", "anchors": ["crates/seec-channel/src/util.rs Counter/Statistics"]}
{"id": "C46", "title": "Multi-party channels connect the right parties", "statement": "In a local network of n parties what party i sends to j is exactly what j receives from i, in order, and nothing else; sending to a set that contains an unknown party sends nothing.", "quantifier": "every n, every sequence of sends", "why_tests_cant": "All sizes and histories.", "anchors": ["crates/seec-channel/src/multi.rs new_local/send_to/recv_from_single"]}
{"id": "C47", "title": "Precomputed layers equal on-the-fly layers", "statement": "Precomputing the layers of a circuit and iterating the precomputed form yields the same layers, gates and order as iterating the original circuit.", "quantifier": "every circuit with every arrangement of sub-circuits", "why_tests_cant": "All circuits.", "anchors": ["crates/seec/src/circuit/static_layers.rs precompute_layers", "crates/seec/src/circuit/dyn_layers.rs CircuitLayerIter"]}
{"id": "C48", "title": "Deduplicating shared sub-circuits keeps the sub-circuit table", "statement": "Finishing a builder keeps for every sub-circuit id the circuit that was pushed under this id while storing each distinct shared circuit once.", "quantifier": "every sequence of pushes with arbitrary sharing", "why_tests_cant": "All push sequences.", "anchors": ["crates/seec/src/circuit/builder.rs into_circuit"]}
{"id": "C49", "title": "Circuit bookkeeping matches the gates", "statement": "After any sequence of construction calls, the input, output, constant and sub-circuit gate lists contain exactly the gates of that kind in insertion order, each once, and the interactive gate count equals the number of interactive gates.", "quantifier": "every construction history", "why_tests_cant": "A history property.", "anchors": ["crates/seec/src/circuit/base_circuit.rs add_gate/add_sc_input_gate"]}
{"id": "C50", "title": "Ring elements and blocks survive conversion", "statement": "Writing a block or ring element to little-endian bytes and reading it back is the identity, from_block takes exactly the low BITS of a block, get_bit reads the binary digit, and log2_ceil/log2_floor bracket their argument between powers of two.", "quantifier": "every value of every width", "why_tests_cant": "2^128 values.", "anchors": ["crates/zappot/src/util/mod.rs Block/log2_ceil/log2_floor", "crates/seec/src/protocols/mod.rs Ring"]}
{"id": "C51", "title": "Sub-circuit calls compute the function on the call's own inputs", "statement": "A circuit composed of several sub-circuits connected through the builder, including the same shared sub-circuit called several times, computes the composition of the sub-circuit functions; every call sees only its own inputs.", "quantifier": "every number and nesting of calls, every connection pattern of one wire per input", "why_tests_cant": "All compositions.", "anchors": ["crates/seec/src/circuit/builder.rs connect_sub_circuit", "crates/seec/src/circuit/dyn_layers.rs CircuitLayerIter::next/parent_gates", "crates/seec/src/executor.rs Executor::execute"]}
{"id": "C52", "title": "Bit decompositions recompose", "statement": "Splitting a ring element into its BITS bits and summing bit_i * 2^i returns the element modulo 2^BITS; the addition circuits stored in the crate for 8, 16, 32 and 64 bits are parsed, converted and, executed on shares of the bits of x and y, give shares of the bits of the modular sum.", "quantifier": "every width, every value", "why_tests_cant": "All widths and values.", "anchors": ["crates/seec/src/protocols/mixed_gmw.rs a2b/A2BSelectBit/B2A", "crates/seec/src/protocols/mod.rs Ring::get_bit"]}
{"id": "C53", "title": "SIMD circuits and circuits with sub-circuits execute correctly", "statement": "Executing a SIMD circuit at both parties on shares of vector inputs yields shares of the vector whose every lane is the plaintext evaluation of the circuit on that lane of the inputs; executing a circuit made of several connected sub-circuits, scalar or SIMD, yields shares of the plaintext value of the main circuit's outputs, where every connected wire carries the value of its source.", "quantifier": "every circuit, every number of lanes, every arrangement of sub-circuits and connections, every schedule of the two parties", "why_tests_cant": "All circuits, lane counts and schedules; the interplay of layers, freeing of vectors and connections shows only on particular shapes.", "anchors": ["crates/seec/src/executor.rs Executor::execute", "crates/seec/src/circuit/dyn_layers.rs CircuitLayerIter", "crates/seec/src/circuit/base_circuit.rs BaseLayerIter (inputs_left_to_provide)"]}
{"id": "C54", "title": "Silent OT with the quasi cyclic code works for every number of OTs", "statement": "For every requested number of OTs and scaling factor whose sizes fit into memory, setting up and running silent OT with the quasi cyclic code finishes without a panic and gives both parties the requested number of matching random OTs.", "quantifier": "every number of OTs, every scaling factor of at least two, every seed, base OT, sampled choices and scheduling", "why_tests_cant": "The sizes go through next prime, rounding up and block division; only particular numbers fail.", "anchors": ["crates/zappot/src/silent_ot/quasi_cyclic_encode.rs QuasiCyclicConf::configure/modp/dual_encode/dual_encode_choice/copy_out", "crates/zappot/src/silent_ot/mod.rs Encoder::configure/recv_compress"]}
{"id": "C55", "title": "Silent OT returns as many OTs as requested, all of them outputs of the code", "statement": "Silent OT configured for n OTs returns exactly n OTs, each of which is an output of the dual encoding, so that neither choice bits nor the triples built from them are entries of the sparse noise vector.", "quantifier": "every code, every number of OTs, every seed and choice", "why_tests_cant": "A tail of raw entries still satisfies the OT relation, so functional tests pass.", "anchors": ["crates/zappot/src/silent_ot/mod.rs send_compress/recv_compress", "crates/zappot/src/silent_ot/ex_conv_code.rs", "crates/seec/src/mul_triple/boolean/silent_ot.rs request_mts"]}
{"id": "C56", "title": "ABY2 mask shares of AND gates are private", "statement": "The share of the mask of an AND gate's output that one party derives in setup_gate_outputs comes from that party's private seed and from no randomness the other party has, and no private bit is used for two gates or inputs.", "quantifier": "every circuit with sub-circuits, every assignment of inputs to the parties, all seeds", "why_tests_cant": "The selection of the generator depends on gate ids across sub-circuits; results stay correct when masks leak, so functional tests pass.", "anchors": ["crates/seec/src/protocols/aby2.rs setup_gate_outputs, DeltaSharing", "crates/seec/src/protocols/aby2.rs AstraSetupHelper::setup_gate_outputs"]}
{"id": "C57", "title": "Mixed share storages hold any sequence of shares", "statement": "Collecting, extending, setting and getting on a MixedShareStorage behave like a list of shares of both domains; in particular the outputs of a circuit with Boolean and arithmetic outputs can be collected.", "quantifier": "every sequence of shares, every width", "why_tests_cant": "The variant of the storage depends on the first element; only heterogeneous sequences show a difference.", "anchors": ["crates/seec/src/protocols/mixed_gmw.rs MixedShareStorage", "crates/seec/src/executor.rs:491"]}
{"id": "C58", "title": "Network set-up wires every pair of parties", "statement": "When every process of an address list without repetitions calls the multi-party connect with that list, each process gets as its party id the position of its address, and for every ordered pair of parties the sender one holds for the other is the channel whose receiver the other holds for it, whatever the order in which the connections arrive; multi_sub_channel run by all parties again yields such a network and leaves no message behind in the old one.", "quantifier": "every number of parties and address list, every arrival order of connections, every interleaving of the parties", "why_tests_cant": "Arrival order and interleaving are decided by the network; a wrong pairing shows only for particular orders.", "anchors": ["crates/seec-channel/src/multi.rs connect, listen_for_remotes, connect_to_remotes, multi_sub_channel"]}
{"id": "C59", "title": "Functions marked #[sub_circuit] compute what they say", "statement": "A program written with Secret operators and calls of functions annotated with #[sub_circuit] builds without panicking and its circuit, executed by both parties, outputs what the plain program computes, in which every call runs the function body; calls of a function with arguments of the same lengths share one stored circuit, and after global_into_circuit the next program starts without leftovers.", "quantifier": "every set of functions, every program, every number, order and argument list of calls, all inputs, shares and schedules", "why_tests_cant": "The generated code caches circuits in statics and connects them through range maps; errors depend on the combination of calls in a program and on programs built before.", "anchors": ["crates/seec-macros/src/sub_circuit.rs", "crates/seec/src/circuit/builder.rs", "crates/seec/src/secret.rs"]}
{"id": "C60", "title": "AlignedVec behaves like a list and owns its elements", "statement": "For every sequence of operations on any number of AlignedVec values (new, with_capacity, From<&[T]>, clone, push, pop, truncate, clear, reserve, resize, slice access, index assignment, drop): no undefined behaviour; what is observed is what lists would give, with capacity() at least what was requested; a panic occurs only when the allocator fails, T::clone panics, or an index is out of range; every element is dropped or handed out exactly once, also after a panic in T::clone; memory is freed exactly once with the layout it was allocated with; the data pointer is a multiple of ALIGN.", "quantifier": "all programs over any number of vectors, all element types, all allocator answers, all panicking patterns of T::clone", "why_tests_cant": "Double drops, leaks and wrong layouts are invisible to value tests; allocator failures and panics inside clone cannot be provoked in a unit test; the tests only use u16/u64, which have no drop glue.", "anchors": ["crates/aligned-vec/src/lib.rs"]}
{"id": "C61", "title": "AesRng is the AES counter mode key stream of its seed", "statement": "For every sequence of requests (next_u32, next_u64, fill_bytes, gen::<Block>) the answers of an AesRng are consecutive parts of the key stream E_seed(0), E_seed(1), ..., each starting at a word boundary; the bytes obtained do not depend on how requests for whole words are divided; fork and from_rng seed the new generator with the next 16 bytes of the stream, which the old generator does not give out again; cr_hash_block, cr_hash_blocks and cr_hash_slice_mut compute the same function x ^ E(x).", "quantifier": "all ciphers, seeds, sequences and lengths of requests", "why_tests_cant": "The buffer of 32 words has three cases for a u64 and a loop for bytes; wrong alignment at the end of the buffer shows only for particular sequences, and a wrong stream still looks random. Both parties expand the same seed and must agree for different request sizes.", "anchors": ["crates/zappot/src/util/aes_rng.rs", "crates/zappot/src/util/aes_hash.rs", "crates/zappot/src/util/block.rs:84"]}
{"id": "C62", "title": "A run of a mixed circuit computes the plaintext circuit", "statement": "Both parties execute the same circuit of the mixed protocol (Boolean, arithmetic and conversion gates, any number of sub-circuits, any layering) over a channel. If the operands have the right kinds, each layer does at most one a2b conversion with no B2A behind it, and the setup of each layer is correct, then both executors terminate without an error and the combined outputs are the values the plaintext circuit gives to the combined inputs, where a2b gives the bits of the ring element and B2A the ring element of the bits.", "quantifier": "all circuits, widths, inputs, sharings, setups and randomness, both parties, all interleavings", "why_tests_cant": "The tests run a few small circuits with the insecure setup, which shares zeros; a wrong share combination in a conversion depends on the random values and on the position of the gate in its layer.", "anchors": ["crates/seec/src/protocols/mixed_gmw.rs:360", "crates/seec/src/executor.rs:210"]}
{"id": "C63", "title": "Gates are grouped into layers by multiplicative depth", "statement": "For a circuit without sub-circuits the layer iterator yields a gate in layer k if and only if k interactive gates lie on the longest path to it (not counting itself), so the number of communication rounds of an execution is the multiplicative depth of the circuit. The claim with sub-circuits: calling a function costs no additional rounds.", "quantifier": "all acyclic circuits of any size and depth and any gate set", "why_tests_cant": "The number of rounds is not observable from the result; the tests compare layers of a few small circuits.", "anchors": ["crates/seec/src/circuit/base_circuit.rs:430", "crates/seec/src/circuit/dyn_layers.rs", "crates/seec/src/executor.rs:210"]}
{"id": "C64", "title": "Mixed sharing: share, execute, collect, reconstruct", "statement": "MixedSharing::share followed by reconstruct is the identity for all storages and generator outputs. The outputs of the two executors are collected into storages whose reconstruction is the list of plaintext outputs. In particular sharing a ring element, running a2b and reconstructing gives the bits of the ring element.", "quantifier": "all storages, widths, generator outputs, setups", "why_tests_cant": "The tests use random values of one width and the insecure setup; panics depend on the variant that FromIterator chooses.", "anchors": ["crates/seec/src/protocols/mixed_gmw.rs:716"]}
{"id": "C65", "title": "Importing a FUSE module keeps its meaning", "statement": "FuseConverter::convert_module applied to a module whose nodes reference earlier nodes, inlining or connecting calls, yields a circuit whose execution on shares of the inputs gives shares of the values that the module denotes: every operand is the output selected by its offset, constants have their given value, calls evaluate the named sub-circuit. A module that cannot be converted is reported as ConversionError.", "quantifier": "all modules with any number of circuits, nodes and nested calls; all inputs, sharings and setups", "why_tests_cant": "The tests convert a few files and do not compare the result with the meaning of the module.", "anchors": ["crates/seec/src/parse/fuse/mod.rs:90", "crates/seec/src/parse/fuse/mod.rs:131", "crates/seec/src/parse/fuse/mod.rs:160"]}
{"id": "C66", "title": "The PrivMail example answers the query", "statement": "Two parties that run priv_mail_search on shares of a modifier chain, of keywords and of mails and execute the circuit obtain, for every mail in order, shares of one bit: the keywords are looked up as substrings (comparing the six low bits of each character), the first result is negated by bit 0 of the chain, and keyword j is negated by bit 2j and combined with the result so far by OR or AND according to bit 2j-1. Both parties build the same circuit. The number of multiplications depends only on the lengths.", "quantifier": "all modifier chains, all non-empty lists of non-empty keywords, any number of mails of any lengths, any duplication factor, all sharings and setups", "why_tests_cant": "The example has no test; a test would cover a few keywords and mails.", "anchors": ["crates/seec/examples/privmail.rs:57", "crates/seec/examples/privmail.rs:117", "crates/seec/examples/privmail.rs:127", "crates/seec/examples/privmail.rs:150"]}
{"id": "C67", "title": "The AES-CBC example encrypts in CBC mode", "statement": "The circuit that build_enc_circuit builds with inlined ciphers, executed by both parties on shares of key, IV and data, outputs the CBC encryption of the data blocks under that key and IV with the function of the Bristol file as block cipher, so CBC decryption with an inverse of that function gives the data back. It has as many AND gates as blocks times the AND gates of the file; a data size that is not a multiple of the block size panics. The bits the example feeds in are the PKCS#7 padded data, and the key, most significant bit of each byte first.", "quantifier": "all well-formed Bristol files with suitable interface, any number of blocks, all keys, IVs, data, sharings and setups; encoding: all byte strings", "why_tests_cant": "The example has no test besides a bench run with one key; its --validate option compares one ciphertext. A byte order mistake cancels for symmetric keys.", "anchors": ["crates/seec/examples/aes_cbc.rs:373", "crates/seec/examples/aes_cbc.rs:400", "crates/seec/examples/aes_cbc.rs:418", "crates/seec/examples/aes_cbc.rs:331", "crates/seec/examples/aes_cbc.rs:178"]}
{"id": "C68", "title": "Sub-channels are connected pairwise", "statement": "Two parties that set up sub-channels over an existing pair of channels, by any number of calls of sub_channel, sub_channel_with and sub_channels_for! in the same order, all succeed under every schedule; in each call, position by position, the sender one party gets belongs to the channel whose receiver the other gets; no channel is handed out twice. If the parties use different message kinds at some call, both get UnexpectedMessage.", "quantifier": "any number of calls of each kind, any number of types per call, all wrap and extract functions that understand each other, all schedules", "why_tests_cant": "Tests set up one sub-channel and send one message; crossing of ends over many calls and schedules is not observed.", "anchors": ["crates/seec-channel/src/lib.rs:78", "crates/seec-channel/src/lib.rs:108", "crates/seec-channel-macros/src/lib.rs:16"]}
{"id": "C69", "title": "sync is a barrier", "statement": "Parties whose programs have the same number of phases separated by sync, and that close the channel at the end: no party acts in a phase before the other has finished all earlier phases, no sync returns an error, nothing deadlocks, even if closing loses messages in flight or is noticed late. A party that closes the channel without calling sync does not release the other.", "quantifier": "any number of phases, any numbers of actions, all schedules, all losses at closing", "why_tests_cant": "sync has no test; races between closing and the last messages do not show up in a test.", "anchors": ["crates/seec-channel/src/lib.rs:138"]}
{"id": "C70", "title": "The AES-CBC example encrypts the same with the cipher as a sub-circuit", "statement": "With use_sc = true, for every Bristol file of a block cipher and any number of blocks, building does not panic and executing the finished circuit gives shares of the CBC ciphertext of the shared data, as without sub-circuits; the cipher is stored once whatever the number of blocks. A process can build such a circuit any number of times.", "quantifier": "any block cipher circuit, block size, key, IV, number of blocks, shares, triples and schedule", "why_tests_cant": "The example has no test with sub-circuits; equality of both variants for all lengths cannot be tested, and each run builds one circuit.", "anchors": ["crates/seec/examples/aes_cbc.rs:373", "crates/seec/examples/aes_cbc.rs:434", "crates/seec/src/circuit/builder.rs:219", "crates/seec/src/circuit/builder.rs:461"]}
{"id": "C71", "title": "Two parties can run ABY2 without a helper", "statement": "AbySetupProvider::setup of both parties finishes and gives each party, for every AND gate, additive shares of the products of the combined masks over all sets of at least two operands, in the operand order of the gate. With this data, the masks of setup_gate_outputs and any shared inputs, executing a circuit gives outputs that reconstruct to its plaintext values.", "quantifier": "any circuit with sub-circuits, seeds, inputs and their owners, matching triples and schedule", "why_tests_cant": "Tests run a few fixed circuits; whether the cached and reordered products fit each gate depends on the sharing of operands between gates in the circuit, and the source itself asks whether the sorting impacts correctness.", "anchors": ["crates/seec/src/protocols/aby2.rs:93", "crates/seec/src/protocols/aby2.rs:361", "crates/seec/src/protocols/aby2.rs:705"]}
{"id": "C72", "title": "Two-party execution of arithmetic circuits computes the circuit", "statement": "For every circuit of inputs, constants, Add, Sub, Mul and outputs built with add_wired_gate (and every well-formed circuit with sub-circuits), running Executor with ArithmeticGmw at both parties on shared inputs and valid arithmetic triples ends without a panic, after one message each per layer with multiplications, and the outputs reconstruct to the value of the circuit modulo 2^w.", "quantifier": "any ring width, circuit, inputs, sharing of the inputs, valid triples and schedule", "why_tests_cant": "The only test runs one circuit with the all-zero triples of InsecureMTProvider, for which wrong uses of the triple cancel out.", "anchors": ["crates/seec/src/protocols/arithmetic_gmw.rs:33", "crates/seec/src/protocols/arithmetic_gmw.rs:80", "crates/seec/src/protocols/arithmetic_gmw.rs:107", "crates/seec/src/executor.rs:99"]}
{"id": "C73", "title": "The openings of arithmetic multiplications hide the operands", "statement": "The values d and e that both parties learn from the messages of a Mul gate are possible for all operands, each with exactly one pair of triple factors: with uniformly random triples they reveal nothing about the operands.", "quantifier": "any ring width, operands, sharing of the operands and opened values", "why_tests_cant": "Tests compare outputs; that the messages leak is not visible in any output.", "anchors": ["crates/seec/src/protocols/arithmetic_gmw.rs:80", "crates/seec/src/protocols/arithmetic_gmw.rs:99"]}
{"id": "C74", "title": "Precomputing the layers does not change an execution", "statement": "Executor::execute on ExecutableCircuit::StaticLayers (obtained with precompute_layers) behaves as on the DynLayers circuit it was made from: each party sends the same messages in the same rounds, asks for the same numbers of preprocessing tuples and returns the same outputs. Precomputation itself does not panic. In particular Boolean GMW on a precomputed circuit returns shares of the plaintext outputs.", "quantifier": "for all circuits with any number of (shared) sub-circuits, protocols, inputs, preprocessing data and parties", "why_tests_cant": "Tests precompute a few circuits whose calls happen to be reached in the order of their ids; the layer tables depend on the depths of all operands of all calls, which cannot be enumerated", "anchors": ["crates/seec/src/circuit/static_layers.rs:96-262", "crates/seec/src/circuit/static_layers.rs:532-621", "crates/seec/src/circuit/mod.rs:243-414", "crates/seec/src/executor.rs:124-493"]}
{"id": "C75", "title": "The number of triples precomputed for a circuit is the number its execution uses", "statement": "interactive_count_times_simd of a circuit equals the sum of the numbers of triples the executor requests over all layers. After MTProvider::precompute_mts with this number (bench.rs), executing never starts another run of the generator, both parties' buffers stay aligned, exactly the triples added by rounding to a multiple of eight are left, and the outputs are shares of the plaintext outputs. Without precomputation (interleave_setup) the providers generate what a layer lacks and the outputs are right as well. Precomputing the layers does not change the number.", "quantifier": "for all circuits with any number of sub-circuits and simd sizes, inputs, sharings, OT states and random choices, and all schedules of the two parties", "why_tests_cant": "Tests execute with insecure or ample triples; that the count of all layers of all circuits matches what the iterator yields, for every circuit, is not visible in a run that has triples to spare", "anchors": ["crates/seec/src/circuit/dyn_layers.rs:140-146", "crates/seec/src/circuit/static_layers.rs:82-90", "crates/seec/src/bench.rs:260-275", "crates/seec/src/mul_triple/boolean/ot_ext.rs:130-165", "crates/seec/src/executor.rs:230-260"]}
{"id": "C76", "title": "From a Bristol file to the outputs, with triples from OT", "statement": "Any spelling of a well-formed Bristol fashion file with at least one line is parsed, converted, its layers are precomputed and interactive_count_times_simd is the number of AND lines. After precomputing that many triples by random OT from base OTs that agree, the two executors return, under every schedule, shares of the function the file describes applied to the xor of their inputs, without another run of the OT extension.", "quantifier": "for all well-formed descriptions, all their spellings, all inputs of both parties, all OT states and random choices", "why_tests_cant": "Tests run a few files with one input each", "anchors": ["crates/seec/src/bench.rs:200-300", "crates/seec/src/parse/bristol.rs:1-200", "crates/seec/src/circuit/static_layers.rs:82-262", "crates/seec/src/mul_triple/boolean/ot_ext.rs:60-165", "crates/seec/src/executor.rs:124-493"]}
{"id": "C77", "title": "What a party sees of a Boolean GMW execution is independent of the other party's share", "statement": "Fix the circuit, the shares of both parties and the triples of one party. Each sequence of messages of the sizes given by the layers is what this party receives for exactly one choice of the factors of the other party's triples, so with uniformly random triples the received messages are uniformly distributed. Two secrets that give the party the same share lead to the same distribution of everything sent and received.", "quantifier": "for all circuits, shares, secrets, triples of the observing party, and either party as the observer", "why_tests_cant": "A statement about the distribution of a whole transcript over all triples; a masking error (a triple used twice, a factor not applied) leaves every output correct and is invisible in output tests", "anchors": ["crates/seec/src/protocols/boolean_gmw.rs:113-200", "crates/seec/src/executor.rs:200-340", "crates/seec/src/mul_triple/boolean/mod.rs:1-120"]}
{"id": "C78", "title": "The PrivMail variant with sub-circuits answers the query", "statement": "priv_mail_search of examples/privmail_sc.rs, which calls #[sub_circuit] functions for the comparisons and for the disjunction, builds for both parties the same circuit, without panic, and executing it gives shares of the same answers as the inlined variant: for each mail, whether it satisfies the query. The finished circuit stores one comparison and one disjunction per distinct mail length, whatever the number of keywords and mails.", "quantifier": "for all modifier chains, numbers of keywords and mails, contents, duplication factors, and shares", "why_tests_cant": "Whether the connection maps keep every wire depends on how the argument ranges of all calls lie relative to each other, hence on the lengths of all keywords and mails", "anchors": ["crates/seec/examples/privmail_sc.rs:58-183", "crates/seec-macros/src/lib.rs", "crates/seec/src/circuit/builder.rs:195-560"]}
{"id": "C79", "title": "Executing with triples stored in a file", "statement": "Both parties run MTStorage::store_mts(num) with an OtMTProvider and the same batch size (examples/precompute_mts.rs) and later execute a Boolean GMW circuit with MTStorage as the triple provider, after an optional precompute_mts. If interactive_count_times_simd of the circuit is at most num, both executors return shares of the plaintext output and exactly that many triples have been taken from the file. If the file holds fewer, no executor ever returns an output, whatever the other party sends. With insecure_loop_file (BenchParty with a stored file) every non-empty file suffices for every circuit; the price is that the openings of two multiplications determine secrets.", "quantifier": "for all circuits, inputs, sharings, numbers of triples, batch sizes, contents of the files, schedules, and in the second part all peers", "why_tests_cant": "The unit test stores and requests 22 triples once in one process; no test executes a circuit from files of two parties, and with a looped file a test cannot distinguish fresh from repeated triples", "anchors": ["crates/seec/src/mul_triple/storage.rs:27-145", "crates/seec/examples/precompute_mts.rs:28-75", "crates/seec/src/bench.rs:55-58", "crates/seec/src/bench.rs:260-275", "crates/seec/src/executor.rs:230-260"]}
{"id": "C80", "title": "An OT receiver's choices are hidden from the sender", "statement": "BaseOTReceiver::receive_random: for every sender, also one that sends invalid messages, the receiver's messages are uniformly distributed over the uniform choice of its scalars, whatever its choice bits are. OT extension: the matrix rows Receiver::receive_random sends in any number of calls are jointly uniformly distributed over the outputs of the generators seeded with the base OT messages the sender did not choose, whatever the choice bits are. So a party's multiplication triple share a, used as its choices, is not revealed by generating triples.", "quantifier": "for all numbers of OTs, numbers and sizes of calls, choice bits, base choices of the sender, generator outputs known to the sender, and messages of the sender", "why_tests_cant": "Independence is a statement about the distribution of all messages for all choices; a test runs one choice and one seed", "anchors": ["crates/zappot/src/base_ot/mod.rs:109-180", "crates/zappot/src/ot_ext/mod.rs:280-353", "crates/seec/src/mul_triple/boolean/ot_ext.rs"]}
{"id": "C81", "title": "What a party sees of an ABY2 execution is independent of the other party's inputs", "statement": "In an ABY2 run with the helper (sharing of the inputs, setup, online phase) the other party's inputs are hidden: for two choices of them, and any inputs and seeds of the observing party, there is a bijection on the other party's private random bits under which the observer sees the same deltas, the same message from the helper and the same messages in the online phase.", "quantifier": "for all circuits of XOR, NOT, constants and two-input AND gates with sub-circuits, all assignments of inputs to parties, all inputs, all seeds, either party as the observer", "why_tests_cant": "A statement about the distribution of a whole transcript over all seeds; masks that are reused or known to the other party leave every output correct", "anchors": ["crates/seec/src/protocols/aby2.rs:179-360", "crates/seec/src/protocols/aby2.rs:619-670", "crates/seec/src/protocols/aby2.rs:805-970"]}
{"id": "C82", "title": "Tensor ABY2 computes the plaintext circuit from the sharing of the inputs to the outputs", "statement": "Two parties each share their input bits and matrices with one call of DeltaSharing::share_tensor and read the other party's message with plain_delta_to_share_tensor, build an Executor with BoolTensorAby2 and AbySetupProvider with matching multiplication triples, and execute. The setup and the execution finish, the setup provides one product per AND gate and per matrix product, and reconstruct_tensor of the two outputs gives the plaintext values of the circuit: the bits and the products of matrices over GF(2), also for products of products.", "quantifier": "for all circuits of XOR and two-input AND gates on bits and matrix products, with sub-circuits, all dimensions whose matrices fill whole bytes, all inputs and assignments of inputs to parties, seeds, triples and schedules. Outside, the setup panics (sum of matrices, constants, dimensions that do not fill bytes)", "why_tests_cant": "The only test of the whole protocol (simple_matmul) multiplies two 4x4 matrices once and is marked #[ignore]; the masks derived by the setup must agree with those drawn while sharing for every order of inputs, and the order of the products with the order of the gates in every circuit", "anchors": ["crates/seec/src/protocols/tensor_aby2.rs:126-482", "crates/seec/src/protocols/tensor_aby2.rs:777-985", "crates/seec/tests/tensor_aby2.rs:97-201"]}
{"id": "C83", "title": "An executor can be used for several executions", "statement": "Calling Executor::execute again on the same Boolean GMW executor, with other inputs, over the same channel, gives in every execution the plaintext values of the circuit on that execution's inputs, as long as the triple provider has triples left for all of them; a provider without further triples panics rather than reusing any. An ABY2 executor returns from execute at most once per setup. BenchParty::bench with repeat executes the given circuit in every run; a circuit taken from the global builder is only executed in the first run, the further runs execute an empty circuit.", "quantifier": "for all circuits (C08), numbers of executions, inputs, triples, schedules; ABY2: any protocol with function dependent setup", "why_tests_cant": "Tests execute each executor once; what state survives an execution (shares, layers, triples, setup data) depends on the circuit and on the number of earlier executions, and the empty runs of a benchmark return Ok", "anchors": ["crates/seec/src/executor.rs:72-345", "crates/seec/src/bench.rs:229-300", "crates/seec/src/protocols/aby2.rs:672-795"]}
{"id": "C84", "title": "A thread gets the circuit of its own Secret operations", "statement": "CircuitBuilder::global_into_circuit returns the gates of the operations the thread made since the builder was last taken, in order, whatever other threads do with the builders of other gate types; AbySetupProvider::setup, which installs a builder of its own, builds its circuit and installs the previous builder, gets its own circuit and leaves a circuit under construction as it was, also when setups run between the operations of a user (tasks of one thread).", "quantifier": "for all sequences of operations, numbers of threads, schedules, contents of the builders. False for threads with the same gate type: circuits are mixed or a thread panics", "why_tests_cant": "Interleavings of threads on a process-wide static are chosen by the scheduler; the builders keep circuits of earlier builds", "anchors": ["crates/seec/src/circuit/builder.rs:29-131", "crates/seec/src/circuit/builder.rs:340-373", "crates/seec/src/secret.rs:46-305", "crates/seec/src/protocols/aby2.rs:716-762", "crates/seec/src/protocols/tensor_aby2.rs:894-939"]}
{"id": "C85", "title": "The circuit builder API does not deadlock", "statement": "Calls of the Secret API, of CircuitBuilder's global functions and of #[sub_circuit] functions return, from any number of threads and after panics of other threads: the mutexes of the caches, the builders and the circuits are never waited for in a cycle.", "quantifier": "for all numbers of threads, sequences of calls, schedules, panics at any point. False for Secret::connect_to_main_circuit, which locks the builders while holding them and never returns", "why_tests_cant": "Deadlocks depend on the schedule; connect_to_main_circuit is not called by any test", "anchors": ["crates/seec/src/circuit/builder.rs:91-131", "crates/seec/src/circuit/builder.rs:222-281", "crates/seec/src/circuit/builder.rs:454-541", "crates/seec/src/secret.rs:46-181", "crates/seec-macros/src/sub_circuit.rs:72-122"]}
{"id": "C86", "title": "GMW with triples from a trusted server is correct under every schedule", "statement": "Two executors whose triple provider is a client of the trusted server (triples or seeds) with a common id terminate and return shares of the plaintext output of the circuit, however the parties, the server and other clients with other ids are scheduled; afterwards the server holds nothing for the id, so the id can be used again. The executors never get more than one request apart.", "quantifier": "for all circuits that meet the conditions of C08, inputs, sharings, random generators and seeds of the server, schedules, requests of other clients, contents of the map of the server for other ids. Ids must not be shared by two pairs of parties", "why_tests_cant": "Which of the two requests reaches the server first, and what other clients do between them, depends on the schedule; a test sees one order with one session", "anchors": ["crates/seec/src/mul_triple/boolean/trusted_provider.rs:53-158", "crates/seec/src/mul_triple/boolean/trusted_seed_provider.rs:58-180", "crates/seec/src/executor.rs:124-493"]}
{"id": "C87", "title": "Bristol files compiled with --simd and SIMD calls compute every lane", "statement": "bristol compile --simd n turns a well-formed Bristol file into a circuit that, executed with BooleanGmw on shares of inputs with n lanes, gives shares of outputs with n lanes, where every lane is the function of the file applied to the same lane of the inputs. This holds with the layers precomputed, which is what compile stores by default, and with --dyn_layers. More generally, a main circuit and called sub-circuits with the same SIMD size compute in every lane what the scalar program computes", "quantifier": "for all well-formed Bristol files with an input, all n > 0, inputs, sharings, matching triples and schedules; the general part for all programs of C51, with dynamic layers if no value that leaves its circuit is also used inside it", "why_tests_cant": "The example is only run by hand, on a few files and sizes; that ranges connect inputs and outputs in the right order and that freeing SIMD values early does not touch a value still needed must hold for every file", "anchors": ["crates/seec/examples/bristol.rs:110-150", "crates/seec/src/circuit/builder.rs:132-243", "crates/seec/src/circuit/builder.rs:485-503", "crates/seec/src/secret.rs:356-370", "crates/seec/src/circuit/base_circuit.rs:309-311"]}
{"id": "C88", "title": "A peer that deviates arbitrarily learns nothing about the shares of a GMW party from its messages", "statement": "While Executor::execute runs BooleanGmw, the other party may answer with any messages, chosen depending on everything it has seen, malformed ones included, or close the connection. What it receives, and whether the honest party returns an output or panics, has the same distribution for any two input shares of the honest party with the same lengths, given the triples of the deviating party", "quantifier": "for all circuits (with sub-circuits, scalar and SIMD parts) whose AND gates are all in scalar or all in SIMD circuits, all pairs of input shares of the same lengths, all triples and strategies of the peer, either party", "why_tests_cant": "A test runs a fixed dishonest peer; a leak through a selective failure or through the reaction to a malformed message needs the right strategy, and equality of distributions cannot be tested", "anchors": ["crates/seec/src/executor.rs:333-473", "crates/seec/src/protocols/boolean_gmw.rs:113-265", "crates/seec/src/mul_triple/boolean/mod.rs:221-227"]}
{"id": "C89", "title": "execute returns an output only after every answer, and cannot be stopped by answers of the right size", "statement": "Executor::execute sends at most one message per layer with interactive gates, each only after the answer to the one before. It returns an output only when it has sent one message for every such layer and received an answer to each; if the connection is lost earlier there is never an output (the code panics). An output has one value for every output gate. With BooleanGmw, a peer that answers with messages of the right sizes cannot prevent the output, whatever bits it sends", "quantifier": "first part: for all protocols, circuits, inputs, setup data and strategies of the peer; second part: for all circuits without sub-circuits and inputs of the right length, and for circuits with sub-circuits under the conditions of C08", "why_tests_cant": "When a connection breaks, and what a dishonest peer sends, is outside the control of a test; all positions and all contents have to be considered", "anchors": ["crates/seec/src/executor.rs:333-480", "crates/seec/src/executor.rs:481-493", "crates/seec/src/protocols/boolean_gmw.rs:177-265"]}
{"id": "C90", "title": "Executors with silent OT triples compute the circuit", "statement": "Two BooleanGmw executors with SilentMtProviders made by new or new_with_mult_type for num OTs, whose silent OT runs in both directions give matching random OTs, return shares of the plaintext output if num is at least interactive_count_times_simd of the circuit, whether precompute_mts was called or the triples are made at the first request; exactly that many triples are used. With fewer triples neither party ever returns. With the quasi-cyclic code this holds for whatever the parties sample and in whatever order trees are expanded and their messages arrive", "quantifier": "for all circuits meeting the conditions of C08, inputs, sharings, OT outputs, seeds, base OTs, choices, additive polynomial multiplications, numbers of OTs and schedules", "why_tests_cant": "Silent OT needs thousands of OTs per run and random seeds; a test sees one circuit, one size and one schedule, and the repository has no test that executes a circuit with this provider", "anchors": ["crates/seec/src/mul_triple/boolean/silent_ot.rs:49-169", "crates/seec/src/executor.rs:333-480", "crates/zappot/src/silent_ot/mod.rs:226-248", "crates/zappot/src/silent_ot/mod.rs:428-446"]}
{"id": "C91", "title": "A peer that deviates arbitrarily learns nothing about the inputs of an ABY2 party from what it receives", "statement": "In an ABY2 run with the helper one party follows the protocol (DeltaSharing, AstraSetupProvider, Executor::execute) and the other may choose its deltas after seeing those of the honest party, and answer in the online phase with any messages, malformed ones included, or close the connection. What it receives (deltas, the message of the helper if it is party 1, all online messages), and whether the honest party returns an output or panics, has the same distribution for any two inputs of the honest party. For the executor alone this holds for any input shares and any setup data of equal sizes that depend at most on the masks of AND gates of earlier layers", "quantifier": "for all circuits with sub-circuits of XOR, NOT, constants and two-input AND gates, all assignments of inputs to parties, all inputs, seeds and strategies, either party as the deviating one; the statement for the executor for AND gates with any number of inputs", "why_tests_cant": "A test runs a fixed dishonest peer; a leak through an abort or through the reaction to a malformed message needs the right strategy, and equality of distributions cannot be tested", "anchors": ["crates/seec/src/protocols/aby2.rs:179-360", "crates/seec/src/protocols/aby2.rs:619-670", "crates/seec/src/protocols/aby2.rs:805-970", "crates/seec/src/executor.rs:333-473"]}
{"id": "C92", "title": "A computation handed to the thread pool delivers its own result exactly once, and a panic stays with its handle", "statement": "spawn_compute, ThreadPool::spawn_compute and spawn_install_compute call the given function at most once. Polling the returned handle gives Pending until the function has ended and then, once, its value, or resumes its panic; it never fails with 'Tokio channel closed', never shows the result of another function, and is not affected by panics of other functions or dropped handles. The wake-up of an awaiting task is never lost, and the pool can always continue. The panic handler of the pool is reached only by a result whose drop panics after its handle was dropped", "quantifier": "for all numbers of workers and functions, all results and panics, and all interleavings of calls, polls, dropped handles, and starting and ending of jobs", "why_tests_cant": "Whether a poll happens before, while or after the job sends its result depends on the scheduler; the tests of the repository use one worker and one function", "anchors": ["crates/zappot/src/util/tokio_rayon.rs:13-52", "crates/zappot/src/util/tokio_rayon.rs:86-122"]}
{"id": "C93", "title": "connect_with_timeout connects if the server appears in time, and otherwise reports the last error soon after the timeout", "statement": "connect_with_timeout returns a connection exactly if some attempt succeeds that was started before the timeout, all earlier ones having failed. Otherwise it returns the error of the last attempt, at most a fifth of the timeout plus 10 ms after the timeout (not counting the duration of that attempt). It ends if every attempt takes some time, makes at most one attempt per 10 ms while the peer is not listening, and does not panic", "quantifier": "for all timeouts and all sequences of attempts with any results and durations", "why_tests_cant": "The behaviour depends on when the peer starts listening and on the timing of the network; tests connect to a listener that exists already", "anchors": ["crates/seec-channel/src/tcp.rs:46-81"]}
{"id": "C94", "title": "The quasi-cyclic encoder multiplies polynomials through the FFT wrapper correctly, with reused objects and caches", "statement": "With a C library whose transforms are correct, FftPoly encode, mult, add and decode_with_cache compute products and sums of the given polynomials over GF(2) for all sizes up to 2^30 words; any object and any decode cache can be reused whatever it was used for, nothing panics and the C functions stay within their buffers. MultAddReducer::reduce gives coefficient j of b_0 + sum a_s b_s modulo x^P - 1 as bit j of the row, for every state the reducer has from earlier rows", "quantifier": "for all slices, sizes, scalers from 2, words drawn for the fixed polynomials, states of the objects and caches, and all C libraries meeting the stated algebraic condition", "why_tests_cant": "The test of the crate compares a product with the swapped product for one size; wrong sizes of padding, stale contents of a reused buffer or a dropped term would not change that comparison", "anchors": ["crates/bitpolymul/src/lib.rs:9-112", "crates/zappot/src/silent_ot/quasi_cyclic_encode.rs:79-91", "crates/zappot/src/silent_ot/quasi_cyclic_encode.rs:199-245"]}
{"id": "C95", "title": "SIMD shares are computed and masked correctly wherever their bit vectors start in the machine words", "statement": "BooleanGmw works on SIMD shares through the raw words of their bit vectors, which keep the bit position at which they start in the first word. Executing any circuit with SIMD gates gives shares of the plaintext outputs, and the message of a layer shows the peer nothing about the shares, whatever the positions at which shares and multiplication triples start and whatever is stored in the unused bits of the words", "quantifier": "for all circuits, numbers of lanes, positions of shares and triples in their words, contents of the unused bits, inputs, triples, and (for privacy) all behaviours of the peer", "why_tests_cant": "No test executes a SIMD circuit; positions depend on the lanes of the other gates in the layer and on how many triples a provider has left, and a lane left unmasked does not change any output", "anchors": ["crates/seec/src/protocols/boolean_gmw.rs:46-266", "crates/seec/src/utils.rs:14-66", "crates/seec/src/mul_triple/boolean/mod.rs:30-245", "crates/seec/src/mul_triple/boolean/ot_ext.rs:147-165"]}
{"id": "C96", "title": "Functions that take a bit slice treat it the same wherever it begins in its machine word", "statement": "ot_ext Receiver::receive_random gives the receiver the messages it chose, and BitMatrix::from_bits the matrix with the given entries, for every slice of bits, also one cut out of a larger bit vector", "quantifier": "for all slices, positions in the words, states of sender and receiver, orders of messages, sizes of words", "why_tests_cant": "Tests pass whole vectors, which begin at a word; a slice of a larger vector has the same type and contents", "anchors": ["crates/zappot/src/ot_ext/mod.rs:279-330", "crates/seec-bitmatrix/src/lib.rs:181-190"]}
{"id": "C97", "title": "The noise positions of silent OT are valid, uniform and independent", "statement": "sample_base_choice_bits returns choice bits whose noise positions all lie in the expanded vector; given fair coins every tree's position is uniform over the positions of that tree and independent of the other trees, no position of the vector is excluded, and the rejection loop ends with probability one.", "quantifier": "every configuration, both output formats, every modulus, every sequence of coins, every two families of leaves", "why_tests_cant": "Security of the code rests on the distribution of the noise; a biased or partial distribution passes every functional test, and the acceptance test goes through the interleaved layout.", "anchors": ["crates/zappot/src/silent_ot/pprf.rs Receiver::sample_choice_bits/interleave_point/get_active_path", "crates/zappot/src/silent_ot/mod.rs Receiver::sample_base_choice_bits"]}
{"id": "C98", "title": "A peer that deviates arbitrarily learns nothing about the shares of a party of the mixed protocol from its messages", "statement": "While Executor::execute runs MixedGmw, the other party may answer with any messages, chosen depending on everything it has seen, malformed ones included, or close the connection. What it receives (openings of AND gates, masked bits of B2A gates, reshared words), and whether the honest party returns an output or panics, has the same distribution for any two lists of input shares of the same kinds.", "quantifier": "every word width, every circuit with sub-circuits and gates of all kinds, every two lists of input shares of the same kinds, every strategy of the peer, every setup whose masks are uniform, either party", "why_tests_cant": "A test runs a fixed peer; a leak through a selective failure or through a mask used twice needs the right strategy, and equality of distributions cannot be tested.", "anchors": ["crates/seec/src/protocols/mixed_gmw.rs MixedGmw::compute_msg/evaluate_interactive/evaluate_non_interactive", "crates/seec/src/executor.rs Executor::execute"]}
{"id": "C99", "title": "Silent OT with the Silver and expand accumulate codes returns exactly the requested OTs, starting from its base OTs", "statement": "For every number of OTs, a Sender and a Receiver configured with Silver5/Silver11/ExAcc7..40 and the base OTs for the sampled choice bits accept these base OTs, and random_silent_send/random_silent_receive return as many random OTs as requested, each matching. correlated_silent_receive with separate choice bits returns as many choice bits as OTs, with a[i] = b[i] + c[i] * delta.", "quantifier": "every number of OTs, number of partitions, gap, additive code, outcome of the sampling and of the base OTs, delta, seeds, order of the groups of trees", "why_tests_cant": "The sizes come from rounding rules that interact with the layout and with the gap positions; tests fix one size, and a mismatch shows only for some numbers.", "anchors": ["crates/zappot/src/silent_ot/silver_code.rs SilverConf::configure", "crates/zappot/src/silent_ot/ex_acc_code.rs ExAccConf::configure", "crates/zappot/src/silent_ot/mod.rs Sender::new_with_silent_base_ots/Receiver::new_with_silent_base_ots/Encoder::send_compress/recv_compress/base_ot_count", "crates/zappot/src/silent_ot/pprf.rs ChoiceBits::as_bit_vec/Sender::new/Receiver::new"]}
{"id": "C100", "title": "The messages of tensor ABY2 are perfectly masked", "statement": "In a layer of AND and matrix multiplication gates of BooleanAby2 with matrices, what compute_msg sends is uniformly distributed over the messages of the right kinds and dimensions, whatever the operand shares and the setup data are, because each output share has its own private part; what share_tensor sends is uniform whatever the inputs are, also for a peer that knows the joint generator. In a whole execution a peer that sends whatever it likes receives messages with the same distribution for all input shares of the same kinds, and whether the party fails does not depend on them either.", "quantifier": "every list of gates of any dimensions, operand shares, setup data, inputs, values of the joint generator, either party; every well-formed circuit and strategy of the peer", "why_tests_cant": "Equality of distributions cannot be tested; a message that omits the mask for one gate kind or party still reconstructs if both parties omit it.", "anchors": ["crates/seec/src/protocols/tensor_aby2.rs BoolTensorAby2::compute_msg/compute_delta_share/setup_output_share", "crates/seec/src/protocols/tensor_aby2.rs share_tensor"]}
{"id": "C101", "title": "Tensor ABY2 hides the inputs of a party from the sharing on", "statement": "Whatever a party of tensor ABY2 shares as its inputs, the peer sees the same distribution: what share_tensor sends, and then the messages of the execution after setup_gate_outputs drew the masks from the same private generator. The peer knows the joint generators, answers with any values, and follows any strategy in the execution; setup data may depend on what was drawn before.", "quantifier": "every well-formed circuit, inputs of the same kinds and dimensions, values of the joint generators, answers and strategies of the peer", "why_tests_cant": "Equality of distributions cannot be tested; a mask taken from a generator the peer has as well changes no output of any test.", "anchors": ["crates/seec/src/protocols/tensor_aby2.rs:225-255 setup_gate_outputs", "crates/seec/src/protocols/tensor_aby2.rs:778-834 share_tensor", "crates/seec/src/protocols/tensor_aby2.rs compute_msg"]}
{"id": "C102", "title": "The trusted servers answer every connection, whatever happens on others", "statement": "On each connection to a trusted triple server the requests that arrive before the peer closes it are answered in order, in spite of illegal messages, receive errors and replies that cannot be sent, on this and on other connections; the task of a connection ends when the peer closes it or when it breaks; two parties that ask under a common id, possibly again after a lost reply, hold matching triples.", "quantifier": "every number of connections, every interleaving of requests, illegal messages, errors, lost replies and closed connections", "why_tests_cant": "Interleavings and failures of connections are unbounded; tests use two well-behaved clients.", "anchors": ["crates/seec/src/mul_triple/boolean/trusted_provider.rs:92-157 handle_request/handle_conn/start", "crates/seec/src/mul_triple/boolean/trusted_seed_provider.rs:108-181"]}
{"id": "C103", "title": "The share storage of ABY2 is a vector of shares and its setup data a queue", "statement": "A ShareVec that is collected from shares or made with repeat, and changed by set, extend, ! and collecting again, behaves like the vector of its shares: get, into_iter, len and the announced length of the iterator agree with it, set and get panic exactly out of bounds and the assertion in len never fails. SetupData made with from_raw is used in topological order whatever the sizes of the requests, a request panics exactly if less is left, and appended setup data is used after what was there.", "quantifier": "all sequences of operations, contents, sizes of requests", "why_tests_cant": "Two bit vectors have to stay in step under every sequence of operations; the order of setup data depends on the sizes of all earlier requests.", "anchors": ["crates/seec/src/protocols/aby2.rs ShareVec, ShareIter, SetupData", "crates/seec/src/protocols/mod.rs ShareStorage/SetupStorage"]}
{"id": "C104", "title": "A party of Boolean GMW that shares its inputs as in the AES-CBC example hides them from the sharing on", "statement": "A party shares its inputs with XorSharing, keeps the first share, sends the second, and gets shares from the peer, which the peer may choose depending on what it was sent. It executes a circuit without SIMD sub-circuits on the shares of both. Whatever the peer sends during the execution, all it sees up to the end of the execution (the share it was sent, all messages, and whether the party returns an output) is distributed in the same way for every two inputs of the same length. In the AES-CBC example the inputs of the two executions are moreover shares of the key, the IV and the data in this order.", "quantifier": "all well-formed circuits with sub-circuits, all inputs, all strategies of the peer in sharing and execution, all shares of triples held by the peer", "why_tests_cant": "A distribution of views is not observable in a run, and a test peer follows the protocol.", "anchors": ["crates/seec/examples/aes_cbc.rs:186-258", "crates/seec/examples/aes_cbc.rs:345-372", "crates/seec/src/protocols/boolean_gmw.rs:318-338", "crates/seec/src/executor.rs:226-400"]}
{"id": "C105", "title": "Precomputing the layers of a circuit changes neither the setup nor the result of ABY2", "statement": "A circuit whose layers are precomputed has the same iteration over all gates and over the interactive gates as before (every gate once, with its operands, in the same order) and the same counts. Hence both parties and the helper derive the same masks, the helper sends the same message and party 0 the same number of setup values; without a helper both parties build and execute the same setup circuit on the same inputs. If both parties execute the precomputed circuit the outputs reconstruct to the plaintext values of the original circuit, under every schedule.", "quantifier": "all well-formed circuits with sub-circuits, all circuit maps, all seeds, inputs, owners of inputs and schedules", "why_tests_cant": "Masks are derived gate by gate from seeds in iteration order, so one swapped or missing gate in any circuit shifts all masks after it; a test checks single circuits.", "anchors": ["crates/seec/src/circuit/static_layers.rs:68-80", "crates/seec/src/circuit/static_layers.rs:179-262", "crates/seec/src/circuit/mod.rs:160-232", "crates/seec/src/protocols/aby2.rs:221-254", "crates/seec/src/protocols/aby2.rs:705-791", "crates/seec/src/protocols/aby2.rs:820-968"]}
{"id": "C106", "title": "Precomputing the layers of a circuit changes neither the setup nor the result of ABY2 with matrices", "statement": "On a circuit whose layers are precomputed, setup_gate_outputs of Boolean ABY2 with matrices gives the same masks for every generator, and AbySetupProvider::setup builds and executes the same setup circuit on the same inputs and stores the same shares of products, as on the original circuit. If both parties execute the precomputed circuit, the outputs reconstruct to the plaintext values (bits and matrices) of the original circuit, under every schedule.", "quantifier": "all well-formed circuits with sub-circuits, all circuit maps, generators, seeds, inputs, owners of inputs, matching triples and schedules", "why_tests_cant": "The setup zips the interactive gates of one iteration with the results of another; a test on one circuit cannot show that both iterations agree for all.", "anchors": ["crates/seec/src/protocols/tensor_aby2.rs:222-254", "crates/seec/src/protocols/tensor_aby2.rs:887-985", "crates/seec/src/circuit/static_layers.rs:179-262", "crates/seec/src/circuit/mod.rs:160-232"]}
