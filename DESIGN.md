# Formal model of SEEC: design

Subject: the Rust workspace in `/repo` (SEEC, a secure multi-party computation framework, with its
OT library `zappot`, bit matrices and channels). The model is written in Lean 4 under `lean/Verif/`.

## Layout

* `Verif/<Area>/Model.lean` (or the first part of a file named after the modelled component): definitions.
  Every definition cites the file and lines it models.
* Other files of an area: helper lemmas, then the property theorems, each followed by an `example`
  (or a witness file) showing that its hypotheses are met by a concrete non-trivial case.
* `properties.jsonl` the English claims, `MANIFEST.json` maps claims to theorems,
  `seeded/LOG.jsonl` records deliberate model bugs and which theorems caught them.

| Rust source | Lean | modelled |
|----|----|----|
| protocols/boolean_gmw.rs, protocols/mod.rs, gate/base.rs | Gmw | sharing, local and interactive evaluation, scalar and SIMD, triples |
| utils.rs `BitVecExt`, boolean_gmw.rs on words | Gmw/Words, Exec/Words* | the words of SIMD shares, with the position at which they start |
| protocols/arithmetic_gmw.rs | Arith | sharing, gates, interactive layer and the protocol for the executor, over `BitVec w` |
| circuit/base_circuit.rs, dyn_layers.rs, builder.rs, circuit_connections.rs, circuit/mod.rs | Circuit | construction, layer iteration, sub-circuits, connections, ranges, inlining, deduplication |
| circuit/static_layers.rs | Circuit/Static, Exec/Static | precomputation, splitting, iteration, operands, counts; execution of precomputed circuits |
| executor.rs | Exec | `execute` for both parties, gate output store, freeing, all schedules, stateful triple providers (Exec/Preproc), distribution of the messages (Exec/Private), arbitrary peers and lost connections (Exec/Active, Exec/Lost) |
| bench.rs `bench` (lines 229-300) | Exec/Preproc, Parse/Bench, Macro/Bench | triple amount, precomputation, execution, repetition; options, channels set-up, random inputs and recording are not modelled |
| seec-macros sub_circuit.rs (the generated code), builder.rs global builder | Macro | calls, caches, connections, finishing |
| builder.rs global builders and locks, aby2.rs and tensor_aby2.rs `install` | Global | several threads: circuits and locks |
| secret.rs, lib.rs | Secret | operators, reductions, sub-circuit bookkeeping |
| parse/bristol.rs, base_circuit.rs `from_bristol`, examples/bristol.rs `compile` | Parse | grammar on characters, conversion, the compiled SIMD circuit |
| mul_triple/* | Mt, Exec.Server | providers, stores, servers, disk storage, arithmetic OT; two executors with a trusted server; with silent OT (Exec.SilentExec) |
| zappot base_ot, ot_ext | Ot | messages, both processes, error paths, slices that do not begin at a word (Ot.Slice) |
| zappot silent_ot (pprf, mod, quasi_cyclic_encode, ex_conv_code, configuration of silver_code and ex_acc_code) | Silent | expansion, layout, noisy and gap derandomisation, products and modp, configuration, dual_encode and copy_out (Silent.QcEncode); silent OT from base OTs with the truncating codes (Silent.Codes) |
| utils.rs, zappot util/block.rs, protocols/mod.rs `Ring` | Util | byte and block conversions, bits, logarithms |
| protocols/aby2.rs | Aby2 | sharing, setup with a helper and by the two parties, online phase, arbitrary peers (Aby2/Active, Aby2/ActiveHelper), precomputed layers (Aby2/Precomputed, Aby2/PrecomputedTwo) |
| seec-bitmatrix | Bitmat | storage, transposition (both implementations), products |
| protocols/tensor_aby2.rs | Tensor | matrix gates, sharing, setup circuit; `Tensor.Exec`: mask setup, setup of a whole circuit, execution, precomputed layers (Tensor/Precomputed) |
| protocols/mixed_gmw.rs, adder circuit files | Mixed, Adder | conversions, layer evaluation, storages, stored adders, messages against arbitrary peers |
| aligned-vec lib.rs | AVec | all operations on an explicit heap, element identities, allocator failure, panicking clone |
| zappot util/aes_rng.rs, util/aes_hash.rs | Util.Rng | all; with BlockRng of rand_core |
| examples/aes_cbc.rs | Cbc | circuit (inlined cipher and shared sub-circuit), encoding of key and data; files, hex, channels and `validate` are not modelled |
| examples/privmail.rs | Mail | base64, files and the command line are not modelled |
| examples/privmail_sc.rs | Mail (Call*) | as for privmail.rs |
| parse/fuse/mod.rs | Fuse | converter; tables are given as structures, the flatbuffer reader is not modelled |
| seec-channel lib.rs (sub_channel, sub_channel_with, sync), seec-channel-macros | Chan.Sub, Chan.Sync | remoc is trusted: reliable queues, ends can be sent; closing as described in Chan.Sync |
| seec-channel util.rs, multi.rs, tcp.rs `connect_with_timeout` | Chan | counters, statistics, multi-party channels, connect, retrying (Chan.Connect) |
| zappot util/tokio_rayon.rs | Util.Spawn | all; rayon and the oneshot channel are trusted |
| bitpolymul lib.rs | Silent.Fft | all; the C library is assumed to be correct |

## Trusted base

* Lean's kernel. Theorems depend on `propext`, `Classical.choice`, `Quot.sound` at most.
  No axioms are added; no `sorry`, `native_decide` or `bv_decide`. `decide +kernel` is used for
  concrete witnesses and for evaluating the adder certificate, and needs no further trust.
* The hand translation of Rust into the model. It is a reading of the source text. The Rust
  code was not compiled or run.
* Behaviour of dependencies, used as described in the model comments: `petgraph` neighbour
  order (most recently added edge first), `bitvec` (a bit sequence, least significant bit first; on the level of words, C95: copies of slices, clones and `split_off` keep the position of the first bit in its word, as the documentation of `force_align` describes), `std`
  collections, `itertools`, `nom` combinators, remoc channels (reliable FIFO queues whose handles can be
  sent), bincode (round trip), `rand` (an arbitrary sequence of values; AES and ChaCha generators are
  arbitrary streams per seed, the prefix of a stream does not depend on how much is drawn at once; for
  `AesRng` this is proved for whole words, C61).
* Cryptographic primitives (AES, hash, PRG, curve group) appear as arbitrary functions or
  an arbitrary commutative group. Theorems quantify over them. Computational security is
  not claimed anywhere. Only perfect (information-theoretic) masking is stated, as a bijection or unique
  preimage, and leaks are stated as explicit functions computing the secret.

## Conventions

* A Rust panic, `unwrap` on `None`, failed assert or out-of-range index is an explicit
  `none`/error outcome of the model function. It is never replaced by a default value.
* Builds with overflow checks are assumed: an integer underflow is a panic (e.g. `packed_input_panics`).
  In a release build it wraps. Only `modp` is modelled in both variants (`modp_aligned_wrong`).
* `&mut` state is passed in and returned.
* `usize` is `Nat` unless wrap-around matters; ring elements are `BitVec w` or a commutative ring.
* Randomness is an explicit argument.
* Bit vectors are `List Bool`; word packing is modelled where the code depends on it (messages padded to
  bytes, bit matrices, the words of SIMD shares in Gmw/Words).
* Two-party runs (`Verif.Proc`): a process is a tree of sends and receives, with one unbounded reliable FIFO queue per
  direction. `Runs p q a b` says that under **every** schedule the pair terminates with results `a`, `b` and
  empty queues; theorems stated with it therefore cover all interleavings. Loss of the connection is not modelled there;
  C27 and C29 treat the error paths of the OTs separately.

## Properties

42 proved, 64 partial. Theorem names are in MANIFEST.json. In every partial case the full claim is false of the code: the manifest lists the theorem that refutes it (a concrete, well-formed witness) next to the part that holds.

| id | claim | status | model and proof | remark |
|----|----|----|----|----|
| C01 | Boolean secret sharing is lossless and one share reveals nothing | proved | `share`/`reconstruct` with the random bits as argument; round trip by list induction, hiding as: for every share and secret exactly one choice of randomness |  |
| C02 | Additive secret sharing is lossless and one share reveals nothing | proved | the same over `BitVec w`; linear gates by ring laws |  |
| C03 | A layer of AND gates evaluates correctly | proved | `compute_msg`/`evaluate_interactive` on lists of triples, induction on the layer |  |
| C04 | A layer of SIMD AND gates evaluates correctly lane by lane | proved | SIMD variants, induction on gates and lanes | the second theorem is about the words of the bit vectors, for shares and triples starting at any position of a word |
| C05 | A layer holding both scalar and SIMD AND gates evaluates correctly | partial | both halves of a layer use the store as the executor passes it | The claim is false of the code: negation proved with a witness; the partial theorem covers layers with one kind of interactive gate. |
| C06 | Local Boolean gates act on shares as on plaintexts | partial | case split per gate, induction on lanes | Without conditions for scalar gates and SIMD Inv, constants and outputs. A SIMD XOR is correct if both shares start at the same position of a word (words_xor_correct); otherwise it ignores operands (words_xor_ignores, C95). |
| C07 | A layer of arithmetic multiplication gates evaluates correctly | partial | arithmetic layer over `BitVec w`, ring identities | The claim is false of the code: negation proved for every width; exact characterisation of the triples that work. |
| C08 | Two-party execution computes the circuit | proved | processes with FIFO channels (Proc), executor loop, invariant over the store of gate outputs, uses C03 and C10 | every schedule of the two parties; executor, layer iterator, GMW and circuit construction are all modelled |
| C09 | Exchanged AND-layer messages are perfectly masked | partial | explicit inverse from messages to triples | Without conditions for scalar gates. SIMD messages are masked if the triples start at a word; otherwise the first lanes are sent unmasked (words_message_unmasked, C95). |
| C10 | Layer iteration schedules every gate exactly once, after its operands | partial | `BaseLayerIter` and `CircuitLayerIter` as state machines; invariant over visited gates and remaining in-degrees | Proved for single circuits and for sub-circuits whose inputs have one source each; false of the code for inputs with several sources (witness). |
| C100 | The messages of tensor ABY2 are perfectly masked | proved | Tensor/Hidden: the message of a gate is its mask xored with a constant of the same dimensions, an involution on the values of these dimensions; a layer consumes its setup data from the end; the sharing with a generator that plays back a tape; Exec/ActiveMask, Tensor/Active: the generic argument for protocols whose masks lie in the prepared gate outputs, by induction on the layers; success of a gate depends only on the dimensions | Distributions are bijections of the drawn values: for each layer, each sharing, and whole executions against a peer that follows any strategy. Circuits without constants (todo!() in the code) and without SIMD (not supported by this protocol); matrices whose dimensions fill bytes (others are refused by BitMatrix::random). |
| C101 | Tensor ABY2 hides the inputs of a party from the sharing on | partial | Tensor/ActiveInputs: a bijection of the values drawn for the inputs that keeps what is sent, composed with that of C100, which may depend on it; Tensor/ActiveParty: the gates that draw from the private generator are, in order of the iterator, the own inputs and the interactive gates by layers; what lies in the prepared gate outputs is the tape of the generator | False of the code: the generator is selected by gate id whatever the circuit, so an AND gate in a sub-circuit can get a mask the peer knows (witness). Proved, from the sharing to the end of the execution, if no interactive gate has the id of an input of the peer; with masks drawn otherwise tensor_inputs_hidden needs no condition. |
| C102 | The trusted servers answer every connection, whatever happens on others | partial | Mt/Conn: events on any number of connections in any order; induction on the events shows that the requests handled are, per connection, those before it is closed, and that the replies are those of the sequential server of C21 | False of the code in two points: an entry is removed before its reply is sent, so a party that asks again after a lost reply gets triples that do not match those of the other party (witness); the loop is not left on receive errors, it spins as long as they last. The rest is proved. |
| C103 | The share storage of ABY2 is a vector of shares and its setup data a queue | partial | Aby2/Store: the two bit vectors are the images of one vector of shares, preserved by every operation; induction over the requests | False of the code in the last point: append puts new setup data in front (it is used first). It is not called on setup data of ABY2 in the repository. ShareVec::new accepts bit vectors of different lengths; then len fails in debug builds and the iterator announces a wrong length (proved). The rest is proved in full. |
| C104 | A party of Boolean GMW that shares its inputs as in the AES-CBC example hides them from the sharing on | proved | Exec/InputsHidden: the random bits are shifted by the difference of the inputs, which keeps the share that is sent; for every choice of them the permutation of C88 | About the factors of the triples see C88. The output share that party 0 of the example sends afterwards, and the plain key it sends with --validate, are not part of the view. The theorem on privacy is about any layout of the inputs whose lengths depend only on the lengths of the shares; keyParty and dataParty are the two of the example. |
| C105 | Precomputing the layers of a circuit changes neither the setup nor the result of ABY2 | partial | Aby2/Precomputed, Aby2/PrecomputedTwo: the views of the precomputed layers (C47) flattened; the loops over entries equal those over nodes gate by gate; execution by C74 and C37/C39/C71 | Without conditions for circuits without sub-circuits (astra_static_single, aby2_two_party_static_single). With sub-circuits under the conditions of C47 (circuits first reached in the order of circ_map, calls of a shared circuit with equal layers, no empty circuit), without which precomputing itself is wrong (static_layers_swap_circuits, static_layers_panic, unreached_circuit_panics). |
| C106 | Precomputing the layers of a circuit changes neither the setup nor the result of ABY2 with matrices | partial | Tensor/Precomputed: as C105, from the iterators of static_iterators_same_partial; execution by C74 and C82 | Without conditions for circuits without sub-circuits (tensor_static_single). With sub-circuits under the conditions of C47, as in C105. |
| C11 | Balanced reduction equals the sequential fold | proved | rounds of `low_depth_reduce`, strong induction on the length |  |
| C12 | Operators on Secret build the circuit they denote | proved | every operator as a function on the global builder state; denotation relative to a plaintext evaluation |  |
| C13 | Operands are read back in the order they were wired | proved | petgraph edge lists, induction on the construction |  |
| C14 | Inlining a sub-circuit preserves its function | partial | `add_sub_circuit` on gate lists; simulation between the copy and the original | Operands of every copied gate are reversed; the claim holds for gates symmetric in their operands and is refuted for Sub by a witness. |
| C15 | Range connections between sub-circuits deliver every wire | partial | BTreeMaps as lists, induction on insertions | False of the code when a range is inserted that strictly contains an earlier one (witness); proved otherwise, soundness of lookups in all cases. |
| C16 | Grouping of wires into ranges loses nothing | partial | `group_gates_iter`, induction | False of the code if two neighbouring runs start with the same gate (witness); proved otherwise. |
| C17 | A parsed Bristol circuit computes what the file says | proved | `from_bristol`; invariant relating wires to gates | the last theorem records what happens to ill-formed descriptions |
| C18 | Bristol files are read back exactly | partial | the nom parser as functions on characters; printing specification, round trip both ways | Complete for Bristol fashion, with the converse; old-format files with a narrow first input can be rejected (witness). |
| C19 | Random OTs yield valid multiplication triples | proved | pointwise triple algebra on bit lists | boolean_ot_history is the composition with the OT extension (C28) |
| C20 | Requests to the OT based Boolean triple provider return enough fresh triples | proved | providers as state machines, induction on requests | the test-only InsecureMTProvider repeats triples by design; the silent provider panics when its one batch is used up |
| C21 | The trusted triple server pairs up the two parties | proved | server map as state machine, induction on interleavings of connections | a differing second amount is ignored (recorded) |
| C22 | Seed-compressed triples expand to valid triples | proved | expansion with abstract seed streams | differing amounts give stores of differing length (recorded) |
| C23 | Arithmetic triples generated from OT are valid and of the requested length | partial | Gilboa products over `BitVec w` | False of the code: precomputation makes every request panic and a second request gives invalid triples; a single request without precomputation is correct. |
| C24 | Triple stores hand out each triple once | proved | stores as lists, induction on operations |  |
| C25 | Triples written to disk are read back in step by both parties | partial | file as list of batches, induction on requests | Nothing lost or repeated, and both parties stay matching if they use equal batch sizes; generation order holds for arithmetic triples and is refuted for Boolean ones. |
| C26 | Base OT delivers the chosen message key | proved | arbitrary commutative group and hash; both processes under every schedule |  |
| C27 | Base OT rejects deviating message sequences | proved | case analysis on the first deviating message |  |
| C28 | OT extension delivers the chosen messages for every arrival order | proved | bit matrices as functions, arbitrary arrival order of rows, composition with C26 |  |
| C29 | OT extension reports a peer that stops early | partial | run of the receiver against a peer that closes | False of the code: a closed channel ends the loop and Ok is returned; broken channels and unexpected messages are reported. |
| C30 | Correlated OT realises the correlation | proved | as C28 with the correlation |  |
| C31 | The puncturable PRF expands to vectors differing in one place by delta | proved | GGM trees as level vectors, induction on depth | all configurations the code accepts (depth at least 2, even leaf count); others panic |
| C32 | Reported noise positions match the expanded layout | proved | index arithmetic of the interleaved layout | positions in range for choices accepted by sample_choice_bits |
| C33 | Silent OT outputs are random OTs | proved | arbitrary additive code map; both processes | codes are arbitrary additive maps; libOTe and bitpolymul are external |
| C34 | Reduction modulo x^p - 1 folds every bit exactly once | partial | bit functions and index arithmetic modulo p | Proved for every prime the configuration can choose; for p a multiple of 128 the shift by 0 panics (overflow checks) or adds bits twice (witness). |
| C35 | Gap derandomisation is correct and hides delta | partial | exchange of the gap values, explicit formula for delta | Correct, but the hiding half is false of the code: delta can be computed from the message (proved). |
| C36 | ABY2 sharing is lossless | proved | streams of the three generators, induction on the history of calls of both parties |  |
| C37 | ABY2 evaluates circuits of two-input gates correctly | proved | executor of C08 with ABY2, invariant on public parts and masks | executor level, all schedules, with sub-circuits (each sub-circuit input with one source, see C10); astra_execute_correct goes from the seeds to the outputs |
| C38 | ABY2 evaluates multi-input AND gates correctly | partial | power set expansion, exact characterisation by the number of operands | False of the code: proved that a gate with n operands is correct for all masks exactly if n is at most 2. |
| C39 | Helper-assisted ABY2 setup gives correct mask products | proved | helper process and both parties, stream synchronisation by counting | scalar circuits with two-input AND gates (others panic) |
| C40 | Tensor ABY2 matrix multiplication and constants are correct | partial | shares of scalars/vectors/matrices, uses C43 and C44 | MatMult, And2, Xor, sharing and the setup circuit are correct for all dimensions that fill bytes; scalar constants and negation are wrong in the code (proved). |
| C41 | Boolean to arithmetic conversion is correct | partial | ring identities over `BitVec w`, induction on the layer | Right for every B2A gate whose Boolean shared bits match the last arithmetic ones (the first B2A of a run, or the all-zero bits of the insecure setup), in any interleaving with other gates; the code never removes arithmetic shared bits, so a second B2A is wrong (proved, with the exact error). |
| C42 | Arithmetic to Boolean resharing is correct | partial | as C41, queues of reshares | Right when a layer's Rcv gate is followed by no B2A gate and only by Snd gates with the same operand, e.g. one a2b per layer; with n a2b calls in one layer the k-th call converts value k/2 (proved), and B2A after Rcv panics (proved). |
| C43 | Bit matrix transposition is correct in all implementations | proved | 16x8 block loops on 128 bit vectors, memory as function; every unchecked access in bounds | the blocked implementation is modelled on 128 bit vectors; every unchecked access is shown to be in bounds; the branch with 16 bit loads is never reached |
| C44 | Bit matrix multiplication is the GF(2) product | partial | rows, transposition and XOR folds | The product is correct; the second half is false of the code: a product that does not fill a word cannot be a right operand (panics) and as left operand yields extra rows; an empty inner dimension panics. |
| C45 | Communication statistics account for every byte once | partial | atomic counters and the steps of `record` interleaved arbitrarily; conservation invariant | Conservation holds for every interleaving and the attribution is exactly determined; the promise of without_unaccounted is false of the code: prev_phase is never assigned, so the option has no effect (proved). |
| C46 | Multi-party channels connect the right parties | proved | parties as maps to channels, queues, arbitrary interleavings | at most 2^32 parties (ids are u32); the channels of the remoc crate are reliable FIFO queues |
| C47 | Precomputed layers equal on-the-fly layers | partial | `precompute_layers`, iterator and operand lookup; invariant on the stored circuits | Equal when circuits are first reached in numbering order and calls of a shared circuit have equal layers. Otherwise false of the code: circuits are swapped, precompute_layers panics, or a call gets the layers of another (all three proved with well-formed circuits). |
| C48 | Deduplicating shared sub-circuits keeps the sub-circuit table | proved | `into_circuit` with its cache |  |
| C49 | Circuit bookkeeping matches the gates | proved | induction on construction | sub-circuit input list: only if add_sc_input_gate is called with SubCircuitInput gates (its documented use); the other case is shown to duplicate entries |
| C50 | Ring elements and blocks survive conversion | proved | `BitVec` arithmetic |  |
| C51 | Sub-circuit calls compute the function on the call's own inputs | partial | builder calls, connections and executor composed | End to end for scalar circuits: builder calls, circuit table, executor. Nested source ranges lose a wire or panic (witnesses). |
| C52 | Bit decompositions recompose | proved | certificate of prefix-adder terms, proved sound for all operands, evaluated by the kernel on the stored files | the four stored files are reproduced in Verif/Adder/Files.lean; a certificate checker proved sound for all operands is evaluated on them in the kernel |
| C53 | SIMD circuits and circuits with sub-circuits execute correctly | partial | executor with lanes, freeing and sub-circuits | Proved under the stated restrictions; each restriction is shown necessary by a witness (also C05, C10). On the level of words the lanes have to be multiples of 64, or the positions of the operands equal (C95): words_execute_wrong. |
| C54 | Silent OT with the quasi cyclic code works for every number of OTs | partial | Silent/QuasiCyclic: sizes of the configuration, expansion and compression combined; Silent/QcEncode: dual_encode, copy_out and dual_encode_choice refine the abstract code for every split of the rows into jobs | False of the code for some numbers of OTs (17598 panics); exact characterisation for scaler 2, full protocol proved otherwise, also with the encoder itself (rows split over threads in any way, copy_out, separate choice bits) instead of an abstract code, up to 2^36 blocks. |
| C55 | Silent OT returns as many OTs as requested, all of them outputs of the code | partial | expand convolute code with sizes as in the code | False of the code for the expand convolute code: N2 OTs are returned, and the triples handed out first have noise vector entries as shares (proved). The truncating codes are covered by C33/C54. |
| C56 | ABY2 mask shares of AND gates are private | partial | explicit source (generator, position) of every mask bit | False of the code: the generator is selected by gate id whatever the circuit, so AND gates in sub-circuits can get masks the other party knows (witness). Exact source of every mask proved. |
| C57 | Mixed share storages hold any sequence of shares | partial | storages as lists | extend, set and get are right; collecting a heterogeneous sequence panics (proved) |
| C58 | Network set-up wires every pair of parties | proved | handshake messages with arbitrary arrival order; sub channel exchange under every interleaving | TCP and remoc as reliable FIFO transport, every party completes its set-up |
| C59 | Functions marked #[sub_circuit] compute what they say | partial | generated function, cache, builder and connection maps as one state machine; invariant over the statements; the resulting table is a program in the sense of C51 | Proved for every program whose calls pass at least one secret and whose argument runs respect the connection maps. Otherwise false of the code: arguments inside those of an earlier call and repeated arguments panic, a function without arguments is never executed, and install + into_circuit leaves emptied circuits in the caches (all proved). |
| C60 | AlignedVec behaves like a list and owns its elements | partial | heap of blocks with layouts and cells, elements as identities; invariant (ownership, disjoint blocks, ledger of elements) over programs, refinement to lists | Proved for all programs that request less than a quarter of the address space and do not clone vectors whose elements have drop glue. Otherwise false of the code: clone copies bitwise (double drop), reserve on a vector with memory does not check isize::MAX before realloc, len + additional wraps in release builds, an empty vector's pointer is not aligned to ALIGN (all proved). |
| C61 | AesRng is the AES counter mode key stream of its seed | proved | BlockRng over the counter core; invariant relating buffer, index and counter to a position in the key stream | The cipher is an arbitrary function per key. aes_rng_chunking_bytes is the limit of the chunking claim: requests that are not whole words lose the rest of a word. |
| C62 | A run of a mixed circuit computes the plaintext circuit | partial | the mixed protocol as instance of the executor; invariant (shares of each evaluated gate have the kind and value given by the equations) over the layers, using the layer theorem of C42 | Conditional on one a2b per layer and no B2A behind it, which the code needs (C42) but does not ensure; for single circuits the condition is on multiplicative depths. a2b_circuit is about the circuit builder function a2b with the stored adder files. |
| C63 | Gates are grouped into layers by multiplicative depth | partial | invariant over next(): the queue holds the gates of the current depth, the deferred set those of the next; uniqueness of depth by the rank; CallDepth: the same invariant over the iterators of all circuits, with the cross connections (Cross) deciding when inputs of sub-circuits are reached; the depth exists for every well-formed circuit as a fixed point: the rounds in which circuits are entered grow with each iteration and are bounded by the rank | Proved for single circuits; false with sub-circuits (proved): entering a function takes a layer. With sub-circuits the exact layer of every gate is proved (connections between circuits count one), and that there are at most as many additional rounds as connections on a path to an interactive gate, where paths to constants of a sub-circuit begin with a connection to it (otherwise false: constants_cost_rounds). |
| C64 | Mixed sharing: share, execute, collect, reconstruct | partial | share and reconstruct as functions of the generator output; collection as in C57; composition with C62 | The Mixed variant panics in share and reconstruct, also for an execution without outputs (proved). |
| C65 | Importing a FUSE module keeps its meaning | partial | a reference evaluator for modules; simulation relation between evaluator state and circuit under construction (each node's gate has the node's value in every solution of the gate equations), induction over nodes, then over sub-circuits; inlining by a value theorem for add_sub_circuit; execution by C62; connected calls (Fuse/Connected): induction over the nodes with the calls recorded, wires by the theorems on connections of C48 | Proved for inlined calls (any nesting) and for modules without calls, if only first outputs are used, constants are true or 1, sub-circuits contain neither subtraction nor merge, and conversions are in different layers (C62). Otherwise false of the code: offsets and payloads are ignored, inlining swaps operands, missing parts panic or give an empty circuit (all proved). For connected calls it is proved which circuits and connections the module is converted to (one converted circuit per call, wired from the operands and back to the gate of the call), and that a call with a repeated operand panics and that nested ranges of operands lose a wire. Missing: that the connected circuit computes the value of the module. |
| C66 | The PrivMail example answers the query | proved | the program is modelled on the builder of C12; each function gets a lemma giving the value of the returned secret in every evaluation and the number of AND gates (C11, C12), induction over positions, mails and keywords; input gates come first and output gates last; execution by C08 | Base64 decoding is not modelled. A query without keywords and an empty keyword panic (last two theorems). |
| C67 | The AES-CBC example encrypts in CBC mode | partial | parsing and loading by C17, a value theorem for add_sub_circuit of a loaded Bristol circuit (its gates are symmetric, so the reversed operands do not matter), induction over the blocks with the chaining secrets as invariant, execution by C08; encodings bit by bit | Everything but the encoding of the key is proved in full. The key and the IV reach the circuit with the bytes of each 8-byte half reversed, unlike the data, so the last sentence is false for them: it holds exactly for keys whose halves are palindromes. That the file in test_resources computes AES is not proved; the theorem is for every file. |
| C68 | Sub-channels are connected pairwise | proved | each call is one exchange of messages; induction over the calls with the two parties in lock step, lifted to every schedule by the diamond property of C08's process model; ends computed in closed form | Channels are reliable queues; loss of the connection during set-up is not modelled here. |
| C69 | sync is a barrier | partial | small-step semantics with closing, late notification and loss; invariant that relates the positions of both parties, messages sent, received and in flight, and the log; a measure that decreases in each step; case analysis showing that only finished states are stuck | All but the last sentence is proved in full. The last sentence is false of the code: sync ignores that the peer has closed the channel (witness). |
| C70 | The AES-CBC example encrypts the same with the cipher as a sub-circuit | partial | simulation of the example by a C59 program with one function whose body is the loaded file (loading and tracing give equal circuits); the runs of wires passed in the calls are computed and satisfy C59's conditions; induction over the blocks for the plain program; invariant on the emptied static for the second build | All but the last sentence is proved in full. The last sentence is false: finishing a circuit empties the static AES_CIRC, so every later build panics (third theorem, for all sizes). |
| C71 | Two parties can run ABY2 without a helper | partial | the loop over the gates is proved parametric in the type of the inputs, so one circuit serves both parties; invariant of the loop (input gates against first uses, cache against products); closure of the sets under dropping the last operand; execution by the theorem for Boolean GMW circuits; composition with C37 and C39 | The setup data is characterised for AND gates of every arity; the end-to-end statement is proved in full for two-input AND gates. Missing: gates with three or more operands, for which it is false. There the operands are sorted by first use, so the products do not fit the gate (third theorem), and the evaluation is wrong besides (C38). |
| C72 | Two-party execution of arithmetic circuits computes the circuit | partial | instance of the generic executor theorem (Exec/Generic) with shares related by sum = value; layer lemma by induction over the gates; circuits built gate by gate are compared with a straight-line evaluator by induction over the calls | What is computed is characterised for all circuits and triples; circuits without Mul are correct in full. Missing: Mul with general valid triples, for which it is false (arith_execute_wrong: the circuit of the unit test gives 99 instead of 100). |
| C73 | The openings of arithmetic multiplications hide the operands | partial | the opened values are computed from both messages; ring arithmetic; the failure by a valid triple with a = 0 | d is masked. Missing: e, for which it is false: the code masks the second operand with c = a*b, so whenever d equals the first operand, e is the second operand in clear; in whole executions the peer can exclude shares, whatever it does (arith_mul_leaks). |
| C74 | Precomputing the layers does not change an execution | partial | the executor on what it reads of precomputed layers is a model of its own (Exec/Static); by C47 what it reads equals the dynamic layers, and then by induction over the layers the two processes are equal; for GMW the generic executor theorem with empty lists of freed gates; failures by kernel evaluation of both parties on a concrete circuit | Proved in full for single circuits (static_execute_single). With sub-circuits: proved if the calls are reached in the order of circ_map, calls of a shared circuit have the same layers and no circuit is empty. Otherwise it is false: a wrong output (static_execute_wrong), a panic (static_execute_panics). |
| C75 | The number of triples precomputed for a circuit is the number its execution uses | partial | the executor with the provider state threaded through the layers (Exec/Preproc) equals the executor with fixed answers; the layers visit every gate once (C10), so the counts add up to the sum over the circuits; a buffer of that length answers all requests from its end on both sides | Amount and use of the buffer are proved for all circuits. The outputs need the conditions of C08 for several circuits (no layer with scalar and simd AND gates, C05; freed simd gates). With precomputed layers the conditions of C74 apply. SIMD circuits in addition need shares at equal positions in words (C95). |
| C76 | From a Bristol file to the outputs, with triples from OT | proved | composition: parser round trip, conversion, single-circuit case of C74, OT history, C75; the AND lines are counted through the conversion | composition of C17, C18, C19, C28, C74 and C75; single scalar circuits need none of their conditions. Sub-channels and statistics are separate (C45, C68). |
| C77 | What a party sees of a Boolean GMW execution is independent of the other party's share | partial | each message determines the triples used (xor with known operands), by induction over the layers with equal stores; so the map from factors to views is injective, and both sets are finite with the same sizes, hence it is a bijection; the runs exist by C08 | holds without conditions for single circuits (gmw_circuit_private) and for circuits with sub-circuits under the conditions of C08. False when a layer has scalar and simd AND gates: mixed_layer_reuses_mask. For SIMD circuits the triples have to start at a word (C95). The sharing of inputs and the reconstruction of outputs are outside (C01). |
| C78 | The PrivMail variant with sub-circuits answers the query | partial | the statements of the main function are written down from the lengths alone (a program in the sense of C59); loop invariants give the value of every result variable and the list of calls; the argument ranges of the calls are classified (keyword, window, results of comparisons, and the one merged range of the last keyword and the first window), no later one is nested in an earlier one, so C59 applies; the failing cases are evaluated | holds when all keywords have the same length and no mail is shorter. False otherwise: a shorter keyword after a longer one panics when the circuit is built, a longer one after a shorter one fails when it is executed (both on one two-byte mail). A mail shorter than the keyword makes the execution fail as well (or_sc of an empty slice adds its gates to the main circuit, and the returned wire is connected to a gate that does not exist). |
| C79 | Executing with triples stored in a file | partial | both files are related batch by batch, which store_mts establishes and every call keeps (C25); hence the providers answer all requests with matching triples as long as enough are left, and C75 applies to any such provider; conversely a party can only return after all its requests were answered (induction over the layers for arbitrary messages), and answered requests use up the file | conditions on circuits with sub-circuits as in C08 (no layer with scalar and simd AND gates, C05; freed simd gates); the generator gives valid triples (C19). SIMD circuits in addition need shares at equal positions in words (C95). bincode and the file system are assumed to return what was written. looped_file_leaks shows what reusing triples reveals (documented as insecure). |
| C80 | An OT receiver's choices are hidden from the sender | proved | every view of the sender is produced by exactly one value of the receiver's randomness: solved point by point for the base OTs, and by induction over the calls, cutting the tapes of the unknown generators, for the extension | uniformity is stated as a bijection between randomness and messages. The generators seeded with unknown base OT messages are idealised as uniform bits (the real statement holds up to the security of AES-CTR), the group is assumed to have a generator reached by each element for exactly one scalar (ristretto: prime order). Hiding the sender's other message rests on the hash function and cannot be expressed. |
| C81 | What a party sees of an ABY2 execution is independent of the other party's inputs | partial | the messages of a layer xor to the public parts of its AND gates (invariant of C37), so two runs give the same messages exactly if the masks of the AND gates differ where the values do (induction over the rounds); the private bits used are those of the own inputs and the AND gates, in order (C39, C56), so the condition is an equation for each bit with exactly one solution | holds if no AND gate has a gate id that the input map assigns to the observer. False otherwise: for an AND gate in a sub-circuit with such an id the observer reads the value of the gate off the messages (and_value_visible, for all seeds). The bijection is stated as: exactly one value of the private bits used gives the same view. The private generators are idealised as uniform bits; reconstruction of outputs is outside. |
| C82 | Tensor ABY2 computes the plaintext circuit from the sharing of the inputs to the outputs | proved | masks: each step of setup_gate_outputs draws the mask share_tensor drew (induction over the inputs), with the shape of the plaintext value; setup: the built GMW circuit has one output per entry of each product, in the order of the interactive gates (invariant of the builder, then C01 for the execution); online: simulation with the invariant of C40 for each gate | whole protocol, from share_tensor to reconstruct_tensor, including the GMW execution of the setup circuit. Circuits without SIMD (the code panics for it). That the circuits outside (sums of matrices, constants, matrices that do not fill bytes) panic in the setup is proved for one circuit each. Vector inputs are not modelled; request_setup_output is split_off_last on the setup data, in the order of the layers (Answers). |
| C83 | An executor can be used for several executions | partial | the executor that also returns the provider's remaining triples (Exec/Reuse); induction over the executions with the stores of both parties equal in length as invariant, each step by C08; ABY2: an execution consumes all setup data, so the next request ends without a return; benchmark: the model of the global builder of C59 | Boolean GMW: proved for any number of executions, conditions on circuits with sub-circuits as in C08. Each execution of the model runs to its end before the next (execute takes &mut self). False of the benchmark: with repeat and the global circuit every run but the first executes an empty circuit (bench_repeat). |
| C84 | A thread gets the circuit of its own Secret operations | partial | threads as sequences of atomic actions on a shared state; frame lemma for disjoint parts and induction over the steps; a safety predicate stable under extension of the heap of circuits, which sections provide; the failing schedules are executed | holds for threads with different gate or index types and for tasks of one thread. False for two threads with the same gate type, for example two ABY2 parties in one process on different threads: one gets a circuit with another user's gates, whose circuit is lost, or a thread panics (same_gate_type_mixes_circuits). That threads with different gate types do not disturb each other holds for builders of any content, sub-circuits included (disjoint_threads); what a builder builds is modelled here without sub-circuits. |
| C85 | The circuit builder API does not deadlock | partial | the events of each call are nested blocks with ascending ranks (cache, builders, circuit), kept by every step and by unwinding; a waiting thread leads to the holder of a lock of higher rank, which is bounded; the exception by an invariant on the position of the thread | Secret::connect_to_main_circuit never returns (connect_to_main_circuit_never_returns). A #[sub_circuit] body only adds gates (nested calls panic, a body that takes the global circuit is not modelled). |
| C86 | GMW with triples from a trusted server is correct under every schedule | proved | Verif.Exec.Server: parties, server and other clients as one transition system; an invariant on the positions of the parties (their message exchange keeps them less than one request apart) relates every schedule to a schedule of C75 with the answers fixed, completed by matching answers; termination by counting the five steps of each round | Conditions on the circuit as in C08, for SIMD circuits those of C95 (proved for their list model). Requests of one id by others between the requests of the parties break the session (shared_id_mismatch), so other clients are assumed to use other ids. Connections do not fail. |
| C87 | Bristol files compiled with --simd and SIMD calls compute every lane | partial | Exec/SimdCalls: the simd program has the gates, operands and layers of the scalar one, its values are those of the scalar program in each lane, so C08 and C74 apply; Parse/Compile: the calls of compile produce a main circuit and connections of known shape (conversion lemmas of C17, connections of C51), which satisfy the conditions, including those on freeing | True for lanes that are multiples of 64 (words_simd_program_correct_partial); for other sizes the shares get different positions in their words and XOR goes wrong (C95), which the model of the other theorems leaves out. The Bristol part has no condition beyond a well-formed file with at least one input. The general part is conditional: dynamic layers need NotFreed (C08), precomputed layers the conditions of C74 on circ_map. Serialization of the compiled circuit is not modelled here. |
| C88 | A peer that deviates arbitrarily learns nothing about the shares of a GMW party from its messages | partial | Exec/Active: the party against a strategy (interact); two runs with shares of the same lengths keep stores of the same shape, so they fail at the same points; the masks of the second run are those of the first xored with the difference of the operands (layer by layer, depending on the messages so far), a bijection | For scalar circuits as stated; for SIMD circuits the triples have to start at a word (gmw_words_active_private), otherwise the first lanes are sent in the clear (words_leak, C95). About input shares and messages of the execution; the reconstruction of outputs, where a deviating party can of course change its share, is outside, and no integrity is claimed: an example shows that a flipped bit changes the output without notice. With AND gates in scalar and simd circuits the claim is false (mixed_layer_reuses_mask, C05). Debug assertions are panics in the model. |
| C89 | execute returns an output only after every answer, and cannot be stopped by answers of the right size | partial | Exec/Lost: induction over the layers; the second part compares with an honest run (C08) whose stores and messages have the same shapes | First part without conditions, and the second for circuits without sub-circuits. With sub-circuits the second part needs the conditions of C08. On a closed connection the code panics (`ok().unwrap()`), although `execute` returns a `Result`. |
| C90 | Executors with silent OT triples compute the circuit | partial | Exec/SilentExec: both stores are related row by row and split_off_last keeps that, so the providers serve all requests of the layers and C75 applies; runs of the protocol are a relation whose outcomes are related by C54 and C55 | Proved for matching random OTs. For the quasi-cyclic code the sizes have to work (C54: for some numbers of OTs the code panics); for the default expand-convolute code the circuit is computed too, but the provider holds more triples than configured and their bits are biased (C55). Conditions on the circuit as in C08, for SIMD circuits also those of C95. |
| C91 | A peer that deviates arbitrarily learns nothing about the inputs of an ABY2 party from what it receives | partial | Aby2/Active: as C88, with the masks of the AND gates instead of triples: a mask enters the messages only in the layer of its gate, as an xor; the product shares may depend on earlier masks, so the bijection is built layer by layer. Aby2/ActiveHelper: the masks of operands depend on inputs and earlier AND gates only (induction over the layers), the private bits are those masks in order (C81), and for party 0 the bits shared with the helper are traded for the message of the helper (an involution) | With the helper it holds if no AND gate has a gate id that the input map assigns to the deviating party; otherwise already an honest observer reads the value of the gate (and_value_visible, C81). The statement for the executor with independent masks (aby2_active_private) has no such condition. As in C88 no integrity is claimed, and the reconstruction of outputs is outside. The private generators are idealised as uniform bits. |
| C92 | A computation handed to the thread pool delivers its own result exactly once, and a panic stays with its handle | proved | Util/Spawn: a transition system of jobs, channels, handles and wakers; an invariant of every computation, preserved by every event; the events of the pool decrease a measure | Functions are computations that end. rayon (every job is started) and tokio's oneshot channel are trusted, the latter as written in the model. |
| C93 | connect_with_timeout connects if the server appears in time, and otherwise reports the last error soon after the timeout | partial | Chan/Connect: the loop as a function of the sequence of attempts; induction over the attempts; the waiting time is bounded by the time already spent | All but the absence of panics: with a timeout of zero, or if the timeout has passed before the first check, `last_err.unwrap()` panics (connect_panics, an exact condition). After a failed handshake the next attempt follows without waiting (broken_spins). |
| C94 | The quasi-cyclic encoder multiplies polynomials through the FFT wrapper correctly, with reused objects and caches | partial | Silent/Fft: an object stands for a polynomial through the transform of its size, which every operation respects for any previous contents; loop invariant for the sum of products; C34 for the reduction | For factors of equal nonzero length, as everywhere in the encoder. Factors of different lengths with the same power of two pass the assertion, and the upper words of the product are lost (product_truncated); decoding an empty polynomial and a scaler of 1 panic. The C library is assumed to be correct (`Fft.Correct`). |
| C95 | SIMD shares are computed and masked correctly wherever their bit vectors start in the machine words | partial | Gmw/Words: bit vectors as words with a head, what copies and slices keep and what raw zips do; the AND layer by placing the operands at the same position; Exec/Words: simulation of the list model by the word model with the heads as part of the relation; privacy as C88, words_leak by following the first message | False in general. AND layers are correct for every position. XOR is correct if the operands start at the same position; this holds if all lanes are multiples of 64 (the k-th AND gate of a layer starts where the gates before it end), and words_execute_wrong is a circuit with one lane where it does not. Messages are masked if the triples start at a word; with triples at another position the first lanes are sent unmasked (words_leak). The OT based provider gives triples that begin at words exactly if the total is a multiple of 8 and each layer after the first a multiple of 64 (ot_provider_aligned_iff); with lanes that are multiples of 64 executions with it are correct and private (gmw_words_provider_correct_partial, gmw_words_buffer_private), with one AND gate and a number of lanes that is no multiple of 8 they leak (ot_provider_leak). Rests on the documented behaviour of bitvec that copies of slices keep their position (its source is not available here). |
| C96 | Functions that take a bit slice treat it the same wherever it begins in its machine word | partial | Ot/Slice: the row computation on words equals that of the list model for moved choices, then C28; for matrices the words are written out | False: both functions use the words of a copy of the slice, which keeps the position of its first bit, so everything is moved by that number of places. Exactly what they compute is proved; for slices that begin at a word, as everywhere in the repository, it is what was asked for. Same assumption on bitvec as C95. |
| C97 | The noise positions of silent OT are valid, uniform and independent | proved | Silent/Sample: counting draws by recursion on their number: an accepted first draw fixes the row of the first tree, a rejected one leaves the problem unchanged; the layout is inverted as in C32 | Coins of the generator are taken to be fair: distributions are counted over all sequences of draws. The format Plain is not implemented in the code. |
| C98 | A peer that deviates arbitrarily learns nothing about the shares of a party of the mixed protocol from its messages | partial | Exec/ActiveScalar: as C88 for any protocol without SIMD that masks its messages (Masking), with a relation between the values of the two runs; Mixed/Private: the mixed protocol does, with values of the same kind as relation: the factors of the triples and the words of the shared bits of the second run are those of the first xored with the difference of the operands, resharing sends the random word itself; Mixed/InputsHidden: the values of the sharing are shifted by the difference of the inputs; Mixed/MulLeak: the first message of an execution with one multiplication, by computation for symbolic width and shares | Proved for circuits without multiplications, also from the sharing of the inputs on with a peer that chooses its own shares depending on what it was sent (mixed_inputs_hidden_partial). Missing: multiplications, for which it is false: an operand is masked with the product of the triple (C73), and in whole executions the peer can exclude shares, for every width and whatever triple it holds (mixed_mul_leaks). The words that random() delivers are fixed in the theorem, it holds for each choice of them. The only setup provider of the code (InsecureMixedSetup) uses a constant seed, so its masks are not uniform; the theorem is about any provider whose masks are. |
| C99 | Silent OT with the Silver and expand accumulate codes returns exactly the requested OTs, starting from its base OTs | partial | Silent/Codes: the base OTs are cut into those of the trees and of the gap as the constructors do, which keeps the correspondence; the sizes reduce to those of the expand convolute code; then C31, C35 and C33 | The random OTs are proved without restriction. With separate choice bits the claim is false for Silver: the choice bits are not truncated, there are N2 of them (at least twice as many as OTs); the relation holds for the requested ones. The encoders of libOTe are arbitrary additive maps on as many positions as configured. |

## Where the code deviates from the claims

Each item is a theorem about the model with a concrete witness (or, where stated, for all inputs).

* Executor: a layer with scalar and SIMD AND gates uses the same triples for both (`mixed_layer_incorrect`,
  `mixed_layer_reuses_mask`). A SIMD gate is freed although it is an output or feeds another circuit
  (`output_operand_is_freed`, `cross_operand_is_freed`).
* Arithmetic GMW: the messages mask with the wrong component, so `Mul` is wrong (`mul_layer_incorrect`), whole executions are (`arith_execute_wrong`), and the openings leak operands (`opening_leaks`).
* Layer iteration: a sub-circuit input with several sources is visited several times (`packed_input_panics`); calling a
  sub-circuit takes an additional communication round (`calls_cost_rounds`).
* Precomputed layers: circuits are stored in the order in which they are reached but looked up by number
  (`static_layers_swap_circuits`; executing it gives a wrong output, `static_execute_wrong`); a third, differently staggered call of a shared circuit panics
  (`static_layers_panic`) or is redirected to wrong layers (`static_layers_reuse`; both parties panic, `static_execute_panics`); a circuit without layers makes `gate_counts`
  panic (`unreached_circuit_panics`).
* Connections: a range that strictly contains an earlier one loses connections (`range_lookup_loses_connection`,
  `connect_calls_loses_wire`), duplicate wires panic; grouping merges neighbouring runs (`group_gates_merges_duplicates`).
* `add_sub_circuit` reverses operands (`inlined_sub_swaps_operands`); `ConnectToMain` gates are listed twice.
* Bristol: old-format headers can be rejected (`old_format_rejected`); an unwritten wire reads gate 0.
* Triples: a second client with another amount is ignored or gets mismatched triples; the Boolean disk
  storage hands out blocks out of order; the arithmetic OT provider panics after precomputation and returns
  invalid triples on a second request; the silent provider's first triples are biased with the expand
  convolute code (`silent_triples_biased`).
* Trusted servers: a party that asks again after a lost reply gets triples that do not match (`lost_reply_mismatch`); the task of a
  connection spins while receiving fails (`receive_errors_spin`).
* OT extension: a peer that closes early is reported as success (`early_close_not_reported`).
* Silent OT: the gap message determines delta (`gap_leaks_delta`); some sizes panic (`qc_configure_panics`);
  the expand convolute code returns untruncated output.
* ABY2: AND gates with three or more operands are wrong (`and_many_wrong`); masks of AND gates in sub-circuits can be
  known to the other party (`and_mask_known_to_other_party`), which then reads the values of these gates off the messages
  (`and_value_visible`).
* ABY2 without helper: the products for gates with three or more operands are in the order of first use of the operands, not of the gate (`aby_setup_order_wrong`); the source has a TODO asking about this.
* Tensor ABY2: masks of AND gates in sub-circuits can be known to the peer (`tensor_mask_known_to_other_party`); scalar constants, negation, vector reconstruction; the setup panics for sums of matrices although their online phase is implemented (`tensor_xor_matrix_setup_panics`), for constants and for matrices that do not fill bytes. Bit matrices: products that do not
  fill a word cannot be used as right operands.
* Mixed GMW: arithmetic shared bits are never consumed (`second_b2a_wrong`); several `a2b` in one layer get the wrong values
  (`two_a2b_in_one_layer`); `B2A` after `Rcv` panics; heterogeneous outputs cannot be collected;
  an execution without outputs cannot be reconstructed (`mixed_storage_not_shared`).
* `#[sub_circuit]`: argument lists nested in earlier ones or with repetitions panic (`sub_circuit_inner_args_panic`,
  `sub_circuit_repeated_arg_panic`); functions without arguments are never executed (`sub_circuit_without_args_fails`); caches
  survive `install` + `into_circuit` (`sub_circuit_stale_cache`).
* `AlignedVec`: `clone` copies bit by bit, which drops elements twice (`clone_double_drop`; the workspace only uses `u8` and `u64`);
  `reserve` calls `realloc` with sizes beyond `isize::MAX` (`reserve_undefined_behaviour`) and wraps in release builds
  (`reserve_wraps`); the pointer of an empty vector has the alignment of `T` only (`empty_unaligned`).
* FUSE import: offsets of operands and values of constants are not read (`convert_ignores_values`, `split_bit_wrong`,
  `constant_wrong`); inlined subtractions are swapped (`inlined_sub_wrong`, for merges likewise); without inlining, nested calls and
  calls with several outputs panic (`nested_call_panics`, `two_outputs_panic`); a connected call with the same operand twice panics
  (`call_twice_panics`), and a call whose operands lie inside the range of an earlier call's loses a wire (`call_loses_wire`); a missing entry point gives an empty
  circuit (`no_entry_point`), missing nodes and forward references panic (`missing_nodes_panics`, `forward_reference_panics`).
* AES-CBC example: the bytes of each half of key and IV are reversed relative to the data (`key_encoding_wrong`, `default_key_wrong`); the source has a TODO suspecting this.
* AES-CBC example with sub-circuits: `global_into_circuit` takes the contents of the static `AES_CIRC`, so a second build in the same process panics (`aes_cbc_calls_second_build_panics`).
* `sync` can return `Ok` although the peer closed the channel without calling it (`sync_passes_closed_peer`).
* PrivMail example: a query without keywords and an empty keyword panic (`privmail_no_keywords`, `privmail_empty_keyword`).
* PrivMail example with sub-circuits: keywords of different lengths make the build panic or the execution fail, because the ranges of wires passed to the comparisons are then nested (`privmail_calls_shorter_keyword_panics`, `privmail_calls_longer_keyword_fails`). A mail shorter than the keyword makes the execution fail: `or_sc(&[])` builds its constant with `Secret::from_const(0, _)` in the main circuit, `connect_to_main` then takes this gate id for one of the (empty) sub-circuit, and nothing behind the returned wire is ever evaluated (`privmail_calls_short_mail_fails`; without debug assertions the output is the default share, i.e. a wrong result for negated queries).
* `Secret::connect_to_main_circuit` locks the builder map twice and never returns (`connect_to_main_circuit_never_returns`).
* Two threads that use the global builder of the same gate type mix their circuits or panic (`same_gate_type_mixes_circuits`); `AbySetupProvider::setup` does this in every party.
* Benchmarks with `repeat` and the circuit of the global builder execute an empty circuit from the second run on (`bench_repeat`).
* Statistics: `without_unaccounted` has no effect (`without_unaccounted_ignored`).

Seen while reading, not expressed as theorems: `silent_ot.rs` and `aby2.rs` print secret values
(`eprintln!`/`println!`); the trusted servers hold a mutex across an await on a send; the ABY2 input map is
indexed by gate id where "position" is documented; `MixedSetupStorage` and parts of `MixedSharing` are `todo!()`;
`recv_from` ignores unknown ids where `recv_from_single` reports them; `MultiReceiver::recv` is `todo!()`.
* With separate choice bits Silver returns `N2` choice bits for the requested number of OTs (`trunc_correlated_partial`).
* `connect_with_timeout` panics for a timeout of zero (`connect_panics`) and repeats failed handshakes without waiting (`broken_spins`).
* `FftPoly::mult` of factors of different lengths with the same power of two silently drops the upper words (`product_truncated_witness`); decoding an
  empty polynomial panics.
* SIMD shares: `fast_bit_xor` combines raw words although the results of SIMD AND gates start at different positions of a word, so circuits whose lanes are not multiples
  of 64 are computed wrongly (`words_xor_ignores`, `words_execute_wrong`); triples that do not start at a word leave the first lanes of the message unmasked (`words_message_unmasked`,
  `words_leak`). A provider that splits triples off the end of a buffer produces such triples whenever the number left is not a multiple of 64.
  With the OT based provider one AND gate with a number of lanes that is no multiple of 8 sends shares in the clear (`ot_provider_leak`).
* `receive_random` of the OT extension and `BitMatrix::from_bits` move the bits of a slice that does not begin at a word (`slice_receive_wrong`, `fromSlice_wrong`).

## Simplifications

* Gate ids are `Nat`; overflow of the index type is not modelled.
* `GateRange` connections are expanded to the list of pairs they stand for where lookups are not the subject.
* In the list model of SIMD shares (all theorems about SIMD circuits except those of C95) bit vectors are assumed to start at the same position of a word where the code
  combines their raw words. C95 drops this: the word model simulates the list model exactly if the positions agree, e.g. for lanes that are multiples of 64.
* Inside OT extension the rows of one message are delivered in order; the order of messages is arbitrary.
* libOTe and Silver encoders are arbitrary additive maps, and so is the polynomial multiplication in the theorems about the silent OT (the quasi cyclic encoder is modelled completely in Silent.Fft and Silent.QcEncode, up to the C library: `reduce_correct`, `dual_encode_correct`, `qc_encoder_silent_ot_partial`); the partition counts 176/400/248 are constants
  (the code computes them with floating point).
* Per-thread scratch buffers of the PPRF are values created per tree.
* Counters of the statistics do not wrap.
* Hash maps are association lists; where iteration order is observable the theorem holds for every order.

## Not modelled

The flatbuffer reader of the FUSE import, the C/C++ code behind FFI (bitpolymul, libOTe), TLS and TCP themselves, benchmarking
and command line code, procedural macros' token handling, performance, thread pools other than
through arbitrary arrival orders, serialisation formats.
