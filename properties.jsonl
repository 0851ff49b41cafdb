{"id": "C01", "title": "Linear-combination arithmetic is field arithmetic", "statement": "Building a LinearCombination with any sequence of the overloaded operators (+var, -var, +(coeff,var), -(coeff,var), +&lc, -&lc, +(coeff,&lc), -(coeff,&lc)) gives an object whose value under any assignment is the corresponding field expression of the operands' values.", "quantifier": "all operator sequences of any length, all coefficients, all variables (repeated or not), all assignments", "why_tests_cant": "A test evaluates a handful of combinations; duplicates, zero/negated coefficients and nested scaling give infinitely many shapes.", "anchors": ["src/lib.rs: LinearCombination, Add/Sub impls"]}
{"id": "C02", "title": "The prover's per-constraint values are exactly the values of the linear combinations", "statement": "For every constraint a circuit enforces, the three scalars the prover records are the values of the three linear combinations under the assignment known at that moment, and a variable is marked dense in a query exactly when it occurs with some non-zero coefficient in that query's combinations; alloc/enforce never disturb earlier records.", "quantifier": "all circuits, all witnesses, all linear combinations (incl. zero and one coefficients, repeated variables)", "why_tests_cant": "The zero/one coefficient shortcuts and optional density trackers create many paths per term, over unbounded circuits.", "anchors": ["groth16/src/prover.rs: eval, ProvingAssignment", "src/multiexp.rs: DensityTracker"]}
{"id": "C03", "title": "Key generation and proving see the same circuit", "statement": "Running one circuit through the key generator and through the prover (or through the test constraint system) issues the same variable indices in the same order, the same number of inputs and auxiliaries, and the same list of constraints, whenever the circuit's control flow does not depend on the witness; key generation never evaluates a witness closure.", "quantifier": "all circuits (as programs over the ConstraintSystem interface), all witnesses, all interleavings of alloc / alloc_input / enforce / namespace calls", "why_tests_cant": "Tests compare a few circuits; the claim ranges over all programs against the trait.", "anchors": ["groth16/src/generator.rs: KeypairAssembly", "groth16/src/prover.rs: ProvingAssignment", "src/lib.rs: ConstraintSystem, Namespace", "src/gadgets/test/mod.rs: TestConstraintSystem"]}
{"id": "C04", "title": "TestConstraintSystem decides satisfaction correctly", "statement": "is_satisfied() is true exactly when every enforced constraint holds for the stored assignment; which_is_unsatisfied() returns the path of the first failing constraint; after set(path,v) it answers for the updated assignment; verify(inputs) is true exactly when the inputs after the constant one equal the given list.", "quantifier": "all circuits, all assignments, all sequences of set() edits", "why_tests_cant": "Unbounded space of circuits and edits.", "anchors": ["src/gadgets/test/mod.rs: is_satisfied, which_is_unsatisfied, set, get, verify"]}
{"id": "C05", "title": "Namespaced names never collide and namespaces nest", "statement": "Two variables or constraints created under different (namespace stack, name) pairs get different paths; re-using a pair panics; namespace() scopes are restored on every exit, including error exits.", "quantifier": "all namespace stacks, all names accepted by the path check, all programs", "why_tests_cant": "Collision freedom is a statement about all pairs of strings and nestings.", "anchors": ["src/gadgets/test/mod.rs: compute_path, set_named_obj", "src/lib.rs: Namespace, Drop"]}
{"id": "C06", "title": "Boolean allocation is sound and complete", "statement": "If the constraints emitted by AllocatedBit::alloc hold then the variable is 0 or 1; alloc_conditionally additionally forces 0 whenever the condition bit is 1; an honest prover with a legal bit always satisfies them and a missing value is reported as AssignmentMissing.", "quantifier": "all fields, all (possibly malicious) assignments, all values", "why_tests_cant": "Soundness is a claim about every field element as a candidate assignment.", "anchors": ["src/gadgets/boolean.rs: AllocatedBit::alloc, alloc_conditionally"]}
{"id": "C07", "title": "Boolean connectives compute their truth tables against a malicious prover", "statement": "xor, and, and-not, nor, not and enforce_equal on AllocatedBit/Boolean (variables, negated variables, constants in any combination) force the result to be the named Boolean function of the operands in every satisfying assignment; with honest witnesses all emitted constraints hold and get_value() agrees with the assignment; enforce_equal on two different constants is Unsatisfiable.", "quantifier": "all operand kinds, all assignments satisfying the constraints, all fields of characteristic other than 2 where needed", "why_tests_cant": "Unit tests try honest 0/1 values only; a malicious assignment ranges over the whole field.", "anchors": ["src/gadgets/boolean.rs: Boolean, AllocatedBit"]}
{"id": "C08", "title": "sha256_ch and sha256_maj compute choice and majority", "statement": "Boolean::sha256_ch(a,b,c) equals (a and b) xor ((not a) and c) and sha256_maj(a,b,c) equals the majority, for every mixture of constants, variables and negated variables, in every satisfying assignment, and honest witnesses satisfy.", "quantifier": "all 6^3 operand kinds symbolically, all assignments", "why_tests_cant": "Special-cased constant branches plus adversarial assignments.", "anchors": ["src/gadgets/boolean.rs: sha256_ch, sha256_maj"]}
{"id": "C09", "title": "Field-number gadgets compute their functions", "statement": "AllocatedNum mul, square, assert_nonzero, conditionally_reverse and inputize force product, square, non-zeroness, conditional swap and equality with the public input in every satisfying assignment; honest witnesses satisfy; assert_nonzero on zero reports DivisionByZero; Num accumulates the weighted sum of Booleans.", "quantifier": "all field elements, all assignments", "why_tests_cant": "Each is a for-all over an astronomically large field.", "anchors": ["src/gadgets/num.rs: mul, square, assert_nonzero, conditionally_reverse, inputize, Num::add_bool_with_coeff"]}
{"id": "C10", "title": "Strict bit decomposition is unique", "statement": "to_bits_le_strict returns NUM_BITS Booleans that in every satisfying assignment are exactly the canonical little-endian bits of the number (the integer representative below the modulus); honest witnesses satisfy it for every field element.", "quantifier": "all odd prime moduli, all field elements, all assignments", "why_tests_cant": "Uniqueness against a malicious prover for every modulus bit pattern cannot be enumerated.", "anchors": ["src/gadgets/num.rs: to_bits_le_strict", "src/gadgets/boolean.rs: field_into_allocated_bits_le"]}
{"id": "C11", "title": "Non-strict bit decomposition gives a congruent representation and nothing more", "statement": "to_bits_le returns Booleans whose weighted sum is congruent to the number in every satisfying assignment; it is not unique: for every element below 2^NUM_BITS - p a second satisfying decomposition exists.", "quantifier": "all prime moduli, all field elements, all assignments", "why_tests_cant": "Existence of the second decomposition is a statement about malicious assignments.", "anchors": ["src/gadgets/num.rs: to_bits_le"]}
{"id": "C12", "title": "Table lookups select the addressed entry", "statement": "lookup3_xy returns the table row selected by the three bits; lookup3_xy_with_conditional_negation returns the x of the row selected by two bits and its y negated exactly when the third bit is set; in every satisfying assignment, for every table, with honest witnesses satisfying.", "quantifier": "all tables of constants, all bit operands (incl. constants), all assignments", "why_tests_cant": "Tables range over the field to the 16th power.", "anchors": ["src/gadgets/lookup.rs: lookup3_xy, lookup3_xy_with_conditional_negation, synth"]}
{"id": "C13", "title": "Multipacking agrees inside and outside the circuit and is injective", "statement": "pack_into_inputs exposes exactly as many public inputs as compute_multipacking produces elements, forces them to those elements in every satisfying assignment, and two different bit strings of the same length have different packings; bytes_to_bits and bytes_to_bits_le list the bits in the documented order and are injective.", "quantifier": "all bit strings of every length, all fields", "why_tests_cant": "All lengths around multiples of CAPACITY and all fields.", "anchors": ["src/gadgets/multipack.rs"]}
{"id": "C14", "title": "Batched equality checks are as strong as individual ones", "statement": "For every sequence of MultiEq::enforce_equal calls whose two sides are integers below 2^num_bits, the emitted constraints (including the one emitted on drop) hold if and only if every individual equality holds, however the calls are split over constraints by the capacity.", "quantifier": "all sequences of calls, all positive bit sizes below CAPACITY, all fields, all assignments", "why_tests_cant": "Unbounded call sequences and split points.", "anchors": ["src/gadgets/multieq.rs"]}
{"id": "C15", "title": "UInt32 operations are 32-bit machine operations", "statement": "constant, alloc, from_bits(_be), into_bits(_be), rotr, shr, xor, sha256_ch, sha256_maj and addmany force the result to be the corresponding 32-bit word operation (addmany: sum modulo 2^32 of 2 to 10 operands), in every satisfying assignment and with honest witnesses satisfying; rotations/shifts use the amount modulo 32.", "quantifier": "all words, all mixtures of constant and allocated bits, all operand counts accepted, all assignments", "why_tests_cant": "2^64 operand pairs times malicious assignments.", "anchors": ["src/gadgets/uint32.rs"]}
{"id": "C16", "title": "The sha256 gadget computes SHA-256", "statement": "In every satisfying assignment the 256 output Booleans of sha256(input) are the FIPS 180-4 SHA-256 digest bits of the input bits, and honest witnesses satisfy all constraints.", "quantifier": "all input lengths that are multiples of 8 bits, all input values, all fields with NUM_BITS >= 64, all assignments", "why_tests_cant": "Tests hash a few messages; soundness concerns every assignment.", "anchors": ["src/gadgets/sha256.rs"]}
{"id": "C17", "title": "The blake2s gadget computes BLAKE2s", "statement": "In every satisfying assignment the 256 output Booleans of blake2s(input, personalization) are the RFC 7693 BLAKE2s-256 digest (8-byte personalisation) of the input bits, and honest witnesses satisfy all constraints.", "quantifier": "all input lengths that are multiples of 8 bits, all inputs and personalisations, all fields with NUM_BITS >= 64, all assignments", "why_tests_cant": "Same as for SHA-256.", "anchors": ["src/gadgets/blake2s.rs"]}
{"id": "C18", "title": "Gadget circuits do not depend on the witness", "statement": "Every gadget of the library, run with two different witnesses or with none, allocates the same variables and emits the same constraints and returns handles to the same variables, so keys generated without a witness fit every proof.", "quantifier": "all gadgets, all pairs of witnesses (present or absent)", "why_tests_cant": "A relational property over all pairs of executions.", "anchors": ["src/gadgets/*.rs"]}
{"id": "C19", "title": "Evaluation domains have the right size or are refused", "statement": "EvaluationDomain::from_coeffs on n coefficients pads with zeros to the least power of two m >= max(n,1) and its omega is a primitive m-th root of unity; it returns PolynomialDegreeTooLarge exactly when that m would exceed 2^(S-1); the inverses stored really are inverses and construction never panics.", "quantifier": "all coefficient vectors of every length, all prime fields", "why_tests_cant": "Every length, including the boundary at 2^(S-1), which no test can allocate.", "anchors": ["src/domain.rs: EvaluationDomain::from_coeffs"]}
{"id": "C20", "title": "fft evaluates the polynomial", "statement": "After fft the i-th entry is the value of the coefficient vector at omega^i, for scalar and group coefficients alike; the serial bit-reversal/butterfly code and the parallel code both compute it.", "quantifier": "all domain sizes, all coefficient vectors (scalars and group elements), all thread counts", "why_tests_cant": "Algorithm correctness for every size and vector.", "anchors": ["src/domain.rs: fft, serial_fft, parallel_fft, best_fft"]}
{"id": "C21", "title": "The parallel FFT does not depend on the number of threads or the schedule", "statement": "best_fft returns the same vector for every number of threads and every order in which the spawned sub-tasks run.", "quantifier": "all thread counts (powers of two below the size and beyond), all task orders, all inputs", "why_tests_cant": "Schedules cannot be enumerated by tests.", "anchors": ["src/domain.rs: best_fft, parallel_fft", "src/multicore.rs: Worker::scope"]}
{"id": "C22", "title": "Inverse transforms invert", "statement": "ifft undoes fft, icoset_fft undoes coset_fft and vice versa, on every domain; coset_fft gives the values at g*omega^i.", "quantifier": "all domains and vectors", "why_tests_cant": "All sizes and vectors.", "anchors": ["src/domain.rs: ifft, coset_fft, icoset_fft, distribute_powers"]}
{"id": "C23", "title": "Polynomial quotient on the coset", "statement": "divide_by_z_on_coset never panics and, when the evaluations of a, b, c on the domain satisfy a*b=c pointwise, the ifft/coset_fft/mul/sub/divide/icoset_fft pipeline yields the coefficients of the exact quotient (A*B-C)/Z, whose top coefficient (dropped by the prover) is zero.", "quantifier": "all domain sizes, all evaluation vectors satisfying the pointwise relation", "why_tests_cant": "Infinite family of polynomials.", "anchors": ["src/domain.rs: z, divide_by_z_on_coset, mul_assign, sub_assign", "groth16/src/prover.rs: create_proof (h)"]}
{"id": "C24", "title": "Multiexponentiation computes the multi-scalar sum", "statement": "multiexp over any base source, density and exponents returns the sum over the queried indices of exponent times the matching base, independent of window size, chunking and thread schedule.", "quantifier": "all lengths, densities, exponents, bases, window sizes", "why_tests_cant": "Bucket method correctness over all scalars and sizes.", "anchors": ["src/multiexp.rs: multiexp, multiexp_inner, Exponent, Source"]}
{"id": "C25", "title": "Multiexponentiation fails exactly when it must", "statement": "multiexp returns UnexpectedEof exactly when the source holds fewer bases than the density selects, UnexpectedIdentity when there is no shortage and a selected base with a non-zero exponent is the identity, and succeeds otherwise; with both faults the result is UnexpectedIdentity exactly when an identity base that is present meets an exponent reaching the topmost window; it never returns a value computed from missing bases.", "quantifier": "all sources (incl. offsets), densities, exponents", "why_tests_cant": "Error precedence over all positions and chunkings.", "anchors": ["src/multiexp.rs: Source::next, Source::skip, multiexp_inner"]}
{"id": "C26", "title": "Density trackers count exactly the marked elements", "statement": "After any sequence of add_element and inc calls the tracker's size is the number of add_element calls, its density vector marks exactly the indices inc was called with, and total_density is their number; inc is idempotent and out-of-range inc panics.", "quantifier": "all call sequences", "why_tests_cant": "Histories of unbounded length.", "anchors": ["src/multiexp.rs: DensityTracker"]}
{"id": "C27", "title": "Work splitting covers every element exactly once", "statement": "Worker::scope's chunk size is never zero in the multicore build, the chunks cover all elements exactly once with the correct global offset, and the loops run inside it (distribute_powers, pointwise products, powers of tau, query evaluation) give the result of the sequential loop for every thread count and task order; log2_floor is the integer logarithm.", "quantifier": "all element counts, all thread counts, all schedules", "why_tests_cant": "Thread counts and schedules cannot be enumerated.", "anchors": ["src/multicore.rs: scope, log2_floor", "src/domain.rs", "groth16/src/generator.rs"]}
{"id": "C28", "title": "Asynchronous computations deliver their own result exactly once and the backlog is bounded", "statement": "As long as no Waiter is dropped early, every Waiter obtained from Worker::compute delivers exactly the value of its closure, whatever the interleaving; the number of queued-but-unfinished background computations never exceeds four times the thread count plus one, and the spawn counter returns to zero when all computations finish.", "quantifier": "all interleavings of any number of submitting and worker threads", "why_tests_cant": "Interleavings.", "anchors": ["src/multicore.rs: Worker::compute, Waiter"]}
{"id": "C29", "title": "Generated parameters are the Groth16 common reference string", "statement": "If generate_parameters succeeds, every element equals the published Groth16 formula for the circuit's QAP at the given toxic waste (including the padding constraint per input), identity elements are removed from the A/B queries only, and ic/l/h have the documented lengths; it fails with UnexpectedIdentity when gamma or delta is zero, UnconstrainedVariable when some auxiliary's l element is the identity, PolynomialDegreeTooLarge when the domain is too big.", "quantifier": "all circuits, all toxic waste values and generators", "why_tests_cant": "All circuits and secrets.", "anchors": ["groth16/src/generator.rs"]}
{"id": "C30", "title": "Groth16 completeness", "statement": "If generate_parameters and create_proof both return Ok for a circuit whose assignment satisfies its constraints, then verify_proof accepts the proof for the circuit's public inputs.", "quantifier": "all circuits, all satisfying witnesses, all toxic waste, all blinding factors, all bilinear groups", "why_tests_cant": "Tests use one circuit with random values.", "anchors": ["groth16/src/generator.rs", "groth16/src/prover.rs", "groth16/src/verifier.rs"]}
{"id": "C31", "title": "create_proof succeeds whenever parameters are regular", "statement": "For every circuit in which no variable's coefficients cancel to the zero polynomial, for all toxic waste outside the roots of the (finitely many) query polynomials, create_proof returns Ok for every complete witness; without that condition it can fail deterministically (a combination such as x - x makes proving impossible although key generation succeeds).", "quantifier": "all circuits, all witnesses, all toxic waste", "why_tests_cant": "The failing family is not in the test-suite and the success claim is universal.", "anchors": ["groth16/src/prover.rs: create_proof", "groth16/src/generator.rs: filter of identities"]}
{"id": "C32", "title": "verify_proof decides the pairing equation", "statement": "verify_proof returns InvalidVerifyingKey exactly when the number of public inputs plus one differs from ic's length, Ok exactly when lengths match and e(A,B)=e(alpha,beta)+e(sum ic,gamma)+e(C,delta), InvalidProof otherwise; changing the claimed inputs to ones with a different input combination makes it reject.", "quantifier": "all keys, proofs, inputs", "why_tests_cant": "All group elements.", "anchors": ["groth16/src/verifier.rs"]}
{"id": "C33", "title": "Unsatisfied assignments do not verify", "statement": "For a circuit assignment violating some constraint, the proof produced by create_proof (which does not check) is rejected for all but at most 2m-2 choices of the secret tau, m being the domain size.", "quantifier": "all circuits, all non-satisfying assignments, all blinding factors", "why_tests_cant": "Counting over all secrets.", "anchors": ["groth16/src/prover.rs", "groth16/src/verifier.rs"]}
{"id": "C34", "title": "Proofs reveal nothing about the witness", "statement": "For two satisfying assignments with the same public inputs, the map from blinding pair (r,s) to proof has the same image with the same multiplicities, so with uniform blinding the proof distribution is independent of the witness.", "quantifier": "all circuits, all pairs of satisfying assignments, all blinding pairs", "why_tests_cant": "Distributional equality over all blinding values.", "anchors": ["groth16/src/prover.rs: create_proof"]}
{"id": "C35", "title": "Batch verification accepts valid batches", "statement": "If every queued item verifies individually, batch verification (single-threaded and multicore) returns Ok for every choice of the random weights, every batch size including zero, every split into chunks and every reduction tree.", "quantifier": "all batches, all random tapes, all schedules", "why_tests_cant": "All batch sizes, tapes, schedules.", "anchors": ["groth16/src/verifier/batch.rs"]}
{"id": "C36", "title": "Batch verification rejects invalid batches except for few random tapes", "statement": "If some queued item fails individually (with the right number of inputs), then for each fixing of the other weights at most one value of that item's weight (single-threaded) or at most eight values of its chunk's weight (multicore) make the batch accept; a wrong input count is always rejected.", "quantifier": "all batches, all tapes", "why_tests_cant": "Counting argument over all weights.", "anchors": ["groth16/src/verifier/batch.rs"]}
{"id": "C37", "title": "Serialization round-trips", "statement": "Reading what was written gives back the same Proof, VerifyingKey or Parameters and consumes exactly the written bytes, for every value whose elements are not the identity where the reader forbids it and whose vectors are shorter than 2^32; what read accepts re-serializes to the bytes consumed.", "quantifier": "all values, all trailing data", "why_tests_cant": "All values.", "anchors": ["groth16/src/lib.rs: Proof, VerifyingKey, Parameters read/write"]}
{"id": "C38", "title": "Malformed serializations are refused", "statement": "Proof::read rejects the point at infinity in each position; VerifyingKey::read and checked Parameters::read reject it in ic and in every query; every proper prefix of a valid encoding (a crash at any write) is rejected with an error, never accepted and never a panic.", "quantifier": "all byte strings, all truncation points", "why_tests_cant": "All crash points.", "anchors": ["groth16/src/lib.rs"]}
{"id": "C39", "title": "Circuits without auxiliary variables can be set up", "statement": "With the multicore feature generate_parameters panics only if the circuit's own synthesis panics or the circuit has more than 2^31 constraints and inputs, hence also returns for circuits without auxiliary variables; without the feature it panics, for non-zero gamma and delta, for every circuit that fits the field and has no auxiliary variables or a one-element domain (chunk size zero), and returns for all others up to that size.", "quantifier": "all circuits, both build configurations", "why_tests_cant": "Configurations and degenerate sizes not covered by tests.", "anchors": ["src/multicore.rs (non-multicore scope)", "groth16/src/generator.rs"]}
{"id": "C40", "title": "TestConstraintSystem's circuit hash depends only on the constraint relation's normal form", "statement": "Two circuits whose corresponding linear combinations have equal coefficient sums per variable, the same counts and order have equal hash inputs; the normal form lists each variable once, drops zero coefficients, and has the same value as the original under every assignment. hash() is 64 hexadecimal digits; two systems with equal hash have equal counts and normal forms, unless their hash inputs are a BLAKE2s collision.", "quantifier": "all linear combinations, all orders of terms", "why_tests_cant": "All permutations/duplications of terms.", "anchors": ["src/gadgets/test/mod.rs: proc_lc, hash_lc, eval_lc"]}
{"id": "C41", "title": "Only dropping a Waiter early aborts the process", "statement": "No interleaving of Worker::compute and Waiter::wait calls makes a background job fail to deliver and abort the process, unless a Waiter is dropped before its job has sent its result; in that case there is an interleaving that aborts. An inline computation that panics leaves the spawn counter raised for ever.", "quantifier": "all interleavings, all numbers of jobs and threads", "why_tests_cant": "Depends on the interleaving of a drop with a background send.", "anchors": ["src/multicore.rs: Worker::compute, Waiter", "groth16/src/prover.rs: early returns of create_proof"]}
{"id": "C42", "title": "An algebraic prover that convinces the verifier knows a witness", "statement": "Fix a circuit, public inputs, and the coefficients with which a prover combines the elements of the parameters (and the two generators) into the three elements of a proof. Either the coefficients of the auxiliary elements `l` in the third element, together with the public inputs, satisfy every constraint of the circuit, or verify_proof rejects for all but a fraction D/|F| of the trapdoors used in generate_parameters, D explicit in the size of the circuit. The honest prover is of this kind and the assignment read off it is its witness.", "quantifier": "all circuits, all public inputs, all coefficient choices", "why_tests_cant": "Quantifies over all provers and counts over all trapdoors; no test samples either.", "anchors": ["groth16/src/generator.rs: generate_parameters", "groth16/src/verifier.rs: verify_proof", "groth16/src/prover.rs: create_proof"]}
{"id": "C43", "title": "Gadgets mention only allocated variables and expose no public input", "statement": "Every gadget (bits, booleans, words, numbers, lookups, SHA-256, BLAKE2s), given handles of allocated variables, builds constraints over allocated variables only, returns handles of allocated variables and allocates no public input; inputize allocates exactly one and pack_into_inputs exactly as many as chunks, with no auxiliary variable. The property composes, and a circuit that has it makes neither key generation nor the prover panic during synthesis, unless the circuit itself panics.", "quantifier": "all arguments, all witness values including absent ones, all implementations that number variables consecutively, all executions", "why_tests_cant": "Quantifies over every implementation of ConstraintSystem and every witness; a gadget that leaks an input is only caught for the tested circuit.", "anchors": ["src/gadgets/boolean.rs", "src/gadgets/num.rs", "src/gadgets/uint32.rs", "src/gadgets/lookup.rs", "src/gadgets/sha256.rs", "src/gadgets/blake2s.rs", "src/gadgets/multipack.rs", "groth16/src/generator.rs: KeypairAssembly", "groth16/src/prover.rs: ProvingAssignment"]}
{"id": "C44", "title": "The example of the crate documentation proves knowledge of a SHA-256d preimage", "statement": "MyCircuit of the crate documentation, run with a preimage of 80 bytes under parameters of the same circuit without one, gives a proof that verifies against the packed bits of SHA-256(SHA-256(preimage)); any satisfying assignment with these public inputs contains, in its first 640 auxiliary variables, a preimage of that hash; an algebraic prover without a preimage is rejected except for few trapdoors; a proof made for one hash is rejected for every other hash except for few trapdoors; two preimages of one hash give identically distributed proofs.", "quantifier": "all 80-byte preimages, all 32-byte hashes, all fields of at least 64 bits, all engines, all trapdoors and randomizers, all algebraic provers", "why_tests_cant": "The documentation test runs one preimage and one accepting verification; rejection and extraction quantify over all provers.", "anchors": ["src/lib.rs: crate documentation (sha256d, MyCircuit)", "src/gadgets/sha256.rs: sha256", "src/gadgets/multipack.rs", "groth16/src"]}
{"id": "C45", "title": "Drawn at random: completeness, knowledge soundness and zero knowledge in terms of the random generator", "statement": "generate_random_parameters draws two group elements and five scalars, create_random_proof two scalars. Whatever the generator returns, a proof of a satisfied circuit verifies. Over a uniform generator, at most a fraction D/|F| of its states lead to parameters for which an algebraic prover without a witness is accepted; create_random_proof returns each accepted proof with probability 1/|F|^2 and no other, independently of the witness.", "quantifier": "all random generators (uniform ones for the counting claims), all circuits, all provers, all witnesses", "why_tests_cant": "Statements about a distribution over all states of the generator.", "anchors": ["groth16/src/generator.rs: generate_random_parameters", "groth16/src/prover.rs: create_random_proof"]}
{"id": "C46", "title": "Key generation succeeds exactly when every auxiliary variable is constrained, up to few trapdoors", "statement": "If some auxiliary variable has coefficient zero in every constraint, generate_parameters returns an error for all trapdoors. If each has a non-zero coefficient in some constraint and the circuit fits the field, generate_parameters succeeds except for a fraction (k m + 2)/|F| of the trapdoors. The parameters it returns contain no identity element except for few trapdoors, and then can be written, read back (checked or not) and used: proof and key survive the files and verify.", "quantifier": "all circuits, all trapdoors, all generators", "why_tests_cant": "Counts over all trapdoors; failure for all trapdoors is not observable by sampling.", "anchors": ["groth16/src/generator.rs: generate_parameters (UnconstrainedVariable, UnexpectedIdentity)", "groth16/src/lib.rs: read/write"]}
{"id": "C47", "title": "Allocating the bits of an integer or field element forces bits, and only bits", "statement": "u64_into_boolean_vec_le returns 64 Booleans and field_into_boolean_vec_le NUM_BITS Booleans, forced to be bits; for an honest prover they are the binary expansion of the value, least significant first, of the canonical representative in the case of a field (which need not be the circuit's field). The number of variables and constraints does not depend on whether the value is known. Nothing more is forced: every integer of that many bits, also one not below the modulus, has a satisfying assignment. Without a value the prover reports AssignmentMissing.", "quantifier": "all values, all fields, all assignments", "why_tests_cant": "All values and all malicious assignments.", "anchors": ["src/gadgets/boolean.rs: u64_into_boolean_vec_le, field_into_boolean_vec_le, field_into_allocated_bits_le"]}
{"id": "C48", "title": "The MiMC circuit of the integration tests works and proves knowledge of a preimage", "statement": "MiMCDemo: except for a fraction 1985269/|F| of the trapdoors, generate_parameters succeeds for the circuit without a preimage, and then for every preimage, all blinding factors and all workers create_proof succeeds and verify_proof accepts the proof for the image computed by mimc; any satisfying assignment contains a preimage of its public input; an algebraic prover without a preimage is rejected except for few trapdoors, as is an honest proof for any other image; two preimages of one image give identically distributed proofs. The integration tests test_mimc and batch_verify (prove, write, read, verify, batch) pass for n samples with all but 3n|F|^(2n-1) of the |F|^(2n) blinding factors, the exceptions being proofs with an identity element. With only half of a preimage key generation panics or the prover reports AssignmentMissing.", "quantifier": "all constants, all preimages, all images, all fields with 2-adicity at least 11, all engines, all trapdoors, all blinding factors, all workers", "why_tests_cant": "The integration test runs 50 random preimages and only accepting runs; the claim is unconditional and counts over all trapdoors.", "anchors": ["groth16/tests/common/mod.rs: mimc, MiMCDemo", "groth16/tests/mimc.rs", "groth16/src"]}
{"id": "C49", "title": "Gadgets choose distinct names, so testing them does not panic", "statement": "Every gadget (bits, booleans, numbers, lookups, packing, 32-bit words, SHA-256, BLAKE2s) and both example circuits use no variable, constraint or namespace path twice and no name with a slash, close every namespace they open, and use in the caller's namespace only a stated set of names. Hence on a TestConstraintSystem in any reachable state, called in a namespace not yet in use, they never trigger the duplicate-name panic; and a gadget that is complete passes its unit test: it returns a correct value on a satisfied system and leaves the system satisfied.", "quantifier": "all inputs of the gadgets (lists of every length), all answers of the constraint system including missing values and errors, all reachable states of TestConstraintSystem", "why_tests_cant": "A name clash depends on the combination of cases taken (constants, negations, absent values, number of chunks or blocks), of which tests run a few.", "anchors": ["src/gadgets/*.rs", "src/gadgets/test/mod.rs: set_named_obj, compute_path", "src/lib.rs: Namespace", "groth16/tests/common/mod.rs"]}
{"id": "C50", "title": "A circuit's test result predicts the fate of its proofs", "statement": "Running a circuit on a new TestConstraintSystem records exactly the prover's witness and constraints. If is_satisfied() is true and verify(xs) is true, then every proof created with the same witness is accepted by verify_proof for the public inputs xs. If is_satisfied() is false, then such proofs are rejected except for at most 4·(constraints + inputs) values of the secret tau. A circuit with distinct names and allocated variables only can be run on the test system iff the prover can synthesize it, is_satisfied then never panics, and the two example circuits pass their tests for all witnesses.", "quantifier": "all circuits whose key-generation and proving runs make the same calls, all witnesses, all fields, engines, trapdoors, blinding factors, workers", "why_tests_cant": "It relates two implementations of ConstraintSystem over all circuits; a test checks one circuit on one of them.", "anchors": ["src/gadgets/test/mod.rs: TestConstraintSystem", "groth16/src/generator.rs", "groth16/src/prover.rs", "groth16/src/verifier.rs", "src/lib.rs example", "groth16/tests/common/mod.rs"]}
{"id": "C51", "title": "Gadgets constrain every variable they allocate, and their size is bounded", "statement": "Every successful execution of a gadget gives each auxiliary variable it allocates a non-zero coefficient in one of its own constraints, whatever the witness values; the number of constraints and of auxiliary variables is bounded by a stated function of the input length (one per bit operation, at most 27045 constraints per SHA-256 block and 21889 per BLAKE2s block, one per CAPACITY bits packed). So a circuit built from gadgets never makes generate_parameters report UnconstrainedVariable except for a bounded fraction of the trapdoors. AllocatedNum::alloc alone does not have the property. For the documentation example: at most 81780 constraints, and key generation succeeds except for a fraction 10645667842/|F| of the trapdoors.", "quantifier": "all inputs of the gadgets (lists of every length, constants, negated and plain bits), all answers of the constraint system, all fields, all trapdoors", "why_tests_cant": "Whether coefficients cancel depends on the inputs of the gadget; tests count constraints for a few inputs and never run key generation on the hash gadgets.", "anchors": ["src/gadgets/*.rs", "groth16/src/generator.rs: generate_parameters (UnconstrainedVariable)", "src/lib.rs example"]}
{"id": "C52", "title": "Hash circuits can be proved: nothing cancels, and the documentation example succeeds end to end", "statement": "create_proof fails for every witness if some variable is written in the a or b part of constraints but its coefficients cancel in each of them. In a circuit that hashes bits with the sha256 gadget or the blake2s gadget (any personalization), and packs the hash into public inputs or not, nothing cancels, if nothing cancels in the circuit that made the bits and each bit is a constant or has a non-zero coefficient in the a part of some constraint (as allocated bits do), for every input length. Consequently the run shown in the crate documentation works: except for a fraction 31938642312/|F| of the trapdoors, generate_parameters succeeds for the circuit without a preimage, and then for every 80-byte preimage, all blinding factors and all workers, create_proof succeeds and verify_proof accepts the proof for the packed SHA-256d hash. The condition is not automatic: for ch(a, a xor b, a xor b), built from the boolean gadgets and satisfied by all bits, key generation succeeds for almost all trapdoors but create_proof never succeeds.", "quantifier": "all input lengths, all circuits producing the bits, all answers of the constraint system, all preimages, all prime fields with 64-bit modulus or larger (two-adicity 18 or more), all trapdoors, blinding factors, workers, engines", "why_tests_cant": "Cancelling depends on how coefficients of sums modulo 2^32 combine over all rounds; tests prove one circuit (MiMC) end to end and never one with the hash gadgets.", "anchors": ["src/gadgets/sha256.rs", "src/gadgets/multieq.rs", "src/gadgets/uint32.rs: addmany", "groth16/src/generator.rs", "groth16/src/prover.rs: create_proof (query densities, identity elements)", "src/lib.rs example"]}
{"id": "C53", "title": "Circuits that constrain every variable and cancel no coefficient work end to end; so do the circuits of the unit tests, with the very numbers asserted there", "statement": "For every circuit in which each auxiliary variable has a non-zero coefficient somewhere and no variable's coefficients cancel, except for at most (A·m + 2(n+A)(m-1) + m + 3)·p^4 of the p^5 trapdoors (A auxiliary variables, n inputs, domain size m) generate_parameters succeeds, and then for every satisfying witness, all blinding factors and all workers create_proof succeeds and verify_proof accepts the public inputs of that witness. XorDemo: its constraints force two bits and their exclusive or, all pairs of bits can be proved except for 83/|F| of the trapdoors, and algebraic provers of anything else are rejected. MultWithZeroCoeffs: a term with coefficient zero does no harm, for all factors, except for 19/|F| of the trapdoors. For the secrets, blinding factors and witnesses written in groth16/src/tests/mod.rs, every assertion of the tests holds: all elements of the parameters and of the proof have the asserted values.", "quantifier": "all circuits, witnesses, trapdoors, blinding factors, workers, fields and engines; the test vectors for every worker", "why_tests_cant": "The unit tests run two circuits with one set of secrets and one witness; whether other secrets or witnesses fail is not tested.", "anchors": ["groth16/src/tests/mod.rs: XorDemo, test_xordemo, MultWithZeroCoeffs, zero_coeff_test", "groth16/src/generator.rs", "groth16/src/prover.rs", "groth16/src/verifier.rs"]}
{"id": "C54", "title": "Proofs can be re-randomised, every accepted proof arises that way, and inputs count only through one group element", "statement": "For every verifying key, proof (A, B, C), inputs, z ≠ 0 and s, verify_proof gives the same outcome (accept, InvalidProof, or wrong number of inputs) for (z⁻¹A, zB + zsδ, C + sA) as for (A, B, C). If a proof with A ≠ 0 is accepted and δ is not the identity, then the proofs with A' ≠ 0 accepted for the same inputs are exactly its re-randomisations, each for exactly one (z, s). The re-randomisation of an honest proof is what create_proof returns on the same witness for exactly one pair of blinding factors. If A is the identity, B does not matter. Input vectors of the same length that give the same combination of the ic elements have the same outcome for every proof; with one public input, whose ic element is not the identity, no proof is accepted for two inputs; with two or more, for every key and every input vector there is another one for which exactly the same proofs are accepted.", "quantifier": "all keys (honest or not), proofs, inputs, scalars, fields and engines", "why_tests_cant": "Tests check that one proof verifies and that it fails for other random inputs; which other proofs and inputs are accepted is a statement about all group elements.", "anchors": ["groth16/src/verifier.rs: verify_proof, prepare_verifying_key", "groth16/src/prover.rs: create_proof", "groth16/src/lib.rs: Proof, VerifyingKey"]}
{"id": "C55", "title": "The hash circuits have exactly the recorded number of constraints, and hashing constants is free", "statement": "Whenever synthesis succeeds, with whatever witness and in whichever constraint system, over a field with CAPACITY = 254 (BLS12-381): sha256_block_no_padding of 512 bits that are not constants makes exactly 25840 constraints and 25814 auxiliary variables; sha256 of 512(b+1) such bits makes 44874 + 26192 b constraints; of 256 bits 25244 and of 640 bits 51192; blake2s of 512(b+1) such bits, after any number of blocks of constant bits, makes 21006 + 21390 b constraints with any personalization; the output bits are never constants. Over any field, sha256 and blake2s of constants of any length make no variable and no constraint and return constants. The circuit of the crate documentation has exactly 77078 constraints, 76998 auxiliary variables and two public inputs, with or without the preimage, so its evaluation domain has 2^17 points.", "quantifier": "all inputs of the kind, all numbers of blocks, all witnesses and all successful executions", "why_tests_cant": "The tests record the number for one input of one length; that it is the same for every witness, every personalization and every handle (including negated bits), and how it grows with the length, is not tested.", "anchors": ["src/gadgets/sha256.rs: sha256, sha256_block_no_padding, sha256_compression_function, test_full_block", "src/gadgets/blake2s.rs: blake2s, blake2s_compression, test_blake2s_constraints, test_blake2s_precomp_constraints, test_blake2s_constant_constraints", "src/gadgets/boolean.rs: xor, and, sha256_ch, sha256_maj", "src/gadgets/uint32.rs: addmany, xor, triop", "src/gadgets/multieq.rs", "src/lib.rs: the example"]}
{"id": "C56", "title": "The engine of the Groth16 unit tests is a field with a bilinear map, in spite of wrapping 32-bit words", "statement": "For all values below the modulus 64513, the wrapping 32-bit operations of the test field (addition, subtraction, negation, multiplication, squaring, doubling, pow_vartime with any 64-bit exponent, sums, products, from, random, masks and shifts) are exactly arithmetic modulo 64513 and results stay below the modulus; invert returns the inverse and refuses exactly zero; these words with these operations satisfy every law that the PrimeField contract asks for and are isomorphic to the integers modulo 64513; to_repr and from_repr are inverse to each other and from_repr accepts exactly the canonical encodings; sqrt of a nonzero square returns one of its roots, panics (with overflow checks) on a non-square and never returns on zero; random words give each residue one of two adjacent frequencies; the pairing of the engine is bilinear and non-degenerate and its groups are modules over the field.", "quantifier": "all words below the modulus, all 64-bit exponents, all lists", "why_tests_cant": "The tests of the proof system use this engine but never test the engine; an overflow for a rare pair of values would go unnoticed.", "anchors": ["groth16/src/tests/dummy_engine.rs"]}
{"id": "C57", "title": "Passing a constraint system on by reference, in namespaces or in a MultiEq changes nothing", "statement": "Take any program written against ConstraintSystem and any nesting of mutable references, namespaces and MultiEqs around a constraint system: running the program on the outermost value gives the same result or panic, the same final state of the innermost constraint system and the same pending equations of the outermost MultiEq as making the same calls directly on the innermost constraint system. Allocations keep their kind, names are pushed and popped in balance also around namespaces opened by the program itself, nothing is lost, duplicated or reordered, the panics of Namespace::push_namespace and Namespace::pop_namespace are never reached, and MultiEqs further inside keep their state. Sequencing, loops, early return with `?`, namespaces, references and MultiEq scopes of the model are all programs of that kind.", "quantifier": "all programs, all nestings, all constraint systems and all states", "why_tests_cant": "Tests use one or two levels of nesting; that a forwarding method forwards to the method of the same name at every depth is not tested.", "anchors": ["src/lib.rs: ConstraintSystem for &mut CS, ConstraintSystem for Namespace, Namespace::drop, ConstraintSystem::namespace", "src/gadgets/multieq.rs: ConstraintSystem for MultiEq, Drop"]}
{"id": "C58", "title": "The prover asks its parameter source for exactly what it uses, and those answers suffice", "statement": "Whatever the parameter source: a successful create_proof has called get_vk, get_h, get_l, get_a, get_b_g1, get_b_g2 once each, in this order, asking for one verifying-key element per public input and the constant one, one element of h less than the domain has points, one of l per auxiliary variable, of a one per input and one per auxiliary variable occurring with a nonzero coefficient in a left factor, of b one per input and auxiliary variable occurring in a right factor; after an error only an initial part of these was called, and if the last call failed the error returned is the one of the source. A source that answers each request with at least the number of elements asked for, from the right place of a key, gives the same outcome (success, error or panic) as the whole key; nothing of ic is used. With &Parameters the prover is the one of the other properties. multiexp depends on no base beyond the number of queried exponents.", "quantifier": "all circuits, witnesses, sources with arbitrary state, keys, blinding factors and workers", "why_tests_cant": "Only &Parameters implements the trait in the repository; that a source serving slices on demand works can not be tested there.", "anchors": ["groth16/src/prover.rs: create_proof", "groth16/src/lib.rs: ParameterSource, impl for &Parameters", "src/multiexp.rs: multiexp, SourceBuilder"]}
{"id": "C59", "title": "Keys and proofs are equal exactly if they are written as the same bytes, whose number is fixed by the lengths", "statement": "Proof == Proof holds exactly if a, b and c agree, and exactly if both are written as the same bytes; VerifyingKey and Parameters likewise (all six points and every vector), with vectors below 2^32 elements. A proof takes three compressed points; a verifying key six uncompressed points, four bytes and one point per element of ic; parameters add five vectors with four bytes each for the length.", "quantifier": "all proofs of valid points, all keys", "why_tests_cant": "An omitted field in a hand-written eq is not noticed by tests that compare equal values; different values with equal encodings can not be searched for.", "anchors": ["groth16/src/lib.rs: PartialEq for Proof, VerifyingKey, Parameters; Proof::write, VerifyingKey::write, Parameters::write"]}
{"id": "C60", "title": "Concurrent provers do not disturb each other, but an error return can abort the process", "statement": "Any number of threads call create_proof at the same time on a shared pool, and each call would succeed by itself. Then under every interleaving of the threads and of the computations they submit the process is not aborted, no call waits for ever, every call returns, and it returns exactly the proof it would return by itself (the one of the implementation without the multicore feature). A call that by itself returns an error after it has submitted its computations (for another reason than an error of the computation waited for last) can abort the whole process on every pool: in particular a key whose delta_g1 was replaced by the identity, for which the code wants to return UnexpectedIdentity. Called from a thread of the pool itself, create_proof never returns a proof. The same for all other programs that call compute and wait.", "quantifier": "all numbers of threads and of pool threads, all circuits, witnesses, keys and blinding factors, all schedules", "why_tests_cant": "Schedules can not be enumerated or forced by tests; the abort needs a computation that is slower than the error return.", "anchors": ["groth16/src/prover.rs: create_proof", "src/multicore.rs: Worker::compute, Waiter::wait, Waiter::done", "src/multiexp.rs: multiexp"]}
{"id": "C61", "title": "Preimage proofs for SHA-256 and BLAKE2s work for messages of any length, end to end", "statement": "Take the circuit of the crate documentation with sha256, or blake2s with any 8-byte personalization, in place of SHA-256d, and messages of len bytes instead of 80. For every len >= 1 whose circuit fits the field's two-adicity (about 27045 rows per 64-byte block for SHA-256, 21889 for BLAKE2s), all but a small explicit fraction of the trapdoors give parameters with which create_proof succeeds for every message of len bytes, all blinding factors and workers, and verify_proof accepts the proof for compute_multipacking of the message's hash. Conversely every assignment that satisfies the constraints with a packed 32-byte hash as public inputs has the bits of a len-byte message with exactly that hash in its first 8 len auxiliary variables; hence an algebraic prover either has such a message among its coefficients or is rejected for almost all trapdoors, an honest proof is rejected for every other hash, and two messages with the same hash give identically distributed proofs. A message of another length panics before anything is allocated.", "quantifier": "all message lengths, messages, personalizations, 32-byte hashes, algebraic provers, prime fields of 64 bits or more with enough two-adicity, trapdoors up to the stated fraction, blinding factors, workers, engines", "why_tests_cant": "Tests hash a few fixed lengths in a test constraint system and never make or verify a proof of a hash circuit; padding and block boundaries, cancellation and forged witnesses range over unbounded inputs.", "anchors": ["src/lib.rs example", "src/gadgets/sha256.rs: sha256", "src/gadgets/blake2s.rs: blake2s", "src/gadgets/multipack.rs", "groth16/src/generator.rs", "groth16/src/prover.rs", "groth16/src/verifier.rs"]}
{"id": "C62", "title": "A batch made by algebraic provers is accepted only if every prover has a witness", "statement": "Fix a circuit, an engine and a list of algebraic provers, each with the public inputs it claims; each prover's proof is a combination, with coefficients fixed in advance, of the elements of the parameters. Either every prover has, among its coefficients, an assignment that satisfies the circuit with its public inputs, or the batch in which all these proofs are queued is accepted by BatchVerifier::verify for at most D p^4 (p-1)^n + p^5 (p-1)^(n-1) of the p^5 (p-1)^n choices of trapdoor and batch weights, where n is the number of proofs and D = 3m + 1 + 2 (1 + inputs + auxiliaries) (m - 1) for an evaluation domain of size m. verify_multicore has the same bound with n replaced by the number of chunks of eight and 8 p^5 in the second term, for every shape of the reduction. No number of valid or colluding proofs in the batch changes the bound.", "quantifier": "all circuits, engines over a prime field, nonzero generators, workers, lists of algebraic provers and public inputs, reduction trees, and all but the stated number of trapdoors and weights", "why_tests_cant": "Tests batch a handful of honest proofs and one corrupted one with one random tape; the claim counts over all trapdoors and weights and ranges over all provers.", "anchors": ["groth16/src/verifier/batch.rs: verify", "groth16/src/verifier/batch.rs: verify_multicore", "groth16/src/verifier/batch.rs: queue", "groth16/src/generator.rs: generate_parameters"]}
{"id": "C63", "title": "The printout of a test constraint system shows the constraints, all of them, and nothing of the witness", "statement": "TestConstraintSystem::pretty_print panics exactly if a constraint gives a nonzero coefficient to a variable that does not exist. Its result does not depend on the values of the variables, on the order of terms or on how coefficients are split over repeated terms: set changes nothing, and a circuit prints the same for every witness. A coefficient other than 1 and -1 is marked as 2^i exactly if it is that power of two as a number below the modulus. Conversely the printout can be read back: if field elements print injectively without spaces, backticks and line breaks, variable names contain no backtick and constraint names no opening parenthesis, then two systems with the same printout have the same constraints in the same order with the same names, and each name has the same coefficient in each position; for reachable systems with the same variables, equal printouts are equivalent to equal names and normal forms.", "quantifier": "all constraint systems, circuits, witnesses, names and Debug renderings within the stated hypotheses", "why_tests_cant": "No test looks at the output of pretty_print; that two different circuits never print alike and that no witness value leaks ranges over all circuits, names and values.", "anchors": ["src/gadgets/test/mod.rs: pretty_print", "src/gadgets/test/mod.rs: proc_lc"]}
{"id": "C64", "title": "A prover who sees the parameters and proves without a witness betrays discrete logarithms", "statement": "Provers may choose the public inputs and the coefficients of the proof elements after seeing the generators and the parameters (the algebraic group model). For inputs and coefficients that do not contain a witness there is a non-zero polynomial of degree at most D = 3m + 1 + 2 (1 + inputs + auxiliaries) (m - 1) in the trapdoors, depending only on circuit, inputs and coefficients, that vanishes at the trapdoors of all parameters for which verify_proof accepts. From this a reduction: given the powers z^i g1 (i <= 2m + 1) and z^i g2 (i <= m) of an unknown z it makes parameters with trapdoors a z + b, runs the prover once and lists at most D candidates; z is among them with at least the probability that the prover succeeds without a witness on parameters made by generate_parameters from random trapdoors, less (D + 1)/|F|. For batches the loss is larger by 1/(|F| - 1) for verify and 8/(|F| - 1) for verify_multicore.", "quantifier": "all circuits, engines over a prime field, workers, generators, provers (arbitrary functions of generators and parameters), unknowns z, batch sizes, reduction trees", "why_tests_cant": "No test can quantify over provers; an accepted forgery is found only by someone who knows how to make one.", "anchors": ["groth16/src/generator.rs: generate_parameters", "groth16/src/verifier.rs: verify_proof", "groth16/src/verifier/batch.rs: verify, verify_multicore"]}
{"id": "C65", "title": "Any number of proofs, chosen adaptively, reveal nothing but the public inputs", "statement": "A simulator who knows the trapdoors and is told only the public inputs makes proofs from two random scalars; verify_proof accepts all of them, whether or not the statement is true. For every satisfied circuit the proofs of create_proof, as a function of the blinding factors, are those of the simulator up to a permutation of the factors. So whoever asks for any number of proofs, choosing each statement and even each witness after seeing the earlier proofs, sees exactly the distribution of transcripts of the simulator. For MiMC: except for 1985269/|F| of the trapdoors setup succeeds and proofs of adaptively chosen preimages reveal nothing but the images.", "quantifier": "all circuits, engines over a prime field, workers, generators, trapdoors, adversaries (arbitrary functions of the proofs seen), numbers of proofs", "why_tests_cant": "Zero knowledge is a statement about distributions and about all adversaries; a test sees single proofs.", "anchors": ["groth16/src/prover.rs: create_proof", "groth16/src/generator.rs: generate_parameters", "groth16/src/verifier.rs: verify_proof", "groth16/tests/mimc.rs"]}
{"id": "C66", "title": "Gadgets leave the prover no choice: every allocated variable is determined", "statement": "Two assignments that satisfy the constraints of a gadget and agree on its operands agree on every variable the gadget allocates, intermediate ones included: boolean and number gadgets, strict bit decomposition, lookups, packing into inputs, word operations with carries, SHA-256 and BLAKE2s. In the test constraint system, overwriting any variables a gadget allocated leaves the system satisfied iff the old values are restored. to_bits_le is an exception: numbers with a second representation have two decompositions. For the documentation's circuit and MiMC the satisfying assignments for a given public input correspond one-to-one to the preimages; SHA-256 and BLAKE2s circuits of any message length have exactly one witness for each message.", "quantifier": "all prime fields, operands, messages of any length, pairs of satisfying assignments, sequences of overwrites", "why_tests_cant": "Unit tests flip single bits of single runs; a forgotten constraint on an intermediate variable shows only for the right values.", "anchors": ["src/gadgets/boolean.rs", "src/gadgets/num.rs", "src/gadgets/lookup.rs", "src/gadgets/multipack.rs", "src/gadgets/uint32.rs", "src/gadgets/multieq.rs", "src/gadgets/sha256.rs", "src/gadgets/blake2s.rs", "src/gadgets/test/mod.rs: set, is_satisfied", "src/lib.rs: documentation circuit", "groth16/tests/common/mod.rs: MiMCDemo"]}
{"id": "C67", "title": "The unit tests of the gadgets pass, for all the values they could have used", "statement": "Written down statement by statement, the unit tests of num.rs, lookup.rs, multipack.rs, boolean.rs and test/mod.rs pass on the model: nothing panics, no unwrap fails, every assertion holds, including those that overwrite a variable and expect the system to be unsatisfied (or a named constraint to be the first broken one). Tests that draw random values pass for every draw (test_into_bits fails iff the two numbers drawn are equal; test_synth passes for windows of every size; test_multipacking for bit lists of every length). Tests about fixed numbers pass exactly for the numbers for which the test's expectation is right.", "quantifier": "all field elements, bits, tables, lists of bits and window sizes in place of the numbers drawn or written in the tests; for the tables of operand kinds all combinations", "why_tests_cant": "A run of the tests tries fifty or a hundred draws from a fixed seed; the theorems replace the draws by all values and say exactly which numbers make a test fail.", "anchors": ["src/gadgets/num.rs: mod test", "src/gadgets/lookup.rs: mod test", "src/gadgets/multipack.rs: test_multipacking", "src/gadgets/boolean.rs: mod test", "src/gadgets/test/mod.rs: test_cs"]}
{"id": "C68", "title": "The unit tests of 32-bit words and of the hash functions pass, for all the values they could have used", "statement": "Written down statement by statement, the unit tests of uint32.rs, sha256.rs and blake2s.rs pass on the model for every draw: words and bits, data of every length (the references are the independent specifications), 512 bits of a full block with exactly the number of constraints asserted, any number of leading constant blocks. The tests with written hashes pass exactly if the written hash is the specified one (for the 256 and 700 byte tests: its beginning), and the hashes written in the code, including those for data from the xorshift generator, are. Beyond the tests: an output bit of SHA-256 or BLAKE2s is a constant only if all input bits are.", "quantifier": "all words, bits, byte strings of any length and expected hashes in place of what is drawn or written in the tests; all inputs with at least one variable", "why_tests_cant": "The tests draw fifty or a thousand words from a fixed seed, try byte strings up to 255 bytes, beyond 32 only of lengths divisible by 8, and compare with three written hashes.", "anchors": ["src/gadgets/uint32.rs: mod test", "src/gadgets/sha256.rs: mod test", "src/gadgets/blake2s.rs: mod test"]}
{"id": "C69", "title": "The unit tests of transforms, multiexponentiation, errors and serialization pass exactly under stated conditions on the draws", "statement": "Written down statement by statement: polynomial_arith passes if and only if the product of the polynomials fits the field; fft_composition if and only if the number of coefficients is a power of two that fits; test_with_bls12 if and only if there are as many bases as exponents and no identity is multiplied by more than zero; test_log2_floor exactly for right pairs; the error strings are never empty, contain that of the operating system, and tell errors apart. parallel_fft_consistency with any function in place of parallel_fft passes if and only if that function is right with as many tasks as coefficients, for up to four coefficients; from eight coefficients on the test accepts every function. serialization passes, after setup under all but 52 of |F| trapdoors, with exactly 2136 and 192 bytes, for all draws but a fraction of 5 per |F| and turn; a turn passes if and only if no proof element is the identity and the product differs from the first factor.", "quantifier": "all coefficient lists, workers, exponents, bases, error values, trapdoors, factors and blinding; any number of turns", "why_tests_cant": "The tests draw a few values of fixed sizes from a generator; they cannot say for which draws they would fail, nor which wrong programs they would accept.", "anchors": ["src/domain.rs: polynomial_arith, fft_composition, parallel_fft_consistency", "src/multiexp.rs: test_with_bls12", "src/multicore.rs: test_log2_floor", "src/lib.rs: Display for SynthesisError and VerificationError, mod test", "groth16/src/lib.rs: test_with_bls12_381::serialization"]}
{"id": "C70", "title": "Parameters identify the constraint matrices of the circuit; the verifying key alone does not", "statement": "Two circuits whose constraints have the same total coefficient of every variable in the same place (whatever names, order, duplicates or zero terms) get equal parameters, or the same error, from the same trapdoor, and accept the same assignments. If the matrices, the numbers of variables or the size of the domain differ, then the trapdoors at which both circuits get parameters with the same ic, l and length of h are at most m |F|^4 of |F|^5; so are those at which the written parameter files are equal, and hence any two circuits that disagree on a single assignment get different parameters at all other trapdoors. The verifying key alone does not identify the circuit: x^2 = x and x^2 = 2 x get the same verifying key at every trapdoor at which both are generated, which is almost every one.", "quantifier": "all pairs of circuits, trapdoors, generators, workers", "why_tests_cant": "Counts over all trapdoors and compares arbitrary pairs of circuits.", "anchors": ["groth16/src/generator.rs: generate_parameters", "groth16/src/lib.rs: Parameters, Parameters::write, PartialEq"]}
{"id": "C71", "title": "A proof made with the key of another circuit convinces only of that other circuit", "statement": "create_proof does not check that parameters belong to the circuit. Whatever the parameters, the proof it returns combines their elements with coefficients that depend only on the prover's circuit, witness and blinding factors. A proof made by the prover of one circuit with the key of another is accepted for inputs xs only if xs and the prover's auxiliary variables satisfy the constraints of the key's circuit, except for a fraction D/|F| of the trapdoors, D explicit in the size of the key's circuit. It is returned only if the parameters have room for the prover's variables and domain. A key serves every circuit with the same constraint matrices, however written: proofs with a satisfying witness are accepted.", "quantifier": "all pairs of circuits, witnesses, blinding factors, public inputs, workers; all parameters", "why_tests_cant": "Compares arbitrary pairs of circuits and counts over all trapdoors; a test can only try one mismatched key.", "anchors": ["groth16/src/prover.rs: create_proof", "groth16/src/generator.rs: generate_parameters", "groth16/src/verifier.rs: verify_proof"]}
{"id": "C72", "title": "create_proof trusts its parameters: a shifted key makes proofs leak the witness", "statement": "Zero knowledge (C34, C65) needs honest parameters. If the elements l of any parameters are shifted by known multiples d_i of the generator, create_proof returns the same proof with (sum d_i z_i) times the generator added to its third element, z_i being the auxiliary variables. For a satisfying witness, anybody who holds the untampered verifying key can test a guess for the sum: subtracting the guess makes verify_proof accept exactly if the guess is right. Shifting a single element by the generator makes the answer of verify_proof tell whether that variable is zero; with the parameters of test_xordemo it tells the two witnesses of the same statement apart, for all blinding factors. So a prover that calls verify_proof before publishing notices the shift, exactly unless the sum vanishes.", "quantifier": "all circuits, witnesses, parameters, shifts, blinding factors, workers, engines", "why_tests_cant": "A security statement about adversarial parameters and all blinding factors; tests use honest parameters.", "anchors": ["groth16/src/prover.rs: create_proof", "groth16/src/verifier.rs: verify_proof", "groth16/src/tests/mod.rs: test_xordemo"]}
{"id": "C73", "title": "What verification costs does not depend on the proofs, and what batching saves", "statement": "verify_proof with l inputs uses three pairs in one Miller loop, one final exponentiation and l scalar multiplications. BatchVerifier::verify for n proofs uses n + 3 pairs in one Miller loop, one final exponentiation, 2n + l + 2 scalar multiplications, and draws from the generator exactly until n values other than zero have been seen. verify_multicore uses n + 3 pairs in c + 1 Miller loops, c additions of their results, one final exponentiation and 2n + l + 2 scalar multiplications, where c is n/8 rounded up, for every reduction tree; nothing for an empty batch. These numbers are the same whether the proofs are valid or not; a wrong number of inputs is rejected without any of these operations. So a batch takes fewer pairs and final exponentiations exactly from two proofs on, but never fewer scalar multiplications if there are at most two inputs, and with three inputs only from six proofs on. In bench_batch_verify every turn verifies valid proofs, with the numbers above, for all draws and all but a fraction 1985269/|F| of the trapdoors.", "quantifier": "all engines, keys, proofs, inputs, batches, draws, reduction trees", "why_tests_cant": "Counters of internal operations are not observable in tests, and independence of the data is a statement about all data.", "anchors": ["groth16/src/verifier.rs: prepare_verifying_key, verify_proof", "groth16/src/verifier/batch.rs: Item::verify_single, Verifier::verify, Verifier::verify_multicore", "groth16/benches/batch.rs: bench_batch_verify"]}
{"id": "C74", "title": "How many group operations a multiexponentiation takes, and that they depend on the exponents only through their digits", "statement": "A multiexp that succeeds with windows of c bits adds a base exactly once for every nonzero base-2^c digit of a queried exponent, and makes besides exactly 2(2^c - 1) + 1 additions and c doublings per window, whatever the exponents, bases and number of threads; there are NUM_BITS/c windows, rounded up. So it never adds more bases than queried exponents times windows, and with n >= 32 exponents takes at most 5n group operations per window, with at most NUM_BITS/ln(n) + 1 windows. bench_parts computes, for any 2^16 exponents and non-identity bases in a 255 bit field, the sum of the products with 22 windows, at most 1441792 additions of bases, exactly 180202 other additions and 264 doublings.", "quantifier": "all bases, exponents, densities, workers; all numbers of exponents below 2^32", "why_tests_cant": "Counts of internal operations are not observable in tests, and the bounds are over all exponents and sizes.", "anchors": ["src/multiexp.rs: multiexp, multiexp_inner", "benches/slow.rs: bench_parts"]}
{"id": "C75", "title": "Seeing proofs of other statements does not help to prove a new one", "statement": "Take a circuit, any number n of proofs made by create_proof from witnesses of n statements, and a statement different from all of these. Consider a prover who combines the elements of the parameters, the generators and the elements of the n proofs linearly, with coefficients chosen without knowing trapdoors and blinding factors. Either the coefficients of the l elements of the parameters in its third element are a witness of the new statement, or verify_proof rejects the combined proof for all but a fraction (D + 3)/|F| of the trapdoors and blinding factors, D as in C42. The same holds if the proofs seen are simulated, even of false statements. If the new statement has no witness, the prover therefore fails. For a statement that was proved to them provers without a witness do succeed: they copy the proof. For MiMC: whoever, having seen any number of proofs, proves knowledge of a preimage of another image has one in their coefficients, up to 1326838/|F|.", "quantifier": "all circuits, numbers of proofs seen, public inputs, witnesses of the statements seen, linear strategies; counting over all trapdoors and blinding factors; all workers and pairing engines", "why_tests_cant": "It is a claim about all strategies and a fraction of all trapdoors and blinding factors; no test can enumerate these.", "anchors": ["groth16/src/prover.rs: create_proof", "groth16/src/generator.rs: generate_parameters", "groth16/src/verifier.rs: verify_proof"]}
{"id": "C76", "title": "The blinding factors are needed, both of them, and fresh for every proof", "statement": "create_proof takes its blinding factors r and s as arguments. Take two proofs made with the same generated parameters from two witnesses of the same circuit. If the same r is used, the first elements of the proofs are equal if the two witnesses have the same public inputs and give the left factors of all constraints the same values, and different if they do not give them the same values, for all but m - 1 values of tau (m the size of the domain), whatever s, the other trapdoors, the generators and the workers are. The same holds for s, the second elements and the right factors. If both are the same, and the witnesses satisfy the circuit for the same public inputs and give all factors the same values, the proofs are equal. So whoever knows the factors recognises the right guess of a witness by running create_proof on it, and a prover who uses a factor twice shows whether the witness is the same. With both factors secret no guess is excluded: every witness of the statement explains the proof with exactly one pair of factors. For MiMC different preimages give different first elements for all but 1023 values of tau. In the setup of test_xordemo, who knows s alone reads both secret bits off the second element.", "quantifier": "all circuits, pairs of witnesses, parameters, blinding factors and workers; counting over all values of tau", "why_tests_cant": "The unit test fixes r and s and checks one proof; that the factors hide, and that they are indispensable, are claims about all witnesses, factors and trapdoors.", "anchors": ["groth16/src/prover.rs: create_proof, create_random_proof", "groth16/src/generator.rs: generate_parameters", "groth16/tests/common/mod.rs: MiMCDemo", "groth16/src/tests/mod.rs: test_xordemo"]}
{"id": "C77", "title": "Weak keys are not refused: with equal gamma and delta, with alpha or beta zero, or with tau known, anybody proves anything", "statement": "Soundness (C42, C64) is about random trapdoors that nobody knows. For every verifying key, the proof made of alpha_g1, beta_g2 and -c times the combination of the ic elements with the public inputs is accepted by verify_proof exactly if gamma_g2 = c delta_g2 or that combination is the identity: who knows the ratio of gamma and delta proves every statement from the verifying key alone. If alpha_g1 or beta_g2 is the identity, and only then, the combination itself, gamma_g2 + s delta_g2 and s times the combination are a proof of every statement, for every s. generate_parameters refuses none of this: if it succeeds for some gamma it also succeeds for gamma = delta. Among the trapdoors generate_random_parameters can draw at most the fraction 3/|F| is of these kinds. Who knows tau, and no other trapdoor, proves every statement with any values for the auxiliary variables from the parameters, unless tau^m = 1. In the setup of test_xordemo the false statement [2] is proved in each of the three ways, and the first two fail with the trapdoors of the test.", "quantifier": "all verifying keys, engines, circuits, trapdoors, workers, public inputs; counting over all trapdoors", "why_tests_cant": "The tests use one good key; acceptance of forged proofs for every statement and key is a claim about the verification equation.", "anchors": ["groth16/src/verifier.rs: verify_proof, prepare_verifying_key", "groth16/src/generator.rs: generate_parameters, generate_random_parameters", "groth16/src/tests/mod.rs: test_xordemo"]}
{"id": "C78", "title": "The number of field operations of a transform and of the quotient is a function of size and thread count only", "statement": "Count the operations of src/domain.rs while it runs. For every vector and root, serial_fft of 2^l elements takes l 2^(l-1) multiplications of elements, twice as many additions and subtractions, l 2^(l-1) multiplications of roots and l powers, and with the counter returns exactly what it returns without. best_fft with 2^c <= threads < 2^(c+1) takes as many if l <= c, and otherwise 2^c tasks, each with 2^l + (l-c) 2^(l-c-1) multiplications. The quotient of create_proof, for three vectors of the same length that fit a domain, takes seven transforms of n elements (n the least power of two not below the length), 10 n further multiplications, n subtractions, 4 n multiplications for powers of the generator, 3 (S - log n) squarings and ten inversions. All threads together take 2^(l+c) - c 2^(l-1) multiplications more than a serial transform. A build without multicore, or with one thread, runs parallel_fft with a single task and so takes n multiplications and n additions more than serial_fft. No number of threads speeds a transform up by more than l/2; every number of threads of at least two and fewer than elements helps from sixteen elements on.", "quantifier": "all vectors, roots, sizes, thread counts, schedules, prime fields and groups", "why_tests_cant": "Tests compare results, never the number of operations; best_fft taking the slow path for one thread is invisible to them.", "anchors": ["src/domain.rs: best_fft, serial_fft, parallel_fft, EvaluationDomain", "src/multicore.rs: Worker::scope, Worker::log_num_threads", "groth16/src/prover.rs: create_proof"]}
{"id": "C79", "title": "The number of operations of create_proof is fixed but for additions of bases, and those depend on the witness", "statement": "Count the field and group operations of create_proof while it runs. With the counter it returns exactly what it returns without, errors and panics included. When it returns a proof, it takes the field operations of the quotient, six multiplications and ten additions in G1 and one multiplication and three additions in G2 to put the answers together, the additions and doublings of six multiexponentiations in G1 and two in G2 that depend only on the number of variables and the size of the domain, and one addition of a base for every digit other than zero of: each input (A), each auxiliary variable in a left factor (A), each variable in a right factor (once in G1, once in G2), each coefficient of the quotient (H), each auxiliary variable (L). So two proofs with the same parameters and thread count, whatever the statements, witnesses and blinding factors, take the same operations except for additions of bases. These differ: in the circuit of test_xordemo the number of additions of bases in G2 is the number of private bits that are set, so it tells the witnesses (0,0) and (1,1) of the same public input 0 apart, although their proofs have the same distribution.", "quantifier": "all circuits, parameters, witnesses, blinding factors, thread counts, schedules, prime fields and groups", "why_tests_cant": "Tests do not count operations, and a dependence of the running time on secrets is invisible in the results.", "anchors": ["groth16/src/prover.rs: create_proof", "src/multiexp.rs: multiexp, multiexp_inner", "src/domain.rs: EvaluationDomain"]}
{"id": "C80", "title": "Making parameters takes a known number of operations, which depends on the trapdoors only through the variables left out of the queries", "statement": "Counting the operations of `generate_parameters` does not change its result, for any circuit and any outcome. When it succeeds, the number of its field operations depends only on the circuit and the number of threads: one multiplication of scalars for every term of every linear combination and for every input (the extra constraints), three for every variable, one inverse transform, `m` powers of tau (one `pow` for each chunk), `m - 1` exponents for the H query, five inversions, and the squarings that find the root of unity. With generators other than the identity it multiplies through the window table of G1 exactly once for each element of `h`, `ic`, `l`, `a` and `b_g1`, through the table of G2 exactly once for each element of `b_g2`, never for elements that are then filtered out, and makes three plain multiplications in each group for the verifying key. The numbers announced to `Wnaf::base` are upper bounds, attained exactly if no variable's evaluated left or right polynomial (for G2: right polynomial) is zero. Two runs for the same circuit and number of threads with different toxic waste differ only in multiplications through the tables, and not even in these if tau is the same.", "quantifier": "all circuits, generators, trapdoors, workers and schedules", "why_tests_cant": "tests neither count operations nor vary toxic waste; a wrong window size or a skipped or doubled exponentiation changes only running time", "anchors": ["groth16/src/generator.rs:159-507", "groth16/src/generator.rs:209-226", "groth16/src/generator.rs:250-296", "groth16/src/generator.rs:310-462"]}
{"id": "C81", "title": "The random weights of a batch must be unpredictable, and no better bound than C36 holds", "statement": "Anybody who knows in advance the weights that `verify` or `verify_multicore` will draw makes a batch of two or more proofs of arbitrary statements pass, computing the proofs from the verifying key and the weights alone; for a single proof the weight does not matter. The bounds on the number of weights that let an invalid batch pass are attained: given one valid proof and an element whose pairing with delta is not trivial, for every n there is a batch of n + 2 with two invalid items that `verify` accepts for exactly (p - 1)^(n + 1) of the (p - 1)^(n + 2) vectors of weights, and a batch of sixteen that `verify_multicore` accepts for exactly 8 (p - 1) of the (p - 1)^2 pairs of chunk weights, if the field has eight eighth roots of unity. A batch of at most eight items, not all valid, is accepted by `verify_multicore` for fewer weights than it has items, and any set of up to seven weights is the set of accepting weights of some such batch. The result of `verify` does not depend on the order of the items, if each keeps its weight.", "quantifier": "all engines, verifying keys, statements, batch sizes, tapes, reduction trees", "why_tests_cant": "tests draw weights from a good generator, so neither a predictable generator nor the exact number of bad weights is visible", "anchors": ["groth16/src/verifier/batch.rs:100-173", "groth16/src/verifier/batch.rs:124-129", "groth16/src/verifier/batch.rs:182-286", "groth16/src/verifier/batch.rs:218-237"]}
{"id": "C82", "title": "Every elementary gadget has an exactly known size, and constants are made use of, with one exception", "statement": "Whenever a gadget succeeds it has made a number of variables and constraints that does not depend on the witness. `Boolean::xor` and `and` make one gate if the result depends on both operands once constants are filled in, and none otherwise; `sha256_maj` one less than the number of operands on which it depends; `sha256_ch` one if it depends on two or three; in each case the result is a constant exactly if it depends on none. The exception is `sha256_ch` with the constant true as first operand and two others that are not constant: the result is the second operand, and a gate is spent on a copy. The same holds for every bit of the operations on words. `addmany` costs one gate for each bit that the sum of that many words may have and one constraint, and nothing for constants. Decomposing a number costs NUM_BITS + 1 constraints, and strictly NUM_BITS plus the number of ones in the binary form of p - 1 (388 for BLS12-381). `mul`, `square`, `assert_nonzero` cost one constraint, `conditionally_reverse` two, `inputize` one without auxiliary variable, `enforce_equal` one unless both are constants; `lookup3_xy` two and `lookup3_xy_with_conditional_negation` one, more by one if the product of two bits is needed; `pack_into_inputs` one for each CAPACITY bits begun.", "quantifier": "all fields, operands (variables, negations, constants in all combinations), witnesses, constraint systems", "why_tests_cant": "tests count the constraints of a few whole hashes for one input each; for single gadgets they check no count except zero for constants", "anchors": ["src/gadgets/boolean.rs:464-512", "src/gadgets/boolean.rs:515-743", "src/gadgets/num.rs:70-219", "src/gadgets/num.rs:221-357", "src/gadgets/uint32.rs:204-408", "src/gadgets/lookup.rs:31-186", "src/gadgets/multipack.rs:11-37"]}
{"id": "C83", "title": "Files are read and written the same however the bytes travel, and a false length costs no work", "statement": "Over a reader or writer that transfers any number of bytes per call, is interrupted, or fails: `read` of a proof, a verifying key or parameters gives the value or the complaint that it gives on the bytes the reader delivers before it first stops, leaves what follows unread and does not meet the stop; if those bytes are too few it gives the reader's own error, or the end of the input, and the reader then stands behind its stop. `read` never panics. A successful `read` decodes one point per element of the result, and any `read` at most as many points as the bytes it consumed can hold, whatever lengths are announced. `write` succeeds exactly if the writer takes the whole file before it stops, and then the file has arrived; otherwise what was taken has arrived and the writer's error is reported. A file that was written successfully is read back from every stream that begins with it, in whatever pieces. The outcome of `read` and the number of points it decodes depend only on the bytes delivered and the reason of the stop, not on how they are cut into pieces.", "quantifier": "all readers and writers (sequences of partial transfers, interruptions, zero-length transfers and errors), all points, encodings, files, announced lengths", "why_tests_cant": "tests read from and write to byte vectors in memory, which transfer everything at once and never fail", "anchors": ["groth16/src/lib.rs:39-99", "groth16/src/lib.rs:143-218", "groth16/src/lib.rs:258-397"]}
{"id": "C84", "title": "Sizes and indices never overflow their machine integers", "statement": "With `u32`, `u64` and 64-bit `usize` in place of unbounded numbers, where an overflow panics in a debug build and wraps around in a release build: building a domain from at most 2^63 coefficients, `serial_fft`, the four transforms of a domain of fewer than 2^64 elements with fewer than 2^63 threads, `multiexp`, and `UInt32::addmany` have the same outcome in both builds, namely the one they have with unbounded numbers; so the transforms of a domain of fewer than 2^32 elements evaluate at the powers of omega and undo each other across builds and workers. `log2_floor` gives the logarithm for every positive number below 2^63 and does not return above. A multiexp window of fewer than 64 bits is enough, one of 64 bits panics.", "quantifier": "all builds, vectors, domains, roots, workers and schedules, bases, densities, exponents, operands, numbers of threads", "why_tests_cant": "tests run one build on small inputs, far from every limit of the integer types", "anchors": ["src/multicore.rs:29-31", "src/multicore.rs:120-130", "src/domain.rs:47-129", "src/domain.rs:261-376", "src/multiexp.rs:210-340", "src/gadgets/uint32.rs:308-414"]}
{"id": "C85", "title": "MultiEq and the hash gadgets with machine integers", "statement": "With counters of 64 bits, where an overflow panics in a debug build and wraps around in a release build: in a debug build `MultiEq` is sound for every sequence of `enforce_equal` calls and every number of bits; in a release build it is sound if every number of bits stays more than CAPACITY below 2^64, and then both builds are the very program of the unbounded model. The bound is needed: in a release build two calls whose bit counts add up to 2^64 emit no constraint at all, so both equalities are lost, where the debug build panics. `sha256` and `blake2s` do not overflow on messages that fit a slice.", "quantifier": "all builds, all sequences of calls interleaved with other use of the constraint system, all numbers of bits, linear combinations, assignments and messages", "why_tests_cant": "the overflow needs absurd bit counts and shows only in release builds, while tests run debug builds with small counts", "anchors": ["src/gadgets/multieq.rs:24-65", "src/gadgets/sha256.rs:47-74", "src/gadgets/blake2s.rs:315-377"]}
{"id": "C86", "title": "Key generation and proving with machine integers", "statement": "With sizes and indices of 64 and 32 bits, where an overflow panics in a debug build and wraps around in a release build, `generate_parameters` and `create_proof` do exactly what the model with unbounded numbers does, whatever their outcome, for every circuit with at most 2^63 constraints and fewer than 2^64 variables and fewer than 2^63 threads. So on the machine too, in any mix of builds, proofs of satisfied circuits are accepted, and proofs from unsatisfied assignments are rejected for all but 2m - 2 values of the secret tau. With 2^63 threads or more no proof is made.", "quantifier": "all circuits within the bounds, all trapdoors, generators, blinding factors, engines, builds, thread counts and schedules", "why_tests_cant": "sizes near the limits of machine words cannot be run, and wrapping shows only in release builds", "anchors": ["groth16/src/generator.rs:159-507", "groth16/src/prover.rs:182-361"]}
{"id": "C87", "title": "Counters of synthesis as machine integers", "statement": "With counters of 64 bits and vectors of at most isize::MAX bytes, synthesis for key generation yields what it yields with unbounded numbers whenever the constraints (those for the inputs included) are fewer than 2^64 and 24 bytes for each input, and for each other variable, are fewer than 2^63; an error reported on the machine is the circuit's own. The counters of variables never wrap around in any build, because a vector reaches its limit first. The counter of constraints has no such protection: a debug build panics, a release build never stops and counts modulo 2^64, so that a circuit of 2^64 - 1 empty constraints is taken to have none. Key generation with all of these words either panics or does what it does with unbounded numbers, for every circuit of at most 2^63 constraints, so proofs of satisfied circuits made with its keys are accepted.", "quantifier": "all circuits, fields, builds, trapdoors, thread counts below 2^63 and schedules", "why_tests_cant": "2^64 constraints cannot be synthesised in a test; wrapping shows only in release builds", "anchors": ["groth16/src/generator.rs:31-155", "groth16/src/generator.rs:159-202"]}
{"id": "C88", "title": "Key generation and proving on the machine, for circuits of any size", "statement": "With words for all counters, sizes and indices, vectors of at most isize::MAX bytes and bit vectors of at most 2^61 - 1 bits, `create_proof` either panics or does what it does with unbounded numbers, for every circuit of whatever size. A circuit with more constraints than fit a vector of field elements makes it panic in every build. Hence a key and a proof that a machine has really made, in any mix of builds, are those of unbounded arithmetic, even though the count of constraints in key generation may wrap around: proofs of satisfied circuits are accepted, and proofs from unsatisfied assignments are rejected for all but 2m - 2 values of the secret tau, with no bound on the circuit or on the number of threads (with 2^63 threads or more neither a key nor a proof is made).", "quantifier": "all circuits, all sizes of field elements, builds, trapdoors, generators, blinding factors, engines, thread counts and schedules", "why_tests_cant": "circuits that reach the limits of vectors or words cannot be run", "anchors": ["groth16/src/prover.rs:73-162", "groth16/src/prover.rs:182-361", "groth16/src/generator.rs:159-507", "src/multiexp.rs:139-157"]}
{"id": "C89", "title": "From key generation to verification across machines and streams", "statement": "One party generates a key with machine words and writes the parameters and the verifying key; a second reads the parameters, with or without checks, from a stream that begins with the bytes that arrived, in whatever pieces and with whatever interruptions, makes a proof with the key it has read, and writes it; a third reads the verifying key and the proof. Whenever all these calls return successfully, what was read is what was written, and it is what unbounded arithmetic gives: the third party accepts if the circuit is satisfied, and rejects if the assignment is unsatisfied unless tau is one of at most 2m - 2 values determined by the assignment. Nothing is assumed about the elements that are stored: an identity among them makes reading fail.", "quantifier": "all circuits with sizes below 2^32, field element sizes, builds, workers, codecs, writers, readers, trailing bytes, trapdoors, generators, blinding factors and engines", "why_tests_cant": "tests run one schedule, in one process, with readers and writers that transfer everything at once", "anchors": ["groth16/src/generator.rs:159-507", "groth16/src/prover.rs:182-361", "groth16/src/lib.rs:39-99", "groth16/src/lib.rs:143-218", "groth16/src/lib.rs:258-397", "groth16/src/verifier.rs:23-57"]}
{"id": "C90", "title": "Verification with machine words", "statement": "`verify_proof`, `Verifier::verify` and `Verifier::verify_multicore` add one to the number of inputs in a word of 64 bits. For inputs that fit a slice all three do in both builds what they do with unbounded numbers; and even if only the lengths had to fit a word, `verify_proof` would accept nothing that is not accepted. Together with machine-made keys and proofs passed over streams: the verifier, on a machine too, accepts proofs of satisfied circuits and rejects proofs from unsatisfied assignments for all but at most 2m - 2 values of tau. A batch of such proofs, from any number of parties, is accepted for all weights, on one thread and on several; with one proof among them that is not valid it is rejected for all weights.", "quantifier": "all builds, engines, keys, proofs, inputs, batches, draws and reduction trees", "why_tests_cant": "slices near the limits of the address space cannot be allocated", "anchors": ["groth16/src/verifier.rs:23-58", "groth16/src/verifier/batch.rs:100-173", "groth16/src/verifier/batch.rs:182-286"]}
