# Design: a Lean 4 model of bellman and groth16

Sources: `/repo` (zkcrypto/bellman, pinned commit).  Everything below is about that text; the
Rust code was read, never built or run.

## 1. Trusted base

* The Lean 4.33 kernel; the Mathlib definitions used in statements (fields, modules, `ZMod`,
  `BitVec`, `List`, `Finset` sums, `Polynomial`, `IsPrimitiveRoot`, `Nat.card`).
* Axioms: every theorem depends on a subset of `propext`, `Quot.sound`, `Classical.choice` (Lean's
  standard three) and on nothing else.  No axiom is declared, there is no `sorry`, no
  `native_decide`, no `bv_decide`.  `decide` and `decide +kernel` are used only for concrete facts (constants, examples,
  primality certificates, the count of one compression function) and for finite case splits over booleans.
* The reading of Rust into the model.  Each definition carries a comment with file and lines and
  says where it simplifies.
* The contracts of the external crates, which are assumed as structures/classes (so they are
  hypotheses, never axioms):
  * `ff::PrimeField` — class `PrimeField` in `Verif/Field.lean`: a field of odd prime order `p`,
    canonical integer representation, `NUM_BITS` = bit length of `p`, `CAPACITY = NUM_BITS - 1`,
    `ROOT_OF_UNITY` a primitive `2^S`-th root, `MULTIPLICATIVE_GENERATOR` generating the unit group, and
    `2^S` the exact power of two in `p - 1`.  `Verif/FieldInstances.lean` has instances for the 16-bit
    dummy field of `groth16/src/tests/dummy_engine.rs` and for the BLS12-381 scalar field (primality
    by a Pratt certificate), so the class is inhabited.
  * `group`, `pairing` — `Engine` in `Verif/Groth16/Keys.lean`: groups of order `p` are modules over
    `F`, cyclic; the pairing is `F`-bilinear and non-degenerate; `multi_miller_loop` followed by
    `final_exponentiation` is the sum of the pairings, and `final_exponentiation` is additive.
    Affine/projective/prepared forms of one element are identified; wNAF is scalar multiplication;
    `batch_normalize` is the identity on elements.  `fieldEngine` (the dummy engine) inhabits it.
  * point encodings — `PointCodec` in `Verif/Groth16/Serialize.lean`: fixed-length codecs, decoding inverts
    encoding on valid points, decoders accept canonical encodings only, the unchecked decoder extends the
    checked one.  Inhabited by `byteCodec` in the examples.
  * `rayon`, channels, atomics — a scope runs its tasks under an arbitrary interleaving of their steps
    (`runSched`), `reduce` uses an arbitrary order-preserving binary tree with identities (`ReduceTree`),
    atomics are linearizable, `rayon::spawn`ed panics abort the process.
  * random number generators — a tape: the list of values that successive draws return, arbitrary.
  * `std` — `Vec` as list, `BTreeMap`/`HashMap` as association lists; `usize` is unbounded unless a
    comment says that the model wraps (`Verif/Machine.lean` has domain, multiexp, multicore and `addmany` once more
    with machine words, `Verif/Groth16/Machine.lean` key generation and proving, and C84 and C86 show that nothing changes; C87 does so for the counters of synthesis, up to 2^64 constraints, and C88 without a bound for a key and a proof that were made); readers are byte lists, writers take a limited number of bytes, and in
    `Verif/Groth16/Stream.lean` both are sequences of partial transfers, interruptions and errors.

## 2. How circuits are modelled

`ConstraintSystem` is a trait; every gadget is a program against it.  A program is a term of the free
monad `Circ F α` with one node per trait call (`alloc`, `alloc_input`, `enforce`, `push_namespace`,
`pop_namespace`) and a `panic` leaf.  A witness closure is its result (`Except SynthesisError F`);
the continuation is told whether the implementation invoked the closure, because gadgets learn their
own value only as a side effect of that call.

An execution against *some* implementation is a trace (`Exec`): the variables handed out are chosen by
the implementation.  So

* **soundness** of a gadget: for every trace, every assignment `ρ : Variable → F` with `ρ(ONE) = 1` that
  satisfies the constraints of the trace (a malicious prover), the outputs have the specified values;
* **completeness**: for every trace in which the closures were invoked and every `ρ` that agrees
  with the values they returned, all constraints of the trace hold, no panic happens, no error is
  returned and the values carried by the output handles are the specified ones;
* **witness independence**: a relation between two programs (`Shape`) which forces equal calls.

`KeypairAssembly`, `ProvingAssignment`, `TestConstraintSystem` are implementations (interpreters) and
are related to traces.  `MultiEq` is a state transformer on top of `Circ`.  A panic is `none`, a
returned error is `Except.error`.

## 3. The properties

Specifications live in `Verif/Spec` and in the statements; they do not use the model's helper functions.
The exact theorem names are in `MANIFEST.json`; a theorem `Cnn_…` belongs to property `Cnn`.  Examples beside
the theorems instantiate their hypotheses.

Concrete cases: every `Verif/Props` file has examples on which its theorems apply; `Verif/Cases` applies the
remaining theorems one by one to concrete circuits, keys, batches, byte strings and schedules, so that no hypothesis is
unreachable.

| id | property | model (under `lean/Verif`) | how it is proved | theorems in |
|----|----|----|----|----|
| C01 | Linear-combination arithmetic is field arithmetic | LC.lean | induction on operator expressions | Props/Core |
| C02 | The prover's per-constraint values are exactly the values of the linear combinations | Groth16/Assignment.lean: `eval`, `ProvingAssignment` | induction on terms; simulation of programs | Props/Core |
| C03 | Key generation and proving see the same circuit | Groth16/{Assembly,Assignment}.lean, TestCS.lean as interpreters | relational induction on programs with related states | Props/Core |
| C04 | TestConstraintSystem decides satisfaction correctly | TestCS.lean | list induction; soundness transported to `set`-modified assignments | Props/TestCS |
| C05 | Namespaced names never collide and namespaces nest | TestCS.lean: `compute_path`, namespace stack | injectivity of the join; induction on programs | Props/TestCS |
| C06 | Boolean allocation is sound and complete | Gadgets/Boolean.lean | unfolding traces, field algebra | Props/Boolean |
| C07 | Boolean connectives compute their truth tables against a malicious prover | Gadgets/Boolean.lean | case split on handles, field algebra | Props/Boolean |
| C08 | sha256_ch and sha256_maj compute choice and majority | Gadgets/Boolean.lean | all arms of the match, field algebra | Props/Boolean |
| C09 | Field-number gadgets compute their functions | Gadgets/Num.lean | field algebra | Props/Num |
| C10 | Strict bit decomposition is unique | Gadgets/Num.lean: `to_bits_le_strict` | loop invariant over the runs of ones of p-1; integer comparison | Props/Num |
| C11 | Non-strict bit decomposition gives a congruent representation and nothing more | Gadgets/Num.lean: `to_bits_le` | digits in base 2; explicit second decomposition | Props/Num |
| C12 | Table lookups select the addressed entry | Gadgets/Lookup.lean | algebra over the bits for arbitrary tables | Props/Num |
| C13 | Multipacking agrees inside and outside the circuit and is injective | Gadgets/Multipack.lean | digits in base 2 bounded by CAPACITY; induction on chunks | Props/Num |
| C14 | Batched equality checks are as strong as individual ones | Gadgets/MultiEq.lean as state transformer | invariant: the accumulated equation implies all equalities | Props/Num |
| C15 | UInt32 operations are 32-bit machine operations | Gadgets/UInt32.lean | bit lists against `BitVec 32` and Nat mod 2^32 | Props/Hash |
| C16 | The sha256 gadget computes SHA-256 | Gadgets/Sha256.lean; Spec/Sha256.lean (FIPS 180-4) | refinement, induction over rounds and blocks | Props/Hash |
| C17 | The blake2s gadget computes BLAKE2s | Gadgets/Blake2s.lean; Spec/Blake2s.lean (RFC 7693) | refinement, induction over rounds and blocks | Props/Hash |
| C18 | Gadget circuits do not depend on the witness | all gadgets; Shape.lean | relational induction | Props/Witness |
| C19 | Evaluation domains have the right size or are refused | Domain.lean: `from_coeffs` | loop invariant | Props/Domain |
| C20 | fft evaluates the polynomial | Domain.lean: `serial_fft`, `parallel_fft` as written | loop invariants; decimation in time | Props/Domain |
| C21 | The parallel FFT does not depend on the number of threads or the schedule | Domain.lean, Multicore.lean | schedule independence of tasks; equality with the serial result | Props/Domain |
| C22 | Inverse transforms invert | Domain.lean | orthogonality of roots of unity | Props/Domain |
| C23 | Polynomial quotient on the coset | Domain.lean, Groth16/Quotient.lean | interpolation; polynomial division by X^m-1 | Props/Domain |
| C24 | Multiexponentiation computes the multi-scalar sum | Multiexp.lean | bucket summation; base-2^c digits; schedule independence | Props/Multiexp |
| C25 | Multiexponentiation fails exactly when it must | Multiexp.lean | characterisation of the error of each window | Props/Multiexp |
| C26 | Density trackers count exactly the marked elements | Density.lean | induction on the sequence of operations | Props/Multiexp |
| C27 | Work splitting covers every element exactly once | Multicore.lean and its users | partition lemma; schedule independence | Props/Multicore |
| C28 | Asynchronous computations deliver their own result exactly once and the backlog is bounded | Compute.lean: transition system | inductive invariants; termination measure | Props/Compute |
| C29 | Generated parameters are the Groth16 common reference string | Groth16/Generator.lean; Spec/Qap.lean | element-wise formulas through the parallel passes | Props/Setup |
| C30 | Groth16 completeness | generator + prover + verifier | QAP algebra in modules and a bilinear map | Props/Groth16 |
| C31 | create_proof succeeds whenever parameters are regular | Groth16/Prover.lean | densities match the filtered queries; exact outcome | Props/Groth16 |
| C32 | verify_proof decides the pairing equation | Groth16/Verifier.lean | bilinearity, non-degeneracy | Props/Groth16 |
| C33 | Unsatisfied assignments do not verify | prover + verifier | quotient of a non-multiple; root count | Props/Groth16 |
| C34 | Proofs reveal nothing about the witness | prover | explicit bijection of the randomness; simulator | Props/Groth16 |
| C35 | Batch verification accepts valid batches | Groth16/Batch.lean; Spec/Batch.lean | linear combination of defects | Props/Batch |
| C36 | Batch verification rejects invalid batches except for few random tapes | Groth16/Batch.lean; Spec/Batch.lean | linear form / polynomial in the weights; root counting | Props/Batch |
| C37 | Serialization round-trips | Groth16/Serialize.lean; Spec/Encoding.lean | round-trip lemmas | Props/Serialize |
| C38 | Malformed serializations are refused | Groth16/Serialize.lean | prefix lemmas, inversion of readers | Props/Serialize |
| C39 | Circuits without auxiliary variables can be set up | both `multicore` configurations | evaluation to the panic value; existence | Props/Setup |
| C40 | TestConstraintSystem's circuit hash depends only on the constraint relation's normal form | TestCS.lean: `proc_lc`, `hash_lc`; TestHash.lean: `hash` | sorted association lists are canonical; prefix-free bytes; hexadecimal digits are injective | Props/TestCS, Props/TestHash |
| C41 | Only dropping a Waiter early aborts the process | Compute.lean | inductive invariant; explicit executions | Props/Compute |
| C42 | An algebraic prover that convinces the verifier knows a witness | Generator, Verifier, Prover; provers are described by coefficient vectors (Spec/Strategy.lean) | verification equation as a polynomial in the five trapdoors; Schwartz–Zippel (Mathlib) if it is not zero, comparison of coefficients in F[τ][α][β][γ][δ] if it is | Props/Knowledge |
| C43 | Gadgets mention only allocated variables and expose no public input | all gadgets; KeypairAssembly, ProvingAssignment; which variables a handle mentions (Spec/Scope.lean) | weakest precondition over the two variable counts (Scope.lean), one lemma per gadget (Proofs/Scope*.lean), then executions | Props/Scope |
| C44 | The example of the crate documentation proves knowledge of a SHA-256d preimage | MyCircuit and sha256d of the crate documentation (Examples/Preimage.lean); SHA-256d on bytes (Spec/Sha256d.lean) | gadget specifications composed (Proofs/Preimage.lean), then C30, C34, C42 and C13 | Props/Preimage |
| C45 | Drawn at random: completeness, knowledge soundness and zero knowledge in terms of the random generator | random generator as a state machine (Groth16/Random.lean); generate_random_parameters, create_random_proof | uniform generator as a condition on fibres; counting over fibres, then C30, C34, C42, C44 | Props/Random |
| C46 | Key generation succeeds exactly when every auxiliary variable is constrained, up to few trapdoors | generate_parameters, files (write/read) | coefficient of alpha, beta or 1 in the combination of an auxiliary variable is a non-zero polynomial in tau of degree < m; counting roots | Props/Keygen, Props/MimcTest |
| C47 | Allocating the bits of an integer or field element forces bits, and only bits | u64_into_boolean_vec_le, field_into_boolean_vec_le (Gadgets/Boolean.lean) | weakest preconditions; freedom by transferring the run of a prover with other bits | Props/BitVectors |
| C48 | The MiMC circuit of the integration tests works and proves knowledge of a preimage | mimc, MiMCDemo (Examples/Mimc.lean); MiMC pseudocode (Spec/Mimc.lean); test_mimc, batch_verify (Examples/MimcTest.lean) | explicit trace of all calls by induction over the rounds (Proofs/Mimc.lean); every variable constrained, no cancellation; then C46, C31, C30, C42, C34 | Props/Mimc, Props/MimcTest |
| C49 | Gadgets choose distinct names, so testing them does not panic | paths of a trace, `UsesNames` (Spec/Names.lean) | weakest-precondition calculus for sets of used names (Names.lean), one lemma per gadget (Proofs/NamesGadgets, NamesHash, NamesExamples); the test system's paths form a tree (Proofs/NamesTest), so a fresh namespace has no descendants | Props/Names |
| C50 | A circuit's test result predicts the fate of its proofs | the test system, key generation, prover and verifier, all modelled before | `run_recorded` of the test system gives the prover's trace; then C04, C30, C33; C49 for the absence of name panics; determinism of honest runs | Props/Tested |
| C51 | Gadgets constrain every variable they allocate, and their size is bounded | all gadgets; executions against any implementation that numbers variables consecutively | a compositional judgement `SCon` (counts, obligations of pending variables) with rules for alloc, enforce, bind; coefficients computed as values at indicator assignments; key generation by C46 | Props/Constrained |
| C52 | Hash circuits can be proved: nothing cancels, and the documentation example succeeds end to end | `sha256`, `blake2s`, `MultiEq`, `addmany`, boolean gadgets, `MyCircuit`; key generation and prover as before | a compositional judgement `SNC`/`MNC` classifying each variable (already used with a non-zero coefficient, only added, only subtracted, owned by one word) and the invariant of `MultiEq` that the pending coefficient of a written variable is a non-zero integer below the modulus; for BLAKE2s: every word is all constants or all variables, a not yet used variable occurs once in a word and in words of one place modulo 8 only, so that sums in disjoint ranges of bits never cancel; then C31, C44, C51 | Props/Cancel |
| C53 | Circuits that constrain every variable and cancel no coefficient work end to end; so do the circuits of the unit tests, with the very numbers asserted there | `XorDemo`, `MultWithZeroCoeffs`; key generation, prover, verifier as before | general theorem from C46, C31, C30; explicit traces of the two circuits; the polynomials of the test evaluated in the Lagrange basis of the eight-point domain | Props/UnitTests |
| C54 | Proofs can be re-randomised, every accepted proof arises that way, and inputs count only through one group element | verifier and prover as before; re-randomisation is the specification's own definition | bilinearity for the outcome; cyclic groups and C32_unique_c for uniqueness; C34_simulation for honest proofs; linear dependence of two elements of a cyclic group for colliding inputs | Props/Malleable |
| C55 | The hash circuits have exactly the recorded number of constraints, and hashing constants is free | hash gadgets as before | an abstract interpreter that counts (knowing of each bit only whether it is a constant) is shown sound for every execution of the model by induction over the gadgets; the kernel evaluates it once for each kind of block; induction on the number of blocks | Props/Cost |
| C56 | The engine of the Groth16 unit tests is a field with a bilinear map, in spite of wrapping 32-bit words | dummy_engine.rs word for word over BitVec 32 and BitVec 64 (Verif/Examples/DummyEngine.lean) | bounds on every intermediate value, Fermat and Lucas for invert and orders, the loop invariant of Tonelli-Shanks for sqrt | Props/DummyEngine |
| C57 | Passing a constraint system on by reference, in namespaces or in a MultiEq changes nothing | trait method tables (Handle) with Root and get_root as a lens; every forwarding impl as a function between tables (Verif/Handles.lean) | induction over the nesting (each wrapper preserves faithfulness to the innermost system), then over the program | Props/Handles |
| C58 | The prover asks its parameter source for exactly what it uses, and those answers suffice | create_proof again, over a record of the six methods with a state (Verif/Groth16/Source.lean) | simulation arguments over the body of create_proof: a recording source, an error-tracking invariant, and C24_bases for the multi-exponentiations | Props/Source |
| C59 | Keys and proofs are equal exactly if they are written as the same bytes, whose number is fixed by the lengths | the three eq functions; encodings as in C37 | injectivity of fixed-length encodings with length prefixes, by induction | Props/Equality |
| C60 | Concurrent provers do not disturb each other, but an error return can abort the process | threads as programs over compute and wait; create_proof as such a program with nine computations (Verif/Threads.lean, Verif/Groth16/Concurrent.lean) on top of the transition system of C28 | a simulation invariant: every thread stays on the path of its sequential execution; a step measure for termination; an explicit schedule that aborts | Props/Threads |
| C61 | Preimage proofs for SHA-256 and BLAKE2s work for messages of any length, end to end | client circuit `hashCircuit` (documentation example with another gadget and length), `sha256Circuit`, `blake2sCircuit`; gadgets, key generation, prover, verifier as before | gadget facts (soundness, completeness, shape, locality, constraint counts, no cancellation) collected in `HashFn`; generic composition with allocation and packing, then C30, C31, C34, C42, C51 | Props/HashProof |
| C62 | A batch made by algebraic provers is accepted only if every prover has a witness | `BatchVerifier` and `Strategy` as in C35, C36 and C42; `queueAll` queues the provers' proofs | a union bound: either the single proof of a prover without witness verifies (C42), or it is invalid and the weights must hit a root (C36); counted fibre by fibre over the trapdoor | Props/BatchKnowledge |
| C63 | The printout of a test constraint system shows the constraints, all of them, and nothing of the witness | `prettyPrint`, `ppLc`, `ppTerms`, `ppCoeff`: the text as a list of characters, `{:?}` of a field element a parameter | unambiguous parsing from left to right: split at backticks and at the first parenthesis, last token before ` . `; normal forms of C40; the record invariant of C05 for names | Props/PrettyPrint |
| C64 | A prover who sees the parameters and proves without a witness betrays discrete logarithms | `AdaptiveProver`, the simulated parameters and the candidates (Spec/Agm); generate_parameters and the verifiers as before | the polynomial of C42 times the product of the polynomials of the variables (for the entries left out of the queries); trapdoors on a random line through a fixed point, Schwartz-Zippel at one point of the line; an injection between the two experiments | Props/Agm |
| C65 | Any number of proofs, chosen adaptively, reveal nothing but the public inputs | create_proof, generate_parameters and verify_proof as before; `simulateProof` and `transcript` (Spec/Simulator) | the proofs of a satisfied circuit are exactly the accepted triples with C determined by A and B (C34_simulation), so the simulator is a bijection onto them; induction on the number of proofs | Props/Adaptive |
| C66 | Gadgets leave the prover no choice: every allocated variable is determined | all gadgets, MultiEq, the test constraint system and the example circuits as before; `Unique` and `allocated` in Spec/Unique | a relational calculus over two assignments (SDet, and MDet for programs with a MultiEq, where equality of a batch is known only after the flush); for bit decompositions from uniqueness of the value; circuits by composition | Props/Unique |
| C67 | The unit tests of the gadgets pass, for all the values they could have used | the unit tests (Examples/GadgetTests) as programs in a state monad over the test constraint system; gadgets and TestConstraintSystem as before | small tests by evaluation with symbolic numbers; tests with loops from completeness, soundness and the names of gadgets (which path names which variable); tables over finitely many kinds of operands by evaluating every entry | Props/GadgetTests |
| C68 | The unit tests of 32-bit words and of the hash functions pass, for all the values they could have used | the unit tests (Examples/GadgetTests) over the models of the gadgets and of TestConstraintSystem; xorshift generator | from completeness, names, scope and cost of the gadgets; that the sum notices a flipped bit from uniqueness of satisfying assignments; constants by following the kind of every bit; written hashes by evaluating the specification | Props/WordTests |
| C69 | The unit tests of transforms, multiexponentiation, errors and serialization pass exactly under stated conditions on the draws | the unit tests of the library proper (Examples/CoreTests) over the models of domains, multiexponentiation, keys, prover and verifier | the school method multiplies as polynomials (induction), the rest from C19, C20, C22, C23, C24, C27; serialization from C37, C38, C46, C53, C59 and counting | Props/CoreTests |
| C70 | Parameters identify the constraint matrices of the circuit; the verifying key alone does not | key generation (C29) over pairs of circuits; SameMatrices in Spec/Matrices | same interpolation polynomials give the same key; different ones differ at some power of τ, and ncard_comb counts the trapdoors at which the combinations agree; the files from C59 | Props/Fingerprint |
| C71 | A proof made with the key of another circuit convinces only of that other circuit | create_proof with parameters of any origin (Groth16/Prover), key generation, verify_proof | the nine multiexponentiations are linear combinations at fixed positions of the parameter vectors (C24), so the prover is algebraic for all parameters; then C42 for the circuit of the key | Props/WrongKey |
| C72 | create_proof trusts its parameters: a shifted key makes proofs leak the witness | create_proof, generate_parameters, verify_proof; Parameters.shiftL is the tampering | the multiexponentiation over l is linear in its bases (C24); uniqueness of the third element (C32) turns verify_proof into a test of guesses; the unit test from C31, C53 | Props/Tampered |
| C73 | What verification costs does not depend on the proofs, and what batching saves | the verifiers written once more with counters for Miller loops, pairs, additions of Miller results, final exponentiations, scalar multiplications and draws; the closures of the benchmark | each counted function is shown to compute what the uncounted one computes with a fixed number of operations added, composed along the monad; induction over items, chunks and the reduction tree; the benchmark from C48 and C35 | Props/Ops |
| C74 | How many group operations a multiexponentiation takes, and that they depend on the exponents only through their digits | multiexp written once more with counters for additions of bases, other additions and doublings; the benchmark of benches/slow.rs | the counted run of a window is the uncounted one with the number of nonzero digits added; induction over exponents, buckets and windows; the bound on the window size from bounds on ln 2 | Props/MultiexpOps |
| C75 | Seeing proofs of other statements does not help to prove a new one | generate_parameters, create_proof and verify_proof as in C29, C30; a strategy is the list of its coefficients | the blinding factors are those of the simulator of C65 up to a permutation; for fixed trapdoors the verification equation is a polynomial of degree 3 in them, bounded by Schwartz–Zippel unless it vanishes identically; if it does, its coefficients show that the proof is either one of those seen, scaled (impossible for other public inputs, by the rows appended for these), or the one made from the parameters alone, to which C42 applies | Props/Seeing |
| C76 | The blinding factors are needed, both of them, and fresh for every proof | create_proof and generate_parameters as in C29, C30 | the elements are alpha + A(tau) + r delta and beta + B(tau) + s delta with A, B interpolating the values of the factors; different polynomials of degree below m agree in at most m - 1 places; the third element is determined by the other two (C32); secret factors by C34 | Props/Blinding |
| C77 | Weak keys are not refused: with equal gamma and delta, with alpha or beta zero, or with tau known, anybody proves anything | verify_proof as in C30, generate_parameters as in C29; the forged proofs are written down from the elements of the key | bilinearity and non-degeneracy of the pairing; the outcome of generate_parameters does not depend on gamma except through gamma = 0; for tau the quotient (ab - c)/(tau^m - 1) replaces the quotient polynomial | Props/WeakKeys |
| C78 | The number of field operations of a transform and of the quotient is a function of size and thread count only | the functions of src/domain.rs and the quotient of create_proof again, with a counter of multiplications, additions, multiplications of scalars, powers and inversions (DomainOps.lean); every counted function is proved to return what the uncounted one returns | the counted function refines the uncounted one and adds a fixed number; induction over passes, blocks, tasks and chunks; arithmetic for the comparison | Props/DomainOps |
| C79 | The number of operations of create_proof is fixed but for additions of bases, and those depend on the witness | create_proof again, with a counter of the field operations of the quotient, of the group operations of each multiexponentiation, and of the multiplications and additions that put the answers together (Groth16/ProverOps.lean) | the counted prover refines the uncounted one step by step (a relation on results kept by bind); the counts of C74 and C78 put together with the densities of the prover, which are the variables occurring in left and right factors; the unit test circuit for the difference | Props/ProverOps |
| C80 | Making parameters takes a known number of operations, which depends on the trapdoors only through the variables left out of the queries | `generateParametersC`: `generateParameters` with counters for field operations, multiplications through the window tables, announced numbers and plain multiplications; `powersC`, `hQueryC`, `evalAtTauC`, `evalBodyC`, `evalTaskC`, `evalQapC` likewise | Each counted part is shown to have the result of the uncounted part and a cost computed from its inputs (`GCosts`, `RCosts`); the costs of tasks are summed over chunks; the columns of the assembly are counted by exchanging sums over variables and terms; the evaluated columns are the polynomials of the QAP (C29). | Props/GeneratorOps |
| C81 | The random weights of a batch must be unpredictable, and no better bound than C36 holds | `BatchVerifier.verify`, `BatchVerifier.verifyMulticore` of the batch model; the attacker is the function `forgeBatch` of key, weights and statements | Acceptance is the vanishing of the weighted sum of defects (C36); in the multicore case the weights are the powers of the chunk weights, summed over all items at once. The forged proofs make the sum telescope; the attained bounds are counted by bijections; the chosen weights are the roots of a polynomial whose coefficients are added to the proofs. | Props/BatchWeights |
| C82 | Every elementary gadget has an exactly known size, and constants are made use of, with one exception | All gadgets of the model; sizes are counted in the trace of any execution (`HasSize`); on how many operands a function depends is defined in Spec/Depends.lean from the values the operands can have | The bit gadgets by cases on their operands, the number of operands that matter being computed for all patterns of constants; loops by induction; for `to_bits_le_strict` the conjunctions along the runs of ones of p - 1 are counted by induction over its bits. | Props/GadgetSizes |
| C83 | Files are read and written the same however the bytes travel, and a false length costs no work | Groth16/Stream.lean: the read and write functions once more over streams of events, with `read_exact` and `write_all` as the loops of std, and decodings counted; what a stream holds is defined in Spec/Stream.lean | `read_exact` and `write_all` by induction over the events; agreement with the functions on byte lists (C37, C38) is preserved by `?`; work by a potential: every decoding is paid for by the bytes of its point. The outcome is independent of how the bytes are cut into pieces: a property of readers kept by `?` and loops. | Props/Streams, Props/Chunking |
| C84 | Sizes and indices never overflow their machine integers | Machine.lean: the functions of domain, multiexp, multicore and `addmany` once more with checked or wrapping words; loops by partial fixpoints | Refinement: each machine function equals the unbounded one under bounds on the loop counters kept as invariants; non-termination of `log2_floor` by the fixpoint principle. | Props/Machine |
| C85 | MultiEq and the hash gadgets with machine integers | Gadgets/MachineMultiEq.lean: MultiEq, the padding of sha256 and the byte counter of blake2s with checked or wrapping words | Soundness invariant of C14, which bounds the counter by CAPACITY; equality of programs by induction over the calls; the lost equalities by computation of the run. | Props/MachineGadgets |
| C86 | Key generation and proving with machine integers | Groth16/Machine.lean: both functions with the transforms and multiexponentiations of Machine.lean and checked or wrapping words for the sizes they compute themselves | The domains built from vectors of at most 2^63 elements have at most 2^63, and all operations of the quotient keep the length, so each transform meets the bounds of C84; then C30 and C33. | Props/MachineGroth16 |
| C87 | Counters of synthesis as machine integers | Groth16/MachineAssembly.lean: alloc, alloc_input, enforce and the loop over the inputs with counters as words and limited vectors; generateParametersV in Groth16/Machine.lean | A simulation relation between the states with words and those with unbounded numbers, kept by every operation, induction over the program; then C86. | Props/MachineAssembly |
| C88 | Key generation and proving on the machine, for circuits of any size | Groth16/MachineAssignment.lean: alloc, alloc_input, enforce and the loop over the inputs with limited vectors; createProofV in Groth16/Machine.lean | Every operation that returns leaves the state of the unlimited one, and the vectors within their limits, by induction over the program; so a proof made bounds the constraints, and by the shape of the circuit those of the key; then C86, C87, C30 and C33. | Props/MachineAssignment |
| C89 | From key generation to verification across machines and streams | The functions are those of C83 (streams) and C88 (machine words); the scenario is the structure Deployment | Reading what was written gives what was written, or an identity was among it and C38 says that reading fails; generated keys and proofs are multiples of the generators (C29) and their lengths fit 32 bits (C29_lengths); then C87, C88, C30 and C33. | Props/Deployment |
| C90 | Verification with machine words | Groth16/MachineVerifier.lean: the three functions with the additions on words and with any stopping early | A slice of elements of positive size has fewer than 2^63 of them, so the addition is exact, by induction over the items of a batch; the two cases of an overflow are followed to a panic; then C89. | Props/MachineVerifier |

Not expressible here: secrecy or quality of the random number generator, timing, memory use, computational
hardness assumptions (soundness against provers that are not algebraic).

## 4. What is modelled

| file in /repo | modelled | not modelled |
|----|----|----|
| src/lib.rs | the example of the crate documentation, `Variable`, `Index`, `LinearCombination` and all operators, `SynthesisError`, `VerificationError`, `ConstraintSystem` (as programs/interpreters), `Namespace` with its `Drop`, the forwarding impls for `&mut CS` and `Namespace` (shown transparent in C57, so the other theorems leave them out) | `Error::source` (the default); `Circuit` is a program |
| src/domain.rs | all functions | `Clone`, `PartialEq` impls |
| src/multiexp.rs | `Source`, `QueryDensity`, `FullDensity`, `DensityTracker`, `Exponent`, `multiexp_inner`, `multiexp` | `f64` logarithm idealised (see the comment at `windowSize`; `C24_window` covers every window size, so successful results do not depend on it) |
| src/multicore.rs | `log_num_threads`, `scope`, `compute`, `Waiter`, `log2_floor`, both features; threads that use them | reading of the thread count, logging |
| src/gadgets/*.rs | every public function of boolean, num, lookup, multipack, multieq, uint32, sha256, blake2s | debug formatting, `Assignment` trait (its `get` is `Synth.optGet`) |
| src/gadgets/test/mod.rs | `proc_lc`, `hash_lc`, `eval_lc`, `TestConstraintSystem` with all queries and `pretty_print` | none |
| groth16/src/generator.rs | `KeypairAssembly`, `generate_parameters`, `generate_random_parameters` (over any state-passing generator) | |
| groth16/src/prover.rs | `eval`, `ProvingAssignment`, `create_proof` with `&Parameters` and with any `ParameterSource`, `create_random_proof` | sources that panic |
| groth16/src/verifier.rs, verifier/batch.rs | everything | |
| groth16/src/lib.rs | `Proof`, `VerifyingKey`, `Parameters`: read and write; `PreparedVerifyingKey`; `ParameterSource` and its impl for `&Parameters`; `PartialEq` impls | |
| src/gadgets/{num,lookup,multipack,boolean,uint32,sha256,blake2s}.rs and test/mod.rs, `mod test` | every unit test, statement by statement (drawn values are arguments) | the generator of the draws, except for `test_blake2s_test_vectors`, whose expected hashes depend on it |
| src/{domain,multiexp,multicore,lib}.rs and groth16/src/lib.rs, tests | every unit test, one turn of its loops as a function of the draws; `Display` of both error types | the generator of the draws |
| groth16/tests/common/mod.rs | `mimc`, `MiMCDemo` | |
| groth16/tests/mimc.rs | `test_mimc`, `batch_verify` (drawn values are arguments) | timing and printing |
| groth16/benches/batch.rs | `bench_batch_verify` (drawn values are arguments) | criterion |
| benches/slow.rs | `bench_parts` (drawn values are arguments) | the test harness |
| groth16/src/tests/dummy_engine.rs | `Fr` with all its arithmetic, conversions, encodings and constants, `DummyEngine` | `Display`, `sqrt_ratio` (an external helper), `WnafGroup`, `FakePoint` encodings (`unimplemented!`) |
| groth16/src/tests/mod.rs | `XorDemo`, `MultWithZeroCoeffs` and the assertions of their tests | |

## 5. Where the code and the natural expectation differ

Each of these is visible in the model; the theorem named exhibits it or states the exact condition.

* `parallel_fft_consistency` runs the parallel transform for one, two and four coefficients only, with as many
  tasks as coefficients: the inner loop `log_d..min(log_d + 1, 3)` is empty from `log_d = 3` on, and the test then
  accepts every function in place of `parallel_fft` (`C69_parallel_fft_test`, `C69_parallel_fft_blind`).
* Dropping a `Waiter` before its job has sent its result makes `sender.send(res).unwrap()` panic in the pool
  and aborts the process (`C41_drop_aborts`).  `create_proof` does that on every early `?` after the first
  `multiexp` call with the `multicore` feature (`C60_error`); so the check for a zero delta can end in an abort instead
  of `UnexpectedIdentity` (`C60_subversion`).
* A closure that panics in the blocking scope of `compute` leaks the spawn counter (`C41_counter_leak`).
* Without the `multicore` feature a circuit without auxiliary variables cannot be set up: `chunks_mut(0)` panics
  (`C39_no_multicore`).
* `create_proof` fails or panics on honest parameters in the rare case that a query polynomial vanishes at tau
  although the variable occurs: prover densities and filtered queries then disagree (hypothesis of `C31_outcome`);
  also a circuit that adds a variable with coefficients that cancel (`x - x`) breaks the match (`C31_cancel`).
* `from_coeffs` refuses domains of size `2^S` although the root of unity exists (`C19_refused`).
* `serial_fft` truncates the length to `u32`: sizes from `2^32` on panic (`C20_too_long`, `C20_length_bound`).
* `log2_floor` does not return from `2^63` on: the distance of the shift reaches 64, which panics in a debug
  build and wraps around to 0 in a release build, so that the loop starts anew (`C84_log2_floor`).
* `multiexp` computes its window from `len as u32` (`C25_length_limit`); `Source::skip` only checks that the source
  is not exhausted; an identity base is reported only if its exponent is not zero in some window that is reached
  (`C25_identity` states the condition).
* `MultiEq` ignores a final operation with `num_bits = 0`, and panics for `num_bits ≥ CAPACITY` after having
  flushed (hypotheses of `C14_sound`).
* In a release build `MultiEq::enforce_equal` with a bit count near `2^64` wraps its counter past the capacity check and the
  assertion, and equalities are lost without a constraint (`C85_release_loses`); a debug build panics (`C85_debug_sound`).
* `UInt32::addmany` is witness dependent for raw compositions with constant bits and unknown value
  (`C18_addmany_needs_known_constants`).
* `UInt32::shr(32)` shifts by 0, since the distance is reduced mod 32 (`C15_shr`).
* `to_bits_le` is not unique (`C11_toBitsLe_not_unique`), as documented.
* `VerifyingKey::read` accepts identities in alpha, beta, gamma, delta (`C37_vk`), but refuses them in `ic`
  (`C38_vk_identity`); `generate_parameters` does not check `ic` and `h`, so an honest key can be
  written but not read back (hypothesis `Storable` of `C37_parameters`).
* A proof that contains the identity is written but refused on reading (`C38_proof_identity`).
* Vector lengths are truncated to 32 bits on writing (`C37_truncated`).
* `TestConstraintSystem::enforce` does not check variable ranges (panic only in evaluation, `C04_isSatisfied`);
  the prover skips zero coefficients with out-of-range variables while key generation panics (`C02_enforce_panics`).

* `create_proof` does not check the parameters it is given: a key of another circuit is used without complaint if it is long
  enough (`C71_wrong_key`, `C71_room`), and a key with shifted `l` makes proofs reveal the witness (`C72_guess`).
* A batch is only as good as its random generator: with predictable weights proofs of nothing pass (`C81_predictable`), and
  `verify_multicore` lets up to eight times as many weights pass as `verify` (`C81_multicore_attained`).
* `Boolean::sha256_ch` with the constant true as first operand and two operands that are not constant spends a gate on a copy of the
  second operand (boolean.rs:580-586, `C82_ch_true`).  This is sound.
* Batching saves pairings but costs scalar multiplications: with one or two inputs always more than single verification
  (`C73_comparison`).
* `generate_parameters` and `VerifyingKey::read` accept gamma = delta and alpha or beta zero, with which everything can be
  forged from the verifying key (`C77_equal`, `C77_zero`).
* With one thread, and without the `multicore` feature, `best_fft` runs `parallel_fft` with a single task, since it compares
  `log_n <= 0`: n multiplications and additions more than `serial_fft` (`C78_one_thread`).
* The running time of `create_proof` depends on the witness: multiexponentiation skips zero digits, so the number of
  additions tells witnesses of one statement apart (`C79_fixed`, `C79_xor`), although the proofs do not (`C34_distribution`).
* The verifying key does not identify the circuit; the proving parameters do (`C70_vk_alone`, `C70_different`).
* `sqrt` of the test field panics on non-squares (`m - i - 1` underflows) and loops forever on zero (`C56_sqrt`); nothing
  calls it.

## 6. Mutation testing

`seeded/LOG.jsonl` has one line per attempt: a realistic bug put into a definition of the model in a scratch copy, the
theorems that no longer hold (their proofs fail, directly or through a lemma they use), and what was tightened if
the bug survived.
