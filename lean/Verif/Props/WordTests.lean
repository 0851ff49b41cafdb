import Verif.Proofs.GadgetTestsHash

/-!
# C68: the unit tests of words and hash functions pass, for all values

As in Props/GadgetTests, for the tests of src/gadgets/uint32.rs, sha256.rs and blake2s.rs.
-/

set_option linter.unusedSectionVars false

namespace Bellman

open PrimeField List GadgetTests

variable {F : Type} [PrimeField F]

/-! ### src/gadgets/uint32.rs -/

/-- C68: `test_uint32_from_bits` and `test_uint32_from_bits_be` pass for all 32 bits drawn. -/
theorem C68_from_bits {bits : List Bool} (hl : bits.length = 32) :
    Passes (uint32FromBits (F := F) bits) ∧ Passes (uint32FromBitsBe (F := F) bits) :=
  ⟨uint32FromBits_passes bits hl, uint32FromBitsBe_passes bits hl⟩

example : Passes (uint32FromBitsBe (F := BlsScalar) (List.replicate 31 true ++ [false])) := (C68_from_bits rfl).2

/-- C68: `test_uint32_xor`, `test_uint32_sha256_ch` and `test_uint32_sha256_maj` pass for all words drawn. -/
theorem C68_bitwise (a b c : BitVec 32) :
    Passes (uint32Xor (F := F) a b c) ∧ Passes (uint32Ch (F := F) a b c) ∧ Passes (uint32Maj (F := F) a b c) :=
  ⟨uint32Xor_passes a b c, uint32Ch_passes a b c, uint32Maj_passes a b c⟩

/-- C68: `test_uint32_rotr` and `test_uint32_shr` pass for all words and, as to `shr`, for all distances. -/
theorem C68_shifts (num : BitVec 32) (i : ℕ) : Passes (uint32Rotr (F := F) num) ∧ Passes (uint32Shr (F := F) num i) :=
  ⟨uint32Rotr_passes num, uint32Shr_passes num i⟩

/-- C68: `test_uint32_addmany_constants` and `test_uint32_addmany` pass for all words drawn; the latter overwrites bit 0 of the sum with its
opposite and finds the system unsatisfied. -/
theorem C68_addmany (h64 : 64 ≤ NUM_BITS F) (a b c d : BitVec 32) :
    Passes (uint32AddmanyConstants (F := F) a b c) ∧ Passes (uint32Addmany (F := F) a b c d) :=
  ⟨uint32AddmanyConstants_passes h64 a b c, uint32Addmany_passes h64 a b c d⟩

example (a b c d : BitVec 32) : Passes (uint32Addmany (F := BlsScalar) a b c d) := (C68_addmany (by decide) a b c d).2

/-! ### src/gadgets/sha256.rs -/

/-- C68: `test_blank_hash` passes: the hash is the one written in the test, and constants cost nothing. -/
theorem C68_sha256_blank (h64 : 64 ≤ NUM_BITS F) : Passes (sha256BlankHash (F := F)) := sha256BlankHash_passes h64

/-- C68: `test_full_block` passes for all 512 bits drawn. -/
theorem C68_sha256_full_block (h64 : 64 ≤ NUM_BITS F) (hc : CAPACITY F = 254) {bits : List Bool} (hl : bits.length = 512) :
    Passes (sha256FullBlock (F := F) bits) := sha256FullBlock_passes h64 hc bits hl

example : Passes (sha256FullBlock (F := BlsScalar) (List.replicate 512 true)) :=
  C68_sha256_full_block (by decide) (by decide) (length_replicate ..)

/-- C68: `test_against_vectors` passes for all byte strings, of any length: every bit of the output has the value of the bit of the digest, and
it is a constant only if the input is empty. -/
theorem C68_sha256_vectors (h64 : 64 ≤ NUM_BITS F) (data : List (BitVec 8)) : Passes (sha256Vectors (F := F) data) :=
  sha256Vectors_passes h64 data

/-- C68: if an input bit is a variable, then no output bit of SHA-256 is a constant. -/
theorem C68_sha256_no_constants {input : List Boolean} (h : ∃ b ∈ input, b.isConstant = false) :
    ∀ t r, Exec (Sha256.sha256 input : Synth F _).run t (some (.ok r)) → NoConstants r := Sha256.sp_sha256 h

example (v : BitVec 8) : ∃ b ∈ Boolean.is ⟨.aux 0, some true⟩ :: (List.range 7).map (fun i => Boolean.constant (v.getLsbD i)), b.isConstant = false :=
  ⟨_, mem_cons_self .., rfl⟩

/-! ### src/gadgets/blake2s.rs -/

/-- C68: `test_blank_hash` passes. -/
theorem C68_blake2s_blank (h64 : 64 ≤ NUM_BITS F) : Passes (blake2sBlankHash (F := F)) := blake2sBlankHash_passes h64

/-- C68: `test_blake2s_constraints` and `test_blake2s_precomp_constraints` pass for all bits, and any number of leading blocks of constants. -/
theorem C68_blake2s_constraints (h64 : 64 ≤ NUM_BITS F) (hc : CAPACITY F = 254) {leading bits : List Bool} {p : ℕ}
    (hp : leading.length = 512 * p) (hl : bits.length = 512) :
    Passes (blake2sConstraints (F := F) bits) ∧ Passes (blake2sPrecompConstraints (F := F) leading bits) :=
  ⟨blake2sConstraints_passes h64 hc bits hl, blake2sPrecompConstraints_passes h64 hc leading bits p hp hl⟩

example : Passes (blake2sPrecompConstraints (F := BlsScalar) (List.replicate 512 false) (List.replicate 512 true)) :=
  (C68_blake2s_constraints (p := 1) (by decide) (by decide) (length_replicate ..) (length_replicate ..)).2

/-- C68: `test_blake2s_constant_constraints` passes for any number of constant bytes. -/
theorem C68_blake2s_constant (h64 : 64 ≤ NUM_BITS F) {bits : List Bool} {m : ℕ} (hl : bits.length = 8 * m) :
    Passes (blake2sConstantConstraints (F := F) bits) := blake2sConstantConstraints_passes h64 bits m hl

/-- C68: `test_blake2s` passes for all byte strings, of any length. -/
theorem C68_blake2s_vectors (h64 : 64 ≤ NUM_BITS F) (data : List (BitVec 8)) : Passes (blake2sVectors (F := F) data) :=
  blake2sVectors_passes h64 data

/-- C68: `test_blake2s_256_vars` and `test_blake2s_700_vars`, with any data, pass exactly if what they expect is (the beginning of) the hash;
`test_blake2s_test_vectors` exactly if it is the hash. -/
theorem C68_blake2s_expected (h64 : 64 ≤ NUM_BITS F) (data expected : List (BitVec 8)) :
    (Passes (blake2sVars (F := F) data expected) ↔ expected <+: Spec.Blake2s.blake2s person data) ∧
    (Passes (blake2sTestVectors (F := F) data expected) ↔ expected = Spec.Blake2s.blake2s person data) :=
  ⟨blake2sVars_iff h64 data expected, blake2sTestVectors_iff h64 data expected⟩

/-- C68: with the data and hashes written in the tests, `test_blake2s_256_vars`, `test_blake2s_700_vars` and `test_blake2s_test_vectors` pass;
the last draws its data from an xorshift generator. -/
theorem C68_blake2s_written (h64 : 64 ≤ NUM_BITS F) :
    Passes (blake2sVars (F := F) data256 expected256) ∧ Passes (blake2sVars (F := F) data700 expected700) ∧
    Forall₂ (fun data expected => Passes (blake2sTestVectors (F := F) data expected)) vectorData vectorHashes :=
  ⟨blake2s256Vars_passes h64, blake2s700Vars_passes h64, blake2sTestVectors_all h64⟩

example : Passes (blake2sVars (F := BlsScalar) data700 expected700) := (C68_blake2s_written (by decide)).2.1

/-- C68: if an input bit is a variable, then no output bit of BLAKE2s is a constant. -/
theorem C68_blake2s_no_constants {input : List Boolean} (pers : List (BitVec 8)) (h : ∃ b ∈ input, b.isConstant = false) :
    ∀ t r, Exec (Blake2s.blake2s input pers : Synth F _).run t (some (.ok r)) → NoConstants r := Blake2s.sp_blake2s pers h

end Bellman
