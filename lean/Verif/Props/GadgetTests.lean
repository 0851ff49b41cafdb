import Verif.Proofs.GadgetTestsBits
import Verif.Proofs.GadgetTestsCS
import Verif.Proofs.GadgetTestsLookup
import Verif.Proofs.GadgetTestsPack
import Verif.Proofs.GadgetTestsStrict
import Verif.Proofs.GadgetTestsTables
import Verif.Proofs.Synth

/-!
# C67: the unit tests of the gadgets pass, for all values

`Verif.Examples.GadgetTests` writes the unit tests of src/gadgets down, statement by statement, with the numbers that occur in them as
arguments.  `Passes t` says that the test, started on an empty test constraint system, runs to its end: nothing panics, every `unwrap` finds a
value and every assertion holds.  Where a test is about given numbers, the theorems say exactly for which numbers it passes.
-/

set_option linter.unusedSectionVars false
set_option linter.unusedSimpArgs false
set_option maxHeartbeats 1000000

namespace Bellman

open PrimeField GadgetTests

variable {F : Type} [PrimeField F]

/-! ### src/gadgets/num.rs -/

/-- C67: `test_allocated_num` passes for every number. -/
theorem C67_allocated_num (x : F) : Passes (allocatedNum x) := by
  eval_test [Passes, allocatedNum, AllocatedNum.alloc]

/-- C67: `test_num_squaring` passes iff the number it expects is the square and the number it overwrites it with is not. -/
theorem C67_squaring (x sq bad : F) : Passes (numSquaring x sq bad) ↔ sq = x * x ∧ bad ≠ x * x := by
  eval_test [Passes, numSquaring, AllocatedNum.alloc, AllocatedNum.square]
  rw [eq_comm, eq_comm (a := bad)]

example : Passes (numSquaring (3 : BlsScalar) 9 10) := (C67_squaring _ _ _).2 (by decide)

/-- C67: `test_num_multiplication` passes iff the number it expects is the product and the number it overwrites it with is not. -/
theorem C67_multiplication (x y prod bad : F) : Passes (numMultiplication x y prod bad) ↔ prod = x * y ∧ bad ≠ x * y := by
  eval_test [Passes, numMultiplication, AllocatedNum.alloc, AllocatedNum.mul]
  rw [eq_comm, eq_comm (a := bad)]

example : Passes (numMultiplication (12 : BlsScalar) 10 120 121) := (C67_multiplication _ _ _ _).2 (by decide)

/-- C67: both halves of `test_num_conditional_reversal` pass for all numbers drawn. -/
theorem C67_reversal (x y : F) : Passes (numConditionalReversalFalse x y) ∧ Passes (numConditionalReversalTrue x y) := by
  constructor
  · eval_test [Passes, numConditionalReversalFalse, AllocatedNum.alloc, AllocatedNum.conditionallyReverse, Boolean.getValue, Boolean.lc]
  · eval_test [Passes, numConditionalReversalTrue, AllocatedNum.alloc, AllocatedNum.conditionallyReverse, Boolean.getValue, Boolean.lc]

/-- C67: `test_num_nonzero`, first half: it passes iff the number has an inverse and the number it overwrites the inverse with is another. -/
theorem C67_nonzero (x bad : F) : Passes (numNonzero x bad) ↔ x ≠ 0 ∧ bad ≠ x⁻¹ := by
  by_cases h : x = 0
  · eval_test [Passes, numNonzero, AllocatedNum.alloc, AllocatedNum.assertNonzero, h]
  have hb : bad = x⁻¹ ↔ x * bad = 1 := ⟨fun e => by rw [e, mul_inv_cancel₀ h], eq_inv_of_mul_eq_one_right⟩
  rw [Ne, Ne, hb]
  by_cases h2 : x * bad = 1
  · eval_test [Passes, numNonzero, AllocatedNum.alloc, AllocatedNum.assertNonzero, h, h2]
  · eval_test [Passes, numNonzero, AllocatedNum.alloc, AllocatedNum.assertNonzero, h, h2]

/-- C67: `test_num_nonzero`, second half: the gadget fails exactly for zero. -/
theorem C67_nonzero_error (x : F) : Passes (numNonzeroErr x) ↔ x = 0 := by
  by_cases h : x = 0
  · eval_test [Passes, numNonzeroErr, AllocatedNum.alloc, AllocatedNum.assertNonzero, h]
  · eval_test [Passes, numNonzeroErr, AllocatedNum.alloc, AllocatedNum.assertNonzero, h]

/-- C67: the body of `test_into_bits` passes for all draws except one: the other number it draws must differ from the number.  (The test
compares the bits with the canonical bits, finds the system unsatisfied after the number or any one bit is changed, and satisfied after it is
changed back.)  The condition on the field says that representatives have one bit more than the modulus, the bit which the test skips. -/
theorem C67_into_bits (h2 : (2 : F) ≠ 0) (hr : REPR_BITS F = NUM_BITS F + 1) (strict : Bool) (r other : F) :
    Passes (intoBits strict r other) ↔ other ≠ r := intoBits_iff h2 hr strict r other

example : Passes (intoBits true (5 : BlsScalar) 7) ∧ ¬ Passes (intoBits false (5 : BlsScalar) 5) :=
  ⟨(C67_into_bits (by decide) (by decide) _ _ _).2 (by decide), fun h => (C67_into_bits (by decide) (by decide) _ _ _).1 h rfl⟩

/-- C67: `test_into_bits_strict` passes for every field: after the least significant of the bits of `-1` is set, which makes the bits those of
the modulus itself, the first broken constraint is that of this bit. -/
theorem C67_into_bits_strict : Passes (intoBitsStrict (F := F) (NUM_BITS F - 1)) := intoBitsStrict_passes

example : Passes (intoBitsStrict (F := BlsScalar) 254) := C67_into_bits_strict

/-! ### src/gadgets/lookup.rs -/

/-- C67: the bodies of `test_lookup3_xy` and `test_lookup3_xy_with_conditional_negation` pass for all bits and tables drawn. -/
theorem C67_lookup (a b c : Bool) (points : List (F × F)) :
    (points.length = 8 → Passes (lookupXy a b c points)) ∧ (points.length = 4 → Passes (lookupXyNeg a b c points)) :=
  ⟨fun h => lookupXy_passes a b c h, fun h => lookupXyNeg_passes a b c h⟩

example : Passes (lookupXyNeg true false true [((1 : BlsScalar), 2), (3, 4), (5, 6), (7, 8)]) := (C67_lookup _ _ _ _).2 rfl

/-- C12: `synth` inverts summation over submasks, for windows of any size: the sum of those coefficients whose index has only bits of `b` is
the constant with index `b`. -/
theorem C12_synth (w : ℕ) (constants : List F) :
    (constants.length ≤ 2 ^ w → ∃ a, synth w constants (List.replicate (2 ^ w) 0) = some a ∧ a.length = 2 ^ w ∧
      ∀ b c, constants[b]? = some c → (((List.range (2 ^ w)).filter fun j => j &&& b = j).map fun j => a.getD j 0).sum = c) ∧
    (2 ^ w < constants.length → synth w constants (List.replicate (2 ^ w) 0) = none) :=
  ⟨synth_spec w constants, synth_none w constants⟩

example : ∃ a, synth 1 [(5 : BlsScalar), 7] (List.replicate (2 ^ 1) 0) = some a ∧ a = [5, 2] := ⟨_, by decide +kernel, rfl⟩

/-- C67: `test_synth` passes for windows of any size and all constants drawn, as long as there is room for them. -/
theorem C67_synth (w : ℕ) (constants : List F) : synthTest w constants = some () ↔ constants.length ≤ 2 ^ w := synthTest_passes w constants

example (c : List BlsScalar) (h : c.length = 16) : synthTest 4 c = some () := (C67_synth 4 c).2 (by omega)

/-! ### src/gadgets/multipack.rs -/

/-- C67: the body of `test_multipacking` passes for all lists of bits, of any length: the public inputs computed natively verify. -/
theorem C67_multipacking (bits : List Bool) : Passes (multipacking (F := F) bits) := multipacking_passes bits

/-! ### src/gadgets/boolean.rs -/

/-- C67: `test_allocated_bit` passes iff the number it overwrites the bit with, is not a bit. -/
theorem C67_allocated_bit (v : Bool) (x : F) : Passes (allocatedBit v x) ↔ x ≠ 0 ∧ x ≠ 1 := by
  by_cases h0 : x = 0
  · cases v <;> eval_test [Passes, allocatedBit, AllocatedBit.alloc, allocCapture, boolF, h0]
  · by_cases h1 : x = 1
    · cases v <;> eval_test [Passes, allocatedBit, AllocatedBit.alloc, allocCapture, boolF, h1]
    · have h2 : ¬ (1 + -x = 0) := fun h => h1 (by linear_combination -h)
      cases v <;> eval_test [Passes, allocatedBit, AllocatedBit.alloc, allocCapture, boolF, h0, h1, h2]

example : Passes (allocatedBit true (2 : BlsScalar)) := (C67_allocated_bit _ _).2 (by decide)

/-- C67: `test_xor`, `test_and`, `test_and_not` and `test_nor` pass for all operands: the result is right, and overwriting it with the other bit
is noticed. -/
theorem C67_bit_operations (a b : Bool) :
    Passes (bitOp (F := F) AllocatedBit.xor "xor result" (fun a b => a ^^ b) a b) ∧
    Passes (bitOp (F := F) AllocatedBit.and "and result" (fun a b => a && b) a b) ∧
    Passes (bitOp (F := F) AllocatedBit.andNot "and not result" (fun a b => a && !b) a b) ∧
    Passes (bitOp (F := F) AllocatedBit.nor "nor result" (fun a b => !a && !b) a b) := by
  refine ⟨?_, ?_, ?_, ?_⟩
  · cases a <;> cases b <;> eval_test [Passes, bitOp, AllocatedBit.alloc, AllocatedBit.xor, allocCapture, boolF, Var.one]
  · cases a <;> cases b <;> eval_test [Passes, bitOp, AllocatedBit.alloc, AllocatedBit.and, allocCapture, boolF, Var.one]
  · cases a <;> cases b <;> eval_test [Passes, bitOp, AllocatedBit.alloc, AllocatedBit.andNot, allocCapture, boolF, Var.one]
  · cases a <;> cases b <;> eval_test [Passes, bitOp, AllocatedBit.alloc, AllocatedBit.nor, allocCapture, boolF, Var.one]

/-- C67: `test_enforce_equal` passes for all operands: variables and constants, negated or not. -/
theorem C67_enforce_equal (aConst bConst : Bool) (h : (aConst && bConst) = false) (aBool bBool aNeg bNeg : Bool) :
    Passes (enforceEqual (F := BlsScalar) aConst bConst aBool bBool aNeg bNeg) ∧ Passes (enforceEqualConstants (F := BlsScalar) aBool bBool aNeg bNeg) := by
  refine ⟨enforceEqual_passes _ _ h _ _ _ _, ?_⟩
  cases aBool <;> cases bBool <;> cases aNeg <;> cases bNeg <;> eval_test [Passes, enforceEqualConstants, Boolean.enforceEqual, negIf, Boolean.neg]

/-- C67: `test_boolean_negation` passes. -/
theorem C67_negation (v : Bool) : Passes (booleanNegation (F := F) v) := by
  cases v <;> eval_test [Passes, booleanNegation, AllocatedBit.alloc, allocCapture, boolF, Var.one, Boolean.neg]

/-- C67: `test_boolean_xor`, `test_boolean_and`, `test_boolean_sha256_ch` and `test_boolean_sha256_maj` pass for all kinds of operands: the
result has the kind and value in the tables of the tests, the named variable has the value, and overwriting it breaks the constraint named. -/
theorem C67_boolean_tables (a b c : OperandType) :
    Passes (booleanXor (F := BlsScalar) a b) ∧ Passes (booleanAnd (F := BlsScalar) a b) ∧
    Passes (booleanTriop (F := BlsScalar) Boolean.sha256Ch "ch" "ch computation" (fun a b c => (a && b) ^^ ((!a) && c)) a b c) ∧
    Passes (booleanTriop (F := BlsScalar) Boolean.sha256Maj "maj" "maj computation" (fun a b c => (a && b) ^^ (a && c) ^^ (b && c)) a b c) :=
  ⟨booleanXor_passes a b, booleanAnd_passes a b, ch_passes a b c, maj_passes a b c⟩

/-- C67: `test_u64_into_boolean_vec_le` passes iff the bits listed in it are bits of the number. -/
theorem C67_u64_bits (v : BitVec 64) (expected : List (ℕ × Bool)) :
    Passes (u64IntoBits (F := F) v expected) ↔ ∀ e ∈ expected, e.1 < 64 ∧ v.getLsbD e.1 = e.2 := u64IntoBits_iff v expected

example : Passes (u64IntoBits (F := BlsScalar) 17234652694787248421#64
    [(63, true), (62, true), (61, true), (60, false), (59, true), (58, true), (43, true), (42, false), (41, false)]) := by
  rw [C67_u64_bits]
  decide

/-- C67: `test_field_into_allocated_bits_le` passes iff the bits listed in it are bits of the canonical representative, and these are 255. -/
theorem C67_field_bits (r : F) (expected : List (ℕ × Bool)) :
    Passes (fieldIntoBits r expected) ↔ NUM_BITS F = 255 ∧ ∀ e ∈ expected, e.1 < 255 ∧ (val r).testBit e.1 = e.2 := fieldIntoBits_iff r expected

example : Passes (fieldIntoBits (9147677615426976802526883532204139322118074541891858454835346926874644257775 : BlsScalar)
    [(254, false), (253, false), (252, true), (251, false), (250, true), (249, false), (234, true), (231, true)]) := by
  rw [C67_field_bits]
  decide +kernel

/-- C67: `test_alloc_conditionally` passes: the gadget fails without a value; with one the system is satisfied iff not both the value and the
bit are true. -/
theorem C67_alloc_conditionally (value bit satisfied : Bool) :
    Passes (allocConditionallyErr (F := F) bit) ∧ (Passes (allocConditionally (F := F) value bit satisfied) ↔ satisfied = !(value && bit)) := by
  constructor
  · cases bit <;> eval_test [Passes, allocConditionallyErr, AllocatedBit.alloc, AllocatedBit.allocConditionally, allocCapture, boolF, Var.one]
  · cases value <;> cases bit <;> cases satisfied <;>
      eval_test [Passes, allocConditionally, AllocatedBit.alloc, AllocatedBit.allocConditionally, allocCapture, boolF, Var.one]

example : Passes (allocConditionally (F := BlsScalar) true true false) := (C67_alloc_conditionally _ _ _).2.2 rfl

/-! ### src/gadgets/test/mod.rs -/

/-- C67: `test_cs` passes iff the numbers fit: the product is right, the number that replaces a factor breaks the product and is the number
the equality constraint asks for, and the number that replaces the product repairs it. -/
theorem C67_test_cs (a b prod a' prod' h : F) :
    Passes (testCs a b prod a' prod' h) ↔ a * b = prod ∧ a' = b ∧ a' * b ≠ prod ∧ a' * b = prod' := testCs_iff a b prod a' prod' h

example : Passes (testCs (10 : BlsScalar) 4 40 4 16 1) := (C67_test_cs _ _ _ _ _ _).2 (by decide)

end Bellman
