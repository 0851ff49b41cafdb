import Verif.Proofs.GadgetTests
import Verif.FieldInstances

/-! The unit tests of boolean.rs that run through all kinds of operands, at the scalar field of BLS12-381.
Each of these tests runs through a finite table; the proof evaluates the model on every entry. -/

namespace Bellman.GadgetTests
open PrimeField
set_option linter.unusedSectionVars false
set_option maxHeartbeats 2000000
variable {F : Type} [PrimeField F] {α β : Type}

theorem booleanXor_passes (a b : OperandType) : Passes (booleanXor (F := BlsScalar) a b) := by
  rw [passes_iff]
  cases a <;> cases b <;> decide +kernel
theorem booleanAnd_passes (a b : OperandType) : Passes (booleanAnd (F := BlsScalar) a b) := by
  rw [passes_iff]
  cases a <;> cases b <;> decide +kernel
theorem enforceEqual_passes (x y : Bool) (h : (x && y) = false) (a b c d : Bool) : Passes (enforceEqual (F := BlsScalar) x y a b c d) := by
  rw [passes_iff]
  revert x y a b c d
  decide +kernel
theorem ch_passes (a b c : OperandType) : Passes (booleanTriop (F := BlsScalar) Boolean.sha256Ch "ch" "ch computation" (fun a b c => (a && b) ^^ ((!a) && c)) a b c) := by
  rw [passes_iff]
  cases a <;> cases b <;> cases c <;> decide +kernel

theorem maj_passes (a b c : OperandType) : Passes (booleanTriop (F := BlsScalar) Boolean.sha256Maj "maj" "maj computation" (fun a b c => (a && b) ^^ (a && c) ^^ (b && c)) a b c) := by
  rw [passes_iff]
  cases a <;> cases b <;> cases c <;> decide +kernel

end Bellman.GadgetTests
