import Verif.Gadgets.Boolean
import Mathlib.Data.Fintype.Pi
import Mathlib.Data.Fintype.Card
import Mathlib.Data.Fin.VecNotation

/-!
# On how many of its operands a function of bits depends

Independent of the gadgets: an operand that is a constant can have one value only, any other operand can have both.
-/

namespace Bellman

/-- The value of a constant; none for a bit that may have either value. -/
def fixedValue : Boolean → Option Bool
  | .constant c => some c
  | _ => none

/-- The values which operands with these fixed values can have. -/
def Possible {n : ℕ} (k : Fin n → Option Bool) (x : Fin n → Bool) : Prop := ∀ i c, k i = some c → x i = c

instance {n : ℕ} (k : Fin n → Option Bool) (x : Fin n → Bool) : Decidable (Possible k x) :=
  inferInstanceAs (Decidable (∀ i c, k i = some c → x i = c))

/-- Changing nothing but operand `i` can change the value of `f`. -/
def Matters {n : ℕ} (f : (Fin n → Bool) → Bool) (k : Fin n → Option Bool) (i : Fin n) : Prop :=
  ∃ x y, Possible k x ∧ Possible k y ∧ (∀ j, j ≠ i → x j = y j) ∧ f x ≠ f y

instance {n : ℕ} (f : (Fin n → Bool) → Bool) (k : Fin n → Option Bool) (i : Fin n) : Decidable (Matters f k i) :=
  inferInstanceAs (Decidable (∃ x y, Possible k x ∧ Possible k y ∧ (∀ j, j ≠ i → x j = y j) ∧ f x ≠ f y))

/-- The number of operands that matter. -/
def relevant {n : ℕ} (f : (Fin n → Bool) → Bool) (ops : Fin n → Boolean) : ℕ :=
  Fintype.card {i // Matters f (fun j => fixedValue (ops j)) i}

end Bellman
