import Verif.Gadgets.Num
import Verif.Proofs.Boolean

/-!
# Specification: gadgets that leave the prover no choice
-/

namespace Bellman

open PrimeField

variable {F : Type} [PrimeField F] {α : Type}

/-- The variables allocated in a trace. -/
def allocated (t : List (Ev F)) : List Var := t.filterMap fun
  | .alloc _ _ x _ => some x
  | _ => none

/-- The variable of a literal, if it has one. -/
def Boolean.vars : Boolean → List Var
  | .is b | .not b => [b.var]
  | .constant _ => []

/-- Every literal of the list denotes a bit. -/
def AreBits (bits : List Boolean) (ρ : Var → F) : Prop := ∀ b ∈ bits, ∃ x, b.Bit ρ x

/-- The prover has no choice: two assignments that satisfy the constraints of a successful run of the program and agree on the `inputs` agree on
every variable that the run allocates.  `P` is assumed of the inputs. -/
def Unique (P : (Var → F) → Prop) (inputs : List Var) (m : Synth F α) : Prop :=
  ∀ t a, Exec m.run t (some (.ok a)) → ∀ ρ ρ' : Var → F, ρ .one = 1 → ρ' .one = 1 → P ρ → (∀ x ∈ inputs, ρ x = ρ' x) →
    Sat ρ t → Sat ρ' t → ∀ x ∈ allocated t, ρ x = ρ' x

/-- No assumption about the inputs. -/
abbrev anyInputs : (Var → F) → Prop := fun _ => True

end Bellman
