import Verif.Spec.Constrained
import Verif.Gadgets.Boolean

/-!
# The exact size of a circuit
-/

namespace Bellman

variable {F : Type} [PrimeField F]

/-- Whenever `m` is synthesized successfully, by whatever constraint system and with whatever witness, it allocates exactly `v`
auxiliary variables, makes exactly `c` constraints, and its result satisfies `Q`. -/
def HasSize {α : Type} (m : Synth F α) (v c : ℕ) (Q : α → Prop) : Prop :=
  ∀ t r, Exec m.run t (some (.ok r)) → numAux t = v ∧ (consOf t).length = c ∧ Q r

/-- No bit is a `Boolean::Constant`. -/
def NoConstants (l : List Boolean) : Prop := ∀ b ∈ l, b.isConstant = false

/-- All bits are `Boolean::Constant`s. -/
def Constants (l : List Boolean) : Prop := ∀ b ∈ l, b.isConstant = true

end Bellman
