import Verif.Spec.Qap

/-!
# Constrained variables and the size of a circuit (specification)
-/

namespace Bellman

variable {F : Type} [PrimeField F]

/-- The coefficients of `x` do not vanish everywhere: some constraint has a non-zero total coefficient for `x` in one of its parts. -/
def Constrained (rows : List (Row F)) (x : Var) : Prop :=
  ∃ r ∈ rows, r.1.coeffOf x ≠ 0 ∨ r.2.1.coeffOf x ≠ 0 ∨ r.2.2.coeffOf x ≠ 0

/-- Every successful execution of the program that starts with `n` inputs and `k` auxiliary variables allocated, against any
implementation that numbers variables consecutively, constrains every auxiliary variable that it allocates. -/
def Constraining {α : Type} (n k : ℕ) (m : Synth F α) : Prop :=
  ∀ t a, Exec m.run t (some (.ok a)) → Numbered n k t → ∀ j, k ≤ j → j < k + numAux t → Constrained (consOf t) (.aux j)

/-- No such execution, successful or not, makes more than `N` constraints or allocates more than `A` auxiliary variables. -/
def AtMost {α : Type} (n k N A : ℕ) (m : Synth F α) : Prop :=
  ∀ t r, Exec m.run t r → Numbered n k t → (consOf t).length ≤ N ∧ numAux t ≤ A

/-- Both: nothing is left unconstrained, and at most `N` constraints and `A` auxiliary variables are made. -/
def Accounted {α : Type} (n k N A : ℕ) (m : Synth F α) : Prop := Constraining n k m ∧ AtMost n k N A m

end Bellman
