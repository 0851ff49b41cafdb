import Verif.Spec.Qap

/-!
# The constraint matrices of a circuit (specification)

Independent of the code: a circuit is its numbers of variables and, for every constraint, the total coefficient of every variable in
the three linear combinations.  Names, the order and repetition of terms, and terms with coefficient zero do not matter.
-/

namespace Bellman

/-- Two programs have the same matrices: equally many inputs and auxiliary variables, domains of the same size, and in every place of
the domain the same total coefficients.  Places beyond the last constraint count as constraints without terms. -/
structure Qap.SameMatrices {F : Type} [PrimeField F] (q q' : Qap F) : Prop where
  n : q.n = q'.n
  k : q.k = q'.k
  m : q.m = q'.m
  a : ∀ x ∈ q.vars, ∀ j < q.m, q.entry (·.1) x j = q'.entry (·.1) x j
  b : ∀ x ∈ q.vars, ∀ j < q.m, q.entry (·.2.1) x j = q'.entry (·.2.1) x j
  c : ∀ x ∈ q.vars, ∀ j < q.m, q.entry (·.2.2) x j = q'.entry (·.2.2) x j

end Bellman
