import Verif.Spec.Strategy
import Verif.Spec.Simulator

/-!
# Algebraic provers who have seen proofs (specification)

Such a prover computes every element of a proof as a linear combination of the elements of the parameters, the two generators and the
elements of `n` proofs made by others.  The coefficients are chosen without knowing the trapdoors or the blinding factors.
-/

namespace Bellman

open Finset

/-- Coefficients of the three elements of a proof: those of the parameters' elements (`base`), and those of the elements of the proofs seen. -/
structure SeeingStrategy (F : Type) (n : ℕ) where
  base : Strategy F
  /-- of the first element of the `k`-th proof, in the first element -/
  aa : Fin n → F
  /-- of the third element of the `k`-th proof, in the first element -/
  ac : Fin n → F
  /-- of the second element of the `k`-th proof, in the second element -/
  bb : Fin n → F
  /-- of the first element of the `k`-th proof, in the third element -/
  ca : Fin n → F
  /-- of the third element of the `k`-th proof, in the third element -/
  cc : Fin n → F

variable {F G1 G2 : Type} [PrimeField F] [AddCommGroup G1] [AddCommGroup G2] [Module F G1] [Module F G2] {n : ℕ}

/-- The proof the strategy outputs for given parameters, having seen the given proofs. -/
def SeeingStrategy.proof (σ : SeeingStrategy F n) (g1 : G1) (g2 : G2) (p : Parameters G1 G2) (seen : Fin n → Proof G1 G2) : Proof G1 G2 where
  a := σ.base.a.apply g1 p + ∑ k, (σ.aa k • (seen k).a + σ.ac k • (seen k).c)
  b := σ.base.b.apply g2 p + ∑ k, σ.bb k • (seen k).b
  c := σ.base.c.apply g1 p + ∑ k, (σ.ca k • (seen k).a + σ.cc k • (seen k).c)

/-- The assignment read off the strategy: the public inputs, and the coefficients of the auxiliary elements of the parameters in the third
proof element. -/
def SeeingStrategy.extract (σ : SeeingStrategy F n) (xs : List F) : Var → F := σ.base.extract xs

end Bellman
