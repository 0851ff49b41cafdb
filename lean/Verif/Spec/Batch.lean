import Verif.Groth16.Batch
import Verif.Spec.Groth16

/-!
# Batch verification (specification)
-/

namespace Bellman

open Finset PrimeField

variable {F G1 G2 GT : Type} [PrimeField F] [AddCommGroup G1] [AddCommGroup G2] [AddCommGroup GT] [Module F G1] [Module F G2]
    [Module F GT]

/-- By how much an item misses the pairing equation. -/
def Item.defect (E : Engine F G1 G2 GT) (vk : VerifyingKey G1 G2) (it : Item F G1 G2) : GT :=
  E.pairing vk.alphaG1 vk.betaG2 +
    E.pairing (∑ i ∈ range vk.ic.length, ((1 : F) :: it.inputs).getD i 0 • vk.ic.getD i 0) vk.gammaG2 +
    E.pairing it.proof.c vk.deltaG2 - E.pairing it.proof.a it.proof.b

/-- The weights a tape provides: its values other than zero, in order. -/
def weights (tape : List F) : List F := tape.filter (· ≠ 0)

end Bellman
