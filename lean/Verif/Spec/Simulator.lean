import Verif.Spec.Groth16

/-!
# The Groth16 simulator and adaptive transcripts (specification)
-/

namespace Bellman

open Finset

variable {F : Type} [PrimeField F] {G1 G2 : Type} [AddCommGroup G1] [AddCommGroup G2] [Module F G1] [Module F G2]

/-- A proof made from the trapdoors, without a witness: `A` and `B` are drawn (`u g₁`, `v g₂`), `C` solves the verification equation. -/
def simulateProof (g1 : G1) (g2 : G2) (α β γ δ : F) (vk : VerifyingKey G1 G2) (inputs : List F) (x : F × F) : Proof G1 G2 where
  a := x.1 • g1
  b := x.2 • g2
  c := ((x.1 * x.2 - α * β) / δ) • g1 - (γ / δ) • ∑ i ∈ range vk.ic.length, ((1 : F) :: inputs).getD i 0 • vk.ic.getD i 0

/-- What an adversary sees who asks for one proof after the other: `answer` gets the proofs given so far and fresh randomness. -/
def transcript {P : Type} (answer : List P → F × F → P) : List P → List (F × F) → List P
  | seen, [] => seen
  | seen, x :: xs => transcript answer (seen ++ [answer seen x]) xs

end Bellman
