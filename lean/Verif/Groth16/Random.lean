import Verif.Groth16.Generator
import Verif.Groth16.Prover

/-!
# Model of the entry points that draw their own randomness

`generate_random_parameters` (groth16/src/generator.rs:19-39) and `create_random_proof` (groth16/src/prover.rs:164-179).
-/

namespace Bellman

open PrimeField

/-- A random number generator (`R: RngCore`) seen through the draws that are made from it: `E::Fr::random`, `E::G1::random` and
`E::G2::random` each return a value and leave the generator in a new state. Nothing is assumed about the values.
Used at groth16/src/generator.rs:19-39 and groth16/src/prover.rs:164-179. -/
structure Rng (σ F G1 G2 : Type) where
  field : σ → F × σ
  g1 : σ → G1 × σ
  g2 : σ → G2 × σ

variable {F : Type} [PrimeField F] {G1 G2 σ : Type} [AddCommGroup G1] [AddCommGroup G2] [Module F G1] [Module F G2]
  [DecidableEq G1] [DecidableEq G2]

/-- `generate_random_parameters` (groth16/src/generator.rs:19-39): the result and the state the generator is left in. -/
def generateRandomParameters (rng : Rng σ F G1 G2) (w : Worker) (circuit : Synth F Unit) (s : σ) : Res (Parameters G1 G2) × σ :=
  let (g1, s) := rng.g1 s
  let (g2, s) := rng.g2 s
  let (alpha, s) := rng.field s
  let (beta, s) := rng.field s
  let (gamma, s) := rng.field s
  let (delta, s) := rng.field s
  let (tau, s) := rng.field s
  (generateParameters w circuit g1 g2 alpha beta gamma delta tau, s)

/-- `create_random_proof` (groth16/src/prover.rs:164-179), with `&Parameters` as parameter source. -/
noncomputable def createRandomProof (rng : Rng σ F G1 G2) (w : Worker) (circuit : Synth F Unit) (params : Parameters G1 G2) (st : σ) :
    Res (Proof G1 G2) × σ :=
  let (r, st) := rng.field st
  let (s, st) := rng.field st
  (createProof w circuit params r s, st)

end Bellman
