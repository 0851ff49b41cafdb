import Verif.Groth16.Keys

/-!
# Model of the verifier (groth16/src/verifier.rs)
-/

namespace Bellman

/-- src/lib.rs:351-358 `enum VerificationError`. -/
inductive VerificationError where
  | invalidVerifyingKey
  | invalidProof
deriving DecidableEq, Repr

/-- groth16/src/lib.rs:400-409 `struct PreparedVerifyingKey`; `E::G2Prepared` is identified with the point it was made from. -/
structure PreparedVerifyingKey (G1 G2 GT : Type) where
  alphaG1BetaG2 : GT
  negGammaG2 : G2
  negDeltaG2 : G2
  ic : List G1

variable {F G1 G2 GT : Type} [PrimeField F] [AddCommGroup G1] [AddCommGroup G2] [AddCommGroup GT]
  [Module F G1] [Module F G2] [Module F GT] [DecidableEq GT]

/-- groth16/src/verifier.rs:11-21 `prepare_verifying_key`. -/
def prepareVerifyingKey (E : Engine F G1 G2 GT) (vk : VerifyingKey G1 G2) : PreparedVerifyingKey G1 G2 GT :=
  let gamma := -vk.gammaG2
  let delta := -vk.deltaG2
  { alphaG1BetaG2 := E.pairing vk.alphaG1 vk.betaG2
    negGammaG2 := gamma
    negDeltaG2 := delta
    ic := vk.ic }

/-- groth16/src/verifier.rs:23-58 `verify_proof`; `ic[0]` panics on an empty vector, which the length check excludes. -/
def verifyProof (E : Engine F G1 G2 GT) (pvk : PreparedVerifyingKey G1 G2 GT) (proof : Proof G1 G2)
    (publicInputs : List F) : Option (Except VerificationError Unit) :=
  if publicInputs.length + 1 ≠ pvk.ic.length then some (.error .invalidVerifyingKey)
  else
    (pvk.ic[0]?).bind fun acc =>
    let acc := (publicInputs.zip (pvk.ic.drop 1)).foldl (fun acc x => acc + x.1 • x.2) acc
    if pvk.alphaG1BetaG2 = E.finalExponentiation (E.multiMillerLoop
        [(proof.a, proof.b), (acc, pvk.negGammaG2), (proof.c, pvk.negDeltaG2)])
    then some (.ok ())
    else some (.error .invalidProof)

end Bellman
