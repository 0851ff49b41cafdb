import Verif.Groth16.Batch
import Verif.Machine

/-!
# Verification with machine words (groth16/src/verifier.rs, groth16/src/verifier/batch.rs)

The comparison of the number of inputs with the length of `ic` adds one to a length, in words of 64 bits.
-/

namespace Bellman

variable {F G1 G2 GT : Type} [PrimeField F] [AddCommGroup G1] [AddCommGroup G2] [AddCommGroup GT]
  [Module F G1] [Module F G2] [Module F GT] [DecidableEq GT]

/-- groth16/src/verifier.rs:23-58 `verify_proof`, with the addition of line 28 on words. -/
def verifyProofW (b : Build) (E : Engine F G1 G2 GT) (pvk : PreparedVerifyingKey G1 G2 GT) (proof : Proof G1 G2)
    (publicInputs : List F) : Option (Except VerificationError Unit) :=
  (b.add 64 publicInputs.length 1).bind fun expected =>
  if expected ≠ pvk.ic.length then some (.error .invalidVerifyingKey)
  else
    (pvk.ic[0]?).bind fun acc =>
    let acc := (publicInputs.zip (pvk.ic.drop 1)).foldl (fun acc x => acc + x.1 • x.2) acc
    if pvk.alphaG1BetaG2 = E.finalExponentiation (E.multiMillerLoop
        [(proof.a, proof.b), (acc, pvk.negGammaG2), (proof.c, pvk.negDeltaG2)])
    then some (.ok ())
    else some (.error .invalidProof)

/-- groth16/src/verifier/batch.rs:105-108,183-186: `any` over the items, which stops at the first item that differs; the addition is on
words. -/
def lengthsDifferW (b : Build) (icLen : ℕ) : List (Item F G1 G2) → Option Bool
  | [] => some false
  | it :: items =>
    (b.add 64 it.inputs.length 1).bind fun expected =>
    if expected ≠ icLen then some true else lengthsDifferW b icLen items

/-- groth16/src/verifier/batch.rs:100-173 `Verifier::verify`, with the addition of line 108 on words. -/
def BatchVerifier.verifyW (b : Build) (E : Engine F G1 G2 GT) (v : BatchVerifier F G1 G2) (tape : List F) (vk : VerifyingKey G1 G2) :
    Option (Except VerificationError Unit) :=
  (lengthsDifferW b vk.ic.length v.items).bind fun differ =>
  if differ then some (.error .invalidVerifyingKey)
  else
    (batchLoop v.items tape { mlTerms := [], gammas := List.replicate vk.ic.length 0, delta := 0, y := 0 }).bind fun st =>
    let mlTerms := st.mlTerms ++ [(st.delta, vk.deltaG2)]
    let mlTerms := mlTerms ++ [(batchPsi vk.ic st.gammas, vk.gammaG2)]
    let mlTerms := mlTerms ++ [(st.y • vk.alphaG1, vk.betaG2)]
    if E.finalExponentiation (E.multiMillerLoop mlTerms) = 0 then some (.ok ())
    else some (.error .invalidProof)

/-- groth16/src/verifier/batch.rs:182-286 `Verifier::verify_multicore`, with the addition of line 186 on words; tapes and tree as in
`BatchVerifier.verifyMulticore`. -/
def BatchVerifier.verifyMulticoreW (b : Build) (E : Engine F G1 G2 GT) (v : BatchVerifier F G1 G2) (tapes : ℕ → List F)
    (tree : ReduceTree) (vk : VerifyingKey G1 G2) : Option (Except VerificationError Unit) :=
  (lengthsDifferW b vk.ic.length v.items).bind fun differ =>
  if differ then some (.error .invalidVerifyingKey)
  else
    let icLen := vk.ic.length
    (chunks? 8 v.items).bind fun chunks =>
    ((chunks.zipIdx).mapM fun x => chunkAcc E icLen x.1 (tapes x.2)).bind fun accs =>
    let acc := tree.reduce (BatchAccumulator.new icLen) (BatchAccumulator.combine E) accs
    match acc.mlResult with
    | none => some (.ok ())
    | some mlResult =>
      let psi := batchPsi vk.ic acc.gammas
      let mlResult := E.millerAdd mlResult (E.multiMillerLoop
        [(acc.delta, vk.deltaG2), (psi, vk.gammaG2), (acc.y • vk.alphaG1, vk.betaG2)])
      if E.finalExponentiation mlResult = 0 then some (.ok ())
      else some (.error .invalidProof)

end Bellman
