import Verif.Examples.MimcTest
import Verif.Groth16.Ops

/-!
# The benchmark `bench_batch_verify` (groth16/benches/batch.rs)

Random values are arguments, as in `Verif/Examples/MimcTest.lean`; what criterion does with the time is left out.
-/

namespace Bellman.Mimc

variable {F : Type} [PrimeField F] {G1 G2 GT : Type} [AddCommGroup G1] [AddCommGroup G2] [AddCommGroup GT] [Module F G1] [Module F G2]
  [Module F GT] [DecidableEq G1] [DecidableEq G2] [DecidableEq GT]

/-- groth16/benches/batch.rs:20: the numbers of proofs. -/
def benchSizes : List ℕ := [8, 16, 24, 32, 40, 48, 56, 64]

/-- groth16/benches/batch.rs:44-65: the proofs and their inputs; `mimc` panics for a wrong number of constants, `unwrap` on an error. -/
noncomputable def benchProofs (w : Worker) (constants : List F) (params : Parameters G1 G2) (samples : List (Sample F)) :
    Option (List (Proof G1 G2 × F)) :=
  samples.mapM fun x =>
    (mimc x.xl x.xr constants).bind fun image =>
    match (createProof w (Demo.mk (some x.xl) (some x.xr) constants).synthesize params x.r x.s : Option (Except SynthesisError (Proof G1 G2))) with
    | some (.ok proof) => some (proof, image)
    | _ => none

/-- groth16/benches/batch.rs:71-75, one turn of "Unbatched verification"; the code throws the results away, here they are the value. -/
def benchUnbatched (E : Engine F G1 G2 GT) (pvk : PreparedVerifyingKey G1 G2 GT) (proofs : List (Proof G1 G2 × F)) :
    Counted (List (Except VerificationError Unit)) :=
  proofs.mapM fun x => verifyProofC E pvk x.1 [x.2]

/-- groth16/benches/batch.rs:83-89, one turn of "Batched verification"; `tape` is what `batch.verify` draws. -/
def benchBatched (E : Engine F G1 G2 GT) (vk : VerifyingKey G1 G2) (proofs : List (Proof G1 G2 × F)) (tape : List F) :
    Counted (Except VerificationError Unit) :=
  let batch := proofs.foldl (fun (b : BatchVerifier F G1 G2) x => b.queue (Item.ofPair (x.1, [x.2]))) BatchVerifier.new
  batch.verifyC E tape vk

end Bellman.Mimc
