import Verif.Examples.Mimc
import Verif.Groth16.Generator
import Verif.Groth16.Prover
import Verif.Groth16.Batch
import Verif.Groth16.Serialize

/-!
# The integration tests `test_mimc` and `batch_verify` (groth16/tests/mimc.rs)

`none` is a failed assertion, a failed `unwrap` or a panic further down.  Random values are arguments: the code draws the constants, the
preimages and the blinding factors from one generator (see C45 for what the generator contributes).  Timing and printing are left out.
-/

namespace Bellman.Mimc

variable {F : Type} [PrimeField F] {G1 G2 GT : Type} [AddCommGroup G1] [AddCommGroup G2] [AddCommGroup GT] [Module F G1] [Module F G2]
  [Module F GT] [DecidableEq G1] [DecidableEq G2] [DecidableEq GT]

/-- What is drawn for one sample: `xl`, `xr` and the blinding factors of `create_random_proof` (groth16/tests/mimc.rs:145-146, 162). -/
structure Sample (F : Type) where
  xl : F
  xr : F
  r : F
  s : F

/-- groth16/tests/mimc.rs:61-92 and 143-176, the body of the loop of both tests: prove, write, read, verify. -/
noncomputable def oneSample (E : Engine F G1 G2 GT) (c1 : PointCodec G1) (c2 : PointCodec G2) (w : Worker) (constants : List F) (params : Parameters G1 G2)
    (x : Sample F) : Option (Proof G1 G2 × List F) :=
  (mimc x.xl x.xr constants).bind fun image =>
  match (createProof w (Demo.mk (some x.xl) (some x.xr) constants).synthesize params x.r x.s : Option (Except SynthesisError (Proof G1 G2))) with
  | some (.ok proof) =>
    match proof.write c1 c2 ⟨[], none⟩ with
    | (.ok (), proofVec) =>
      match Proof.read c1 c2 proofVec.out with
      | some (.ok (proof, _)) =>
        if verifyProof E (prepareVerifyingKey E params.vk) proof [image] = some (.ok ()) then some (proof, [image]) else none
      | _ => none
    | _ => none
  | _ => none

/-- groth16/tests/mimc.rs:23-103 `test_mimc`, after the parameters are made. -/
noncomputable def testMimc (E : Engine F G1 G2 GT) (c1 : PointCodec G1) (c2 : PointCodec G2) (w : Worker) (constants : List F) (params : Parameters G1 G2)
    (samples : List (Sample F)) : Option Unit :=
  (samples.mapM (oneSample E c1 c2 w constants params)).map fun _ => ()

/-- groth16/tests/mimc.rs:105-207 `batch_verify`, after the parameters are made; `tape` are the weights drawn by `batch.verify`. -/
noncomputable def batchVerify (E : Engine F G1 G2 GT) (c1 : PointCodec G1) (c2 : PointCodec G2) (w : Worker) (constants : List F)
    (params : Parameters G1 G2) (samples : List (Sample F)) (tape : List F) : Option Unit :=
  (samples.mapM (oneSample E c1 c2 w constants params)).bind fun xs =>
  let batch := xs.foldl (fun (b : BatchVerifier F G1 G2) x => b.queue (Item.ofPair x)) BatchVerifier.new
  if batch.verify E tape params.vk = some (.ok ()) then some () else none

end Bellman.Mimc
