import Verif.Groth16.Keys
import Verif.Groth16.Assignment
import Verif.Groth16.Quotient

/-!
# Model of `create_proof` (groth16/src/prover.rs:182-361)
-/

namespace Bellman

open PrimeField

variable {F : Type} [PrimeField F]

/-- The loop adding the constraints `x * 0 = 0` for the inputs (groth16/src/prover.rs:208-215). -/
def proverInputConstraints (p : ProvingAssignment F) : Option (ProvingAssignment F) :=
  (List.range p.inputAssignment.length).foldlM (fun p i => p.enforce ((LC.zero : LC F) + Var.input i) LC.zero LC.zero) p

/-- Lines groth16/src/prover.rs:193-215: allocate the constant one, synthesize with the witness, add the input constraints. -/
def assign? (circuit : Synth F Unit) : Res (ProvingAssignment F) := do
  let one := (ProvingAssignment.new : ProvingAssignment F).allocInput (.ok 1)
  let _ ← Res.ofExcept one.1
  let out ← synthesizeWith ProvingAssignment.impl circuit one.2
  Res.lift (proverInputConstraints out.2)

section

variable {G1 G2 : Type} [AddCommGroup G1] [AddCommGroup G2] [Module F G1] [Module F G2] [DecidableEq G1] [DecidableEq G2]

/-- `create_proof` (groth16/src/prover.rs:182-361) with `&Parameters` as parameter source. A call of `multiexp` yields the
result its `Waiter` will deliver (`Verif/Compute.lean`); a panic inside it is a panic here; an error is returned by the `wait()?`
that asks for it, in the order of lines 339-354. Not represented: an early return drops the waiters of computations that are
still running, which with the `multicore` feature can abort the process (C41). -/
noncomputable def createProof (w : Worker) (circuit : Synth F Unit) (params : Parameters G1 G2) (r s : F) :
    Res (Proof G1 G2) := do
  let prover ← assign? circuit
  -- 219
  let vk ← Res.ofExcept (params.getVk prover.inputAssignment.length)
  -- 221-245
  let hc ← (hCoeffs (w.site 0) prover.a prover.b prover.c : Res (List F))
  let hSource ← Res.ofExcept (params.getH hc.length)
  let h ← Res.lift (multiexp F (w.site 1) hSource .full (hc.map Exponent.ofField))
  -- 248-261
  let inputAssignment := prover.inputAssignment.map Exponent.ofField
  let auxAssignment := prover.auxAssignment.map Exponent.ofField
  -- 263-268
  let lSource ← Res.ofExcept (params.getL auxAssignment.length)
  let l ← Res.lift (multiexp F (w.site 2) lSource .full auxAssignment)
  -- 270-286
  let aAuxDensityTotal := prover.aAuxDensity.getTotalDensity
  let aSources ← Res.ofExcept (params.getA inputAssignment.length aAuxDensityTotal)
  let aInputs ← Res.lift (multiexp F (w.site 3) aSources.1 .full inputAssignment)
  let aAux ← Res.lift (multiexp F (w.site 4) aSources.2 (.tracker prover.aAuxDensity) auxAssignment)
  -- 288-291
  let bInputDensity := prover.bInputDensity
  let bInputDensityTotal := bInputDensity.getTotalDensity
  let bAuxDensity := prover.bAuxDensity
  let bAuxDensityTotal := bAuxDensity.getTotalDensity
  -- 293-307
  let b1Sources ← Res.ofExcept (params.getBG1 bInputDensityTotal bAuxDensityTotal)
  let b1Inputs ← Res.lift (multiexp F (w.site 5) b1Sources.1 (.tracker bInputDensity) inputAssignment)
  let b1Aux ← Res.lift (multiexp F (w.site 6) b1Sources.2 (.tracker bAuxDensity) auxAssignment)
  -- 309-318
  let b2Sources ← Res.ofExcept (params.getBG2 bInputDensityTotal bAuxDensityTotal)
  let b2Inputs ← Res.lift (multiexp F (w.site 7) b2Sources.1 (.tracker bInputDensity) inputAssignment)
  let b2Aux ← Res.lift (multiexp F (w.site 8) b2Sources.2 (.tracker bAuxDensity) auxAssignment)
  -- 320-324
  if vk.deltaG1 = 0 ∨ vk.deltaG2 = 0 then Res.err .unexpectedIdentity
  else do
    -- 326-338
    let gA := r • vk.deltaG1 + vk.alphaG1
    let gB := s • vk.deltaG2 + vk.betaG2
    let rs := r * s
    let gC := rs • vk.deltaG1 + s • vk.alphaG1 + r • vk.betaG1
    -- 339-343
    let x ← Res.ofExcept aInputs
    let y ← Res.ofExcept aAux
    let aAnswer := x + y
    let gA := gA + aAnswer
    let gC := gC + s • aAnswer
    -- 345-348
    let x ← Res.ofExcept b1Inputs
    let y ← Res.ofExcept b1Aux
    let b1Answer := x + y
    let x ← Res.ofExcept b2Inputs
    let y ← Res.ofExcept b2Aux
    let b2Answer := x + y
    -- 350-354
    let gB := gB + b2Answer
    let gC := gC + r • b1Answer
    let hAnswer ← Res.ofExcept h
    let gC := gC + hAnswer
    let lAnswer ← Res.ofExcept l
    let gC := gC + lAnswer
    pure { a := gA, b := gB, c := gC }

end

end Bellman
