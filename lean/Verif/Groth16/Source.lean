import Verif.Groth16.Prover

/-!
# Model of the trait `ParameterSource` (groth16/src/lib.rs:411-474) and of `create_proof` over any source

The other theorems use `createProof`, the instance for `&Parameters`. Here the proving key may come from anywhere, for example from a
file of which only the parts asked for are read.
-/

namespace Bellman

open PrimeField

variable {F : Type} [PrimeField F]

/-- groth16/src/lib.rs:411-433 `trait ParameterSource`. `π` is what `&mut self` refers to: every method may change it, also when it
returns an error. Simplified: the associated builder types are sources over vectors, `(Arc<Vec<_>>, usize)`, which is the only
implementation of `SourceBuilder` (src/multiexp.rs:45-52); methods return (they do not panic or diverge). -/
structure ParameterSource (π G1 G2 : Type) where
  getVk : ℕ → π → Except SynthesisError (VerifyingKey G1 G2) × π
  getH : ℕ → π → Except SynthesisError (BaseSource G1) × π
  getL : ℕ → π → Except SynthesisError (BaseSource G1) × π
  getA : ℕ → ℕ → π → Except SynthesisError (BaseSource G1 × BaseSource G1) × π
  getBG1 : ℕ → ℕ → π → Except SynthesisError (BaseSource G1 × BaseSource G1) × π
  getBG2 : ℕ → ℕ → π → Except SynthesisError (BaseSource G2 × BaseSource G2) × π

/-- groth16/src/lib.rs:435-474 `impl ParameterSource for &Parameters`: the key does not change. -/
def Parameters.source (G1 G2 : Type) : ParameterSource (Parameters G1 G2) G1 G2 where
  getVk n p := (p.getVk n, p)
  getH n p := (p.getH n, p)
  getL n p := (p.getL n, p)
  getA n k p := (p.getA n k, p)
  getBG1 n k p := (p.getBG1 n k, p)
  getBG2 n k p := (p.getBG2 n k, p)

/-- The body of `create_proof`: it may panic (`none`), return an error, and changes the source (`mut params: P`,
groth16/src/prover.rs:184). -/
def SProg (π α : Type) := π → Option (Except SynthesisError α × π)

namespace SProg

variable {π α β : Type}

/-- `Ok(a)` (model scaffolding for groth16/src/prover.rs:182-361, as are the following three). -/
def ok (a : α) : SProg π α := fun s => some (.ok a, s)

/-- Sequencing with `?`. Model device, no counterpart in the code. -/
def bind (x : SProg π α) (f : α → SProg π β) : SProg π β := fun s =>
  match x s with
  | none => none
  | some (.error e, s') => some (.error e, s')
  | some (.ok a, s') => f a s'

instance : Monad (SProg π) where
  pure := ok
  bind := bind

/-- Code that does not touch the source. Model device, no counterpart in the code. -/
def lift (x : Res α) : SProg π α := fun s =>
  match x with
  | none => none
  | some r => some (r, s)

/-- A call of a method of the source, with `?`. groth16/src/prover.rs:219, 244, 265, 273, 294, 310. -/
def call (f : π → Except SynthesisError α × π) : SProg π α := fun s => some (f s)

end SProg

section

variable {G1 G2 π : Type} [AddCommGroup G1] [AddCommGroup G2] [Module F G1] [Module F G2] [DecidableEq G1] [DecidableEq G2]

/-- `create_proof` (groth16/src/prover.rs:182-361) for an arbitrary parameter source; simplified as `createProof` is. -/
noncomputable def createProofFrom (w : Worker) (circuit : Synth F Unit) (src : ParameterSource π G1 G2) (r s : F) :
    SProg π (Proof G1 G2) := do
  let prover ← SProg.lift (assign? circuit)
  -- 219
  let vk ← SProg.call (src.getVk prover.inputAssignment.length)
  -- 221-245
  let hc ← SProg.lift (hCoeffs (w.site 0) prover.a prover.b prover.c : Res (List F))
  let hSource ← SProg.call (src.getH hc.length)
  let h ← SProg.lift (Res.lift (multiexp F (w.site 1) hSource .full (hc.map Exponent.ofField)))
  -- 248-261
  let inputAssignment := prover.inputAssignment.map Exponent.ofField
  let auxAssignment := prover.auxAssignment.map Exponent.ofField
  -- 263-268
  let lSource ← SProg.call (src.getL auxAssignment.length)
  let l ← SProg.lift (Res.lift (multiexp F (w.site 2) lSource .full auxAssignment))
  -- 270-286
  let aAuxDensityTotal := prover.aAuxDensity.getTotalDensity
  let aSources ← SProg.call (src.getA inputAssignment.length aAuxDensityTotal)
  let aInputs ← SProg.lift (Res.lift (multiexp F (w.site 3) aSources.1 .full inputAssignment))
  let aAux ← SProg.lift (Res.lift (multiexp F (w.site 4) aSources.2 (.tracker prover.aAuxDensity) auxAssignment))
  -- 288-291
  let bInputDensity := prover.bInputDensity
  let bInputDensityTotal := bInputDensity.getTotalDensity
  let bAuxDensity := prover.bAuxDensity
  let bAuxDensityTotal := bAuxDensity.getTotalDensity
  -- 293-307
  let b1Sources ← SProg.call (src.getBG1 bInputDensityTotal bAuxDensityTotal)
  let b1Inputs ← SProg.lift (Res.lift (multiexp F (w.site 5) b1Sources.1 (.tracker bInputDensity) inputAssignment))
  let b1Aux ← SProg.lift (Res.lift (multiexp F (w.site 6) b1Sources.2 (.tracker bAuxDensity) auxAssignment))
  -- 309-318
  let b2Sources ← SProg.call (src.getBG2 bInputDensityTotal bAuxDensityTotal)
  let b2Inputs ← SProg.lift (Res.lift (multiexp F (w.site 7) b2Sources.1 (.tracker bInputDensity) inputAssignment))
  let b2Aux ← SProg.lift (Res.lift (multiexp F (w.site 8) b2Sources.2 (.tracker bAuxDensity) auxAssignment))
  -- 320-354: the source is not used any more
  SProg.lift (if vk.deltaG1 = 0 ∨ vk.deltaG2 = 0 then Res.err .unexpectedIdentity
  else do
    let gA := r • vk.deltaG1 + vk.alphaG1
    let gB := s • vk.deltaG2 + vk.betaG2
    let rs := r * s
    let gC := rs • vk.deltaG1 + s • vk.alphaG1 + r • vk.betaG1
    let x ← Res.ofExcept aInputs
    let y ← Res.ofExcept aAux
    let aAnswer := x + y
    let gA := gA + aAnswer
    let gC := gC + s • aAnswer
    let x ← Res.ofExcept b1Inputs
    let y ← Res.ofExcept b1Aux
    let b1Answer := x + y
    let x ← Res.ofExcept b2Inputs
    let y ← Res.ofExcept b2Aux
    let b2Answer := x + y
    let gB := gB + b2Answer
    let gC := gC + r • b1Answer
    let hAnswer ← Res.ofExcept h
    let gC := gC + hAnswer
    let lAnswer ← Res.ofExcept l
    let gC := gC + lAnswer
    pure { a := gA, b := gB, c := gC })

end

end Bellman
