import Verif.Machine
import Verif.Groth16.Prover
import Verif.Groth16.Generator
import Verif.Groth16.MachineAssembly
import Verif.Groth16.MachineAssignment

/-!
# Key generation and proving with machine integers

`generate_parameters` and `create_proof` as in `Verif/Groth16/Generator.lean` and `Verif/Groth16/Prover.lean`, with the transforms and
multiexponentiations of `Verif/Machine.lean` and a `usize` of 64 bits.  Synthesis has words for counters and limited vectors in
`generateParametersV` and `createProofV` only.
-/

namespace Bellman

open PrimeField EvaluationDomain

variable {F : Type} [PrimeField F]

/-! ## groth16/src/prover.rs -/

/-- `ifft` and `coset_fft` of one of the three vectors (groth16/src/prover.rs:225-230). -/
def toCosetW (b : Build) (w : Worker) (d : EvaluationDomain F F) : Option (EvaluationDomain F F) := do
  let d ← d.ifftW b (w.site 0)
  d.cosetFftW b (w.site 1)

/-- groth16/src/prover.rs:221-240: the coefficients of `h`. `none` is a panic. -/
def hCoeffsW (bd : Build) (w : Worker) (a b c : List F) : Option (Except SynthesisError (List F)) := do
  match ← (fromCoeffsW bd a : Option (Except SynthesisError (EvaluationDomain F F))) with
  | .error e => pure (.error e)
  | .ok a =>
  match ← (fromCoeffsW bd b : Option (Except SynthesisError (EvaluationDomain F F))) with
  | .error e => pure (.error e)
  | .ok b =>
  match ← (fromCoeffsW bd c : Option (Except SynthesisError (EvaluationDomain F F))) with
  | .error e => pure (.error e)
  | .ok c =>
  let a ← toCosetW bd (w.site 0) a
  let b ← toCosetW bd (w.site 1) b
  let c ← toCosetW bd (w.site 2) c
  let a ← a.mulAssign (w.site 3) b
  let a ← a.subAssign (w.site 4) c
  let a ← a.divideByZOnCoset (w.site 5)
  let a ← a.icosetFftW bd (w.site 6)
  let a := a.intoCoeffs
  let aLen ← bd.sub 64 a.length 1
  pure (.ok (a.take aLen))

section

variable {G1 G2 : Type} [AddCommGroup G1] [AddCommGroup G2] [Module F G1] [Module F G2] [DecidableEq G1] [DecidableEq G2]

/-- `create_proof` from the assignment on (groth16/src/prover.rs:217-361), as in `createProof`. -/
noncomputable def proveFromW (b : Build) (w : Worker) (prover : ProvingAssignment F) (params : Parameters G1 G2) (r s : F) :
    Res (Proof G1 G2) := do
  -- 219
  let vk ← Res.ofExcept (params.getVk prover.inputAssignment.length)
  -- 221-245
  let hc ← (hCoeffsW b (w.site 0) prover.a prover.b prover.c : Res (List F))
  let hSource ← Res.ofExcept (params.getH hc.length)
  let h ← Res.lift (multiexpW F b (w.site 1) hSource .full (hc.map Exponent.ofField))
  -- 248-261
  let inputAssignment := prover.inputAssignment.map Exponent.ofField
  let auxAssignment := prover.auxAssignment.map Exponent.ofField
  -- 263-268
  let lSource ← Res.ofExcept (params.getL auxAssignment.length)
  let l ← Res.lift (multiexpW F b (w.site 2) lSource .full auxAssignment)
  -- 270-286
  let aAuxDensityTotal := prover.aAuxDensity.getTotalDensity
  let aSources ← Res.ofExcept (params.getA inputAssignment.length aAuxDensityTotal)
  let aInputs ← Res.lift (multiexpW F b (w.site 3) aSources.1 .full inputAssignment)
  let aAux ← Res.lift (multiexpW F b (w.site 4) aSources.2 (.tracker prover.aAuxDensity) auxAssignment)
  -- 288-291
  let bInputDensity := prover.bInputDensity
  let bInputDensityTotal := bInputDensity.getTotalDensity
  let bAuxDensity := prover.bAuxDensity
  let bAuxDensityTotal := bAuxDensity.getTotalDensity
  -- 293-307
  let b1Sources ← Res.ofExcept (params.getBG1 bInputDensityTotal bAuxDensityTotal)
  let b1Inputs ← Res.lift (multiexpW F b (w.site 5) b1Sources.1 (.tracker bInputDensity) inputAssignment)
  let b1Aux ← Res.lift (multiexpW F b (w.site 6) b1Sources.2 (.tracker bAuxDensity) auxAssignment)
  -- 309-318
  let b2Sources ← Res.ofExcept (params.getBG2 bInputDensityTotal bAuxDensityTotal)
  let b2Inputs ← Res.lift (multiexpW F b (w.site 7) b2Sources.1 (.tracker bInputDensity) inputAssignment)
  let b2Aux ← Res.lift (multiexpW F b (w.site 8) b2Sources.2 (.tracker bAuxDensity) auxAssignment)
  -- 320-324
  if vk.deltaG1 = 0 ∨ vk.deltaG2 = 0 then Res.err .unexpectedIdentity
  else do
    -- 326-338
    let gA := r • vk.deltaG1 + vk.alphaG1
    let gB := s • vk.deltaG2 + vk.betaG2
    let rs := r * s
    let gC := rs • vk.deltaG1 + s • vk.alphaG1 + r • vk.betaG1
    -- 339-343
    let x ← Res.ofExcept aInputs
    let y ← Res.ofExcept aAux
    let aAnswer := x + y
    let gA := gA + aAnswer
    let gC := gC + s • aAnswer
    -- 345-348
    let x ← Res.ofExcept b1Inputs
    let y ← Res.ofExcept b1Aux
    let b1Answer := x + y
    let x ← Res.ofExcept b2Inputs
    let y ← Res.ofExcept b2Aux
    let b2Answer := x + y
    -- 350-354
    let gB := gB + b2Answer
    let gC := gC + r • b1Answer
    let hAnswer ← Res.ofExcept h
    let gC := gC + hAnswer
    let lAnswer ← Res.ofExcept l
    let gC := gC + lAnswer
    pure { a := gA, b := gB, c := gC }

/-- `create_proof` (groth16/src/prover.rs:182-361), as `createProof`, with unlimited vectors during synthesis. -/
noncomputable def createProofW (b : Build) (w : Worker) (circuit : Synth F Unit) (params : Parameters G1 G2) (r s : F) :
    Res (Proof G1 G2) := do
  let prover ← assign? circuit
  proveFromW b w prover params r s

/-- `create_proof` (groth16/src/prover.rs:182-361), as `createProof`, where the vectors of synthesis are limited as well. -/
noncomputable def createProofV (size : ℕ) (b : Build) (w : Worker) (circuit : Synth F Unit) (params : Parameters G1 G2) (r s : F) :
    Res (Proof G1 G2) := do
  let prover ← assignW size b circuit
  proveFromW b w prover params r s

/-! ## groth16/src/generator.rs -/

/-- The task computing one chunk of powers of tau (groth16/src/generator.rs:254-261). -/
def powersTaskW (b : Build) (tau : F) (chunk i : ℕ) (c : List F) : Task (List F × F) :=
  Task.guarded (b.mul 64 i chunk).isSome (loopTask (tau ^ (i * chunk % 2 ^ 64)) (fun cur _ => (cur, cur * tau)) c)

/-- `generate_parameters` from the assembly on (groth16/src/generator.rs:204-507), as in `generateParameters`. -/
def generateFromW (b : Build) (w : Worker) (assembly : KeypairAssembly F) (g1 : G1) (g2 : G2) (alpha beta gamma delta tau : F) :
    Res (Parameters G1 G2) := do
  -- 205-206
  let pot ← (fromCoeffsW b (List.replicate assembly.numConstraints (0 : F)) : Res (EvaluationDomain F F))
  -- 228-243
  let gammaInverse ← invertOrIdentity gamma
  let deltaInverse ← invertOrIdentity delta
  -- 247
  let hLen ← Res.lift (b.sub 64 pot.coeffs.length 1)
  let h : List G1 := List.replicate hLen 0
  -- 250-264
  let powers ← Res.lift ((w.site 0).forChunks pot.coeffs.length (powersTaskW b tau) Prod.fst pot.coeffs)
  let pot := { pot with coeffs := powers }
  -- 267-268
  let coeff := pot.z tau * deltaInverse
  -- 271-296
  let h ← Res.lift (hQuery (w.site 1) g1 coeff h pot.coeffs)
  -- 300-301
  let pot ← Res.lift (pot.ifftW b (w.site 2))
  let lagrange := pot.intoCoeffs
  -- 303-307
  let n := assembly.numInputs
  let k := assembly.numAux
  let nk ← Res.lift (b.add 64 n k)
  let a : List G1 := List.replicate nk 0
  let bG1 : List G1 := List.replicate nk 0
  let bG2 : List G2 := List.replicate nk 0
  let ic : List G1 := List.replicate n 0
  let l : List G1 := List.replicate k 0
  -- 429-444
  let outI ← Res.lift (evalQap (w.site 3) ⟨g1, g2, lagrange, gammaInverse, alpha, beta⟩
    assembly.atInputs assembly.btInputs assembly.ctInputs ⟨a.take n, bG1.take n, bG2.take n, ic⟩)
  -- 447-462
  let outA ← Res.lift (evalQap (w.site 4) ⟨g1, g2, lagrange, deltaInverse, alpha, beta⟩
    assembly.atAux assembly.btAux assembly.ctAux ⟨a.drop n, bG1.drop n, bG2.drop n, l⟩)
  let a := outI.a ++ outA.a
  let bG1 := outI.bG1 ++ outA.bG1
  let bG2 := outI.bG2 ++ outA.bG2
  let ic := outI.ext
  let l := outA.ext
  -- 466-470, 475-506
  if l.any (· = 0) then Res.err .unconstrainedVariable
  else
    Res.ok
      { vk :=
          { alphaG1 := alpha • g1
            betaG1 := beta • g1
            betaG2 := beta • g2
            gammaG2 := gamma • g2
            deltaG1 := delta • g1
            deltaG2 := delta • g2
            ic := ic }
        h := h
        l := l
        a := a.filter (· ≠ 0)
        bG1 := bG1.filter (· ≠ 0)
        bG2 := bG2.filter (· ≠ 0) }

/-- `generate_parameters` (groth16/src/generator.rs:159-507), as `generateParameters`, with unbounded counters during synthesis. -/
def generateParametersW (b : Build) (w : Worker) (circuit : Synth F Unit) (g1 : G1) (g2 : G2) (alpha beta gamma delta tau : F) :
    Res (Parameters G1 G2) := do
  let assembly ← assemble circuit
  generateFromW b w assembly g1 g2 alpha beta gamma delta tau

/-- `generate_parameters` (groth16/src/generator.rs:159-507), as `generateParameters`, where the counters of synthesis are words as well. -/
def generateParametersV (b : Build) (w : Worker) (circuit : Synth F Unit) (g1 : G1) (g2 : G2) (alpha beta gamma delta tau : F) :
    Res (Parameters G1 G2) := do
  let assembly ← assembleW b circuit
  generateFromW b w assembly g1 g2 alpha beta gamma delta tau

end

end Bellman
