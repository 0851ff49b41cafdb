import Verif.Groth16.Prover
import Verif.DomainOps
import Verif.MultiexpOps

/-!
# `create_proof` with the operations counted

`Verif/Groth16/Prover.lean` once more, with the counted quotient of `Verif/DomainOps.lean`, the counted multiexponentiation of
`Verif/MultiexpOps.lean` and counters for the other operations on group elements.  C79 shows that the results are the same.
-/

namespace Bellman

open PrimeField

/-- What is counted: field operations in the quotient, group operations in the multiexponentiations, and the multiplications by scalars and
additions of group elements in `create_proof` itself.  Not counted: the evaluation of linear combinations during synthesis and the one
product `r * s`. Model device, no counterpart in the code. -/
structure ProverOps where
  field : FftOps := {}
  g1 : MeOps := ⟨0, 0, 0⟩
  g2 : MeOps := ⟨0, 0, 0⟩
  mulsG1 : ℕ := 0
  addsG1 : ℕ := 0
  mulsG2 : ℕ := 0
  addsG2 : ℕ := 0

/-- A part of `create_proof` that counts. Model device, no counterpart in the code. -/
abbrev ProverC (α : Type) := StateT ProverOps Res α

/-- Operations of two multiexponentiations together. Model device, no counterpart in the code. -/
def MeOps.plus (a b : MeOps) : MeOps := ⟨a.baseAdds + b.baseAdds, a.adds + b.adds, a.doubles + b.doubles⟩

variable {F : Type} [PrimeField F]

section

variable {G1 G2 : Type} [AddCommGroup G1] [AddCommGroup G2] [Module F G1] [Module F G2]

/-- Addition in `G1`, counted. groth16/src/prover.rs:327, 336-346, 352-354. -/
def addG1C (a b : G1) : ProverC G1 := do
  modify fun o => { o with addsG1 := o.addsG1 + 1 }
  return a + b

/-- Addition in `G2`, counted. groth16/src/prover.rs:329, 348-350. -/
def addG2C (a b : G2) : ProverC G2 := do
  modify fun o => { o with addsG2 := o.addsG2 + 1 }
  return a + b

/-- Multiplication of an element of `G1` by a scalar, counted. groth16/src/prover.rs:326, 335-337, 342, 351. -/
def mulG1C (x : F) (a : G1) : ProverC G1 := do
  modify fun o => { o with mulsG1 := o.mulsG1 + 1 }
  return x • a

/-- Multiplication of an element of `G2` by a scalar, counted. groth16/src/prover.rs:328. -/
def mulG2C (x : F) (a : G2) : ProverC G2 := do
  modify fun o => { o with mulsG2 := o.mulsG2 + 1 }
  return x • a

/-- `wait()?` on a multiexponentiation in `G1`; its operations are counted here. groth16/src/prover.rs:339-346, 353-354. -/
def waitG1C (x : Except SynthesisError (G1 × MeOps)) : ProverC G1 := do
  let r ← StateT.lift (Res.ofExcept x)
  modify fun o => { o with g1 := o.g1.plus r.2 }
  return r.1

/-- `wait()?` on a multiexponentiation in `G2`; its operations are counted here. groth16/src/prover.rs:347-348. -/
def waitG2C (x : Except SynthesisError (G2 × MeOps)) : ProverC G2 := do
  let r ← StateT.lift (Res.ofExcept x)
  modify fun o => { o with g2 := o.g2.plus r.2 }
  return r.1

variable [DecidableEq G1] [DecidableEq G2]

/-- `create_proof` (groth16/src/prover.rs:182-361), counted; otherwise as `createProof`. -/
noncomputable def createProofC (w : Worker) (circuit : Synth F Unit) (params : Parameters G1 G2) (r s : F) : ProverC (Proof G1 G2) := do
  let prover ← StateT.lift (assign? circuit)
  -- 219
  let vk ← StateT.lift (Res.ofExcept (params.getVk prover.inputAssignment.length))
  -- 221-245
  let q ← StateT.lift (Res.lift ((hCoeffsC (w.site 0) prover.a prover.b prover.c).run {}))
  modify fun o => { o with field := o.field + q.2 }
  let hc ← StateT.lift (Res.ofExcept q.1)
  let hSource ← StateT.lift (Res.ofExcept (params.getH hc.length))
  let h ← StateT.lift (Res.lift (multiexpC F (w.site 1) hSource .full (hc.map Exponent.ofField)))
  -- 248-261
  let inputAssignment := prover.inputAssignment.map Exponent.ofField
  let auxAssignment := prover.auxAssignment.map Exponent.ofField
  -- 263-268
  let lSource ← StateT.lift (Res.ofExcept (params.getL auxAssignment.length))
  let l ← StateT.lift (Res.lift (multiexpC F (w.site 2) lSource .full auxAssignment))
  -- 270-286
  let aAuxDensityTotal := prover.aAuxDensity.getTotalDensity
  let aSources ← StateT.lift (Res.ofExcept (params.getA inputAssignment.length aAuxDensityTotal))
  let aInputs ← StateT.lift (Res.lift (multiexpC F (w.site 3) aSources.1 .full inputAssignment))
  let aAux ← StateT.lift (Res.lift (multiexpC F (w.site 4) aSources.2 (.tracker prover.aAuxDensity) auxAssignment))
  -- 288-291
  let bInputDensity := prover.bInputDensity
  let bInputDensityTotal := bInputDensity.getTotalDensity
  let bAuxDensity := prover.bAuxDensity
  let bAuxDensityTotal := bAuxDensity.getTotalDensity
  -- 293-307
  let b1Sources ← StateT.lift (Res.ofExcept (params.getBG1 bInputDensityTotal bAuxDensityTotal))
  let b1Inputs ← StateT.lift (Res.lift (multiexpC F (w.site 5) b1Sources.1 (.tracker bInputDensity) inputAssignment))
  let b1Aux ← StateT.lift (Res.lift (multiexpC F (w.site 6) b1Sources.2 (.tracker bAuxDensity) auxAssignment))
  -- 309-318
  let b2Sources ← StateT.lift (Res.ofExcept (params.getBG2 bInputDensityTotal bAuxDensityTotal))
  let b2Inputs ← StateT.lift (Res.lift (multiexpC F (w.site 7) b2Sources.1 (.tracker bInputDensity) inputAssignment))
  let b2Aux ← StateT.lift (Res.lift (multiexpC F (w.site 8) b2Sources.2 (.tracker bAuxDensity) auxAssignment))
  -- 320-324
  if vk.deltaG1 = 0 ∨ vk.deltaG2 = 0 then StateT.lift (Res.err .unexpectedIdentity)
  else do
    -- 326-338
    let rδ ← mulG1C r vk.deltaG1
    let gA ← addG1C rδ vk.alphaG1
    let sδ ← mulG2C s vk.deltaG2
    let gB ← addG2C sδ vk.betaG2
    let rs := r * s
    let gC ← mulG1C rs vk.deltaG1
    let sα ← mulG1C s vk.alphaG1
    let gC ← addG1C gC sα
    let rβ ← mulG1C r vk.betaG1
    let gC ← addG1C gC rβ
    -- 339-343
    let x ← waitG1C aInputs
    let y ← waitG1C aAux
    let aAnswer ← addG1C x y
    let gA ← addG1C gA aAnswer
    let sA ← mulG1C s aAnswer
    let gC ← addG1C gC sA
    -- 345-348
    let x ← waitG1C b1Inputs
    let y ← waitG1C b1Aux
    let b1Answer ← addG1C x y
    let x ← waitG2C b2Inputs
    let y ← waitG2C b2Aux
    let b2Answer ← addG2C x y
    -- 350-354
    let gB ← addG2C gB b2Answer
    let rB ← mulG1C r b1Answer
    let gC ← addG1C gC rB
    let hAnswer ← waitG1C h
    let gC ← addG1C gC hAnswer
    let lAnswer ← waitG1C l
    let gC ← addG1C gC lAnswer
    return { a := gA, b := gB, c := gC }

end

end Bellman
