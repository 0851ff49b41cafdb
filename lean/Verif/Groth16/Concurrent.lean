import Verif.Groth16.Prover
import Verif.Threads

/-!
# `create_proof` as a thread that submits computations (groth16/src/prover.rs:182-361 with src/multiexp.rs:305-332)
-/

namespace Bellman

open PrimeField Compute

variable {F : Type} [PrimeField F]

/-- What the computations submitted by `create_proof` deliver: multiexponentiations in the first or in the second group.
groth16/src/prover.rs:244, 263, 275-318. -/
abbrev ProofJob (G1 G2 : Type) := Except SynthesisError G1 ⊕ Except SynthesisError G2

/-- A program of a thread that returns a `Result`. Model device, no counterpart in the code. -/
def Thr (R α : Type) := Own R (Except SynthesisError α)

namespace Thr

variable {R α β G1 G2 : Type}

/-- Sequencing with `?`. Model device, no counterpart in the code. -/
def bind (f : α → Thr R β) : Own R (Except SynthesisError α) → Own R (Except SynthesisError β)
  | .ret none => .ret none
  | .ret (some (.error e)) => .ret (some (.error e))
  | .ret (some (.ok a)) => f a
  | .compute g k => .compute g fun i => bind f (k i)
  | .wait i k => .wait i fun r => bind f (k r)

instance : Monad (Thr R) where
  pure a := Own.ret (some (.ok a))
  bind x f := bind f x

/-- Code of the thread itself. Model device, no counterpart in the code. -/
def lift (x : Res α) : Thr R α := Own.ret x

/-- `multiexp` (src/multiexp.rs:305-332) in the first group: the window size and the assertion are computed by the calling thread, the
rest by the closure given to `pool.compute`. -/
noncomputable def multiexpG1 [AddCommGroup G1] [DecidableEq G1] (F : Type) [PrimeField F] (w : Worker) (bases : BaseSource G1)
    (density : QueryDensity) (exponents : List Exponent) : Thr (ProofJob G1 G2) ℕ :=
  let c := windowSize exponents.length
  if ∀ n, density.querySize = some n → n = exponents.length then
    Own.compute ((multiexpInner F w bases density exponents c).map Sum.inl) fun i => Own.ret (some (.ok i))
  else Own.ret none

/-- The same in the second group. src/multiexp.rs:305-332. -/
noncomputable def multiexpG2 [AddCommGroup G2] [DecidableEq G2] (F : Type) [PrimeField F] (w : Worker) (bases : BaseSource G2)
    (density : QueryDensity) (exponents : List Exponent) : Thr (ProofJob G1 G2) ℕ :=
  let c := windowSize exponents.length
  if ∀ n, density.querySize = some n → n = exponents.length then
    Own.compute ((multiexpInner F w bases density exponents c).map Sum.inr) fun i => Own.ret (some (.ok i))
  else Own.ret none

/-- `waiter.wait()?` for a waiter of the first group (a value of the other group cannot occur, by typing in the code).
groth16/src/prover.rs:339-346, 353-354. -/
def waitG1 (i : ℕ) : Thr (ProofJob G1 G2) G1 :=
  Own.wait i fun
    | .inl x => Own.ret (some x)
    | .inr _ => Own.ret none

/-- `waiter.wait()?` for a waiter of the second group. groth16/src/prover.rs:347-348. -/
def waitG2 (i : ℕ) : Thr (ProofJob G1 G2) G2 :=
  Own.wait i fun
    | .inl _ => Own.ret none
    | .inr x => Own.ret (some x)

end Thr

section

variable {G1 G2 : Type} [AddCommGroup G1] [AddCommGroup G2] [Module F G1] [Module F G2] [DecidableEq G1] [DecidableEq G2]

/-- `create_proof` (groth16/src/prover.rs:182-361) with `&Parameters` as parameter source, as a program that submits nine
computations and waits for them. -/
noncomputable def createProofThread (w : Worker) (circuit : Synth F Unit) (params : Parameters G1 G2) (r s : F) :
    Thr (ProofJob G1 G2) (Proof G1 G2) := do
  let prover ← Thr.lift (assign? circuit)
  -- 219
  let vk ← Thr.lift (Res.ofExcept (params.getVk prover.inputAssignment.length))
  -- 221-245
  let hc ← Thr.lift (hCoeffs (w.site 0) prover.a prover.b prover.c : Res (List F))
  let hSource ← Thr.lift (Res.ofExcept (params.getH hc.length))
  let h ← Thr.multiexpG1 F (w.site 1) hSource .full (hc.map Exponent.ofField)
  -- 248-261
  let inputAssignment := prover.inputAssignment.map Exponent.ofField
  let auxAssignment := prover.auxAssignment.map Exponent.ofField
  -- 263-268
  let lSource ← Thr.lift (Res.ofExcept (params.getL auxAssignment.length))
  let l ← Thr.multiexpG1 F (w.site 2) lSource .full auxAssignment
  -- 270-286
  let aAuxDensityTotal := prover.aAuxDensity.getTotalDensity
  let aSources ← Thr.lift (Res.ofExcept (params.getA inputAssignment.length aAuxDensityTotal))
  let aInputs ← Thr.multiexpG1 F (w.site 3) aSources.1 .full inputAssignment
  let aAux ← Thr.multiexpG1 F (w.site 4) aSources.2 (.tracker prover.aAuxDensity) auxAssignment
  -- 288-291
  let bInputDensity := prover.bInputDensity
  let bInputDensityTotal := bInputDensity.getTotalDensity
  let bAuxDensity := prover.bAuxDensity
  let bAuxDensityTotal := bAuxDensity.getTotalDensity
  -- 293-307
  let b1Sources ← Thr.lift (Res.ofExcept (params.getBG1 bInputDensityTotal bAuxDensityTotal))
  let b1Inputs ← Thr.multiexpG1 F (w.site 5) b1Sources.1 (.tracker bInputDensity) inputAssignment
  let b1Aux ← Thr.multiexpG1 F (w.site 6) b1Sources.2 (.tracker bAuxDensity) auxAssignment
  -- 309-318
  let b2Sources ← Thr.lift (Res.ofExcept (params.getBG2 bInputDensityTotal bAuxDensityTotal))
  let b2Inputs ← Thr.multiexpG2 F (w.site 7) b2Sources.1 (.tracker bInputDensity) inputAssignment
  let b2Aux ← Thr.multiexpG2 F (w.site 8) b2Sources.2 (.tracker bAuxDensity) auxAssignment
  -- 320-324
  if vk.deltaG1 = 0 ∨ vk.deltaG2 = 0 then Thr.lift (Res.err .unexpectedIdentity)
  else do
    -- 326-338
    let gA := r • vk.deltaG1 + vk.alphaG1
    let gB := s • vk.deltaG2 + vk.betaG2
    let rs := r * s
    let gC := rs • vk.deltaG1 + s • vk.alphaG1 + r • vk.betaG1
    -- 339-343
    let x ← Thr.waitG1 aInputs
    let y ← Thr.waitG1 aAux
    let aAnswer := x + y
    let gA := gA + aAnswer
    let gC := gC + s • aAnswer
    -- 345-348
    let x ← Thr.waitG1 b1Inputs
    let y ← Thr.waitG1 b1Aux
    let b1Answer := x + y
    let x ← Thr.waitG2 b2Inputs
    let y ← Thr.waitG2 b2Aux
    let b2Answer := x + y
    -- 350-354
    let gB := gB + b2Answer
    let gC := gC + r • b1Answer
    let hAnswer ← Thr.waitG1 h
    let gC := gC + hAnswer
    let lAnswer ← Thr.waitG1 l
    let gC := gC + lAnswer
    pure { a := gA, b := gB, c := gC }

end

end Bellman
