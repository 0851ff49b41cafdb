import Verif.Domain

/-!
# The quotient polynomial of `create_proof` (groth16/src/prover.rs:221-240)
-/

namespace Bellman

open PrimeField EvaluationDomain

/-- `EvaluationDomain::from_coeffs(prover.a)?; a.ifft(); a.coset_fft()` for one of the three vectors
(groth16/src/prover.rs:222, 225-226 and likewise for `b`, `c`), after the domain has been built. -/
def toCoset {F : Type} [PrimeField F] (w : Worker) (d : EvaluationDomain F F) : Option (EvaluationDomain F F) := do
  let d ← d.ifft (w.site 0)
  d.cosetFft (w.site 1)

/-- groth16/src/prover.rs:221-240: the coefficients of `h`. `none` is a panic. -/
def hCoeffs {F : Type} [PrimeField F] (w : Worker) (a b c : List F) : Option (Except SynthesisError (List F)) := do
  match ← (fromCoeffs a : Option (Except SynthesisError (EvaluationDomain F F))) with
  | .error e => pure (.error e)
  | .ok a =>
  match ← (fromCoeffs b : Option (Except SynthesisError (EvaluationDomain F F))) with
  | .error e => pure (.error e)
  | .ok b =>
  match ← (fromCoeffs c : Option (Except SynthesisError (EvaluationDomain F F))) with
  | .error e => pure (.error e)
  | .ok c =>
  let a ← toCoset (w.site 0) a
  let b ← toCoset (w.site 1) b
  let c ← toCoset (w.site 2) c
  let a ← a.mulAssign (w.site 3) b
  let a ← a.subAssign (w.site 4) c
  let a ← a.divideByZOnCoset (w.site 5)
  let a ← a.icosetFft (w.site 6)
  let a := a.intoCoeffs
  let aLen := a.length - 1
  pure (.ok (a.take aLen))

end Bellman
