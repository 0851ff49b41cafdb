import Verif.CS
import Verif.Density

/-!
# Model of `ProvingAssignment` (groth16/src/prover.rs:19-162)
-/

namespace Bellman

variable {F : Type} [PrimeField F]

/-- `if let Some(ref mut v) = density { v.inc(i); }` (groth16/src/prover.rs:35-37, 41-43). -/
def incOpt (d : Option DensityTracker) (i : ℕ) : Option (Option DensityTracker) :=
  match d with
  | none => some none
  | some d => (d.inc i).map some

/-- groth16/src/prover.rs:19-55 `eval`; the density trackers are returned instead of mutated; `none` is an
index panic. -/
def proverEval (inputs aux : List F) : List (Var × F) → F → Option DensityTracker → Option DensityTracker →
    Option (F × Option DensityTracker × Option DensityTracker)
  | [], acc, di, da => some (acc, di, da)
  | (index, coeff) :: ts, acc, di, da =>
    if coeff = 0 then proverEval inputs aux ts acc di da
    else match index with
    | .input i =>
      (inputs[i]?).bind fun tmp => (incOpt di i).bind fun di =>
        proverEval inputs aux ts (acc + if coeff = 1 then tmp else tmp * coeff) di da
    | .aux i =>
      (aux[i]?).bind fun tmp => (incOpt da i).bind fun da =>
        proverEval inputs aux ts (acc + if coeff = 1 then tmp else tmp * coeff) di da

/-- groth16/src/prover.rs:57-71 `struct ProvingAssignment`. -/
structure ProvingAssignment (F : Type) where
  aAuxDensity : DensityTracker
  bInputDensity : DensityTracker
  bAuxDensity : DensityTracker
  a : List F
  b : List F
  c : List F
  inputAssignment : List F
  auxAssignment : List F

namespace ProvingAssignment

/-- groth16/src/prover.rs:76-89 `alloc`: `f()?` first, then the push and the density elements. -/
def allocAux (f : Except SynthesisError F) (s : ProvingAssignment F) :
    Except SynthesisError (Var × Option F) × ProvingAssignment F :=
  match f with
  | .error e => (.error e, s)
  | .ok v => (.ok (.aux ((s.auxAssignment ++ [v]).length - 1), some v), { s with
      auxAssignment := s.auxAssignment ++ [v]
      aAuxDensity := s.aAuxDensity.addElement
      bAuxDensity := s.bAuxDensity.addElement })

/-- groth16/src/prover.rs:91-103 `alloc_input`. -/
def allocInput (f : Except SynthesisError F) (s : ProvingAssignment F) :
    Except SynthesisError (Var × Option F) × ProvingAssignment F :=
  match f with
  | .error e => (.error e, s)
  | .ok v => (.ok (.input ((s.inputAssignment ++ [v]).length - 1), some v), { s with
      inputAssignment := s.inputAssignment ++ [v]
      bInputDensity := s.bInputDensity.addElement })

/-- groth16/src/prover.rs:105-145 `enforce`.  The trackers passed as `Some(&mut _)` come back as `some`. -/
def enforce (a b c : LC F) (s : ProvingAssignment F) : Option (ProvingAssignment F) :=
  (proverEval s.inputAssignment s.auxAssignment a.terms 0 none (some s.aAuxDensity)).bind fun ra =>
  (proverEval s.inputAssignment s.auxAssignment b.terms 0 (some s.bInputDensity) (some s.bAuxDensity)).bind fun rb =>
  (proverEval s.inputAssignment s.auxAssignment c.terms 0 none none).bind fun rc =>
  some { s with
    a := s.a ++ [ra.1]
    aAuxDensity := ra.2.2.getD s.aAuxDensity
    b := s.b ++ [rb.1]
    bInputDensity := rb.2.1.getD s.bInputDensity
    bAuxDensity := rb.2.2.getD s.bAuxDensity
    c := s.c ++ [rc.1] }

/-- groth16/src/prover.rs:73-162 `impl ConstraintSystem for ProvingAssignment`. -/
def impl : CSImpl F (ProvingAssignment F) where
  alloc i _ f s := some (if i then allocInput f s else allocAux f s)
  enforce _ a b c s := enforce a b c s
  push _ s := some s
  pop s := some s

/-- groth16/src/prover.rs:193-204: the initial assignment of `create_proof`. -/
def new : ProvingAssignment F := ⟨.new, .new, .new, [], [], [], [], []⟩

end ProvingAssignment

end Bellman
