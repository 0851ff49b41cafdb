import Verif.Groth16.Prover
import Verif.Groth16.MachineAssembly

/-!
# Synthesis for proving with limited vectors (groth16/src/prover.rs)

`ProvingAssignment` has no counters: variables are numbered by the lengths of vectors, and every constraint adds an element to three of
them.  Here a vector of field elements, of `size` bytes each, holds at most `isize::MAX` bytes (std), and a bit vector at most `2^61 - 1`
bits (the limit of the crate `bitvec`).
-/

namespace Bellman

variable {F : Type} [PrimeField F]

/-- src/multiexp.rs:144-146 `add_element`, as `addElement`; the bit vector panics if it is full. -/
def DensityTracker.addElementW (d : DensityTracker) : Option DensityTracker :=
  if d.bv.length + 1 < 2 ^ 61 then some d.addElement else none

namespace ProvingAssignment

/-- groth16/src/prover.rs:76-89 `alloc`, as `allocAux`. -/
def allocAuxW (size : ℕ) (bd : Build) (f : Except SynthesisError F) (s : ProvingAssignment F) :
    Option (Except SynthesisError (Var × Option F) × ProvingAssignment F) :=
  match f with
  | .error e => some (.error e, s)
  | .ok v =>
    (pushVec size s.auxAssignment v).bind fun l =>
    s.aAuxDensity.addElementW.bind fun da =>
    s.bAuxDensity.addElementW.bind fun db =>
    (bd.sub 64 l.length 1).bind fun i =>
    some (.ok (.aux i, some v), { s with auxAssignment := l, aAuxDensity := da, bAuxDensity := db })

/-- groth16/src/prover.rs:91-103 `alloc_input`, as `allocInput`. -/
def allocInputW (size : ℕ) (bd : Build) (f : Except SynthesisError F) (s : ProvingAssignment F) :
    Option (Except SynthesisError (Var × Option F) × ProvingAssignment F) :=
  match f with
  | .error e => some (.error e, s)
  | .ok v =>
    (pushVec size s.inputAssignment v).bind fun l =>
    s.bInputDensity.addElementW.bind fun db =>
    (bd.sub 64 l.length 1).bind fun i =>
    some (.ok (.input i, some v), { s with inputAssignment := l, bInputDensity := db })

/-- groth16/src/prover.rs:105-145 `enforce`, as `ProvingAssignment.enforce`. -/
def enforceW (size : ℕ) (a b c : LC F) (s : ProvingAssignment F) : Option (ProvingAssignment F) :=
  (proverEval s.inputAssignment s.auxAssignment a.terms 0 none (some s.aAuxDensity)).bind fun ra =>
  (pushVec size s.a ra.1).bind fun va =>
  (proverEval s.inputAssignment s.auxAssignment b.terms 0 (some s.bInputDensity) (some s.bAuxDensity)).bind fun rb =>
  (pushVec size s.b rb.1).bind fun vb =>
  (proverEval s.inputAssignment s.auxAssignment c.terms 0 none none).bind fun rc =>
  (pushVec size s.c rc.1).bind fun vc =>
  some { s with
    a := va
    aAuxDensity := ra.2.2.getD s.aAuxDensity
    b := vb
    bInputDensity := rb.2.1.getD s.bInputDensity
    bAuxDensity := rb.2.2.getD s.bAuxDensity
    c := vc }

/-- groth16/src/prover.rs:73-162 `impl ConstraintSystem for ProvingAssignment`, as `impl`. -/
def implW (size : ℕ) (bd : Build) : CSImpl F (ProvingAssignment F) where
  alloc i _ f s := if i then allocInputW size bd f s else allocAuxW size bd f s
  enforce _ a b c s := enforceW size a b c s
  push _ s := some s
  pop s := some s

end ProvingAssignment

/-- The loop adding the constraints `x * 0 = 0` for the inputs (groth16/src/prover.rs:208-215), as `proverInputConstraints`. -/
def proverInputConstraintsW (size : ℕ) (p : ProvingAssignment F) : Option (ProvingAssignment F) :=
  (List.range p.inputAssignment.length).foldlM (fun p i => p.enforceW size ((LC.zero : LC F) + Var.input i) LC.zero LC.zero) p

/-- Lines groth16/src/prover.rs:193-215, as `assign?`. -/
def assignW (size : ℕ) (bd : Build) (circuit : Synth F Unit) : Res (ProvingAssignment F) := do
  let one ← Res.lift ((ProvingAssignment.new : ProvingAssignment F).allocInputW size bd (.ok 1))
  let _ ← Res.ofExcept one.1
  let out ← synthesizeWith (ProvingAssignment.implW size bd) circuit one.2
  Res.lift (proverInputConstraintsW size out.2)

end Bellman
