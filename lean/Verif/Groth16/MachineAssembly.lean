import Verif.Groth16.Generator
import Verif.Machine

/-!
# Synthesis for key generation with machine words (groth16/src/generator.rs)

`Verif/Groth16/Assembly.lean` counts variables and constraints with unbounded numbers and puts any number of elements into a vector.  Here
the three counters are `usize`s of 64 bits and a vector holds at most `isize::MAX` bytes (std: `Vec::push` panics if the new capacity
exceeds that).  Simplified: the limit is that of the six outer vectors, whose elements are vectors (24 bytes); the size of the elements of
the inner ones depends on the field, and they are not limited.
-/

namespace Bellman

/-- `Vec::push` (std) for elements of `size` bytes. Used at groth16/src/generator.rs:70-72, 89-91. -/
def pushVec {α : Type} (size : ℕ) (v : List α) (x : α) : Option (List α) :=
  if (v.length + 1) * size < 2 ^ 63 then some (v ++ [x]) else none

variable {F : Type}

namespace KeypairAssembly

/-- groth16/src/generator.rs:58-75 `alloc`, as `allocAux`. -/
def allocAuxW (b : Build) (s : KeypairAssembly F) : Option (Var × KeypairAssembly F) :=
  (b.add 64 s.numAux 1).bind fun n =>
  (pushVec 24 s.atAux []).bind fun x =>
  (pushVec 24 s.btAux []).bind fun y =>
  (pushVec 24 s.ctAux []).bind fun z =>
  some (.aux s.numAux, { s with numAux := n, atAux := x, btAux := y, ctAux := z })

/-- groth16/src/generator.rs:77-94 `alloc_input`, as `allocInput`. -/
def allocInputW (b : Build) (s : KeypairAssembly F) : Option (Var × KeypairAssembly F) :=
  (b.add 64 s.numInputs 1).bind fun n =>
  (pushVec 24 s.atInputs []).bind fun x =>
  (pushVec 24 s.btInputs []).bind fun y =>
  (pushVec 24 s.ctInputs []).bind fun z =>
  some (.input s.numInputs, { s with numInputs := n, atInputs := x, btInputs := y, ctInputs := z })

/-- groth16/src/generator.rs:96-138 `enforce`, as `KeypairAssembly.enforce`. -/
def enforceW (bd : Build) (a b c : LC F) (s : KeypairAssembly F) : Option (KeypairAssembly F) :=
  (eval s.numConstraints a.terms s.atInputs s.atAux).bind fun ra =>
  (eval s.numConstraints b.terms s.btInputs s.btAux).bind fun rb =>
  (eval s.numConstraints c.terms s.ctInputs s.ctAux).bind fun rc =>
  (bd.add 64 s.numConstraints 1).bind fun n =>
  some { s with
    atInputs := ra.1, atAux := ra.2
    btInputs := rb.1, btAux := rb.2
    ctInputs := rc.1, ctAux := rc.2
    numConstraints := n }

/-- groth16/src/generator.rs:55-155 `impl ConstraintSystem for KeypairAssembly`, as `impl`. -/
def implW (bd : Build) : CSImpl F (KeypairAssembly F) where
  alloc i _ _ s := (if i then allocInputW bd s else allocAuxW bd s).bind fun r => some (.ok (r.1, none), r.2)
  enforce _ a b c s := enforceW bd a b c s
  push _ s := some s
  pop s := some s

end KeypairAssembly

section

variable [PrimeField F]

/-- The loop adding the constraints `x * 0 = 0` for the inputs (groth16/src/generator.rs:195-202), as `inputConstraints`. -/
def inputConstraintsW (bd : Build) (s : KeypairAssembly F) : Option (KeypairAssembly F) :=
  (List.range s.numInputs).foldlM (fun s i => s.enforceW bd ((LC.zero : LC F) + Var.input i) LC.zero LC.zero) s

/-- Lines groth16/src/generator.rs:175-202, as `assemble`. -/
def assembleW (bd : Build) (circuit : Synth F Unit) : Res (KeypairAssembly F) := do
  let s ← Res.lift ((KeypairAssembly.new : KeypairAssembly F).allocInputW bd)
  let r ← synthesizeWith (KeypairAssembly.implW bd) circuit s.2
  Res.lift (inputConstraintsW bd r.2)

end

end Bellman
