import Verif.Circ

/-!
# The circuits of the unit tests of groth16

groth16/src/tests/mod.rs: `XorDemo` and `MultWithZeroCoeffs`.
-/

namespace Bellman.UnitTests

variable {F : Type} [PrimeField F]

/-- groth16/src/tests/mod.rs:13-17 `XorDemo`. -/
structure XorDemo where
  a : Option Bool
  b : Option Bool

/-- groth16/src/tests/mod.rs:19-89 `XorDemo::synthesize`. -/
def XorDemo.synthesize (self : XorDemo) : Synth F Unit := do
  let aVar ← Synth.alloc "a" (match self.a with
    | some a => if a then .ok 1 else .ok 0
    | none => .error .assignmentMissing)
  Synth.enforce "a_boolean_constraint" (fun lc => lc + Var.one - aVar.1) (fun lc => lc + aVar.1) (fun lc => lc)
  let bVar ← Synth.alloc "b" (match self.b with
    | some b => if b then .ok 1 else .ok 0
    | none => .error .assignmentMissing)
  Synth.enforce "b_boolean_constraint" (fun lc => lc + Var.one - bVar.1) (fun lc => lc + bVar.1) (fun lc => lc)
  let cVar ← Synth.allocInput "c" (match self.a, self.b with
    | some a, some b => if a ^^ b then .ok 1 else .ok 0
    | _, _ => .error .assignmentMissing)
  Synth.enforce "c_xor_constraint" (fun lc => lc + aVar.1 + aVar.1) (fun lc => lc + bVar.1) (fun lc => lc + aVar.1 + bVar.1 - cVar.1)

/-- groth16/src/tests/mod.rs:375-381 `MultWithZeroCoeffs`. The fields `a`, `b`, `c` are `Option`s there, which the closures `unwrap`; the
tests only make `Some` of them, which is what is modelled. -/
structure MultWithZeroCoeffs (F : Type) where
  a : F
  b : F
  c : F
  oneVar : Bool

/-- groth16/src/tests/mod.rs:383-407 `MultWithZeroCoeffs::synthesize`. -/
def MultWithZeroCoeffs.synthesize (self : MultWithZeroCoeffs F) : Synth F Unit := do
  let a ← Synth.alloc "a" (.ok self.a)
  let b ← Synth.alloc "b" (.ok self.b)
  let c ← Synth.alloc "c" (.ok self.c)
  if self.oneVar then
    Synth.enforce "cs" (fun z => z + a.1) (fun z => z + ((0 : F), Var.one) + b.1) (fun z => z + c.1)
  else
    Synth.enforce "cs" (fun z => z + a.1) (fun z => z + ((0 : F), a.1) + b.1) (fun z => z + c.1)

end Bellman.UnitTests
