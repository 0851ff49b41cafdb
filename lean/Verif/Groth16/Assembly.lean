import Verif.CS

/-!
# Model of `KeypairAssembly` (groth16/src/generator.rs:43-155)
-/

namespace Bellman

variable {F : Type}

/-- groth16/src/generator.rs:41-53 `struct KeypairAssembly`. -/
structure KeypairAssembly (F : Type) where
  numInputs : ℕ
  numAux : ℕ
  numConstraints : ℕ
  atInputs : List (List (F × ℕ))
  btInputs : List (List (F × ℕ))
  ctInputs : List (List (F × ℕ))
  atAux : List (List (F × ℕ))
  btAux : List (List (F × ℕ))
  ctAux : List (List (F × ℕ))

namespace KeypairAssembly

/-- `v[id].push(x)`; indexing out of range panics. groth16/src/generator.rs:112-113. -/
def pushAt {α : Type} (v : List (List α)) (id : ℕ) (x : α) : Option (List (List α)) :=
  match v[id]? with
  | none => none
  | some l => some (v.set id (l ++ [x]))

/-- groth16/src/generator.rs:104-116, the nested `fn eval`. -/
def eval (this : ℕ) : List (Var × F) → List (List (F × ℕ)) → List (List (F × ℕ)) →
    Option (List (List (F × ℕ)) × List (List (F × ℕ)))
  | [], inputs, aux => some (inputs, aux)
  | (.input id, coeff) :: ts, inputs, aux => (pushAt inputs id (coeff, this)).bind fun i => eval this ts i aux
  | (.aux id, coeff) :: ts, inputs, aux => (pushAt aux id (coeff, this)).bind fun a => eval this ts inputs a

/-- groth16/src/generator.rs:58-75 `alloc` (the witness closure is not invoked). -/
def allocAux (s : KeypairAssembly F) : Var × KeypairAssembly F :=
  (.aux s.numAux, { s with
    numAux := s.numAux + 1
    atAux := s.atAux ++ [[]]
    btAux := s.btAux ++ [[]]
    ctAux := s.ctAux ++ [[]] })

/-- groth16/src/generator.rs:77-94 `alloc_input` (the witness closure is not invoked). -/
def allocInput (s : KeypairAssembly F) : Var × KeypairAssembly F :=
  (.input s.numInputs, { s with
    numInputs := s.numInputs + 1
    atInputs := s.atInputs ++ [[]]
    btInputs := s.btInputs ++ [[]]
    ctInputs := s.ctInputs ++ [[]] })

/-- groth16/src/generator.rs:96-138 `enforce`. -/
def enforce (a b c : LC F) (s : KeypairAssembly F) : Option (KeypairAssembly F) :=
  (eval s.numConstraints a.terms s.atInputs s.atAux).bind fun ra =>
  (eval s.numConstraints b.terms s.btInputs s.btAux).bind fun rb =>
  (eval s.numConstraints c.terms s.ctInputs s.ctAux).bind fun rc =>
  some { s with
    atInputs := ra.1, atAux := ra.2
    btInputs := rb.1, btAux := rb.2
    ctInputs := rc.1, ctAux := rc.2
    numConstraints := s.numConstraints + 1 }

/-- groth16/src/generator.rs:55-155 `impl ConstraintSystem for KeypairAssembly`. -/
def impl : CSImpl F (KeypairAssembly F) where
  alloc i _ _ s := let r := if i then allocInput s else allocAux s; some (.ok (r.1, none), r.2)
  enforce _ a b c s := enforce a b c s
  push _ s := some s
  pop s := some s

/-- groth16/src/generator.rs:175-188: the initial assembly of `generate_parameters`. -/
def new : KeypairAssembly F := ⟨0, 0, 0, [], [], [], [], [], []⟩

end KeypairAssembly

end Bellman
