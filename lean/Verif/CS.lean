import Verif.Circ

/-!
# Implementations of the trait `ConstraintSystem` (src/lib.rs:372-437)
-/

namespace Bellman

/-- An implementation of `ConstraintSystem` with state `σ` (the fields of the Rust struct).  `none` is a panic.
`alloc` covers `alloc` (`false`) and `alloc_input` (`true`); its success result is the variable, with the value if the
witness closure was invoked (see `Circ.alloc`).  The combinations given to `enforce` are the closures applied to
`LinearCombination::zero()`. The trait is src/lib.rs:372-437. -/
structure CSImpl (F σ : Type) where
  alloc : Bool → String → Except SynthesisError F → σ → Option (Except SynthesisError (Var × Option F) × σ)
  enforce : String → LC F → LC F → LC F → σ → Option σ
  push : String → σ → Option σ
  pop : σ → Option σ

variable {F σ α β : Type}

/-- Running a program against an implementation. Calls go to the methods of src/lib.rs:372-437. -/
def Circ.run (I : CSImpl F σ) : Circ F α → σ → Option (α × σ)
  | .ret a, s => some (a, s)
  | .panic _, _ => none
  | .alloc i n f k, s => (I.alloc i n f s).bind fun r => (k r.1).run I r.2
  | .enforce n a b c k, s => (I.enforce n a b c s).bind fun s => k.run I s
  | .push n k, s => (I.push n s).bind fun s => k.run I s
  | .pop k, s => (I.pop s).bind fun s => k.run I s

theorem Circ.run_bind (I : CSImpl F σ) (c : Circ F α) (g : α → Circ F β) (s : σ) :
    (c.bind g).run I s = (c.run I s).bind fun r => (g r.1).run I r.2 := by
  induction c generalizing s with
  | ret a => rfl
  | panic m => rfl
  | alloc i n f k ih => simp only [bind, run, ih, Option.bind_assoc]
  | enforce n a b c k ih => simp only [bind, run, ih, Option.bind_assoc]
  | push n k ih => simp only [bind, run, ih, Option.bind_assoc]
  | pop k ih => simp only [bind, run, ih, Option.bind_assoc]

/-! ## Describing traces -/

/-- The variables allocated by the trace are `Input(n), Input(n+1), …` and `Aux(m), Aux(m+1), …` in this order
(specification). -/
def Numbered : ℕ → ℕ → List (Ev F) → Prop
  | _, _, [] => True
  | n, m, .alloc true _ x _ :: t => x = .input n ∧ Numbered (n + 1) m t
  | n, m, .alloc false _ x _ :: t => x = .aux m ∧ Numbered n (m + 1) t
  | n, m, .enforce _ _ _ _ :: t => Numbered n m t
  | n, m, .push _ :: t => Numbered n m t
  | n, m, .pop :: t => Numbered n m t

/-- Number of inputs allocated in a trace (specification). -/
def numIn (t : List (Ev F)) : ℕ :=
  t.countP fun e => match e with
    | .alloc true _ _ _ => true
    | _ => false

/-- Number of auxiliary variables allocated in a trace (specification). -/
def numAux (t : List (Ev F)) : ℕ :=
  t.countP fun e => match e with
    | .alloc false _ _ _ => true
    | _ => false

/-- The constraints of a trace, in order (specification). -/
def consOf (t : List (Ev F)) : List (LC F × LC F × LC F) :=
  t.filterMap fun e => match e with
    | .enforce _ a b c => some (a, b, c)
    | _ => none

/-- Values of the inputs of a trace, in order, for traces in which closures were invoked (specification). -/
def inVals (t : List (Ev F)) : List F :=
  t.filterMap fun e => match e with
    | .alloc true _ _ (some v) => some v
    | _ => none

/-- Values of the auxiliary variables of a trace, in order (specification). -/
def auxVals (t : List (Ev F)) : List F :=
  t.filterMap fun e => match e with
    | .alloc false _ _ (some v) => some v
    | _ => none

section
variable (n : String) (x : Var) (v : Option F) (w : F) (a b c : LC F) (t : List (Ev F))

@[simp] theorem numIn_nil : numIn ([] : List (Ev F)) = 0 := rfl
@[simp] theorem numIn_input : numIn (.alloc true n x v :: t) = numIn t + 1 := by simp [numIn]
@[simp] theorem numIn_aux : numIn (.alloc false n x v :: t) = numIn t := by simp [numIn]
@[simp] theorem numIn_enforce : numIn (.enforce n a b c :: t) = numIn t := by simp [numIn]
@[simp] theorem numIn_push : numIn (.push n :: t) = numIn t := by simp [numIn]
@[simp] theorem numIn_pop : numIn (.pop :: t) = numIn t := by simp [numIn]
@[simp] theorem numAux_nil : numAux ([] : List (Ev F)) = 0 := rfl
@[simp] theorem numAux_input : numAux (.alloc true n x v :: t) = numAux t := by simp [numAux]
@[simp] theorem numAux_aux : numAux (.alloc false n x v :: t) = numAux t + 1 := by simp [numAux]
@[simp] theorem numAux_enforce : numAux (.enforce n a b c :: t) = numAux t := by simp [numAux]
@[simp] theorem numAux_push : numAux (.push n :: t) = numAux t := by simp [numAux]
@[simp] theorem numAux_pop : numAux (.pop :: t) = numAux t := by simp [numAux]
@[simp] theorem consOf_nil : consOf ([] : List (Ev F)) = [] := rfl
@[simp] theorem consOf_alloc (i : Bool) : consOf (.alloc i n x v :: t) = consOf t := rfl
@[simp] theorem consOf_enforce : consOf (.enforce n a b c :: t) = (a, b, c) :: consOf t := rfl
@[simp] theorem consOf_push : consOf (.push n :: t) = consOf t := rfl
@[simp] theorem consOf_pop : consOf (.pop :: t) = consOf t := rfl
@[simp] theorem inVals_nil : inVals ([] : List (Ev F)) = [] := rfl
@[simp] theorem inVals_input : inVals (.alloc true n x (some w) :: t) = w :: inVals t := rfl
@[simp] theorem inVals_aux : inVals (.alloc false n x v :: t) = inVals t := rfl
@[simp] theorem inVals_enforce : inVals (.enforce n a b c :: t) = inVals t := rfl
@[simp] theorem inVals_push : inVals (.push n :: t) = inVals t := rfl
@[simp] theorem inVals_pop : inVals (.pop :: t) = inVals t := rfl
@[simp] theorem auxVals_nil : auxVals ([] : List (Ev F)) = [] := rfl
@[simp] theorem auxVals_aux : auxVals (.alloc false n x (some w) :: t) = w :: auxVals t := rfl
@[simp] theorem auxVals_input : auxVals (.alloc true n x v :: t) = auxVals t := rfl
@[simp] theorem auxVals_enforce : auxVals (.enforce n a b c :: t) = auxVals t := rfl
@[simp] theorem auxVals_push : auxVals (.push n :: t) = auxVals t := rfl
@[simp] theorem auxVals_pop : auxVals (.pop :: t) = auxVals t := rfl
end

/-- All constraints of a trace hold iff those of the list `consOf` do. -/
theorem Sat_iff_consOf [PrimeField F] (ρ : Var → F) (t : List (Ev F)) :
    Sat ρ t ↔ ∀ k ∈ consOf t, k.1.eval ρ * k.2.1.eval ρ = k.2.2.eval ρ := by
  unfold Sat consOf
  simp only [List.mem_filterMap]
  constructor
  · rintro h ⟨a, b, c⟩ ⟨e, he, hk⟩
    cases e with
    | enforce n a' b' c' =>
      simp only [Option.some.injEq, Prod.mk.injEq] at hk
      obtain ⟨rfl, rfl, rfl⟩ := hk
      exact h n _ _ _ he
    | _ => simp at hk
  · intro h n a b c hm
    exact h (a, b, c) ⟨_, hm, rfl⟩

/-- The variable is one of the first `n` inputs or the first `m` auxiliaries (specification). -/
def Var.InRange (n m : ℕ) : Var → Prop
  | .input i => i < n
  | .aux i => i < m

/-- Every constraint of the trace mentions only variables allocated before it, `n` inputs and `m` auxiliaries existing at
the start (specification). -/
def Scoped : ℕ → ℕ → List (Ev F) → Prop
  | _, _, [] => True
  | n, m, .alloc true _ _ _ :: t => Scoped (n + 1) m t
  | n, m, .alloc false _ _ _ :: t => Scoped n (m + 1) t
  | n, m, .enforce _ a b c :: t =>
    (∀ x ∈ a.terms ++ b.terms ++ c.terms, x.1.InRange n m) ∧ Scoped n m t
  | n, m, .push _ :: t => Scoped n m t
  | n, m, .pop :: t => Scoped n m t

/-- The assignment given by the two value vectors (specification): unallocated variables read as 0. -/
def assign [Zero F] (inputs aux : List F) : Var → F
  | .input i => inputs.getD i 0
  | .aux i => aux.getD i 0

end Bellman
