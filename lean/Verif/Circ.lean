import Verif.LC

/-!
# Programs against the `ConstraintSystem` trait (src/lib.rs:372-509)

A circuit or gadget is a Rust function that is generic in `CS: ConstraintSystem<Scalar>`.  It is modelled
as a term of a free monad: one node per trait call, plus a leaf for panics.
-/

namespace Bellman

/-- Abstraction of `std::io::ErrorKind`: the only kind the code tells apart is end of file
(`io::ErrorKind::UnexpectedEof`, src/multiexp.rs:57,76); `invalidData` is produced by the readers in
groth16/src/lib.rs. -/
inductive IoKind where
  | unexpectedEof
  | invalidData
deriving DecidableEq, Repr

/-- src/lib.rs:301-319 `enum SynthesisError`. -/
inductive SynthesisError where
  | assignmentMissing
  | divisionByZero
  | unsatisfiable
  | polynomialDegreeTooLarge
  | unexpectedIdentity
  | ioError (k : IoKind)
  | unconstrainedVariable
deriving DecidableEq, Repr

/-- A program that talks to a constraint system (trait `ConstraintSystem`, src/lib.rs:372-437).

* `alloc` is `alloc`/`alloc_input` (`isInput`).  `f` is the result the witness closure gives when
  invoked.  The continuation receives what the call returned; in the success case the variable,
  together with `some v` if the implementation invoked the closure (which returned `v`) and `none` if
  it did not (src/lib.rs:384-400: implementations may or may not invoke it).  Gadgets that capture their
  value inside the closure (`new_value = Some(..)`) see exactly this.
* `enforce` carries the three combinations, i.e. the closures `a`, `b`, `c` applied to
  `LinearCombination::zero()`, as every implementation does.
* `push`/`pop` are `push_namespace`/`pop_namespace` on the root (src/lib.rs:416-437, 500-509).
* `panic` is a Rust panic in the program itself. -/
inductive Circ (F : Type) (α : Type) : Type where
  | ret (a : α)
  | panic (msg : String)
  | alloc (isInput : Bool) (name : String) (f : Except SynthesisError F)
      (k : Except SynthesisError (Var × Option F) → Circ F α)
  | enforce (name : String) (a b c : LC F) (k : Circ F α)
  | push (name : String) (k : Circ F α)
  | pop (k : Circ F α)

namespace Circ

variable {F α β γ : Type}

/-- Sequencing of programs. Model device, no counterpart in the code. -/
def bind : Circ F α → (α → Circ F β) → Circ F β
  | .ret a, g => g a
  | .panic m, _ => .panic m
  | .alloc i n f k, g => .alloc i n f fun r => (k r).bind g
  | .enforce n a b c k, g => .enforce n a b c (k.bind g)
  | .push n k, g => .push n (k.bind g)
  | .pop k, g => .pop (k.bind g)

instance : Monad (Circ F) where
  pure := .ret
  bind := .bind

@[simp] theorem pure_def (a : α) : (pure a : Circ F α) = .ret a := rfl
@[simp] theorem bind_def (c : Circ F α) (g : α → Circ F β) : (c >>= g) = c.bind g := rfl

theorem bind_ret (c : Circ F α) : c.bind .ret = c := by
  induction c with
  | ret a => rfl
  | panic m => rfl
  | alloc i n f k ih => simp only [bind, ih]
  | enforce n a b c k ih => simp only [bind, ih]
  | push n k ih => simp only [bind, ih]
  | pop k ih => simp only [bind, ih]

theorem bind_assoc (c : Circ F α) (g : α → Circ F β) (h : β → Circ F γ) :
    (c.bind g).bind h = c.bind fun a => (g a).bind h := by
  induction c with
  | ret a => rfl
  | panic m => rfl
  | alloc i n f k ih => simp only [bind, ih]
  | enforce n a b c k ih => simp only [bind, ih]
  | push n k ih => simp only [bind, ih]
  | pop k ih => simp only [bind, ih]

instance : LawfulMonad (Circ F) := LawfulMonad.mk' (m := Circ F)
  (id_map := fun c => bind_ret c)
  (pure_bind := fun _ _ => rfl)
  (bind_assoc := fun c g h => bind_assoc c g h)

end Circ

/-- Programs that return `Result<_, SynthesisError>`, with `?` as monadic bind. `?` is used throughout src/gadgets. -/
abbrev Synth (F : Type) := ExceptT SynthesisError (Circ F)

namespace Synth

variable {F α : Type}

/-- `cs.alloc(|| name, || f)?` (src/lib.rs:384-392).  Returns the variable and the closure's value if it was
invoked. -/
def alloc (name : String) (f : Except SynthesisError F) : Synth F (Var × Option F) :=
  ExceptT.mk (Circ.alloc false name f .ret)

/-- `cs.alloc_input(|| name, || f)?` (src/lib.rs:394-400). -/
def allocInput (name : String) (f : Except SynthesisError F) : Synth F (Var × Option F) :=
  ExceptT.mk (Circ.alloc true name f .ret)

/-- `cs.enforce(|| name, a, b, c)` (src/lib.rs:402-410); `a b c` are the Rust closures, here applied to
`LinearCombination::zero()`. -/
def enforce (name : String) (a b c : LC F → LC F) : Synth F Unit :=
  ExceptT.mk (Circ.enforce name (a ⟨[]⟩) (b ⟨[]⟩) (c ⟨[]⟩) (.ret (.ok ())))

/-- A panic of the program (`panic!`, `assert!`, `unwrap`, `expect`, index out of range).
E.g. src/gadgets/uint32.rs:86, 121, 316-318. -/
def panic (msg : String) : Synth F α := ExceptT.mk (Circ.panic msg)

/-- Calling a gadget with `cs.namespace(|| name)` (src/lib.rs:427-437): the namespace is pushed, the
`Namespace` value is moved into the gadget, and popped by `Drop` when the gadget returns, on success and
on error alike (src/lib.rs:505-509). -/
def inNs (name : String) (body : Synth F α) : Synth F α :=
  ExceptT.mk (Circ.push name (body.run.bind fun r => Circ.pop (.ret r)))

/-- `Assignment::get` (src/gadgets.rs:22-33): `Some(v) => Ok(v)`, `None => Err(AssignmentMissing)`. -/
def optGet (o : Option α) : Except SynthesisError α :=
  match o with
  | some v => .ok v
  | none => .error .assignmentMissing

end Synth

/-! ## Executions against an arbitrary implementation -/

/-- What an implementation of the trait observes. The calls of src/lib.rs:384-437. -/
inductive Ev (F : Type) where
  | alloc (isInput : Bool) (name : String) (x : Var) (val : Option F)
  | enforce (name : String) (a b c : LC F)
  | push (name : String)
  | pop

/-- `Exec c t r`: the program `c` may, against *some* implementation of `ConstraintSystem`, produce the
trace `t` and finish with result `r` (`none`: panic).  The implementation chooses the variables it
hands out, whether to invoke witness closures, and whether to fail. Specification. -/
inductive Exec {F α : Type} : Circ F α → List (Ev F) → Option α → Prop where
  | ret (a : α) : Exec (.ret a) [] (some a)
  | panic (m : String) : Exec (.panic m) [] none
  | allocSkip {i n f k t r} (x : Var) : Exec (k (.ok (x, none))) t r →
      Exec (.alloc i n f k) (.alloc i n x none :: t) r
  | allocRun {i n f k t r} (x : Var) (v : F) : f = .ok v → Exec (k (.ok (x, some v))) t r →
      Exec (.alloc i n f k) (.alloc i n x (some v) :: t) r
  | allocErr {i n f k t r} (e : SynthesisError) : Exec (k (.error e)) t r → Exec (.alloc i n f k) t r
  | enforce {n a b c k t r} : Exec k t r → Exec (.enforce n a b c k) (.enforce n a b c :: t) r
  | push {n k t r} : Exec k t r → Exec (.push n k) (.push n :: t) r
  | pop {k t r} : Exec k t r → Exec (.pop k) (.pop :: t) r

/-- `Honest c t r`: as `Exec`, for implementations that always invoke the witness closures and fail only if
a closure fails (the prover and the test constraint system). Specification. -/
inductive Honest {F α : Type} : Circ F α → List (Ev F) → Option α → Prop where
  | ret (a : α) : Honest (.ret a) [] (some a)
  | panic (m : String) : Honest (.panic m) [] none
  | allocRun {i n f k t r} (x : Var) (v : F) : f = .ok v → Honest (k (.ok (x, some v))) t r →
      Honest (.alloc i n f k) (.alloc i n x (some v) :: t) r
  | allocErr {i n f k t r} (e : SynthesisError) : f = .error e → Honest (k (.error e)) t r →
      Honest (.alloc i n f k) t r
  | enforce {n a b c k t r} : Honest k t r → Honest (.enforce n a b c k) (.enforce n a b c :: t) r
  | push {n k t r} : Honest k t r → Honest (.push n k) (.push n :: t) r
  | pop {k t r} : Honest k t r → Honest (.pop k) (.pop :: t) r

/-- `Blind c t r`: as `Exec`, for implementations that never invoke a witness closure and whose allocations never fail
(key generation). Specification. -/
inductive Blind {F α : Type} : Circ F α → List (Ev F) → Option α → Prop where
  | ret (a : α) : Blind (.ret a) [] (some a)
  | panic (m : String) : Blind (.panic m) [] none
  | allocSkip {i n f k t r} (x : Var) : Blind (k (.ok (x, none))) t r → Blind (.alloc i n f k) (.alloc i n x none :: t) r
  | enforce {n a b c k t r} : Blind k t r → Blind (.enforce n a b c k) (.enforce n a b c :: t) r
  | push {n k t r} : Blind k t r → Blind (.push n k) (.push n :: t) r
  | pop {k t r} : Blind k t r → Blind (.pop k) (.pop :: t) r

theorem Blind.exec {F α : Type} {c : Circ F α} {t r} (h : Blind c t r) : Exec c t r := by
  induction h with
  | ret a => exact .ret a
  | panic m => exact .panic m
  | allocSkip x _ ih => exact .allocSkip x ih
  | enforce _ ih => exact .enforce ih
  | push _ ih => exact .push ih
  | pop _ ih => exact .pop ih

theorem Honest.exec {F α : Type} {c : Circ F α} {t r} (h : Honest c t r) : Exec c t r := by
  induction h with
  | ret a => exact .ret a
  | panic m => exact .panic m
  | allocRun x v hf _ ih => exact .allocRun x v hf ih
  | allocErr e hf _ ih => exact .allocErr e ih
  | enforce _ ih => exact .enforce ih
  | push _ ih => exact .push ih
  | pop _ ih => exact .pop ih

theorem Exec.bind_inv {F α β : Type} {c : Circ F α} {g : α → Circ F β} {t r} (h : Exec (c.bind g) t r) :
    (Exec c t none ∧ r = none) ∨ ∃ t1 t2 a, t = t1 ++ t2 ∧ Exec c t1 (some a) ∧ Exec (g a) t2 r := by
  induction c generalizing t with
  | ret a => exact .inr ⟨[], t, a, rfl, .ret a, h⟩
  | panic m => cases h; exact .inl ⟨.panic m, rfl⟩
  | alloc i n f k ih =>
    cases h with
    | allocSkip x h =>
      rcases ih _ h with ⟨h, hr⟩ | ⟨t1, t2, a, rfl, h1, h2⟩
      · exact .inl ⟨.allocSkip x h, hr⟩
      · exact .inr ⟨_ :: t1, t2, a, rfl, .allocSkip x h1, h2⟩
    | allocRun x v hf h =>
      rcases ih _ h with ⟨h, hr⟩ | ⟨t1, t2, a, rfl, h1, h2⟩
      · exact .inl ⟨.allocRun x v hf h, hr⟩
      · exact .inr ⟨_ :: t1, t2, a, rfl, .allocRun x v hf h1, h2⟩
    | allocErr e h =>
      rcases ih _ h with ⟨h, hr⟩ | ⟨t1, t2, a, rfl, h1, h2⟩
      · exact .inl ⟨.allocErr e h, hr⟩
      · exact .inr ⟨t1, t2, a, rfl, .allocErr e h1, h2⟩
  | enforce n a b c k ih =>
    cases h with
    | enforce h =>
      rcases ih h with ⟨h, hr⟩ | ⟨t1, t2, a, rfl, h1, h2⟩
      · exact .inl ⟨.enforce h, hr⟩
      · exact .inr ⟨_ :: t1, t2, a, rfl, .enforce h1, h2⟩
  | push n k ih =>
    cases h with
    | push h =>
      rcases ih h with ⟨h, hr⟩ | ⟨t1, t2, a, rfl, h1, h2⟩
      · exact .inl ⟨.push h, hr⟩
      · exact .inr ⟨_ :: t1, t2, a, rfl, .push h1, h2⟩
  | pop k ih =>
    cases h with
    | pop h =>
      rcases ih h with ⟨h, hr⟩ | ⟨t1, t2, a, rfl, h1, h2⟩
      · exact .inl ⟨.pop h, hr⟩
      · exact .inr ⟨_ :: t1, t2, a, rfl, .pop h1, h2⟩

theorem Honest.bind_inv {F α β : Type} {c : Circ F α} {g : α → Circ F β} {t r} (h : Honest (c.bind g) t r) :
    (Honest c t none ∧ r = none) ∨ ∃ t1 t2 a, t = t1 ++ t2 ∧ Honest c t1 (some a) ∧ Honest (g a) t2 r := by
  induction c generalizing t with
  | ret a => exact .inr ⟨[], t, a, rfl, .ret a, h⟩
  | panic m => cases h; exact .inl ⟨.panic m, rfl⟩
  | alloc i n f k ih =>
    cases h with
    | allocRun x v hf h =>
      rcases ih _ h with ⟨h, hr⟩ | ⟨t1, t2, a, rfl, h1, h2⟩
      · exact .inl ⟨.allocRun x v hf h, hr⟩
      · exact .inr ⟨_ :: t1, t2, a, rfl, .allocRun x v hf h1, h2⟩
    | allocErr e hf h =>
      rcases ih _ h with ⟨h, hr⟩ | ⟨t1, t2, a, rfl, h1, h2⟩
      · exact .inl ⟨.allocErr e hf h, hr⟩
      · exact .inr ⟨t1, t2, a, rfl, .allocErr e hf h1, h2⟩
  | enforce n a b c k ih =>
    cases h with
    | enforce h =>
      rcases ih h with ⟨h, hr⟩ | ⟨t1, t2, a, rfl, h1, h2⟩
      · exact .inl ⟨.enforce h, hr⟩
      · exact .inr ⟨_ :: t1, t2, a, rfl, .enforce h1, h2⟩
  | push n k ih =>
    cases h with
    | push h =>
      rcases ih h with ⟨h, hr⟩ | ⟨t1, t2, a, rfl, h1, h2⟩
      · exact .inl ⟨.push h, hr⟩
      · exact .inr ⟨_ :: t1, t2, a, rfl, .push h1, h2⟩
  | pop k ih =>
    cases h with
    | pop h =>
      rcases ih h with ⟨h, hr⟩ | ⟨t1, t2, a, rfl, h1, h2⟩
      · exact .inl ⟨.pop h, hr⟩
      · exact .inr ⟨_ :: t1, t2, a, rfl, .pop h1, h2⟩

theorem Exec.bind {F α β : Type} {c : Circ F α} {g : α → Circ F β} {t1 t2 a r} (h1 : Exec c t1 (some a))
    (h2 : Exec (g a) t2 r) : Exec (c.bind g) (t1 ++ t2) r := by
  induction c generalizing t1 with
  | ret a => cases h1; exact h2
  | panic m => cases h1
  | alloc i n f k ih =>
    cases h1 with
    | allocSkip x h => exact .allocSkip x (ih _ h)
    | allocRun x v hf h => exact .allocRun x v hf (ih _ h)
    | allocErr e h => exact .allocErr e (ih _ h)
  | enforce n a b c k ih => cases h1 with | enforce h => exact .enforce (ih h)
  | push n k ih => cases h1 with | push h => exact .push (ih h)
  | pop k ih => cases h1 with | pop h => exact .pop (ih h)

theorem Honest.bind {F α β : Type} {c : Circ F α} {g : α → Circ F β} {t1 t2 a r} (h1 : Honest c t1 (some a))
    (h2 : Honest (g a) t2 r) : Honest (c.bind g) (t1 ++ t2) r := by
  induction c generalizing t1 with
  | ret a => cases h1; exact h2
  | panic m => cases h1
  | alloc i n f k ih =>
    cases h1 with
    | allocRun x v hf h => exact .allocRun x v hf (ih _ h)
    | allocErr e hf h => exact .allocErr e hf (ih _ h)
  | enforce n a b c k ih => cases h1 with | enforce h => exact .enforce (ih h)
  | push n k ih => cases h1 with | push h => exact .push (ih h)
  | pop k ih => cases h1 with | pop h => exact .pop (ih h)

set_option linter.unusedSectionVars false

section Sat
variable {F : Type} [PrimeField F]

/-- The assignment `ρ` satisfies every constraint of the trace. Specification. -/
def Sat (ρ : Var → F) (t : List (Ev F)) : Prop :=
  ∀ n a b c, Ev.enforce n a b c ∈ t → a.eval ρ * b.eval ρ = c.eval ρ

/-- The assignment `ρ` agrees with all witness values of the trace. Specification. -/
def Agrees (ρ : Var → F) (t : List (Ev F)) : Prop :=
  ∀ i n x v, Ev.alloc i n x (some v) ∈ t → ρ x = v

@[simp] theorem Sat_nil (ρ : Var → F) : Sat ρ [] := by simp [Sat]

@[simp] theorem Sat_enforce (ρ : Var → F) (n a b c t) :
    Sat ρ (.enforce n a b c :: t) ↔ a.eval ρ * b.eval ρ = c.eval ρ ∧ Sat ρ t := by
  constructor
  · intro h
    exact ⟨h n a b c (by simp), fun n a b c hm => h n a b c (by simp [hm])⟩
  · rintro ⟨h1, h2⟩ n' a' b' c' hm
    simp only [List.mem_cons, Ev.enforce.injEq] at hm
    rcases hm with ⟨rfl, rfl, rfl, rfl⟩ | hm
    · exact h1
    · exact h2 _ _ _ _ hm

@[simp] theorem Sat_alloc (ρ : Var → F) (i n x v t) : Sat ρ (.alloc i n x v :: t) ↔ Sat ρ t := by
  simp [Sat]
@[simp] theorem Sat_push (ρ : Var → F) (n t) : Sat ρ (.push n :: t) ↔ Sat ρ t := by simp [Sat]
@[simp] theorem Sat_pop (ρ : Var → F) (t) : Sat ρ (.pop :: t) ↔ Sat ρ t := by simp [Sat]

@[simp] theorem Agrees_nil (ρ : Var → F) : Agrees ρ [] := by simp [Agrees]
@[simp] theorem Agrees_enforce (ρ : Var → F) (n a b c t) :
    Agrees ρ (.enforce n a b c :: t) ↔ Agrees ρ t := by simp [Agrees]
@[simp] theorem Agrees_push (ρ : Var → F) (n t) : Agrees ρ (.push n :: t) ↔ Agrees ρ t := by simp [Agrees]
@[simp] theorem Agrees_pop (ρ : Var → F) (t) : Agrees ρ (.pop :: t) ↔ Agrees ρ t := by simp [Agrees]
@[simp] theorem Agrees_alloc (ρ : Var → F) (i n x v t) :
    Agrees ρ (.alloc i n x (some v) :: t) ↔ ρ x = v ∧ Agrees ρ t := by
  constructor
  · intro h
    exact ⟨h i n x v (by simp), fun i n x v hm => h i n x v (by simp [hm])⟩
  · rintro ⟨h1, h2⟩ i' n' x' v' hm
    simp only [List.mem_cons, Ev.alloc.injEq, Option.some.injEq] at hm
    rcases hm with ⟨rfl, rfl, rfl, rfl⟩ | hm
    · exact h1
    · exact h2 _ _ _ _ hm

end Sat

/-! ## Weakest preconditions -/

section WP
variable {F : Type} [PrimeField F] {α β : Type}

/-- For every trace whose constraints `ρ` satisfies, the result satisfies `Q`. Specification. -/
def Circ.wpS (ρ : Var → F) : Circ F α → (α → Prop) → Prop
  | .ret a, Q => Q a
  | .panic _, _ => True
  | .alloc _ _ f k, Q =>
      (∀ x, (k (.ok (x, none))).wpS ρ Q) ∧ (∀ x v, f = .ok v → (k (.ok (x, some v))).wpS ρ Q) ∧
      (∀ e, (k (.error e)).wpS ρ Q)
  | .enforce _ a b c k, Q => a.eval ρ * b.eval ρ = c.eval ρ → k.wpS ρ Q
  | .push _ k, Q => k.wpS ρ Q
  | .pop k, Q => k.wpS ρ Q

/-- For every honest trace with whose witness values `ρ` agrees: no panic, all constraints hold under `ρ` and
the result satisfies `Q`. Specification. -/
def Circ.wpC (ρ : Var → F) : Circ F α → (α → Prop) → Prop
  | .ret a, Q => Q a
  | .panic _, _ => False
  | .alloc _ _ f k, Q =>
      (∀ x v, f = .ok v → ρ x = v → (k (.ok (x, some v))).wpC ρ Q) ∧
      (∀ e, f = .error e → (k (.error e)).wpC ρ Q)
  | .enforce _ a b c k, Q => a.eval ρ * b.eval ρ = c.eval ρ ∧ k.wpC ρ Q
  | .push _ k, Q => k.wpC ρ Q
  | .pop k, Q => k.wpC ρ Q

theorem Circ.wpS_iff (ρ : Var → F) (c : Circ F α) (Q : α → Prop) :
    c.wpS ρ Q ↔ ∀ t a, Exec c t (some a) → Sat ρ t → Q a := by
  induction c with
  | ret a =>
    simp only [wpS]
    constructor
    · intro h t a' he _
      cases he; exact h
    · intro h
      exact h [] a (.ret a) (by simp)
  | panic m =>
    simp only [wpS, true_iff]
    intro t a he
    cases he
  | alloc i n f k ih =>
    simp only [wpS]
    constructor
    · rintro ⟨h1, h2, h3⟩ t a he hs
      cases he with
      | allocSkip x he => exact (ih _).1 (h1 x) _ _ he (by simpa using hs)
      | allocRun x v hf he => exact (ih _).1 (h2 x v hf) _ _ he (by simpa using hs)
      | allocErr e he => exact (ih _).1 (h3 e) _ _ he hs
    · intro h
      refine ⟨fun x => (ih _).2 ?_, fun x v hf => (ih _).2 ?_, fun e => (ih _).2 ?_⟩
      · intro t a he hs; exact h _ _ (.allocSkip x he) (by simpa using hs)
      · intro t a he hs; exact h _ _ (.allocRun x v hf he) (by simpa using hs)
      · intro t a he hs; exact h _ _ (.allocErr e he) hs
  | enforce n a b c k ih =>
    simp only [wpS]
    constructor
    · intro h t r he hs
      cases he with
      | enforce he =>
        rw [Sat_enforce] at hs
        exact (ih).1 (h hs.1) _ _ he hs.2
    · intro h hc
      refine ih.2 ?_
      intro t r he hs
      exact h _ _ (.enforce he) ((Sat_enforce ..).2 ⟨hc, hs⟩)
  | push n k ih =>
    simp only [wpS]
    rw [ih]
    constructor
    · intro h t r he hs
      cases he with
      | push he => exact h _ _ he (by simpa using hs)
    · intro h t r he hs
      exact h _ _ (.push he) (by simpa using hs)
  | pop k ih =>
    simp only [wpS]
    rw [ih]
    constructor
    · intro h t r he hs
      cases he with
      | pop he => exact h _ _ he (by simpa using hs)
    · intro h t r he hs
      exact h _ _ (.pop he) (by simpa using hs)

theorem Circ.wpC_sound (ρ : Var → F) (c : Circ F α) (Q : α → Prop) (h : c.wpC ρ Q) :
    ∀ t r, Honest c t r → Agrees ρ t → Sat ρ t ∧ ∃ a, r = some a ∧ Q a := by
  induction c with
  | ret a =>
    intro t r he _
    cases he
    exact ⟨by simp, a, rfl, h⟩
  | panic m => exact h.elim
  | alloc i n f k ih =>
    intro t r he ha
    obtain ⟨h1, h2⟩ := h
    cases he with
    | allocRun x v hf he =>
      rw [Agrees_alloc] at ha
      simpa using ih _ (h1 x v hf ha.1) _ _ he ha.2
    | allocErr e hf he => exact ih _ (h2 e hf) _ _ he ha
  | enforce n a b c k ih =>
    intro t r he ha
    cases he with
    | enforce he =>
      have := ih h.2 _ _ he (by simpa using ha)
      exact ⟨(Sat_enforce ..).2 ⟨h.1, this.1⟩, this.2⟩
  | push n k ih =>
    intro t r he ha
    cases he with
    | push he => simpa using ih h _ _ he (by simpa using ha)
  | pop k ih =>
    intro t r he ha
    cases he with
    | pop he => simpa using ih h _ _ he (by simpa using ha)

theorem Circ.wpS_bind (ρ : Var → F) (c : Circ F α) (g : α → Circ F β) (Q : β → Prop) :
    (c.bind g).wpS ρ Q ↔ c.wpS ρ fun a => (g a).wpS ρ Q := by
  induction c with
  | ret a => rfl
  | panic m => rfl
  | alloc i n f k ih => simp only [bind, wpS, ih]
  | enforce n a b c k ih => simp only [bind, wpS, ih]
  | push n k ih => simp only [bind, wpS, ih]
  | pop k ih => simp only [bind, wpS, ih]

theorem Circ.wpC_bind (ρ : Var → F) (c : Circ F α) (g : α → Circ F β) (Q : β → Prop) :
    (c.bind g).wpC ρ Q ↔ c.wpC ρ fun a => (g a).wpC ρ Q := by
  induction c with
  | ret a => rfl
  | panic m => rfl
  | alloc i n f k ih => simp only [bind, wpC, ih]
  | enforce n a b c k ih => simp only [bind, wpC, ih]
  | push n k ih => simp only [bind, wpC, ih]
  | pop k ih => simp only [bind, wpC, ih]

theorem Circ.wpS_mono (ρ : Var → F) (c : Circ F α) {Q Q' : α → Prop} (hQ : ∀ a, Q a → Q' a) :
    c.wpS ρ Q → c.wpS ρ Q' := by
  induction c with
  | ret a => exact hQ a
  | panic m => exact id
  | alloc i n f k ih => exact fun ⟨h1, h2, h3⟩ =>
      ⟨fun x => ih _ (h1 x), fun x v hf => ih _ (h2 x v hf), fun e => ih _ (h3 e)⟩
  | enforce n a b c k ih => exact fun h hc => ih (h hc)
  | push n k ih => exact fun h => ih h
  | pop k ih => exact fun h => ih h

theorem Circ.wpC_mono (ρ : Var → F) (c : Circ F α) {Q Q' : α → Prop} (hQ : ∀ a, Q a → Q' a) :
    c.wpC ρ Q → c.wpC ρ Q' := by
  induction c with
  | ret a => exact hQ a
  | panic m => exact id
  | alloc i n f k ih => exact fun ⟨h1, h2⟩ =>
      ⟨fun x v hf hx => ih _ (h1 x v hf hx), fun e he => ih _ (h2 e he)⟩
  | enforce n a b c k ih => exact fun h => ⟨h.1, ih h.2⟩
  | push n k ih => exact fun h => ih h
  | pop k ih => exact fun h => ih h

end WP

/-! ## The same for programs with error results -/

section SynthWP
variable {F : Type} [PrimeField F] {α β : Type}

/-- **Soundness judgement.** Whatever implementation of the trait the gadget `m` runs against, if it returns
`Ok a` and the assignment `ρ` satisfies all constraints it emitted, then `Q a`. -/
def Sound (ρ : Var → F) (m : Synth F α) (Q : α → Prop) : Prop :=
  ∀ t a, Exec m.run t (some (.ok a)) → Sat ρ t → Q a

/-- **Completeness judgement.** Run against an implementation that invokes the witness closures, the gadget `m`
never panics and never fails, and for every assignment `ρ` that agrees with the values the closures returned
all emitted constraints hold and the returned `a` satisfies `Q`. -/
def Complete (ρ : Var → F) (m : Synth F α) (Q : α → Prop) : Prop :=
  ∀ t r, Honest m.run t r → Agrees ρ t → Sat ρ t ∧ ∃ a, r = some (.ok a) ∧ Q a

/-- `Circ.wpS` for results of type `Result`. -/
def Synth.wpS (ρ : Var → F) (m : Synth F α) (Q : α → Prop) : Prop :=
  Circ.wpS ρ m.run fun r => match r with
    | .ok a => Q a
    | .error _ => True

/-- `Circ.wpC` for results of type `Result`. -/
def Synth.wpC (ρ : Var → F) (m : Synth F α) (Q : α → Prop) : Prop :=
  Circ.wpC ρ m.run fun r => match r with
    | .ok a => Q a
    | .error _ => False

theorem Synth.wpS_iff (ρ : Var → F) (m : Synth F α) (Q : α → Prop) : m.wpS ρ Q ↔ Sound ρ m Q := by
  unfold Synth.wpS Sound
  rw [Circ.wpS_iff]
  constructor
  · intro h t a he hs; exact h t _ he hs
  · intro h t r he hs
    cases r with
    | ok a => exact h t a he hs
    | error e => trivial

theorem Synth.wpC_sound {ρ : Var → F} {m : Synth F α} {Q : α → Prop} (h : m.wpC ρ Q) :
    Complete ρ m Q := by
  intro t r he ha
  obtain ⟨h1, a, rfl, h2⟩ := Circ.wpC_sound ρ _ _ h t r he ha
  refine ⟨h1, ?_⟩
  cases a with
  | ok a => exact ⟨a, rfl, h2⟩
  | error e => exact h2.elim

theorem Synth.wpS_mono {ρ : Var → F} {m : Synth F α} {Q Q' : α → Prop} (h : m.wpS ρ Q)
    (hQ : ∀ a, Q a → Q' a) : m.wpS ρ Q' := by
  refine Circ.wpS_mono ρ _ ?_ h
  intro r
  cases r with
  | ok a => exact hQ a
  | error e => exact id

theorem Synth.wpC_mono {ρ : Var → F} {m : Synth F α} {Q Q' : α → Prop} (h : m.wpC ρ Q)
    (hQ : ∀ a, Q a → Q' a) : m.wpC ρ Q' := by
  refine Circ.wpC_mono ρ _ ?_ h
  intro r
  cases r with
  | ok a => exact hQ a
  | error e => exact id

@[simp] theorem Synth.wpS_pure (ρ : Var → F) (a : α) (Q : α → Prop) :
    Synth.wpS ρ (pure a : Synth F α) Q ↔ Q a := Iff.rfl

@[simp] theorem Synth.wpC_pure (ρ : Var → F) (a : α) (Q : α → Prop) :
    Synth.wpC ρ (pure a : Synth F α) Q ↔ Q a := Iff.rfl

@[simp] theorem Synth.wpS_throw (ρ : Var → F) (e) (Q : α → Prop) :
    Synth.wpS ρ (throw e : Synth F α) Q ↔ True := Iff.rfl

@[simp] theorem Synth.wpC_throw (ρ : Var → F) (e) (Q : α → Prop) :
    Synth.wpC ρ (throw e : Synth F α) Q ↔ False := Iff.rfl

@[simp] theorem Synth.wpS_panic (ρ : Var → F) (e) (Q : α → Prop) :
    Synth.wpS ρ (Synth.panic e : Synth F α) Q ↔ True := Iff.rfl

@[simp] theorem Synth.wpC_panic (ρ : Var → F) (e) (Q : α → Prop) :
    Synth.wpC ρ (Synth.panic e : Synth F α) Q ↔ False := Iff.rfl

@[simp] theorem Synth.wpS_bind (ρ : Var → F) (m : Synth F α) (g : α → Synth F β) (Q : β → Prop) :
    Synth.wpS ρ (m >>= g) Q ↔ Synth.wpS ρ m fun a => Synth.wpS ρ (g a) Q := by
  show Circ.wpS ρ (Circ.bind m.run _) _ ↔ _
  rw [Circ.wpS_bind]
  unfold Synth.wpS
  constructor <;> refine Circ.wpS_mono ρ _ ?_ <;> intro r <;> cases r <;> exact id

@[simp] theorem Synth.wpC_bind (ρ : Var → F) (m : Synth F α) (g : α → Synth F β) (Q : β → Prop) :
    Synth.wpC ρ (m >>= g) Q ↔ Synth.wpC ρ m fun a => Synth.wpC ρ (g a) Q := by
  show Circ.wpC ρ (Circ.bind m.run _) _ ↔ _
  rw [Circ.wpC_bind]
  unfold Synth.wpC
  constructor <;> refine Circ.wpC_mono ρ _ ?_ <;> intro r <;> cases r <;> exact id

@[simp] theorem Synth.wpS_map (ρ : Var → F) (m : Synth F α) (g : α → β) (Q : β → Prop) :
    Synth.wpS ρ (g <$> m) Q ↔ Synth.wpS ρ m fun a => Q (g a) := by
  rw [map_eq_pure_bind, Synth.wpS_bind]; rfl

@[simp] theorem Synth.wpC_map (ρ : Var → F) (m : Synth F α) (g : α → β) (Q : β → Prop) :
    Synth.wpC ρ (g <$> m) Q ↔ Synth.wpC ρ m fun a => Q (g a) := by
  rw [map_eq_pure_bind, Synth.wpC_bind]; rfl

@[simp] theorem Synth.wpS_inNs (ρ : Var → F) (n : String) (m : Synth F α) (Q : α → Prop) :
    Synth.wpS ρ (Synth.inNs n m) Q ↔ Synth.wpS ρ m Q := by
  show Circ.wpS ρ (Circ.push n (Circ.bind m.run _)) _ ↔ _
  simp only [Circ.wpS, Circ.wpS_bind]
  rfl

@[simp] theorem Synth.wpC_inNs (ρ : Var → F) (n : String) (m : Synth F α) (Q : α → Prop) :
    Synth.wpC ρ (Synth.inNs n m) Q ↔ Synth.wpC ρ m Q := by
  show Circ.wpC ρ (Circ.push n (Circ.bind m.run _)) _ ↔ _
  simp only [Circ.wpC, Circ.wpC_bind]
  rfl

@[simp] theorem Synth.wpS_enforce (ρ : Var → F) (n : String) (a b c : LC F → LC F) (Q : Unit → Prop) :
    Synth.wpS ρ (Synth.enforce n a b c) Q ↔
      ((a .zero).eval ρ * (b .zero).eval ρ = (c .zero).eval ρ → Q ()) := Iff.rfl

@[simp] theorem Synth.wpC_enforce (ρ : Var → F) (n : String) (a b c : LC F → LC F) (Q : Unit → Prop) :
    Synth.wpC ρ (Synth.enforce n a b c) Q ↔
      ((a .zero).eval ρ * (b .zero).eval ρ = (c .zero).eval ρ ∧ Q ()) := Iff.rfl

@[simp] theorem Synth.wpS_alloc (ρ : Var → F) (n : String) (f) (Q : Var × Option F → Prop) :
    Synth.wpS ρ (Synth.alloc n f) Q ↔ (∀ x, Q (x, none)) ∧ (∀ x v, f = .ok v → Q (x, some v)) := by
  show (_ ∧ _ ∧ _) ↔ _
  exact ⟨fun ⟨h1, h2, _⟩ => ⟨h1, h2⟩, fun ⟨h1, h2⟩ => ⟨h1, h2, fun _ => trivial⟩⟩

@[simp] theorem Synth.wpC_alloc (ρ : Var → F) (n : String) (f) (Q : Var × Option F → Prop) :
    Synth.wpC ρ (Synth.alloc n f) Q ↔ ∃ v, f = .ok v ∧ ∀ x, ρ x = v → Q (x, some v) := by
  show (_ ∧ _) ↔ _
  constructor
  · rintro ⟨h1, h2⟩
    cases f with
    | ok v => exact ⟨v, rfl, fun x hx => h1 x v rfl hx⟩
    | error e => exact (h2 e rfl).elim
  · rintro ⟨v, rfl, h⟩
    exact ⟨fun x v' hv hx => by cases hv; exact h x hx, fun e he => by cases he⟩

@[simp] theorem Synth.wpS_allocInput (ρ : Var → F) (n : String) (f) (Q : Var × Option F → Prop) :
    Synth.wpS ρ (Synth.allocInput n f) Q ↔
      (∀ x, Q (x, none)) ∧ (∀ x v, f = .ok v → Q (x, some v)) := by
  show (_ ∧ _ ∧ _) ↔ _
  exact ⟨fun ⟨h1, h2, _⟩ => ⟨h1, h2⟩, fun ⟨h1, h2⟩ => ⟨h1, h2, fun _ => trivial⟩⟩

@[simp] theorem Synth.wpC_allocInput (ρ : Var → F) (n : String) (f) (Q : Var × Option F → Prop) :
    Synth.wpC ρ (Synth.allocInput n f) Q ↔ ∃ v, f = .ok v ∧ ∀ x, ρ x = v → Q (x, some v) :=
  Synth.wpC_alloc ρ n f Q

end SynthWP

end Bellman
