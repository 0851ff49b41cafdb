import Verif.Field
import Mathlib.Tactic.Ring

/-!
# Variables and linear combinations (src/lib.rs)
-/

namespace Bellman

/-- src/lib.rs:179-185 `enum Index { Input(usize), Aux(usize) }`, and src/lib.rs:161-176
`struct Variable(Index)`; the newtype wrapper is erased. -/
inductive Var where
  | input (i : ℕ)
  | aux (i : ℕ)
deriving DecidableEq, Repr, Inhabited

/-- src/lib.rs:379-382 `ConstraintSystem::one()`: `Variable::new_unchecked(Index::Input(0))`. -/
def Var.one : Var := .input 0

/-- src/lib.rs:187-190 `struct LinearCombination<Scalar>(Vec<(Variable, Scalar)>)`. -/
structure LC (F : Type) where
  terms : List (Var × F)

namespace LC

variable {F : Type} [PrimeField F]

/-- src/lib.rs:198-202 `LinearCombination::zero`. -/
def zero : LC F := ⟨[]⟩

/-- src/lib.rs:204-212 `Add<(Scalar, Variable)>`: push onto the vector. -/
def addTerm (l : LC F) (t : F × Var) : LC F := ⟨l.terms ++ [(t.2, t.1)]⟩

/-- src/lib.rs:214-221 `Sub<(Scalar, Variable)>`: `self + (coeff.neg(), var)`. -/
def subTerm (l : LC F) (t : F × Var) : LC F := l.addTerm (-t.1, t.2)

/-- src/lib.rs:223-229 `Add<Variable>`: `self + (Scalar::ONE, other)`. -/
def addVar (l : LC F) (v : Var) : LC F := l.addTerm (1, v)

/-- src/lib.rs:231-237 `Sub<Variable>`: `self - (Scalar::ONE, other)`. -/
def subVar (l : LC F) (v : Var) : LC F := l.subTerm (1, v)

/-- src/lib.rs:239-249 `Add<&LinearCombination>`: loop of `self + (s.1, s.0)`. -/
def addLC (l o : LC F) : LC F := o.terms.foldl (fun acc s => acc.addTerm (s.2, s.1)) l

/-- src/lib.rs:251-261 `Sub<&LinearCombination>`: loop of `self - (s.1, s.0)`. -/
def subLC (l o : LC F) : LC F := o.terms.foldl (fun acc s => acc.subTerm (s.2, s.1)) l

/-- src/lib.rs:263-280 `Add<(Scalar, &LinearCombination)>`: loop of `self + (s.1 * coeff, s.0)`. -/
def addScaled (l : LC F) (o : F × LC F) : LC F :=
  o.2.terms.foldl (fun acc s => acc.addTerm (s.2 * o.1, s.1)) l

/-- src/lib.rs:282-299 `Sub<(Scalar, &LinearCombination)>`: loop of `self - (s.1 * coeff, s.0)`. -/
def subScaled (l : LC F) (o : F × LC F) : LC F :=
  o.2.terms.foldl (fun acc s => acc.subTerm (s.2 * o.1, s.1)) l

instance : HAdd (LC F) (F × Var) (LC F) := ⟨addTerm⟩
instance : HSub (LC F) (F × Var) (LC F) := ⟨subTerm⟩
instance : HAdd (LC F) Var (LC F) := ⟨addVar⟩
instance : HSub (LC F) Var (LC F) := ⟨subVar⟩
instance : HAdd (LC F) (LC F) (LC F) := ⟨addLC⟩
instance : HSub (LC F) (LC F) (LC F) := ⟨subLC⟩
instance : HAdd (LC F) (F × LC F) (LC F) := ⟨addScaled⟩
instance : HSub (LC F) (F × LC F) (LC F) := ⟨subScaled⟩

/-- The value of a linear combination under an assignment (specification; the code's evaluators
are `eval` in groth16/src/prover.rs and `eval_lc` in src/gadgets/test/mod.rs, modelled separately). -/
def eval (ρ : Var → F) (l : LC F) : F := (l.terms.map fun t => t.2 * ρ t.1).sum

variable (ρ : Var → F)

@[simp] theorem eval_zero : eval ρ (zero : LC F) = 0 := rfl

@[simp] theorem eval_addTerm (l : LC F) (t : F × Var) :
    eval ρ (l + t) = eval ρ l + t.1 * ρ t.2 := by
  show eval ρ (l.addTerm t) = _
  simp [eval, addTerm]

@[simp] theorem eval_subTerm (l : LC F) (t : F × Var) :
    eval ρ (l - t) = eval ρ l - t.1 * ρ t.2 := by
  show eval ρ (l + ((-t.1, t.2) : F × Var)) = _
  rw [eval_addTerm]; ring

@[simp] theorem eval_addVar (l : LC F) (v : Var) : eval ρ (l + v) = eval ρ l + ρ v := by
  show eval ρ (l + ((1, v) : F × Var)) = _
  rw [eval_addTerm]; ring

@[simp] theorem eval_subVar (l : LC F) (v : Var) : eval ρ (l - v) = eval ρ l - ρ v := by
  show eval ρ (l - ((1, v) : F × Var)) = _
  rw [eval_subTerm]; ring

theorem eval_foldl (g : Var × F → F) (ts : List (Var × F)) (l : LC F) :
    eval ρ (ts.foldl (fun acc s => acc.addTerm (g s, s.1)) l)
      = eval ρ l + (ts.map fun s => g s * ρ s.1).sum := by
  induction ts generalizing l with
  | nil => simp
  | cons t ts ih =>
    simp only [List.foldl_cons, List.map_cons, List.sum_cons]
    rw [ih]
    have : eval ρ (l.addTerm (g t, t.1)) = eval ρ l + g t * ρ t.1 := eval_addTerm ρ l (g t, t.1)
    rw [this]; ring

@[simp] theorem eval_addLC (l o : LC F) : eval ρ (l + o) = eval ρ l + eval ρ o :=
  eval_foldl ρ (fun s => s.2) o.terms l

@[simp] theorem eval_subLC (l o : LC F) : eval ρ (l - o) = eval ρ l - eval ρ o := by
  have := eval_foldl ρ (fun s => -s.2) o.terms l
  have h2 : (o.terms.map fun s => -s.2 * ρ s.1).sum = - eval ρ o := by
    unfold eval
    induction o.terms with
    | nil => simp
    | cons t ts ih => simp only [List.map_cons, List.sum_cons, ih]; ring
  rw [h2] at this
  rw [sub_eq_add_neg]; exact this

@[simp] theorem eval_addScaled (l : LC F) (o : F × LC F) :
    eval ρ (l + o) = eval ρ l + o.1 * eval ρ o.2 := by
  have := eval_foldl ρ (fun s => s.2 * o.1) o.2.terms l
  have h2 : (o.2.terms.map fun s => s.2 * o.1 * ρ s.1).sum = o.1 * eval ρ o.2 := by
    unfold eval
    induction o.2.terms with
    | nil => simp
    | cons t ts ih => simp only [List.map_cons, List.sum_cons, ih]; ring
  rw [h2] at this
  exact this

@[simp] theorem eval_subScaled (l : LC F) (o : F × LC F) :
    eval ρ (l - o) = eval ρ l - o.1 * eval ρ o.2 := by
  have := eval_foldl ρ (fun s => -(s.2 * o.1)) o.2.terms l
  have h2 : (o.2.terms.map fun s => -(s.2 * o.1) * ρ s.1).sum = - (o.1 * eval ρ o.2) := by
    unfold eval
    induction o.2.terms with
    | nil => simp
    | cons t ts ih => simp only [List.map_cons, List.sum_cons, ih]; ring
  rw [h2] at this
  rw [sub_eq_add_neg]; exact this

end LC

end Bellman
