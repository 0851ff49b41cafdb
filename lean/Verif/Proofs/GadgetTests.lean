import Verif.Examples.GadgetTests
import Verif.Props.Tested

/-!
# Evaluating unit tests
-/

set_option linter.unusedSectionVars false

namespace Bellman.GadgetTests

open PrimeField

variable {F : Type} [PrimeField F] {α β : Type} {s s' : TestCS F}

/-! ### Runs of gadgets -/

theorem result_pure (a : α) : result (pure a : Synth F α) s = some (.ok a, s) := rfl

theorem result_throw (e : SynthesisError) : result (throw e : Synth F α) s = some (.error e, s) := rfl

theorem result_bind (m : Synth F α) (g : α → Synth F β) :
    result (m >>= g) s = (result m s).bind fun r => match r.1 with
      | .ok a => result (g a) r.2
      | .error e => some (.error e, r.2) := by
  refine (Circ.run_bind TestCS.impl m.run _ s).trans ?_
  refine congrArg _ (funext fun r => ?_)
  obtain ⟨r | r, s⟩ := r <;> rfl

theorem result_map (m : Synth F α) (g : α → β) :
    result (g <$> m) s = (result m s).map fun r => (r.1.map g, r.2) := by
  refine (Circ.run_bind TestCS.impl m.run _ s).trans ?_
  cases h : m.run.run TestCS.impl s with
  | none => simp [result, h]
  | some r => obtain ⟨r | r, s⟩ := r <;> simp only [result, h] <;> rfl

theorem result_inNs (n : String) (m : Synth F α) :
    result (Synth.inNs n m) s = (s.pushNs n).bind fun s => (result m s).bind fun r => r.2.popNs.map fun s => (r.1, s) := by
  change ((s.pushNs n).bind fun s => (m.run.bind fun r => Circ.pop (.ret r)).run TestCS.impl s) = _
  simp only [Circ.run_bind]
  refine congrArg _ (funext fun s => congrArg _ (funext fun r => ?_))
  change (r.2.popNs.bind fun s => some (r.1, s)) = _
  cases r.2.popNs <;> rfl

theorem result_alloc (n : String) (f : Except SynthesisError F) : result (Synth.alloc n f) s = s.allocAux n f := by
  change (s.allocAux n f).bind (fun r => some r) = _
  simp

theorem result_allocInput (n : String) (f : Except SynthesisError F) : result (Synth.allocInput n f) s = s.allocInput n f := by
  change (s.allocInput n f).bind (fun r => some r) = _
  simp

theorem result_enforce (n : String) (a b c : LC F → LC F) :
    result (Synth.enforce n a b c) s = (s.enforce n (a ⟨[]⟩) (b ⟨[]⟩) (c ⟨[]⟩)).map fun s => (.ok (), s) := by
  change (s.enforce n (a ⟨[]⟩) (b ⟨[]⟩) (c ⟨[]⟩)).bind (fun s => some (Except.ok (), s)) = _
  cases s.enforce n (a ⟨[]⟩) (b ⟨[]⟩) (c ⟨[]⟩) <;> rfl

/-! ### Steps of tests -/

theorem bind_eval (m : UTest F α) (g : α → UTest F β) : (m >>= g) s = (m s).bind fun r => g r.1 r.2 := by
  simp only [bind, StateT.bind]

theorem pure_eval (a : α) : (pure a : UTest F α) s = some (a, s) := rfl

theorem call_eval (m : Synth F α) : call m s = (result m s).bind fun r => r.1.toOption.map fun a => (a, r.2) := by
  rw [call, bind_eval]
  refine congrArg _ (funext fun r => ?_)
  obtain ⟨r | r, s⟩ := r <;> rfl

theorem assert_eval (b : Bool) : assert b s = if b then some ((), s) else none := by cases b <;> rfl

theorem unwrap_eval (a : Option α) : unwrap a s = a.map fun a => (a, s) := rfl

theorem isSatisfied_eval : isSatisfied s = s.isSatisfied.map fun b => (b, s) := rfl

theorem whichIsUnsatisfied_eval : whichIsUnsatisfied s = s.whichIsUnsatisfied.map fun b => (b, s) := rfl

theorem numConstraints_eval : numConstraints s = some (s.numConstraints, s) := rfl

theorem verify_eval (e : List F) : verify e s = (s.verify e).map fun b => (b, s) := rfl

theorem get_eval (p : String) : get p s = (s.get p).map fun b => (b, s) := rfl

theorem set_eval (p : String) (x : F) : set p x s = (s.set p x).map fun s => ((), s) := rfl

theorem panic_eval : (panic : UTest F α) s = none := rfl

theorem terms_addTerm (l : LC F) (x : F × Var) : (l + x).terms = l.terms ++ [(x.2, x.1)] := rfl

theorem terms_subTerm (l : LC F) (x : F × Var) : (l - x).terms = l.terms ++ [(x.2, -x.1)] := rfl

theorem terms_addVar (l : LC F) (x : Var) : (l + x).terms = l.terms ++ [(x, 1)] := rfl

theorem terms_subVar (l : LC F) (x : Var) : (l - x).terms = l.terms ++ [(x, -1)] := rfl

private theorem terms_foldl (g : Var × F → F) (ts : List (Var × F)) (l : LC F) :
    (ts.foldl (fun acc s => acc.addTerm (g s, s.1)) l).terms = l.terms ++ ts.map fun s => (s.1, g s) := by
  induction ts generalizing l with
  | nil => simp
  | cons t ts ih => rw [List.foldl_cons, ih]; simp [LC.addTerm]

theorem terms_addLC (l o : LC F) : (l + o).terms = l.terms ++ o.terms :=
  (terms_foldl (fun s => s.2) o.terms l).trans (by simp)

theorem terms_subLC (l o : LC F) : (l - o).terms = l.terms ++ o.terms.map fun s => (s.1, -s.2) := terms_foldl (fun s => -s.2) o.terms l

theorem bind_ite {p : Prop} [Decidable p] (x y : Option α) (g : α → Option β) :
    (if p then x else y).bind g = if p then x.bind g else y.bind g := by split <;> rfl

theorem map_ite {p : Prop} [Decidable p] (x y : Option α) (g : α → β) :
    (if p then x else y).map g = if p then x.map g else y.map g := by split <;> rfl

theorem ok_bind (a : α) (g : α → Except SynthesisError β) : ((Except.ok a : Except SynthesisError α) >>= g) = g a := rfl

theorem error_bind (e : SynthesisError) (g : α → Except SynthesisError β) : ((Except.error e : Except SynthesisError α) >>= g) = .error e := rfl

theorem ok_map (a : α) (g : α → β) : g <$> (Except.ok a : Except SynthesisError α) = .ok (g a) := rfl

theorem ok_pure (a : α) : (pure a : Except SynthesisError α) = .ok a := rfl

theorem throw_error (e : SynthesisError) : (throw e : Except SynthesisError α) = .error e := rfl

/-- Evaluation of a test on a constraint system with a known list of names. -/
macro "eval_test" "[" l:Lean.Parser.Tactic.simpLemma,* "]" : tactic =>
  `(tactic| simp (maxSteps := 10000000) [result_pure, result_throw, result_bind, result_map, result_inNs, result_alloc, result_allocInput, result_enforce, bind_eval, pure_eval,
    call_eval, assert_eval, unwrap_eval, isSatisfied_eval, whichIsUnsatisfied_eval, numConstraints_eval, verify_eval, get_eval, set_eval, panic_eval,
    TestCS.new, TestCS.allocAux, TestCS.allocInput, TestCS.enforce, TestCS.pushNs, TestCS.popNs, TestCS.setNamedObj, computePath, List.lookup,
    TestCS.isSatisfied, TestCS.whichIsUnsatisfied, TestCS.whichLoop, evalLc, TestCS.numConstraints, TestCS.get, TestCS.set, TestCS.setVal,
    TestCS.verify, terms_addTerm, terms_subTerm, terms_addVar, terms_subVar, terms_addLC, terms_subLC, LC.zero, Var.one, bind_ite, map_ite, ok_bind, error_bind, ok_map, ok_pure, throw_error, Except.toOption, Except.map, Except.toBool, Synth.optGet, $l,*])

/-- A test passes iff its program returns a value. -/
theorem passes_iff (t : UTest F Unit) : Passes t ↔ (t .new).isSome = true := by
  unfold Passes
  cases h : t .new with
  | none => simp
  | some r => exact ⟨fun _ => rfl, fun _ => ⟨r.2, rfl⟩⟩

/-! ### Tests of one program -/

theorem call_seq (m : Synth F α) (g : α → Synth F β) : call (m >>= g) = (call m >>= fun a => call (g a)) := by
  funext s
  rw [call_eval, bind_eval, call_eval, result_bind]
  cases result m s with
  | none => rfl
  | some r =>
    obtain ⟨r | r, s⟩ := r
    · rfl
    · exact (call_eval _).symm

theorem call_pure (a : α) : call (pure a : Synth F α) = pure a := rfl

theorem bind_some {m : UTest F α} {g : α → UTest F β} {a : α} (h : m s = some (a, s')) : (m >>= g) s = g a s' := by
  rw [bind_eval, h]
  rfl

theorem call_some {m : Synth F α} {a : α} (h : m.run.run TestCS.impl s = some (.ok a, s')) : call m s = some (a, s') := by
  have h : result m s = some (.ok a, s') := h
  rw [call_eval, h]
  rfl

/-- A complete program with names of its own: it runs, and the system is satisfied. -/
theorem run_complete {N : Set String} {m : Synth F α} {Q : (Var → F) → α → Prop} (hu : SNames N m) (h1 : "ONE" ∉ N)
    (hc : m.run.Scope (fun _ _ _ => True) 1 0) (hm : ∀ ρ, ρ .one = 1 → Synth.wpC ρ m (Q ρ)) :
    ∃ a s, m.run.run TestCS.impl .new = some (.ok a, s) ∧ s.isSatisfied = some true ∧ Q s.rho a ∧ s.ns = [] :=
  C49_tests_pass .new rfl hu.uses (fun _ hn => new_unused fun h => h1 (h ▸ hn)) (fun _ _ he hn => (Circ.Scope.exec hc he hn).1)
    fun ρ hx => Synth.wpC_sound (hm ρ hx.one)

/-- A test that calls such a program and then looks at the result. -/
theorem passes_of_complete {N : Set String} {m : Synth F α} {Q : (Var → F) → α → Prop} {rest : α → UTest F Unit} (hu : SNames N m)
    (h1 : "ONE" ∉ N) (hc : m.run.Scope (fun _ _ _ => True) 1 0) (hm : ∀ ρ, ρ .one = 1 → Synth.wpC ρ m (Q ρ))
    (hr : ∀ a s, m.run.run TestCS.impl .new = some (.ok a, s) → s.isSatisfied = some true → Q s.rho a → ∃ s', rest a s = some ((), s')) :
    Passes (call m >>= rest) := by
  obtain ⟨a, s, h, hs, hq, -⟩ := run_complete hu h1 hc hm
  obtain ⟨s', h'⟩ := hr a s h hs hq
  exact ⟨s', (bind_some (call_some h)).trans h'⟩

theorem assert_true {b : Bool} {g : Unit → UTest F β} (h : b = true) : (assert b >>= g) s = g () s := by
  subst h
  rfl

theorem isSatisfied_some {b : Bool} {g : Bool → UTest F β} (h : s.isSatisfied = some b) : (isSatisfied >>= g) s = g b s := by
  rw [bind_eval, isSatisfied_eval, h]
  rfl

theorem unwrap_some {o : Option α} {a : α} {g : α → UTest F β} (h : o = some a) : (unwrap o >>= g) s = g a s := by
  subst h
  rfl

end Bellman.GadgetTests
