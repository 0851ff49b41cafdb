import Verif.Proofs.SameCircuit
import Verif.Proofs.ProcLc
import Verif.Gadgets.Num
import Verif.FieldInstances

/-!
# C04, C05, C40: the test constraint system
-/

set_option linter.unusedSectionVars false

namespace Bellman

open List

variable {F : Type} [PrimeField F] {α β : Type}

/-! ### C04

A state reached by a program satisfies `WF` (`TestCS.WF_new`, `TestCS.run_recorded`): paths and indices correspond. -/

/-- The states a test can reach: run programs against the system, and edit values with `set`. -/
inductive TestCS.Reachable {F : Type} [PrimeField F] : TestCS F → Prop where
  | new : Reachable .new
  | run {α : Type} {s s' : TestCS F} (c : Circ F α) {a : α} : Reachable s → c.run TestCS.impl s = some (a, s') → Reachable s'
  | set {s s' : TestCS F} {p : String} {x : F} : Reachable s → s.set p x = some s' → Reachable s'

/-- Every reachable state satisfies the invariant. -/
theorem TestCS.Reachable.wf {s : TestCS F} (h : s.Reachable) : s.WF := by
  induction h with
  | new => exact TestCS.WF_new
  | run c _ hr ih =>
    obtain ⟨t, _, hr⟩ := TestCS.run_recorded c ih hr
    exact hr.wf
  | @set s s' p x _ hs ih =>
    by_cases hp : ∃ v, s.named.lookup p = some (.var v)
    · obtain ⟨v, hv⟩ := hp
      obtain ⟨s'', h1, h2, _⟩ := (TestCS.set_spec ih p x).1 v hv
      rw [h1] at hs
      cases hs
      exact h2
    · push Not at hp
      rw [(TestCS.set_spec ih p x).2 hp] at hs
      cases hs

/-- C04: `is_satisfied()` answers `true` exactly when every enforced constraint holds for the stored assignment (and can be
evaluated at all, i.e. mentions allocated variables only). -/
theorem C04_isSatisfied (s : TestCS F) :
    s.isSatisfied = some true ↔ ∀ k ∈ s.constraints, s.Evaluable k ∧
      k.1.eval s.rho * k.2.1.eval s.rho = k.2.2.1.eval s.rho := by
  rw [TestCS.isSatisfied, TestCS.whichIsUnsatisfied]
  constructor
  · intro h
    obtain ⟨o, h1, h2⟩ := Option.map_eq_some_iff.1 h
    cases o with
    | none => exact (TestCS.whichLoop_none s _).1 h1
    | some p => simp at h2
  · intro h
    rw [(TestCS.whichLoop_none s _).2 h]
    rfl

/-- C04: it answers `false` exactly when some constraint fails and everything before it holds. -/
theorem C04_isSatisfied_false (s : TestCS F) :
    s.isSatisfied = some false ↔ ∃ pre k post, s.constraints = pre ++ k :: post ∧
      (∀ k' ∈ pre, s.Evaluable k' ∧ k'.1.eval s.rho * k'.2.1.eval s.rho = k'.2.2.1.eval s.rho) ∧
      s.Evaluable k ∧ k.1.eval s.rho * k.2.1.eval s.rho ≠ k.2.2.1.eval s.rho := by
  rw [TestCS.isSatisfied, TestCS.whichIsUnsatisfied]
  constructor
  · intro h
    obtain ⟨o, h1, h2⟩ := Option.map_eq_some_iff.1 h
    cases o with
    | none => simp at h2
    | some p =>
      obtain ⟨pre, k, post, e, h1, h2, h3, _⟩ := (TestCS.whichLoop_some s _ p).1 h1
      exact ⟨pre, k, post, e, h1, h2, h3⟩
  · rintro ⟨pre, k, post, e, h1, h2, h3⟩
    rw [(TestCS.whichLoop_some s _ k.2.2.2).2 ⟨pre, k, post, e, h1, h2, h3, rfl⟩]
    rfl

/-- C04: `which_is_unsatisfied()` returns the path of the first failing constraint. -/
theorem C04_which (s : TestCS F) (p : String) :
    s.whichIsUnsatisfied = some (some p) ↔ ∃ pre k post, s.constraints = pre ++ k :: post ∧
      (∀ k' ∈ pre, s.Evaluable k' ∧ k'.1.eval s.rho * k'.2.1.eval s.rho = k'.2.2.1.eval s.rho) ∧
      s.Evaluable k ∧ k.1.eval s.rho * k.2.1.eval s.rho ≠ k.2.2.1.eval s.rho ∧ k.2.2.2 = p := by
  rw [TestCS.whichIsUnsatisfied, TestCS.whichLoop_some]
  simp only [eq_comm, TestCS.Holds, ne_eq]

/-- C04: what was enforced: after a program ran on a reachable system, the constraints are the old ones and those of the
program's calls, in order. -/
theorem C04_constraints {s s' : TestCS F} (hs : s.Reachable) (c : Circ F α) {a : α}
    (h : c.run TestCS.impl s = some (a, s')) : ∃ t, Honest c t (some a) ∧
      (s'.constraints.map fun k => (k.1, k.2.1, k.2.2.1)) =
        (s.constraints.map fun k => (k.1, k.2.1, k.2.2.1)) ++ consOf t ∧
      s'.rho = assign (s.inputs.map (·.1) ++ inVals t) (s.aux.map (·.1) ++ auxVals t) := by
  obtain ⟨t, he, hr⟩ := TestCS.run_recorded c hs.wf h
  exact ⟨t, he, hr.constraints, by rw [TestCS.rho, hr.inputs, hr.aux]⟩

/-- Performing a sequence of `set` calls. -/
def TestCS.setAll : List (String × F) → TestCS F → Option (TestCS F)
  | [], s => some s
  | (p, x) :: es, s => (s.set p x).bind (setAll es)

/-- C04, edits: after any sequence of `set(path, v)` calls on paths of variables, the assignment is the old one with exactly
these updates in order, and constraints are unchanged; so `is_satisfied` answers for the updated assignment. -/
theorem C04_setAll {s : TestCS F} (hw : s.WF) (es : List (Var × String × F))
    (hp : ∀ e ∈ es, s.named.lookup e.2.1 = some (.var e.1)) :
    ∃ s', TestCS.setAll (es.map (·.2)) s = some s' ∧ s'.WF ∧ s'.constraints = s.constraints ∧
      s'.rho = es.foldl (fun ρ e => Function.update ρ e.1 e.2.2) s.rho ∧
      (s'.isSatisfied = some true ↔ ∀ k ∈ s.constraints, s.Evaluable k ∧
        k.1.eval s'.rho * k.2.1.eval s'.rho = k.2.2.1.eval s'.rho) := by
  have key : ∀ (es : List (Var × String × F)) (s : TestCS F), s.WF →
      (∀ e ∈ es, s.named.lookup e.2.1 = some (.var e.1)) →
      ∃ s', TestCS.setAll (es.map (·.2)) s = some s' ∧ s'.WF ∧ s'.constraints = s.constraints ∧
        s'.rho = es.foldl (fun ρ e => Function.update ρ e.1 e.2.2) s.rho ∧
        s'.inputs.length = s.inputs.length ∧ s'.aux.length = s.aux.length := by
    intro es
    induction es with
    | nil => intro s hw _; exact ⟨s, rfl, hw, rfl, rfl, rfl, rfl⟩
    | cons e es ih =>
      intro s hw hp
      obtain ⟨v, p, x⟩ := e
      obtain ⟨s1, h1, w1, r1, c1, n1, _, i1, a1⟩ := (TestCS.set_spec hw p x).1 v (hp _ mem_cons_self)
      obtain ⟨s', h2, w2, c2, r2, i2, a2⟩ := ih s1 w1 fun e he => by rw [n1]; exact hp e (mem_cons_of_mem _ he)
      refine ⟨s', ?_, w2, c2.trans c1, by rw [r2, r1]; rfl, i2.trans i1, a2.trans a1⟩
      simp only [map_cons, TestCS.setAll, h1, Option.bind_some]
      exact h2
  obtain ⟨s', h1, h2, h3, h4, h5, h6⟩ := key es s hw hp
  refine ⟨s', h1, h2, h3, h4, ?_⟩
  rw [C04_isSatisfied, h3]
  simp only [TestCS.Evaluable, h5, h6]

/-- C04: `set` and `get` panic exactly on paths that are not variables; `get` reads the stored assignment. -/
theorem C04_get_set {s : TestCS F} (hw : s.WF) (p : String) (x : F) :
    (s.get p = none ↔ ∀ v, s.named.lookup p ≠ some (.var v)) ∧
    (s.set p x = none ↔ ∀ v, s.named.lookup p ≠ some (.var v)) ∧
    (∀ v, s.named.lookup p = some (.var v) → s.get p = some (s.rho v)) ∧
    (∀ s', s.set p x = some s' → s'.get p = some x) := by
  have hs := TestCS.set_spec hw p x
  have hg := TestCS.get_spec hw p
  refine ⟨⟨fun h v hv => ?_, hg.2⟩, ⟨fun h v hv => ?_, hs.2⟩, hg.1, ?_⟩
  · rw [hg.1 v hv] at h; cases h
  · obtain ⟨s', h1, _⟩ := hs.1 v hv
    rw [h1] at h; cases h
  · intro s' h
    by_cases hp : ∃ v, s.named.lookup p = some (.var v)
    · obtain ⟨v, hv⟩ := hp
      obtain ⟨s'', h1, w, r, _, n, _⟩ := hs.1 v hv
      rw [h1] at h
      cases h
      rw [(TestCS.get_spec w p).1 v (by rw [n]; exact hv), r]
      simp
    · push Not at hp
      rw [hs.2 hp] at h; cases h

/-- C04 for any state whatever, also one that no run reaches: `get` and `set` return exactly when the path names a variable whose index is
in range, and `set` then changes the value under that index and nothing else. -/
theorem C04_get_set_any (s : TestCS F) (p : String) (x : F) :
    ((s.get p).isSome ↔ ∃ v, s.named.lookup p = some (.var v) ∧ v.InRange s.inputs.length s.aux.length) ∧
    ((s.set p x).isSome ↔ ∃ v, s.named.lookup p = some (.var v) ∧ v.InRange s.inputs.length s.aux.length) ∧
    ∀ s', s.set p x = some s' → s'.named = s.named ∧ s'.ns = s.ns ∧ s'.constraints = s.constraints ∧
      s'.inputs.map (·.2) = s.inputs.map (·.2) ∧ s'.aux.map (·.2) = s.aux.map (·.2) ∧
      ∀ i, (s'.inputs[i]?).map (·.1) = (if s.named.lookup p = some (.var (.input i)) then some x else (s.inputs[i]?).map (·.1)) ∧
        (s'.aux[i]?).map (·.1) = (if s.named.lookup p = some (.var (.aux i)) then some x else (s.aux[i]?).map (·.1)) := by
  have hset : ∀ (v v' : List (F × String)) (j : ℕ), TestCS.setVal v j x = some v' →
      v'.map (·.2) = v.map (·.2) ∧ ∀ i, (v'[i]?).map (·.1) = if j = i then some x else (v[i]?).map (·.1) := by
    intro v v' j h
    unfold TestCS.setVal at h
    split at h
    · cases h
    · rename_i e he
      obtain ⟨hlt, he'⟩ := List.getElem?_eq_some_iff.1 he
      cases h
      refine ⟨?_, fun i => ?_⟩
      · rw [map_set]
        refine ext_getElem? fun i => ?_
        rw [getElem?_set]
        split
        · rename_i hi
          subst hi
          simp [hlt, he']
        · rfl
      · rw [getElem?_set]
        split
        · rename_i hi
          subst hi
          simp
        · rfl
  have hsome : ∀ (v : List (F × String)) (j : ℕ), (TestCS.setVal v j x).isSome ↔ j < v.length := by
    intro v j
    unfold TestCS.setVal
    split
    · rename_i h
      simpa using h
    · rename_i e he
      simpa using (List.getElem?_eq_some_iff.1 he).1
  refine ⟨?_, ?_, ?_⟩
  · unfold TestCS.get
    split <;> rename_i h <;> simp [h, Var.InRange]
    intro v hv
    rename_i h'
    subst hv
    cases v <;> simp_all
  · unfold TestCS.set
    split <;> rename_i h <;> simp [h, Var.InRange, hsome]
    intro v hv
    subst hv
    cases v <;> simp_all
  · intro s' h
    unfold TestCS.set at h
    split at h
    · rename_i j hj
      obtain ⟨v', h1, h2⟩ := Option.map_eq_some_iff.1 h
      subst h2
      obtain ⟨e1, e2⟩ := hset _ _ _ h1
      refine ⟨rfl, rfl, rfl, e1, rfl, fun i => ⟨?_, ?_⟩⟩
      · rw [e2 i, hj]
        simp
      · rw [hj]
        simp
    · rename_i j hj
      obtain ⟨v', h1, h2⟩ := Option.map_eq_some_iff.1 h
      subst h2
      obtain ⟨e1, e2⟩ := hset _ _ _ h1
      refine ⟨rfl, rfl, rfl, rfl, e1, fun i => ⟨?_, ?_⟩⟩
      · rw [hj]
        simp
      · rw [e2 i, hj]
        simp
    · cases h
    · cases h

/-- A state that no run reaches: the index is out of range, so both panic. -/
example : (⟨[("a", .var (.aux 0))], [], [], [], []⟩ : TestCS DummyFr).set "a" 1 = none ∧
    (⟨[("a", .var (.aux 0))], [], [], [], []⟩ : TestCS DummyFr).get "a" = none ∧
    ((⟨[("a", .var (.aux 0))], [], [], [], [(3, "a")]⟩ : TestCS DummyFr).set "a" 1).map (·.aux) = some [(1, "a")] := by
  decide +kernel

/-- C04: `get_input(index, path)` returns what `get(path)` returns if the path names the input with that index, and panics in all other
cases. -/
theorem C04_get_input {s : TestCS F} (hw : s.WF) (i : ℕ) (p : String) :
    (s.named.lookup p = some (.var (.input i)) → s.getInput i p = s.get p ∧ s.get p = some (s.rho (.input i))) ∧
    (s.named.lookup p ≠ some (.var (.input i)) → s.getInput i p = none) := by
  constructor
  · intro h
    obtain ⟨v, hv⟩ := (hw.inp i p).1 h
    have h1 := (TestCS.get_spec hw p).1 _ h
    refine ⟨?_, h1⟩
    simp [TestCS.getInput, TestCS.get, h, hv]
  · intro h
    unfold TestCS.getInput
    split
    · rfl
    · rename_i x n hx
      split
      · rename_i hp
        subst hp
        exact absurd ((hw.inp i p).2 ⟨x, hx⟩) h
      · rfl

/-- C04: `verify(expected)` is true exactly when the inputs after the constant one equal the list; it panics exactly on a
length mismatch. -/
theorem C04_verify (s : TestCS F) (xs : List F) :
    (s.verify xs = none ↔ xs.length + 1 ≠ s.inputs.length) ∧
    (s.verify xs = some true ↔ ∃ one, s.inputs.map (·.1) = one :: xs) := TestCS.verify_spec s xs

/-- C04 and the trace semantics: a gadget proved `Sound` really is sound when tested: on a satisfied system its
postcondition holds for the stored assignment. -/
theorem C04_sound_adequate {m : Synth F α} {Q : α → Prop} {s s' : TestCS F} {a : α} (hs : s.WF)
    (h : m.run.run TestCS.impl s = some (.ok a, s')) (hsat : s'.isSatisfied = some true) (hm : Sound s'.rho m Q) : Q a := by
  obtain ⟨t, he, hr⟩ := TestCS.run_recorded _ hs h
  refine hm t a he.exec ((Sat_iff_consOf ..).2 fun k hk => ?_)
  obtain ⟨p, hp⟩ := (hr.mem_constraints k).2 (.inr hk)
  exact ((C04_isSatisfied s').1 hsat _ hp).2

section Example
/-- `a · b = c` in a namespace, then a check that `c = 6`. -/
private def mulCircuit : Synth DummyFr Unit := do
  let (a, _) ← Synth.alloc "a" (.ok 2)
  let (b, _) ← Synth.inNs "in" (Synth.alloc "b" (.ok 3))
  let (c, _) ← Synth.allocInput "c" (.ok 6)
  Synth.inNs "ns" (Synth.enforce "mul" (· + a) (· + b) (· + c))
  Synth.enforce "six" (· + c) (· + Var.one) (· + ((6 : DummyFr), Var.one))

private def mulState : TestCS DummyFr := ((mulCircuit.run.run TestCS.impl .new).map (·.2)).getD .new

private theorem mulState_reachable : mulState.Reachable :=
  .run mulCircuit.run (a := .ok ()) .new (by
    unfold mulState
    have h : (mulCircuit.run.run TestCS.impl .new).isSome = true := by decide +kernel
    obtain ⟨⟨r, s⟩, e⟩ := Option.isSome_iff_exists.1 h
    have : (mulCircuit.run.run TestCS.impl .new).map (fun x => x.1.toOption) = some (some ()) := by decide +kernel
    rw [e] at this ⊢
    cases r with
    | error e => simp [Except.toOption] at this
    | ok u => rfl)

/-- Satisfied; after `set("a", 4)` the constraint `ns/mul` fails first; after also `set("c", 12)` the first failure is `six`. -/
example : mulState.isSatisfied = some true ∧
    (mulState.set "a" 4).bind (·.whichIsUnsatisfied) = some (some "ns/mul") ∧
    ((mulState.set "a" 4).bind fun s => (s.set "c" 12).bind (·.whichIsUnsatisfied)) = some (some "six") ∧
    mulState.verify [6] = some true ∧ mulState.get "in/b" = some 3 ∧ mulState.get "nope" = none ∧
    mulState.named.lookup "in/b" = some (.var (.aux 1)) ∧ mulState.named.lookup "c" = some (.var (.input 1)) ∧
    mulState.getInput 1 "c" = some 6 ∧ mulState.getInput 0 "c" = none ∧ mulState.getInput 1 "a" = none := by
  decide +kernel
end Example

/-! ### C05 -/

/-- C05: the path created for a name under a namespace stack is a function of the pair; a name with a slash panics. -/
theorem C05_path (ns : List String) (n : String) :
    computePath ns n = if '/' ∈ n.toList then none else some (pathStr (ns ++ [n])) := computePath_eq ns n

/-- C05: different (namespace stack, name) pairs give different paths. -/
theorem C05_path_inj {ns ns' : List String} {n n' p : String} (h : ∀ x ∈ ns, '/' ∉ x.toList) (h' : ∀ x ∈ ns', '/' ∉ x.toList)
    (hp : computePath ns n = some p) (hp' : computePath ns' n' = some p) : ns = ns' ∧ n = n' := by
  obtain ⟨c, e⟩ := computePath_some hp
  obtain ⟨c', e'⟩ := computePath_some hp'
  have := pathStr_inj (by simp) (by simp)
    (fun x hx => by rcases mem_append.1 hx with hx | hx; exacts [h x hx, by simp at hx; exact hx ▸ c])
    (fun x hx => by rcases mem_append.1 hx with hx | hx; exacts [h' x hx, by simp at hx; exact hx ▸ c']) (e.symm.trans e')
  have := List.append_inj' this rfl
  exact ⟨this.1, by simpa using this.2⟩

/-- C05: every namespace on the stack of a reachable system passed the path check. -/
theorem C05_stack_clean {s : TestCS F} (h : s.Reachable) : ∀ x ∈ s.ns, '/' ∉ x.toList := h.wf.clean

/-- C05: re-using a path panics, for variables, inputs, constraints and namespaces alike. -/
theorem C05_reuse_panics (s : TestCS F) (n p : String) (hp : computePath s.ns n = some p)
    (hu : p ∈ s.named.map (·.1)) : (∀ v, TestCS.impl.alloc true n (.ok v) s = none) ∧
      (∀ v, TestCS.impl.alloc false n (.ok v) s = none) ∧ (∀ a b c, TestCS.impl.enforce n a b c s = none) ∧
      TestCS.impl.push n s = none := by
  have hl : ∃ o, s.named.lookup p = some o := by
    cases h : s.named.lookup p with
    | none => exact absurd hu (TestCS.lookup_none_iff.1 h)
    | some o => exact ⟨o, rfl⟩
  obtain ⟨o, ho⟩ := hl
  refine ⟨fun v => ?_, fun v => ?_, fun a b c => ?_, ?_⟩ <;>
    simp [TestCS.impl, TestCS.allocInput, TestCS.allocAux, TestCS.enforce, TestCS.pushNs, TestCS.setNamedObj, hp, ho]

/-- C05, whole runs: all objects created by one run have different (namespace stack, name) pairs and are stored under
different paths. -/
theorem C05_run_distinct (c : Circ F α) {s s' : TestCS F} {a : α} (hw : s.WF) (h : c.run TestCS.impl s = some (a, s')) :
    ∃ t, Honest c t (some a) ∧ ((objsOf s.ns s.constraints.length t).map (·.1)).Nodup ∧
      (s'.named.map (·.1)).Nodup ∧
      s'.named = ((objsOf s.ns s.constraints.length t).map fun e => (pathStr e.1, e.2)).reverse ++ s.named := by
  obtain ⟨t, he, hr⟩ := TestCS.run_recorded c hw h
  exact ⟨t, he, hr.nodup_objs, hr.wf.nodup, hr.named⟩

/-- Programs that enter namespaces only through `cs.namespace(..)`: a namespace is left when its scope ends, whatever the
result of the scope is (Rust's `Drop for Namespace`). -/
inductive Nested : {α : Type} → Circ F α → Prop where
  | ret {α : Type} (a : α) : Nested (.ret a)
  | panic {α : Type} (m) : Nested (.panic m : Circ F α)
  | alloc {α : Type} {i n f} {k : _ → Circ F α} : (∀ r, Nested (k r)) → Nested (.alloc i n f k)
  | enforce {α : Type} {n a b c} {k : Circ F α} : Nested k → Nested (.enforce n a b c k)
  | ns {α β : Type} {n} {body : Circ F β} {k : β → Circ F α} : Nested body → (∀ r, Nested (k r)) →
      Nested (.push n (body.bind fun r => .pop (k r)))

/-- C05: scopes are restored on every exit: after any such program, whether it returned `Ok` or an error, the namespace
stack is what it was. -/
theorem C05_scopes_restored {c : Circ F α} (hc : Nested c) {s s' : TestCS F} {a : α}
    (h : c.run TestCS.impl s = some (a, s')) : s'.ns = s.ns := by
  induction hc generalizing s s' with
  | ret b => simp only [Circ.run, Option.some.injEq, Prod.mk.injEq] at h; rw [h.2]
  | panic m => cases h
  | @alloc _ i n f k _ ih =>
    simp only [Circ.run, Option.bind_eq_some_iff] at h
    obtain ⟨r, h1, h⟩ := h
    rw [ih _ h]
    simp only [TestCS.impl] at h1
    split at h1 <;> simp only [TestCS.allocInput, TestCS.allocAux, Option.bind_eq_some_iff] at h1 <;>
      obtain ⟨p, _, h1⟩ := h1 <;> split at h1
    · simp only [Option.some.injEq] at h1; rw [← h1]
    · obtain ⟨s1, h2, h3⟩ := Option.map_eq_some_iff.1 h1
      rw [← h3, (TestCS.setNamedObj_some h2).2]
    · simp only [Option.some.injEq] at h1; rw [← h1]
    · obtain ⟨s1, h2, h3⟩ := Option.map_eq_some_iff.1 h1
      rw [← h3, (TestCS.setNamedObj_some h2).2]
  | enforce _ ih =>
    simp only [Circ.run, Option.bind_eq_some_iff] at h
    obtain ⟨s1, h1, h⟩ := h
    rw [ih h]
    simp only [TestCS.impl, TestCS.enforce, Option.bind_eq_some_iff] at h1
    obtain ⟨p, _, h1⟩ := h1
    obtain ⟨s2, h2, h3⟩ := Option.map_eq_some_iff.1 h1
    rw [← h3, (TestCS.setNamedObj_some h2).2]
  | @ns _ _ n body k _ _ ih1 ih2 =>
    simp only [Circ.run, Option.bind_eq_some_iff, Circ.run_bind] at h
    obtain ⟨s1, h1, ⟨r, s2⟩, h2, s3, h3, h⟩ := h
    rw [ih2 _ h]
    have e1 := ih1 h2
    simp only [TestCS.impl, TestCS.pushNs, Option.bind_eq_some_iff] at h1
    obtain ⟨p, _, h1⟩ := h1
    obtain ⟨s4, h4, h5⟩ := Option.map_eq_some_iff.1 h1
    have e2 : s1.ns = s.ns ++ [n] := by rw [← h5, (TestCS.setNamedObj_some h4).2]
    simp only [TestCS.impl, TestCS.popNs] at h3
    split at h3
    · cases h3
    · simp only [Option.some.injEq] at h3
      rw [← h3]
      show s2.ns.dropLast = s.ns
      rw [e1, e2, dropLast_append_of_ne_nil (by simp)]
      simp

theorem Nested.bind {α β : Type} {c : Circ F α} {g : α → Circ F β} (h : Nested c) (hg : ∀ a, Nested (g a)) :
    Nested (c.bind g) := by
  induction h with
  | ret a => exact hg a
  | panic m => exact .panic m
  | alloc _ ih => exact .alloc fun r => ih r hg
  | enforce _ ih => exact .enforce (ih hg)
  | @ns _ _ n body k hb _ _ ih2 =>
    have e : (Circ.push n (body.bind fun r => .pop (k r))).bind g = .push n (body.bind fun r => .pop ((k r).bind g)) := by
      rw [Circ.bind, Circ.bind_assoc]; rfl
    rw [e]
    exact .ns hb fun r => ih2 r hg

/-- C05: the combinators all gadgets are written with give such programs; in particular `?` on an error inside a
namespace, and a whole namespaced call. -/
theorem C05_nested (m : Synth F α) (g : α → Synth F β) (n : String) (hm : Nested m.run) (hg : ∀ a, Nested (g a).run) :
    Nested (m >>= g).run ∧ Nested (Synth.inNs n m).run ∧ (∀ e, Nested (throw e : Synth F α).run) := by
  refine ⟨Nested.bind hm fun r => ?_, Nested.ns hm fun r => .ret r, fun e => .ret _⟩
  cases r with
  | ok a => exact hg a
  | error e => exact .ret _

section Example
/-- An error inside two namespaces: the stack is restored, the error reported. -/
private def failing : Synth DummyFr Unit :=
  Synth.inNs "outer" (Synth.inNs "inner" (do
    let _ ← Synth.alloc "x" (.error .assignmentMissing)
    Synth.enforce "never" id id id))

private theorem failing_nested : Nested failing.run :=
  .ns (.ns (.alloc fun r => by
    cases r with
    | ok a => exact .enforce (.ret _)
    | error e => exact .ret _) fun r => .ret r) fun r => .ret r

example : Nested failing.run ∧ (failing.run.run TestCS.impl .new).map (fun r => (r.2.ns, r.2.named.map (·.1))) =
    some ([], ["outer/inner", "outer", "ONE"]) := ⟨failing_nested, by decide +kernel⟩

/-- Two namespaces, same inner name: different paths; the same name twice panics. -/
example : computePath ["a", "b"] "c" = some "a/b/c" ∧ computePath ["a"] "b/c" = none ∧
    (Circ.run TestCS.impl (ExceptT.run (m := Circ DummyFr) (ε := SynthesisError) (do
      let _ ← Synth.alloc "x" (.ok (1 : DummyFr))
      Synth.enforce "x" id id id)) .new).isNone = true := by decide +kernel
end Example

/-! ### C40 -/

/-- C40: the normal form lists variables in strictly increasing order (so each at most once), inputs first, and contains
exactly the variables whose coefficients do not cancel, each with its coefficient sum. -/
theorem C40_normal_form (ts : List (Var × F)) :
    (procLc ts).Pairwise (fun a b => a.1.before b.1 = true) ∧ ((procLc ts).map (·.1)).Nodup ∧
    ∀ v c, (v, c) ∈ procLc ts ↔ c ≠ 0 ∧ (ts.map fun t => if t.1 = v then t.2 else 0).sum = c :=
  ⟨procLc_sorted ts, (procLc_sorted ts).nodup, procLc_mem ts⟩

/-- C40: the normal form has the same value under every assignment. -/
theorem C40_same_value (ρ : Var → F) (ts : List (Var × F)) : LC.eval ρ ⟨procLc ts⟩ = LC.eval ρ ⟨ts⟩ := procLc_eval ρ ts

/-- C40: two combinations have the same normal form exactly when their coefficient sums agree for every variable; in
particular the order of terms does not matter. -/
theorem C40_canonical (ts ts' : List (Var × F)) :
    (procLc ts = procLc ts' ↔ ∀ v, (ts.map fun t => if t.1 = v then t.2 else 0).sum =
      (ts'.map fun t => if t.1 = v then t.2 else 0).sum) ∧ (ts.Perm ts' → procLc ts = procLc ts') := by
  refine ⟨procLc_eq_iff ts ts', fun h => (procLc_eq_iff ts ts').2 fun v => ?_⟩
  exact (h.map _).sum_eq

/-- Two circuits with the same counts and, constraint by constraint, combinations with the same normal forms. -/
def SameNormalForm (s s' : TestCS F) : Prop :=
  s.inputs.length = s'.inputs.length ∧ s.aux.length = s'.aux.length ∧
  Forall₂ (fun k k' : LC F × LC F × LC F × String => procLc k.1.terms = procLc k'.1.terms ∧
    procLc k.2.1.terms = procLc k'.2.1.terms ∧ procLc k.2.2.1.terms = procLc k'.2.2.1.terms) s.constraints s'.constraints

/-- C40: the bytes hashed depend only on the counts and the normal forms. -/
theorem C40_hash_congr (toRepr : F → List UInt8) {s s' : TestCS F} (h : SameNormalForm s s') :
    s.hashInput toRepr = s'.hashInput toRepr := by
  obtain ⟨h1, h2, h3⟩ := h
  unfold TestCS.hashInput
  rw [h1, h2, h3.length_eq]
  congr 1
  generalize s.constraints = l at h3 ⊢
  generalize s'.constraints = l' at h3 ⊢
  induction h3 with
  | nil => rfl
  | cons h _ ih =>
    obtain ⟨a, b, c⟩ := h
    rw [mapM_cons, mapM_cons, ih]
    simp only [hashLc, a, b, c]

/-- C40, the converse: different normal forms (or counts) give different bytes, if field elements have distinct
representations and all counts and indices fit in 64 bits.  So the hash identifies the constraint relation up to collisions
of the hash function. -/
theorem C40_hash_inj (toRepr : F → List UInt8) (hinj : Function.Injective toRepr) {s s' : TestCS F} {h : List UInt8}
    (hb : ∀ u ∈ [s, s'], u.inputs.length < 2 ^ 64 ∧ u.aux.length < 2 ^ 64 ∧ u.constraints.length < 2 ^ 64 ∧
      ∀ k ∈ u.constraints, ∀ l ∈ [k.1, k.2.1, k.2.2.1], (procLc l.terms).length < 2 ^ 64 ∧ ∀ e ∈ procLc l.terms, e.1.Small)
    (hh : s.hashInput toRepr = some h) (hh' : s'.hashInput toRepr = some h) : SameNormalForm s s' := by
  obtain ⟨b1, b2, b3, b4⟩ := hb s (by simp)
  obtain ⟨b1', b2', b3', b4'⟩ := hb s' (by simp)
  obtain ⟨ks, e1, e2⟩ := Option.map_eq_some_iff.1 hh
  obtain ⟨ks', e1', e2'⟩ := Option.map_eq_some_iff.1 hh'
  have he := e2.trans e2'.symm
  simp only [append_assoc] at he
  obtain ⟨g1, he1⟩ := List.append_inj he rfl
  obtain ⟨g2, he2⟩ := List.append_inj he1 rfl
  obtain ⟨g3, he3⟩ := List.append_inj he2 rfl
  refine ⟨u64be_inj b1 b1' g1, u64be_inj b2 b2' g2, ?_⟩
  have hl := u64be_inj b3 b3' g3
  clear he he1 he2 g1 g2 g3 hh hh' e2 e2' b1 b2 b3 b1' b2' b3' hb
  generalize s.constraints = l at *
  generalize s'.constraints = l' at *
  have fl : ∀ (x x' : List UInt8), ks.flatten ++ x = ks'.flatten ++ x' → Forall₂ (fun k k' : LC F × LC F × LC F × String =>
    procLc k.1.terms = procLc k'.1.terms ∧
    procLc k.2.1.terms = procLc k'.2.1.terms ∧ procLc k.2.2.1.terms = procLc k'.2.2.1.terms) l l' := by
    clear he3
    induction l generalizing l' ks ks' with
    | nil =>
      cases l' with
      | nil => intros; exact .nil
      | cons k l' => cases hl
    | cons k l ih =>
      cases l' with
      | nil => cases hl
      | cons k' l' =>
        intro x x' he
        simp only [mapM_cons, Option.bind_eq_bind, Option.bind_eq_some_iff, Option.pure_def, Option.some.injEq,
          Option.map_eq_some_iff] at e1 e1'
        obtain ⟨y, ⟨ya, ha, yb, hb, yc, hc, rfl⟩, ys, hys, rfl⟩ := e1
        obtain ⟨y', ⟨ya', ha', yb', hb', yc', hc', rfl⟩, ys', hys', rfl⟩ := e1'
        have bk := b4 k mem_cons_self
        have bk' := b4' k' mem_cons_self
        simp only [flatten_cons, append_assoc] at he
        obtain ⟨p1, he⟩ := hashLc_inj hinj (bk k.1 (by simp)).1 (bk' k'.1 (by simp)).1 (bk k.1 (by simp)).2
          (bk' k'.1 (by simp)).2 ha ha' he
        obtain ⟨p2, he⟩ := hashLc_inj hinj (bk k.2.1 (by simp)).1 (bk' k'.2.1 (by simp)).1 (bk k.2.1 (by simp)).2
          (bk' k'.2.1 (by simp)).2 hb hb' he
        obtain ⟨p3, he⟩ := hashLc_inj hinj (bk k.2.2.1 (by simp)).1 (bk' k'.2.2.1 (by simp)).1 (bk k.2.2.1 (by simp)).2
          (bk' k'.2.2.1 (by simp)).2 hc hc' he
        exact .cons ⟨p1, p2, p3⟩ (ih (ks := ys) (l' := l') (ks' := ys') (b4 := fun k hk => b4 k (mem_cons_of_mem _ hk))
          (b4' := fun k hk => b4' k (mem_cons_of_mem _ hk)) (e1 := hys) (e1' := hys') (hl := by simpa using hl) x x' he)
  exact fl [] [] (by simpa using he3)

section Example
/-- Cancelling, repeated and permuted terms. -/
example : procLc [(.aux 1, (2 : DummyFr)), (.input 0, 5), (.aux 1, 3), (.aux 0, 1), (.aux 0, -1)] =
      [(.input 0, 5), (.aux 1, 5)] ∧
    procLc [(.aux 1, (5 : DummyFr)), (.aux 7, 0), (.input 0, 5)] = [(.input 0, 5), (.aux 1, 5)] := by decide +kernel

/-- A 32-byte representation of the dummy field. -/
private def reprDummy (x : DummyFr) : List UInt8 :=
  UInt8.ofNat (ZMod.val x) :: UInt8.ofNat (ZMod.val x / 256) :: List.replicate 30 0

example : Function.Injective reprDummy ∧ (mulState.hashInput reprDummy).isSome = true := by
  refine ⟨fun x y h => ?_, by decide +kernel⟩
  simp only [reprDummy, cons.injEq, and_true] at h
  have h1 := congrArg UInt8.toNat h.1
  have h2 := congrArg UInt8.toNat h.2
  simp only [UInt8.toNat_ofNat'] at h1 h2
  have : NeZero dummyP := ⟨by decide⟩
  have hd : dummyP = 64513 := rfl
  have lx := ZMod.val_lt x
  have ly := ZMod.val_lt y
  exact ZMod.val_injective _ (by omega)
end Example

end Bellman
