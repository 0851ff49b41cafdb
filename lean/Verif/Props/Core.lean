import Verif.Proofs.SameCircuit
import Verif.FieldInstances
import Mathlib.Data.Finset.Card
import Mathlib.Data.Finset.Basic

/-!
# C01, C02, C03, C26: linear combinations, the prover's records, key generation versus proving, density trackers
-/

set_option linter.unusedSectionVars false

namespace Bellman

open List

variable {F : Type} [PrimeField F] {α β : Type}

/-! ### C01 -/

/-- A sequence (tree) of operator applications that builds a linear combination. -/
inductive LExpr (F : Type) where
  | zero
  | addVar (e : LExpr F) (v : Var)
  | subVar (e : LExpr F) (v : Var)
  | addTerm (e : LExpr F) (c : F) (v : Var)
  | subTerm (e : LExpr F) (c : F) (v : Var)
  | addLC (e o : LExpr F)
  | subLC (e o : LExpr F)
  | addScaled (e : LExpr F) (c : F) (o : LExpr F)
  | subScaled (e : LExpr F) (c : F) (o : LExpr F)

/-- The object the overloaded operators build. -/
def LExpr.build : LExpr F → LC F
  | .zero => LC.zero
  | .addVar e v => e.build + v
  | .subVar e v => e.build - v
  | .addTerm e c v => e.build + (c, v)
  | .subTerm e c v => e.build - (c, v)
  | .addLC e o => e.build + o.build
  | .subLC e o => e.build - o.build
  | .addScaled e c o => e.build + (c, o.build)
  | .subScaled e c o => e.build - (c, o.build)

/-- The field expression it stands for. -/
def LExpr.value (ρ : Var → F) : LExpr F → F
  | .zero => 0
  | .addVar e v => e.value ρ + ρ v
  | .subVar e v => e.value ρ - ρ v
  | .addTerm e c v => e.value ρ + c * ρ v
  | .subTerm e c v => e.value ρ - c * ρ v
  | .addLC e o => e.value ρ + o.value ρ
  | .subLC e o => e.value ρ - o.value ρ
  | .addScaled e c o => e.value ρ + c * o.value ρ
  | .subScaled e c o => e.value ρ - c * o.value ρ

/-- C01: the value of the built combination is the field expression, for every assignment. -/
theorem C01_lc_value (e : LExpr F) (ρ : Var → F) : e.build.eval ρ = e.value ρ := by
  induction e <;> simp_all [LExpr.build, LExpr.value]

/-- C01: both evaluators of the code (the prover's `eval` and the test system's `eval_lc`) compute the field expression on
combinations over allocated variables, whatever the shortcuts they take. -/
theorem C01_evaluators (e : LExpr F) (is as : List F) (s : TestCS F)
    (hr : ∀ x ∈ e.build.terms, x.1.InRange is.length as.length)
    (hs : s.inputs.map (·.1) = is ∧ s.aux.map (·.1) = as) :
    (∃ di da, proverEval is as e.build.terms 0 none none = some (e.value (assign is as), di, da)) ∧
    evalLc s.inputs s.aux e.build.terms 0 = some (e.value (assign is as)) := by
  obtain ⟨h1, h2⟩ := hs
  subst h1; subst h2
  constructor
  · obtain ⟨r, h⟩ := proverEval_isSome (inputs := s.inputs.map (·.1)) (aux := s.aux.map (·.1)) (ts := e.build.terms)
      (acc := 0) (di := none) (da := none) trivial trivial (by rintro v ⟨c, _, hm⟩; exact hr _ hm)
    have := (proverEval_some h).1
    rw [zero_add, C01_lc_value] at this
    exact ⟨r.2.1, r.2.2, by rw [h, ← this]⟩
  · have := (TestCS.evalLc_eq s e.build.terms 0).1 (by simpa [LC.InRange] using hr)
    rw [this, zero_add]
    exact congrArg some (C01_lc_value e s.rho)

/-- A combination with a repeated variable, a zero coefficient and nested scaling over the dummy field. -/
private def exampleExpr : LExpr DummyFr :=
  .subScaled (.addTerm (.addVar .zero (.aux 0)) 0 (.aux 1)) 5 (.subTerm (.addVar .zero (.aux 0)) 3 (.input 0))

example : (∀ x ∈ exampleExpr.build.terms, x.1.InRange [(1 : DummyFr)].length [(7 : DummyFr), 9].length) ∧
    exampleExpr.value (assign [1] [7, 9]) = -13 := by
  refine ⟨?_, by decide +kernel⟩
  show ∀ x ∈ [(Var.aux 0, _), (Var.aux 1, _), (Var.aux 0, _), (Var.input 0, _)], _
  simp [Var.InRange]

/-! ### C02 -/

/-- C02, one `enforce` call: the three recorded scalars are the values of the combinations under the assignment known at
that moment, earlier records are kept, assignments are untouched, and exactly the variables with a non-zero
coefficient are marked. -/
theorem C02_enforce {s s' : ProvingAssignment F} {a b c : LC F} (hw : s.WF) (h : s.enforce a b c = some s') :
    s'.inputAssignment = s.inputAssignment ∧ s'.auxAssignment = s.auxAssignment ∧
    s'.a = s.a ++ [a.eval (assign s.inputAssignment s.auxAssignment)] ∧
    s'.b = s.b ++ [b.eval (assign s.inputAssignment s.auxAssignment)] ∧
    s'.c = s.c ++ [c.eval (assign s.inputAssignment s.auxAssignment)] ∧
    (∀ i, s'.aAuxDensity.Has i ↔ s.aAuxDensity.Has i ∨ Occurs a.terms (.aux i)) ∧
    (∀ i, s'.bInputDensity.Has i ↔ s.bInputDensity.Has i ∨ Occurs b.terms (.input i)) ∧
    (∀ i, s'.bAuxDensity.Has i ↔ s.bAuxDensity.Has i ∨ Occurs b.terms (.aux i)) := by
  obtain ⟨_, _, h⟩ := ProvingAssignment.enforce_spec hw h
  exact h

/-- C02, `enforce` panics exactly when a variable that was not allocated occurs with a non-zero coefficient. -/
theorem C02_enforce_panics {s : ProvingAssignment F} {a b c : LC F} (hw : s.WF) :
    s.enforce a b c = none ↔ ∃ v, (Occurs a.terms v ∨ Occurs b.terms v ∨ Occurs c.terms v) ∧
      ¬ v.InRange s.inputAssignment.length s.auxAssignment.length := by
  constructor
  · intro h
    by_contra hc
    push Not at hc
    obtain ⟨ra, ha⟩ := proverEval_isSome (acc := 0) (di := none) (da := some s.aAuxDensity) trivial hw.aa
      (fun v hv => hc v (.inl hv))
    obtain ⟨rb, hb⟩ := proverEval_isSome (acc := 0) (di := some s.bInputDensity) (da := some s.bAuxDensity) hw.bi hw.ba
      (fun v hv => hc v (.inr (.inl hv)))
    obtain ⟨rc, hc'⟩ := proverEval_isSome (acc := 0) (inputs := s.inputAssignment) (aux := s.auxAssignment) (di := none)
      (da := none) trivial trivial (fun v hv => hc v (.inr (.inr hv)))
    simp only [ProvingAssignment.enforce, ha, hb, hc', Option.bind_some] at h
    cases h
  · rintro ⟨v, hv, hn⟩
    cases h : s.enforce a b c with
    | none => rfl
    | some s' => exact absurd ((ProvingAssignment.enforce_spec hw h).2.1 v hv) hn

/-- C02, `alloc`/`alloc_input`: only the value vector grows, by the closure's value; the constraint records and marks stay. -/
theorem C02_alloc (i : Bool) (n : String) (f : Except SynthesisError F) {s s' : ProvingAssignment F} {r}
    (h : ProvingAssignment.impl.alloc i n f s = some (r, s')) :
    s'.a = s.a ∧ s'.b = s.b ∧ s'.c = s.c ∧ (∀ j, s'.aAuxDensity.Has j ↔ s.aAuxDensity.Has j) ∧
    (∀ j, s'.bInputDensity.Has j ↔ s.bInputDensity.Has j) ∧ (∀ j, s'.bAuxDensity.Has j ↔ s.bAuxDensity.Has j) ∧
    (∀ e, f = .error e → r = .error e ∧ s' = s) ∧
    (∀ v, f = .ok v → s'.inputAssignment = s.inputAssignment ++ (if i then [v] else []) ∧
      s'.auxAssignment = s.auxAssignment ++ (if i then [] else [v]) ∧
      r = .ok (if i then .input s.inputAssignment.length else .aux s.auxAssignment.length, some v)) := by
  simp only [ProvingAssignment.impl, Option.some.injEq] at h
  cases i <;> cases f <;> simp only [ProvingAssignment.allocAux, ProvingAssignment.allocInput, Bool.false_eq_true,
    if_false, if_true, Prod.mk.injEq] at h <;> obtain ⟨rfl, rfl⟩ := h <;>
    simp [DensityTracker.addElement_has]

/-- C02, whole runs: for every program and every run of it by the prover, the records are those of the calls made: the
values are those of the combinations under the assignment (which later allocations only extend), a variable is marked dense
exactly when some constraint of the run mentions it with a non-zero coefficient in that query. -/
theorem C02_run (c : Circ F α) {s s' : ProvingAssignment F} {a : α} (hw : s.WF)
    (h : c.run ProvingAssignment.impl s = some (a, s')) : ∃ t, Honest c t (some a) ∧
      s'.inputAssignment = s.inputAssignment ++ inVals t ∧ s'.auxAssignment = s.auxAssignment ++ auxVals t ∧
      s'.a = s.a ++ (consOf t).map (fun k => k.1.eval (assign s'.inputAssignment s'.auxAssignment)) ∧
      s'.b = s.b ++ (consOf t).map (fun k => k.2.1.eval (assign s'.inputAssignment s'.auxAssignment)) ∧
      s'.c = s.c ++ (consOf t).map (fun k => k.2.2.eval (assign s'.inputAssignment s'.auxAssignment)) ∧
      (∀ i, s'.aAuxDensity.Has i ↔ s.aAuxDensity.Has i ∨ ∃ k ∈ consOf t, Occurs k.1.terms (.aux i)) ∧
      (∀ i, s'.bInputDensity.Has i ↔ s.bInputDensity.Has i ∨ ∃ k ∈ consOf t, Occurs k.2.1.terms (.input i)) ∧
      (∀ i, s'.bAuxDensity.Has i ↔ s.bAuxDensity.Has i ∨ ∃ k ∈ consOf t, Occurs k.2.1.terms (.aux i)) ∧ s'.WF := by
  obtain ⟨t, he, hr⟩ := ProvingAssignment.run_recorded c hw h
  exact ⟨t, he, hr.inputs, hr.aux, hr.a, hr.b, hr.c, hr.aAux, hr.bInput, hr.bAux, hr.wf⟩

/-- A circuit over the dummy field: `x` secret, `y = x²` public, and a constraint with a zero and a one coefficient. -/
def squareCircuit (x : Option DummyFr) : Synth DummyFr Unit := do
  let (vx, ox) ← Synth.alloc "x" (Synth.optGet x)
  let (vy, _) ← Synth.allocInput "y" (Synth.optGet (ox.map fun v => v * v))
  Synth.enforce "square" (· + vx) (fun lc => lc + vx + ((0 : DummyFr), vy)) (· + vy)
  Synth.enforce "twice" (· + ((2 : DummyFr), vx)) (fun lc => lc + Var.one) (fun lc => lc + vx + vx)

example : ∃ s', (squareCircuit (some 5)).run.run ProvingAssignment.impl
      { (ProvingAssignment.new : ProvingAssignment DummyFr) with
        inputAssignment := [1], bInputDensity := ⟨[false]⟩ } = some (.ok (), s') ∧
    s'.a = [5, 10] ∧ s'.b = [5, 1] ∧ s'.c = [25, 10] ∧ s'.aAuxDensity.bv = [true] ∧
    s'.bInputDensity.bv = [true, false] ∧ s'.bAuxDensity.bv = [true] := by
  refine ⟨_, rfl, ?_⟩
  decide +kernel

/-! ### C03 -/

/-- C03: if the circuit's calls do not depend on the witness (`SShape`: the instance without witness `m₁` and the instance
with witness `m₂` make the same calls), key generation succeeds and the witness is complete, then proving succeeds, on the
same circuit: same calls with the same indices in the same order, same numbers of inputs and auxiliaries, same
constraints. -/
theorem C03_prover_follows_keygen {R : α → β → Prop} {m₁ : Synth F α} {m₂ : Synth F β} (h : SShape R m₁ m₂)
    {s s' : KeypairAssembly F} {p : ProvingAssignment F} {a : α} (hs : s.WF) (hp : p.WF)
    (hi : s.numInputs = p.inputAssignment.length) (ha : s.numAux = p.auxAssignment.length)
    (hc : s.numConstraints = p.a.length ∧ s.numConstraints = p.b.length ∧ s.numConstraints = p.c.length)
    (hk : m₁.run.run KeypairAssembly.impl s = some (.ok a, s')) (hw : WitnessOk m₂.run) :
    ∃ b p' t₁ t₂, m₂.run.run ProvingAssignment.impl p = some (.ok b, p') ∧ R a b ∧
      Exec m₁.run t₁ (some (.ok a)) ∧ Honest m₂.run t₂ (some (.ok b)) ∧
      KeypairAssembly.Recorded s t₁ s' ∧ ProvingAssignment.Recorded p t₂ p' ∧ SameCircuit s' p' t₁ t₂ := by
  obtain ⟨r, p', hr, hR⟩ := Shape.prover_follows h hs hp hi ha hk hw
  cases r with
  | error e => exact hR.elim
  | ok b =>
    obtain ⟨t₁, e₁, r₁⟩ := KeypairAssembly.run_recorded _ hs hk
    obtain ⟨t₂, e₂, r₂⟩ := ProvingAssignment.run_recorded _ hp hr
    have hn : Numbered s.numInputs s.numAux t₂ := by rw [hi, ha]; exact r₂.numbered
    have := (SShape.same_trace h e₁ e₂.exec r₁.numbered hn).1
    exact ⟨b, p', t₁, t₂, hr, hR, e₁, e₂, r₁, r₂, sameCircuit_of_recorded hi ha hc r₁ r₂ this⟩

/-- C03: whenever key generation and proving both return `Ok`, they saw the same circuit (no assumption on the witness). -/
theorem C03_keygen_and_prover {R : α → β → Prop} {m₁ : Synth F α} {m₂ : Synth F β} (h : SShape R m₁ m₂)
    {s s' : KeypairAssembly F} {p p' : ProvingAssignment F} {a : α} {b : β} (hs : s.WF) (hp : p.WF)
    (hi : s.numInputs = p.inputAssignment.length) (ha : s.numAux = p.auxAssignment.length)
    (hc : s.numConstraints = p.a.length ∧ s.numConstraints = p.b.length ∧ s.numConstraints = p.c.length)
    (hk : m₁.run.run KeypairAssembly.impl s = some (.ok a, s'))
    (hq : m₂.run.run ProvingAssignment.impl p = some (.ok b, p')) :
    ∃ t₁ t₂, Exec m₁.run t₁ (some (.ok a)) ∧ Honest m₂.run t₂ (some (.ok b)) ∧
      KeypairAssembly.Recorded s t₁ s' ∧ ProvingAssignment.Recorded p t₂ p' ∧ SameCircuit s' p' t₁ t₂ ∧ R a b := by
  obtain ⟨t₁, e₁, r₁⟩ := KeypairAssembly.run_recorded _ hs hk
  obtain ⟨t₂, e₂, r₂⟩ := ProvingAssignment.run_recorded _ hp hq
  have hn : Numbered s.numInputs s.numAux t₂ := by rw [hi, ha]; exact r₂.numbered
  have := SShape.same_trace h e₁ e₂.exec r₁.numbered hn
  exact ⟨t₁, t₂, e₁, e₂, r₁, r₂, sameCircuit_of_recorded hi ha hc r₁ r₂ this.1, this.2⟩

/-- C03, the test constraint system: whenever it and key generation both return `Ok`, they saw the same circuit. -/
theorem C03_keygen_and_test {R : α → β → Prop} {m₁ : Synth F α} {m₂ : Synth F β} (h : SShape R m₁ m₂)
    {s s' : KeypairAssembly F} {p p' : TestCS F} {a : α} {b : β} (hs : s.WF) (hp : p.WF)
    (hi : s.numInputs = p.inputs.length) (ha : s.numAux = p.aux.length) (hc : s.numConstraints = p.constraints.length)
    (hk : m₁.run.run KeypairAssembly.impl s = some (.ok a, s'))
    (hq : m₂.run.run TestCS.impl p = some (.ok b, p')) :
    ∃ t₁ t₂, Exec m₁.run t₁ (some (.ok a)) ∧ Honest m₂.run t₂ (some (.ok b)) ∧ List.Forall₂ Ev.Same t₁ t₂ ∧
      KeypairAssembly.Recorded s t₁ s' ∧ TestCS.Recorded p t₂ p' ∧ R a b ∧
      s'.numInputs = p'.inputs.length ∧ s'.numAux = p'.aux.length ∧ s'.numConstraints = p'.constraints.length ∧
      consOf t₁ = consOf t₂ := by
  obtain ⟨t₁, e₁, r₁⟩ := KeypairAssembly.run_recorded _ hs hk
  obtain ⟨t₂, e₂, r₂⟩ := TestCS.run_recorded _ hp hq
  have hn : Numbered s.numInputs s.numAux t₂ := by rw [hi, ha]; exact r₂.numbered
  obtain ⟨hsame, hR⟩ := SShape.same_trace h e₁ e₂.exec r₁.numbered hn
  refine ⟨t₁, t₂, e₁, e₂, hsame, r₁, r₂, hR, ?_, ?_, ?_, Ev.Same.consOf hsame⟩
  · have := congrArg List.length r₂.inputs
    simp only [length_map, length_append] at this
    rw [this, r₁.inputs, hi, r₂.nIn, Ev.Same.numIn hsame]
  · have := congrArg List.length r₂.aux
    simp only [length_map, length_append] at this
    rw [this, r₁.aux, ha, r₂.nAux, Ev.Same.numAux hsame]
  · have := congrArg List.length r₂.constraints
    simp only [length_map, length_append] at this
    rw [this, r₁.constraints, hc, Ev.Same.consOf hsame]

/-- The program with every witness closure replaced by one that would fail. -/
def Circ.poison (e : SynthesisError) : Circ F α → Circ F α
  | .ret a => .ret a
  | .panic m => .panic m
  | .alloc i n _ k => .alloc i n (.error e) fun r => (k r).poison e
  | .enforce n a b c k => .enforce n a b c (k.poison e)
  | .push n k => .push n (k.poison e)
  | .pop k => .pop (k.poison e)

/-- C03: key generation never evaluates a witness closure: replacing all of them by failing ones changes nothing. -/
theorem C03_keygen_ignores_witness (e : SynthesisError) (c : Circ F α) (s : KeypairAssembly F) :
    (c.poison e).run KeypairAssembly.impl s = c.run KeypairAssembly.impl s := by
  induction c generalizing s with
  | ret a => rfl
  | panic m => rfl
  | alloc i n f k ih =>
    simp only [Circ.poison, Circ.run]
    show Option.bind (some _) _ = Option.bind (some _) _
    simp only [Option.bind_some, ih]
  | enforce n a b c k ih => simp only [Circ.poison, Circ.run, ih]
  | push n k ih => simp only [Circ.poison, Circ.run, ih]
  | pop k ih => simp only [Circ.poison, Circ.run, ih]

theorem squareCircuit_shape (x y : Option DummyFr) : SShape (fun _ _ => True) (squareCircuit x) (squareCircuit y) := by
  refine SShape.bind (SShape.alloc "x") fun a b h => ?_
  obtain ⟨a, oa⟩ := a
  obtain ⟨b, ob⟩ := b
  obtain rfl : a = b := h
  refine SShape.bind (SShape.allocInput "y") fun c d h => ?_
  obtain ⟨c, oc⟩ := c
  obtain ⟨d, od⟩ := d
  obtain rfl : c = d := h
  exact SShape.bind (SShape.enforce "square" rfl rfl rfl) fun _ _ _ => SShape.enforce "twice" rfl rfl rfl

/-- `squareCircuit` meets the hypotheses: key generation without witness succeeds, the witness 5 is complete. -/
example : SShape (fun _ _ => True) (squareCircuit none) (squareCircuit (some 5)) ∧
    (∃ s', (squareCircuit none).run.run KeypairAssembly.impl (KeypairAssembly.new.allocInput).2 = some (.ok (), s')) ∧
    WitnessOk (squareCircuit (some 5)).run :=
  ⟨squareCircuit_shape _ _, ⟨_, rfl⟩, ⟨5, rfl, fun _ => ⟨25, by decide, fun _ => trivial⟩⟩⟩

/-! ### C26 -/

/-- A call on a density tracker. -/
inductive DOp where
  | add
  | inc (i : ℕ)
deriving DecidableEq

/-- Performing a sequence of calls; `none` is a panic. -/
def DOp.runAll : List DOp → DensityTracker → Option DensityTracker
  | [], d => some d
  | .add :: ops, d => runAll ops d.addElement
  | .inc i :: ops, d => (d.inc i).bind (runAll ops)

private theorem runAll_some (ops : List DOp) {d d' : DensityTracker} (h : DOp.runAll ops d = some d') :
    d'.bv.length = d.bv.length + ops.count .add ∧ ∀ i, d'.Has i ↔ d.Has i ∨ .inc i ∈ ops := by
  induction ops generalizing d with
  | nil =>
    simp only [DOp.runAll, Option.some.injEq] at h
    subst h; simp
  | cons op ops ih =>
    cases op with
    | add =>
      obtain ⟨h1, h2⟩ := ih h
      refine ⟨?_, fun i => ?_⟩
      · rw [h1]; simp [DensityTracker.addElement]; omega
      · rw [h2, DensityTracker.addElement_has]; simp
    | inc j =>
      simp only [DOp.runAll, Option.bind_eq_some_iff] at h
      obtain ⟨d1, hd, h⟩ := h
      obtain ⟨h1, h2⟩ := ih h
      obtain ⟨_, hl, hm⟩ := DensityTracker.inc_some hd
      refine ⟨by rw [h1, hl]; simp, fun i => ?_⟩
      rw [h2, hm]; simp only [mem_cons, DOp.inc.injEq]; tauto

private theorem count_eq_card (l : List Bool) :
    l.count true = ((Finset.range l.length).filter fun i => l[i]? = some true).card := by
  induction l using List.reverseRecOn with
  | nil => rfl
  | append_singleton l b ih =>
    rw [List.count_append, ih, List.length_append, List.length_singleton, Finset.range_add_one, Finset.filter_insert]
    have e : (Finset.range l.length).filter (fun i => (l ++ [b])[i]? = some true) =
        (Finset.range l.length).filter fun i => l[i]? = some true := by
      apply Finset.filter_congr
      intro i hi
      rw [List.getElem?_append_left (Finset.mem_range.1 hi)]
    rw [e]
    cases b with
    | false => simp
    | true =>
      rw [if_pos (by simp), Finset.card_insert_of_notMem (by simp)]
      simp

/-- C26: after any sequence of calls on a new tracker that does not panic, the size is the number of `add_element` calls,
exactly the indices given to `inc` are marked, and `get_total_density` is the number of distinct such indices. -/
theorem C26_tracker (ops : List DOp) {d : DensityTracker} (h : DOp.runAll ops .new = some d) :
    d.bv.length = ops.count .add ∧ (∀ i, d.bv[i]? = some true ↔ .inc i ∈ ops) ∧
    d.getTotalDensity = (ops.filterMap fun o => match o with | .inc i => some i | .add => none).toFinset.card := by
  obtain ⟨h1, h2⟩ := runAll_some ops h
  have h3 : ∀ i, d.bv[i]? = some true ↔ .inc i ∈ ops := fun i => by
    have := h2 i
    simpa [DensityTracker.Has, DensityTracker.new] using this
  refine ⟨by simpa [DensityTracker.new] using h1, h3, ?_⟩
  rw [DensityTracker.getTotalDensity, count_eq_card]
  congr 1
  ext i
  simp only [Finset.mem_filter, Finset.mem_range, mem_toFinset, mem_filterMap, h3]
  constructor
  · rintro ⟨_, h⟩; exact ⟨_, h, rfl⟩
  · rintro ⟨o, ho, hi⟩
    cases o with
    | add => simp at hi
    | inc j =>
      obtain rfl : j = i := by simpa using hi
      refine ⟨?_, ho⟩
      have := (h3 j).2 ho
      exact (List.getElem?_eq_some_iff.1 this).1

/-- C26: `inc` panics exactly when out of range, and is idempotent. -/
theorem C26_inc (d : DensityTracker) (i : ℕ) :
    (d.inc i = none ↔ d.bv.length ≤ i) ∧ (d.inc i).bind (fun d' => d'.inc i) = d.inc i := by
  refine ⟨DensityTracker.inc_none, ?_⟩
  cases h : d.inc i with
  | none => rfl
  | some d' =>
    obtain ⟨hi, hl, hm⟩ := DensityTracker.inc_some h
    have : d'.Has i := (hm i).2 (.inr rfl)
    simp only [Option.bind_some]
    unfold DensityTracker.inc
    rw [show d'.bv[i]? = some true from this]
    rfl

/-- C26: the sequence of calls panics exactly when some `inc` is out of range at its moment. -/
theorem C26_panics (ops : List DOp) :
    DOp.runAll ops .new = none ↔ ∃ pre i post, ops = pre ++ .inc i :: post ∧ pre.count .add ≤ i := by
  have key : ∀ (ops : List DOp) (d : DensityTracker), DOp.runAll ops d = none ↔
      ∃ pre i post, ops = pre ++ .inc i :: post ∧ d.bv.length + pre.count .add ≤ i := by
    intro ops
    induction ops with
    | nil => intro d; simp [DOp.runAll]
    | cons op ops ih =>
      intro d
      cases op with
      | add =>
        rw [DOp.runAll, ih]
        constructor
        · rintro ⟨pre, i, post, rfl, h⟩
          refine ⟨.add :: pre, i, post, rfl, ?_⟩
          simp [DensityTracker.addElement] at h ⊢; omega
        · rintro ⟨pre, i, post, h, hi⟩
          cases pre with
          | nil => cases h
          | cons x pre =>
            obtain ⟨rfl, rfl⟩ := List.cons.inj h
            refine ⟨pre, i, post, rfl, ?_⟩
            simp [DensityTracker.addElement] at hi ⊢; omega
      | inc j =>
        rw [DOp.runAll, Option.bind_eq_none_iff]
        constructor
        · intro h
          rcases Nat.lt_or_ge j d.bv.length with hj | hj
          · obtain ⟨d', hd⟩ := DensityTracker.inc_isSome hj
            obtain ⟨pre, i, post, rfl, hi⟩ := (ih d').1 (h d' hd)
            refine ⟨.inc j :: pre, i, post, rfl, ?_⟩
            rw [(DensityTracker.inc_some hd).2.1] at hi
            simpa using hi
          · exact ⟨[], j, ops, rfl, by simpa using hj⟩
        · rintro ⟨pre, i, post, h, hi⟩ d' hd
          obtain ⟨hj, hl, _⟩ := DensityTracker.inc_some hd
          cases pre with
          | nil =>
            obtain ⟨e, rfl⟩ := List.cons.inj h
            cases e
            simp at hi; omega
          | cons x pre =>
            obtain ⟨rfl, rfl⟩ := List.cons.inj h
            exact (ih d').2 ⟨pre, i, post, rfl, by rw [hl]; simpa using hi⟩
  simpa [DensityTracker.new] using key ops .new

example : DOp.runAll [.add, .add, .inc 1, .add, .inc 1, .inc 0] .new = some ⟨[true, true, false]⟩ ∧
    DOp.runAll [.add, .inc 1, .add] .new = none := by decide

end Bellman
