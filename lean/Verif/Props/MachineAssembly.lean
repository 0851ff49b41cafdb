import Verif.Proofs.MachineAssembly
import Verif.Props.MachineGroth16

/-!
# C87: the counters of synthesis for key generation

On the machine the numbers of inputs, of other variables and of constraints are words.  The vectors that grow with every variable reach
their limit long before the counters of the variables do; nothing grows with every constraint, so the count of constraints is not protected
in that way, and in a release build it wraps around.
-/

namespace Bellman

open KeypairAssembly

variable {F : Type} [PrimeField F]

theorem assemble_eq_ok {circuit : Synth F Unit} {u : KeypairAssembly F} :
    assemble circuit = Res.ok u ↔ ∃ t, circuit.run.run KeypairAssembly.impl (KeypairAssembly.new : KeypairAssembly F).allocInput.2 =
      some (.ok (), t) ∧ inputConstraints t = some u := by
  rw [assemble, Res.bind_eq_ok]
  constructor
  · rintro ⟨⟨_, t⟩, h1, h2⟩
    unfold synthesizeWith at h1
    split at h1 <;> cases h1
    rename_i h
    exact ⟨t, h, Res.lift_eq_ok.1 h2⟩
  · rintro ⟨t, h1, h2⟩
    exact ⟨((), t), by unfold synthesizeWith; rw [h1]; rfl, Res.lift_eq_ok.2 h2⟩

theorem assembleW_eq_ok {b : Build} {circuit : Synth F Unit} {s : KeypairAssembly F} :
    assembleW b circuit = Res.ok s ↔ ∃ t, circuit.run.run (KeypairAssembly.implW b)
      (KeypairAssembly.new : KeypairAssembly F).allocInput.2 = some (.ok (), t) ∧ inputConstraintsW b t = some s := by
  rw [assembleW, (start_sim b).1, Res.lift_some, Res.ok_bind, Res.bind_eq_ok]
  constructor
  · rintro ⟨⟨_, t⟩, h1, h2⟩
    unfold synthesizeWith at h1
    split at h1 <;> cases h1
    rename_i h
    exact ⟨t, h, Res.lift_eq_ok.1 h2⟩
  · rintro ⟨t, h1, h2⟩
    exact ⟨((), t), by unfold synthesizeWith; rw [h1]; rfl, Res.lift_eq_ok.2 h2⟩

theorem assembleW_sim {b : Build} {circuit : Synth F Unit} {s : KeypairAssembly F} (h : assembleW b circuit = Res.ok s) :
    ∃ u, assemble circuit = Res.ok u ∧ Sim b s u := by
  obtain ⟨t, h1, h2⟩ := assembleW_eq_ok.1 h
  obtain ⟨t', e1, hs⟩ := (start_sim b).2.run _ h1
  unfold inputConstraintsW at h2
  rw [hs.ins] at h2
  obtain ⟨u, e2, hs'⟩ := hs.inputs _ h2
  exact ⟨u, assemble_eq_ok.2 ⟨t', e1, e2⟩, hs'⟩

/-- What the machine assembles has the variables of the circuit, its number of constraints is that of the circuit modulo 2^64, and if that
fits a word, then the machine's assembly is the one with unbounded numbers. -/
theorem C87_refine {b : Build} {circuit : Synth F Unit} {s : KeypairAssembly F} (h : assembleW b circuit = Res.ok s) :
    ∃ u, assemble circuit = Res.ok u ∧ s.numInputs = u.numInputs ∧ s.numAux = u.numAux ∧
      s.numConstraints = u.numConstraints % 2 ^ 64 ∧ (u.numConstraints < 2 ^ 64 → s = u) := by
  obtain ⟨u, e, hs⟩ := assembleW_sim h
  exact ⟨u, e, hs.ins, hs.aux, hs.cons, hs.same⟩

/-- A debug build assembles nothing but what the model with unbounded numbers does. -/
theorem C87_debug {circuit : Synth F Unit} {s : KeypairAssembly F} (h : assembleW .debug circuit = Res.ok s) :
    assemble circuit = Res.ok s := by
  obtain ⟨u, e, hs⟩ := assembleW_sim h
  rw [hs.same (hs.debug rfl)]
  exact e

/-- If the machine reports an error, it is the one of the circuit. -/
theorem C87_error {b : Build} {circuit : Synth F Unit} {e : SynthesisError} (h : assembleW b circuit = Res.err e) :
    assemble circuit = Res.err e := by
  rw [assembleW, (start_sim b).1, Res.lift_some, Res.ok_bind] at h
  cases hr : circuit.run.run (KeypairAssembly.implW b) (KeypairAssembly.new : KeypairAssembly F).allocInput.2 with
  | none =>
    rw [show synthesizeWith (KeypairAssembly.implW b) circuit _ = Res.panic by unfold synthesizeWith; rw [hr]; rfl] at h
    cases h
  | some r =>
    obtain ⟨x, t⟩ := r
    obtain ⟨t', e1, -⟩ := (start_sim b).2.run _ hr
    cases x with
    | error e' =>
      rw [show synthesizeWith (KeypairAssembly.implW b) circuit _ = Res.err e' by unfold synthesizeWith; rw [hr]; rfl] at h
      rw [assemble, show synthesizeWith KeypairAssembly.impl circuit _ = Res.err e' by unfold synthesizeWith; rw [e1]; rfl]
      exact h
    | ok x =>
      rw [show synthesizeWith (KeypairAssembly.implW b) circuit _ = Res.ok (x, t) by unfold synthesizeWith; rw [hr]; rfl,
        Res.ok_bind] at h
      cases hi : inputConstraintsW b t with
      | none => rw [hi] at h; cases h
      | some z => rw [hi] at h; cases h

/-- What fits is assembled as with unbounded numbers, in every build. -/
theorem C87_fits (b : Build) {circuit : Synth F Unit} {u : KeypairAssembly F} (h : assemble circuit = Res.ok u)
    (hc : u.numConstraints < 2 ^ 64) (hi : 24 * u.numInputs < 2 ^ 63) (hx : 24 * u.numAux < 2 ^ 63) :
    assembleW b circuit = Res.ok u := by
  obtain ⟨t, h1, h2⟩ := assemble_eq_ok.1 h
  obtain ⟨hw, -⟩ := run_mono _ (start_sim b).2.wu h1
  unfold inputConstraints at h2
  obtain ⟨m1, m2, m3⟩ := inputs_mono _ hw h2
  exact assembleW_eq_ok.2 ⟨t, run_fit b _ (start_sim b).2.wu h1 (by omega) (by omega) (by omega), inputs_fit b _ hw h2 hc⟩

/-- The numbers of variables never wrap around, in any build: each is the true number, since the vectors hold an element for each. -/
theorem C87_variables {b : Build} {circuit : Synth F Unit} {s : KeypairAssembly F} (h : assembleW b circuit = Res.ok s) :
    s.numInputs = s.atInputs.length ∧ s.numAux = s.atAux.length ∧ 24 * s.numInputs < 2 ^ 63 ∧ 24 * s.numAux < 2 ^ 63 := by
  obtain ⟨u, e, hs⟩ := assembleW_sim h
  have h1 := hs.insFit
  have h2 := hs.auxFit
  exact ⟨hs.ws.ai.symm, hs.ws.aa.symm, by omega, by omega⟩

/-- A release build never stops because of the number of constraints. -/
theorem C87_release {circuit : Synth F Unit} {u : KeypairAssembly F} (h : assemble circuit = Res.ok u)
    (hi : 24 * u.numInputs < 2 ^ 63) (hx : 24 * u.numAux < 2 ^ 63) :
    ∃ s, assembleW .release circuit = Res.ok s ∧ s.numConstraints = u.numConstraints % 2 ^ 64 := by
  obtain ⟨t, h1, h2⟩ := assemble_eq_ok.1 h
  obtain ⟨hw, -⟩ := run_mono _ (start_sim .release).2.wu h1
  unfold inputConstraints at h2
  obtain ⟨m1, m2, m3⟩ := inputs_mono _ hw h2
  obtain ⟨s, e1, hs⟩ := (start_sim .release).2.run_release _ h1 (by omega) (by omega)
  rw [← hs.ins] at h2
  obtain ⟨s', e2, hs'⟩ := hs.inputs_release _ h2
  exact ⟨s', assembleW_eq_ok.2 ⟨s, e1, e2⟩, hs'.cons⟩

/-- A debug build stops if the number of constraints does not fit. -/
theorem C87_debug_stops {circuit : Synth F Unit} {u : KeypairAssembly F} (h : assemble circuit = Res.ok u)
    (hc : 2 ^ 64 ≤ u.numConstraints) : assembleW .debug circuit = Res.panic := by
  rcases hr : assembleW .debug circuit with _ | ⟨e | s⟩
  · rfl
  · rw [C87_error hr] at h
    cases h
  · obtain ⟨u', e, hs⟩ := assembleW_sim hr
    rw [e] at h
    cases h
    have := hs.debug rfl
    omega

/-- A circuit of `n` constraints `0 * 0 = 0`. Specification. -/
def emptyConstraints (F : Type) [PrimeField F] : ℕ → Circ F (Except SynthesisError Unit)
  | 0 => .ret (.ok ())
  | n + 1 => .enforce "" LC.zero LC.zero LC.zero (emptyConstraints F n)

theorem emptyConstraints_run (n : ℕ) (s : KeypairAssembly F) : (emptyConstraints F n).run KeypairAssembly.impl s =
    some (.ok (), { s with numConstraints := s.numConstraints + n }) := by
  induction n generalizing s with
  | zero => rfl
  | succ n ih =>
    have he : s.enforce (LC.zero : LC F) LC.zero LC.zero = some { s with numConstraints := s.numConstraints + 1 } := rfl
    simp only [emptyConstraints, Circ.run, KeypairAssembly.impl, he, Option.bind_some]
    refine (ih _).trans ?_
    rw [Nat.add_right_comm, Nat.add_assoc]

theorem emptyConstraints_assemble (n : ℕ) : ∃ u, assemble (ExceptT.mk (emptyConstraints F n) : Synth F Unit) = Res.ok u ∧
    u.numInputs = 1 ∧ u.numAux = 0 ∧ u.numConstraints = n + 1 := by
  have h1 := emptyConstraints_run n (KeypairAssembly.new : KeypairAssembly F).allocInput.2
  have hw : ({ (KeypairAssembly.new : KeypairAssembly F).allocInput.2 with numConstraints := 0 + n } : KeypairAssembly F).WF :=
    let w := (start_sim (F := F) .release).2.wu
    ⟨w.ai, w.bi, w.ci, w.aa, w.ba, w.ca⟩
  obtain ⟨u, hu⟩ := enforce_isSome (a := (LC.zero : LC F) + Var.input 0) (b := LC.zero) (c := LC.zero) hw (by
    intro x hx
    have ht : ((LC.zero : LC F) + Var.input 0).terms ++ (LC.zero : LC F).terms ++ (LC.zero : LC F).terms = [(Var.input 0, 1)] := rfl
    rw [ht] at hx
    obtain rfl := List.mem_singleton.1 hx
    exact Nat.zero_lt_one)
  obtain ⟨-, -, i1, i2, i3, -⟩ := enforce_spec hw hu
  refine ⟨u, assemble_eq_ok.2 ⟨_, h1, ?_⟩, i1, i2, by rw [i3]; simp⟩
  show (List.range 1).foldlM _ _ = _
  simp only [List.range_one, List.foldlM_cons, List.foldlM_nil]
  exact congrArg (fun o => Option.bind o some) hu

/-- So the bound on the number of constraints is needed: for a circuit of `n` empty constraints a release build counts `(n + 1) % 2^64`, and
2^64 - 1 constraints are counted as none at all. -/
theorem C87_release_wraps (n : ℕ) : ∃ s, assembleW .release (ExceptT.mk (emptyConstraints F n) : Synth F Unit) = Res.ok s ∧
    s.numConstraints = (n + 1) % 2 ^ 64 := by
  obtain ⟨u, e, h1, h2, h3⟩ := emptyConstraints_assemble (F := F) n
  obtain ⟨s, hs, hc⟩ := C87_release e (by rw [h1]; norm_num) (by rw [h2]; norm_num)
  exact ⟨s, hs, by rw [hc, h3]⟩

example : ∃ s, assembleW .release (ExceptT.mk (emptyConstraints DummyFr (2 ^ 64 - 1)) : Synth DummyFr Unit) = Res.ok s ∧ s.numConstraints = 0 :=
  C87_release_wraps (2 ^ 64 - 1)

example : assembleW .debug (ExceptT.mk (emptyConstraints DummyFr (2 ^ 64 - 1)) : Synth DummyFr Unit) = Res.panic := by
  obtain ⟨u, e, -, -, h⟩ := emptyConstraints_assemble (F := DummyFr) (2 ^ 64 - 1)
  exact C87_debug_stops e (by rw [h]; norm_num)

/-- The squaring circuit has two constraints, two inputs and one other variable; with the constraints of the inputs, four. -/
theorem square_assemble : ∃ u, assemble (squareCircuit none) = Res.ok u ∧ u.numInputs = 2 ∧ u.numAux = 1 ∧ u.numConstraints = 4 := by
  refine ⟨_, rfl, ?_⟩
  decide +kernel

example (b : Build) : ∃ s, assembleW b (squareCircuit none) = Res.ok s ∧ s.numConstraints = 4 := by
  obtain ⟨u, e, h1, h2, h3⟩ := square_assemble
  exact ⟨u, C87_fits b e (by rw [h3]; norm_num) (by rw [h1]; norm_num) (by rw [h2]; norm_num), h3⟩

/-- The hypotheses of `C87_refine`, `C87_variables` and `C87_debug`. -/
example : ∃ s, assembleW .debug (squareCircuit none) = Res.ok s ∧ assemble (squareCircuit none) = Res.ok s ∧
    s.numInputs = s.atInputs.length ∧ ∃ u, assemble (squareCircuit none) = Res.ok u ∧ s.numAux = u.numAux := by
  obtain ⟨u, e, h1, h2, h3⟩ := square_assemble
  have h := C87_fits .debug e (by rw [h3]; norm_num) (by rw [h1]; norm_num) (by rw [h2]; norm_num)
  obtain ⟨u', e', -, h4, -⟩ := C87_refine h
  exact ⟨u, h, C87_debug h, (C87_variables h).1, u', e', h4⟩

section

variable {G1 G2 GT : Type} [AddCommGroup G1] [AddCommGroup G2] [AddCommGroup GT] [Module F G1] [Module F G2] [Module F GT]
  [DecidableEq G1] [DecidableEq G2] [DecidableEq GT]

/-- Key generation with words everywhere: a panic, or the outcome with unbounded numbers.  Only the number of constraints is bounded here. -/
theorem C87_generate (b : Build) (w : Worker) (hw : w.multicore = true → w.threads < 2 ^ 63) (kc : Synth F Unit) (g1 : G1) (g2 : G2) (α β γ δ τ : F)
    (hsize : ∀ t, KeyTrace kc t → (consOf t).length + numIn t + 1 ≤ 2 ^ 63) :
    generateParametersV b w kc g1 g2 α β γ δ τ = Res.panic ∨
      generateParametersV b w kc g1 g2 α β γ δ τ = generateParameters w kc g1 g2 α β γ δ τ := by
  unfold generateParametersV
  have hcases : assembleW b kc = Res.panic ∨ (∃ e, assembleW b kc = Res.err e) ∨ ∃ s, assembleW b kc = Res.ok s := by
    rcases assembleW b kc with _ | e | s
    · exact .inl rfl
    · exact .inr (.inl ⟨e, rfl⟩)
    · exact .inr (.inr ⟨s, rfl⟩)
  rcases hcases with h | ⟨e, h⟩ | ⟨s, h⟩
  · exact .inl (by rw [h]; rfl)
  · right
    rw [h]
    unfold generateParameters
    rw [C87_error h]
    rfl
  · right
    obtain ⟨u, hu, hs⟩ := assembleW_sim h
    rcases assemble_cases kc with ⟨t, s', ht, hs', hh⟩ | ⟨e, -, he⟩ | ⟨-, he⟩
    swap
    · cases hu.symm.trans he
    swap
    · cases hu.symm.trans he
    cases hu.symm.trans hs'
    have hc : u.numConstraints = (consOf t).length + numIn t + 1 := by
      rw [hh.constraints]; simp [inputRows]; omega
    have hb := hsize t ht
    have hsu := hs.same (by omega)
    subst hsu
    have v1 := hs.insFit
    have v2 := hs.auxFit
    rw [hh.inputs] at v1
    rw [hh.aux] at v2
    rw [← C86_generate b w hw kc g1 g2 α β γ δ τ (fun t' ht' => by
      cases ht'.unique ht
      exact ⟨hb, by omega⟩)]
    unfold generateParametersW
    rw [h, hu]

/-- If also the vectors of the variables fit, it does not panic but does the same as with unbounded numbers. -/
theorem C87_generate_fits (b : Build) (w : Worker) (hw : w.multicore = true → w.threads < 2 ^ 63) (kc : Synth F Unit) {t : List (Ev F)} (ht : KeyTrace kc t)
    (hc : (consOf t).length + numIn t + 1 ≤ 2 ^ 63) (hi : 24 * (numIn t + 1) < 2 ^ 63) (hx : 24 * numAux t < 2 ^ 63)
    (g1 : G1) (g2 : G2) (α β γ δ τ : F) :
    generateParametersV b w kc g1 g2 α β γ δ τ = generateParameters w kc g1 g2 α β γ δ τ := by
  rw [← C86_generate b w hw kc g1 g2 α β γ δ τ (fun t' ht' => by
    cases ht'.unique ht
    exact ⟨hc, by omega⟩)]
  unfold generateParametersV generateParametersW
  obtain ⟨u, hu, hh⟩ := ht.assemble
  have hn : u.numConstraints = (consOf t).length + numIn t + 1 := by
    rw [hh.constraints]; simp [inputRows]; omega
  rw [C87_fits b hu (by omega) (by rw [hh.inputs]; exact hi) (by rw [hh.aux]; exact hx), hu]

/-- So a key that the machine generates serves to prove satisfied circuits, if the machine counted its constraints rightly. -/
theorem C87_completeness (E : Engine F G1 G2 GT) (b b' : Build) (w w' : Worker) (hw : w.multicore = true → w.threads < 2 ^ 63) (hw' : w'.multicore = true → w'.threads < 2 ^ 63)
    {R : Unit → Unit → Prop} {kc pc : Synth F Unit} (h : SShape R kc pc) (t0 t : List (Ev F)) (ht0 : KeyTrace kc t0)
    (hs : (consOf t0).length + numIn t0 + 1 ≤ 2 ^ 63) (hv : numIn t0 + 1 + numAux t0 < 2 ^ 64) (g1 : G1) (g2 : G2) (α β γ δ τ r s : F)
    (params : Parameters G1 G2) (pf : Proof G1 G2) (hk : generateParametersV b w kc g1 g2 α β γ δ τ = Res.ok params)
    (hp : createProofW b' w' pc params r s = Res.ok pf) (ht : ProverTrace pc t) (hsat : Sat (witness t) t) :
    verifyProof E (prepareVerifyingKey E params.vk) pf (inVals t) = some (.ok ()) := by
  obtain ⟨h1, -⟩ := sizes_of_key h ht0 hs hv
  rcases C87_generate b w hw kc g1 g2 α β γ δ τ (fun t ht => (h1 t ht).1) with hg | hg
  · rw [hg] at hk
    cases hk
  · rw [hg, ← C86_generate b w hw kc g1 g2 α β γ δ τ h1] at hk
    exact C86_completeness E b b' w w' hw hw' h t0 t ht0 hs hv g1 g2 α β γ δ τ r s params pf hk hp ht hsat

/-- The squaring circuit, on any machine with fewer than 2^63 threads; the third is the hypothesis of `C87_completeness` about the key. -/
example (b : Build) (w : Worker) (hw : w.multicore = true → w.threads < 2 ^ 63) : ∃ params,
    generateParametersV b w (squareCircuit none) (1 : DummyFr) (1 : DummyFr) 2 5 7 11 3 = Res.ok params ∧
    generateParametersV b w (squareCircuit none) (1 : DummyFr) (1 : DummyFr) 2 5 7 11 3 ≠ Res.panic := by
  obtain ⟨params, pf, h1, h2⟩ := claim_proof w w 5 25 1 1
  have h := C87_generate_fits b w hw (squareCircuit none) squareTrace_key (by decide) (by decide) (by decide) (1 : DummyFr) (1 : DummyFr)
    2 5 7 11 3
  exact ⟨params, by rw [h, h1], by rw [h, h1]; exact fun h => by cases h⟩

example (E : Engine DummyFr DummyFr DummyFr DummyFr) (w : Worker) (hw : w.multicore = true → w.threads < 2 ^ 63) (r s : DummyFr) : ∃ params pf,
    generateParametersV .release w (squareCircuit none) (1 : DummyFr) (1 : DummyFr) 2 5 7 11 3 = Res.ok params ∧
    createProofW .debug w (claimCircuit (some 5) (some 25)) params r s = Res.ok pf ∧
    verifyProof E (prepareVerifyingKey E params.vk) pf [25] = some (.ok ()) := by
  obtain ⟨params, pf, h1, h2⟩ := claim_proofW .debug .debug w w hw hw 5 25 r s
  obtain ⟨s1, -⟩ := sizes_of_key (claimCircuit_shape none (some 5) (some 25)) squareTrace_key (by decide) (by decide)
  have h := C87_generate_fits .release w hw (squareCircuit none) squareTrace_key (by decide) (by decide) (by decide) (1 : DummyFr)
    (1 : DummyFr) 2 5 7 11 3
  rw [C86_generate .debug w hw _ _ _ _ _ _ _ _ s1, ← h] at h1
  exact ⟨params, pf, h1, h2, C87_completeness E .release .debug w w hw hw (claimCircuit_shape none (some 5) (some 25)) squareTrace
    (claimTrace 5 25) squareTrace_key (by decide) (by decide) 1 1 2 5 7 11 3 r s params pf h1 h2 (claimTrace_prover 5 25)
    ((claimTrace_sat 5 25).2 (by decide +kernel))⟩

end

/-- A circuit that fails with an error after a constraint. -/
example (b : Build) : assemble (ExceptT.mk (.enforce "" LC.zero LC.zero LC.zero (.ret (.error .unsatisfiable))) : Synth DummyFr Unit) =
    Res.err .unsatisfiable := C87_error (b := b) (by cases b <;> rfl)

end Bellman
