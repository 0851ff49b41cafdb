import Verif.Proofs.MachineAssignment
import Verif.Props.MachineAssembly

/-!
# C88: key generation and proving on the machine, without bounds on the circuit

Proving adds an element to three vectors for every constraint, so a proof is made only for circuits whose constraints can be counted in a
word; key generation with the same circuit then has counted them rightly.
-/

namespace Bellman

open ProvingAssignment

variable {F : Type} [PrimeField F]

theorem proverStart_even : (proverStart F).Even := ⟨proverStart_WF, rfl, rfl⟩

/-- Either the first allocation panics or synthesis starts as without limits. -/
theorem assignW_start (size : ℕ) (bd : Build) (circuit : Synth F Unit) : assignW size bd circuit = Res.panic ∨
    ((proverStart F).Fits size ∧ assignW size bd circuit =
      synthesizeWith (ProvingAssignment.implW size bd) circuit (proverStart F) >>= fun out =>
        Res.lift (proverInputConstraintsW size out.2)) := by
  have hn : (ProvingAssignment.new : ProvingAssignment F).Fits size :=
    ⟨by simp [ProvingAssignment.new], by simp [ProvingAssignment.new], by simp [ProvingAssignment.new]⟩
  unfold assignW
  cases h : (ProvingAssignment.new : ProvingAssignment F).allocInputW size bd (.ok 1) with
  | none => exact .inl rfl
  | some r =>
    obtain ⟨rfl, h2⟩ := allocInputW_some hn h
    exact .inr ⟨h2, rfl⟩

/-- Synthesis for proving with limited vectors panics or yields what it yields with unlimited ones, for every circuit. -/
theorem C88_assign (size : ℕ) (bd : Build) (circuit : Synth F Unit) :
    assignW size bd circuit = Res.panic ∨ assignW size bd circuit = assign? circuit := by
  rcases assignW_start size bd circuit with h | ⟨hf, h⟩
  · exact .inl h
  rw [h]
  have h0 : assign? circuit = (synthesizeWith ProvingAssignment.impl circuit (proverStart F) >>= fun out =>
      Res.lift (proverInputConstraints out.2)) := rfl
  rw [h0]
  cases hr : circuit.run.run (ProvingAssignment.implW size bd) (proverStart F) with
  | none =>
    left
    rw [show synthesizeWith (ProvingAssignment.implW size bd) circuit _ = Res.panic by unfold synthesizeWith; rw [hr]; rfl]
    rfl
  | some r =>
    obtain ⟨x, p⟩ := r
    obtain ⟨h1, h2⟩ := run_refine _ hf hr
    cases x with
    | error e =>
      right
      rw [show synthesizeWith (ProvingAssignment.implW size bd) circuit _ = Res.err e by unfold synthesizeWith; rw [hr]; rfl,
        show synthesizeWith ProvingAssignment.impl circuit _ = Res.err e by unfold synthesizeWith; rw [h1]; rfl]
      rfl
    | ok x =>
      rw [show synthesizeWith (ProvingAssignment.implW size bd) circuit _ = Res.ok (x, p) by unfold synthesizeWith; rw [hr]; rfl,
        show synthesizeWith ProvingAssignment.impl circuit _ = Res.ok (x, p) by unfold synthesizeWith; rw [h1]; rfl,
        Res.ok_bind, Res.ok_bind]
      cases hi : proverInputConstraintsW size p with
      | none => exact .inl rfl
      | some q =>
        right
        rw [show proverInputConstraints p = some q from (inputs_refine _ h2 hi).1]

/-- What it yields has vectors of fewer than 2^63 bytes; so every circuit that it accepts has fewer than 2^63 constraints. -/
theorem C88_assign_bounds {size : ℕ} {bd : Build} {circuit : Synth F Unit} {p : ProvingAssignment F}
    (h : assignW size bd circuit = Res.ok p) :
    p.a.length * size < 2 ^ 63 ∧ p.inputAssignment.length * size < 2 ^ 63 ∧ p.auxAssignment.length * size < 2 ^ 63 := by
  rcases assignW_start size bd circuit with h' | ⟨hf, h'⟩
  · cases h.symm.trans h'
  rw [h', Res.bind_eq_ok] at h
  obtain ⟨⟨_, q⟩, h1, h2⟩ := h
  obtain ⟨-, hq⟩ := run_refine _ hf (synthesizeWith_ok.1 h1)
  obtain ⟨-, hp⟩ := inputs_refine _ hq (Res.lift_eq_ok.1 h2)
  exact ⟨hp.cons, hp.ins, hp.aux⟩

/-- What fits is assigned as with unlimited vectors. -/
theorem C88_assign_fits (size : ℕ) (bd : Build) {circuit : Synth F Unit} {p : ProvingAssignment F} (h : assign? circuit = Res.ok p)
    (hc : p.a.length * size < 2 ^ 63) (hi : p.inputAssignment.length * size < 2 ^ 63) (hx : p.auxAssignment.length * size < 2 ^ 63)
    (hi' : p.inputAssignment.length < 2 ^ 61) (hx' : p.auxAssignment.length < 2 ^ 61) : assignW size bd circuit = Res.ok p := by
  have h0 : assign? circuit = (synthesizeWith ProvingAssignment.impl circuit (proverStart F) >>= fun out =>
      Res.lift (proverInputConstraints out.2)) := rfl
  rw [h0, Res.bind_eq_ok] at h
  obtain ⟨⟨_, q⟩, h1, h2⟩ := h
  have h1 := synthesizeWith_ok.1 h1
  obtain ⟨he, m1, m2, m3⟩ := ProvingAssignment.run_mono _ proverStart_even h1
  have h2 : proverInputConstraints q = some p := Res.lift_eq_ok.1 h2
  unfold proverInputConstraints at h2
  obtain ⟨n1, n2, n3⟩ := ProvingAssignment.inputs_mono _ he h2
  have hq : q.Fits size := ⟨by rw [← n1]; exact hi, by rw [← n2]; exact hx, mul_fit n3 hc⟩
  have hone : 1 ≤ q.inputAssignment.length := m1
  have hs : (ProvingAssignment.new : ProvingAssignment F).allocInputW size bd (.ok 1) = some ((ProvingAssignment.new).allocInput (.ok 1)) :=
    ProvingAssignment.allocInputW_fit ⟨WF_new, rfl, rfl⟩ (mul_fit hone hq.ins) (by norm_num [ProvingAssignment.new])
  have hr := ProvingAssignment.run_fit bd _ proverStart_even h1 hq (by rw [← n1]; exact hi') (by rw [← n2]; exact hx')
  unfold assignW
  rw [hs]
  show (synthesizeWith (ProvingAssignment.implW size bd) circuit (proverStart F) >>= fun out =>
    Res.lift (proverInputConstraintsW size out.2)) = _
  rw [synthesizeWith_ok.2 hr, Res.ok_bind]
  exact Res.lift_eq_ok.2 (ProvingAssignment.inputs_fit _ he h2 ⟨hi, hx, hc⟩)

section

variable {G1 G2 GT : Type} [AddCommGroup G1] [AddCommGroup G2] [AddCommGroup GT] [Module F G1] [Module F G2] [Module F GT]
  [DecidableEq G1] [DecidableEq G2] [DecidableEq GT]

/-- The trace of a circuit that limited synthesis accepts, and the bound on its constraints. -/
theorem assignW_trace {size : ℕ} (hsize : 0 < size) {bd : Build} {pc : Synth F Unit} {p : ProvingAssignment F}
    (h : assignW size bd pc = Res.ok p) :
    assign? pc = Res.ok p ∧ ∃ t, ProverTrace pc t ∧ (consOf t).length + numIn t + 1 < 2 ^ 63 := by
  have ha : assign? pc = Res.ok p := by
    rcases C88_assign size bd pc with h' | h'
    · cases h.symm.trans h'
    · rw [← h', h]
  have hb := (C88_assign_bounds h).1
  rcases assign?_cases pc with ⟨t, _, ht, -, p', hp', has⟩ | ⟨e, _, he⟩ | ⟨_, he⟩
  · cases ha.symm.trans hp'
    refine ⟨ha, t, ht, ?_⟩
    have hl : p.a.length = (consOf t).length + numIn t + 1 := by rw [has.a]; simp [inputRows]; omega
    rw [← hl]
    exact (Nat.le_mul_of_pos_right _ hsize).trans_lt hb
  · cases ha.symm.trans he
  · cases ha.symm.trans he

theorem Res.or_bind {α β : Type} {x y : Res α} {f g : α → Res β} (h : x = Res.panic ∨ x = y)
    (hf : ∀ a, x = Res.ok a → f a = Res.panic ∨ f a = g a) : (x >>= f) = Res.panic ∨ (x >>= f) = (y >>= g) := by
  rcases x with _ | e | a
  · exact .inl rfl
  · rcases h with h | rfl
    · cases h
    · exact .inr rfl
  · rcases h with h | rfl
    · cases h
    · exact hf a rfl

/-- `create_proof` with words everywhere panics or does what it does with unbounded numbers: for every circuit, of whatever size. -/
theorem C88_prove {size : ℕ} (hsize : 0 < size) (b : Build) (w : Worker) (pc : Synth F Unit) (params : Parameters G1 G2) (r s : F) :
    createProofV size b w pc params r s = Res.panic ∨ createProofV size b w pc params r s = createProof w pc params r s := by
  unfold createProofV createProof
  refine Res.or_bind (C88_assign size b pc) fun p hp => ?_
  obtain ⟨ha, t, ht, hb⟩ := assignW_trace hsize hp
  have has := ht.assigned ha
  have hl : p.a.length = (consOf t).length + numIn t + 1 := by rw [has.a]; simp [inputRows]; omega
  unfold proveFromW
  simp only [C84_multiexp]
  refine Res.or_bind (.inr rfl) fun vk _ => ?_
  exact Res.or_bind (hCoeffsW_or b (w.site 0) p.a p.b p.c (by rw [has.a, has.b]; simp) (by rw [has.a, has.c]; simp)
    (by rw [hl]; exact hb.le)) fun hc _ => .inr rfl

theorem Res.lift_bind_panic {α β : Type} {o : Option α} {f : α → Res β} (h : ∀ a, f a = Res.panic) : (Res.lift o >>= f) = Res.panic := by
  cases o with
  | none => rfl
  | some a => exact h a

/-- Key generation with words everywhere panics or does what it does with unbounded numbers, for any number of threads.  The bound on the
constraints cannot be dropped (`C87_release_wraps`). -/
theorem C88_generate (b : Build) (w : Worker) (kc : Synth F Unit) (g1 : G1) (g2 : G2) (α β γ δ τ : F)
    (hsize : ∀ t, KeyTrace kc t → (consOf t).length + numIn t + 1 ≤ 2 ^ 63) :
    generateParametersV b w kc g1 g2 α β γ δ τ = Res.panic ∨
      generateParametersV b w kc g1 g2 α β γ δ τ = generateParameters w kc g1 g2 α β γ δ τ := by
  by_cases hw : w.multicore = true → w.threads < 2 ^ 63
  · exact C87_generate b w hw kc g1 g2 α β γ δ τ hsize
  rw [Classical.not_imp, Nat.not_lt] at hw
  obtain ⟨hm, hw⟩ := hw
  have hasm : ∀ s, assembleW b kc = Res.ok s → assemble kc = Res.ok s ∧ s.numConstraints ≤ 2 ^ 63 := by
    intro s h
    obtain ⟨u, hu, hs⟩ := assembleW_sim h
    rcases assemble_cases kc with ⟨t, s', ht, hs', hh⟩ | ⟨e, -, he⟩ | ⟨-, he⟩
    · cases hu.symm.trans hs'
      have hc : u.numConstraints = (consOf t).length + numIn t + 1 := by
        rw [hh.constraints]; simp [inputRows]; omega
      have hb := hsize t ht
      have hsu := hs.same (by omega)
      subst hsu
      exact ⟨hu, by omega⟩
    · cases hu.symm.trans he
    · cases hu.symm.trans he
  unfold generateParametersV generateParameters
  refine Res.or_bind ?_ fun s hs => ?_
  · rcases h : assembleW b kc with _ | e | s
    · exact .inl rfl
    · exact .inr (C87_error h).symm
    · exact .inr (hasm s h).1.symm
  unfold generateFromW
  rw [EvaluationDomain.fromCoeffsW_eq b _ (by rw [List.length_replicate]; exact (hasm s hs).2)]
  refine Res.or_bind (.inr rfl) fun pot _ => Res.or_bind (.inr rfl) fun gi _ => Res.or_bind (.inr rfl) fun di _ => .inl ?_
  refine Res.lift_bind_panic fun hl => Res.lift_bind_panic fun ps => Res.lift_bind_panic fun hq => ?_
  have hn : ∀ d : EvaluationDomain F F, d.ifftW b (w.site 2) = none := fun d => by
    unfold EvaluationDomain.ifftW bestFftW Worker.logNumThreadsW
    simp only [Worker.site, hm, if_true, (C84_log2_floor b w.threads).2 (.inr hw)]
    rfl
  rw [hn]
  rfl

/-- If the vectors fit and constraints mention allocated variables only, proving does not panic but does the same as with unbounded numbers. -/
theorem C88_prove_fits {size : ℕ} (hsize : 0 < size) (b : Build) (w : Worker) (hw : w.multicore = true → w.threads < 2 ^ 63) {pc : Synth F Unit}
    {t : List (Ev F)} (ht : ProverTrace pc t) (hsc : Scoped 1 0 t) (hc : ((consOf t).length + numIn t + 1) * size < 2 ^ 63)
    (hx : numAux t * size < 2 ^ 63) (hi' : numIn t + 1 < 2 ^ 61) (hx' : numAux t < 2 ^ 61) (params : Parameters G1 G2) (r s : F) :
    createProofV size b w pc params r s = createProof w pc params r s := by
  obtain ⟨p, hp⟩ := ht.assign hsc
  have ha := ht.assigned hp
  have l1 : p.a.length = (consOf t).length + numIn t + 1 := by rw [ha.a]; simp [inputRows]; omega
  have l2 : p.inputAssignment.length = numIn t + 1 := by rw [ha.inputs, List.length_cons, ha.nIn]
  have l3 : p.auxAssignment.length = numAux t := by rw [ha.aux, ha.nAux]
  rw [← C86_prove b w hw pc params r s (fun t' ht' => by
    cases ht'.unique ht
    exact (Nat.le_mul_of_pos_right _ hsize).trans hc.le)]
  unfold createProofV createProofW
  rw [C88_assign_fits size b hp (by rw [l1]; exact hc) (by rw [l2]; exact mul_fit (by omega) hc) (by rw [l3]; exact hx)
    (by rw [l2]; exact hi') (by rw [l3]; exact hx'), hp]

/-- With more constraints than a vector can hold no proof is made and no error reported: proving panics, in every build. -/
theorem C88_prove_stops {size : ℕ} (b : Build) (w : Worker) {pc : Synth F Unit} {t : List (Ev F)} (ht : ProverTrace pc t)
    (hsc : Scoped 1 0 t) (hc : 2 ^ 63 ≤ ((consOf t).length + numIn t + 1) * size) (params : Parameters G1 G2) (r s : F) :
    createProofV size b w pc params r s = Res.panic := by
  obtain ⟨p, hp⟩ := ht.assign hsc
  have ha := ht.assigned hp
  have l1 : p.a.length = (consOf t).length + numIn t + 1 := by rw [ha.a]; simp [inputRows]; omega
  rcases C88_assign size b pc with h | h
  · unfold createProofV
    rw [h, Res.panic_bind]
  · have hb := (C88_assign_bounds (h.trans hp)).1
    rw [l1] at hb
    omega

/-- What successful key generation and proving on the machine tell about the sizes. -/
theorem machine_sizes {size : ℕ} (hsize : 0 < size) {b b' : Build} {w w' : Worker} {R : Unit → Unit → Prop} {kc pc : Synth F Unit}
    (h : SShape R kc pc) {g1 : G1} {g2 : G2} {α β γ δ τ r s : F} {params : Parameters G1 G2} {pf : Proof G1 G2}
    (hk : generateParametersV b w kc g1 g2 α β γ δ τ = Res.ok params) (hp : createProofV size b' w' pc params r s = Res.ok pf) :
    ∃ t0, KeyTrace kc t0 ∧ (consOf t0).length + numIn t0 + 1 ≤ 2 ^ 63 := by
  unfold generateParametersV at hk
  obtain ⟨sk, hsk, -⟩ := Res.bind_eq_ok.1 hk
  obtain ⟨u, hu, -⟩ := C87_refine hsk
  unfold createProofV at hp
  obtain ⟨p, hp, -⟩ := Res.bind_eq_ok.1 hp
  obtain ⟨-, t, ht, hb⟩ := assignW_trace hsize hp
  rcases assemble_cases kc with ⟨t0, s', ht0, hs', hh⟩ | ⟨e, -, he⟩ | ⟨-, he⟩
  · refine ⟨t0, ht0, ?_⟩
    have hsame := pair_traces h ht0 ht
    have hq := congrArg (fun q => q.rows.length) (ofTrace_same hsame)
    have hl (t : List (Ev F)) : (Qap.ofTrace t).rows.length = (consOf t).length + (numIn t + 1) := by
      simp [Qap.ofTrace, Qap.ofRows, inputRows]
    simp only [hl] at hq
    omega
  · cases hu.symm.trans he
  · cases hu.symm.trans he

/-- Key generation returns a key only with fewer than 2^63 threads, if it uses threads at all. -/
theorem C88_generate_threads {b : Build} {w : Worker} {kc : Synth F Unit} {g1 : G1} {g2 : G2} {α β γ δ τ : F} {params : Parameters G1 G2}
    (h : generateParametersV b w kc g1 g2 α β γ δ τ = Res.ok params) (hm : w.multicore = true) : w.threads < 2 ^ 63 := by
  unfold generateParametersV at h
  obtain ⟨s, -, h⟩ := Res.bind_eq_ok.1 h
  exact generateFromW_threads h hm

/-- And so does proving. -/
theorem C88_prove_threads {size : ℕ} {b : Build} {w : Worker} {pc : Synth F Unit} {params : Parameters G1 G2} {r s : F} {pf : Proof G1 G2}
    (h : createProofV size b w pc params r s = Res.ok pf) (hm : w.multicore = true) : w.threads < 2 ^ 63 := by
  unfold createProofV at h
  obtain ⟨p, -, h⟩ := Res.bind_eq_ok.1 h
  exact proveFromW_threads h hm

/-- A key and a proof that the machine has made are the key and the proof of the model with unbounded numbers: for every circuit, of
whatever size, although counting the constraints may wrap around. -/
theorem C88_genuine {size : ℕ} (hsize : 0 < size) {b b' : Build} {w w' : Worker}
    {R : Unit → Unit → Prop} {kc pc : Synth F Unit} (h : SShape R kc pc) {g1 : G1} {g2 : G2} {α β γ δ τ r s : F}
    {params : Parameters G1 G2} {pf : Proof G1 G2} (hk : generateParametersV b w kc g1 g2 α β γ δ τ = Res.ok params)
    (hp : createProofV size b' w' pc params r s = Res.ok pf) :
    generateParameters w kc g1 g2 α β γ δ τ = Res.ok params ∧ createProof w' pc params r s = Res.ok pf := by
  obtain ⟨t0, ht0, hb⟩ := machine_sizes hsize h hk hp
  have hw := C88_generate_threads hk
  constructor
  · rcases C87_generate b w hw kc g1 g2 α β γ δ τ (fun t ht => by cases ht.unique ht0; exact hb) with hg | hg
    · cases hk.symm.trans hg
    · rw [← hg, hk]
  · rcases C88_prove hsize b' w' pc params r s with hg | hg
    · cases hp.symm.trans hg
    · rw [← hg, hp]

/-- So proofs of satisfied circuits are accepted, without any bound on the circuit. -/
theorem C88_completeness (E : Engine F G1 G2 GT) {size : ℕ} (hsize : 0 < size) (b b' : Build) (w w' : Worker)
    {R : Unit → Unit → Prop} {kc pc : Synth F Unit} (h : SShape R kc pc) (g1 : G1) (g2 : G2)
    (α β γ δ τ r s : F) (params : Parameters G1 G2) (pf : Proof G1 G2)
    (hk : generateParametersV b w kc g1 g2 α β γ δ τ = Res.ok params) (hp : createProofV size b' w' pc params r s = Res.ok pf)
    (t : List (Ev F)) (ht : ProverTrace pc t) (hsat : Sat (witness t) t) :
    verifyProof E (prepareVerifyingKey E params.vk) pf (inVals t) = some (.ok ()) := by
  obtain ⟨h1, h2⟩ := C88_genuine hsize h hk hp
  exact C30_completeness E w w' h g1 g2 α β γ δ τ r s params pf h1 h2 t ht hsat

/-- And proofs from an unsatisfied assignment are rejected for all but `2m - 2` secrets `τ`, without any bound on the circuit. -/
theorem C88_unsatisfied {pc : Synth F Unit} (t : List (Ev F)) (ht : ProverTrace pc t) (hunsat : ¬ Sat (witness t) t) :
    ∃ bad : Finset F, bad.card ≤ 2 * (Qap.ofTrace t).m - 2 ∧
      ∀ (E : Engine F G1 G2 GT) (size : ℕ) (b b' : Build) (w w' : Worker) (R : Unit → Unit → Prop) (kc : Synth F Unit) (g1 : G1)
        (g2 : G2) (α β γ δ τ r s : F) (params : Parameters G1 G2) (pf : Proof G1 G2), 0 < size →
        SShape R kc pc → g1 ≠ 0 → g2 ≠ 0 →
        generateParametersV b w kc g1 g2 α β γ δ τ = Res.ok params → createProofV size b' w' pc params r s = Res.ok pf → τ ∉ bad →
        verifyProof E (prepareVerifyingKey E params.vk) pf (inVals t) = some (.error .invalidProof) := by
  obtain ⟨bad, h1, h2⟩ := C33_unsatisfied (G1 := G1) (G2 := G2) (GT := GT) t ht hunsat
  refine ⟨bad, h1, fun E size b b' w w' R kc g1 g2 α β γ δ τ r s params pf hsize h hg1 hg2 hk hp hτ => ?_⟩
  obtain ⟨k1, k2⟩ := C88_genuine hsize h hk hp
  exact h2 E w w' R kc g1 g2 α β γ δ τ r s params pf h hg1 hg2 k1 k2 hτ

end

theorem claimTrace_scoped (x y : DummyFr) : Scoped 1 0 (claimTrace x y) := by
  simp [claimTrace, Scoped, Var.InRange]

/-- The square of a number is proved on the machine, with field elements of 32 bytes, and a proof exists for false claims as well. -/
theorem claim_proofV (b b' : Build) (w w' : Worker) (hw : w.multicore = true → w.threads < 2 ^ 63) (hw' : w'.multicore = true → w'.threads < 2 ^ 63) (x y r s : DummyFr) :
    ∃ params pf, generateParametersV b w (squareCircuit none) (1 : DummyFr) (1 : DummyFr) 2 5 7 11 3 = Res.ok params ∧
      createProofV 32 b' w' (claimCircuit (some x) (some y)) params r s = Res.ok pf := by
  obtain ⟨params, pf, h1, h2⟩ := claim_proof w w' x y r s
  have h := C87_generate_fits b w hw (squareCircuit none) squareTrace_key (by decide) (by decide) (by decide) (1 : DummyFr) (1 : DummyFr)
    2 5 7 11 3
  have l1 : (consOf (claimTrace x y)).length = 2 := rfl
  have l2 : numIn (claimTrace x y) = 1 := rfl
  have l3 : numAux (claimTrace x y) = 1 := rfl
  exact ⟨params, pf, by rw [h, h1], by
    rw [C88_prove_fits (by norm_num) b' w' hw' (claimTrace_prover x y) (claimTrace_scoped x y) (by rw [l1, l2]; norm_num) (by rw [l3]; norm_num)
      (by rw [l2]; norm_num) (by rw [l3]; norm_num), h2]⟩

/-- Non-vacuity of `C88_completeness`, `C88_genuine`, `C88_prove` and the thread bounds. -/
example (E : Engine DummyFr DummyFr DummyFr DummyFr) (w : Worker) (hw : w.multicore = true → w.threads < 2 ^ 63) (r s : DummyFr) : ∃ params pf,
    generateParametersV .release w (squareCircuit none) (1 : DummyFr) (1 : DummyFr) 2 5 7 11 3 = Res.ok params ∧
    createProofV 32 .debug w (claimCircuit (some 5) (some 25)) params r s = Res.ok pf ∧
    createProof w (claimCircuit (some 5) (some 25)) params r s = Res.ok pf ∧ (w.multicore = true → w.threads < 2 ^ 63) ∧
    verifyProof E (prepareVerifyingKey E params.vk) pf [25] = some (.ok ()) := by
  obtain ⟨params, pf, h1, h2⟩ := claim_proofV .release .debug w w hw hw 5 25 r s
  exact ⟨params, pf, h1, h2, (C88_genuine (by norm_num) (claimCircuit_shape none (some 5) (some 25)) h1 h2).2,
    C88_prove_threads h2,
    C88_completeness E (by norm_num) .release .debug w w (claimCircuit_shape none (some 5) (some 25)) 1 1 2 5 7 11 3 r s params pf
      h1 h2 (claimTrace 5 25) (claimTrace_prover 5 25) ((claimTrace_sat 5 25).2 (by decide +kernel))⟩

/-- Non-vacuity of `C88_unsatisfied`: a machine made key and proof for the false claim that the square of 5 is 24. -/
example (w : Worker) (hw : w.multicore = true → w.threads < 2 ^ 63) (r s : DummyFr) : (∃ params pf,
    generateParametersV .release w (squareCircuit none) (1 : DummyFr) (1 : DummyFr) 2 5 7 11 3 = Res.ok params ∧
    createProofV 32 .release w (claimCircuit (some 5) (some 24)) params r s = Res.ok pf) ∧
    ¬ Sat (witness (claimTrace 5 24)) (claimTrace 5 24) :=
  ⟨claim_proofV .release .release w w hw hw 5 24 r s, fun h => absurd ((claimTrace_sat 5 24).1 h) (by decide +kernel)⟩

/-- Field elements so large that four of them do not fit: the squaring circuit is not proved. -/
example (b : Build) (w : Worker) (params : Parameters DummyFr DummyFr) :
    createProofV (2 ^ 61) b w (claimCircuit (some 5) (some 25)) params 1 2 = Res.panic :=
  C88_prove_stops b w (claimTrace_prover 5 25) (claimTrace_scoped 5 25) (by
    have l1 : (consOf (claimTrace 5 25)).length = 2 := rfl
    have l2 : numIn (claimTrace 5 25) = 1 := rfl
    rw [l1, l2]; norm_num) params 1 2

/-- `C88_generate` with so many threads that no key is made. -/
example (b : Build) (w : Worker) (hm : w.multicore = true) (hw : 2 ^ 63 ≤ w.threads) :
    generateParametersV b w (squareCircuit none) (1 : DummyFr) (1 : DummyFr) 2 5 7 11 3 = Res.panic := by
  rcases C88_generate b w (squareCircuit none) (1 : DummyFr) (1 : DummyFr) 2 5 7 11 3 (fun t ht => by
    cases ht.unique squareTrace_key; decide) with h | h
  · exact h
  · obtain ⟨params, hk, -⟩ := square_generate w
    exact absurd (C88_generate_threads (h.trans hk) hm) (Nat.not_lt.2 hw)

/-- The assignment of the squaring circuit: four constraints, two inputs, one other variable. -/
example (b : Build) : ∃ p, assignW 32 b (squareCircuit (some 5)) = Res.ok p ∧ p.a.length = 4 ∧ p.a.length * 32 < 2 ^ 63 := by
  obtain ⟨p, hp, h1, h2, h3⟩ : ∃ p, assign? (squareCircuit (some 5)) = Res.ok p ∧ p.a.length = 4 ∧ p.inputAssignment.length = 2 ∧
      p.auxAssignment.length = 1 := ⟨_, rfl, by decide +kernel⟩
  have h := C88_assign_fits 32 b hp (by rw [h1]; norm_num) (by rw [h2]; norm_num) (by rw [h3]; norm_num) (by rw [h2]; norm_num)
    (by rw [h3]; norm_num)
  exact ⟨p, h, h1, (C88_assign_bounds h).1⟩

end Bellman
