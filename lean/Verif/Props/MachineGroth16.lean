import Verif.Proofs.MachineGroth16
import Verif.Props.Groth16

/-!
# C86: key generation and proving do not overflow

The theorems about `generate_parameters` and `create_proof` are about a model with unbounded sizes.  Here both functions compute with
machine words; `b : Build` says whether an overflow panics or wraps around.
-/

namespace Bellman

open PrimeField EvaluationDomain

variable {F G1 G2 GT : Type} [PrimeField F] [AddCommGroup G1] [AddCommGroup G2] [AddCommGroup GT]
  [Module F G1] [Module F G2] [Module F GT] [DecidableEq G1] [DecidableEq G2] [DecidableEq GT]

/-- C86: the quotient polynomial is computed without overflow from vectors of any equal length that a `Vec` can have. -/
theorem C86_quotient (bd : Build) (w : Worker) (hw : w.multicore = true → w.threads < 2 ^ 63) (a b c : List F) (hab : a.length = b.length)
    (hac : a.length = c.length) (hl : a.length ≤ 2 ^ 63) : hCoeffsW bd w a b c = hCoeffs w a b c :=
  hCoeffsW_eq bd w hw a b c hab hac hl

/-- C86: key generation does not overflow, whatever its outcome, for every circuit with at most `2^63` constraints (those for the inputs
included) and fewer than `2^64` variables. -/
theorem C86_generate (b : Build) (w : Worker) (hw : w.multicore = true → w.threads < 2 ^ 63) (kc : Synth F Unit) (g1 : G1) (g2 : G2) (α β γ δ τ : F)
    (hsize : ∀ t, KeyTrace kc t → (consOf t).length + numIn t + 1 ≤ 2 ^ 63 ∧ numIn t + 1 + numAux t < 2 ^ 64) :
    generateParametersW b w kc g1 g2 α β γ δ τ = generateParameters w kc g1 g2 α β γ δ τ :=
  generateParametersW_eq b w hw kc g1 g2 α β γ δ τ hsize

/-- C86: neither does proving, whatever its outcome, with any parameters. -/
theorem C86_prove (b : Build) (w : Worker) (hw : w.multicore = true → w.threads < 2 ^ 63) (pc : Synth F Unit) (params : Parameters G1 G2) (r s : F)
    (hsize : ∀ t, ProverTrace pc t → (consOf t).length + numIn t + 1 ≤ 2 ^ 63) :
    createProofW b w pc params r s = createProof w pc params r s :=
  createProofW_eq b w hw pc params r s hsize

theorem hCoeffsW_threads {bd : Build} {w : Worker} {a b c hc : List F} (h : hCoeffsW bd w a b c = some (.ok hc))
    (hm : w.multicore = true) : w.threads < 2 ^ 63 := by
  by_contra hw
  have hw : 2 ^ 63 ≤ w.threads := Nat.le_of_not_lt hw
  unfold hCoeffsW at h
  simp only [Option.bind_eq_bind, Option.bind_eq_some_iff] at h
  obtain ⟨x, -, h⟩ := h
  rcases x with e | x
  · cases h
  simp only [Option.bind_eq_some_iff] at h
  obtain ⟨y, -, h⟩ := h
  rcases y with e | y
  · cases h
  simp only [Option.bind_eq_some_iff] at h
  obtain ⟨z, -, h⟩ := h
  rcases z with e | z
  · cases h
  simp only [Option.bind_eq_some_iff] at h
  obtain ⟨x', h, -⟩ := h
  unfold toCosetW ifftW bestFftW Worker.logNumThreadsW at h
  simp only [Worker.site, hm, if_true, (C84_log2_floor bd w.threads).2 (.inr hw)] at h
  cases h

theorem proveFromW_threads {b : Build} {w : Worker} {p : ProvingAssignment F} {params : Parameters G1 G2} {r s : F} {pf : Proof G1 G2}
    (h : proveFromW b w p params r s = Res.ok pf) (hm : w.multicore = true) : w.threads < 2 ^ 63 := by
  unfold proveFromW at h
  obtain ⟨vk, -, h⟩ := Res.bind_eq_ok.1 h
  obtain ⟨hc, h, -⟩ := Res.bind_eq_ok.1 h
  exact hCoeffsW_threads (w := w.site 0) h hm

/-- With any number of threads the quotient is the one of unbounded numbers, or the computation panics. -/
theorem hCoeffsW_or (bd : Build) (w : Worker) (a b c : List F) (hab : a.length = b.length) (hac : a.length = c.length)
    (hl : a.length ≤ 2 ^ 63) : hCoeffsW bd w a b c = none ∨ hCoeffsW bd w a b c = hCoeffs w a b c := by
  by_cases hw : w.multicore = true → w.threads < 2 ^ 63
  · exact .inr (hCoeffsW_eq bd w hw a b c hab hac hl)
  cases hr : hCoeffsW bd w a b c with
  | none => exact .inl rfl
  | some x =>
    cases x with
    | ok hc => exact absurd (fun hm => hCoeffsW_threads hr hm) hw
    | error e =>
      right
      rw [← hr]
      unfold hCoeffsW at hr ⊢
      unfold hCoeffs
      rw [fromCoeffsW_eq bd a hl, fromCoeffsW_eq bd b (hab ▸ hl), fromCoeffsW_eq bd c (hac ▸ hl)] at hr ⊢
      refine Option.bind_congr fun x hx => ?_
      rcases x with e | x
      · rfl
      simp only [Option.bind_eq_bind, hx, Option.bind_some] at hr
      refine Option.bind_congr fun y hy => ?_
      rcases y with e | y
      · rfl
      simp only [hy, Option.bind_some] at hr
      refine Option.bind_congr fun z hz => ?_
      rcases z with e | z
      · rfl
      simp only [hz, Option.bind_some, Option.bind_eq_some_iff] at hr
      obtain ⟨_, -, _, -, _, -, _, -, _, -, _, -, _, -, _, -, hr⟩ := hr
      cases hr

/-- C86: the bound on the threads is needed: `log2_floor` does not return for `2^63` threads or more, so no proof is made. -/
theorem C86_threads (b : Build) (w : Worker) (hm : w.multicore = true) (hw : 2 ^ 63 ≤ w.threads) (pc : Synth F Unit)
    (params : Parameters G1 G2) (r s : F) (pf : Proof G1 G2) : createProofW b w pc params r s ≠ Res.ok pf := by
  intro h
  unfold createProofW at h
  obtain ⟨p, -, h⟩ := Res.bind_eq_ok.1 h
  exact absurd (proveFromW_threads h hm) (Nat.not_lt.2 hw)

theorem generateFromW_threads {b : Build} {w : Worker} {s : KeypairAssembly F} {g1 : G1} {g2 : G2} {α β γ δ τ : F}
    {params : Parameters G1 G2} (h : generateFromW b w s g1 g2 α β γ δ τ = Res.ok params) (hm : w.multicore = true) :
    w.threads < 2 ^ 63 := by
  by_contra hw
  have hw : 2 ^ 63 ≤ w.threads := Nat.le_of_not_lt hw
  unfold generateFromW at h
  obtain ⟨pot, -, h⟩ := Res.bind_eq_ok.1 h
  obtain ⟨gi, -, h⟩ := Res.bind_eq_ok.1 h
  obtain ⟨di, -, h⟩ := Res.bind_eq_ok.1 h
  obtain ⟨hl, -, h⟩ := Res.bind_eq_ok.1 h
  obtain ⟨ps, -, h⟩ := Res.bind_eq_ok.1 h
  obtain ⟨hq, -, h⟩ := Res.bind_eq_ok.1 h
  obtain ⟨d, h, -⟩ := Res.bind_eq_ok.1 h
  have h := Res.lift_eq_ok.1 h
  unfold ifftW bestFftW Worker.logNumThreadsW at h
  simp only [Worker.site, hm, if_true, (C84_log2_floor b w.threads).2 (.inr hw)] at h
  cases h

/-- Both circuits within the bounds, in terms of what key generation sees. -/
theorem sizes_of_key {R : Unit → Unit → Prop} {kc pc : Synth F Unit} (h : SShape R kc pc) {t0 : List (Ev F)} (ht0 : KeyTrace kc t0)
    (hs : (consOf t0).length + numIn t0 + 1 ≤ 2 ^ 63) (hv : numIn t0 + 1 + numAux t0 < 2 ^ 64) :
    (∀ t, KeyTrace kc t → (consOf t).length + numIn t + 1 ≤ 2 ^ 63 ∧ numIn t + 1 + numAux t < 2 ^ 64) ∧
      ∀ t, ProverTrace pc t → (consOf t).length + numIn t + 1 ≤ 2 ^ 63 := by
  refine ⟨fun t ht => ?_, fun t ht => ?_⟩
  · cases ht.unique ht0
    exact ⟨hs, hv⟩
  · have hsame := pair_traces h ht0 ht
    have hq := congrArg (fun q => q.rows.length) (ofTrace_same hsame)
    have hl (t : List (Ev F)) : (Qap.ofTrace t).rows.length = (consOf t).length + (numIn t + 1) := by
      simp [Qap.ofTrace, Qap.ofRows, inputRows]
    simp only [hl] at hq
    omega

/-- C86: on the machine too, a proof of a satisfied circuit is accepted: key generation and proving may be builds of either kind and run on
different machines. -/
theorem C86_completeness (E : Engine F G1 G2 GT) (b b' : Build) (w w' : Worker) (hw : w.multicore = true → w.threads < 2 ^ 63) (hw' : w'.multicore = true → w'.threads < 2 ^ 63)
    {R : Unit → Unit → Prop} {kc pc : Synth F Unit} (h : SShape R kc pc) (t0 t : List (Ev F)) (ht0 : KeyTrace kc t0)
    (hs : (consOf t0).length + numIn t0 + 1 ≤ 2 ^ 63) (hv : numIn t0 + 1 + numAux t0 < 2 ^ 64) (g1 : G1) (g2 : G2) (α β γ δ τ r s : F)
    (params : Parameters G1 G2) (pf : Proof G1 G2) (hk : generateParametersW b w kc g1 g2 α β γ δ τ = Res.ok params)
    (hp : createProofW b' w' pc params r s = Res.ok pf) (ht : ProverTrace pc t) (hsat : Sat (witness t) t) :
    verifyProof E (prepareVerifyingKey E params.vk) pf (inVals t) = some (.ok ()) := by
  obtain ⟨h1, h2⟩ := sizes_of_key h ht0 hs hv
  rw [C86_generate b w hw kc g1 g2 α β γ δ τ h1] at hk
  rw [C86_prove b' w' hw' pc params r s h2] at hp
  exact C30_completeness E w w' h g1 g2 α β γ δ τ r s params pf hk hp t ht hsat

/-- C86: and a proof made from an unsatisfied assignment is rejected for all but `2m - 2` secrets `τ`, although words might wrap around. -/
theorem C86_unsatisfied {pc : Synth F Unit} (t : List (Ev F)) (ht : ProverTrace pc t) (hunsat : ¬ Sat (witness t) t) :
    ∃ bad : Finset F, bad.card ≤ 2 * (Qap.ofTrace t).m - 2 ∧
      ∀ (E : Engine F G1 G2 GT) (b b' : Build) (w w' : Worker) (R : Unit → Unit → Prop) (kc : Synth F Unit) (t0 : List (Ev F)) (g1 : G1)
        (g2 : G2) (α β γ δ τ r s : F) (params : Parameters G1 G2) (pf : Proof G1 G2), (w.multicore = true → w.threads < 2 ^ 63) → (w'.multicore = true → w'.threads < 2 ^ 63) →
        SShape R kc pc → KeyTrace kc t0 → (consOf t0).length + numIn t0 + 1 ≤ 2 ^ 63 → numIn t0 + 1 + numAux t0 < 2 ^ 64 →
        g1 ≠ 0 → g2 ≠ 0 → generateParametersW b w kc g1 g2 α β γ δ τ = Res.ok params →
        createProofW b' w' pc params r s = Res.ok pf → τ ∉ bad →
        verifyProof E (prepareVerifyingKey E params.vk) pf (inVals t) = some (.error .invalidProof) := by
  obtain ⟨bad, h1, h2⟩ := C33_unsatisfied (G1 := G1) (G2 := G2) (GT := GT) t ht hunsat
  refine ⟨bad, h1, fun E b b' w w' R kc t0 g1 g2 α β γ δ τ r s params pf hw hw' h ht0 hs hv hg1 hg2 hk hp hτ => ?_⟩
  obtain ⟨s1, s2⟩ := sizes_of_key h ht0 hs hv
  rw [C86_generate b w hw kc g1 g2 α β γ δ τ s1] at hk
  rw [C86_prove b' w' hw' pc params r s s2] at hp
  exact h2 E w w' R kc g1 g2 α β γ δ τ r s params pf h hg1 hg2 hk hp hτ

/-- The square of a number is proved, whatever kinds of builds generate the key and the proof, and a proof exists for false claims as well. -/
theorem claim_proofW (b b' : Build) (w w' : Worker) (hw : w.multicore = true → w.threads < 2 ^ 63) (hw' : w'.multicore = true → w'.threads < 2 ^ 63) (x y r s : DummyFr) :
    ∃ params pf, generateParametersW b w (squareCircuit none) (1 : DummyFr) (1 : DummyFr) 2 5 7 11 3 = Res.ok params ∧
      createProofW b' w' (claimCircuit (some x) (some y)) params r s = Res.ok pf := by
  obtain ⟨params, pf, h1, h2⟩ := claim_proof w w' x y r s
  obtain ⟨s1, s2⟩ := sizes_of_key (claimCircuit_shape none (some x) (some y)) squareTrace_key (by decide) (by decide)
  exact ⟨params, pf, by rw [C86_generate b w hw _ _ _ _ _ _ _ _ s1, h1], by rw [C86_prove b' w' hw' _ _ _ _ s2, h2]⟩

/-- Non-vacuity of the completeness theorem: a debug build makes the key, a release build proves that the square of 5 is 25. -/
example (E : Engine DummyFr DummyFr DummyFr DummyFr) (w : Worker) (hw : w.multicore = true → w.threads < 2 ^ 63) (r s : DummyFr) : ∃ params pf,
    generateParametersW .debug w (squareCircuit none) (1 : DummyFr) (1 : DummyFr) 2 5 7 11 3 = Res.ok params ∧
    createProofW .release w (claimCircuit (some 5) (some 25)) params r s = Res.ok pf ∧
    verifyProof E (prepareVerifyingKey E params.vk) pf [25] = some (.ok ()) := by
  obtain ⟨params, pf, h1, h2⟩ := claim_proofW .debug .release w w hw hw 5 25 r s
  exact ⟨params, pf, h1, h2, C86_completeness E .debug .release w w hw hw (claimCircuit_shape none (some 5) (some 25)) squareTrace
    (claimTrace 5 25) squareTrace_key (by decide) (by decide) 1 1 2 5 7 11 3 r s params pf h1 h2 (claimTrace_prover 5 25)
    ((claimTrace_sat 5 25).2 (by decide +kernel))⟩

/-- Non-vacuity of the other: the false claim that it is 24 has a trace that does not satisfy the circuit. -/
example : ProverTrace (claimCircuit (some 5) (some 24)) (claimTrace 5 24) ∧ ¬ Sat (witness (claimTrace 5 24)) (claimTrace 5 24) :=
  ⟨claimTrace_prover 5 24, fun h => absurd ((claimTrace_sat 5 24).1 h) (by decide +kernel)⟩

/-- `2^63` threads, and three constraints in vectors that fit. -/
example (w : Worker) (pf : Proof DummyFr DummyFr) (params : Parameters DummyFr DummyFr) :
    createProofW .release { w with multicore := true, threads := 2 ^ 63, threads_pos := by norm_num } (claimCircuit (some 5) (some 25)) params 1 2 ≠ Res.ok pf :=
  C86_threads .release _ rfl le_rfl _ params 1 2 pf

example (bd : Build) (w : Worker) (hw : w.multicore = true → w.threads < 2 ^ 63) :
    hCoeffsW bd w ([5, 6, 7] : List DummyFr) [1, 2, 3] [5, 12, 21] = hCoeffs w [5, 6, 7] [1, 2, 3] [5, 12, 21] :=
  C86_quotient bd w hw _ _ _ rfl rfl (by decide)

end Bellman
