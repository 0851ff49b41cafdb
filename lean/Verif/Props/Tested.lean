import Verif.Props.Names
import Verif.Props.Groth16
import Verif.Props.Mimc
import Verif.Props.Preimage

/-!
# C50: what a test of a circuit tells about its proofs

A circuit is tested by running it on a new `TestConstraintSystem` and calling `is_satisfied` (and `verify`).  The answer is the same as
that of the real system: satisfied means that the proofs made with the same witness are accepted, and unsatisfied means that
they are rejected.
-/

namespace Bellman

open PrimeField

set_option linter.unusedSectionVars false

variable {F G1 G2 GT : Type} [PrimeField F] [AddCommGroup G1] [AddCommGroup G2] [AddCommGroup GT] [Module F G1] [Module F G2] [Module F GT]
  [DecidableEq G1] [DecidableEq G2] [DecidableEq GT]

/-- C50: a test run records the prover's witness and its constraints. -/
theorem C50_same_run {pc : Synth F Unit} {s : TestCS F} (h : pc.run.run TestCS.impl .new = some (.ok (), s)) :
    ∃ t, ProverTrace pc t ∧ s.inputs.map (·.1) = 1 :: inVals t ∧ s.aux.map (·.1) = auxVals t ∧
      (s.constraints.map fun k => (k.1, k.2.1, k.2.2.1)) = consOf t ∧ s.rho = witness t := by
  obtain ⟨t, he, hr⟩ := TestCS.run_recorded _ TestCS.WF_new h
  have h1 : s.inputs.map (·.1) = 1 :: inVals t := by rw [hr.inputs]; rfl
  have h2 : s.aux.map (·.1) = auxVals t := by rw [hr.aux]; rfl
  refine ⟨t, ⟨he, hr.numbered⟩, h1, h2, by rw [hr.constraints]; rfl, ?_⟩
  rw [TestCS.rho, h1, h2, witness]

/-- The satisfaction of the recorded constraints. -/
theorem sat_of_isSatisfied {pc : Synth F Unit} {s : TestCS F} (h : pc.run.run TestCS.impl .new = some (.ok (), s)) :
    ∃ t, ProverTrace pc t ∧ s.inputs.map (·.1) = 1 :: inVals t ∧ (s.isSatisfied = some true → Sat (witness t) t) ∧
      (s.isSatisfied = some false → ¬ Sat (witness t) t) := by
  obtain ⟨t, ht, h1, -, h3, h4⟩ := C50_same_run h
  refine ⟨t, ht, h1, fun hs => ?_, fun hs hsat => ?_⟩
  · rw [Sat_iff_consOf, ← h3, ← h4]
    intro k hk
    obtain ⟨k', hk', rfl⟩ := List.mem_map.1 hk
    exact ((C04_isSatisfied s).1 hs k' hk').2
  · obtain ⟨pre, k, post, e, -, -, hne⟩ := (C04_isSatisfied_false s).1 hs
    rw [Sat_iff_consOf, ← h3, ← h4] at hsat
    exact hne (hsat _ (List.mem_map.2 ⟨k, by rw [e]; simp, rfl⟩))

/-- C50: **a test that passes**: if `is_satisfied()` is true and `verify(xs)` is true after running a circuit on a new
`TestConstraintSystem`, then every proof created for the circuit with the same witness is accepted for the public inputs `xs`. -/
theorem C50_passing_test (E : Engine F G1 G2 GT) {R : Unit → Unit → Prop} {kc pc : Synth F Unit} (h : SShape R kc pc) {s : TestCS F}
    (hrun : pc.run.run TestCS.impl .new = some (.ok (), s)) (hsat : s.isSatisfied = some true) (xs : List F)
    (hv : s.verify xs = some true) (w w' : Worker) (g1 : G1) (g2 : G2) (α β γ δ τ r s' : F) (params : Parameters G1 G2) (pf : Proof G1 G2)
    (hk : generateParameters w kc g1 g2 α β γ δ τ = Res.ok params) (hp : createProof w' pc params r s' = Res.ok pf) :
    verifyProof E (prepareVerifyingKey E params.vk) pf xs = some (.ok ()) := by
  obtain ⟨t, ht, h1, h2, -⟩ := sat_of_isSatisfied hrun
  obtain ⟨one, ho⟩ := (C04_verify s xs).2.1 hv
  rw [h1] at ho
  obtain ⟨-, rfl⟩ := List.cons_eq_cons.1 ho
  exact C30_completeness E w w' h g1 g2 α β γ δ τ r s' params pf hk hp t ht (h2 hsat)

/-- C50: **a test that fails**: if `is_satisfied()` is false, then the proofs created for the circuit with the same witness are rejected
for the public inputs of the run, for all but few values of the secret `τ`: the exceptional set depends on the run only. -/
theorem C50_failing_test {pc : Synth F Unit} {s : TestCS F} (hrun : pc.run.run TestCS.impl .new = some (.ok (), s))
    (hsat : s.isSatisfied = some false) (xs : List F) (hv : s.verify xs = some true) :
    ∃ bad : Finset F, bad.card ≤ 4 * (s.numConstraints + s.numInputs) ∧
      ∀ (E : Engine F G1 G2 GT) (w w' : Worker) (R : Unit → Unit → Prop) (kc : Synth F Unit) (g1 : G1) (g2 : G2) (α β γ δ τ r s : F)
        (params : Parameters G1 G2) (pf : Proof G1 G2), SShape R kc pc → g1 ≠ 0 → g2 ≠ 0 →
        generateParameters w kc g1 g2 α β γ δ τ = Res.ok params → createProof w' pc params r s = Res.ok pf → τ ∉ bad →
        verifyProof E (prepareVerifyingKey E params.vk) pf xs = some (.error .invalidProof) := by
  obtain ⟨t, ht, h1, -, h3⟩ := sat_of_isSatisfied hrun
  obtain ⟨t', ht', -, -, h3c, -⟩ := C50_same_run hrun
  cases ht.unique ht'
  obtain ⟨one, ho⟩ := (C04_verify s xs).2.1 hv
  rw [h1] at ho
  obtain ⟨-, rfl⟩ := List.cons_eq_cons.1 ho
  obtain ⟨bad, hb, hrej⟩ := C33_unsatisfied (G1 := G1) (G2 := G2) (GT := GT) t ht (h3 hsat)
  refine ⟨bad, hb.trans ?_, hrej⟩
  have hrows : (Qap.ofTrace t).rows.length = s.numConstraints + s.numInputs := by
    have e1 := congrArg List.length h3c
    have e2 := congrArg List.length h1
    rw [List.length_map] at e1 e2
    rw [ofTrace_rows, List.length_append, inputRows, List.length_map, List.length_range, TestCS.numConstraints, TestCS.numInputs, e1, e2,
      List.length_cons, ht.inputs_len]
  have hm : (Qap.ofTrace t).m = 2 ^ Nat.clog 2 (Qap.ofTrace t).rows.length := rfl
  have hlt : 2 ^ Nat.clog 2 (Qap.ofTrace t).rows.length < 2 * (Qap.ofTrace t).rows.length + 2 := by
    rcases Nat.lt_or_ge 1 (Qap.ofTrace t).rows.length with h | h
    · have := Nat.pow_pred_clog_lt_self (b := 2) one_lt_two h
      have hpos : 0 < Nat.clog 2 (Qap.ofTrace t).rows.length := Nat.clog_pos one_lt_two h
      obtain ⟨e, he⟩ := Nat.exists_eq_succ_of_ne_zero hpos.ne'
      rw [he, Nat.pred_succ] at this
      rw [he, pow_succ]
      omega
    · rw [Nat.clog_of_right_le_one h]
      omega
  rw [hm, ← hrows]
  omega

theorem Honest.result_unique {α : Type} {c : Circ F α} {t t' : List (Ev F)} {r r' : Option α} (he : Honest c t r)
    (he' : Honest c t' r') {n m : ℕ} (hn : Numbered n m t) (hn' : Numbered n m t') : r = r' := by
  cases Honest.unique_aux he he' hn hn'
  clear hn hn'
  induction he with
  | ret b => cases he'; rfl
  | panic m => cases he'; rfl
  | allocRun x v hf _ ih =>
    cases he' with
    | allocRun _ _ _ h => exact ih h
    | allocErr e h _ => rw [hf] at h; cases h
  | allocErr e hf _ ih =>
    cases he' with
    | allocRun _ _ h _ => rw [hf] at h; cases h
    | allocErr e h h' => rw [hf] at h; cases h; exact ih h'
  | enforce _ ih => cases he' with | enforce h => exact ih h
  | push _ ih => cases he' with | push h => exact ih h
  | pop _ ih => cases he' with | pop h => exact ih h

theorem new_unused {n : String} (h : n ≠ "ONE") : pathStr ((TestCS.new : TestCS F).ns ++ [n]) ∉ (TestCS.new : TestCS F).named.map (·.1) := by
  have e : pathStr ([] ++ [n]) = n := by
    show pathStr [n] = n
    rw [← String.toList_inj, pathStr, String.toList_ofList]
    simp [pathChars_cons]
  simp only [TestCS.new, List.map_cons, List.map_nil, List.mem_singleton]
  rwa [e]

/-- C50: testing and proving succeed for the same witnesses: a circuit with distinct names (`"ONE"` is taken) that mentions allocated
variables only can be tested iff the prover can synthesize it. -/
theorem C50_same_success {pc : Synth F Unit} {N : Set String} (hu : UsesNames N pc.run) (h1 : "ONE" ∉ N)
    (hc : ∀ t, ProverTrace pc t → Scoped 1 0 t) :
    (∃ s, pc.run.run TestCS.impl .new = some (.ok (), s)) ↔
      ∃ p, synthesizeWith ProvingAssignment.impl pc (proverStart F) = Res.ok ((), p) := by
  constructor
  · rintro ⟨s, h⟩
    obtain ⟨t, ht, -⟩ := C50_same_run h
    obtain ⟨p, hp⟩ := ht.exec.prover_run (proverStart_WF (F := F)) ht.numbered (hc t ht)
    exact ⟨p, synthesizeWith_ok.2 hp⟩
  · rintro ⟨p, hp⟩
    obtain ⟨t, he, hr⟩ := ProvingAssignment.run_recorded _ proverStart_WF (synthesizeWith_ok.1 hp)
    have hn : Numbered 1 0 t := hr.numbered
    cases hr : pc.run.run TestCS.impl .new with
    | none =>
      obtain ⟨t', he', hn'⟩ := C49_no_name_panic .new hu (fun n hn => new_unused fun e => h1 (e ▸ hn)) hr
      cases Honest.result_unique he he' hn hn'
    | some q =>
      obtain ⟨r, s⟩ := q
      obtain ⟨t', he', hr'⟩ := TestCS.run_recorded _ TestCS.WF_new hr
      have hn' : Numbered 1 0 t' := hr'.numbered
      cases Honest.result_unique he he' hn hn'
      exact ⟨s, rfl⟩

/-- C50: and then `is_satisfied` answers, it does not panic. -/
theorem C50_answers {pc : Synth F Unit} {s : TestCS F} (hc : ∀ t, ProverTrace pc t → Scoped 1 0 t)
    (h : pc.run.run TestCS.impl .new = some (.ok (), s)) : ∃ b, s.isSatisfied = some b := by
  obtain ⟨t, ht, hi, ha, hk, -⟩ := C50_same_run h
  have hev : ∀ k ∈ s.constraints, s.Evaluable k := by
    intro k hm
    have h1 := (hc t ht).consOf (k.1, k.2.1, k.2.2.1) (by rw [← hk]; exact List.mem_map.2 ⟨k, hm, rfl⟩)
    have e1 := congrArg List.length hi
    have e2 := congrArg List.length ha
    rw [List.length_map] at e1 e2
    rw [List.length_cons, ht.inputs_len, Nat.add_comm] at e1
    rw [ht.exec.allRun.lengths.2] at e2
    rw [← e1, ← e2, Nat.zero_add] at h1
    exact ⟨fun x hx => h1 x (by simp [hx]), fun x hx => h1 x (by simp [hx]), fun x hx => h1 x (by simp [hx])⟩
  have : ∀ ks : List (LC F × LC F × LC F × String), (∀ k ∈ ks, s.Evaluable k) → ∃ o, s.whichLoop ks = some o := by
    intro ks
    induction ks with
    | nil => exact fun _ => ⟨none, rfl⟩
    | cons k ks ih =>
      intro hks
      obtain ⟨h1, h2, -⟩ := TestCS.whichLoop_cons s k ks
      by_cases hh : s.Holds k
      · rw [h1 (hks k (by simp)) hh]
        exact ih fun k' hk' => hks k' (by simp [hk'])
      · exact ⟨_, h2 (hks k (by simp)) hh⟩
  obtain ⟨o, ho⟩ := this _ hev
  exact ⟨o.isNone, by rw [TestCS.isSatisfied, TestCS.whichIsUnsatisfied, ho]; rfl⟩

/-- C50: **tests of honest witnesses pass**: if the prover's witness satisfies the constraints, then the test says so, and `verify`
confirms the public inputs. -/
theorem C50_honest {pc : Synth F Unit} {N : Set String} (hu : UsesNames N pc.run) (h1 : "ONE" ∉ N) {t : List (Ev F)} (ht : ProverTrace pc t)
    (hc : Scoped 1 0 t) (hs : Sat (witness t) t) :
    ∃ s, pc.run.run TestCS.impl .new = some (.ok (), s) ∧ s.isSatisfied = some true ∧ s.verify (inVals t) = some true ∧
      s.numConstraints = (consOf t).length := by
  have hc' : ∀ t, ProverTrace pc t → Scoped 1 0 t := fun t' ht' => by cases ht.unique ht'; exact hc
  obtain ⟨p, hp⟩ := ht.exec.prover_run (proverStart_WF (F := F)) ht.numbered hc
  obtain ⟨s, hr⟩ := (C50_same_success hu h1 hc').2 ⟨p, synthesizeWith_ok.2 hp⟩
  obtain ⟨t', ht', hi, hA, hB⟩ := sat_of_isSatisfied hr
  obtain ⟨t'', ht'', -, -, hk, -⟩ := C50_same_run hr
  cases ht.unique ht'
  cases ht.unique ht''
  refine ⟨s, hr, ?_, (C04_verify s _).2.2 ⟨1, hi⟩, ?_⟩
  · obtain ⟨b, hb⟩ := C50_answers hc' hr
    cases b with
    | true => exact hb
    | false => exact absurd hs (hB hb)
  · have e := congrArg List.length hk
    rwa [List.length_map] at e

/-! ### The example circuits pass their tests -/

/-- C50: the MiMC circuit, run with a preimage on a new test constraint system, is satisfied, and its public input is the image. -/
theorem C50_mimc (cs : List F) (h : cs.length = 322) (xl xr : F) :
    ∃ s, (Mimc.Demo.mk (some xl) (some xr) cs).synthesize.run.run TestCS.impl .new = some (.ok (), s) ∧ s.isSatisfied = some true ∧
      s.verify [Spec.mimc cs xl xr] = some true ∧ s.numConstraints = 644 := by
  have hp := Mimc.proverTrace_demo cs h xl xr
  obtain ⟨t, ht, hs, hi, -⟩ := C48_complete cs h xl xr
  cases ht.unique hp
  obtain ⟨s, h1, h2, h3, h4⟩ := C50_honest (Mimc.snames_synthesize (Mimc.Demo.mk (some xl) (some xr) cs)).uses (by
    rintro ((e | e) | e)
    · exact absurd e (by decide)
    · exact absurd e (by decide)
    · exact not_mem_idx_base (by decide) e) hp (Mimc.scoped_demo cs h _) hs
  exact ⟨s, h1, h2, by rw [← hi]; exact h3, by rw [h4]; exact (Mimc.counts_demo cs h _).2.2⟩

/-- C50: the circuit of the documentation, run with 80 bytes, is satisfied, and its public inputs are the packed hash. -/
theorem C50_preimage (h64 : 64 ≤ NUM_BITS F) (m : List (BitVec 8)) (hm : m.length = 80) :
    ∃ s xs, ((Preimage.MyCircuit.mk (some m)).synthesize : Synth F Unit).run.run TestCS.impl .new = some (.ok (), s) ∧
      s.isSatisfied = some true ∧ computeMultipacking F (bytesToBitsLe (Spec.sha256d m)) = some xs ∧ s.verify xs = some true := by
  obtain ⟨t, ht, hs, -, hx⟩ := prover_synthesize (F := F) h64 hm
  obtain ⟨s, h1, h2, h3, -⟩ := C50_honest (Preimage.snames_synthesize (Preimage.MyCircuit.mk (some m))).uses (by
    rintro (e | e | e)
    · exact not_mem_idx_base (by decide) e
    · exact absurd e (by decide)
    · exact absurd e (by decide)) ht (Preimage.scoped_synthesize _ ht.exec.exec ht.numbered) hs
  exact ⟨s, _, h1, h2, hx, h3⟩

/-! ### Instances -/

section Example

/-- The state after running `claimCircuit`. -/
private def claimState (x y : DummyFr) : TestCS DummyFr := (((claimCircuit (some x) (some y)).run.run TestCS.impl .new).map (·.2)).getD .new

private theorem claim_run (x y : DummyFr) (h : ((claimCircuit (some x) (some y)).run.run TestCS.impl .new).map (fun x => x.1.toOption) = some (some ())) :
    (claimCircuit (some x) (some y)).run.run TestCS.impl .new = some (.ok (), claimState x y) := by
  unfold claimState
  cases e : (claimCircuit (some x) (some y)).run.run TestCS.impl .new with
  | none => rw [e] at h; cases h
  | some p =>
    obtain ⟨r, s⟩ := p
    rw [e] at h
    cases r with
    | error e => simp [Except.toOption] at h
    | ok u => rfl

/-- `C50_passing_test` applies to the witness 5 for the public input 25: the test passes, proofs exist, and they are accepted. -/
example (w w' : Worker) (r s : DummyFr) : (claimState 5 25).isSatisfied = some true ∧ ∃ params pf,
    generateParameters w (squareCircuit none) (1 : DummyFr) (1 : DummyFr) 2 5 7 11 3 = Res.ok params ∧
    createProof w' (claimCircuit (some 5) (some 25)) params r s = Res.ok pf ∧
    verifyProof (fieldEngine DummyFr) (prepareVerifyingKey (fieldEngine DummyFr) params.vk) pf [25] = some (.ok ()) := by
  have h1 : (claimState 5 25).isSatisfied = some true := by decide +kernel
  obtain ⟨params, pf, hk, hp⟩ := claim_proof w w' 5 25 r s
  exact ⟨h1, params, pf, hk, hp, C50_passing_test (fieldEngine DummyFr) (claimCircuit_shape none (some 5) (some 25))
    (claim_run 5 25 (by decide +kernel)) h1 [25] (by decide +kernel) w w' _ _ _ _ _ _ _ r s params pf hk hp⟩

/-- `C50_failing_test` applies to the false claim that 26 is the square of 5; at most 16 values of `τ` are exceptional. -/
example : ∃ bad : Finset DummyFr, bad.card ≤ 16 ∧ ∀ (w w' : Worker) (α β γ δ τ r s : DummyFr) (params pf),
    generateParameters w (squareCircuit none) (1 : DummyFr) (1 : DummyFr) α β γ δ τ = Res.ok params →
    createProof w' (claimCircuit (some 5) (some 26)) params r s = Res.ok pf → τ ∉ bad →
    verifyProof (fieldEngine DummyFr) (prepareVerifyingKey (fieldEngine DummyFr) params.vk) pf [26] = some (.error .invalidProof) := by
  obtain ⟨bad, hb, h⟩ := C50_failing_test (G1 := DummyFr) (G2 := DummyFr) (GT := DummyFr) (claim_run 5 26 (by decide +kernel))
    (by decide +kernel) [26] (by decide +kernel)
  have e : 4 * ((claimState 5 26).numConstraints + (claimState 5 26).numInputs) = 16 := by decide +kernel
  rw [e] at hb
  exact ⟨bad, hb, fun w w' α β γ δ τ r s params pf hk hp hτ =>
    h (fieldEngine DummyFr) w w' _ _ 1 1 α β γ δ τ r s params pf (claimCircuit_shape none _ _) one_ne_zero one_ne_zero hk hp hτ⟩

/-- The circuit meets the hypotheses of `C50_same_success`. -/
example (x y : Option DummyFr) : UsesNames {"x", "y", "square", "twice"} (claimCircuit x y).run ∧
    "ONE" ∉ ({"x", "y", "square", "twice"} : Set String) ∧ Scoped 1 0 (claimTrace 5 25) := by
  refine ⟨SNamesP.uses (P := fun _ => True) ?_, by simp, by simp [claimTrace, Scoped, Var.InRange]⟩
  refine SNamesP.seq (P := fun _ => True) (SNamesP.alloc (by clean) _) (by simp) fun _ _ => ?_
  refine SNamesP.seq (P := fun _ => True) (SNamesP.allocInput (by clean) _) (by simp) fun _ _ => ?_
  exact SNamesP.seq (SNamesP.enforce (by clean)) (by simp) fun _ _ => SNamesP.enforce (by clean)

end Example

end Bellman
