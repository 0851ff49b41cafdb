import Verif.Groth16.MachineVerifier
import Verif.Props.Batch
import Verif.Props.Deployment

/-!
# C90: verification with machine words

Inputs are held in slices, which have at most `isize::MAX` bytes, so adding one to their number does not overflow.
-/

namespace Bellman

set_option linter.unusedSectionVars false

variable {F G1 G2 GT : Type} [PrimeField F] [AddCommGroup G1] [AddCommGroup G2] [AddCommGroup GT]
  [Module F G1] [Module F G2] [Module F GT] [DecidableEq GT]

theorem add_one_fits (b : Build) {n : ℕ} (h : n + 1 < 2 ^ 64) : b.add 64 n 1 = some (n + 1) := by
  unfold Build.add Build.fit
  rw [if_pos h]

theorem slice_fits {size n : ℕ} (hsize : 0 < size) (h : n * size < 2 ^ 63) : n + 1 < 2 ^ 64 := by
  have : n ≤ n * size := Nat.le_mul_of_pos_right n hsize
  omega

/-- C90: for inputs that fit a slice, verification on the machine is verification, in both builds. -/
theorem C90_verify {size : ℕ} (hsize : 0 < size) (b : Build) (E : Engine F G1 G2 GT) (pvk : PreparedVerifyingKey G1 G2 GT)
    (pf : Proof G1 G2) (inputs : List F) (hin : inputs.length * size < 2 ^ 63) :
    verifyProofW b E pvk pf inputs = verifyProof E pvk pf inputs := by
  unfold verifyProofW
  rw [add_one_fits b (slice_fits hsize hin)]
  rfl

theorem lengthsDifferW_eq {size : ℕ} (hsize : 0 < size) (b : Build) (n : ℕ) (items : List (Item F G1 G2))
    (hin : ∀ it ∈ items, it.inputs.length * size < 2 ^ 63) :
    lengthsDifferW b n items = some (items.any fun it => it.inputs.length + 1 ≠ n) := by
  induction items with
  | nil => rfl
  | cons it items ih =>
    unfold lengthsDifferW
    rw [add_one_fits b (slice_fits hsize (hin it (by simp))), Option.bind_some, ih fun it h => hin it (by simp [h]), List.any_cons]
    by_cases h : it.inputs.length + 1 = n <;> simp [h]

/-- C90: the same for batches. -/
theorem C90_batch {size : ℕ} (hsize : 0 < size) (b : Build) (E : Engine F G1 G2 GT) (v : BatchVerifier F G1 G2) (tape : List F)
    (vk : VerifyingKey G1 G2) (hin : ∀ it ∈ v.items, it.inputs.length * size < 2 ^ 63) :
    v.verifyW b E tape vk = v.verify E tape vk := by
  unfold BatchVerifier.verifyW
  rw [lengthsDifferW_eq hsize b _ _ hin]
  rfl

/-- C90: the same for batches on several threads, for all draws and reduction trees. -/
theorem C90_multicore {size : ℕ} (hsize : 0 < size) (b : Build) (E : Engine F G1 G2 GT) (v : BatchVerifier F G1 G2) (tapes : ℕ → List F)
    (tree : ReduceTree) (vk : VerifyingKey G1 G2) (hin : ∀ it ∈ v.items, it.inputs.length * size < 2 ^ 63) :
    v.verifyMulticoreW b E tapes tree vk = v.verifyMulticore E tapes tree vk := by
  unfold BatchVerifier.verifyMulticoreW
  rw [lengthsDifferW_eq hsize b _ _ hin]
  rfl

/-- C90: even if slices were limited by the words of their lengths only, the machine would accept only what is accepted: where the addition
wraps around, the key has no `ic[0]`. -/
theorem C90_accepts {b : Build} {E : Engine F G1 G2 GT} {pvk : PreparedVerifyingKey G1 G2 GT} {pf : Proof G1 G2} {inputs : List F}
    (h : verifyProofW b E pvk pf inputs = some (.ok ())) (hin : inputs.length < 2 ^ 64) :
    inputs.length + 1 = pvk.ic.length ∧ verifyProof E pvk pf inputs = some (.ok ()) := by
  by_cases hlt : inputs.length + 1 < 2 ^ 64
  · unfold verifyProofW at h
    rw [add_one_fits b hlt] at h
    have h : verifyProof E pvk pf inputs = some (.ok ()) := h
    refine ⟨?_, h⟩
    by_contra hne
    unfold verifyProof at h
    rw [if_pos hne] at h
    cases h
  · exfalso
    have he : inputs.length + 1 = 2 ^ 64 := by omega
    unfold verifyProofW Build.add Build.fit at h
    rw [if_neg hlt] at h
    cases b with
    | debug => cases h
    | release =>
      rw [he, Nat.mod_self] at h
      simp only [Option.bind_some] at h
      by_cases h0 : pvk.ic = []
      · rw [h0] at h
        cases h
      · rw [if_pos (fun h1 => h0 (List.length_eq_zero_iff.1 h1.symm))] at h
        cases h

/-- The circuit of the prover has as many inputs as the one of the key. -/
theorem numIn_small [DecidableEq G1] [DecidableEq G2] {R : Unit → Unit → Prop}
    {kc pc : Synth F Unit} (h : SShape R kc pc) {w : Worker} {g1 : G1} {g2 : G2} {α β γ δ τ : F} {params : Parameters G1 G2}
    (hk : generateParameters w kc g1 g2 α β γ δ τ = Res.ok params)
    (hsz : ∀ t, KeyTrace kc t → (consOf t).length + numIn t + 1 ≤ 2 ^ 32 ∧ numIn t + 1 + numAux t < 2 ^ 32)
    {t : List (Ev F)} (ht : ProverTrace pc t) : numIn t < 2 ^ 32 := by
  obtain ⟨t0, ht0, _⟩ := C29_crs w kc g1 g2 α β γ δ τ params hk
  have hq := ofTrace_same (pair_traces h ht0 ht)
  have hn : numIn t0 + 1 = numIn t + 1 := congrArg Qap.n hq
  have := (hsz t0 ht0).2
  omega

/-- C90: the whole way on machines: the third party of `C89_completeness` verifies with words as well, and accepts. -/
theorem C90_completeness [DecidableEq G1] [DecidableEq G2] {c1 : PointCodec G1} {c2 : PointCodec G2} {size : ℕ} {R : Unit → Unit → Prop}
    {kc pc : Synth F Unit} {g1 : G1} {g2 : G2} {α β γ δ τ r s : F} {vk' : VerifyingKey G1 G2} {params' : Parameters G1 G2}
    {pf' : Proof G1 G2} (b : Build) (E : Engine F G1 G2 GT) (hsize : 0 < size) (h : SShape R kc pc) (hv1 : ∀ a : F, c1.Valid (a • g1))
    (hv2 : ∀ a : F, c2.Valid (a • g2))
    (hsz : ∀ t, KeyTrace kc t → (consOf t).length + numIn t + 1 ≤ 2 ^ 32 ∧ numIn t + 1 + numAux t < 2 ^ 32)
    (d : Deployment c1 c2 size kc pc g1 g2 α β γ δ τ r s vk' params' pf') (t : List (Ev F)) (ht : ProverTrace pc t)
    (hsat : Sat (witness t) t) :
    verifyProofW b E (prepareVerifyingKey E vk') pf' (inVals t) = some (.ok ()) := by
  have hn := numIn_small h (C89_genuine hsize h hv1 hv2 hsz d).2.1 hsz ht
  rw [C90_verify one_pos b E _ _ _ (by rw [ht.inputs_len]; omega)]
  exact (C89_completeness E hsize h hv1 hv2 hsz d t ht hsat).1

/-- C90: and rejects as in `C89_unsatisfied`. -/
theorem C90_unsatisfied [DecidableEq G1] [DecidableEq G2] {pc : Synth F Unit} (t : List (Ev F)) (ht : ProverTrace pc t)
    (hunsat : ¬ Sat (witness t) t) :
    ∃ bad : Finset F, bad.card ≤ 2 * (Qap.ofTrace t).m - 2 ∧
      ∀ (b : Build) (E : Engine F G1 G2 GT) (c1 : PointCodec G1) (c2 : PointCodec G2) (size : ℕ) (R : Unit → Unit → Prop) (kc : Synth F Unit)
        (g1 : G1) (g2 : G2) (α β γ δ τ r s : F) (vk' : VerifyingKey G1 G2) (params' : Parameters G1 G2) (pf' : Proof G1 G2), 0 < size →
        SShape R kc pc → g1 ≠ 0 → g2 ≠ 0 → (∀ a : F, c1.Valid (a • g1)) → (∀ a : F, c2.Valid (a • g2)) →
        (∀ t, KeyTrace kc t → (consOf t).length + numIn t + 1 ≤ 2 ^ 32 ∧ numIn t + 1 + numAux t < 2 ^ 32) →
        Deployment c1 c2 size kc pc g1 g2 α β γ δ τ r s vk' params' pf' → τ ∉ bad →
        verifyProofW b E (prepareVerifyingKey E vk') pf' (inVals t) = some (.error .invalidProof) := by
  obtain ⟨bad, h1, h2⟩ := C89_unsatisfied (G1 := G1) (G2 := G2) (GT := GT) t ht hunsat
  refine ⟨bad, h1, fun b E c1 c2 size R kc g1 g2 α β γ δ τ r s vk' params' pf' hsize h hg1 hg2 hv1 hv2 hsz d hτ => ?_⟩
  have hn := numIn_small h (C89_genuine hsize h hv1 hv2 hsz d).2.1 hsz ht
  rw [C90_verify one_pos b E _ _ _ (by rw [ht.inputs_len]; omega)]
  exact h2 E c1 c2 size R kc g1 g2 α β γ δ τ r s vk' params' pf' hsize h hg1 hg2 hv1 hv2 hsz d hτ

/-- An item of a batch that came from an honest party: a proof made on a machine and passed on, with the inputs of the circuit, for the
verifying key `vk'` that the verifier has read.  Specification of a scenario, no counterpart in the code. -/
def Item.Honest [DecidableEq G1] [DecidableEq G2] (c1 : PointCodec G1) (c2 : PointCodec G2) (vk' : VerifyingKey G1 G2)
    (it : Item F G1 G2) : Prop :=
  ∃ (size : ℕ) (R : Unit → Unit → Prop) (kc pc : Synth F Unit) (g1 : G1) (g2 : G2) (α β γ δ τ r s : F) (params' : Parameters G1 G2)
    (t : List (Ev F)), 0 < size ∧ SShape R kc pc ∧ (∀ a : F, c1.Valid (a • g1)) ∧ (∀ a : F, c2.Valid (a • g2)) ∧
    (∀ t, KeyTrace kc t → (consOf t).length + numIn t + 1 ≤ 2 ^ 32 ∧ numIn t + 1 + numAux t < 2 ^ 32) ∧
    Nonempty (Deployment c1 c2 size kc pc g1 g2 α β γ δ τ r s vk' params' it.proof) ∧ ProverTrace pc t ∧ Sat (witness t) t ∧
    it.inputs = inVals t

theorem Item.Honest.accepted [DecidableEq G1] [DecidableEq G2] {c1 : PointCodec G1} {c2 : PointCodec G2} {vk' : VerifyingKey G1 G2}
    {it : Item F G1 G2} (h : it.Honest c1 c2 vk') (E : Engine F G1 G2 GT) :
    it.verifySingle E (prepareVerifyingKey E vk') = some (.ok ()) ∧ it.inputs.length * 1 < 2 ^ 63 := by
  obtain ⟨size, R, kc, pc, g1, g2, α, β, γ, δ, τ, r, s, params', t, hsize, hsh, hv1, hv2, hsz, ⟨d⟩, ht, hsat, hin⟩ := h
  have hn := numIn_small hsh (C89_genuine hsize hsh hv1 hv2 hsz d).2.1 hsz ht
  unfold Item.verifySingle
  rw [hin, ht.inputs_len]
  exact ⟨(C89_completeness E hsize hsh hv1 hv2 hsz d t ht hsat).1, by omega⟩

/-- C90: a batch of proofs that were made and passed on by any number of parties is accepted on the machine, on one thread and on several,
if the generator yields enough weights that are not zero. -/
theorem C90_batch_completeness [DecidableEq G1] [DecidableEq G2] {c1 : PointCodec G1} {c2 : PointCodec G2} (b : Build)
    (E : Engine F G1 G2 GT) (vk' : VerifyingKey G1 G2) (v : BatchVerifier F G1 G2) (hv : ∀ it ∈ v.items, it.Honest c1 c2 vk') :
    (∀ tape, v.items.length ≤ (weights tape).length → v.verifyW b E tape vk' = some (.ok ())) ∧
      ∀ (tapes : ℕ → List F) (tree : ReduceTree), tree.size = (v.items.length + 7) / 8 →
        (∀ i < (v.items.length + 7) / 8, weights (tapes i) ≠ []) → v.verifyMulticoreW b E tapes tree vk' = some (.ok ()) := by
  have hin : ∀ it ∈ v.items, it.inputs.length * 1 < 2 ^ 63 := fun it h => ((hv it h).accepted E).2
  have hok := fun it h => ((hv it h).accepted E).1
  refine ⟨fun tape ht => ?_, fun tapes tree htree ht => ?_⟩
  · rw [C90_batch one_pos b E v tape vk' hin]
    exact C35_single E vk' v tape hok ht
  · rw [C90_multicore one_pos b E v tapes tree vk' hin]
    exact C35_multicore E vk' v tapes tree htree hok ht

/-- C90: one more proof, of whatever origin, that is not valid makes such a batch be rejected, for all weights. -/
theorem C90_batch_invalid [DecidableEq G1] [DecidableEq G2] {c1 : PointCodec G1} {c2 : PointCodec G2} (b : Build)
    (E : Engine F G1 G2 GT) (vk' : VerifyingKey G1 G2) (v : BatchVerifier F G1 G2) (k : ℕ) (bad : Item F G1 G2)
    (hk : v.items[k]? = some bad) (hbad : bad.verifySingle E (prepareVerifyingKey E vk') = some (.error .invalidProof))
    (hin : bad.inputs.length < 2 ^ 63) (hv : ∀ j it, j ≠ k → v.items[j]? = some it → it.Honest c1 c2 vk') :
    (∀ tape, v.items.length ≤ (weights tape).length → v.verifyW b E tape vk' = some (.error .invalidProof)) ∧
      ∀ (tapes : ℕ → List F) (tree : ReduceTree), tree.size = (v.items.length + 7) / 8 →
        (∀ i < (v.items.length + 7) / 8, weights (tapes i) ≠ []) →
        v.verifyMulticoreW b E tapes tree vk' = some (.error .invalidProof) := by
  have hall : ∀ it ∈ v.items, it.inputs.length * 1 < 2 ^ 63 := fun it h => by
    obtain ⟨j, hj⟩ := List.mem_iff_getElem?.1 h
    by_cases hjk : j = k
    · subst hjk
      cases hk.symm.trans hj
      omega
    · exact ((hv j it hjk hj).accepted E).2
  have hok := fun j it hjk hj => ((hv j it hjk hj).accepted E).1
  refine ⟨fun tape ht => ?_, fun tapes tree htree ht => ?_⟩
  · rw [C90_batch one_pos b E v tape vk' hall]
    exact C36_one_invalid E vk' v k bad hk hbad hok tape ht
  · rw [C90_multicore one_pos b E v tapes tree vk' hall]
    exact C36_one_invalid_multicore E vk' v k bad hk hbad hok tapes tree htree ht

/-! ### The hypotheses are met -/

/-- The proof that 25 is the square of 5 is accepted on the machine. -/
example (E : Engine DummyFr DummyFr DummyFr DummyFr) (b : Build) (w : Worker) (hw : w.multicore = true → w.threads < 2 ^ 63) :
    ∃ r s vk' params' pf', Nonempty (Deployment fieldCodec fieldCodec 32 (squareCircuit none) (claimCircuit (some 5) (some 25))
      (1 : DummyFr) (1 : DummyFr) 2 5 7 11 3 r s vk' params' pf') ∧
      verifyProofW b E (prepareVerifyingKey E vk') pf' [25] = some (.ok ()) ∧
      ([25] : List DummyFr).length + 1 = vk'.ic.length := by
  obtain ⟨r, s, vk', params', pf', ⟨d⟩⟩ := claim_deployment w hw 5 25
  have h := C90_completeness b E (by norm_num) (claimCircuit_shape none (some 5) (some 25)) (fun _ => trivial) (fun _ => trivial)
    square_small d (claimTrace 5 25) (claimTrace_prover 5 25) ((claimTrace_sat 5 25).2 (by decide +kernel))
  exact ⟨r, s, vk', params', pf', ⟨d⟩, h, (C90_accepts h (by decide)).1⟩

/-- A batch of nine copies of the proof that 25 is the square of 5. -/
example (E : Engine DummyFr DummyFr DummyFr DummyFr) (b : Build) (w : Worker) (hw : w.multicore = true → w.threads < 2 ^ 63) :
    ∃ vk' pf', (⟨pf', [25]⟩ : Item DummyFr DummyFr DummyFr).Honest fieldCodec fieldCodec vk' ∧
      (⟨List.replicate 9 ⟨pf', [25]⟩⟩ : BatchVerifier DummyFr DummyFr DummyFr).verifyW b E (List.replicate 9 4) vk' = some (.ok ()) ∧
      (⟨List.replicate 9 ⟨pf', [25]⟩⟩ : BatchVerifier DummyFr DummyFr DummyFr).verifyMulticoreW b E (fun _ => [4]) (.node .item .item) vk' =
        some (.ok ()) := by
  obtain ⟨r, s, vk', params', pf', ⟨d⟩⟩ := claim_deployment w hw 5 25
  have h : (⟨pf', [25]⟩ : Item DummyFr DummyFr DummyFr).Honest fieldCodec fieldCodec vk' :=
    ⟨32, _, _, _, 1, 1, 2, 5, 7, 11, 3, r, s, params', claimTrace 5 25, by norm_num, claimCircuit_shape none (some 5) (some 25),
      fun _ => trivial, fun _ => trivial, square_small, ⟨d⟩, claimTrace_prover 5 25, (claimTrace_sat 5 25).2 (by decide +kernel), rfl⟩
  obtain ⟨h1, h2⟩ := C90_batch_completeness b E vk' ⟨List.replicate 9 ⟨pf', [25]⟩⟩ (fun it hit => List.eq_of_mem_replicate hit ▸ h)
  exact ⟨vk', pf', h, h1 _ (by rw [List.length_replicate]; decide +kernel),
    h2 _ _ (by rw [List.length_replicate]; rfl) (fun _ _ => by decide +kernel)⟩

/-- One item in such a batch with the claim that the square is 24 has the batch rejected. -/
example (E : Engine DummyFr DummyFr DummyFr DummyFr) (b : Build) (w : Worker) (hw : w.multicore = true → w.threads < 2 ^ 63) :
    ∃ vk' pf', (⟨pf', [25]⟩ : Item DummyFr DummyFr DummyFr).Honest fieldCodec fieldCodec vk' ∧
      (⟨[⟨pf', [25]⟩, ⟨pf', [24]⟩, ⟨pf', [25]⟩]⟩ : BatchVerifier DummyFr DummyFr DummyFr).verifyW b E [4, 0, 5, 6] vk' =
        some (.error .invalidProof) ∧
      (⟨[⟨pf', [25]⟩, ⟨pf', [24]⟩, ⟨pf', [25]⟩]⟩ : BatchVerifier DummyFr DummyFr DummyFr).verifyMulticoreW b E (fun _ => [4])
        (.node .item .identity) vk' = some (.error .invalidProof) := by
  obtain ⟨r, s, vk', params', pf', ⟨d⟩⟩ := claim_deployment w hw 5 25
  have hsh := claimCircuit_shape none (some 5) (some 25)
  have h : (⟨pf', [25]⟩ : Item DummyFr DummyFr DummyFr).Honest fieldCodec fieldCodec vk' :=
    ⟨32, _, _, _, 1, 1, 2, 5, 7, 11, 3, r, s, params', claimTrace 5 25, by norm_num, hsh,
      fun _ => trivial, fun _ => trivial, square_small, ⟨d⟩, claimTrace_prover 5 25, (claimTrace_sat 5 25).2 (by decide +kernel), rfl⟩
  obtain ⟨hvk, hk, -⟩ := C89_genuine (by norm_num) hsh (fun _ => trivial) (fun _ => trivial) square_small d
  obtain ⟨params, hk', -, hs, -⟩ := square_storable d.worker
  have hpp : params = params' := by
    injection hk'.symm.trans hk with this
    injection this
  have hacc := (h.accepted E).1
  have hlen : vk'.ic.length = 2 := ((C32_verify E vk' pf' [25]).2.1.1 hacc).1.symm
  have hγ : vk'.gammaG2 ≠ 0 := by
    obtain ⟨t, -, -, he, -⟩ := C29_crs _ _ _ _ _ _ _ _ _ _ hk
    rw [hvk, he]
    show (7 : DummyFr) • (1 : DummyFr) ≠ 0
    decide +kernel
  have hic : vk'.ic.getD 1 0 ≠ 0 := by
    refine (hs _ (List.mem_cons_self ..)).1 _ ?_
    rw [hpp, ← hvk, List.getD_eq_getElem _ _ (by rw [hlen]; norm_num)]
    exact List.getElem_mem _
  have hbad : (⟨pf', [24]⟩ : Item DummyFr DummyFr DummyFr).verifySingle E (prepareVerifyingKey E vk') = some (.error .invalidProof) :=
    C32_changed_input E vk' pf' [25] 0 24 (by simp) hγ hic (by decide +kernel) hacc
  obtain ⟨h1, h2⟩ := C90_batch_invalid b E vk' ⟨[⟨pf', [25]⟩, ⟨pf', [24]⟩, ⟨pf', [25]⟩]⟩ 1 ⟨pf', [24]⟩ rfl hbad (by simp) (by
    intro j it hj hit
    rcases j with _ | _ | _ | j
    · cases hit; exact h
    · exact absurd rfl hj
    · cases hit; exact h
    · simp at hit)
  exact ⟨vk', pf', h, h1 _ (by show 3 ≤ _; decide +kernel), h2 _ _ (by show 1 = (3 + 7) / 8; norm_num) (fun _ _ => by decide +kernel)⟩

/-- Batches with items of the wrong length are refused on the machine, as they are without limits. -/
example (E : Engine DummyFr DummyFr DummyFr DummyFr) (b : Build) (vk : VerifyingKey DummyFr DummyFr) (hvk : vk.ic = [1, 2])
    (pf : Proof DummyFr DummyFr) (tapes : ℕ → List DummyFr) (tree : ReduceTree) :
    (⟨[⟨pf, [4]⟩, ⟨pf, [4, 5]⟩]⟩ : BatchVerifier DummyFr DummyFr DummyFr).verifyW b E (tapes 0) vk =
        some (.error .invalidVerifyingKey) ∧
      (⟨[⟨pf, [4]⟩, ⟨pf, [4, 5]⟩]⟩ : BatchVerifier DummyFr DummyFr DummyFr).verifyMulticoreW b E tapes tree vk =
        some (.error .invalidVerifyingKey) := by
  have hin : ∀ it ∈ ([⟨pf, [4]⟩, ⟨pf, [4, 5]⟩] : List (Item DummyFr DummyFr DummyFr)), it.inputs.length * 32 < 2 ^ 63 := by
    simp
  rw [C90_batch (size := 32) (by norm_num) b E _ _ vk hin, C90_multicore (size := 32) (by norm_num) b E _ _ _ vk hin]
  simp [BatchVerifier.verify, BatchVerifier.verifyMulticore, hvk]

end Bellman
