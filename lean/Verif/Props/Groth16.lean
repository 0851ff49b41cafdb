import Verif.Proofs.Groth16
import Mathlib.Data.Fintype.Card

/-!
# C30–C34: proving and verifying

`kc` is the circuit as given to key generation (`Circuit` without a witness), `pc` the same circuit with a witness: `SShape R kc pc`
says that both make the same calls (C18 proves this for the gadgets, and `squareCircuit_shape` for a whole circuit).
`ProverTrace pc t` says that `t` is the sequence of calls `pc.synthesize` makes against the prover; `witness t` is the resulting
assignment and `inVals t` the public inputs.  `Sat (witness t) t`: it satisfies all constraints.
-/

namespace Bellman

open PrimeField Polynomial Finset

set_option linter.unusedSectionVars false

variable {F G1 G2 GT : Type} [PrimeField F] [AddCommGroup G1] [AddCommGroup G2] [AddCommGroup GT]
  [Module F G1] [Module F G2] [Module F GT] [DecidableEq GT] [DecidableEq G1] [DecidableEq G2]

/-! ### C32 -/

/-- C32: the three outcomes of `verify_proof`; it never panics. -/
theorem C32_verify (E : Engine F G1 G2 GT) (vk : VerifyingKey G1 G2) (pf : Proof G1 G2) (xs : List F) :
    (verifyProof E (prepareVerifyingKey E vk) pf xs = some (.error .invalidVerifyingKey) ↔ xs.length + 1 ≠ vk.ic.length) ∧
    (verifyProof E (prepareVerifyingKey E vk) pf xs = some (.ok ()) ↔ xs.length + 1 = vk.ic.length ∧
      E.pairing pf.a pf.b = E.pairing vk.alphaG1 vk.betaG2 +
        E.pairing (∑ i ∈ range vk.ic.length, ((1 : F) :: xs).getD i 0 • vk.ic.getD i 0) vk.gammaG2 + E.pairing pf.c vk.deltaG2) ∧
    (verifyProof E (prepareVerifyingKey E vk) pf xs = some (.error .invalidProof) ↔ xs.length + 1 = vk.ic.length ∧
      E.pairing pf.a pf.b ≠ E.pairing vk.alphaG1 vk.betaG2 +
        E.pairing (∑ i ∈ range vk.ic.length, ((1 : F) :: xs).getD i 0 • vk.ic.getD i 0) vk.gammaG2 + E.pairing pf.c vk.deltaG2) := by
  change _ ∧ (_ ↔ _ ∧ Accepts E vk pf xs) ∧ (_ ↔ _ ∧ ¬ Accepts E vk pf xs)
  rcases verifyProof_cases E vk pf xs with ⟨h, e⟩ | ⟨h, h', e⟩ | ⟨h, h', e⟩ <;> rw [e] <;> simp [h]
  · exact h'
  · exact h'

/-- C32: a proof accepted for one list of inputs is rejected for every other list of the same length with a different combination
of the key's input elements. -/
theorem C32_other_inputs (E : Engine F G1 G2 GT) (vk : VerifyingKey G1 G2) (pf : Proof G1 G2) (xs ys : List F)
    (hγ : vk.gammaG2 ≠ 0) (hx : verifyProof E (prepareVerifyingKey E vk) pf xs = some (.ok ())) (hl : ys.length = xs.length)
    (hne : ∑ i ∈ range vk.ic.length, ((1 : F) :: ys).getD i 0 • vk.ic.getD i 0 ≠
      ∑ i ∈ range vk.ic.length, ((1 : F) :: xs).getD i 0 • vk.ic.getD i 0) :
    verifyProof E (prepareVerifyingKey E vk) pf ys = some (.error .invalidProof) := by
  obtain ⟨h1, h2⟩ := (verifyProof_ok E vk pf xs).1 hx
  rcases verifyProof_cases E vk pf ys with ⟨h, e⟩ | ⟨h, h', e⟩ | ⟨h, h', e⟩
  · exact absurd (by rw [hl]; exact h1) h
  · exfalso
    unfold Accepts at h2 h'
    rw [h2] at h'
    have := add_right_cancel h'
    have := add_left_cancel this
    rw [← sub_eq_zero, ← LinearMap.sub_apply, ← map_sub] at this
    rcases E.nondegenerate _ _ this with h0 | h0
    · exact hne (sub_eq_zero.1 h0).symm
    · exact hγ h0
  · exact e

/-- C32: in particular, with one input changed, if its key element is not the identity. -/
theorem C32_changed_input (E : Engine F G1 G2 GT) (vk : VerifyingKey G1 G2) (pf : Proof G1 G2) (xs : List F) (i : ℕ) (y : F)
    (hi : i < xs.length) (hγ : vk.gammaG2 ≠ 0) (hic : vk.ic.getD (i + 1) 0 ≠ 0) (hy : y ≠ xs.getD i 0)
    (hx : verifyProof E (prepareVerifyingKey E vk) pf xs = some (.ok ())) :
    verifyProof E (prepareVerifyingKey E vk) pf (xs.set i y) = some (.error .invalidProof) := by
  obtain ⟨h1, _⟩ := (verifyProof_ok E vk pf xs).1 hx
  refine C32_other_inputs E vk pf xs _ hγ hx (by simp) fun h => ?_
  rw [← sub_eq_zero, ← sum_sub_distrib, sum_eq_single (i + 1)] at h
  · rw [List.getD_cons_succ, List.getD_cons_succ, ← sub_smul] at h
    rw [List.getD_eq_getElem?_getD, List.getElem?_set_self hi, Option.getD_some] at h
    have : (y - xs.getD i 0) ≠ 0 := sub_ne_zero.2 hy
    exact hic ((smul_eq_zero.1 h).resolve_left this)
  · intro j _ hj
    cases j with
    | zero => simp
    | succ j =>
      rw [List.getD_cons_succ, List.getD_cons_succ, List.getD_eq_getElem?_getD, List.getElem?_set_ne (by omega),
        ← List.getD_eq_getElem?_getD, sub_self]
  · intro h0
    exact absurd (mem_range.2 (by omega)) h0

/-- C32: for given `A`, `B` and inputs of the right number, exactly one `C` is accepted. -/
theorem C32_unique_c (E : Engine F G1 G2 GT) (vk : VerifyingKey G1 G2) (A : G1) (B : G2) (xs : List F)
    (hl : xs.length + 1 = vk.ic.length) (hδ : vk.deltaG2 ≠ 0) :
    ∃! C : G1, verifyProof E (prepareVerifyingKey E vk) ⟨A, B, C⟩ xs = some (.ok ()) := by
  have hcyc : ∀ B : G2, ∃ b : F, B = b • vk.deltaG2 := fun B => E.g2_cyclic _ B hδ
  obtain ⟨b, hb⟩ := hcyc B
  obtain ⟨β, hβ⟩ := hcyc vk.betaG2
  obtain ⟨γ, hγ⟩ := hcyc vk.gammaG2
  refine ⟨b • A - β • vk.alphaG1 - γ • ∑ i ∈ range vk.ic.length, ((1 : F) :: xs).getD i 0 • vk.ic.getD i 0, ?_, ?_⟩
  · refine (verifyProof_ok E vk _ xs).2 ⟨hl, ?_⟩
    unfold Accepts
    simp only
    rw [hb, hβ, hγ]
    simp only [map_smul, map_sub, LinearMap.sub_apply, LinearMap.smul_apply]
    abel
  · intro C hC
    have := ((verifyProof_ok E vk _ xs).1 hC).2
    unfold Accepts at this
    simp only at this
    rw [hb, hβ, hγ] at this
    have h2 : E.pairing (C - (b • A - β • vk.alphaG1 - γ • ∑ i ∈ range vk.ic.length, ((1 : F) :: xs).getD i 0 • vk.ic.getD i 0))
        vk.deltaG2 = 0 := by
      simp only [map_smul, map_sub, LinearMap.sub_apply, LinearMap.smul_apply] at this ⊢
      rw [this]
      abel
    rcases E.nondegenerate _ _ h2 with h0 | h0
    · exact sub_eq_zero.1 h0
    · exact absurd h0 hδ

/-- A key with one public input over the field engine: all three outcomes occur, and the hypotheses of the other theorems hold. -/
example : let E := fieldEngine DummyFr
    let vk : VerifyingKey DummyFr DummyFr := ⟨2, 5, 5, 7, 11, 11, [3, 4]⟩
    verifyProof E (prepareVerifyingKey E vk) ⟨1, 116, 1⟩ [2] = some (.error .invalidProof) ∧
    verifyProof E (prepareVerifyingKey E vk) ⟨1, 109, 2⟩ [2] = some (.ok ()) ∧
    verifyProof E (prepareVerifyingKey E vk) ⟨1, 109, 2⟩ [2, 2] = some (.error .invalidVerifyingKey) ∧
    vk.gammaG2 ≠ 0 ∧ vk.deltaG2 ≠ 0 ∧ vk.ic.getD (0 + 1) 0 ≠ 0 := by
  simp only [C32_verify]
  decide +kernel

/-! ### C30 -/

/-- C30: whenever key generation and proving return `Ok` and the assignment satisfies the circuit, the verifier accepts the proof
for the circuit's public inputs: for all toxic waste, generators, blinding factors, pairing engines, thread counts, schedules. -/
theorem C30_completeness (E : Engine F G1 G2 GT) (w w' : Worker) {R : Unit → Unit → Prop} {kc pc : Synth F Unit}
    (h : SShape R kc pc) (g1 : G1) (g2 : G2) (α β γ δ τ r s : F) (params : Parameters G1 G2) (pf : Proof G1 G2)
    (hk : generateParameters w kc g1 g2 α β γ δ τ = Res.ok params) (hp : createProof w' pc params r s = Res.ok pf)
    (t : List (Ev F)) (ht : ProverTrace pc t) (hsat : Sat (witness t) t) :
    verifyProof E (prepareVerifyingKey E params.vk) pf (inVals t) = some (.ok ()) := by
  obtain ⟨t0, t', ht0, ht', hsame, hs, rfl, hγ, hδ, hR, hsm, rfl⟩ := prove_spec h hk hp
  cases ht.unique ht'
  have hlen : ((Qap.ofTrace t).crs g1 g2 α β γ δ τ).vk.ic.length = numIn t + 1 := by simp [Qap.crs]; rfl
  refine (verifyProof_ok E _ _ _).2 ⟨by rw [hlen, ht.inputs_len], ?_⟩
  refine (accepts_iff E _ g1 g2 α β γ δ τ hγ hδ (witness t) (witness t) _ r s _ fun i _ => rfl).2 ?_
  have hg := Qap.ofTrace_good t hsm
  rw [Qap.proverH_sat hg hs _ (satBy_of_sat.2 hsat)]
  simp


/-! ### C31 -/

/-- C31, exact condition: `create_proof` on the circuit's parameters returns `Ok` if and only if the parameters are `Ready` for the
witness, the circuit is small enough for the field and for the transform.  The blinding factors do not matter. -/
theorem C31_outcome (w : Worker) {R : Unit → Unit → Prop} {kc pc : Synth F Unit} (h : SShape R kc pc) (g1 : G1) (g2 : G2)
    (α β γ δ τ r s : F) (t0 t : List (Ev F)) (ht0 : KeyTrace kc t0) (ht : ProverTrace pc t)
    (n32 : numIn t + 1 < 2 ^ 32) (k32 : numAux t < 2 ^ 32) (m32 : (Qap.ofTrace t).m ≤ 2 ^ 32) :
    (∃ pf, createProof w pc ((Qap.ofTrace t0).crs g1 g2 α β γ δ τ) r s = Res.ok pf) ↔
      (Qap.ofTrace t).Ready g1 g2 α β δ τ (witness t) ((Qap.ofTrace t).proverH (witness t)) ∧
        (Qap.ofTrace t).rows.length ≤ 2 ^ (S F - 1) ∧ w.FftFits (Nat.clog 2 (Qap.ofTrace t).rows.length) := by
  have hq := ofTrace_same (pair_traces h ht0 ht)
  have hs : (Qap.ofTrace t).InScope := by rw [← hq]; exact ht0.qapScope
  rw [hq]
  obtain ⟨p, hp⟩ := ht.assign (ht0.inScope.same (pair_traces h ht0 ht))
  have ha := ht.assigned hp
  constructor
  · rintro ⟨pf, hok⟩
    obtain ⟨h1, h2, h3, _⟩ := createProof_ok hp ha hs hok
    exact ⟨h1, h2, h3⟩
  · rintro ⟨h1, h2, h3⟩
    obtain ⟨_, _, _, _, _, _, _, _, hA⟩ := answers_of_ready w ha hs g1 g2 α β γ δ τ h1 h2 h3 n32 k32 m32
    exact ⟨_, createProof_ok_of w pc _ r s p _ _ _ _ _ _ _ _ hp hA h1.δ1 h1.δ2⟩

/-- C31: an error that the circuit returns when it runs on the prover's assignment, a missing witness for example, is passed on. -/
theorem C31_synthesis_error (w : Worker) (circuit : Synth F Unit) (params : Parameters G1 G2) (r s : F) (e : SynthesisError)
    (p : ProvingAssignment F)
    (h : circuit.run.run ProvingAssignment.impl ((ProvingAssignment.new : ProvingAssignment F).allocInput (.ok 1)).2 = some (.error e, p)) :
    createProof w circuit params r s = Res.err e := by
  have h : synthesizeWith ProvingAssignment.impl circuit ((ProvingAssignment.new : ProvingAssignment F).allocInput (.ok 1)).2 = Res.err e := by
    unfold synthesizeWith
    rw [h]
    rfl
  have h : assign? circuit = Res.err e := by
    unfold assign?
    simp only [h]
    rfl
  unfold createProof
  rw [h]
  rfl

/-- A square without the number that is squared. -/
example (w : Worker) (params : Parameters DummyFr DummyFr) (r s : DummyFr) :
    createProof w (squareCircuit none) params r s = Res.err .assignmentMissing :=
  C31_synthesis_error w _ params r s _ _ rfl

/-- C31: if no variable's coefficients cancel, then outside a set of at most `2(n+k)(m−1) + m + 1` secrets `τ`, depending on the
circuit only, everything the prover can synthesize can be proved, whatever the other toxic waste, the blinding and the worker. -/
theorem C31_regular_trace {R : Unit → Unit → Prop} {kc : Synth F Unit} (t0 : List (Ev F)) (ht0 : KeyTrace kc t0)
    (hnc : (Qap.ofTrace t0).NoCancel) (n32 : numIn t0 + 1 < 2 ^ 32) (k32 : numAux t0 < 2 ^ 32)
    (m32 : (Qap.ofTrace t0).m ≤ 2 ^ 31) :
    ∃ bad : Finset F, bad.card ≤ 2 * (numIn t0 + 1 + numAux t0) * ((Qap.ofTrace t0).m - 1) + (Qap.ofTrace t0).m + 1 ∧
      ∀ τ ∉ bad, ∀ (w w' : Worker) (pc : Synth F Unit) (g1 : G1) (g2 : G2) (α β γ δ r s : F) (params : Parameters G1 G2),
        SShape R kc pc → (∃ t, ProverTrace pc t) → g1 ≠ 0 → g2 ≠ 0 →
        generateParameters w kc g1 g2 α β γ δ τ = Res.ok params →
        ∃ pf, createProof w' pc params r s = Res.ok pf := by
  classical
  set q := Qap.ofTrace t0 with hq
  by_cases hsm : q.rows.length ≤ 2 ^ (S F - 1)
  swap
  · refine ⟨∅, by simp, fun τ _ w w' pc g1 g2 α β γ δ r s params _ _ _ _ hk => ?_⟩
    obtain ⟨t', ht', _, _, _, _, _, hsm'⟩ := C29_crs w kc g1 g2 α β γ δ τ params hk
    rw [ht'.unique ht0] at hsm'
    exact absurd hsm' hsm
  have hg : q.Good (Nat.clog 2 q.rows.length) := Qap.ofTrace_good t0 hsm
  have hm := hg.m
  have hdeg : ∀ f, (q.interp f).natDegree ≤ q.m - 1 := fun f => by
    rw [hm]; exact natDegree_le_of_degree_lt (Qap.interp_degree hg f)
  have hroots : ∀ f, (q.interp f).roots.toFinset.card ≤ q.m - 1 := fun f =>
    (Multiset.toFinset_card_le _).trans ((card_roots' _).trans (hdeg f))
  have hmpos : 0 < q.m := by rw [hm]; positivity
  have hZ0 : q.Z ≠ 0 := (monic_X_pow_sub_C (1 : F) hmpos.ne').ne_zero
  have hZdeg : q.Z.natDegree = q.m := natDegree_X_pow_sub_C
  let bad : Finset F := q.vars.toFinset.biUnion (fun x => (q.u x).roots.toFinset ∪ (q.v x).roots.toFinset) ∪ q.Z.roots.toFinset ∪ {0}
  refine ⟨bad, ?_, ?_⟩
  · have h1 : (q.vars.toFinset.biUnion fun x => (q.u x).roots.toFinset ∪ (q.v x).roots.toFinset).card ≤
        (numIn t0 + 1 + numAux t0) * (2 * (q.m - 1)) := by
      refine (card_biUnion_le_card_mul _ _ (2 * (q.m - 1)) fun x _ => ?_).trans ?_
      · refine (card_union_le _ _).trans ?_
        have h1 := hroots (q.entry (·.1) x)
        have h2 := hroots (q.entry (·.2.1) x)
        unfold Qap.u Qap.v
        omega
      · refine Nat.mul_le_mul_right _ ((List.toFinset_card_le _).trans ?_)
        unfold Qap.vars
        simp only [List.length_append, List.length_map, List.length_range]
        exact le_refl _
    have h2 : q.Z.roots.toFinset.card ≤ q.m := (Multiset.toFinset_card_le _).trans ((card_roots' _).trans hZdeg.le)
    have h3 := card_union_le (q.vars.toFinset.biUnion (fun x => (q.u x).roots.toFinset ∪ (q.v x).roots.toFinset) ∪ q.Z.roots.toFinset) {0}
    have h4 := card_union_le (q.vars.toFinset.biUnion (fun x => (q.u x).roots.toFinset ∪ (q.v x).roots.toFinset)) q.Z.roots.toFinset
    have h5 : (numIn t0 + 1 + numAux t0) * (2 * (q.m - 1)) = 2 * (numIn t0 + 1 + numAux t0) * (q.m - 1) := by ring
    rw [card_singleton] at h3
    exact h3.trans (by omega)
  · intro τ hτ w w' pc g1 g2 α β γ δ r s params h hw hg1 hg2 hk
    simp only [bad, mem_union, mem_biUnion, not_or, mem_singleton, not_exists, not_and, List.mem_toFinset, Multiset.mem_toFinset] at hτ
    obtain ⟨⟨hτ1, hτ2⟩, hτ0⟩ := hτ
    obtain ⟨t', ht', _, rfl, hγ, hδ, hl, _⟩ := C29_crs w kc g1 g2 α β γ δ τ params hk
    cases ht'.unique ht0
    obtain ⟨t, ht⟩ := hw
    have hsame := pair_traces h ht0 ht
    have hqq := ofTrace_same hsame
    refine (C31_outcome w' h g1 g2 α β γ δ τ r s t0 t ht0 ht (by rw [← Ev.Same.numIn hsame]; exact n32)
      (by rw [← Ev.Same.numAux hsame]; exact k32) (by rw [← hqq]; exact m32.trans (by norm_num))).2 ?_
    rw [← hqq]
    have hZτ : q.Z.eval τ ≠ 0 := fun h0 => hτ2 ((mem_roots hZ0).2 h0)
    have hint : ∀ (sel : Row F → LC F) (x : Var), (∃ r ∈ q.rows, (sel r).coeffOf x ≠ 0) → q.interp (q.entry sel x) ≠ 0 := by
      rintro sel x ⟨r, hr, hne⟩ h0
      obtain ⟨j, hj, hjr⟩ := List.getElem_of_mem hr
      have he := Qap.interp_eval hg (q.entry sel x) j (lt_of_lt_of_le hj hg.len)
      rw [h0, eval_zero] at he
      unfold Qap.entry at he
      rw [List.getElem?_eq_getElem hj, hjr] at he
      exact hne he.symm
    have hu : ∀ x ∈ q.vars, q.Uses (·.1) x → (q.u x).eval τ ≠ 0 := fun x hx hux h0 =>
      (hτ1 x hx).1 ((mem_roots (hint _ x ((hnc x hx).1 hux))).2 h0)
    have hv : ∀ x ∈ q.vars, q.Uses (·.2.1) x → (q.v x).eval τ ≠ 0 := fun x hx hux h0 =>
      (hτ1 x hx).2 ((mem_roots (hint _ x ((hnc x hx).2 hux))).2 h0)
    refine ⟨⟨fun x hx hux => smul_ne_zero (hu x hx hux) hg1, fun x hx hux => smul_ne_zero (hv x hx hux) hg1,
      fun x hx hux => smul_ne_zero (hv x hx hux) hg2, fun i hi h0 => absurd h0 ?_, fun i hi h0 => absurd h0 ?_,
      smul_ne_zero hδ hg1, smul_ne_zero hδ hg2⟩, hsm, ?_⟩
    · exact smul_ne_zero (div_ne_zero (mul_ne_zero (pow_ne_zero _ hτ0) hZτ) hδ) hg1
    · exact hl _ (List.mem_map.2 ⟨i, List.mem_range.2 hi, rfl⟩)
    · left
      have : 2 ^ Nat.clog 2 q.rows.length ≤ 2 ^ 31 := by
        rw [← show q.m = 2 ^ Nat.clog 2 q.rows.length from rfl]; exact m32
      have := (Nat.pow_le_pow_iff_right (by norm_num : 1 < 2)).1 this
      exact Nat.lt_of_le_of_lt this (by norm_num)

/-- C31: if no variable's coefficients cancel, then outside a set of at most `2(n+k)(m−1) + m + 1` secrets `τ`, depending on the
circuit only, every complete witness can be proved, whatever the other toxic waste, the blinding and the worker. -/
theorem C31_regular {R : Unit → Unit → Prop} {kc : Synth F Unit} (t0 : List (Ev F)) (ht0 : KeyTrace kc t0)
    (hnc : (Qap.ofTrace t0).NoCancel) (n32 : numIn t0 + 1 < 2 ^ 32) (k32 : numAux t0 < 2 ^ 32)
    (m32 : (Qap.ofTrace t0).m ≤ 2 ^ 31) :
    ∃ bad : Finset F, bad.card ≤ 2 * (numIn t0 + 1 + numAux t0) * ((Qap.ofTrace t0).m - 1) + (Qap.ofTrace t0).m + 1 ∧
      ∀ τ ∉ bad, ∀ (w w' : Worker) (pc : Synth F Unit) (g1 : G1) (g2 : G2) (α β γ δ r s : F) (params : Parameters G1 G2),
        SShape R kc pc → WitnessOk pc.run → g1 ≠ 0 → g2 ≠ 0 →
        generateParameters w kc g1 g2 α β γ δ τ = Res.ok params →
        ∃ pf, createProof w' pc params r s = Res.ok pf := by
  obtain ⟨bad, h1, h2⟩ := C31_regular_trace (G1 := G1) (G2 := G2) (R := R) t0 ht0 hnc n32 k32 m32
  exact ⟨bad, h1, fun τ hτ w w' pc g1 g2 α β γ δ r s params h hw => h2 τ hτ w w' pc g1 g2 α β γ δ r s params h
    (proverTrace_of_witness h ht0 hw)⟩

/-- C31, the other direction: a variable that is written in an `a` or `b` part, but whose coefficients cancel in every constraint,
makes proving impossible for every witness, although key generation may succeed. -/
theorem C31_cancel {R : Unit → Unit → Prop} {kc pc : Synth F Unit} (h : SShape R kc pc) (w w' : Worker) (g1 : G1) (g2 : G2)
    (α β γ δ τ r s : F) (t0 : List (Ev F)) (ht0 : KeyTrace kc t0) (x : Var) (hx : x ∈ (Qap.ofTrace t0).vars)
    (hc : (Qap.ofTrace t0).Uses (·.1) x ∧ (∀ r ∈ (Qap.ofTrace t0).rows, r.1.coeffOf x = 0) ∨
      (Qap.ofTrace t0).Uses (·.2.1) x ∧ (∀ r ∈ (Qap.ofTrace t0).rows, r.2.1.coeffOf x = 0))
    (params : Parameters G1 G2) (hk : generateParameters w kc g1 g2 α β γ δ τ = Res.ok params) (pf : Proof G1 G2) :
    createProof w' pc params r s ≠ Res.ok pf := by
  intro hok
  obtain ⟨t0', t, ht0', _, hsame, _, _, _, _, hR, _, _⟩ := prove_spec h hk hok
  cases ht0.unique ht0'
  have hz : ∀ sel : Row F → LC F, (∀ r ∈ (Qap.ofTrace t0).rows, (sel r).coeffOf x = 0) →
      (Qap.ofTrace t0).interp ((Qap.ofTrace t0).entry sel x) = 0 := by
    intro sel hz
    have : (Qap.ofTrace t0).entry sel x = 0 := by
      funext j
      unfold Qap.entry
      split
      · rename_i r hr
        exact hz r (List.mem_of_getElem? hr)
      · rfl
    rw [this]
    exact map_zero _
  rw [← ofTrace_same hsame] at hR
  rcases hc with ⟨hu, h0⟩ | ⟨hu, h0⟩
  · have := hR.a x hx hu
    unfold Qap.u at this
    rw [hz _ h0, eval_zero, zero_smul] at this
    exact this rfl
  · have := hR.b1 x hx hu
    unfold Qap.v at this
    rw [hz _ h0, eval_zero, zero_smul] at this
    exact this rfl

/-! ### C33 -/

/-- C33: an assignment that violates a constraint is rejected for all but at most `2m − 2` values of the secret `τ`.  The exceptional
set depends on the assignment only: not on the other toxic waste, the generators, the blinding, the engine or the workers. -/
theorem C33_unsatisfied {pc : Synth F Unit} (t : List (Ev F)) (ht : ProverTrace pc t) (hunsat : ¬ Sat (witness t) t) :
    ∃ bad : Finset F, bad.card ≤ 2 * (Qap.ofTrace t).m - 2 ∧
      ∀ (E : Engine F G1 G2 GT) (w w' : Worker) (R : Unit → Unit → Prop) (kc : Synth F Unit) (g1 : G1) (g2 : G2) (α β γ δ τ r s : F)
        (params : Parameters G1 G2) (pf : Proof G1 G2), SShape R kc pc → g1 ≠ 0 → g2 ≠ 0 →
        generateParameters w kc g1 g2 α β γ δ τ = Res.ok params → createProof w' pc params r s = Res.ok pf → τ ∉ bad →
        verifyProof E (prepareVerifyingKey E params.vk) pf (inVals t) = some (.error .invalidProof) := by
  classical
  set q := Qap.ofTrace t with hq
  set z := witness t with hz
  by_cases hex : q.rows.length ≤ 2 ^ (S F - 1) ∧ q.InScope
  swap
  · refine ⟨∅, by simp, fun E w w' R kc g1 g2 α β γ δ τ r s params pf h _ _ hk hp _ => ?_⟩
    obtain ⟨_, t', _, ht', _, hs, _, _, _, _, hsm, _⟩ := prove_spec h hk hp
    cases ht.unique ht'
    exact absurd ⟨hsm, hs⟩ hex
  obtain ⟨hsm, hs⟩ := hex
  have hg : q.Good (Nat.clog 2 q.rows.length) := Qap.ofTrace_good t hsm
  set P : F[X] := q.A z * q.B z - q.Cc z - q.proverH z * q.Z with hP
  have hP0 : P ≠ 0 := by
    intro h0
    refine hunsat (satBy_of_sat.1 ((Qap.satBy_iff hg hs z).2 fun j hj => ?_))
    rw [hP, sub_eq_zero] at h0
    rw [h0, eval_mul]
    have : (q.ω ^ j) ^ q.m = 1 := by rw [hg.m, ← pow_mul, Nat.mul_comm, pow_mul, hg.prim.pow_eq_one, one_pow]
    unfold Qap.Z
    rw [eval_sub, eval_pow, eval_X, this, eval_one, sub_self, mul_zero]
  have hdeg : P.natDegree ≤ 2 * q.m - 2 := by
    have hA := natDegree_le_of_degree_lt (Qap.A_degree hg z)
    have hB := natDegree_le_of_degree_lt (Qap.B_degree hg z)
    have hC := natDegree_le_of_degree_lt (Qap.Cc_degree hg z)
    rw [← hg.m] at hA hB hC
    have h1 : (q.A z * q.B z).natDegree ≤ 2 * q.m - 2 := (natDegree_mul_le).trans (by omega)
    have h2 : (q.proverH z * q.Z).natDegree ≤ 2 * q.m - 2 := by
      rcases Qap.proverH_natDegree (q := q) z with h | h
      · exact h
      · rw [h, zero_mul, natDegree_zero]; omega
    exact (natDegree_sub_le_of_le (natDegree_sub_le_of_le h1 (by omega : (q.Cc z).natDegree ≤ 2 * q.m - 2)) h2).trans (by simp)
  refine ⟨P.roots.toFinset, (Multiset.toFinset_card_le _).trans ((card_roots' _).trans hdeg), ?_⟩
  intro E w w' R kc g1 g2 α β γ δ τ r s params pf h hg1 hg2 hk hp hτ
  obtain ⟨t0, t', ht0, ht', hsame, _, rfl, hγ, hδ, _, _, rfl⟩ := prove_spec h hk hp
  cases ht.unique ht'
  have hlen : ((Qap.ofTrace t).crs g1 g2 α β γ δ τ).vk.ic.length = numIn t + 1 := by simp [Qap.crs]; rfl
  have hnot : ¬ Accepts E ((Qap.ofTrace t).crs g1 g2 α β γ δ τ).vk
      ((Qap.ofTrace t).proof g1 g2 α β δ τ (witness t) ((Qap.ofTrace t).proverH (witness t)) r s) (inVals t) := by
    rw [accepts_iff E _ g1 g2 α β γ δ τ hγ hδ (witness t) (witness t) _ r s _ fun i _ => rfl, sub_self, add_zero]
    intro h0
    rcases smul_eq_zero.1 h0 with h0 | h0
    · exact hτ (Multiset.mem_toFinset.2 ((mem_roots hP0).2 h0))
    · rcases E.nondegenerate _ _ h0 with h0 | h0
      · exact hg1 h0
      · exact hg2 h0
  rcases verifyProof_cases E _ _ (inVals t) with ⟨hl, _⟩ | ⟨_, hA, _⟩ | ⟨_, _, e⟩
  · exact absurd (by rw [hlen, ht.inputs_len]) hl
  · exact absurd hA hnot
  · exact e

/-! ### C34 -/

/-- C34: two satisfying assignments with the same public inputs.  There is a bijection of the blinding pairs under which the two
provers produce the same proofs. -/
theorem C34_bijection (w w' w'' : Worker) {R R' : Unit → Unit → Prop} {kc pc pc' : Synth F Unit} (h : SShape R kc pc)
    (h' : SShape R' kc pc') (g1 : G1) (g2 : G2) (α β γ δ τ : F) (params : Parameters G1 G2)
    (hk : generateParameters w kc g1 g2 α β γ δ τ = Res.ok params)
    (t t' : List (Ev F)) (ht : ProverTrace pc t) (ht' : ProverTrace pc' t') (hs : Sat (witness t) t) (hs' : Sat (witness t') t')
    (hin : inVals t = inVals t')
    (hok : ∃ r s pf, createProof w' pc params r s = Res.ok pf) (hok' : ∃ r s pf, createProof w'' pc' params r s = Res.ok pf) :
    ∃ e : F × F ≃ F × F, ∀ x : F × F, createProof w' pc params x.1 x.2 = createProof w'' pc' params (e x).1 (e x).2 := by
  obtain ⟨r0, s0, pf0, hp0⟩ := hok
  obtain ⟨r1, s1, pf1, hp1⟩ := hok'
  obtain ⟨t0, ht0, hsame, hsc, hδ, hsm, val⟩ := prove_all h hk hp0 ht
  obtain ⟨t0', ht0', hsame', _, _, _, val'⟩ := prove_all h' hk hp1 ht'
  rw [← ht0.unique ht0'] at hsame'
  have hqq : Qap.ofTrace t' = Qap.ofTrace t := (ofTrace_same hsame').symm.trans (ofTrace_same hsame)
  rw [hqq] at val'
  have hs'' : (Qap.ofTrace t).SatBy (witness t') := by rw [← hqq]; exact satBy_of_sat.2 hs'
  generalize hq : Qap.ofTrace t = q at *
  have hg : q.Good (Nat.clog 2 q.rows.length) := by rw [← hq]; exact Qap.ofTrace_good t (by rw [hq]; exact hsm)
  have hsat := Qap.proverH_sat hg hsc (witness t) (by rw [← hq]; exact satBy_of_sat.2 hs)
  have hsat' := Qap.proverH_sat hg hsc (witness t') hs''
  have hpub : q.pub α β τ (witness t) = q.pub α β τ (witness t') := by
    unfold Qap.pub
    refine sum_congr rfl fun i _ => ?_
    congr 1
    show ((1 : F) :: inVals t).getD i 0 = ((1 : F) :: inVals t').getD i 0
    rw [hin]
  refine ⟨(Equiv.addRight (((q.A (witness t)).eval τ - (q.A (witness t')).eval τ) / δ)).prodCongr
    (Equiv.addRight (((q.B (witness t)).eval τ - (q.B (witness t')).eval τ) / δ)), fun x => ?_⟩
  rw [val, val']
  exact congrArg Res.ok (proof_shift q g1 g2 α β δ τ hδ _ _ _ _ hsat hsat' hpub x.1 x.2)

/-- C34: hence every proof is produced by the same number of blinding pairs from either assignment: with uniform blinding, the
proof's distribution does not depend on the witness. -/
theorem C34_distribution (w w' w'' : Worker) {R R' : Unit → Unit → Prop} {kc pc pc' : Synth F Unit} (h : SShape R kc pc)
    (h' : SShape R' kc pc') (g1 : G1) (g2 : G2) (α β γ δ τ : F) (params : Parameters G1 G2)
    (hk : generateParameters w kc g1 g2 α β γ δ τ = Res.ok params)
    (t t' : List (Ev F)) (ht : ProverTrace pc t) (ht' : ProverTrace pc' t') (hs : Sat (witness t) t) (hs' : Sat (witness t') t')
    (hin : inVals t = inVals t')
    (hok : ∃ r s pf, createProof w' pc params r s = Res.ok pf) (hok' : ∃ r s pf, createProof w'' pc' params r s = Res.ok pf)
    (out : Res (Proof G1 G2)) :
    Nat.card {x : F × F // createProof w' pc params x.1 x.2 = out} = Nat.card {x : F × F // createProof w'' pc' params x.1 x.2 = out} := by
  obtain ⟨e, he⟩ := C34_bijection w w' w'' h h' g1 g2 α β γ δ τ params hk t t' ht ht' hs hs' hin hok hok'
  exact Nat.card_congr (e.subtypeEquiv fun x => by rw [he])

/-- C34, simulation: every pair `(A, B)` of group elements occurs for exactly one blinding pair, and then `C` is the unique element
the verifier accepts for the public inputs (`C32_unique_c`).  So a proof is a uniform pair together with an element determined by the
pair, the verifying key and the public inputs: nothing else about the witness enters. -/
theorem C34_simulation (E : Engine F G1 G2 GT) (w w' : Worker) {R : Unit → Unit → Prop} {kc pc : Synth F Unit} (h : SShape R kc pc)
    (g1 : G1) (g2 : G2) (α β γ δ τ : F) (params : Parameters G1 G2) (hk : generateParameters w kc g1 g2 α β γ δ τ = Res.ok params)
    (t : List (Ev F)) (ht : ProverTrace pc t) (hs : Sat (witness t) t) (hok : ∃ r s pf, createProof w' pc params r s = Res.ok pf)
    (A : G1) (B : G2) (C : G1) :
    (∃! x : F × F, createProof w' pc params x.1 x.2 = Res.ok ⟨A, B, C⟩) ↔
      verifyProof E (prepareVerifyingKey E params.vk) ⟨A, B, C⟩ (inVals t) = some (.ok ()) := by
  obtain ⟨r0, s0, pf0, hp0⟩ := hok
  constructor
  · rintro ⟨x, hx, _⟩
    exact C30_completeness E w w' h g1 g2 α β γ δ τ x.1 x.2 params _ hk hx t ht hs
  · intro hv
    have hval : ∀ r s, ∃ pf, createProof w' pc params r s = Res.ok pf ∧
        pf = (Qap.ofTrace t).proof g1 g2 α β δ τ (witness t) ((Qap.ofTrace t).proverH (witness t)) r s := by
      obtain ⟨_, _, _, _, _, _, val⟩ := prove_all h hk hp0 ht
      exact fun r s => ⟨_, val r s, rfl⟩
    obtain ⟨t0, t1, ht0, ht1, hsame, hsc, hpar, hγ, hδ, hR, hsm, _⟩ := prove_spec h hk hp0
    cases ht.unique ht1
    have hg1 : g1 ≠ 0 := fun h0 => hR.δ1 (by rw [h0, smul_zero])
    have hg2 : g2 ≠ 0 := fun h0 => hR.δ2 (by rw [h0, smul_zero])
    obtain ⟨a, ha⟩ := E.g1_cyclic g1 A hg1
    obtain ⟨b, hb⟩ := E.g2_cyclic g2 B hg2
    set q := Qap.ofTrace t with hq
    set z := witness t with hz
    have inj : ∀ x y : F, ∀ g : G1, g ≠ 0 → x • g = y • g → x = y := fun x y g hg h0 => by
      rw [← sub_eq_zero, ← sub_smul] at h0
      exact sub_eq_zero.1 ((smul_eq_zero.1 h0).resolve_right hg)
    have inj' : ∀ x y : F, ∀ g : G2, g ≠ 0 → x • g = y • g → x = y := fun x y g hg h0 => by
      rw [← sub_eq_zero, ← sub_smul] at h0
      exact sub_eq_zero.1 ((smul_eq_zero.1 h0).resolve_right hg)
    refine ⟨((a - α - (q.A z).eval τ) / δ, (b - β - (q.B z).eval τ) / δ), ?_, ?_⟩
    · obtain ⟨pf, hok, hpf⟩ := hval ((a - α - (q.A z).eval τ) / δ) ((b - β - (q.B z).eval τ) / δ)
      have hacc := C30_completeness E w w' h g1 g2 α β γ δ τ _ _ params _ hk hok t ht hs
      have hA : pf.a = A := by
        rw [hpf, ha]; unfold Qap.proof; simp only; congr 1; field_simp; ring
      have hB : pf.b = B := by
        rw [hpf, hb]; unfold Qap.proof; simp only; congr 1; field_simp; ring
      have hlen := ((verifyProof_ok E params.vk _ _).1 hv).1
      have hδ2 : params.vk.deltaG2 ≠ 0 := by rw [hpar]; exact hR.δ2
      obtain ⟨c0, _, huniq⟩ := C32_unique_c E params.vk A B (inVals t) hlen hδ2
      rcases pf with ⟨pa, pb, pcc⟩
      simp only at hA hB
      subst hA hB
      rw [show C = pcc from (huniq C hv).trans (huniq pcc hacc).symm]
      exact hok
    · rintro ⟨r, s⟩ hx
      obtain ⟨pf, hok, hpf⟩ := hval r s
      have hx : createProof w' pc params r s = _ := hx
      rw [hx] at hok
      have hok := Res.ok_inj.1 hok
      rw [hpf] at hok
      have h1 : A = (α + (q.A z).eval τ + r * δ) • g1 := congrArg Proof.a hok
      have h2 : B = (β + (q.B z).eval τ + s * δ) • g2 := congrArg Proof.b hok
      have k1 := inj _ _ _ hg1 (ha.symm.trans h1)
      have k2 := inj' _ _ _ hg2 (hb.symm.trans h2)
      rw [k1, k2]
      congr 1
      · field_simp; ring
      · field_simp; ring


/-! ### Concrete cases -/

/-- `squareCircuit` (Props/Core.lean) with an arbitrary claim for the public input. -/
def claimCircuit (x y : Option DummyFr) : Synth DummyFr Unit := do
  let (vx, _) ← Synth.alloc "x" (Synth.optGet x)
  let (vy, _) ← Synth.allocInput "y" (Synth.optGet y)
  Synth.enforce "square" (· + vx) (fun lc => lc + vx + ((0 : DummyFr), vy)) (· + vy)
  Synth.enforce "twice" (· + ((2 : DummyFr), vx)) (fun lc => lc + Var.one) (fun lc => lc + vx + vx)

theorem claimCircuit_shape (x y y' : Option DummyFr) : SShape (fun _ _ => True) (squareCircuit x) (claimCircuit y y') := by
  refine SShape.bind (SShape.alloc "x") fun a b h => ?_
  obtain ⟨a, oa⟩ := a
  obtain ⟨b, ob⟩ := b
  obtain rfl : a = b := h
  refine SShape.bind (SShape.allocInput "y") fun c d h => ?_
  obtain ⟨c, oc⟩ := c
  obtain ⟨d, od⟩ := d
  obtain rfl : c = d := h
  exact SShape.bind (SShape.enforce "square" rfl rfl rfl) fun _ _ _ => SShape.enforce "twice" rfl rfl rfl

def claimTrace (x y : DummyFr) : List (Ev DummyFr) :=
  [.alloc false "x" (.aux 0) (some x), .alloc true "y" (.input 1) (some y),
   .enforce "square" ⟨[(.aux 0, 1)]⟩ ⟨[(.aux 0, 1), (.input 1, 0)]⟩ ⟨[(.input 1, 1)]⟩,
   .enforce "twice" ⟨[(.aux 0, 2)]⟩ ⟨[(.input 0, 1)]⟩ ⟨[(.aux 0, 1), (.aux 0, 1)]⟩]

theorem claimTrace_prover (x y : DummyFr) : ProverTrace (claimCircuit (some x) (some y)) (claimTrace x y) where
  exec := .allocRun _ x rfl (.allocRun _ y rfl (.enforce (.enforce (.ret _))))
  numbered := ⟨rfl, rfl, trivial⟩

theorem claimTrace_qap (x y : DummyFr) : Qap.ofTrace (claimTrace x y) = Qap.ofTrace squareTrace :=
  (ofTrace_same (pair_traces (claimCircuit_shape none (some x) (some y)) squareTrace_key (claimTrace_prover x y))).symm

/-- The assignment satisfies the circuit exactly if `y = x²`. -/
theorem claimTrace_sat (x y : DummyFr) : Sat (witness (claimTrace x y)) (claimTrace x y) ↔ y = x * x := by
  rw [Sat_iff_consOf]
  simp [claimTrace, consOf, LC.eval, witness, assign, inVals, auxVals]
  constructor
  · rintro ⟨h, _⟩; exact h.symm
  · intro h; exact ⟨h.symm, by ring⟩

theorem square_ready (z : Var → DummyFr) (h : DummyFr[X]) :
    (Qap.ofTrace squareTrace).Ready (1 : DummyFr) (1 : DummyFr) 2 5 11 3 z h := by
  obtain ⟨u0, v0, w0, u1, v1, w1, u2, v2, w2⟩ := square_values
  have hm : (Qap.ofTrace squareTrace).m = 4 := square_good.m
  have hv1 : ¬ (Qap.ofTrace squareTrace).Uses (·.2.1) (.input 1) := by
    rw [uses_b]
    rintro ⟨k, hk, c, h0, hc⟩
    have hk : k ∈ [((⟨[(.aux 0, 1)]⟩, ⟨[(.aux 0, 1), (.input 1, 0)]⟩, ⟨[(.input 1, 1)]⟩) : Row DummyFr),
      (⟨[(.aux 0, 2)]⟩, ⟨[(.input 0, 1)]⟩, ⟨[(.aux 0, 1), (.aux 0, 1)]⟩)] := hk
    simp only [List.mem_cons, List.not_mem_nil, or_false] at hk
    rcases hk with rfl | rfl
    · simp at hc; exact h0 hc
    · simp at hc
  have hvars : ∀ x ∈ (Qap.ofTrace squareTrace).vars, x = .input 0 ∨ x = .input 1 ∨ x = .aux 0 := by
    intro x hx
    have hx : x ∈ [Var.input 0, .input 1, .aux 0] := hx
    simpa using hx
  have hZ : (Qap.ofTrace squareTrace).Z.eval 3 = 80 := by
    unfold Qap.Z
    rw [hm, eval_sub, eval_pow, eval_X, eval_one]
    decide +kernel
  refine ⟨?_, ?_, ?_, ?_, ?_, by decide +kernel, by decide +kernel⟩
  · intro x hx _
    rcases hvars x hx with rfl | rfl | rfl
    · rw [u0]; decide +kernel
    · rw [u1]; decide +kernel
    · rw [u2]; decide +kernel
  · intro x hx hux
    rcases hvars x hx with rfl | rfl | rfl
    · rw [v0]; decide +kernel
    · exact absurd hux hv1
    · rw [v2]; decide +kernel
  · intro x hx hux
    rcases hvars x hx with rfl | rfl | rfl
    · rw [v0]; decide +kernel
    · exact absurd hux hv1
    · rw [v2]; decide +kernel
  · intro i _ h0
    rw [hZ, smul_eq_mul, mul_one, div_eq_zero_iff, mul_eq_zero] at h0
    rcases h0 with (h0 | h0) | h0
    · exact absurd h0 (pow_ne_zero _ (by decide +kernel))
    · exact absurd h0 (by decide +kernel)
    · exact absurd h0 (by decide +kernel)
  · intro i hi h0
    have : i = 0 := by
      have : (Qap.ofTrace squareTrace).k = 1 := rfl
      omega
    subst this
    unfold Qap.comb at h0
    rw [u2, v2, w2] at h0
    exact absurd h0 (by decide +kernel)

/-- Key generation and proving succeed for every claim, true or false. -/
theorem claim_proof (w w' : Worker) (x y r s : DummyFr) : ∃ params pf,
    generateParameters w (squareCircuit none) (1 : DummyFr) (1 : DummyFr) 2 5 7 11 3 = Res.ok params ∧
    createProof w' (claimCircuit (some x) (some y)) params r s = Res.ok pf := by
  obtain ⟨params, hk, rfl⟩ := square_generate w
  have := (C31_outcome w' (claimCircuit_shape none (some x) (some y)) (1 : DummyFr) (1 : DummyFr) 2 5 7 11 3 r s squareTrace
    (claimTrace x y) squareTrace_key (claimTrace_prover x y) (by show 1 + 1 < _; norm_num) (by show 1 < _; norm_num)
    (by rw [claimTrace_qap, square_good.m]; norm_num)).2
    ⟨by rw [claimTrace_qap]; exact square_ready _ _, by rw [claimTrace_qap, squareTrace_rows]; decide,
      by rw [claimTrace_qap, square_clog]; exact .inl (by norm_num)⟩
  obtain ⟨pf, hp⟩ := this
  exact ⟨_, pf, hk, hp⟩

/-- `C30_completeness` applies to the witness 5 for the public input 25 (and `C31_outcome` in the direction that gives a proof). -/
example (w w' : Worker) (r s : DummyFr) : ∃ params pf,
    generateParameters w (squareCircuit none) (1 : DummyFr) (1 : DummyFr) 2 5 7 11 3 = Res.ok params ∧
    createProof w' (claimCircuit (some 5) (some 25)) params r s = Res.ok pf ∧
    verifyProof (fieldEngine DummyFr) (prepareVerifyingKey (fieldEngine DummyFr) params.vk) pf [25] = some (.ok ()) := by
  obtain ⟨params, pf, hk, hp⟩ := claim_proof w w' 5 25 r s
  exact ⟨params, pf, hk, hp, C30_completeness (fieldEngine DummyFr) w w' (claimCircuit_shape none (some 5) (some 25)) _ _ _ _ _ _ _ r s
    params pf hk hp _ (claimTrace_prover 5 25) ((claimTrace_sat 5 25).2 (by decide))⟩

/-- `C33_unsatisfied` applies to the false claim that 26 is the square of 5. -/
example : ∃ bad : Finset DummyFr, bad.card ≤ 6 ∧ ∀ (w w' : Worker) (α β γ δ τ r s : DummyFr) (params pf),
    generateParameters w (squareCircuit none) (1 : DummyFr) (1 : DummyFr) α β γ δ τ = Res.ok params →
    createProof w' (claimCircuit (some 5) (some 26)) params r s = Res.ok pf → τ ∉ bad →
    verifyProof (fieldEngine DummyFr) (prepareVerifyingKey (fieldEngine DummyFr) params.vk) pf [26] = some (.error .invalidProof) := by
  obtain ⟨bad, hb, h⟩ := C33_unsatisfied (G1 := DummyFr) (G2 := DummyFr) (GT := DummyFr) (claimTrace 5 26) (claimTrace_prover 5 26)
    (fun h => absurd ((claimTrace_sat 5 26).1 h) (by decide))
  rw [claimTrace_qap, square_good.m] at hb
  exact ⟨bad, hb, fun w w' α β γ δ τ r s params pf hk hp hτ =>
    h (fieldEngine DummyFr) w w' _ _ 1 1 α β γ δ τ r s params pf (claimCircuit_shape none _ _) one_ne_zero one_ne_zero hk hp hτ⟩

/-- `C34_distribution` applies to the witnesses 5 and −5 for the public input 25. -/
example (w w' w'' : Worker) : ∃ params, generateParameters w (squareCircuit none) (1 : DummyFr) (1 : DummyFr) 2 5 7 11 3 = Res.ok params ∧
    ∀ out, Nat.card {x : DummyFr × DummyFr // createProof w' (claimCircuit (some 5) (some 25)) params x.1 x.2 = out} =
      Nat.card {x : DummyFr × DummyFr // createProof w'' (claimCircuit (some (-5)) (some 25)) params x.1 x.2 = out} := by
  obtain ⟨params, pf, hk, hp⟩ := claim_proof w w' 5 25 0 0
  obtain ⟨params', pf', hk', hp'⟩ := claim_proof w w'' (-5) 25 0 0
  cases Res.ok_inj.1 (hk.symm.trans hk')
  exact ⟨params, hk, C34_distribution w w' w'' (claimCircuit_shape none (some 5) (some 25)) (claimCircuit_shape none (some (-5)) (some 25))
    _ _ _ _ _ _ _ params hk _ _ (claimTrace_prover 5 25) (claimTrace_prover (-5) 25) ((claimTrace_sat 5 25).2 (by decide))
    ((claimTrace_sat (-5) 25).2 (by decide)) rfl ⟨_, _, _, hp⟩ ⟨_, _, _, hp'⟩⟩

/-- The circuit has no cancelling coefficients: `C31_regular` applies. -/
example : (Qap.ofTrace squareTrace).NoCancel ∧ WitnessOk (claimCircuit (some 5) (some 25)).run := by
  refine ⟨?_, ⟨5, rfl, fun _ => ⟨25, rfl, fun _ => trivial⟩⟩⟩
  intro x hx
  have hx : x ∈ [Var.input 0, .input 1, .aux 0] := hx
  have hr : (Qap.ofTrace squareTrace).rows = [((⟨[(.aux 0, 1)]⟩, ⟨[(.aux 0, 1), (.input 1, 0)]⟩, ⟨[(.input 1, 1)]⟩) : Row DummyFr),
      (⟨[(.aux 0, 2)]⟩, ⟨[(.input 0, 1)]⟩, ⟨[(.aux 0, 1), (.aux 0, 1)]⟩), (⟨[(.input 0, 1)]⟩, ⟨[]⟩, ⟨[]⟩),
      (⟨[(.input 1, 1)]⟩, ⟨[]⟩, ⟨[]⟩)] := rfl
  unfold Qap.Uses
  rw [hr]
  simp only [List.mem_cons, List.not_mem_nil, or_false] at hx
  rcases hx with rfl | rfl | rfl
  · simp [LC.coeffOf]
  · simp [LC.coeffOf]
  · simp [LC.coeffOf]

/-- A circuit in which `x` occurs as `x − x`: key generation succeeds, and no witness can ever be proved. -/
def cancelCircuit (x : Option DummyFr) : Synth DummyFr Unit := do
  let (vx, _) ← Synth.alloc "x" (Synth.optGet x)
  Synth.enforce "cancel" (fun lc => lc + vx - vx) (fun lc => lc) (fun lc => lc)
  Synth.enforce "copy" (fun lc => lc + Var.one) (fun lc => lc + vx) (fun lc => lc + vx)

def cancelTrace : List (Ev DummyFr) :=
  [.alloc false "x" (.aux 0) none, .enforce "cancel" ⟨[(.aux 0, 1), (.aux 0, -1)]⟩ ⟨[]⟩ ⟨[]⟩,
   .enforce "copy" ⟨[(.input 0, 1)]⟩ ⟨[(.aux 0, 1)]⟩ ⟨[(.aux 0, 1)]⟩]

theorem cancelTrace_key : KeyTrace (cancelCircuit none) cancelTrace where
  exec := .allocSkip _ (.enforce (.enforce (.ret _)))
  numbered := ⟨rfl, trivial⟩
  inScope := by simp [cancelTrace, Scoped, Var.InRange]

theorem cancelCircuit_shape (x y : Option DummyFr) : SShape (fun _ _ => True) (cancelCircuit x) (cancelCircuit y) := by
  refine SShape.bind (SShape.alloc "x") fun a b h => ?_
  obtain ⟨a, oa⟩ := a
  obtain ⟨b, ob⟩ := b
  obtain rfl : a = b := h
  exact SShape.bind (SShape.enforce "cancel" rfl rfl rfl) fun _ _ _ => SShape.enforce "copy" rfl rfl rfl

/-- `C31_cancel` applies: key generation succeeds, proving fails for every witness, blinding and worker. -/
example (w w' : Worker) (x : Option DummyFr) (r s : DummyFr) : ∃ params,
    generateParameters w (cancelCircuit none) (1 : DummyFr) (1 : DummyFr) 2 5 7 11 3 = Res.ok params ∧
    ∀ pf, createProof w' (cancelCircuit x) params r s ≠ Res.ok pf := by
  have hrows : (Qap.ofTrace cancelTrace).rows = [((⟨[(.aux 0, 1), (.aux 0, -1)]⟩, ⟨[]⟩, ⟨[]⟩) : Row DummyFr),
      (⟨[(.input 0, 1)]⟩, ⟨[(.aux 0, 1)]⟩, ⟨[(.aux 0, 1)]⟩), (⟨[(.input 0, 1)]⟩, ⟨[]⟩, ⟨[]⟩)] := rfl
  have hclog : Nat.clog 2 (Qap.ofTrace cancelTrace).rows.length = 2 := by
    rw [hrows]
    exact clog_of_bounds (by norm_num) (.inr (by norm_num))
  have hm : (Qap.ofTrace cancelTrace).m = 4 := by
    show 2 ^ Nat.clog 2 (Qap.ofTrace cancelTrace).rows.length = 4
    rw [hclog]; rfl
  have hω : (Qap.ofTrace cancelTrace).ω = (Qap.ofTrace squareTrace).ω := by
    show ROOT_OF_UNITY ^ (2 ^ (S DummyFr - Nat.clog 2 (Qap.ofTrace cancelTrace).rows.length)) = _
    rw [hclog, ← square_clog]
    rfl
  have hint : ∀ f, ((Qap.ofTrace cancelTrace).interp f).eval 3 = 10 * f 0 + 20515 * f 1 + 64508 * f 2 + 43994 * f 3 := by
    intro f
    rw [← square_interp]
    unfold Qap.interp
    rw [hω, hm, square_good.m]
    rfl
  have hc : (Qap.ofTrace cancelTrace).comb 2 5 3 (.aux 0) / 11 * 1 ≠ 0 := by
    unfold Qap.comb Qap.u Qap.v Qap.w
    simp only [hint]
    decide +kernel
  have hk : ∃ params, generateParameters w (cancelCircuit none) (1 : DummyFr) (1 : DummyFr) 2 5 7 11 3 = Res.ok params := by
    rcases C29_outcome w (cancelCircuit none) (1 : DummyFr) (1 : DummyFr) 2 5 7 11 3 cancelTrace cancelTrace_key
      (by rw [hclog]; exact .inl (by norm_num)) (.inr ⟨by rw [hm]; norm_num, by decide⟩) with
      ⟨h, _⟩ | ⟨_, h, _⟩ | ⟨_, _, _, ⟨i, hi, h⟩, _⟩ | ⟨_, _, _, _, h⟩
    · rw [hrows] at h
      exact absurd h (by decide)
    · exact absurd h (by decide)
    · have : i = 0 := by
        have : numAux cancelTrace = 1 := rfl
        omega
      subst this
      exact absurd h hc
    · exact ⟨_, h⟩
  obtain ⟨params, hk⟩ := hk
  refine ⟨params, hk, fun pf => C31_cancel (cancelCircuit_shape none x) w w' _ _ _ _ _ _ _ r s cancelTrace cancelTrace_key (.aux 0)
    (by show Var.aux 0 ∈ [Var.input 0, .aux 0]; simp) (.inl ⟨?_, ?_⟩) params hk pf⟩
  · exact ⟨_, by rw [hrows]; exact List.mem_cons_self, 1, by decide, by simp⟩
  · rw [hrows]
    simp [LC.coeffOf]

end Bellman
