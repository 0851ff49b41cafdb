import Verif.Groth16.Generator
import Verif.Proofs.Verifier
import Verif.Props.Setup

/-!
# Key generation, proving and verification together
-/

namespace Bellman

open PrimeField Polynomial Finset

set_option linter.unusedSectionVars false

section
variable {F α : Type} [PrimeField F]

theorem Honest.unique_aux {c : Circ F α} {t t' : List (Ev F)} {r r' : Option α} (he : Honest c t r)
    (he' : Honest c t' r') {n m : ℕ} (hn : Numbered n m t) (hn' : Numbered n m t') : t = t' := by
  induction c generalizing t t' n m with
  | ret b => cases he; cases he'; rfl
  | panic m => cases he; cases he'; rfl
  | alloc i nm f k ih =>
    cases he with
    | allocRun x v hf h =>
      cases he' with
      | allocRun x' v' hf' h' =>
        cases hf.symm.trans hf'
        cases i with
        | true =>
          obtain ⟨rfl, hn⟩ := hn
          obtain ⟨rfl, hn'⟩ := hn'
          rw [ih _ h h' hn hn']
        | false =>
          obtain ⟨rfl, hn⟩ := hn
          obtain ⟨rfl, hn'⟩ := hn'
          rw [ih _ h h' hn hn']
      | allocErr e hf' h' => cases hf.symm.trans hf'
    | allocErr e hf h =>
      cases he' with
      | allocRun x' v' hf' h' => cases hf.symm.trans hf'
      | allocErr e' hf' h' =>
        cases hf.symm.trans hf'
        exact ih _ h h' hn hn'
  | enforce _ _ _ _ k ih =>
    cases he with | enforce h => cases he' with | enforce h' => rw [ih h h' hn hn']
  | push _ k ih =>
    cases he with | push h => cases he' with | push h' => rw [ih h h' hn hn']
  | pop k ih =>
    cases he with | pop h => cases he' with | pop h' => rw [ih h h' hn hn']

end

variable {F : Type} [PrimeField F]

/-- There is at most one assignment. -/
theorem ProverTrace.unique {circuit : Synth F Unit} {t t' : List (Ev F)} (h : ProverTrace circuit t) (h' : ProverTrace circuit t') :
    t = t' := Honest.unique_aux h.exec h'.exec h.numbered h'.numbered

theorem pair_traces {R : Unit → Unit → Prop} {kc pc : Synth F Unit} (h : SShape R kc pc) {t0 t : List (Ev F)} (hk : KeyTrace kc t0)
    (hp : ProverTrace pc t) : List.Forall₂ Ev.Same t0 t :=
  (SShape.same_trace h hk.exec.exec hp.exec.exec hk.numbered hp.numbered).1

theorem ofTrace_same {t0 t : List (Ev F)} (h : List.Forall₂ Ev.Same t0 t) : Qap.ofTrace t0 = Qap.ofTrace t := by
  unfold Qap.ofTrace
  rw [Ev.Same.numIn h, Ev.Same.numAux h, Ev.Same.consOf h]

/-- A complete witness gives a prover trace. -/
theorem proverTrace_of_witness {R : Unit → Unit → Prop} {kc pc : Synth F Unit} (h : SShape R kc pc) {t0 : List (Ev F)}
    (hk : KeyTrace kc t0) (hw : WitnessOk pc.run) : ∃ t, ProverTrace pc t := by
  obtain ⟨s, hs⟩ := KeyTrace.iff_run.1 ⟨t0, hk⟩
  obtain ⟨r, p', hr, hR⟩ := Shape.prover_follows h start_WF (proverStart_WF (F := F)) rfl rfl (synthesizeWith_ok.1 hs) hw
  cases r with
  | error e => exact hR.elim
  | ok b =>
    rcases assign?_cases pc with ⟨t, p, ht, _⟩ | ⟨e, he, _⟩ | ⟨he, _⟩
    · exact ⟨t, ht⟩
    · rw [synthesizeWith_ok.2 hr] at he; cases he
    · rw [synthesizeWith_ok.2 hr] at he; cases he

/-- The prover can follow every trace whose constraints mention allocated variables only. -/
theorem Honest.prover_run {α : Type} {c : Circ F α} {t : List (Ev F)} {a : α} (he : Honest c t (some a)) {p : ProvingAssignment F}
    (hw : p.WF) (hn : Numbered p.inputAssignment.length p.auxAssignment.length t)
    (hs : Scoped p.inputAssignment.length p.auxAssignment.length t) : ∃ p', c.run ProvingAssignment.impl p = some (a, p') := by
  induction c generalizing p t with
  | ret b => cases he; exact ⟨p, rfl⟩
  | panic m => cases he
  | alloc i n f k ih =>
    cases he with
    | allocRun x v hf h =>
      subst hf
      cases i with
      | true =>
        obtain ⟨rfl, hn⟩ := hn
        have hs : Scoped (p.inputAssignment.length + 1) p.auxAssignment.length _ := hs
        obtain ⟨p', hp'⟩ := ih _ h
          (p := { p with inputAssignment := p.inputAssignment ++ [v], bInputDensity := p.bInputDensity.addElement })
          (by obtain ⟨h1, h2, h3⟩ := hw; constructor <;> simp_all [DensityTracker.addElement])
          (by simpa using hn) (by simpa using hs)
        refine ⟨p', ?_⟩
        have e : (p.inputAssignment ++ [v]).length - 1 = p.inputAssignment.length := by simp
        show (k (.ok (.input ((p.inputAssignment ++ [v]).length - 1), some v))).run ProvingAssignment.impl _ = _
        rw [e]; exact hp'
      | false =>
        obtain ⟨rfl, hn⟩ := hn
        have hs : Scoped p.inputAssignment.length (p.auxAssignment.length + 1) _ := hs
        obtain ⟨p', hp'⟩ := ih _ h
          (p := { p with auxAssignment := p.auxAssignment ++ [v], aAuxDensity := p.aAuxDensity.addElement
                         bAuxDensity := p.bAuxDensity.addElement })
          (by obtain ⟨h1, h2, h3⟩ := hw; constructor <;> simp_all [DensityTracker.addElement])
          (by simpa using hn) (by simpa using hs)
        refine ⟨p', ?_⟩
        have e : (p.auxAssignment ++ [v]).length - 1 = p.auxAssignment.length := by simp
        show (k (.ok (.aux ((p.auxAssignment ++ [v]).length - 1), some v))).run ProvingAssignment.impl _ = _
        rw [e]; exact hp'
    | allocErr e hf h =>
      subst hf
      obtain ⟨p', hp'⟩ := ih _ h hw hn hs
      refine ⟨p', ?_⟩
      cases i <;> exact hp'
  | enforce n a b c k ih =>
    cases he with
    | enforce h =>
      obtain ⟨h1, h2⟩ := hs
      obtain ⟨p1, hp1⟩ := ProvingAssignment.enforce_isSome hw h1
      obtain ⟨w2, _, q1, q2, _⟩ := ProvingAssignment.enforce_spec hw hp1
      obtain ⟨p', hp'⟩ := ih h w2 (by rw [q1, q2]; exact hn) (by rw [q1, q2]; exact h2)
      refine ⟨p', ?_⟩
      simp only [Circ.run]
      show Option.bind (ProvingAssignment.enforce _ _ _ p) _ = _
      rw [hp1]; exact hp'
  | push n k ih => cases he with | push h => exact ih h hw hn hs
  | pop k ih => cases he with | pop h => exact ih h hw hn hs

theorem Scoped.same {t t' : List (Ev F)} (h : List.Forall₂ Ev.Same t t') {n m : ℕ} (hs : Scoped n m t) : Scoped n m t' := by
  induction h generalizing n m with
  | nil => exact hs
  | @cons e₁ e₂ t₁ t₂ he _ ih =>
    rcases e₁ with ⟨_ | _, _, _, _⟩ | _ | _ | _ <;> rcases e₂ with ⟨_ | _, _, _, _⟩ | _ | _ | _ <;>
      try (simp_all [Ev.Same, Scoped]; done)
    obtain ⟨rfl, rfl, rfl, rfl⟩ := he
    exact ⟨hs.1, ih hs.2⟩

theorem ProverTrace.assign {pc : Synth F Unit} {t : List (Ev F)} (ht : ProverTrace pc t) (hs : Scoped 1 0 t) :
    ∃ p, assign? pc = Res.ok p := by
  obtain ⟨p, hp⟩ := ht.exec.prover_run (proverStart_WF (F := F)) ht.numbered hs
  rcases assign?_cases pc with ⟨_, _, _, _, q, hq, _⟩ | ⟨e, he, _⟩ | ⟨he, _⟩
  · exact ⟨q, hq⟩
  · rw [synthesizeWith_ok.2 hp] at he; cases he
  · rw [synthesizeWith_ok.2 hp] at he; cases he

theorem ProverTrace.assigned {pc : Synth F Unit} {t : List (Ev F)} (ht : ProverTrace pc t) {p : ProvingAssignment F}
    (hp : assign? pc = Res.ok p) : Assigned p t (numIn t + 1) := by
  rcases assign?_cases pc with ⟨t', p', ht', _, q, hq, ha⟩ | ⟨e, _, he⟩ | ⟨_, he⟩
  · cases hp.symm.trans hq
    rw [ht.unique ht']
    exact ha
  · rw [hp] at he; cases he
  · rw [hp] at he; cases he

section
variable {G1 G2 : Type} [AddCommGroup G1] [AddCommGroup G2] [Module F G1] [Module F G2] [DecidableEq G1] [DecidableEq G2]

/-- What successful key generation and proving have computed. -/
theorem prove_spec {w w' : Worker} {R : Unit → Unit → Prop} {kc pc : Synth F Unit} (h : SShape R kc pc) {g1 : G1} {g2 : G2}
    {α β γ δ τ r s : F} {params : Parameters G1 G2} {pf : Proof G1 G2}
    (hk : generateParameters w kc g1 g2 α β γ δ τ = Res.ok params) (hp : createProof w' pc params r s = Res.ok pf) :
    ∃ t0 t, KeyTrace kc t0 ∧ ProverTrace pc t ∧ List.Forall₂ Ev.Same t0 t ∧ (Qap.ofTrace t).InScope ∧
      params = (Qap.ofTrace t).crs g1 g2 α β γ δ τ ∧ γ ≠ 0 ∧ δ ≠ 0 ∧
      (Qap.ofTrace t).Ready g1 g2 α β δ τ (witness t) ((Qap.ofTrace t).proverH (witness t)) ∧
      (Qap.ofTrace t).rows.length ≤ 2 ^ (S F - 1) ∧
      pf = (Qap.ofTrace t).proof g1 g2 α β δ τ (witness t) ((Qap.ofTrace t).proverH (witness t)) r s := by
  obtain ⟨t0, ht0, _, hpar, hγ, hδ, _, hsm⟩ := C29_crs w kc g1 g2 α β γ δ τ params hk
  obtain ⟨p, _, _, _, _, _, _, _, _, hassign, _⟩ := createProof_ok_inv hp
  rcases assign?_cases pc with ⟨t, _, ht, _⟩ | ⟨e, _, he⟩ | ⟨_, he⟩
  · have hsame := pair_traces h ht0 ht
    have hq := ofTrace_same hsame
    have hs : (Qap.ofTrace t).InScope := by rw [← hq]; exact ht0.qapScope
    rw [hq] at hpar hsm
    rw [hpar] at hp
    obtain ⟨hR, _, _, hpf⟩ := createProof_ok hassign (ht.assigned hassign) hs hp
    exact ⟨t0, t, ht0, ht, hsame, hs, hpar, hγ, hδ, hR, hsm, hpf⟩
  · rw [hassign] at he; cases he
  · rw [hassign] at he; cases he

/-- If proving succeeds for one pair of blinding factors, it does for all. -/
theorem prove_all {w w' : Worker} {R : Unit → Unit → Prop} {kc pc : Synth F Unit} (h : SShape R kc pc) {g1 : G1} {g2 : G2}
    {α β γ δ τ r0 s0 : F} {params : Parameters G1 G2} {pf0 : Proof G1 G2}
    (hk : generateParameters w kc g1 g2 α β γ δ τ = Res.ok params) (hp : createProof w' pc params r0 s0 = Res.ok pf0)
    {t : List (Ev F)} (ht : ProverTrace pc t) :
    ∃ t0, KeyTrace kc t0 ∧ List.Forall₂ Ev.Same t0 t ∧ (Qap.ofTrace t).InScope ∧ δ ≠ 0 ∧
      (Qap.ofTrace t).rows.length ≤ 2 ^ (S F - 1) ∧
      ∀ r s, createProof w' pc params r s =
        Res.ok ((Qap.ofTrace t).proof g1 g2 α β δ τ (witness t) ((Qap.ofTrace t).proverH (witness t)) r s) := by
  obtain ⟨t0, t1, ht0, ht1, hsame, hs, hpar, _, hδ, _, hsm, _⟩ := prove_spec h hk hp
  cases ht.unique ht1
  refine ⟨t0, ht0, hsame, hs, hδ, hsm, fun r s => ?_⟩
  obtain ⟨p, _, _, _, _, _, _, _, _, hp, hA, hδ1, hδ2⟩ := createProof_ok_inv hp
  have := createProof_ok_of w' pc params r s p _ _ _ _ _ _ _ _ hp hA hδ1 hδ2
  obtain ⟨_, t1, _, ht1, _, _, _, _, _, _, _, hpf⟩ := prove_spec h hk this
  cases ht.unique ht1
  rw [this, hpf]

end

/-- The appended input constraints hold for every assignment. -/
theorem satBy_of_sat {t : List (Ev F)} {z : Var → F} : (Qap.ofTrace t).SatBy z ↔ Sat z t := by
  rw [Sat_iff_consOf]
  unfold Qap.SatBy
  rw [ofTrace_rows]
  constructor
  · intro h k hk
    exact h k (List.mem_append_left _ hk)
  · intro h k hk
    rcases List.mem_append.1 hk with hk | hk
    · exact h k hk
    · obtain ⟨i, _, rfl⟩ := List.mem_map.1 hk
      simp [LC.eval]

theorem AllRun.lengths {t : List (Ev F)} (h : AllRun t) : (inVals t).length = numIn t ∧ (auxVals t).length = numAux t := by
  induction t with
  | nil => exact ⟨rfl, rfl⟩
  | cons e t ih =>
    obtain ⟨h1, h2⟩ := ih fun i n x v hm => h i n x v (List.mem_cons_of_mem _ hm)
    rcases e with ⟨i, n, x, v⟩ | _ | _ | _
    · obtain ⟨w, rfl⟩ := h i n x v List.mem_cons_self
      cases i <;> simp_all [inVals, numIn, auxVals, numAux]
    all_goals simp_all [inVals, numIn, auxVals, numAux]

theorem ProverTrace.inputs_len {pc : Synth F Unit} {t : List (Ev F)} (ht : ProverTrace pc t) : (inVals t).length = numIn t :=
  ht.exec.allRun.lengths.1

/-- Changing the assignment is the same as shifting the blinding factors. -/
theorem proof_shift {G1 G2 : Type} [AddCommGroup G1] [AddCommGroup G2] [Module F G1] [Module F G2] (q : Qap F) (g1 : G1) (g2 : G2)
    (α β δ τ : F) (hδ : δ ≠ 0) (z z' : Var → F) (h h' : F[X]) (hsat : h * q.Z = q.A z * q.B z - q.Cc z)
    (hsat' : h' * q.Z = q.A z' * q.B z' - q.Cc z') (hpub : q.pub α β τ z = q.pub α β τ z') (r s : F) :
    q.proof g1 g2 α β δ τ z h r s = q.proof g1 g2 α β δ τ z' h' (r + ((q.A z).eval τ - (q.A z').eval τ) / δ)
      (s + ((q.B z).eval τ - (q.B z').eval τ) / δ) := by
  have e1 : h.eval τ * q.Z.eval τ = (q.A z).eval τ * (q.B z).eval τ - (q.Cc z).eval τ := by rw [← eval_mul, hsat]; simp
  have e2 : h'.eval τ * q.Z.eval τ = (q.A z').eval τ * (q.B z').eval τ - (q.Cc z').eval τ := by rw [← eval_mul, hsat']; simp
  have p1 := Qap.pub_add_priv q α β τ z
  have p2 := Qap.pub_add_priv q α β τ z'
  have hp1 : q.priv α β τ z = β * (q.A z).eval τ + α * (q.B z).eval τ + (q.Cc z).eval τ - q.pub α β τ z' := by
    rw [← p1, hpub]; ring
  have hp2 : q.priv α β τ z' = β * (q.A z').eval τ + α * (q.B z').eval τ + (q.Cc z').eval τ - q.pub α β τ z' := by
    rw [← p2]; ring
  unfold Qap.proof
  simp only
  rw [e1, e2, hp1, hp2]
  generalize (q.A z).eval τ = A
  generalize (q.B z).eval τ = B
  generalize (q.Cc z).eval τ = C
  generalize (q.A z').eval τ = A'
  generalize (q.B z').eval τ = B'
  generalize (q.Cc z').eval τ = C'
  generalize q.pub α β τ z' = P
  congr 1
  · congr 1; field_simp; ring
  · congr 1; field_simp; ring
  · congr 1; field_simp; ring

end Bellman
