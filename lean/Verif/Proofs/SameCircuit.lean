import Verif.Shape
import Verif.Proofs.Assembly
import Verif.Proofs.Assignment
import Verif.Proofs.TestCS

/-!
# Key generation, proving and testing see the same circuit; adequacy of the trace semantics
-/

namespace Bellman

variable {F α β : Type}

/-- Every witness closure the program hands over succeeds, as long as the previous ones were invoked and succeeded: the
witness is complete (specification). -/
def WitnessOk : Circ F α → Prop
  | .ret _ => True
  | .panic _ => True
  | .alloc _ _ f k => ∃ v, f = .ok v ∧ ∀ x, WitnessOk (k (.ok (x, some v)))
  | .enforce _ _ _ _ k => WitnessOk k
  | .push _ k => WitnessOk k
  | .pop k => WitnessOk k

theorem Ev.Same.numIn {t₁ t₂ : List (Ev F)} (h : List.Forall₂ Ev.Same t₁ t₂) : numIn t₁ = numIn t₂ := by
  induction h with
  | nil => rfl
  | @cons e₁ e₂ t₁ t₂ he _ ih =>
    rcases e₁ with ⟨_ | _, _, _, _⟩ | _ | _ | _ <;> rcases e₂ with ⟨_ | _, _, _, _⟩ | _ | _ | _ <;>
      simp_all [Ev.Same]

theorem Ev.Same.numAux {t₁ t₂ : List (Ev F)} (h : List.Forall₂ Ev.Same t₁ t₂) : numAux t₁ = numAux t₂ := by
  induction h with
  | nil => rfl
  | @cons e₁ e₂ t₁ t₂ he _ ih =>
    rcases e₁ with ⟨_ | _, _, _, _⟩ | _ | _ | _ <;> rcases e₂ with ⟨_ | _, _, _, _⟩ | _ | _ | _ <;>
      simp_all [Ev.Same]

theorem Ev.Same.consOf {t₁ t₂ : List (Ev F)} (h : List.Forall₂ Ev.Same t₁ t₂) : consOf t₁ = consOf t₂ := by
  induction h with
  | nil => rfl
  | @cons e₁ e₂ t₁ t₂ he _ ih =>
    rcases e₁ with ⟨_ | _, _, _, _⟩ | _ | _ | _ <;> rcases e₂ with ⟨_ | _, _, _, _⟩ | _ | _ | _ <;>
      simp_all [Ev.Same]

variable [PrimeField F]

theorem ProvingAssignment.enforce_isSome {p : ProvingAssignment F} {a b c : LC F} (hw : p.WF)
    (h : ∀ x ∈ a.terms ++ b.terms ++ c.terms, x.1.InRange p.inputAssignment.length p.auxAssignment.length) :
    ∃ p', p.enforce a b c = some p' := by
  have hm : ∀ l : LC F, (∀ x ∈ l.terms, x ∈ a.terms ++ b.terms ++ c.terms) →
      ∀ v, Occurs l.terms v → v.InRange p.inputAssignment.length p.auxAssignment.length := by
    rintro l hl v ⟨k, _, hk⟩
    exact h _ (hl _ hk)
  obtain ⟨ra, ha⟩ := proverEval_isSome (acc := 0) (di := none) (da := some p.aAuxDensity) trivial hw.aa
    (hm a (by simp +contextual))
  obtain ⟨rb, hb⟩ := proverEval_isSome (acc := 0) (di := some p.bInputDensity) (da := some p.bAuxDensity) hw.bi hw.ba
    (hm b (by simp +contextual))
  obtain ⟨rc, hc⟩ := proverEval_isSome (acc := 0) (inputs := p.inputAssignment) (aux := p.auxAssignment) (di := none)
    (da := none) trivial trivial (hm c (by simp +contextual))
  exact ⟨_, by simp only [ProvingAssignment.enforce, ha, hb, hc, Option.bind_some]; rfl⟩

/-- If key generation gets through the circuit, so does the prover with a complete witness. -/
theorem Shape.prover_follows {R : α → β → Prop} {B₁ : α → Prop} {B₂ : β → Prop} {c₁ : Circ F α} {c₂ : Circ F β}
    (h : Shape R B₁ B₂ c₁ c₂) {s s' : KeypairAssembly F} {p : ProvingAssignment F} {a : α} (hs : s.WF) (hp : p.WF)
    (hi : s.numInputs = p.inputAssignment.length) (ha : s.numAux = p.auxAssignment.length)
    (hk : c₁.run KeypairAssembly.impl s = some (a, s')) (hw : WitnessOk c₂) :
    ∃ b p', c₂.run ProvingAssignment.impl p = some (b, p') ∧ R a b := by
  induction h generalizing s p with
  | ret hr =>
    simp only [Circ.run, Option.some.injEq, Prod.mk.injEq] at hk
    obtain ⟨rfl, rfl⟩ := hk
    exact ⟨_, p, rfl, hr⟩
  | panic m m' => cases hk
  | alloc hk₁ e₁ e₂ ih =>
    rename_i i nm f₁ f₂ k₁ k₂
    obtain ⟨v, rfl, hw⟩ := hw
    cases i with
    | true =>
      have hk : (k₁ (.ok (.input s.numInputs, none))).run KeypairAssembly.impl s.allocInput.2 = some (a, s') := hk
      obtain ⟨b, p', h1, h2⟩ := ih (.input s.numInputs) none (some v) (by simp) (by simp)
        (p := { p with inputAssignment := p.inputAssignment ++ [v], bInputDensity := p.bInputDensity.addElement })
        (KeypairAssembly.allocInput_WF hs)
        (by obtain ⟨h1, h2, h3⟩ := hp; constructor <;> simp_all [DensityTracker.addElement])
        (by simp [KeypairAssembly.allocInput, hi]) ha hk (hw _)
      refine ⟨b, p', ?_, h2⟩
      have e : (p.inputAssignment ++ [v]).length - 1 = s.numInputs := by simp [hi]
      show (k₂ (.ok (.input ((p.inputAssignment ++ [v]).length - 1), some v))).run ProvingAssignment.impl _ = _
      rw [e]; exact h1
    | false =>
      have hk : (k₁ (.ok (.aux s.numAux, none))).run KeypairAssembly.impl s.allocAux.2 = some (a, s') := hk
      obtain ⟨b, p', h1, h2⟩ := ih (.aux s.numAux) none (some v) (by simp) (by simp)
        (p := { p with auxAssignment := p.auxAssignment ++ [v], aAuxDensity := p.aAuxDensity.addElement
                       bAuxDensity := p.bAuxDensity.addElement })
        (KeypairAssembly.allocAux_WF hs)
        (by obtain ⟨h1, h2, h3⟩ := hp; constructor <;> simp_all [DensityTracker.addElement])
        hi (by simp [KeypairAssembly.allocAux, ha]) hk (hw _)
      refine ⟨b, p', ?_, h2⟩
      have e : (p.auxAssignment ++ [v]).length - 1 = s.numAux := by simp [ha]
      show (k₂ (.ok (.aux ((p.auxAssignment ++ [v]).length - 1), some v))).run ProvingAssignment.impl _ = _
      rw [e]; exact h1
  | enforce _ ih =>
    simp only [Circ.run, Option.bind_eq_some_iff] at hk
    obtain ⟨s1, h1, hk⟩ := hk
    obtain ⟨w1, sc, n1, n2, _⟩ := KeypairAssembly.enforce_spec hs h1
    rw [hi, ha] at sc
    obtain ⟨p1, hp1⟩ := ProvingAssignment.enforce_isSome hp sc
    obtain ⟨w2, _, q1, q2, _⟩ := ProvingAssignment.enforce_spec hp hp1
    obtain ⟨b, p', h2, h3⟩ := ih (s := s1) (p := p1) w1 w2 (by rw [n1, q1, hi]) (by rw [n2, q2, ha]) hk hw
    refine ⟨b, p', ?_, h3⟩
    simp only [Circ.run]
    show Option.bind (ProvingAssignment.enforce _ _ _ p) _ = _
    rw [hp1]; exact h2
  | push _ ih => exact ih hs hp hi ha hk hw
  | pop _ ih => exact ih hs hp hi ha hk hw

/-- What two records of the same circuit have in common (specification): the traces of calls agree up to witness values,
hence counts and constraints are equal. -/
structure SameCircuit (s' : KeypairAssembly F) (p' : ProvingAssignment F) (t₁ t₂ : List (Ev F)) : Prop where
  calls : List.Forall₂ Ev.Same t₁ t₂
  inputs : s'.numInputs = p'.inputAssignment.length
  aux : s'.numAux = p'.auxAssignment.length
  constraints : consOf t₁ = consOf t₂
  rows : s'.numConstraints = p'.a.length ∧ s'.numConstraints = p'.b.length ∧ s'.numConstraints = p'.c.length

theorem sameCircuit_of_recorded {s s' : KeypairAssembly F} {p p' : ProvingAssignment F} {t₁ t₂ : List (Ev F)}
    (hi : s.numInputs = p.inputAssignment.length) (ha : s.numAux = p.auxAssignment.length)
    (hc : s.numConstraints = p.a.length ∧ s.numConstraints = p.b.length ∧ s.numConstraints = p.c.length)
    (h₁ : KeypairAssembly.Recorded s t₁ s') (h₂ : ProvingAssignment.Recorded p t₂ p')
    (h : List.Forall₂ Ev.Same t₁ t₂) : SameCircuit s' p' t₁ t₂ where
  calls := h
  inputs := by rw [h₁.inputs, h₂.inputs, List.length_append, h₂.nIn, hi, Ev.Same.numIn h]
  aux := by rw [h₁.aux, h₂.aux, List.length_append, h₂.nAux, ha, Ev.Same.numAux h]
  constraints := Ev.Same.consOf h
  rows := by
    rw [h₁.constraints, h₂.a, h₂.b, h₂.c, Ev.Same.consOf h]
    simp only [List.length_append, List.length_map]
    omega

/-! ## The final assignment agrees with the values in the trace -/

/-- In the trace every witness closure was invoked (specification). -/
def AllRun (t : List (Ev F)) : Prop := ∀ i n x v, Ev.alloc i n x v ∈ t → ∃ w, v = some w

omit [PrimeField F] in
theorem Honest.allRun {c : Circ F α} {t r} (h : Honest c t r) : AllRun t := by
  induction h with
  | ret a => intro i n x v hm; cases hm
  | panic m => intro i n x v hm; cases hm
  | allocRun x v hf _ ih =>
    intro i n y w hm
    rcases List.mem_cons.1 hm with h | h
    · cases h; exact ⟨_, rfl⟩
    · exact ih _ _ _ _ h
  | allocErr e hf _ ih => exact ih
  | enforce _ ih =>
    intro i n y w hm
    rcases List.mem_cons.1 hm with h | h
    · cases h
    · exact ih _ _ _ _ h
  | push _ ih =>
    intro i n y w hm
    rcases List.mem_cons.1 hm with h | h
    · cases h
    · exact ih _ _ _ _ h
  | pop _ ih =>
    intro i n y w hm
    rcases List.mem_cons.1 hm with h | h
    · cases h
    · exact ih _ _ _ _ h

theorem agrees_of_numbered {is as : List F} {t : List (Ev F)} (hn : Numbered is.length as.length t) (hr : AllRun t) :
    Agrees (assign (is ++ inVals t) (as ++ auxVals t)) t := by
  induction t generalizing is as with
  | nil => exact Agrees_nil _
  | cons e t ih =>
    have hr' : AllRun t := fun i n x v hm => hr i n x v (List.mem_cons_of_mem _ hm)
    cases e with
    | alloc i n x v =>
      obtain ⟨w, rfl⟩ := hr i n x v List.mem_cons_self
      cases i with
      | true =>
        obtain ⟨rfl, hn⟩ := hn
        have := ih (is := is ++ [w]) (as := as) (by simpa using hn) hr'
        rw [Agrees_alloc]
        refine ⟨?_, by simpa using this⟩
        simp [assign]
      | false =>
        obtain ⟨rfl, hn⟩ := hn
        have := ih (is := is) (as := as ++ [w]) (by simpa using hn) hr'
        rw [Agrees_alloc]
        refine ⟨?_, by simpa using this⟩
        simp [assign]
    | enforce n a b c => simpa using ih hn hr'
    | push n => simpa using ih hn hr'
    | pop => simpa using ih hn hr'

theorem ProvingAssignment.Recorded.agrees {p p' : ProvingAssignment F} {t : List (Ev F)} (h : Recorded p t p')
    (hr : AllRun t) : Agrees (assign p'.inputAssignment p'.auxAssignment) t := by
  rw [h.inputs, h.aux]
  exact agrees_of_numbered h.numbered hr

theorem TestCS.Recorded.agrees {s s' : TestCS F} {t : List (Ev F)} (h : Recorded s t s') (hr : AllRun t) :
    Agrees s'.rho t := by
  unfold rho
  rw [h.inputs, h.aux]
  exact agrees_of_numbered (by simpa using h.numbered) hr

/-- **Completeness carries over to the real prover**: a gadget that is complete under the final assignment returns `Ok`
and the evaluations recorded for its constraints satisfy `a·b = c` row by row. -/
theorem ProvingAssignment.complete {m : Synth F α} {Q : α → Prop} {p p' : ProvingAssignment F} {r}
    (hp : p.WF) (h : m.run.run impl p = some (r, p'))
    (hm : Complete (assign p'.inputAssignment p'.auxAssignment) m Q) :
    ∃ a t, r = .ok a ∧ Q a ∧ Honest m.run t (some (.ok a)) ∧ Recorded p t p' ∧
      Sat (assign p'.inputAssignment p'.auxAssignment) t := by
  obtain ⟨t, he, hr⟩ := run_recorded m.run hp h
  obtain ⟨h1, a, h2, h3⟩ := hm t _ he (hr.agrees he.allRun)
  simp only [Option.some.injEq] at h2
  subst h2
  exact ⟨a, t, rfl, h3, he, hr, h1⟩

omit [PrimeField F] in
/-- Constraints recorded under earlier namespaces plus those of the trace. -/
theorem TestCS.Recorded.mem_constraints {s s' : TestCS F} {t : List (Ev F)} (h : Recorded s t s')
    (k : LC F × LC F × LC F) : (∃ p, (k.1, k.2.1, k.2.2, p) ∈ s'.constraints) ↔
      (∃ p, (k.1, k.2.1, k.2.2, p) ∈ s.constraints) ∨ k ∈ consOf t := by
  have := congrArg (k ∈ ·) h.constraints
  simp only [List.mem_append, List.mem_map] at this
  have e : ∀ l : List (LC F × LC F × LC F × String),
      (∃ p, (k.1, k.2.1, k.2.2, p) ∈ l) ↔ ∃ a ∈ l, (a.1, a.2.1, a.2.2.1) = k := by
    intro l
    constructor
    · rintro ⟨p, hp⟩; exact ⟨_, hp, rfl⟩
    · rintro ⟨⟨a, b, c, p⟩, ha, rfl⟩; exact ⟨p, ha⟩
  rw [e, e]
  exact iff_of_eq this

end Bellman
