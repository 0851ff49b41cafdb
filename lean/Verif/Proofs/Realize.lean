import Verif.Proofs.SameCircuit
import Verif.Proofs.Assignment

/-!
# Executions exist

`Sound` and `Complete` speak about all executions.  The lemmas here produce executions, so that neither judgement is
vacuous.
-/

namespace Bellman

variable {F : Type} {α β : Type}

/-- Every program has an execution with all closures invoked and the usual numbering of variables. -/
theorem Circ.exists_honest (c : Circ F α) (n m : ℕ) : ∃ t r, Honest c t r ∧ Numbered n m t := by
  induction c generalizing n m with
  | ret a => exact ⟨[], _, .ret a, trivial⟩
  | panic msg => exact ⟨[], _, .panic msg, trivial⟩
  | alloc i nm f k ih =>
    cases f with
    | error e =>
      obtain ⟨t, r, h, hn⟩ := ih (.error e) n m
      exact ⟨t, r, .allocErr e rfl h, hn⟩
    | ok v =>
      cases i with
      | true =>
        obtain ⟨t, r, h, hn⟩ := ih (.ok (.input n, some v)) (n + 1) m
        exact ⟨_, r, .allocRun (.input n) v rfl h, rfl, hn⟩
      | false =>
        obtain ⟨t, r, h, hn⟩ := ih (.ok (.aux m, some v)) n (m + 1)
        exact ⟨_, r, .allocRun (.aux m) v rfl h, rfl, hn⟩
  | enforce nm a b c k ih =>
    obtain ⟨t, r, h, hn⟩ := ih n m
    exact ⟨_, r, .enforce h, hn⟩
  | push nm k ih =>
    obtain ⟨t, r, h, hn⟩ := ih n m
    exact ⟨_, r, .push h, hn⟩
  | pop k ih =>
    obtain ⟨t, r, h, hn⟩ := ih n m
    exact ⟨_, r, .pop h, hn⟩

theorem Shape.transfer {R : α → β → Prop} {B₁ : α → Prop} {B₂ : β → Prop} {c₁ : Circ F α} {c₂ : Circ F β}
    (h : Shape R B₁ B₂ c₁ c₂) {t₁ : List (Ev F)} {a : α} (he : Exec c₁ t₁ (some a)) (ha : ¬ B₁ a) :
    ∃ t₂ b, Exec c₂ t₂ (some b) ∧ List.Forall₂ Ev.Same t₁ t₂ ∧ R a b := by
  induction h generalizing t₁ with
  | ret hr => cases he; exact ⟨[], _, .ret _, .nil, hr⟩
  | panic m m' => cases he
  | alloc _ e₁ e₂ ih =>
    cases he with
    | allocSkip x he =>
      obtain ⟨t, b, h1, h2, h3⟩ := ih x none none (by simp) (by simp) he
      exact ⟨_, b, .allocSkip x h1, .cons ⟨rfl, rfl, rfl⟩ h2, h3⟩
    | allocRun x v hf he =>
      obtain ⟨t, b, h1, h2, h3⟩ := ih x (some v) none (by simpa using hf) (by simp) he
      exact ⟨_, b, .allocSkip x h1, .cons ⟨rfl, rfl, rfl⟩ h2, h3⟩
    | allocErr e he => exact absurd ((e₁ e).exec_bad he) ha
  | enforce _ ih =>
    cases he with
    | enforce he =>
      obtain ⟨t, b, h1, h2, h3⟩ := ih he
      exact ⟨_, b, .enforce h1, .cons ⟨rfl, rfl, rfl, rfl⟩ h2, h3⟩
  | push _ ih =>
    cases he with
    | push he =>
      obtain ⟨t, b, h1, h2, h3⟩ := ih he
      exact ⟨_, b, .push h1, .cons rfl h2, h3⟩
  | pop _ ih =>
    cases he with
    | pop he =>
      obtain ⟨t, b, h1, h2, h3⟩ := ih he
      exact ⟨_, b, .pop h1, .cons trivial h2, h3⟩

theorem SShape.transfer {R : α → β → Prop} {m₁ : Synth F α} {m₂ : Synth F β} (h : SShape R m₁ m₂) {t₁ : List (Ev F)}
    {a : α} (he : Exec m₁.run t₁ (some (.ok a))) :
    ∃ t₂ b, Exec m₂.run t₂ (some (.ok b)) ∧ List.Forall₂ Ev.Same t₁ t₂ ∧ R a b := by
  obtain ⟨t₂, b, h1, h2, h3⟩ := Shape.transfer h he id
  cases b with
  | ok b => exact ⟨t₂, b, h1, h2, h3⟩
  | error e => exact h3.elim

theorem Ev.Same.numbered {t₁ t₂ : List (Ev F)} (h : List.Forall₂ Ev.Same t₁ t₂) {n m : ℕ} (hn : Numbered n m t₁) :
    Numbered n m t₂ := by
  induction h generalizing n m with
  | nil => trivial
  | @cons e₁ e₂ t₁ t₂ he _ ih =>
    rcases e₁ with ⟨_ | _, _, _, _⟩ | _ | _ | _ <;> rcases e₂ with ⟨_ | _, _, _, _⟩ | _ | _ | _ <;>
      simp_all [Ev.Same, Numbered]

variable [PrimeField F]

theorem Ev.Same.sat {t₁ t₂ : List (Ev F)} (h : List.Forall₂ Ev.Same t₁ t₂) {ρ : Var → F} (hs : Sat ρ t₁) : Sat ρ t₂ := by
  rw [Sat_iff_consOf] at hs ⊢
  rwa [← Ev.Same.consOf h]

/-- The assignment `ρ` gives the existing inputs and auxiliaries the values in the two lists. -/
def Extends (is as : List F) (ρ : Var → F) : Prop :=
  ∀ v : Var, v.InRange is.length as.length → ρ v = assign is as v

/-- A gadget that is complete under every assignment extending the existing values has an accepting execution: one with
`Ok`, the usual variable numbers, and a satisfying assignment that extends the existing one by the closures' values. -/
theorem Complete.realized {m : Synth F α} {Q : (Var → F) → α → Prop} (is as : List F)
    (h : ∀ ρ, Extends is as ρ → Complete ρ m (Q ρ)) :
    ∃ ρ t a, Extends is as ρ ∧ Honest m.run t (some (.ok a)) ∧ Numbered is.length as.length t ∧ Agrees ρ t ∧ Sat ρ t ∧
      Q ρ a := by
  obtain ⟨t, r, he, hn⟩ := m.run.exists_honest is.length as.length
  have hx : Extends is as (assign (is ++ inVals t) (as ++ auxVals t)) := fun v hv => assign_append _ _ _ _ v hv
  have ha := agrees_of_numbered hn he.allRun
  obtain ⟨hs, a, rfl, hq⟩ := h _ hx t r he ha
  exact ⟨_, t, a, hx, he, hn, ha, hs, hq⟩

theorem Extends.one {is as : List F} {ρ : Var → F} (h : Extends (1 :: is) as ρ) : ρ .one = 1 := by
  have := h .one (by simp [Var.InRange, Var.one])
  simpa [assign, Var.one] using this

end Bellman
