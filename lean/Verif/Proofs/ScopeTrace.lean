import Verif.Scope
import Verif.Proofs.Realize
import Verif.Proofs.Trace

/-!
# Splitting traces; runs without witness values
-/

namespace Bellman

variable {F : Type} {α β : Type}

theorem numIn_append (s t : List (Ev F)) : numIn (s ++ t) = numIn s + numIn t := by simp [numIn]

theorem numAux_append (s t : List (Ev F)) : numAux (s ++ t) = numAux s + numAux t := by simp [numAux]

theorem numbered_append {n k : ℕ} {s t : List (Ev F)} :
    Numbered n k (s ++ t) ↔ Numbered n k s ∧ Numbered (n + numIn s) (k + numAux s) t := by
  induction s generalizing n k with
  | nil => simp [Numbered, numIn, numAux]
  | cons e s ih =>
    rcases e with ⟨_ | _, _, _, _⟩ | _ | _ | _
    · simp only [List.cons_append, Numbered, ih, numIn_aux, numAux_aux, and_assoc]
      rw [show k + 1 + numAux s = k + (numAux s + 1) by omega]
    · simp only [List.cons_append, Numbered, ih, numIn_input, numAux_input, and_assoc]
      rw [show n + 1 + numIn s = n + (numIn s + 1) by omega]
    · simp only [List.cons_append, Numbered, ih, numIn_enforce, numAux_enforce]
    · simp only [List.cons_append, Numbered, ih, numIn_push, numAux_push]
    · simp only [List.cons_append, Numbered, ih, numIn_pop, numAux_pop]

theorem scoped_append {n k : ℕ} {s t : List (Ev F)} :
    Scoped n k (s ++ t) ↔ Scoped n k s ∧ Scoped (n + numIn s) (k + numAux s) t := by
  induction s generalizing n k with
  | nil => simp [Scoped, numIn, numAux]
  | cons e s ih =>
    rcases e with ⟨_ | _, _, _, _⟩ | _ | _ | _
    · simp only [List.cons_append, Scoped, ih, numIn_aux, numAux_aux]
      rw [show k + 1 + numAux s = k + (numAux s + 1) by omega]
    · simp only [List.cons_append, Scoped, ih, numIn_input, numAux_input]
      rw [show n + 1 + numIn s = n + (numIn s + 1) by omega]
    · simp only [List.cons_append, Scoped, ih, numIn_enforce, numAux_enforce, and_assoc]
    · simp only [List.cons_append, Scoped, ih, numIn_push, numAux_push]
    · simp only [List.cons_append, Scoped, ih, numIn_pop, numAux_pop]

/-- Every program has a run that invokes no closure. -/
theorem Circ.exists_blind (c : Circ F α) (n m : ℕ) : ∃ t r, Blind c t r ∧ Numbered n m t := by
  induction c generalizing n m with
  | ret a => exact ⟨[], _, .ret a, trivial⟩
  | panic msg => exact ⟨[], _, .panic msg, trivial⟩
  | alloc i nm f k ih =>
    cases i with
    | true =>
      obtain ⟨t, r, h, hn⟩ := ih (.ok (.input n, none)) (n + 1) m
      exact ⟨_, r, .allocSkip (.input n) h, rfl, hn⟩
    | false =>
      obtain ⟨t, r, h, hn⟩ := ih (.ok (.aux m, none)) n (m + 1)
      exact ⟨_, r, .allocSkip (.aux m) h, rfl, hn⟩
  | enforce nm a b c k ih =>
    obtain ⟨t, r, h, hn⟩ := ih n m
    exact ⟨_, r, .enforce h, hn⟩
  | push nm k ih =>
    obtain ⟨t, r, h, hn⟩ := ih n m
    exact ⟨_, r, .push h, hn⟩
  | pop k ih =>
    obtain ⟨t, r, h, hn⟩ := ih n m
    exact ⟨_, r, .pop h, hn⟩

/-- A program of the same shape as one that succeeds also succeeds when no closure is invoked. -/
theorem Shape.transfer_blind {R : α → β → Prop} {B₁ : α → Prop} {B₂ : β → Prop} {c₁ : Circ F α} {c₂ : Circ F β}
    (h : Shape R B₁ B₂ c₁ c₂) {t₁ : List (Ev F)} {a : α} (he : Exec c₁ t₁ (some a)) (ha : ¬ B₁ a) :
    ∃ t₂ b, Blind c₂ t₂ (some b) ∧ List.Forall₂ Ev.Same t₁ t₂ ∧ R a b := by
  induction h generalizing t₁ with
  | ret hr => cases he; exact ⟨[], _, .ret _, .nil, hr⟩
  | panic m m' => cases he
  | alloc _ e₁ e₂ ih =>
    cases he with
    | allocSkip x he =>
      obtain ⟨t, b, h1, h2, h3⟩ := ih x none none (by simp) (by simp) he
      exact ⟨_, b, .allocSkip x h1, .cons ⟨rfl, rfl, rfl⟩ h2, h3⟩
    | allocRun x v hf he =>
      obtain ⟨t, b, h1, h2, h3⟩ := ih x (some v) none (by simpa using hf) (by simp) he
      exact ⟨_, b, .allocSkip x h1, .cons ⟨rfl, rfl, rfl⟩ h2, h3⟩
    | allocErr e he => exact absurd ((e₁ e).exec_bad he) ha
  | enforce _ ih =>
    cases he with
    | enforce he =>
      obtain ⟨t, b, h1, h2, h3⟩ := ih he
      exact ⟨_, b, .enforce h1, .cons ⟨rfl, rfl, rfl, rfl⟩ h2, h3⟩
  | push _ ih =>
    cases he with
    | push he =>
      obtain ⟨t, b, h1, h2, h3⟩ := ih he
      exact ⟨_, b, .push h1, .cons rfl h2, h3⟩
  | pop _ ih =>
    cases he with
    | pop he =>
      obtain ⟨t, b, h1, h2, h3⟩ := ih he
      exact ⟨_, b, .pop h1, .cons trivial h2, h3⟩

theorem SShape.transfer_blind {R : α → β → Prop} {m₁ : Synth F α} {m₂ : Synth F β} (h : SShape R m₁ m₂) {t₁ : List (Ev F)}
    {a : α} (he : Exec m₁.run t₁ (some (.ok a))) :
    ∃ t₂ b, Blind m₂.run t₂ (some (.ok b)) ∧ List.Forall₂ Ev.Same t₁ t₂ ∧ R a b := by
  obtain ⟨t₂, b, h1, h2, h3⟩ := Shape.transfer_blind h he id
  cases b with
  | ok b => exact ⟨t₂, b, h1, h2, h3⟩
  | error e => exact h3.elim

theorem Closed.bind [PrimeField F] [Handle α] [Handle β] {n k : ℕ} {m : Synth F α} {g : α → Synth F β} (h : Closed n k m)
    (hg : ∀ k' a, k ≤ k' → Known n k' a → Closed n k' (g a)) : Closed n k (m >>= g) := by
  intro t r he ht
  rcases Exec.bind_inv he with ⟨h1, rfl⟩ | ⟨t1, t2, a, rfl, h1, h2⟩
  · exact ⟨(h t none h1 ht).1, by rintro _ ⟨⟩⟩
  · obtain ⟨ht1, ht2⟩ := numbered_append.1 ht
    obtain ⟨s1, q1⟩ := h t1 _ h1 ht1
    obtain ⟨z1, q1⟩ := q1 a rfl
    rw [scoped_append, numIn_append, numAux_append]
    rw [z1, Nat.add_zero] at ht2 ⊢
    cases a with
    | ok a =>
      obtain ⟨s2, q2⟩ := hg _ a (Nat.le_add_right _ _) (q1 a rfl) t2 r h2 ht2
      rw [← Nat.add_assoc, Nat.zero_add]
      exact ⟨⟨s1, s2⟩, q2⟩
    | error e =>
      cases h2
      exact ⟨⟨s1, trivial⟩, by rintro _ ⟨⟩; exact ⟨rfl, by rintro _ ⟨⟩⟩⟩

end Bellman
