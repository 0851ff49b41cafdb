import Verif.Spec.Scope

/-!
# Reasoning about the variables of a program

`Scope`: a weakest precondition for the number of allocated inputs and auxiliary variables.
-/

namespace Bellman

open PrimeField

set_option linter.unusedSectionVars false

variable {F : Type} [PrimeField F] {α β : Type}

/-- Every execution of the program with `n` inputs and `k` auxiliary variables allocated at the start mentions allocated variables
only, and ends with counts and result satisfying `Q`. Specification. -/
def Circ.Scope (Q : ℕ → ℕ → α → Prop) : Circ F α → ℕ → ℕ → Prop
  | .ret a, n, k => Q n k a
  | .panic _, _, _ => True
  | .alloc true _ _ c, n, k =>
    (∀ v, (c (.ok (.input n, v))).Scope Q (n + 1) k) ∧ ∀ e, (c (.error e)).Scope Q n k
  | .alloc false _ _ c, n, k =>
    (∀ v, (c (.ok (.aux k, v))).Scope Q n (k + 1)) ∧ ∀ e, (c (.error e)).Scope Q n k
  | .enforce _ a b c d, n, k => Known n k a ∧ Known n k b ∧ Known n k c ∧ d.Scope Q n k
  | .push _ d, n, k => d.Scope Q n k
  | .pop d, n, k => d.Scope Q n k

theorem Circ.Scope.mono {Q R : ℕ → ℕ → α → Prop} {c : Circ F α} {n k : ℕ} (h : c.Scope Q n k)
    (hQ : ∀ n' k' a, n ≤ n' → k ≤ k' → Q n' k' a → R n' k' a) : c.Scope R n k := by
  induction c generalizing n k with
  | ret a => exact hQ _ _ _ le_rfl le_rfl h
  | panic m => trivial
  | alloc i s f c ih =>
    cases i
    · exact ⟨fun v => ih _ (h.1 v) fun n' k' a hn hk => hQ n' k' a hn (by omega), fun e => ih _ (h.2 e) hQ⟩
    · exact ⟨fun v => ih _ (h.1 v) fun n' k' a hn hk => hQ n' k' a (by omega) hk, fun e => ih _ (h.2 e) hQ⟩
  | enforce s a b c d ih => exact ⟨h.1, h.2.1, h.2.2.1, ih h.2.2.2 hQ⟩
  | push s d ih => exact ih (n := n) (k := k) h hQ
  | pop d ih => exact ih (n := n) (k := k) h hQ

theorem Circ.Scope.bind {Q : ℕ → ℕ → α → Prop} {R : ℕ → ℕ → β → Prop} {c : Circ F α} {g : α → Circ F β} {n k : ℕ}
    (h : c.Scope Q n k) (hg : ∀ n' k' a, n ≤ n' → k ≤ k' → Q n' k' a → (g a).Scope R n' k') : (c.bind g).Scope R n k := by
  induction c generalizing n k with
  | ret a => exact hg _ _ _ le_rfl le_rfl h
  | panic m => trivial
  | alloc i s f c ih =>
    cases i
    · exact ⟨fun v => ih _ (h.1 v) fun n' k' a hn hk => hg n' k' a hn (by omega), fun e => ih _ (h.2 e) hg⟩
    · exact ⟨fun v => ih _ (h.1 v) fun n' k' a hn hk => hg n' k' a (by omega) hk, fun e => ih _ (h.2 e) hg⟩
  | enforce s a b c d ih => exact ⟨h.1, h.2.1, h.2.2.1, ih h.2.2.2 hg⟩
  | push s d ih => exact ih (n := n) (k := k) h hg
  | pop d ih => exact ih (n := n) (k := k) h hg

/-- The meaning of `Scope` on traces. -/
theorem Circ.Scope.exec {Q : ℕ → ℕ → α → Prop} {c : Circ F α} {n k : ℕ} {t : List (Ev F)} {r : Option α}
    (h : c.Scope Q n k) (he : Exec c t r) (ht : Numbered n k t) :
    Scoped n k t ∧ ∀ a, r = some a → Q (n + numIn t) (k + numAux t) a := by
  induction he generalizing n k with
  | ret a => exact ⟨trivial, by rintro _ ⟨⟩; exact h⟩
  | panic m => exact ⟨trivial, by rintro _ ⟨⟩⟩
  | @allocSkip i s f c t r x he ih =>
    cases i
    · obtain ⟨rfl, ht⟩ := ht
      obtain ⟨h1, h2⟩ := ih (h.1 none) ht
      refine ⟨h1, ?_⟩
      rw [numIn_aux, numAux_aux, show k + (numAux t + 1) = k + 1 + numAux t by omega]
      exact h2
    · obtain ⟨rfl, ht⟩ := ht
      obtain ⟨h1, h2⟩ := ih (h.1 none) ht
      refine ⟨h1, ?_⟩
      rw [numIn_input, numAux_input, show n + (numIn t + 1) = n + 1 + numIn t by omega]
      exact h2
  | @allocRun i s f c t r x v hf he ih =>
    cases i
    · obtain ⟨rfl, ht⟩ := ht
      obtain ⟨h1, h2⟩ := ih (h.1 _) ht
      refine ⟨h1, ?_⟩
      rw [numIn_aux, numAux_aux, show k + (numAux t + 1) = k + 1 + numAux t by omega]
      exact h2
    · obtain ⟨rfl, ht⟩ := ht
      obtain ⟨h1, h2⟩ := ih (h.1 _) ht
      refine ⟨h1, ?_⟩
      rw [numIn_input, numAux_input, show n + (numIn t + 1) = n + 1 + numIn t by omega]
      exact h2
  | @allocErr i s f c t r e he ih =>
    cases i
    · exact ih (h.2 e) ht
    · exact ih (h.2 e) ht
  | enforce he ih =>
    obtain ⟨h1, h2⟩ := ih h.2.2.2 ht
    refine ⟨⟨?_, h1⟩, ?_⟩
    · intro x hx
      simp only [List.mem_append] at hx
      rcases hx with (hx | hx) | hx
      · exact h.1 x hx
      · exact h.2.1 x hx
      · exact h.2.2.1 x hx
    · rw [numIn_enforce, numAux_enforce]; exact h2
  | push he ih =>
    obtain ⟨h1, h2⟩ := ih h ht
    exact ⟨h1, by rw [numIn_push, numAux_push]; exact h2⟩
  | pop he ih =>
    obtain ⟨h1, h2⟩ := ih h ht
    exact ⟨h1, by rw [numIn_pop, numAux_pop]; exact h2⟩

/-- `Scope` for programs that allocate no input and return a handle of known variables. Specification. -/
def SLocal [Handle α] (n k : ℕ) (m : Synth F α) : Prop :=
  m.run.Scope (fun n' k' r => n' = n ∧ ∀ a, r = .ok a → Known n k' a) n k

theorem SLocal.closed [Handle α] {n k : ℕ} {m : Synth F α} (h : SLocal n k m) : Closed n k m := by
  intro t r he ht
  obtain ⟨h1, h2⟩ := Circ.Scope.exec h he ht
  exact ⟨h1, fun res hr => ⟨by have := (h2 res hr).1; omega, (h2 res hr).2⟩⟩

section Rules

variable {n k : ℕ}

theorem Known.lift [Handle α] {k k' : ℕ} {a : α} (h : Known n k a) (hk : k ≤ k') : Known n k' a := Handle.mono le_rfl hk h

namespace SLocal

theorem pure [Handle α] {a : α} (h : Known n k a) : SLocal n k (pure a : Synth F α) :=
  ⟨rfl, by rintro _ ⟨⟩; exact h⟩

theorem throw [Handle α] {e : SynthesisError} : SLocal n k (throw e : Synth F α) :=
  ⟨rfl, by rintro _ ⟨⟩⟩

theorem panic [Handle α] {s : String} : SLocal n k (Synth.panic s : Synth F α) := trivial

theorem bind [Handle α] [Handle β] {m : Synth F α} {g : α → Synth F β} (h : SLocal n k m)
    (hg : ∀ k' a, k ≤ k' → Known n k' a → SLocal n k' (g a)) : SLocal n k (m >>= g) := by
  refine Circ.Scope.bind h ?_
  rintro n' k' r hn hk ⟨rfl, h2⟩
  cases r with
  | ok a => exact hg k' a hk (h2 a rfl)
  | error e => exact ⟨rfl, by rintro _ ⟨⟩⟩

theorem alloc (s : String) (f : Except SynthesisError F) : SLocal n k (Synth.alloc s f) := by
  refine ⟨fun v => ⟨rfl, ?_⟩, fun e => ⟨rfl, by rintro _ ⟨⟩⟩⟩
  rintro _ ⟨⟩
  exact ⟨Nat.lt_succ_self k, trivial⟩

theorem enforce (s : String) {a b c : LC F → LC F} (ha : Known n k (a ⟨[]⟩)) (hb : Known n k (b ⟨[]⟩))
    (hc : Known n k (c ⟨[]⟩)) : SLocal n k (Synth.enforce s a b c) :=
  ⟨ha, hb, hc, rfl, fun _ _ => trivial⟩

theorem inNs [Handle α] (s : String) {m : Synth F α} (h : SLocal n k m) : SLocal n k (Synth.inNs s m) := by
  show Circ.Scope _ (m.run.bind fun r => Circ.pop (.ret r)) n k
  refine Circ.Scope.bind h ?_
  intro n' k' r hn hk h
  exact h

end SLocal

/-! ### Combinations -/

theorem known_one (hn : 0 < n) : Known n k Var.one := hn
theorem known_nil : Known n k (⟨[]⟩ : LC F) := by intro x hx; cases hx
theorem known_zero : Known n k (LC.zero : LC F) := known_nil

variable {l o : LC F} {x : Var} {c : F}

theorem known_addTerm (h : Known n k l) (hx : Known n k x) : Known n k (l + (c, x)) := by
  intro y hy
  rcases List.mem_append.1 (show y ∈ l.terms ++ [(x, c)] from hy) with hy | hy
  · exact h y hy
  · rw [List.mem_singleton.1 hy]; exact hx

theorem known_subTerm (h : Known n k l) (hx : Known n k x) : Known n k (l - (c, x)) := known_addTerm (c := -c) h hx
theorem known_addVar (h : Known n k l) (hx : Known n k x) : Known n k (l + x) := known_addTerm (c := 1) h hx
theorem known_subVar (h : Known n k l) (hx : Known n k x) : Known n k (l - x) := known_subTerm (c := 1) h hx

theorem known_foldl (g : Var × F → F) {ts : List (Var × F)} (h : Known n k l) (ht : ∀ x ∈ ts, Known n k x.1) :
    Known n k (ts.foldl (fun acc s => acc.addTerm (g s, s.1)) l) := by
  induction ts generalizing l with
  | nil => exact h
  | cons y ts ih => exact ih (known_addTerm (c := g y) h (ht y (by simp))) fun x hx => ht x (by simp [hx])

theorem known_addLC (h : Known n k l) (ho : Known n k o) : Known n k (l + o) := known_foldl (fun s => s.2) h ho
theorem known_subLC (h : Known n k l) (ho : Known n k o) : Known n k (l - o) := known_foldl (fun s => -s.2) h ho
theorem known_addScaled (h : Known n k l) (ho : Known n k o) : Known n k (l + (c, o)) := known_foldl (fun s => s.2 * c) h ho
theorem known_subScaled (h : Known n k l) (ho : Known n k o) : Known n k (l - (c, o)) := known_foldl (fun s => -(s.2 * c)) h ho

theorem known_bit {a : AllocatedBit} (h : Known n k a) : Known n k a.var := h
theorem known_num {a : AllocatedNum F} (h : Known n k a) : Known n k a.var := h
theorem known_lcomb {a : Num F} (h : Known n k a) : Known n k a.lcomb := h
theorem known_pair [Handle α] [Handle β] {p : α × β} (h : Known n k p.1) (h' : Known n k p.2) : Known n k p := ⟨h, h'⟩
theorem known_fst [Handle α] [Handle β] {p : α × β} (h : Known n k p) : Known n k p.1 := h.1
theorem known_snd [Handle α] [Handle β] {p : α × β} (h : Known n k p) : Known n k p.2 := h.2

theorem known_lc (hn : 0 < n) {b : Boolean} (h : Known n k b) : Known n k (b.lc c) := by
  cases b with
  | is a => exact known_addTerm known_zero h
  | not a => exact known_subTerm (known_addTerm known_zero hn) h
  | constant v =>
    cases v
    · exact known_zero
    · exact known_addTerm known_zero hn

theorem known_neg {b : Boolean} (h : Known n k b) : Known n k b.neg := by cases b <;> exact h
theorem known_const {v : Bool} : Known n k (Boolean.constant v) := trivial

theorem known_list_nil [Handle α] : Known n k ([] : List α) := by intro x hx; cases hx
theorem known_list_cons [Handle α] {a : α} {l : List α} (h : Known n k a) (hl : Known n k l) : Known n k (a :: l) := by
  intro x hx
  rcases List.mem_cons.1 hx with rfl | hx
  · exact h
  · exact hl x hx
theorem known_list_append [Handle α] {l l' : List α} (h : Known n k l) (hl : Known n k l') : Known n k (l ++ l') := by
  intro x hx
  rcases List.mem_append.1 hx with hx | hx
  · exact h x hx
  · exact hl x hx

end Rules

/-- Closes goals `Known n k e`: by a hypothesis about fewer variables, or by the rule for the outermost operation. -/
macro "known" : tactic => `(tactic| (repeat' (first
  | assumption
  | exact trivial
  | with_reducible exact known_nil
  | with_reducible exact known_zero
  | with_reducible exact known_list_nil
  | (with_reducible exact Known.lift (by assumption) (by omega))
  | (with_reducible exact known_fst (Known.lift (by assumption) (by omega)))
  | (with_reducible exact known_snd (Known.lift (by assumption) (by omega)))
  | with_reducible apply known_addVar | with_reducible apply known_subVar
  | with_reducible apply known_addTerm | with_reducible apply known_subTerm
  | with_reducible apply known_addLC | with_reducible apply known_subLC
  | with_reducible apply known_addScaled | with_reducible apply known_subScaled
  | with_reducible apply known_lc | with_reducible apply known_neg | with_reducible apply known_one
  | with_reducible apply known_bit | with_reducible apply known_num | with_reducible apply known_lcomb
  | with_reducible apply known_list_cons | with_reducible apply known_list_append
  | with_reducible apply known_pair)))

end Bellman
