import Verif.Proofs.ConBoolean
import Verif.Spec.Groth16

/-!
# Reasoning about cancelling coefficients

A ghost assigns to every auxiliary variable its kind: `safe` variables have a non-zero coefficient in the `a` part of some earlier
constraint; the others are written into `a` parts with one sign only.
-/

namespace Bellman

open PrimeField

set_option linter.unusedSectionVars false

variable {F : Type} [PrimeField F] {α β : Type} {n k : ℕ}

/-! ### Variables that are written -/

/-- The variable is written with a non-zero coefficient. Specification. -/
def LC.Writes (l : LC F) (x : Var) : Prop := ∃ c, c ≠ 0 ∧ (x, c) ∈ l.terms

section
variable {l o : LC F} {x y : Var} {c : F}

theorem not_writes_nil : ¬ (⟨[]⟩ : LC F).Writes x := by rintro ⟨c, _, h⟩; cases h
theorem not_writes_zero : ¬ (LC.zero : LC F).Writes x := not_writes_nil

theorem writes_addTerm (h : (l + (c, y)).Writes x) : l.Writes x ∨ x = y := by
  obtain ⟨d, hd, h⟩ := h
  rcases List.mem_append.1 (show (x, d) ∈ l.terms ++ [(y, c)] from h) with h | h
  · exact .inl ⟨d, hd, h⟩
  · simp only [List.mem_singleton, Prod.mk.injEq] at h
    exact .inr h.1

theorem writes_subTerm (h : (l - (c, y)).Writes x) : l.Writes x ∨ x = y := writes_addTerm (c := -c) h
theorem writes_addVar (h : (l + y).Writes x) : l.Writes x ∨ x = y := writes_addTerm (c := 1) h
theorem writes_subVar (h : (l - y).Writes x) : l.Writes x ∨ x = y := writes_subTerm (c := 1) h

theorem writes_foldl (g : Var × F → F) (hg : ∀ s, g s ≠ 0 → s.2 ≠ 0) (ts : List (Var × F))
    (h : (ts.foldl (fun acc s => acc.addTerm (g s, s.1)) l).Writes x) : l.Writes x ∨ (⟨ts⟩ : LC F).Writes x := by
  induction ts generalizing l with
  | nil => exact .inl h
  | cons t ts ih =>
    rcases ih h with ⟨d, hd, h⟩ | ⟨d, hd, h⟩
    · rcases List.mem_append.1 (show (x, d) ∈ l.terms ++ [(t.1, g t)] from h) with h | h
      · exact .inl ⟨d, hd, h⟩
      · simp only [List.mem_singleton, Prod.mk.injEq] at h
        refine .inr ⟨t.2, hg t (h.2 ▸ hd), ?_⟩
        rw [h.1]
        exact List.mem_cons_self
    · exact .inr ⟨d, hd, List.mem_cons_of_mem _ h⟩

theorem writes_addLC (h : (l + o).Writes x) : l.Writes x ∨ o.Writes x := writes_foldl (fun s => s.2) (fun _ h => h) o.terms h
theorem writes_subLC (h : (l - o).Writes x) : l.Writes x ∨ o.Writes x :=
  writes_foldl (fun s => -s.2) (fun _ h => neg_ne_zero.1 h) o.terms h
theorem writes_addScaled (h : (l + (c, o)).Writes x) : l.Writes x ∨ o.Writes x :=
  writes_foldl (fun s => s.2 * c) (fun _ h => left_ne_zero_of_mul h) o.terms h

theorem coeffOf_not_writes (h : ¬ l.Writes x) : l.coeffOf x = 0 := by
  unfold LC.coeffOf
  refine List.sum_eq_zero fun d hd => ?_
  obtain ⟨t, ht, rfl⟩ := List.mem_map.1 hd
  split
  · rename_i e
    by_contra hne
    exact h ⟨t.2, hne, by rw [← e]; exact ht⟩
  · rfl

theorem Writes.known {j : ℕ} (hl : Known n k l) (h : l.Writes (.aux j)) : j < k := by
  obtain ⟨d, _, h⟩ := h
  exact hl _ h

end

/-! ### Kinds -/

/-- What is known about the `a` coefficients of a variable: `safe` means that one of them is not zero; `pos` and `neg` say with which sign
it is written; `own i` says in which place of a state its literals are kept. Specification. -/
inductive Kind where
  | safe
  | pos
  | neg
  | own (i : ℕ)

/-- Variables below `k` keep their kind or become safe. Specification. -/
def Ext (k : ℕ) (g g' : ℕ → Kind) : Prop := ∀ j < k, g' j = g j ∨ g' j = .safe

theorem Ext.refl (g : ℕ → Kind) : Ext k g g := fun _ _ => .inl rfl

theorem Ext.trans {k' : ℕ} {g g' g'' : ℕ → Kind} (hk : k ≤ k') (h : Ext k g g') (h' : Ext k' g' g'') : Ext k g g'' := fun j hj => by
  rcases h' j (by omega) with h1 | h1
  · rw [h1]; exact h j hj
  · exact .inr h1

/-- Some constraint has a non-zero `a` coefficient for the variable. Specification. -/
def HitA (rows : List (Row F)) (j : ℕ) : Prop := ∃ r ∈ rows, r.1.coeffOf (.aux j) ≠ 0
/-- Some constraint has a non-zero `b` coefficient for the variable. Specification. -/
def HitB (rows : List (Row F)) (x : Var) : Prop := ∃ r ∈ rows, r.2.1.coeffOf x ≠ 0
/-- Some constraint writes the variable in its `a` part. Specification. -/
def WritesA (rows : List (Row F)) (j : ℕ) : Prop := ∃ r ∈ rows, r.1.Writes (.aux j)
/-- Some constraint writes the variable in its `b` part. Specification. -/
def WritesB (rows : List (Row F)) (x : Var) : Prop := ∃ r ∈ rows, r.2.1.Writes x

/-- What the new constraints do, given the kinds before and after. Specification. -/
structure Fine (g g' : ℕ → Kind) (rows : List (Row F)) : Prop where
  safe : ∀ j, g' j = .safe → g j = .safe ∨ HitA rows j
  a : ∀ j, WritesA rows j → g j = .safe ∨ HitA rows j
  b : ∀ x, WritesB rows x → HitB rows x

theorem HitA.append {r s : List (Row F)} {j : ℕ} (h : HitA r j ∨ HitA s j) : HitA (r ++ s) j := by
  rcases h with ⟨q, hq, h⟩ | ⟨q, hq, h⟩
  · exact ⟨q, List.mem_append_left _ hq, h⟩
  · exact ⟨q, List.mem_append_right _ hq, h⟩

theorem HitB.append {r s : List (Row F)} {x : Var} (h : HitB r x ∨ HitB s x) : HitB (r ++ s) x := by
  rcases h with ⟨q, hq, h⟩ | ⟨q, hq, h⟩
  · exact ⟨q, List.mem_append_left _ hq, h⟩
  · exact ⟨q, List.mem_append_right _ hq, h⟩

theorem Fine.append {g g' g'' : ℕ → Kind} {r s : List (Row F)} (h : Fine g g' r) (h' : Fine g' g'' s) : Fine g g'' (r ++ s) where
  safe j hj := by
    rcases h'.safe j hj with h1 | h1
    · exact (h.safe j h1).imp_right fun h => .append (.inl h)
    · exact .inr (.append (.inr h1))
  a := by
    rintro j ⟨q, hq, hw⟩
    rcases List.mem_append.1 hq with hq | hq
    · exact (h.a j ⟨q, hq, hw⟩).imp_right fun h => .append (.inl h)
    · rcases h'.a j ⟨q, hq, hw⟩ with h1 | h1
      · exact (h.safe j h1).imp_right fun h => .append (.inl h)
      · exact .inr (.append (.inr h1))
  b := by
    rintro x ⟨q, hq, hw⟩
    rcases List.mem_append.1 hq with hq | hq
    · exact .append (.inl (h.b x ⟨q, hq, hw⟩))
    · exact .append (.inr (h'.b x ⟨q, hq, hw⟩))

theorem Fine.nil (g : ℕ → Kind) : Fine g g ([] : List (Row F)) where
  safe _ h := .inl h
  a := by rintro j ⟨_, h, _⟩; cases h
  b := by rintro j ⟨_, h, _⟩; cases h

/-- The kinds after a constraint with the given `a` part. Specification. -/
noncomputable def hit (a : LC F) (g : ℕ → Kind) : ℕ → Kind := by
  classical exact fun j => if a.coeffOf (.aux j) ≠ 0 then .safe else g j

theorem hit_of {a : LC F} {g : ℕ → Kind} {j : ℕ} (h : a.coeffOf (.aux j) ≠ 0) : hit a g j = .safe := if_pos h

theorem hit_ext (a : LC F) (g : ℕ → Kind) : Ext k g (hit a g) := fun j _ => by
  unfold hit
  split
  · exact .inr rfl
  · exact .inl rfl

/-- The row condition. Specification. -/
structure RowFine (g : ℕ → Kind) (a b : LC F) : Prop where
  a : ∀ j, a.Writes (.aux j) → g j = .safe ∨ a.coeffOf (.aux j) ≠ 0
  b : ∀ x, b.Writes x → b.coeffOf x ≠ 0

theorem RowFine.fine {g : ℕ → Kind} {a b c : LC F} (h : RowFine g a b) : Fine g (hit a g) [(a, b, c)] where
  safe j hj := by
    unfold hit at hj
    split at hj
    · rename_i h1; exact .inr ⟨_, List.mem_singleton_self _, h1⟩
    · exact .inl hj
  a := by
    rintro j ⟨q, hq, hw⟩
    rw [List.mem_singleton] at hq
    subst hq
    exact (h.a j hw).imp_right fun h => ⟨_, List.mem_singleton_self _, h⟩
  b := by
    rintro x ⟨q, hq, hw⟩
    rw [List.mem_singleton] at hq
    subst hq
    exact ⟨_, List.mem_singleton_self _, h.b x hw⟩

/-! ### Programs -/

/-- Every successful execution that starts with the given kinds is fine, and ends with kinds and a result as stated.
Specification. -/
def SNC (n k : ℕ) (g : ℕ → Kind) (Q : (ℕ → Kind) → α → Prop) (m : Synth F α) : Prop :=
  ∀ t a, Exec m.run t (some (.ok a)) → Numbered n k t → ∃ g', Ext k g g' ∧ Fine g g' (consOf t) ∧ Q g' a

namespace SNC

variable {g : ℕ → Kind} {Q : (ℕ → Kind) → α → Prop}

theorem mono {Q' : (ℕ → Kind) → α → Prop} {m : Synth F α} (h : SNC n k g Q m) (hq : ∀ g' a, Ext k g g' → Q g' a → Q' g' a) :
    SNC n k g Q' m := fun t a he ht => by
  obtain ⟨g', h1, h2, h3⟩ := h t a he ht
  exact ⟨g', h1, h2, hq g' a h1 h3⟩

theorem andPost {P : α → Prop} {m : Synth F α} (h : SNC n k g Q m) (hp : SPost n k P m) :
    SNC n k g (fun g' a => Q g' a ∧ P a) m := fun t a he ht => by
  obtain ⟨g', h1, h2, h3⟩ := h t a he ht
  exact ⟨g', h1, h2, h3, hp t a he ht⟩

theorem pure {a : α} (h : Q g a) : SNC n k g Q (Pure.pure a : Synth F α) := by
  intro t b he _
  cases he
  exact ⟨g, .refl g, .nil g, h⟩

theorem throw {e : SynthesisError} : SNC n k g Q (throw e : Synth F α) := by
  intro t b he _
  cases he

theorem panic {s : String} : SNC n k g Q (Synth.panic s : Synth F α) := by
  intro t b he _
  cases he

theorem inNs (s : String) {m : Synth F α} (h : SNC n k g Q m) : SNC n k g Q (Synth.inNs s m) := by
  intro t r he ht
  cases he with
  | push he =>
    rcases Exec.bind_inv he with ⟨_, h2⟩ | ⟨t1, t2, a, rfl, h1, h2⟩
    · cases h2
    · obtain ⟨ht1, ht2⟩ := numbered_append.1 (show Numbered n k (t1 ++ t2) from ht)
      cases h2 with
      | pop h2 =>
        cases h2
        rw [consOf_push, consOf_append]
        simp only [consOf_pop, consOf_nil, List.append_nil]
        exact h _ _ h1 ht1

theorem bind [Handle β] {P : (ℕ → Kind) → β → Prop} {m : Synth F β} {f : β → Synth F α} (h : SNC n k g P m) (hc : SLocal n k m)
    (hf : ∀ k' g' b, k ≤ k' → Ext k g g' → Known n k' b → P g' b → SNC n k' g' Q (f b)) : SNC n k g Q (m >>= f) := by
  intro t r he ht
  rcases Exec.bind_inv he with ⟨_, h2⟩ | ⟨t1, t2, b, rfl, h1, h2⟩
  · cases h2
  · obtain ⟨ht1, ht2⟩ := numbered_append.1 ht
    obtain ⟨z1, q1⟩ := (hc.closed t1 _ h1 ht1).2 b rfl
    rw [z1, Nat.add_zero] at ht2
    cases b with
    | ok b =>
      obtain ⟨g', e1, f1, p1⟩ := h _ _ h1 ht1
      obtain ⟨g'', e2, f2, p2⟩ := hf _ g' b (Nat.le_add_right _ _) e1 (q1 b rfl) p1 _ _ h2 ht2
      rw [consOf_append]
      exact ⟨g'', e1.trans (Nat.le_add_right _ _) e2, f1.append f2, p2⟩
    | error e => cases h2

/-- The kind of a new variable can be chosen freely, except `safe`. -/
theorem allocBind {s : String} {f : Except SynthesisError F} {q : Var × Option F → Synth F α} {κ : Kind} (hκ : κ ≠ .safe)
    (hg : ∀ g', Ext k g g' → g' k = κ → ∀ v, SNC n (k + 1) g' Q (q (.aux k, v))) : SNC n k g Q (Synth.alloc s f >>= q) := by
  classical
  have key : ∀ v t a, Exec (q (.aux k, v)).run t (some (.ok a)) → Numbered n (k + 1) t →
      ∃ g', Ext k g g' ∧ Fine g g' (consOf t) ∧ Q g' a := by
    intro v t a he ht
    have hext : Ext k g (Function.update g k κ) := fun j hj => .inl (Function.update_of_ne (by omega) ..)
    obtain ⟨g', e1, f1, p1⟩ := hg (Function.update g k κ) hext (Function.update_self ..) v t a he ht
    have hs : ∀ j, Function.update g k κ j = .safe → g j = .safe := by
      intro j hj
      by_cases h : j = k
      · subst h; rw [Function.update_self] at hj; exact absurd hj hκ
      · rwa [Function.update_of_ne h] at hj
    exact ⟨g', hext.trans (Nat.le_succ _) e1, ⟨fun j hj => (f1.safe j hj).imp_left (hs j), fun j hj => (f1.a j hj).imp_left (hs j), f1.b⟩, p1⟩
  intro t r he ht
  rcases (show Exec (Circ.alloc false s f fun a => _) t _ from he) with _ | _ | ⟨x, he⟩ | ⟨x, v, hf, he⟩ | ⟨e, he⟩
  · obtain ⟨rfl, ht⟩ := ht
    rw [consOf_alloc]
    exact key none _ _ he ht
  · obtain ⟨rfl, ht⟩ := ht
    rw [consOf_alloc]
    exact key (some v) _ _ he ht
  · cases he

theorem captureBind {s : String} {f : Except SynthesisError Bool} {q : Var × Option Bool → Synth F α} {κ : Kind} (hκ : κ ≠ .safe)
    (hg : ∀ g', Ext k g g' → g' k = κ → ∀ v, SNC n (k + 1) g' Q (q (.aux k, v))) : SNC n k g Q (allocCapture s f >>= q) := by
  unfold allocCapture
  rw [bind_assoc]
  refine SNC.allocBind hκ fun g' e h v => ?_
  rw [pure_bind]
  exact hg g' e h _

theorem inputBind {s : String} {f : Except SynthesisError F} {q : Var × Option F → Synth F α}
    (hg : ∀ v, SNC (n + 1) k g Q (q (.input n, v))) : SNC n k g Q (Synth.allocInput s f >>= q) := by
  intro t r he ht
  rcases (show Exec (Circ.alloc true s f fun a => _) t _ from he) with _ | _ | ⟨x, he⟩ | ⟨x, v, hf, he⟩ | ⟨e, he⟩
  · obtain ⟨rfl, ht⟩ := ht
    rw [consOf_alloc]
    exact hg none _ _ he ht
  · obtain ⟨rfl, ht⟩ := ht
    rw [consOf_alloc]
    exact hg (some v) _ _ he ht
  · cases he

theorem enforceBind {s : String} {a b c : LC F → LC F} {q : Unit → Synth F α} (h : RowFine g (a ⟨[]⟩) (b ⟨[]⟩))
    (hg : SNC n k (hit (a ⟨[]⟩) g) Q (q ())) : SNC n k g Q (Synth.enforce s a b c >>= q) := by
  intro t r he ht
  rcases (show Exec (Circ.enforce s _ _ _ _) t _ from he) with _ | _ | _ | _ | _ | he
  obtain ⟨g', e1, f1, p1⟩ := hg _ _ he ht
  rw [consOf_enforce]
  exact ⟨g', (hit_ext _ g).trans le_rfl e1, (h.fine (c := c ⟨[]⟩)).append f1, p1⟩

end SNC

/-- What a fine execution of a whole circuit means for its constraints. -/
theorem SNC.noCancel {m : Synth F α} {Q : (ℕ → Kind) → α → Prop} (h : SNC 1 0 (fun _ => .pos) Q m) {t : List (Ev F)} {a : α}
    (he : Exec m.run t (some (.ok a))) (ht : Numbered 1 0 t) : (Qap.ofTrace t).NoCancel := by
  obtain ⟨g', -, hf, -⟩ := h t a he ht
  have hr : (Qap.ofTrace t).rows = consOf t ++ inputRows (numIn t + 1) := rfl
  intro x hx
  constructor
  · rintro ⟨r, hr1, c, hc, hm⟩
    rw [hr] at hr1 ⊢
    rcases x with i | j
    · have hi : i < numIn t + 1 := by
        rcases List.mem_append.1 hx with h | h
        · obtain ⟨i', h1, h2⟩ := List.mem_map.1 h
          cases h2
          exact List.mem_range.1 h1
        · obtain ⟨i', _, h2⟩ := List.mem_map.1 h
          cases h2
      exact ⟨(⟨[(.input i, 1)]⟩, ⟨[]⟩, ⟨[]⟩), List.mem_append_right _ (List.mem_map.2 ⟨i, List.mem_range.2 hi, rfl⟩), by simp [LC.coeffOf]⟩
    · rcases List.mem_append.1 hr1 with hr1 | hr1
      · rcases hf.a j ⟨r, hr1, c, hc, hm⟩ with h1 | ⟨q, hq, h1⟩
        · cases h1
        · exact ⟨q, List.mem_append_left _ hq, h1⟩
      · obtain ⟨i, _, rfl⟩ := List.mem_map.1 hr1
        simp at hm
  · rintro ⟨r, hr1, c, hc, hm⟩
    rw [hr] at hr1 ⊢
    rcases List.mem_append.1 hr1 with hr1 | hr1
    · obtain ⟨q, hq, h1⟩ := hf.b x ⟨r, hr1, c, hc, hm⟩
      exact ⟨q, List.mem_append_left _ hq, h1⟩
    · obtain ⟨i, _, rfl⟩ := List.mem_map.1 hr1
      cases hm

end Bellman
