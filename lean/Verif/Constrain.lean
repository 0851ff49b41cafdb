import Verif.Scope
import Verif.Proofs.ScopeTrace
import Verif.Spec.Constrained

/-!
# Reasoning about constrained variables and the number of constraints
-/

namespace Bellman

open PrimeField

set_option linter.unusedSectionVars false

variable {F : Type} [PrimeField F] {α β : Type}

/-! ### Coefficients -/

/-- The coefficient of a variable is the value under the assignment that is one there and zero elsewhere. -/
theorem LC.coeffOf_eq (l : LC F) (x : Var) : l.coeffOf x = l.eval fun y => if y = x then 1 else 0 := by
  unfold LC.coeffOf LC.eval
  congr 1
  refine List.map_congr_left fun t _ => ?_
  dsimp only
  split <;> simp

section
variable (l o : LC F) (x y : Var) (c : F)
theorem coeffOf_nil : (⟨[]⟩ : LC F).coeffOf x = 0 := rfl
theorem coeffOf_zero : (LC.zero : LC F).coeffOf x = 0 := rfl
theorem coeffOf_addTerm : (l + (c, y)).coeffOf x = l.coeffOf x + if y = x then c else 0 := by
  rw [LC.coeffOf_eq, LC.coeffOf_eq, LC.eval_addTerm]; simp
theorem coeffOf_subTerm : (l - (c, y)).coeffOf x = l.coeffOf x - if y = x then c else 0 := by
  rw [LC.coeffOf_eq, LC.coeffOf_eq, LC.eval_subTerm]; simp
theorem coeffOf_addVar : (l + y).coeffOf x = l.coeffOf x + if y = x then 1 else 0 := by
  rw [LC.coeffOf_eq, LC.coeffOf_eq, LC.eval_addVar]
theorem coeffOf_subVar : (l - y).coeffOf x = l.coeffOf x - if y = x then 1 else 0 := by
  rw [LC.coeffOf_eq, LC.coeffOf_eq, LC.eval_subVar]
theorem coeffOf_addLC : (l + o).coeffOf x = l.coeffOf x + o.coeffOf x := by
  simp only [LC.coeffOf_eq, LC.eval_addLC]
theorem coeffOf_subLC : (l - o).coeffOf x = l.coeffOf x - o.coeffOf x := by
  simp only [LC.coeffOf_eq, LC.eval_subLC]
theorem coeffOf_addScaled : (l + (c, o)).coeffOf x = l.coeffOf x + c * o.coeffOf x := by
  simp only [LC.coeffOf_eq, LC.eval_addScaled]
end

/-- A variable that does not exist yet has coefficient zero. -/
theorem coeffOf_unknown {n k j : ℕ} {l : LC F} (h : Known n k l) (hj : k ≤ j) : l.coeffOf (.aux j) = 0 := by
  unfold LC.coeffOf
  refine List.sum_eq_zero fun c hc => ?_
  obtain ⟨t, ht, rfl⟩ := List.mem_map.1 hc
  rw [if_neg]
  rintro e
  have : Var.InRange n k t.1 := h t ht
  rw [e] at this
  exact absurd this (by show ¬ j < k; omega)

theorem known_ne {n k j : ℕ} {x : Var} (h : Known n k x) (hj : k ≤ j) : x ≠ .aux j := by
  rintro rfl
  exact absurd (show j < k from h) (by omega)

theorem consOf_append (s t : List (Ev F)) : consOf (s ++ t) = consOf s ++ consOf t := by simp [consOf]

theorem Constrained.left {r s : List (Row F)} {x : Var} (h : Constrained r x) : Constrained (r ++ s) x := by
  obtain ⟨q, hq, h⟩ := h; exact ⟨q, List.mem_append_left _ hq, h⟩
theorem Constrained.right {r s : List (Row F)} {x : Var} (h : Constrained s x) : Constrained (r ++ s) x := by
  obtain ⟨q, hq, h⟩ := h; exact ⟨q, List.mem_append_right _ hq, h⟩

/-- The row has a non-zero coefficient for the variable. Specification. -/
def RowOn (a b c : LC F) (x : Var) : Prop := a.coeffOf x ≠ 0 ∨ b.coeffOf x ≠ 0 ∨ c.coeffOf x ≠ 0

/-- The program makes at most `N` constraints, allocates at most `A` variables and, when it succeeds, its constraints constrain the
variables in `D` and those it allocates. Specification. -/
def SCon (n k : ℕ) (D : Var → Prop) (N A : ℕ) (m : Synth F α) : Prop :=
  ∀ t r, Exec m.run t r → Numbered n k t → (consOf t).length ≤ N ∧ numAux t ≤ A ∧
    ∀ a, r = some (.ok a) → ∀ x, (D x ∨ ∃ j, x = .aux j ∧ k ≤ j ∧ j < k + numAux t) → Constrained (consOf t) x

/-- No pending obligations. Specification. -/
abbrev noVar : Var → Prop := fun _ => False

namespace SCon

variable {n k N N' A A' : ℕ} {D D' : Var → Prop}

theorem le {m : Synth F α} (h : SCon n k D N A m) (hN : N ≤ N') (hA : A ≤ A') : SCon n k D N' A' m :=
  fun t r he ht => ⟨(h t r he ht).1.trans hN, (h t r he ht).2.1.trans hA, (h t r he ht).2.2⟩

theorem constraining {m : Synth F α} (h : SCon n k noVar N A m) : Constraining n k m :=
  fun t a he ht j h1 h2 => (h t _ he ht).2.2 a rfl _ (.inr ⟨j, rfl, h1, h2⟩)

theorem atMost {m : Synth F α} (h : SCon n k D N A m) : AtMost n k N A m :=
  fun t r he ht => ⟨(h t r he ht).1, (h t r he ht).2.1⟩

theorem pure {a : α} : SCon n k noVar N A (pure a : Synth F α) := by
  intro t r he ht
  cases he
  refine ⟨Nat.zero_le _, Nat.zero_le _, ?_⟩
  rintro _ _ x (h | ⟨j, _, h1, h2⟩)
  · exact h.elim
  · rw [numAux_nil] at h2; omega

theorem throw {e : SynthesisError} : SCon n k D N A (throw e : Synth F α) := by
  intro t r he ht
  cases he
  exact ⟨Nat.zero_le _, Nat.zero_le _, by rintro _ ⟨⟩⟩

theorem panic {s : String} : SCon n k D N A (Synth.panic s : Synth F α) := by
  intro t r he ht
  cases he
  exact ⟨Nat.zero_le _, Nat.zero_le _, by rintro _ ⟨⟩⟩

theorem inNs (s : String) {m : Synth F α} (h : SCon n k D N A m) : SCon n k D N A (Synth.inNs s m) := by
  intro t r he ht
  cases he with
  | push he =>
    rcases Exec.bind_inv he with ⟨h1, rfl⟩ | ⟨t1, t2, a, rfl, h1, h2⟩
    · exact ⟨(h _ _ h1 ht).1, (h _ _ h1 ht).2.1, by rintro _ ⟨⟩⟩
    · obtain ⟨ht1, ht2⟩ := numbered_append.1 (show Numbered n k (t1 ++ t2) from ht)
      cases h2 with
      | pop h2 =>
        cases h2
        obtain ⟨l1, m1, c1⟩ := h _ _ h1 ht1
        rw [consOf_push, consOf_append, numAux_push, numAux_append]
        simp only [consOf_pop, consOf_nil, List.append_nil, numAux_pop, numAux_nil, Nat.add_zero]
        exact ⟨l1, m1, c1⟩

theorem allocBind {s : String} {f : Except SynthesisError F} {g : Var × Option F → Synth F β}
    (hg : ∀ v, SCon n (k + 1) (fun x => D x ∨ x = .aux k) N A (g (.aux k, v))) :
    SCon n k D N (A + 1) (Synth.alloc s f >>= g) := by
  have key : ∀ v t r, Exec (g (.aux k, v)).run t r → Numbered n (k + 1) t → ∀ w : Option F,
      (consOf (.alloc false s (.aux k) w :: t)).length ≤ N ∧ numAux (.alloc false s (.aux k) w :: t) ≤ A + 1 ∧
        ∀ a, r = some (.ok a) → ∀ x,
        (D x ∨ ∃ j, x = .aux j ∧ k ≤ j ∧ j < k + numAux (.alloc false s (.aux k) w :: t)) →
          Constrained (consOf (.alloc false s (.aux k) w :: t)) x := by
    intro v t r he ht w
    obtain ⟨h1, h3, h2⟩ := hg v t r he ht
    rw [consOf_alloc, numAux_aux]
    refine ⟨h1, by omega, fun a ha x hx => h2 a ha x ?_⟩
    rcases hx with hx | ⟨j, rfl, hj1, hj2⟩
    · exact .inl (.inl hx)
    · by_cases h : j = k
      · exact .inl (.inr (by rw [h]))
      · exact .inr ⟨j, rfl, by omega, by omega⟩
  intro t r he ht
  rcases (show Exec (Circ.alloc false s f fun a => _) t r from he) with _ | _ | ⟨x, he⟩ | ⟨x, v, hf, he⟩ | ⟨e, he⟩
  · obtain ⟨rfl, ht⟩ := ht
    exact key none _ _ he ht _
  · obtain ⟨rfl, ht⟩ := ht
    exact key (some v) _ _ he ht _
  · cases he
    exact ⟨Nat.zero_le _, Nat.zero_le _, by rintro _ ⟨⟩⟩

theorem enforceBind {s : String} {a b c : LC F → LC F} {g : Unit → Synth F β} (D' : Var → Prop)
    (h : ∀ x, D x → D' x ∨ RowOn (a ⟨[]⟩) (b ⟨[]⟩) (c ⟨[]⟩) x) (hg : SCon n k D' N A (g ())) :
    SCon n k D (N + 1) A (Synth.enforce s a b c >>= g) := by
  intro t r he ht
  rcases (show Exec (Circ.enforce s _ _ _ _) t r from he) with _ | _ | _ | _ | _ | he
  obtain ⟨h1, h3, h2⟩ := hg _ _ he ht
  rw [consOf_enforce, numAux_enforce]
  refine ⟨Nat.succ_le_succ h1, h3, fun z hz x hx => ?_⟩
  rcases hx with hx | hx
  · rcases h x hx with hd | hd
    · exact (h2 z hz x (.inl hd)).right (r := [_])
    · exact ⟨_, List.mem_cons_self, hd⟩
  · exact (h2 z hz x (.inr hx)).right (r := [_])

theorem enforce {s : String} {a b c : LC F → LC F} (h : ∀ x, D x → RowOn (a ⟨[]⟩) (b ⟨[]⟩) (c ⟨[]⟩) x) :
    SCon n k D 1 0 (Synth.enforce s a b c) := by
  have := enforceBind (n := n) (k := k) (N := 0) (A := 0) (s := s) (g := fun _ => (Pure.pure () : Synth F Unit)) noVar
    (fun x hx => .inr (h x hx)) pure
  exact this

theorem inputBind {s : String} {f : Except SynthesisError F} {g : Var × Option F → Synth F β}
    (hg : ∀ v, SCon (n + 1) k D N A (g (.input n, v))) : SCon n k D N A (Synth.allocInput s f >>= g) := by
  intro t r he ht
  rcases (show Exec (Circ.alloc true s f fun a => _) t r from he) with _ | _ | ⟨x, he⟩ | ⟨x, v, hf, he⟩ | ⟨e, he⟩
  · obtain ⟨rfl, ht⟩ := ht
    rw [consOf_alloc, numAux_input]
    exact hg none _ _ he ht
  · obtain ⟨rfl, ht⟩ := ht
    rw [consOf_alloc, numAux_input]
    exact hg (some v) _ _ he ht
  · cases he
    exact ⟨Nat.zero_le _, Nat.zero_le _, by rintro _ ⟨⟩⟩

/-- `AllocatedNum::alloc` in a namespace: the number is a pending obligation. -/
theorem numBind {s : String} {f : Except SynthesisError F} {g : AllocatedNum F → Synth F β}
    (hg : ∀ v, SCon n (k + 1) (fun x => D x ∨ x = .aux k) N A (g ⟨v, .aux k⟩)) :
    SCon n k D N (A + 1) (Synth.inNs s (AllocatedNum.alloc f) >>= g) := by
  have key : ∀ v t r, Exec (g ⟨v, .aux k⟩).run t r → Numbered n (k + 1) t → ∀ w : Option F,
      (consOf (.push s :: .alloc false "num" (.aux k) w :: .pop :: t)).length ≤ N ∧
      numAux (.push s :: .alloc false "num" (.aux k) w :: .pop :: t) ≤ A + 1 ∧
        ∀ a, r = some (.ok a) → ∀ x,
        (D x ∨ ∃ j, x = .aux j ∧ k ≤ j ∧ j < k + numAux (.push s :: .alloc false "num" (.aux k) w :: .pop :: t)) →
          Constrained (consOf (.push s :: .alloc false "num" (.aux k) w :: .pop :: t)) x := by
    intro v t r he ht w
    obtain ⟨h1, h3, h2⟩ := hg v t r he ht
    rw [consOf_push, consOf_alloc, consOf_pop, numAux_push, numAux_aux, numAux_pop]
    refine ⟨h1, by omega, fun a ha x hx => h2 a ha x ?_⟩
    rcases hx with hx | ⟨j, rfl, hj1, hj2⟩
    · exact .inl (.inl hx)
    · by_cases h : j = k
      · exact .inl (.inr (by rw [h]))
      · exact .inr ⟨j, rfl, by omega, by omega⟩
  intro t r he ht
  rcases (show Exec (Circ.push s (Circ.alloc false "num" f fun a => _)) t r from he) with _ | _ | _ | _ | _ | _ | he
  rcases he with _ | _ | ⟨x, he⟩ | ⟨x, v, hf, he⟩ | ⟨e, he⟩
  · rcases he with _ | _ | _ | _ | _ | _ | _ | he
    obtain ⟨rfl, ht⟩ := ht
    exact key none _ _ he ht _
  · rcases he with _ | _ | _ | _ | _ | _ | _ | he
    obtain ⟨rfl, ht⟩ := ht
    exact key (some v) _ _ he ht _
  · rcases he with _ | _ | _ | _ | _ | _ | _ | he
    cases he
    exact ⟨Nat.zero_le _, Nat.zero_le _, by rintro _ ⟨⟩⟩

/-- What is asked of a row that has to constrain a single variable. -/
theorem only {a b c : LC F} {y : Var} (h : RowOn a b c y) : ∀ x, (noVar x ∨ x = y) → noVar x ∨ RowOn a b c x := by
  rintro x (hx | rfl)
  · exact hx.elim
  · exact .inr h

end SCon

/-- A fact about the result of a successful execution. Specification. -/
def SPost (n k : ℕ) (Q : α → Prop) (m : Synth F α) : Prop :=
  ∀ t a, Exec m.run t (some (.ok a)) → Numbered n k t → Q a

namespace SPost

variable {n k : ℕ} {Q : α → Prop}

theorem pure {a : α} (h : Q a) : SPost n k Q (Pure.pure a : Synth F α) := by
  intro t b he _
  cases he
  exact h

theorem allocBind {s : String} {f : Except SynthesisError F} {g : Var × Option F → Synth F α}
    (hg : ∀ v, SPost n (k + 1) Q (g (.aux k, v))) : SPost n k Q (Synth.alloc s f >>= g) := by
  intro t r he ht
  rcases (show Exec (Circ.alloc false s f fun a => _) t _ from he) with _ | _ | ⟨x, he⟩ | ⟨x, v, hf, he⟩ | ⟨e, he⟩
  · obtain ⟨rfl, ht⟩ := ht
    exact hg none _ _ he ht
  · obtain ⟨rfl, ht⟩ := ht
    exact hg (some v) _ _ he ht
  · cases he

theorem enforceBind {s : String} {a b c : LC F → LC F} {g : Unit → Synth F α} (hg : SPost n k Q (g ())) :
    SPost n k Q (Synth.enforce s a b c >>= g) := by
  intro t r he ht
  rcases (show Exec (Circ.enforce s _ _ _ _) t _ from he) with _ | _ | _ | _ | _ | he
  exact hg _ _ he ht

theorem inNs (s : String) {m : Synth F α} (h : SPost n k Q m) : SPost n k Q (Synth.inNs s m) := by
  intro t r he ht
  cases he with
  | push he =>
    rcases Exec.bind_inv he with ⟨_, h2⟩ | ⟨t1, t2, a, rfl, h1, h2⟩
    · cases h2
    · obtain ⟨ht1, ht2⟩ := numbered_append.1 (show Numbered n k (t1 ++ t2) from ht)
      cases h2 with
      | pop h2 =>
        cases h2
        exact h _ _ h1 ht1

theorem bind {P : β → Prop} {m : Synth F β} {g : β → Synth F α} (h : SPost n k P m)
    (hg : ∀ n' k' b, n ≤ n' → k ≤ k' → P b → SPost n' k' Q (g b)) : SPost n k Q (m >>= g) := by
  intro t r he ht
  rcases Exec.bind_inv he with ⟨_, h2⟩ | ⟨t1, t2, b, rfl, h1, h2⟩
  · cases h2
  · obtain ⟨ht1, ht2⟩ := numbered_append.1 ht
    cases b with
    | ok b => exact hg _ _ b (by omega) (by omega) (h _ _ h1 ht1) _ _ h2 ht2
    | error e => cases h2

theorem bindKnown [Handle β] {P : β → Prop} {m : Synth F β} {g : β → Synth F α} (hc : SLocal n k m) (h : SPost n k P m)
    (hg : ∀ k' b, k ≤ k' → Known n k' b → P b → SPost n k' Q (g b)) : SPost n k Q (m >>= g) := by
  intro t r he ht
  rcases Exec.bind_inv he with ⟨_, h2⟩ | ⟨t1, t2, b, rfl, h1, h2⟩
  · cases h2
  · obtain ⟨ht1, ht2⟩ := numbered_append.1 ht
    obtain ⟨z1, q1⟩ := (hc.closed t1 _ h1 ht1).2 b rfl
    rw [z1, Nat.add_zero] at ht2
    cases b with
    | ok b => exact hg _ b (by omega) (q1 b rfl) (h _ _ h1 ht1) _ _ h2 ht2
    | error e => cases h2

theorem any {m : Synth F α} : SPost n k (fun _ => True) m := fun _ _ _ _ => trivial

theorem throw {e : SynthesisError} : SPost n k Q (throw e : Synth F α) := by
  intro t b he _
  cases he

theorem panic {s : String} : SPost n k Q (Synth.panic s : Synth F α) := by
  intro t b he _
  cases he

theorem mono {m : Synth F α} {P : α → Prop} (h : SPost n k P m) (hq : ∀ a, P a → Q a) : SPost n k Q m :=
  fun t a he ht => hq a (h t a he ht)

end SPost

/-- The converse of `SCon.constraining` and `SCon.atMost`. -/
theorem SCon.of_accounted {n k N A : ℕ} {m : Synth F α} (h : Accounted n k N A m) : SCon n k noVar N A m := by
  intro t r he ht
  refine ⟨(h.2 t r he ht).1, (h.2 t r he ht).2, ?_⟩
  rintro a rfl x (hx | ⟨j, rfl, h1, h2⟩)
  · exact hx.elim
  · exact h.1 t a he ht j h1 h2

theorem SCon.accounted {n k N A : ℕ} {m : Synth F α} (h : SCon n k noVar N A m) : Accounted n k N A m := ⟨h.constraining, h.atMost⟩

/-- `SCon.bind` with an additional fact about the intermediate result. -/
theorem SCon.bindClosed [Handle α] {n k N N' A A' : ℕ} {D : Var → Prop} {Q : α → Prop} {m : Synth F α} {g : α → Synth F β}
    (h : SCon n k noVar N A m) (hc : Closed n k m) (hq : SPost n k Q m)
    (hg : ∀ k' a, k ≤ k' → Known n k' a → Q a → SCon n k' D N' A' (g a)) : SCon n k D (N + N') (A + A') (m >>= g) := by
  intro t r he ht
  rcases Exec.bind_inv he with ⟨h1, rfl⟩ | ⟨t1, t2, a, rfl, h1, h2⟩
  · obtain ⟨a1, a2, -⟩ := h _ _ h1 ht
    exact ⟨a1.trans (Nat.le_add_right _ _), a2.trans (Nat.le_add_right _ _), by rintro _ ⟨⟩⟩
  · obtain ⟨ht1, ht2⟩ := numbered_append.1 ht
    obtain ⟨z1, q1⟩ := (hc t1 _ h1 ht1).2 a rfl
    obtain ⟨l1, m1, c1⟩ := h _ _ h1 ht1
    rw [consOf_append, List.length_append, numAux_append]
    rw [z1, Nat.add_zero] at ht2
    cases a with
    | ok a =>
      obtain ⟨l2, m2, c2⟩ := hg _ a (Nat.le_add_right _ _) (q1 a rfl) (hq _ _ h1 ht1) t2 r h2 ht2
      refine ⟨add_le_add l1 l2, add_le_add m1 m2, fun b hb x hx => ?_⟩
      rcases hx with hx | ⟨j, rfl, hj1, hj2⟩
      · exact (c2 b hb x (.inl hx)).right
      · by_cases hj : j < k + numAux t1
        · exact (c1 a rfl _ (.inr ⟨j, rfl, hj1, hj⟩)).left
        · exact (c2 b hb _ (.inr ⟨j, rfl, by omega, by omega⟩)).right
    | error e =>
      cases h2
      simp only [consOf_nil, List.length_nil, Nat.add_zero, numAux_nil]
      exact ⟨l1.trans (Nat.le_add_right _ _), m1.trans (Nat.le_add_right _ _), by rintro _ ⟨⟩⟩

theorem SCon.bindPost [Handle α] {n k N N' A A' : ℕ} {D : Var → Prop} {Q : α → Prop} {m : Synth F α} {g : α → Synth F β}
    (h : SCon n k noVar N A m) (hc : SLocal n k m) (hq : SPost n k Q m)
    (hg : ∀ k' a, k ≤ k' → Known n k' a → Q a → SCon n k' D N' A' (g a)) : SCon n k D (N + N') (A + A') (m >>= g) :=
  h.bindClosed hc.closed hq hg

theorem SCon.bind [Handle α] {n k N N' A A' : ℕ} {D : Var → Prop} {m : Synth F α} {g : α → Synth F β}
    (h : SCon n k noVar N A m) (hc : SLocal n k m) (hg : ∀ k' a, k ≤ k' → Known n k' a → SCon n k' D N' A' (g a)) :
    SCon n k D (N + N') (A + A') (m >>= g) :=
  h.bindPost hc (Q := fun _ => True) (fun _ _ _ _ => trivial) fun k' a hk ha _ => hg k' a hk ha

end Bellman
