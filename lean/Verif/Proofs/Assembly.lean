import Verif.Groth16.Assembly

/-!
# What a run against `KeypairAssembly` records
-/

namespace Bellman

variable {F α : Type}

/-- The entries a vector of per-variable columns should contain for variable `v`: for each constraint, in order, the
coefficients of `v` in the combination `sel` of that constraint, with the index of the constraint (specification). -/
def column (sel : LC F × LC F × LC F → LC F) (v : Var) : ℕ → List (LC F × LC F × LC F) → List (F × ℕ)
  | _, [] => []
  | j, k :: ks => ((sel k).terms.filterMap fun t => if t.1 = v then some (t.2, j) else none) ++ column sel v (j + 1) ks

namespace KeypairAssembly

/-- The column of a variable. -/
def look (inputs aux : List (List (F × ℕ))) : Var → List (F × ℕ)
  | .input i => inputs.getD i []
  | .aux i => aux.getD i []

/-- All vectors have the lengths given by the counters. -/
structure WF (s : KeypairAssembly F) : Prop where
  ai : s.atInputs.length = s.numInputs
  bi : s.btInputs.length = s.numInputs
  ci : s.ctInputs.length = s.numInputs
  aa : s.atAux.length = s.numAux
  ba : s.btAux.length = s.numAux
  ca : s.ctAux.length = s.numAux

theorem WF_new : (new : KeypairAssembly F).WF := ⟨rfl, rfl, rfl, rfl, rfl, rfl⟩

theorem pushAt_some {α : Type} {v w : List (List α)} {i : ℕ} {x : α} (h : pushAt v i x = some w) :
    i < v.length ∧ w.length = v.length ∧ ∀ j, w.getD j [] = v.getD j [] ++ (if j = i then [x] else []) := by
  unfold pushAt at h
  split at h
  · cases h
  · rename_i l hl
    simp only [Option.some.injEq] at h
    subst h
    have hi : i < v.length := by
      by_contra hc
      rw [List.getElem?_eq_none (by omega)] at hl
      cases hl
    refine ⟨hi, by simp, fun j => ?_⟩
    simp only [List.getD_eq_getElem?_getD, List.getElem?_set]
    split
    · rename_i hij; subst hij
      rw [List.getElem?_eq_getElem hi, Option.some.injEq] at hl
      simp [hi, hl]
    · rename_i hij
      rw [if_neg (fun h => hij h.symm)]; simp

theorem pushAt_isSome {α : Type} {v : List (List α)} {i : ℕ} {x : α} (h : i < v.length) : ∃ w, pushAt v i x = some w := by
  unfold pushAt
  rw [List.getElem?_eq_getElem h]
  exact ⟨_, rfl⟩

theorem eval_some {this : ℕ} {ts : List (Var × F)} {inputs aux : List (List (F × ℕ))} {r}
    (h : eval this ts inputs aux = some r) :
    r.1.length = inputs.length ∧ r.2.length = aux.length ∧ (∀ x ∈ ts, x.1.InRange inputs.length aux.length) ∧
    ∀ v, look r.1 r.2 v = look inputs aux v ++ ts.filterMap fun t => if t.1 = v then some (t.2, this) else none := by
  induction ts generalizing inputs aux with
  | nil => simp only [eval, Option.some.injEq] at h; subst h; simp
  | cons t ts ih =>
    obtain ⟨v, c⟩ := t
    cases v with
    | input id =>
      simp only [eval, Option.bind_eq_some_iff] at h
      obtain ⟨w, hw, h⟩ := h
      obtain ⟨h1, h2, h3⟩ := pushAt_some hw
      obtain ⟨e1, e2, e3, e4⟩ := ih h
      refine ⟨e1.trans h2, e2, ?_, fun v => ?_⟩
      · intro x hx
        rcases List.mem_cons.1 hx with rfl | hx
        · exact h1
        · have := e3 x hx; rwa [h2] at this
      · rw [e4 v]
        cases v with
        | input i =>
          simp only [look, h3, List.filterMap_cons, Var.input.injEq]
          by_cases hi : i = id
          · subst hi; simp
          · have hi' : ¬ id = i := fun h => hi h.symm
            simp [hi, hi']
        | aux i => simp [look]
    | aux id =>
      simp only [eval, Option.bind_eq_some_iff] at h
      obtain ⟨w, hw, h⟩ := h
      obtain ⟨h1, h2, h3⟩ := pushAt_some hw
      obtain ⟨e1, e2, e3, e4⟩ := ih h
      refine ⟨e1, e2.trans h2, ?_, fun v => ?_⟩
      · intro x hx
        rcases List.mem_cons.1 hx with rfl | hx
        · exact h1
        · have := e3 x hx; rwa [h2] at this
      · rw [e4 v]
        cases v with
        | aux i =>
          simp only [look, h3, List.filterMap_cons, Var.aux.injEq]
          by_cases hi : i = id
          · subst hi; simp
          · have hi' : ¬ id = i := fun h => hi h.symm
            simp [hi, hi']
        | input i => simp [look]

theorem eval_isSome {this : ℕ} {ts : List (Var × F)} {inputs aux : List (List (F × ℕ))}
    (h : ∀ x ∈ ts, x.1.InRange inputs.length aux.length) : ∃ r, eval this ts inputs aux = some r := by
  induction ts generalizing inputs aux with
  | nil => exact ⟨_, rfl⟩
  | cons t ts ih =>
    obtain ⟨v, c⟩ := t
    have h0 := h _ List.mem_cons_self
    cases v with
    | input id =>
      obtain ⟨w, hw⟩ := pushAt_isSome (v := inputs) (x := (c, this)) h0
      have hl := (pushAt_some hw).2.1
      simp only [eval, hw, Option.bind_some]
      exact ih fun x hx => by rw [hl]; exact h x (List.mem_cons_of_mem _ hx)
    | aux id =>
      obtain ⟨w, hw⟩ := pushAt_isSome (v := aux) (x := (c, this)) h0
      have hl := (pushAt_some hw).2.1
      simp only [eval, hw, Option.bind_some]
      exact ih fun x hx => by rw [hl]; exact h x (List.mem_cons_of_mem _ hx)

/-- `s'` is `s` after recording the trace `t` (specification). -/
structure Recorded (s : KeypairAssembly F) (t : List (Ev F)) (s' : KeypairAssembly F) : Prop where
  numbered : Numbered s.numInputs s.numAux t
  inScope : Scoped s.numInputs s.numAux t
  noVals : ∀ i n x v, Ev.alloc i n x v ∈ t → v = none
  wf : s'.WF
  inputs : s'.numInputs = s.numInputs + Bellman.numIn t
  aux : s'.numAux = s.numAux + Bellman.numAux t
  constraints : s'.numConstraints = s.numConstraints + (consOf t).length
  at_ : ∀ v, look s'.atInputs s'.atAux v = look s.atInputs s.atAux v ++ column (·.1) v s.numConstraints (consOf t)
  bt_ : ∀ v, look s'.btInputs s'.btAux v = look s.btInputs s.btAux v ++ column (·.2.1) v s.numConstraints (consOf t)
  ct_ : ∀ v, look s'.ctInputs s'.ctAux v = look s.ctInputs s.ctAux v ++ column (·.2.2) v s.numConstraints (consOf t)

theorem look_push_input (inputs aux : List (List (F × ℕ))) (v : Var) :
    look (inputs ++ [[]]) aux v = look inputs aux v := by
  cases v with
  | aux i => rfl
  | input i =>
    simp only [look, List.getD_eq_getElem?_getD, List.getElem?_append]
    split
    · rfl
    · rename_i h
      rw [List.getElem?_eq_none (l := inputs) (by omega)]
      cases h : i - inputs.length <;> simp

theorem look_push_aux (inputs aux : List (List (F × ℕ))) (v : Var) :
    look inputs (aux ++ [[]]) v = look inputs aux v := by
  cases v with
  | input i => rfl
  | aux i =>
    simp only [look, List.getD_eq_getElem?_getD, List.getElem?_append]
    split
    · rfl
    · rename_i h
      rw [List.getElem?_eq_none (l := aux) (by omega)]
      cases h : i - aux.length <;> simp

theorem allocInput_WF {s : KeypairAssembly F} (h : s.WF) : s.allocInput.2.WF := by
  obtain ⟨h1, h2, h3, h4, h5, h6⟩ := h
  constructor <;> simp_all [allocInput]

theorem allocAux_WF {s : KeypairAssembly F} (h : s.WF) : s.allocAux.2.WF := by
  obtain ⟨h1, h2, h3, h4, h5, h6⟩ := h
  constructor <;> simp_all [allocAux]

theorem enforce_spec {s s' : KeypairAssembly F} {a b c : LC F} (hw : s.WF) (h : enforce a b c s = some s') :
    s'.WF ∧ (∀ x ∈ a.terms ++ b.terms ++ c.terms, x.1.InRange s.numInputs s.numAux) ∧
    s'.numInputs = s.numInputs ∧ s'.numAux = s.numAux ∧ s'.numConstraints = s.numConstraints + 1 ∧
    (∀ v, look s'.atInputs s'.atAux v = look s.atInputs s.atAux v ++ column (·.1) v s.numConstraints [(a, b, c)]) ∧
    (∀ v, look s'.btInputs s'.btAux v = look s.btInputs s.btAux v ++ column (·.2.1) v s.numConstraints [(a, b, c)]) ∧
    (∀ v, look s'.ctInputs s'.ctAux v = look s.ctInputs s.ctAux v ++ column (·.2.2) v s.numConstraints [(a, b, c)]) := by
  unfold enforce at h
  simp only [Option.bind_eq_some_iff, Option.some.injEq] at h
  obtain ⟨ra, ha, rb, hb, rc, hc, rfl⟩ := h
  obtain ⟨a1, a2, a3, a4⟩ := eval_some ha
  obtain ⟨b1, b2, b3, b4⟩ := eval_some hb
  obtain ⟨c1, c2, c3, c4⟩ := eval_some hc
  obtain ⟨h1, h2, h3, h4, h5, h6⟩ := hw
  refine ⟨⟨a1.trans h1, b1.trans h2, c1.trans h3, a2.trans h4, b2.trans h5, c2.trans h6⟩, ?_, rfl, rfl, rfl, ?_, ?_, ?_⟩
  · intro x hx
    rw [h1, h4] at a3
    rw [h2, h5] at b3
    rw [h3, h6] at c3
    simp only [List.mem_append] at hx
    rcases hx with (hx | hx) | hx
    · exact a3 x hx
    · exact b3 x hx
    · exact c3 x hx
  · intro v; rw [a4 v]; simp [column]
  · intro v; rw [b4 v]; simp [column]
  · intro v; rw [c4 v]; simp [column]

theorem Recorded.refl {s : KeypairAssembly F} (h : s.WF) : Recorded s [] s where
  numbered := trivial
  inScope := trivial
  noVals := by simp
  wf := h
  inputs := rfl
  aux := rfl
  constraints := rfl
  at_ := by simp [column]
  bt_ := by simp [column]
  ct_ := by simp [column]

theorem column_cons (sel : LC F × LC F × LC F → LC F) (v : Var) (j : ℕ) (k) (ks : List (LC F × LC F × LC F)) :
    column sel v j (k :: ks) = column sel v j [k] ++ column sel v (j + 1) ks := by simp [column]

/-- **Key generation records the circuit.** -/
theorem run_recorded' (c : Circ F α) {s s' : KeypairAssembly F} {a : α} (hw : s.WF)
    (h : c.run impl s = some (a, s')) : ∃ t, Blind c t (some a) ∧ Recorded s t s' := by
  induction c generalizing s with
  | ret b =>
    simp only [Circ.run, Option.some.injEq, Prod.mk.injEq] at h
    obtain ⟨rfl, rfl⟩ := h
    exact ⟨[], .ret _, .refl hw⟩
  | panic m => cases h
  | alloc i n f k ih =>
    simp only [Circ.run, impl, Option.bind_some] at h
    cases i with
    | true =>
      obtain ⟨t, he, hr⟩ := ih _ (allocInput_WF hw) h
      refine ⟨_ :: t, .allocSkip _ he, ?_⟩
      obtain ⟨h1, h2, h3, h4, h5, h6, h7, h8, h9, h10⟩ := hr
      refine ⟨⟨rfl, h1⟩, h2, ?_, h4, ?_, ?_, ?_, ?_, ?_, ?_⟩
      · intro i n x v hm
        rcases List.mem_cons.1 hm with h | h
        · simp at h; exact h.2.2.2
        · exact h3 i n x v h
      · rw [h5]; simp [allocInput]; omega
      · rw [h6]; simp [allocInput]
      · rw [h7]; simp [allocInput]
      · intro v; rw [h8 v]; simp [allocInput, look_push_input]
      · intro v; rw [h9 v]; simp [allocInput, look_push_input]
      · intro v; rw [h10 v]; simp [allocInput, look_push_input]
    | false =>
      obtain ⟨t, he, hr⟩ := ih _ (allocAux_WF hw) h
      refine ⟨_ :: t, .allocSkip _ he, ?_⟩
      obtain ⟨h1, h2, h3, h4, h5, h6, h7, h8, h9, h10⟩ := hr
      refine ⟨⟨rfl, h1⟩, h2, ?_, h4, ?_, ?_, ?_, ?_, ?_, ?_⟩
      · intro i n x v hm
        rcases List.mem_cons.1 hm with h | h
        · simp at h; exact h.2.2.2
        · exact h3 i n x v h
      · rw [h5]; simp [allocAux]
      · rw [h6]; simp [allocAux]; omega
      · rw [h7]; simp [allocAux]
      · intro v; rw [h8 v]; simp [allocAux, look_push_aux]
      · intro v; rw [h9 v]; simp [allocAux, look_push_aux]
      · intro v; rw [h10 v]; simp [allocAux, look_push_aux]
  | enforce n a b c k ih =>
    simp only [Circ.run, impl, Option.bind_eq_some_iff] at h
    obtain ⟨s1, h1, h⟩ := h
    obtain ⟨w, sc, e1, e2, e3, ea, eb, ec⟩ := enforce_spec hw h1
    obtain ⟨t, he, hr⟩ := ih w h
    refine ⟨_ :: t, .enforce he, ?_⟩
    obtain ⟨h1, h2, h3, h4, h5, h6, h7, h8, h9, h10⟩ := hr
    rw [e1, e2] at h1 h2
    rw [e3] at h7 h8 h9 h10
    refine ⟨h1, ⟨sc, h2⟩, ?_, h4, ?_, ?_, ?_, ?_, ?_, ?_⟩
    · intro i n x v hm
      rcases List.mem_cons.1 hm with h | h
      · simp at h
      · exact h3 i n x v h
    · rw [h5, e1]; simp
    · rw [h6, e2]; simp
    · rw [h7]; simp; omega
    · intro v; rw [h8 v, ea v, List.append_assoc, consOf_enforce, ← column_cons]
    · intro v; rw [h9 v, eb v, List.append_assoc, consOf_enforce, ← column_cons]
    · intro v; rw [h10 v, ec v, List.append_assoc, consOf_enforce, ← column_cons]
  | push n k ih =>
    obtain ⟨t, he, hr⟩ := ih hw h
    refine ⟨_ :: t, .push he, ?_⟩
    obtain ⟨h1, h2, h3, h4, h5, h6, h7, h8, h9, h10⟩ := hr
    refine ⟨h1, h2, ?_, h4, h5.trans (by simp), h6.trans (by simp), h7, h8, h9, h10⟩
    intro i n x v hm
    rcases List.mem_cons.1 hm with h | h
    · simp at h
    · exact h3 i n x v h
  | pop k ih =>
    obtain ⟨t, he, hr⟩ := ih hw h
    refine ⟨_ :: t, .pop he, ?_⟩
    obtain ⟨h1, h2, h3, h4, h5, h6, h7, h8, h9, h10⟩ := hr
    refine ⟨h1, h2, ?_, h4, h5.trans (by simp), h6.trans (by simp), h7, h8, h9, h10⟩
    intro i n x v hm
    rcases List.mem_cons.1 hm with h | h
    · simp at h
    · exact h3 i n x v h

theorem run_recorded (c : Circ F α) {s s' : KeypairAssembly F} {a : α} (hw : s.WF)
    (h : c.run impl s = some (a, s')) : ∃ t, Exec c t (some a) ∧ Recorded s t s' := by
  obtain ⟨t, h1, h2⟩ := run_recorded' c hw h
  exact ⟨t, h1.exec, h2⟩

end KeypairAssembly

end Bellman
