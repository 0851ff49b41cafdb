import Verif.Groth16.MachineAssembly
import Verif.Proofs.Crs
import Mathlib.Tactic.Linarith

/-!
# Synthesis for key generation with machine words: proofs
-/

namespace Bellman

variable {F α : Type}

namespace KeypairAssembly

/-- The machine's assembly `s` against the unbounded one, `u`. -/
structure Sim (bd : Build) (s u : KeypairAssembly F) : Prop where
  ws : s.WF
  wu : u.WF
  ins : s.numInputs = u.numInputs
  aux : s.numAux = u.numAux
  insFit : s.numInputs * 24 < 2 ^ 63
  auxFit : s.numAux * 24 < 2 ^ 63
  cons : s.numConstraints = u.numConstraints % 2 ^ 64
  same : u.numConstraints < 2 ^ 64 → s = u
  debug : bd = .debug → u.numConstraints < 2 ^ 64

theorem pushVec_some {β : Type} {size : ℕ} {v w : List β} {x : β} (h : pushVec size v x = some w) :
    w = v ++ [x] ∧ (v.length + 1) * size < 2 ^ 63 := by
  unfold pushVec at h
  split at h
  · rename_i hl
    exact ⟨(Option.some.inj h).symm, hl⟩
  · cases h

theorem pushVec_eq {β : Type} {size : ℕ} {v : List β} {x : β} (h : (v.length + 1) * size < 2 ^ 63) :
    pushVec size v x = some (v ++ [x]) := if_pos h

theorem add_one {b : Build} {n : ℕ} (h : n + 1 < 2 ^ 64) : b.add 64 n 1 = some (n + 1) := if_pos h

theorem Sim.allocAux {bd : Build} {s u : KeypairAssembly F} (h : Sim bd s u) {r : Var × KeypairAssembly F}
    (e : s.allocAuxW bd = some r) : r.1 = u.allocAux.1 ∧ Sim bd r.2 u.allocAux.2 := by
  have hx := h.auxFit
  rw [allocAuxW, add_one (by omega)] at e
  simp only [Option.bind_some, Option.bind_eq_some_iff, Option.some.injEq] at e
  obtain ⟨x, hx, y, hy, z, hz, rfl⟩ := e
  obtain ⟨rfl, l⟩ := pushVec_some hx
  obtain ⟨rfl, -⟩ := pushVec_some hy
  obtain ⟨rfl, -⟩ := pushVec_some hz
  rw [h.ws.aa] at l
  refine ⟨by simp [KeypairAssembly.allocAux, h.aux], allocAux_WF h.ws, allocAux_WF h.wu, h.ins, ?_, h.insFit, l, h.cons, ?_, h.debug⟩
  · simp [KeypairAssembly.allocAux, h.aux]
  · intro hc
    rw [h.same hc]
    rfl

theorem Sim.allocInput {bd : Build} {s u : KeypairAssembly F} (h : Sim bd s u) {r : Var × KeypairAssembly F}
    (e : s.allocInputW bd = some r) : r.1 = u.allocInput.1 ∧ Sim bd r.2 u.allocInput.2 := by
  have hx := h.insFit
  rw [allocInputW, add_one (by omega)] at e
  simp only [Option.bind_some, Option.bind_eq_some_iff, Option.some.injEq] at e
  obtain ⟨x, hx, y, hy, z, hz, rfl⟩ := e
  obtain ⟨rfl, l⟩ := pushVec_some hx
  obtain ⟨rfl, -⟩ := pushVec_some hy
  obtain ⟨rfl, -⟩ := pushVec_some hz
  rw [h.ws.ai] at l
  refine ⟨by simp [KeypairAssembly.allocInput, h.ins], allocInput_WF h.ws, allocInput_WF h.wu, ?_, h.aux, l, h.auxFit, h.cons, ?_, h.debug⟩
  · simp [KeypairAssembly.allocInput, h.ins]
  · intro hc
    rw [h.same hc]
    rfl

/-- `enforce` on the machine is `enforce` with another count. -/
theorem enforceW_eq (bd : Build) (a b c : LC F) (s : KeypairAssembly F) :
    s.enforceW bd a b c = (s.enforce a b c).bind fun s' => (bd.add 64 s.numConstraints 1).map fun n => { s' with numConstraints := n } := by
  unfold enforceW KeypairAssembly.enforce
  cases eval s.numConstraints a.terms s.atInputs s.atAux <;> [rfl; simp only [Option.bind_some]]
  cases eval s.numConstraints b.terms s.btInputs s.btAux <;> [rfl; simp only [Option.bind_some]]
  cases eval s.numConstraints c.terms s.ctInputs s.ctAux <;> [rfl; simp only [Option.bind_some]]
  cases bd.add 64 s.numConstraints 1 <;> rfl

/-- Whether `enforce` succeeds depends on the numbers of variables only. -/
theorem enforce_isSome {a b c : LC F} {s : KeypairAssembly F} (hw : s.WF)
    (h : ∀ x ∈ a.terms ++ b.terms ++ c.terms, x.1.InRange s.numInputs s.numAux) : ∃ s', s.enforce a b c = some s' := by
  obtain ⟨ra, ea⟩ := eval_isSome (this := s.numConstraints) (ts := a.terms) (inputs := s.atInputs)
    (aux := s.atAux) (by rw [hw.ai, hw.aa]; exact fun x hx => h x (by simp [hx]))
  obtain ⟨rb, eb⟩ := eval_isSome (this := s.numConstraints) (ts := b.terms) (inputs := s.btInputs)
    (aux := s.btAux) (by rw [hw.bi, hw.ba]; exact fun x hx => h x (by simp [hx]))
  obtain ⟨rc, ec⟩ := eval_isSome (this := s.numConstraints) (ts := c.terms) (inputs := s.ctInputs)
    (aux := s.ctAux) (by rw [hw.ci, hw.ca]; exact fun x hx => h x (by simp [hx]))
  unfold KeypairAssembly.enforce
  rw [ea, Option.bind_some, eb, Option.bind_some, ec]
  exact ⟨_, rfl⟩

theorem Sim.enforce {bd : Build} {s u : KeypairAssembly F} (h : Sim bd s u) {a b c : LC F} {s' : KeypairAssembly F}
    (e : s.enforceW bd a b c = some s') : ∃ u', u.enforce a b c = some u' ∧ Sim bd s' u' := by
  rw [enforceW_eq] at e
  simp only [Option.bind_eq_some_iff, Option.map_eq_some_iff] at e
  obtain ⟨t, ht, n, hn, rfl⟩ := e
  obtain ⟨w1, r1, i1, i2, i3, -⟩ := enforce_spec h.ws ht
  obtain ⟨u', hu⟩ := enforce_isSome (a := a) (b := b) (c := c) h.wu (by rw [← h.ins, ← h.aux]; exact r1)
  obtain ⟨w2, -, j1, j2, j3, -⟩ := enforce_spec h.wu hu
  have hlt : s.numConstraints < 2 ^ 64 := h.cons ▸ Nat.mod_lt _ (by norm_num)
  have hn' : n = u'.numConstraints % 2 ^ 64 ∧ (bd = .debug → s.numConstraints + 1 < 2 ^ 64) := by
    have hc := h.cons
    unfold Build.add Build.fit at hn
    split at hn
    · rename_i hl
      cases hn
      exact ⟨by omega, fun _ => hl⟩
    · cases bd with
      | debug => cases hn
      | release =>
        cases hn
        exact ⟨by omega, fun h => by cases h⟩
  refine ⟨u', hu, ⟨w1.ai, w1.bi, w1.ci, w1.aa, w1.ba, w1.ca⟩, w2, ?_, ?_, ?_, ?_, hn'.1, ?_, ?_⟩
  · exact i1.trans (h.ins.trans j1.symm)
  · exact i2.trans (h.aux.trans j2.symm)
  · show t.numInputs * 24 < _
    rw [i1]; exact h.insFit
  · show t.numAux * 24 < _
    rw [i2]; exact h.auxFit
  · intro hc
    have hs := h.same (by omega)
    subst hs
    rw [hu] at ht
    cases ht
    have hx := hn'.1.trans (Nat.mod_eq_of_lt hc)
    rw [hx]
  · intro hd
    have h1 := h.debug hd
    have h2 := hn'.2 hd
    have := h.cons
    omega

theorem Sim.run {bd : Build} (c : Circ F α) {s u : KeypairAssembly F} (h : Sim bd s u) {a : α} {s' : KeypairAssembly F}
    (e : c.run (implW bd) s = some (a, s')) : ∃ u', c.run impl u = some (a, u') ∧ Sim bd s' u' := by
  induction c generalizing s u with
  | ret b => cases e; exact ⟨u, rfl, h⟩
  | panic m => cases e
  | alloc i n f k ih =>
    simp only [Circ.run, implW, Option.bind_eq_some_iff] at e
    obtain ⟨r, ⟨q, hq, e1⟩, e⟩ := e
    cases e1
    cases i with
    | true =>
      obtain ⟨hv, hs⟩ := h.allocInput hq
      obtain ⟨u', e', hs'⟩ := ih _ hs e
      refine ⟨u', ?_, hs'⟩
      rw [hv] at e'
      exact e'
    | false =>
      obtain ⟨hv, hs⟩ := h.allocAux hq
      obtain ⟨u', e', hs'⟩ := ih _ hs e
      refine ⟨u', ?_, hs'⟩
      rw [hv] at e'
      exact e'
  | enforce n a b c k ih =>
    simp only [Circ.run, implW, Option.bind_eq_some_iff] at e
    obtain ⟨t, ht, e⟩ := e
    obtain ⟨t', hu, hs⟩ := h.enforce ht
    obtain ⟨u', e', hs'⟩ := ih hs e
    exact ⟨u', by simp only [Circ.run, impl, hu, Option.bind_some]; exact e', hs'⟩
  | push n k ih =>
    obtain ⟨u', e', hs'⟩ := ih h e
    exact ⟨u', e', hs'⟩
  | pop k ih =>
    obtain ⟨u', e', hs'⟩ := ih h e
    exact ⟨u', e', hs'⟩

/-- The counters of an unbounded run only grow. -/
theorem run_mono (c : Circ F α) {s s' : KeypairAssembly F} {a : α} (hw : s.WF) (e : c.run impl s = some (a, s')) :
    s'.WF ∧ s.numInputs ≤ s'.numInputs ∧ s.numAux ≤ s'.numAux ∧ s.numConstraints ≤ s'.numConstraints := by
  induction c generalizing s with
  | ret b => cases e; exact ⟨hw, le_refl _, le_refl _, le_refl _⟩
  | panic m => cases e
  | alloc i n f k ih =>
    cases i with
    | true =>
      obtain ⟨h1, h2, h3, h4⟩ := ih _ (allocInput_WF hw) e
      exact ⟨h1, by simp [KeypairAssembly.allocInput] at h2; omega, h3, h4⟩
    | false =>
      obtain ⟨h1, h2, h3, h4⟩ := ih _ (allocAux_WF hw) e
      exact ⟨h1, h2, by simp [KeypairAssembly.allocAux] at h3; omega, h4⟩
  | enforce n a b c k ih =>
    simp only [Circ.run, impl, Option.bind_eq_some_iff] at e
    obtain ⟨t, ht, e⟩ := e
    obtain ⟨w1, -, i1, i2, i3, -⟩ := enforce_spec hw ht
    obtain ⟨h1, h2, h3, h4⟩ := ih w1 e
    exact ⟨h1, by omega, by omega, by omega⟩
  | push n k ih => exact ih hw e
  | pop k ih => exact ih hw e

theorem enforceW_fit {bd : Build} {a b c : LC F} {s s' : KeypairAssembly F} (e : s.enforce a b c = some s')
    (h : s.numConstraints + 1 < 2 ^ 64) : s.enforceW bd a b c = some s' := by
  rw [enforceW_eq, e, Option.bind_some, add_one h, Option.map_some]
  unfold KeypairAssembly.enforce at e
  simp only [Option.bind_eq_some_iff, Option.some.injEq] at e
  obtain ⟨ra, -, rb, -, rc, -, rfl⟩ := e
  rfl

/-- What fits is not changed by the machine. -/
theorem run_fit (bd : Build) (c : Circ F α) {s s' : KeypairAssembly F} {a : α} (hw : s.WF) (e : c.run impl s = some (a, s'))
    (hi : s'.numInputs * 24 < 2 ^ 63) (hx : s'.numAux * 24 < 2 ^ 63) (hc : s'.numConstraints < 2 ^ 64) :
    c.run (implW bd) s = some (a, s') := by
  induction c generalizing s with
  | ret b => exact e
  | panic m => cases e
  | alloc i n f k ih =>
    cases i with
    | true =>
      have e0 : (k (.ok (s.allocInput.1, none))).run impl s.allocInput.2 = some (a, s') := e
      obtain ⟨-, m, -, -⟩ := run_mono _ (allocInput_WF hw) e0
      have m : s.numInputs + 1 ≤ s'.numInputs := m
      have hl : s.allocInputW bd = some s.allocInput := by
        rw [allocInputW, add_one (by omega), pushVec_eq (by rw [hw.ai]; omega), pushVec_eq (by rw [hw.bi]; omega),
          pushVec_eq (by rw [hw.ci]; omega)]
        rfl
      simp only [Circ.run, implW, if_true, hl, Option.bind_some]
      exact ih _ (allocInput_WF hw) e0
    | false =>
      have e0 : (k (.ok (s.allocAux.1, none))).run impl s.allocAux.2 = some (a, s') := e
      obtain ⟨-, -, m, -⟩ := run_mono _ (allocAux_WF hw) e0
      have m : s.numAux + 1 ≤ s'.numAux := m
      have hl : s.allocAuxW bd = some s.allocAux := by
        rw [allocAuxW, add_one (by omega), pushVec_eq (by rw [hw.aa]; omega), pushVec_eq (by rw [hw.ba]; omega),
          pushVec_eq (by rw [hw.ca]; omega)]
        rfl
      simp only [Circ.run, implW, Bool.false_eq_true, if_false, hl, Option.bind_some]
      exact ih _ (allocAux_WF hw) e0
  | enforce n a b c k ih =>
    simp only [Circ.run, impl, Option.bind_eq_some_iff] at e
    obtain ⟨t, ht, e⟩ := e
    obtain ⟨w1, -, i1, i2, i3, -⟩ := enforce_spec hw ht
    obtain ⟨-, -, -, m⟩ := run_mono _ w1 e
    simp only [Circ.run, implW, enforceW_fit ht (show s.numConstraints + 1 < 2 ^ 64 by omega), Option.bind_some]
    exact ih w1 e
  | push n k ih => exact ih hw e
  | pop k ih => exact ih hw e

theorem allocInputW_fit {bd : Build} {s : KeypairAssembly F} (hw : s.WF) (h : (s.numInputs + 1) * 24 < 2 ^ 63) :
    s.allocInputW bd = some s.allocInput := by
  rw [allocInputW, add_one (by omega), pushVec_eq (by rw [hw.ai]; omega), pushVec_eq (by rw [hw.bi]; omega),
    pushVec_eq (by rw [hw.ci]; omega)]
  rfl

theorem allocAuxW_fit {bd : Build} {s : KeypairAssembly F} (hw : s.WF) (h : (s.numAux + 1) * 24 < 2 ^ 63) :
    s.allocAuxW bd = some s.allocAux := by
  rw [allocAuxW, add_one (by omega), pushVec_eq (by rw [hw.aa]; omega), pushVec_eq (by rw [hw.ba]; omega),
    pushVec_eq (by rw [hw.ca]; omega)]
  rfl

/-- A release build does not stop at a constraint. -/
theorem Sim.enforce_release {s u : KeypairAssembly F} (h : Sim .release s u) {a b c : LC F} {u' : KeypairAssembly F}
    (e : u.enforce a b c = some u') : ∃ s', s.enforceW .release a b c = some s' ∧ Sim .release s' u' := by
  obtain ⟨-, r, -⟩ := enforce_spec h.wu e
  obtain ⟨t, ht⟩ := enforce_isSome (a := a) (b := b) (c := c) h.ws (by rw [h.ins, h.aux]; exact r)
  obtain ⟨n, hn⟩ : ∃ n, Build.release.add 64 s.numConstraints 1 = some n := by
    unfold Build.add Build.fit
    split <;> exact ⟨_, rfl⟩
  have hs : s.enforceW .release a b c = some { t with numConstraints := n } := by
    rw [enforceW_eq, ht, Option.bind_some, hn, Option.map_some]
  obtain ⟨u2, e2, h2⟩ := h.enforce hs
  rw [e] at e2
  cases e2
  exact ⟨_, hs, h2⟩

theorem Sim.run_release (c : Circ F α) {s u u' : KeypairAssembly F} {a : α} (h : Sim .release s u) (e : c.run impl u = some (a, u'))
    (hi : u'.numInputs * 24 < 2 ^ 63) (hx : u'.numAux * 24 < 2 ^ 63) :
    ∃ s', c.run (implW .release) s = some (a, s') ∧ Sim .release s' u' := by
  induction c generalizing s u with
  | ret b => cases e; exact ⟨s, rfl, h⟩
  | panic m => cases e
  | alloc i n f k ih =>
    cases i with
    | true =>
      have e0 : (k (.ok (u.allocInput.1, none))).run impl u.allocInput.2 = some (a, u') := e
      obtain ⟨-, m, -, -⟩ := run_mono _ (allocInput_WF h.wu) e0
      have m : u.numInputs + 1 ≤ u'.numInputs := m
      have hl := allocInputW_fit (bd := .release) h.ws (by rw [h.ins]; omega)
      obtain ⟨hv, hs⟩ := h.allocInput hl
      rw [← hv] at e0
      obtain ⟨s', e', hs'⟩ := ih _ hs e0
      exact ⟨s', by simp only [Circ.run, implW, if_true, hl, Option.bind_some]; exact e', hs'⟩
    | false =>
      have e0 : (k (.ok (u.allocAux.1, none))).run impl u.allocAux.2 = some (a, u') := e
      obtain ⟨-, -, m, -⟩ := run_mono _ (allocAux_WF h.wu) e0
      have m : u.numAux + 1 ≤ u'.numAux := m
      have hl := allocAuxW_fit (bd := .release) h.ws (by rw [h.aux]; omega)
      obtain ⟨hv, hs⟩ := h.allocAux hl
      rw [← hv] at e0
      obtain ⟨s', e', hs'⟩ := ih _ hs e0
      exact ⟨s', by simp only [Circ.run, implW, Bool.false_eq_true, if_false, hl, Option.bind_some]; exact e', hs'⟩
  | enforce n a b c k ih =>
    simp only [Circ.run, impl, Option.bind_eq_some_iff] at e
    obtain ⟨t, ht, e⟩ := e
    obtain ⟨t', hu, hs⟩ := h.enforce_release ht
    obtain ⟨s', e', hs'⟩ := ih hs e
    exact ⟨s', by simp only [Circ.run, implW, hu, Option.bind_some]; exact e', hs'⟩
  | push n k ih => exact ih h e
  | pop k ih => exact ih h e

variable [PrimeField F]

theorem Sim.inputs_release (l : List ℕ) {s u u' : KeypairAssembly F} (h : Sim .release s u)
    (e : l.foldlM (fun s i => s.enforce ((LC.zero : LC F) + Var.input i) LC.zero LC.zero) u = some u') :
    ∃ s', l.foldlM (fun s i => s.enforceW .release ((LC.zero : LC F) + Var.input i) LC.zero LC.zero) s = some s' ∧
      Sim .release s' u' := by
  induction l generalizing s u with
  | nil => cases e; exact ⟨s, rfl, h⟩
  | cons i l ih =>
    simp only [List.foldlM_cons, Option.bind_eq_bind, Option.bind_eq_some_iff] at e ⊢
    obtain ⟨t, ht, e⟩ := e
    obtain ⟨t', hu, hs⟩ := h.enforce_release ht
    obtain ⟨s', e', hs'⟩ := ih hs e
    exact ⟨s', ⟨t', hu, e'⟩, hs'⟩

theorem Sim.inputs {bd : Build} (l : List ℕ) {s u : KeypairAssembly F} (h : Sim bd s u) {s' : KeypairAssembly F}
    (e : l.foldlM (fun s i => s.enforceW bd ((LC.zero : LC F) + Var.input i) LC.zero LC.zero) s = some s') :
    ∃ u', l.foldlM (fun s i => s.enforce ((LC.zero : LC F) + Var.input i) LC.zero LC.zero) u = some u' ∧ Sim bd s' u' := by
  induction l generalizing s u with
  | nil => cases e; exact ⟨u, rfl, h⟩
  | cons i l ih =>
    simp only [List.foldlM_cons, Option.bind_eq_bind, Option.bind_eq_some_iff] at e ⊢
    obtain ⟨t, ht, e⟩ := e
    obtain ⟨t', hu, hs⟩ := h.enforce ht
    obtain ⟨u', e', hs'⟩ := ih hs e
    exact ⟨u', ⟨t', hu, e'⟩, hs'⟩

theorem inputs_mono (l : List ℕ) {s s' : KeypairAssembly F} (hw : s.WF)
    (e : l.foldlM (fun s i => s.enforce ((LC.zero : LC F) + Var.input i) LC.zero LC.zero) s = some s') :
    s'.numInputs = s.numInputs ∧ s'.numAux = s.numAux ∧ s.numConstraints ≤ s'.numConstraints := by
  induction l generalizing s with
  | nil => cases e; exact ⟨rfl, rfl, le_refl _⟩
  | cons i l ih =>
    simp only [List.foldlM_cons, Option.bind_eq_bind, Option.bind_eq_some_iff] at e
    obtain ⟨t, ht, e⟩ := e
    obtain ⟨w1, -, i1, i2, i3, -⟩ := enforce_spec hw ht
    obtain ⟨j1, j2, j3⟩ := ih w1 e
    exact ⟨j1.trans i1, j2.trans i2, by omega⟩

theorem inputs_fit (bd : Build) (l : List ℕ) {s s' : KeypairAssembly F} (hw : s.WF)
    (e : l.foldlM (fun s i => s.enforce ((LC.zero : LC F) + Var.input i) LC.zero LC.zero) s = some s')
    (hc : s'.numConstraints < 2 ^ 64) :
    l.foldlM (fun s i => s.enforceW bd ((LC.zero : LC F) + Var.input i) LC.zero LC.zero) s = some s' := by
  induction l generalizing s with
  | nil => exact e
  | cons i l ih =>
    simp only [List.foldlM_cons, Option.bind_eq_bind, Option.bind_eq_some_iff] at e ⊢
    obtain ⟨t, ht, e⟩ := e
    obtain ⟨w1, -, i1, i2, i3, -⟩ := enforce_spec hw ht
    obtain ⟨-, -, j3⟩ := inputs_mono l w1 e
    exact ⟨t, enforceW_fit ht (by omega), ih w1 e⟩

omit [PrimeField F] in
theorem start_sim (bd : Build) : (new : KeypairAssembly F).allocInputW bd = some (new : KeypairAssembly F).allocInput ∧
    Sim bd (new : KeypairAssembly F).allocInput.2 (new : KeypairAssembly F).allocInput.2 := by
  have hs : Sim bd (new : KeypairAssembly F) new :=
    ⟨WF_new, WF_new, rfl, rfl, by norm_num [new], by norm_num [new], rfl, fun _ => rfl, fun _ => by norm_num [new]⟩
  have he : (new : KeypairAssembly F).allocInputW bd = some (new : KeypairAssembly F).allocInput := by
    unfold allocInputW
    rw [add_one (by norm_num [new]), pushVec_eq (by norm_num [new]), pushVec_eq (by norm_num [new]), pushVec_eq (by norm_num [new])]
    rfl
  exact ⟨he, (hs.allocInput he).2⟩

end KeypairAssembly

end Bellman
