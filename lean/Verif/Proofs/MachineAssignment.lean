import Verif.Groth16.MachineAssignment
import Verif.Proofs.MachineAssembly
import Verif.Proofs.Machine
import Verif.Proofs.Prover

/-!
# Synthesis for proving with limited vectors: proofs
-/

namespace Bellman

variable {F α : Type} [PrimeField F]

open KeypairAssembly (pushVec_some pushVec_eq)

namespace ProvingAssignment

/-- The vectors are within the limits. -/
structure Fits (size : ℕ) (s : ProvingAssignment F) : Prop where
  ins : s.inputAssignment.length * size < 2 ^ 63
  aux : s.auxAssignment.length * size < 2 ^ 63
  cons : s.a.length * size < 2 ^ 63

theorem addElementW_some {d e : DensityTracker} (h : d.addElementW = some e) : e = d.addElement := by
  unfold DensityTracker.addElementW at h
  split at h
  · exact (Option.some.inj h).symm
  · cases h

omit [PrimeField F] in
theorem allocInputW_some {size : ℕ} {bd : Build} {f : Except SynthesisError F} {s : ProvingAssignment F}
    {r : Except SynthesisError (Var × Option F) × ProvingAssignment F} (hf : s.Fits size) (h : s.allocInputW size bd f = some r) :
    r = s.allocInput f ∧ r.2.Fits size := by
  cases f with
  | error e => cases h; exact ⟨rfl, hf⟩
  | ok v =>
    simp only [allocInputW, Option.bind_eq_some_iff] at h
    obtain ⟨l, hl, d, hd, i, hi, h⟩ := h
    obtain ⟨rfl, hb⟩ := pushVec_some hl
    obtain rfl := addElementW_some hd
    rw [bd.sub_le (by simp)] at hi
    cases hi
    cases h
    exact ⟨rfl, by simpa using hb, hf.aux, hf.cons⟩

omit [PrimeField F] in
theorem allocAuxW_some {size : ℕ} {bd : Build} {f : Except SynthesisError F} {s : ProvingAssignment F}
    {r : Except SynthesisError (Var × Option F) × ProvingAssignment F} (hf : s.Fits size) (h : s.allocAuxW size bd f = some r) :
    r = s.allocAux f ∧ r.2.Fits size := by
  cases f with
  | error e => cases h; exact ⟨rfl, hf⟩
  | ok v =>
    simp only [allocAuxW, Option.bind_eq_some_iff] at h
    obtain ⟨l, hl, d, hd, d', hd', i, hi, h⟩ := h
    obtain ⟨rfl, hb⟩ := pushVec_some hl
    obtain rfl := addElementW_some hd
    obtain rfl := addElementW_some hd'
    rw [bd.sub_le (by simp)] at hi
    cases hi
    cases h
    exact ⟨rfl, hf.ins, by simpa using hb, hf.cons⟩

theorem enforceW_some {size : ℕ} {a b c : LC F} {s s' : ProvingAssignment F} (hf : s.Fits size) (h : s.enforceW size a b c = some s') :
    s.enforce a b c = some s' ∧ s'.Fits size := by
  simp only [enforceW, Option.bind_eq_some_iff] at h
  obtain ⟨ra, ha, va, hva, rb, hb, vb, hvb, rc, hc, vc, hvc, h⟩ := h
  obtain ⟨rfl, l⟩ := pushVec_some hva
  obtain ⟨rfl, -⟩ := pushVec_some hvb
  obtain ⟨rfl, -⟩ := pushVec_some hvc
  cases h
  refine ⟨?_, hf.ins, hf.aux, by simpa using l⟩
  rw [enforce, ha, Option.bind_some, hb, Option.bind_some, hc]
  rfl

/-- What a limited run yields an unlimited run yields. -/
theorem run_refine {size : ℕ} {bd : Build} (c : Circ F α) {s s' : ProvingAssignment F} {x : α} (hf : s.Fits size)
    (h : c.run (implW size bd) s = some (x, s')) : c.run impl s = some (x, s') ∧ s'.Fits size := by
  induction c generalizing s with
  | ret b => cases h; exact ⟨rfl, hf⟩
  | panic m => cases h
  | alloc i n f k ih =>
    cases i with
    | true =>
      simp only [Circ.run, implW, if_true, Option.bind_eq_some_iff] at h
      obtain ⟨r, hr, h⟩ := h
      obtain ⟨rfl, h2⟩ := allocInputW_some hf hr
      exact ih _ h2 h
    | false =>
      simp only [Circ.run, implW, Bool.false_eq_true, if_false, Option.bind_eq_some_iff] at h
      obtain ⟨r, hr, h⟩ := h
      obtain ⟨rfl, h2⟩ := allocAuxW_some hf hr
      exact ih _ h2 h
  | enforce n a b c k ih =>
    simp only [Circ.run, implW, Option.bind_eq_some_iff] at h
    obtain ⟨t, ht, h⟩ := h
    obtain ⟨h1, h2⟩ := enforceW_some hf ht
    obtain ⟨h3, h4⟩ := ih h2 h
    exact ⟨by simp only [Circ.run, impl, h1, Option.bind_some]; exact h3, h4⟩
  | push n k ih => exact ih hf h
  | pop k ih => exact ih hf h

theorem inputs_refine {size : ℕ} (l : List ℕ) {s s' : ProvingAssignment F} (hf : s.Fits size)
    (h : l.foldlM (fun p i => p.enforceW size ((LC.zero : LC F) + Var.input i) LC.zero LC.zero) s = some s') :
    l.foldlM (fun p i => p.enforce ((LC.zero : LC F) + Var.input i) LC.zero LC.zero) s = some s' ∧ s'.Fits size := by
  induction l generalizing s with
  | nil => cases h; exact ⟨rfl, hf⟩
  | cons i l ih =>
    simp only [List.foldlM_cons, Option.bind_eq_bind, Option.bind_eq_some_iff] at h ⊢
    obtain ⟨t, ht, h⟩ := h
    obtain ⟨h1, h2⟩ := enforceW_some hf ht
    obtain ⟨h3, h4⟩ := ih h2 h
    exact ⟨⟨t, h1, h3⟩, h4⟩

/-- Vectors of equal length, trackers as long as the vectors. -/
structure Even (s : ProvingAssignment F) : Prop where
  wf : s.WF
  b : s.b.length = s.a.length
  c : s.c.length = s.a.length

theorem even_enforce {a b c : LC F} {s s' : ProvingAssignment F} (he : s.Even) (h : s.enforce a b c = some s') :
    s'.Even ∧ s'.inputAssignment = s.inputAssignment ∧ s'.auxAssignment = s.auxAssignment ∧ s'.a.length = s.a.length + 1 := by
  obtain ⟨w, -, h1, h2, h3, h4, h5, -⟩ := enforce_spec he.wf h
  exact ⟨⟨w, by rw [h4, h3]; simp [he.b], by rw [h5, h3]; simp [he.c]⟩, h1, h2, by rw [h3]; simp⟩

omit [PrimeField F] in
theorem even_input {v : F} {s : ProvingAssignment F} (he : s.Even) : (s.allocInput (.ok v)).2.Even := by
  obtain ⟨⟨h1, h2, h3⟩, hb, hc⟩ := he
  exact ⟨⟨h1, by simp [allocInput, DensityTracker.addElement, h2], h3⟩, hb, hc⟩

omit [PrimeField F] in
theorem even_aux {v : F} {s : ProvingAssignment F} (he : s.Even) : (s.allocAux (.ok v)).2.Even := by
  obtain ⟨⟨h1, h2, h3⟩, hb, hc⟩ := he
  exact ⟨⟨by simp [allocAux, DensityTracker.addElement, h1], h2, by simp [allocAux, DensityTracker.addElement, h3]⟩, hb, hc⟩

theorem run_mono (c : Circ F α) {s s' : ProvingAssignment F} {x : α} (he : s.Even) (h : c.run impl s = some (x, s')) :
    s'.Even ∧ s.inputAssignment.length ≤ s'.inputAssignment.length ∧ s.auxAssignment.length ≤ s'.auxAssignment.length ∧
      s.a.length ≤ s'.a.length := by
  induction c generalizing s with
  | ret b => cases h; exact ⟨he, le_rfl, le_rfl, le_rfl⟩
  | panic m => cases h
  | alloc i n f k ih =>
    cases f with
    | error e => cases i <;> exact ih _ he h
    | ok v =>
      cases i with
      | true =>
        obtain ⟨h1, h2, h3, h4⟩ := ih _ (even_input he) h
        exact ⟨h1, by simp [allocInput] at h2; omega, h3, h4⟩
      | false =>
        obtain ⟨h1, h2, h3, h4⟩ := ih _ (even_aux he) h
        exact ⟨h1, h2, by simp [allocAux] at h3; omega, h4⟩
  | enforce n a b c k ih =>
    simp only [Circ.run, impl, Option.bind_eq_some_iff] at h
    obtain ⟨t, ht, h⟩ := h
    obtain ⟨e1, e2, e3, e4⟩ := even_enforce he ht
    obtain ⟨h1, h2, h3, h4⟩ := ih e1 h
    rw [e2] at h2
    rw [e3] at h3
    exact ⟨h1, h2, h3, by omega⟩
  | push n k ih => exact ih he h
  | pop k ih => exact ih he h

theorem inputs_mono (l : List ℕ) {s s' : ProvingAssignment F} (he : s.Even)
    (h : l.foldlM (fun p i => p.enforce ((LC.zero : LC F) + Var.input i) LC.zero LC.zero) s = some s') :
    s'.inputAssignment = s.inputAssignment ∧ s'.auxAssignment = s.auxAssignment ∧ s.a.length ≤ s'.a.length := by
  induction l generalizing s with
  | nil => cases h; exact ⟨rfl, rfl, le_rfl⟩
  | cons i l ih =>
    simp only [List.foldlM_cons, Option.bind_eq_bind, Option.bind_eq_some_iff] at h
    obtain ⟨t, ht, h⟩ := h
    obtain ⟨e1, e2, e3, e4⟩ := even_enforce he ht
    obtain ⟨h2, h3, h4⟩ := ih e1 h
    exact ⟨h2.trans e2, h3.trans e3, by omega⟩

theorem mul_fit {n m size k : ℕ} (h : n ≤ m) (hm : m * size < k) : n * size < k := (Nat.mul_le_mul_right size h).trans_lt hm

theorem enforceW_fit {size : ℕ} {a b c : LC F} {s s' : ProvingAssignment F} (he : s.Even) (h : s.enforce a b c = some s')
    (hl : (s.a.length + 1) * size < 2 ^ 63) : s.enforceW size a b c = some s' := by
  simp only [enforce, Option.bind_eq_some_iff] at h
  obtain ⟨ra, ha, rb, hb, rc, hc, h⟩ := h
  rw [enforceW, ha, Option.bind_some, pushVec_eq hl, Option.bind_some, hb, Option.bind_some, pushVec_eq (by rw [he.b]; exact hl),
    Option.bind_some, hc, Option.bind_some, pushVec_eq (by rw [he.c]; exact hl), Option.bind_some]
  exact h

omit [PrimeField F] in
theorem allocInputW_fit {size : ℕ} {bd : Build} {v : F} {s : ProvingAssignment F} (he : s.Even)
    (hl : (s.inputAssignment.length + 1) * size < 2 ^ 63) (hb : s.inputAssignment.length + 1 < 2 ^ 61) :
    s.allocInputW size bd (.ok v) = some (s.allocInput (.ok v)) := by
  have h1 : s.bInputDensity.addElementW = some s.bInputDensity.addElement := if_pos (by rw [he.wf.bi]; exact hb)
  simp only [allocInputW, pushVec_eq hl, Option.bind_some, h1]
  rw [bd.sub_le (by simp)]
  rfl

omit [PrimeField F] in
theorem allocAuxW_fit {size : ℕ} {bd : Build} {v : F} {s : ProvingAssignment F} (he : s.Even)
    (hl : (s.auxAssignment.length + 1) * size < 2 ^ 63) (hb : s.auxAssignment.length + 1 < 2 ^ 61) :
    s.allocAuxW size bd (.ok v) = some (s.allocAux (.ok v)) := by
  have h1 : s.aAuxDensity.addElementW = some s.aAuxDensity.addElement := if_pos (by rw [he.wf.aa]; exact hb)
  have h2 : s.bAuxDensity.addElementW = some s.bAuxDensity.addElement := if_pos (by rw [he.wf.ba]; exact hb)
  simp only [allocAuxW, pushVec_eq hl, Option.bind_some, h1, h2]
  rw [bd.sub_le (by simp)]
  rfl

/-- What fits is not changed by the limits. -/
theorem run_fit {size : ℕ} (bd : Build) (c : Circ F α) {s s' : ProvingAssignment F} {x : α} (he : s.Even)
    (h : c.run impl s = some (x, s')) (hf : s'.Fits size) (hi : s'.inputAssignment.length < 2 ^ 61)
    (hx : s'.auxAssignment.length < 2 ^ 61) : c.run (implW size bd) s = some (x, s') := by
  induction c generalizing s with
  | ret b => exact h
  | panic m => cases h
  | alloc i n f k ih =>
    cases f with
    | error e => cases i <;> exact ih _ he h
    | ok v =>
      cases i with
      | true =>
        have h0 : (k (s.allocInput (.ok v)).1).run impl (s.allocInput (.ok v)).2 = some (x, s') := h
        obtain ⟨-, m, -, -⟩ := run_mono _ (even_input he) h0
        have m : s.inputAssignment.length + 1 ≤ s'.inputAssignment.length := by simpa [allocInput] using m
        simp only [Circ.run, implW, if_true, allocInputW_fit (bd := bd) (v := v) he (mul_fit m hf.ins) (by omega), Option.bind_some]
        exact ih _ (even_input he) h0
      | false =>
        have h0 : (k (s.allocAux (.ok v)).1).run impl (s.allocAux (.ok v)).2 = some (x, s') := h
        obtain ⟨-, -, m, -⟩ := run_mono _ (even_aux he) h0
        have m : s.auxAssignment.length + 1 ≤ s'.auxAssignment.length := by simpa [allocAux] using m
        simp only [Circ.run, implW, Bool.false_eq_true, if_false,
          allocAuxW_fit (bd := bd) (v := v) he (mul_fit m hf.aux) (by omega), Option.bind_some]
        exact ih _ (even_aux he) h0
  | enforce n a b c k ih =>
    simp only [Circ.run, impl, Option.bind_eq_some_iff] at h
    obtain ⟨t, ht, h⟩ := h
    obtain ⟨e1, e2, e3, e4⟩ := even_enforce he ht
    obtain ⟨-, -, -, m⟩ := run_mono _ e1 h
    simp only [Circ.run, implW, enforceW_fit he ht (mul_fit (by omega) hf.cons), Option.bind_some]
    exact ih e1 h
  | push n k ih => exact ih he h
  | pop k ih => exact ih he h

theorem inputs_fit {size : ℕ} (l : List ℕ) {s s' : ProvingAssignment F} (he : s.Even)
    (h : l.foldlM (fun p i => p.enforce ((LC.zero : LC F) + Var.input i) LC.zero LC.zero) s = some s') (hf : s'.Fits size) :
    l.foldlM (fun p i => p.enforceW size ((LC.zero : LC F) + Var.input i) LC.zero LC.zero) s = some s' := by
  induction l generalizing s with
  | nil => exact h
  | cons i l ih =>
    simp only [List.foldlM_cons, Option.bind_eq_bind, Option.bind_eq_some_iff] at h ⊢
    obtain ⟨t, ht, h⟩ := h
    obtain ⟨e1, e2, e3, e4⟩ := even_enforce he ht
    obtain ⟨-, -, m⟩ := inputs_mono l e1 h
    exact ⟨t, enforceW_fit he ht (mul_fit (by omega) hf.cons), ih e1 h⟩

end ProvingAssignment

end Bellman
