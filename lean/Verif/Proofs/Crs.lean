import Verif.Proofs.Generator
import Mathlib.Data.Nat.Log

/-!
# `generate_parameters` computes the common reference string
-/

namespace Bellman

open PrimeField Finset EvaluationDomain Polynomial

set_option linter.unusedSectionVars false

variable {F : Type} [PrimeField F]

/-! ## The assembled circuit -/

theorem column_append (sel : Row F → LC F) (v : Var) (j : ℕ) (xs ys : List (Row F)) :
    column sel v j (xs ++ ys) = column sel v j xs ++ column sel v (j + xs.length) ys := by
  induction xs generalizing j with
  | nil => rfl
  | cons x xs ih =>
    simp only [List.cons_append, column, ih, List.append_assoc, List.length_cons]
    congr 3
    omega

/-- An assembly holding `n` inputs, `k` auxiliaries and the given constraints. -/
structure Holds (s : KeypairAssembly F) (n k : ℕ) (rows : List (Row F)) : Prop where
  wf : s.WF
  inputs : s.numInputs = n
  aux : s.numAux = k
  constraints : s.numConstraints = rows.length
  at_ : ∀ v, KeypairAssembly.look s.atInputs s.atAux v = column (·.1) v 0 rows
  bt_ : ∀ v, KeypairAssembly.look s.btInputs s.btAux v = column (·.2.1) v 0 rows
  ct_ : ∀ v, KeypairAssembly.look s.ctInputs s.ctAux v = column (·.2.2) v 0 rows

theorem Holds.enforce {s : KeypairAssembly F} {n k : ℕ} {rows : List (Row F)} (h : Holds s n k rows) (i : ℕ) (hi : i < n) :
    ∃ s', s.enforce ((LC.zero : LC F) + Var.input i) LC.zero LC.zero = some s' ∧
      Holds s' n k (rows ++ [(⟨[(.input i, 1)]⟩, ⟨[]⟩, ⟨[]⟩)]) := by
  obtain ⟨ra, ha⟩ := KeypairAssembly.eval_isSome (this := s.numConstraints) (ts := [(Var.input i, (1 : F))])
    (inputs := s.atInputs) (aux := s.atAux) (by
      intro x hx
      simp only [List.mem_singleton] at hx
      subst hx
      show i < _
      rw [h.wf.ai, h.inputs]; exact hi)
  have he : ∃ s', s.enforce ((LC.zero : LC F) + Var.input i) LC.zero LC.zero = some s' := by
    unfold KeypairAssembly.enforce
    rw [show ((LC.zero : LC F) + Var.input i).terms = [(Var.input i, (1 : F))] from rfl, ha]
    exact ⟨_, rfl⟩
  obtain ⟨s', hs'⟩ := he
  obtain ⟨w, _, e1, e2, e3, ea, eb, ec⟩ := KeypairAssembly.enforce_spec h.wf hs'
  refine ⟨s', hs', w, e1.trans h.inputs, e2.trans h.aux, ?_, ?_, ?_, ?_⟩
  · rw [e3, h.constraints]; simp
  · intro v; rw [ea, h.at_, column_append, h.constraints, Nat.zero_add]; rfl
  · intro v; rw [eb, h.bt_, column_append, h.constraints, Nat.zero_add]; rfl
  · intro v; rw [ec, h.ct_, column_append, h.constraints, Nat.zero_add]; rfl

theorem Holds.inputConstraints {s : KeypairAssembly F} {n k : ℕ} {rows : List (Row F)} (h : Holds s n k rows) :
    ∃ s', inputConstraints s = some s' ∧ Holds s' n k (rows ++ inputRows n) := by
  unfold Bellman.inputConstraints
  rw [h.inputs]
  exact foldlM_range_inv (n := n) (fun j s' => Holds s' n k (rows ++ inputRows j)) (by simpa [inputRows] using h) (by
    intro j hj s' hs
    obtain ⟨s2, e2, h2⟩ := hs.enforce j hj
    refine ⟨s2, e2, ?_⟩
    rw [inputRows, List.range_succ, List.map_append, ← List.append_assoc]
    exact h2)

/-- The trace of calls made by `circuit.synthesize` during key generation: no witness closure is run, the variables follow the
constant one, and every constraint mentions allocated variables only. -/
structure KeyTrace (circuit : Synth F Unit) (t : List (Ev F)) : Prop where
  exec : Blind circuit.run t (some (.ok ()))
  numbered : Numbered 1 0 t
  inScope : Scoped 1 0 t

/-- Key generation can follow every such trace. -/
theorem KeyTrace.run_aux {α : Type} {c : Circ F α} {t : List (Ev F)} {a : α} (he : Blind c t (some a)) {s : KeypairAssembly F}
    (hw : s.WF) (hn : Numbered s.numInputs s.numAux t) (hs : Scoped s.numInputs s.numAux t) : ∃ s', c.run KeypairAssembly.impl s = some (a, s') := by
  induction c generalizing s t with
  | ret b => cases he; exact ⟨s, rfl⟩
  | panic m => cases he
  | alloc i n f k ih =>
    cases he with
    | allocSkip x h =>
      cases i with
      | true =>
        obtain ⟨rfl, hn⟩ := hn
        exact ih _ h (KeypairAssembly.allocInput_WF hw) hn hs
      | false =>
        obtain ⟨rfl, hn⟩ := hn
        exact ih _ h (KeypairAssembly.allocAux_WF hw) hn hs
  | enforce n a b c k ih =>
    cases he with
    | enforce h =>
      obtain ⟨h1, h2⟩ := hs
      obtain ⟨ra, ea⟩ := KeypairAssembly.eval_isSome (this := s.numConstraints) (ts := a.terms) (inputs := s.atInputs)
        (aux := s.atAux) (by rw [hw.ai, hw.aa]; exact fun x hx => h1 x (by simp [hx]))
      obtain ⟨rb, eb⟩ := KeypairAssembly.eval_isSome (this := s.numConstraints) (ts := b.terms) (inputs := s.btInputs)
        (aux := s.btAux) (by rw [hw.bi, hw.ba]; exact fun x hx => h1 x (by simp [hx]))
      obtain ⟨rc, ec⟩ := KeypairAssembly.eval_isSome (this := s.numConstraints) (ts := c.terms) (inputs := s.ctInputs)
        (aux := s.ctAux) (by rw [hw.ci, hw.ca]; exact fun x hx => h1 x (by simp [hx]))
      have hen : ∃ s1, s.enforce a b c = some s1 := by
        unfold KeypairAssembly.enforce
        rw [ea, Option.bind_some, eb, Option.bind_some, ec]
        exact ⟨_, rfl⟩
      obtain ⟨s1, e1⟩ := hen
      obtain ⟨w1, _, i1, i2, _⟩ := KeypairAssembly.enforce_spec hw e1
      obtain ⟨s', hs'⟩ := ih h w1 (by rw [i1, i2]; exact hn) (by rw [i1, i2]; exact h2)
      refine ⟨s', ?_⟩
      simp only [Circ.run, KeypairAssembly.impl, e1, Option.bind_some]
      exact hs'
  | push n k ih =>
    cases he with
    | push h => exact ih h hw hn hs
  | pop k ih =>
    cases he with
    | pop h => exact ih h hw hn hs

/-- A circuit has at most one such trace. -/
theorem KeyTrace.unique_aux {α : Type} {c : Circ F α} {t t' : List (Ev F)} {a a' : α} (he : Blind c t (some a))
    (he' : Blind c t' (some a')) {n m : ℕ} (hn : Numbered n m t) (hn' : Numbered n m t') : t = t' := by
  induction c generalizing t t' n m with
  | ret b => cases he; cases he'; rfl
  | panic m => cases he
  | alloc i n f k ih =>
    cases he with
    | allocSkip x h =>
      cases he' with
      | allocSkip x' h' =>
        cases i with
        | true =>
          obtain ⟨rfl, hn⟩ := hn
          obtain ⟨rfl, hn'⟩ := hn'
          rw [ih _ h h' hn hn']
        | false =>
          obtain ⟨rfl, hn⟩ := hn
          obtain ⟨rfl, hn'⟩ := hn'
          rw [ih _ h h' hn hn']
  | enforce n a b c k ih =>
    cases he with
    | enforce h =>
      cases he' with
      | enforce h' => rw [ih h h' hn hn']
  | push n k ih =>
    cases he with
    | push h =>
      cases he' with
      | push h' => rw [ih h h' hn hn']
  | pop k ih =>
    cases he with
    | pop h =>
      cases he' with
      | pop h' => rw [ih h h' hn hn']

theorem KeyTrace.unique {circuit : Synth F Unit} {t t' : List (Ev F)} (h : KeyTrace circuit t) (h' : KeyTrace circuit t') :
    t = t' := KeyTrace.unique_aux h.exec h'.exec h.numbered h'.numbered

theorem synthesizeWith_ok {σ α : Type} {I : CSImpl F σ} {c : Synth F α} {s s' : σ} {a : α} :
    synthesizeWith I c s = Res.ok (a, s') ↔ Circ.run I c.run s = some (.ok a, s') := by
  unfold synthesizeWith
  rcases Circ.run I c.run s with _ | ⟨e | a, s1⟩
  · exact ⟨fun h => (by cases h), fun h => (by cases h)⟩
  · exact ⟨fun h => (by cases h), fun h => (by cases h)⟩
  · exact ⟨fun h => (by cases h; rfl), fun h => (by cases h; rfl)⟩

theorem start_WF : (KeypairAssembly.new : KeypairAssembly F).allocInput.2.WF :=
  KeypairAssembly.allocInput_WF KeypairAssembly.WF_new

theorem holds_of_recorded {s' : KeypairAssembly F} {t : List (Ev F)}
    (h : KeypairAssembly.Recorded (KeypairAssembly.new : KeypairAssembly F).allocInput.2 t s') :
    Holds s' (numIn t + 1) (numAux t) (consOf t) := by
  obtain ⟨_, _, _, h4, h5, h6, h7, h8, h9, h10⟩ := h
  have l0 : ∀ v, KeypairAssembly.look ([[]] : List (List (F × ℕ))) [] v = [] := by
    intro v
    cases v with
    | input i => cases i <;> rfl
    | aux i => rfl
  refine ⟨h4, ?_, ?_, ?_, fun v => (h8 v).trans ?_, fun v => (h9 v).trans ?_, fun v => (h10 v).trans ?_⟩
  · rw [h5]; simp [KeypairAssembly.new, KeypairAssembly.allocInput]; omega
  · rw [h6]; simp [KeypairAssembly.new, KeypairAssembly.allocInput]
  · rw [h7]; simp [KeypairAssembly.new, KeypairAssembly.allocInput]
  · simp [KeypairAssembly.new, KeypairAssembly.allocInput, l0]
  · simp [KeypairAssembly.new, KeypairAssembly.allocInput, l0]
  · simp [KeypairAssembly.new, KeypairAssembly.allocInput, l0]

/-- Key generation gets through synthesis exactly along such a trace. -/
theorem KeyTrace.iff_run {circuit : Synth F Unit} : (∃ t, KeyTrace circuit t) ↔
    ∃ s, synthesizeWith KeypairAssembly.impl circuit (KeypairAssembly.new : KeypairAssembly F).allocInput.2 = Res.ok ((), s) := by
  constructor
  · rintro ⟨t, h⟩
    obtain ⟨s', hs'⟩ := KeyTrace.run_aux h.exec start_WF h.numbered h.inScope
    exact ⟨s', synthesizeWith_ok.2 hs'⟩
  · rintro ⟨s, hs⟩
    obtain ⟨t, he, hr⟩ := KeypairAssembly.run_recorded' _ start_WF (synthesizeWith_ok.1 hs)
    exact ⟨t, he, hr.numbered, hr.inScope⟩

/-- The outcomes of synthesis during key generation. -/
theorem assemble_cases (circuit : Synth F Unit) :
    (∃ t s, KeyTrace circuit t ∧ assemble circuit = Res.ok s ∧
      Holds s (numIn t + 1) (numAux t) (consOf t ++ inputRows (numIn t + 1))) ∨
    (∃ e, synthesizeWith KeypairAssembly.impl circuit (KeypairAssembly.new : KeypairAssembly F).allocInput.2 = Res.err e ∧
      assemble circuit = Res.err e) ∨
    (synthesizeWith KeypairAssembly.impl circuit (KeypairAssembly.new : KeypairAssembly F).allocInput.2 = Res.panic ∧
      assemble circuit = Res.panic) := by
  unfold assemble
  simp only
  rcases hs : synthesizeWith KeypairAssembly.impl circuit (KeypairAssembly.new : KeypairAssembly F).allocInput.2 with _ | e | ⟨⟨⟩, s1⟩
  · exact .inr (.inr ⟨rfl, rfl⟩)
  · exact .inr (.inl ⟨e, rfl, rfl⟩)
  · left
    obtain ⟨t, he, hr⟩ := KeypairAssembly.run_recorded' _ start_WF (synthesizeWith_ok.1 hs)
    obtain ⟨s2, e2, h2⟩ := (holds_of_recorded hr).inputConstraints
    refine ⟨t, s2, ⟨he, hr.numbered, hr.inScope⟩, ?_, h2⟩
    show Res.lift (Bellman.inputConstraints s1) = _
    rw [e2]; rfl

theorem KeyTrace.assemble {circuit : Synth F Unit} {t : List (Ev F)} (h : KeyTrace circuit t) :
    ∃ s, Bellman.assemble circuit = Res.ok s ∧ Holds s (numIn t + 1) (numAux t) (consOf t ++ inputRows (numIn t + 1)) := by
  obtain ⟨s0, h0⟩ := KeyTrace.iff_run.1 ⟨t, h⟩
  rcases assemble_cases circuit with ⟨t', s, h1, h2, h3⟩ | ⟨e, h1, h2⟩ | ⟨h1, h2⟩
  · obtain rfl := h.unique h1
    exact ⟨s, h2, h3⟩
  · rw [h0] at h1; cases h1
  · rw [h0] at h1; cases h1

/-! ## Interpolation -/

theorem valAt_powers_eq (ω minv τ : F) (e : ℕ) (hp : IsPrimitiveRoot ω (2 ^ e)) (hm : minv * 2 ^ e = 1) (P : F[X])
    (hP : P.degree < (2 ^ e : ℕ)) (f : ℕ → F) (hf : ∀ j < 2 ^ e, P.eval (ω ^ j) = f j) :
    ∑ j ∈ range (2 ^ e), (minv * valAt (2 ^ e) (fun t => τ ^ t) (ω⁻¹ ^ j)) * f j = P.eval τ := by
  have h1 : ∀ t < 2 ^ e, valAt (2 ^ e) f (ω⁻¹ ^ t) = (2 : F) ^ e * P.coeff t := by
    intro t ht
    rw [← smul_eq_mul, ← dft_dft ω e hp P.coeff t ht]
    exact valAt_congr _ fun j hj => by rw [← hf j hj, eval_eq_valAt P _ hP]
  rw [eval_eq_valAt P _ hP]
  unfold valAt at h1 ⊢
  simp only [smul_eq_mul] at h1 ⊢
  calc ∑ j ∈ range (2 ^ e), (minv * ∑ t ∈ range (2 ^ e), (ω⁻¹ ^ j) ^ t * τ ^ t) * f j
      = ∑ t ∈ range (2 ^ e), τ ^ t * (minv * ∑ j ∈ range (2 ^ e), (ω⁻¹ ^ t) ^ j * f j) := by
        simp only [mul_sum, sum_mul]
        rw [sum_comm]
        refine sum_congr rfl fun t _ => sum_congr rfl fun j _ => ?_
        rw [← pow_mul, ← pow_mul, Nat.mul_comm]
        ring
    _ = ∑ t ∈ range (2 ^ e), τ ^ t * P.coeff t := by
        refine sum_congr rfl fun t ht => ?_
        rw [h1 t (mem_range.1 ht), ← mul_assoc minv, hm, one_mul]

theorem sumAt_append (pot : List F) (p q : List (F × ℕ)) : sumAt pot (p ++ q) = sumAt pot p + sumAt pot q := by
  simp [sumAt]

theorem sumAt_column (pot : List F) (sel : Row F → LC F) (v : Var) (rows : List (Row F)) (j : ℕ) :
    sumAt pot (column sel v j rows) =
      ∑ i ∈ range rows.length, pot.getD (j + i) 0 * (match rows[i]? with | some r => (sel r).coeffOf v | none => 0) := by
  induction rows generalizing j with
  | nil => simp [column, sumAt]
  | cons r rows ih =>
    have h1 : sumAt pot ((sel r).terms.filterMap fun t => if t.1 = v then some (t.2, j) else none) =
        pot.getD j 0 * (sel r).coeffOf v := by
      unfold LC.coeffOf
      induction (sel r).terms with
      | nil => simp [sumAt]
      | cons t ts ih =>
        simp only [List.filterMap_cons, List.map_cons, List.sum_cons]
        by_cases hv : t.1 = v
        · simp only [hv, if_true, mul_add, ← ih]
          simp [sumAt]
        · simp only [hv, if_false, zero_add, ← ih]
    rw [column, sumAt_append, h1, ih, List.length_cons, Finset.sum_range_succ']
    simp only [Nat.add_zero, List.getElem?_cons_zero, List.getElem?_cons_succ]
    rw [add_comm]
    congr 1
    refine sum_congr rfl fun i _ => ?_
    rw [show j + 1 + i = j + (i + 1) by omega]

theorem column_lt (sel : Row F → LC F) (v : Var) (rows : List (Row F)) (j : ℕ) :
    ∀ x ∈ column sel v j rows, x.2 < j + rows.length := by
  induction rows generalizing j with
  | nil => simp [column]
  | cons r rows ih =>
    intro x hx
    rw [column, List.mem_append] at hx
    rcases hx with hx | hx
    · simp only [List.mem_filterMap] at hx
      obtain ⟨t, _, ht⟩ := hx
      split at ht
      · simp only [Option.some.injEq] at ht
        subst ht
        simp
      · cases ht
    · have := ih (j + 1) x hx
      simp only [List.length_cons]; omega

/-! ## A well-formed program -/

namespace Qap

variable (q : Qap F)

/-- The facts about the domain used below. -/
structure Good (q : Qap F) (e : ℕ) : Prop where
  m : q.m = 2 ^ e
  prim : IsPrimitiveRoot q.ω (2 ^ e)
  len : q.rows.length ≤ 2 ^ e

theorem interp_degree {q : Qap F} {e : ℕ} (h : q.Good e) (f : ℕ → F) : (q.interp f).degree < (2 ^ e : ℕ) := by
  unfold interp
  have := Lagrange.degree_interpolate_lt (s := Finset.range q.m) (v := fun j => q.ω ^ j) f (by
    rw [h.m]
    intro i hi j hj hij
    exact h.prim.pow_inj (by simpa using hi) (by simpa using hj) hij)
  rw [Finset.card_range, h.m] at this
  rw [h.m]
  exact this

theorem interp_eval {q : Qap F} {e : ℕ} (h : q.Good e) (f : ℕ → F) (j : ℕ) (hj : j < 2 ^ e) : (q.interp f).eval (q.ω ^ j) = f j := by
  unfold interp
  exact Lagrange.eval_interpolate_at_node (s := Finset.range q.m) (v := fun j => q.ω ^ j) f (by
    rw [h.m]
    intro i hi j hj hij
    exact h.prim.pow_inj (by simpa using hi) (by simpa using hj) hij) (by rw [h.m]; simpa using hj)

/-- What the generator's sums are when `pot` holds the Lagrange coefficients of `τ`. -/
theorem sumAt_eq {q : Qap F} {e : ℕ} (h : q.Good e) (minv τ : F) (hm : minv * 2 ^ e = 1) (pot : List F)
    (hpot : ∀ j < 2 ^ e, pot.getD j 0 = minv * valAt (2 ^ e) (fun t => τ ^ t) (q.ω⁻¹ ^ j)) (sel : Row F → LC F) (v : Var) :
    sumAt pot (column sel v 0 q.rows) = (q.interp (q.entry sel v)).eval τ := by
  rw [sumAt_column, ← valAt_powers_eq q.ω minv τ e h.prim hm _ (interp_degree h _) _ (fun j hj => interp_eval h _ j hj)]
  simp only [Nat.zero_add]
  rw [← Finset.sum_subset (Finset.range_subset_range.2 h.len)]
  · refine sum_congr rfl fun j hj => ?_
    rw [hpot j (lt_of_lt_of_le (mem_range.1 hj) h.len)]
    rfl
  · intro j _ hj
    simp only [mem_range, not_lt] at hj
    unfold entry
    rw [List.getElem?_eq_none hj]
    simp

end Qap

theorem clog_of_bounds {n e : ℕ} (h1 : n ≤ 2 ^ e) (h2 : e = 0 ∨ 2 ^ (e - 1) < n) : Nat.clog 2 n = e := by
  apply le_antisymm
  · exact (Nat.clog_le_iff_le_pow (by norm_num)).2 h1
  · rcases h2 with rfl | h2
    · omega
    · have := (Nat.lt_clog_iff_pow_lt (b := 2) (by norm_num)).2 h2
      omega

/-! ## The whole function -/

section Groups

variable {G1 G2 : Type} [AddCommGroup G1] [AddCommGroup G2] [Module F G1] [Module F G2]

theorem ofRows_good {n k : ℕ} {rows : List (Row F)} {d : EvaluationDomain F F} (hd : d.WF)
    (h1 : (rows ++ inputRows n).length ≤ 2 ^ d.exp) (h2 : d.exp = 0 ∨ 2 ^ (d.exp - 1) < (rows ++ inputRows n).length)
    (ho : d.omega = ROOT_OF_UNITY ^ (2 ^ (S F - d.exp))) :
    (Qap.ofRows n k rows).Good d.exp ∧ (Qap.ofRows n k rows).ω = d.omega := by
  have hc := clog_of_bounds h1 h2
  have hω : (Qap.ofRows n k rows).ω = d.omega := by simp only [Qap.ofRows, hc, ho]
  refine ⟨⟨by simp only [Qap.ofRows, hc], by rw [hω]; exact hd.prim, h1⟩, hω⟩

/-- The program of a circuit has a proper domain if the field has one of the required size. -/
theorem Qap.ofTrace_good (t : List (Ev F)) (h : (Qap.ofTrace t).rows.length ≤ 2 ^ (S F - 1)) :
    (Qap.ofTrace t).Good (Nat.clog 2 (Qap.ofTrace t).rows.length) := by
  rcases fromCoeffs_cases (F := F) (List.replicate (Qap.ofTrace t).rows.length (0 : F)) with
    ⟨d, _, wd, hle, hmin, _, hom⟩ | ⟨_, hgt⟩
  · rw [List.length_replicate] at hle hmin
    rw [clog_of_bounds hle hmin]
    exact (ofRows_good (k := numAux t) wd hle hmin hom).1
  · rw [List.length_replicate] at hgt
    omega

/-- Evaluating an interpolated polynomial, as a sum over the domain. -/
theorem Qap.interp_eval_sum {q : Qap F} {e : ℕ} (h : q.Good e) (minv τ : F) (hm : minv * 2 ^ e = 1) (f : ℕ → F) :
    (q.interp f).eval τ = ∑ j ∈ range (2 ^ e), (minv * valAt (2 ^ e) (fun t => τ ^ t) (q.ω⁻¹ ^ j)) * f j :=
  (valAt_powers_eq q.ω minv τ e h.prim hm _ (Qap.interp_degree h _) _ (fun j hj => Qap.interp_eval h _ j hj)).symm

/-- The columns of the inputs and of the auxiliaries. -/
theorem inputs_eq {is as : List (List (F × ℕ))} {sel : Row F → LC F} {rows : List (Row F)}
    (h : ∀ v, KeypairAssembly.look is as v = column sel v 0 rows) :
    is = (List.range is.length).map (fun i => column sel (.input i) 0 rows) ∧
    as = (List.range as.length).map (fun i => column sel (.aux i) 0 rows) := by
  constructor
  · apply List.ext_getElem (by simp)
    intro i h1 h2
    have := h (.input i)
    simp only [KeypairAssembly.look, List.getD_eq_getElem?_getD, List.getElem?_eq_getElem h1, Option.getD_some] at this
    simp [this]
  · apply List.ext_getElem (by simp)
    intro i h1 h2
    have := h (.aux i)
    simp only [KeypairAssembly.look, List.getD_eq_getElem?_getD, List.getElem?_eq_getElem h1, Option.getD_some] at this
    simp [this]

theorem powers_eq (w : Worker) (tau : F) (l : List F) (h : 0 < l.length) :
    w.forChunks l.length (powersTask tau) Prod.fst l = some (l.mapIdx fun i _ => tau ^ i) := by
  have hpos : 0 < w.chunkSize l.length := (w.chunkSize_pos_iff _).2 (Or.inr h)
  refine w.forChunks_eq l.length (powersTask tau) Prod.fst l (fun i _ => tau ^ i) hpos ?_
  intro i v _ _
  exact ⟨_, loopTask_run (tau ^ (i * w.chunkSize l.length)) (fun cur (_ : F) => (cur, cur * tau))
    (fun j => tau ^ (i * w.chunkSize l.length + j)) rfl (fun j _ => by rw [← pow_succ]; rfl) v, rfl⟩

theorem mapIdx_pow_eq (tau : F) (l : List F) : (l.mapIdx fun i _ => tau ^ i) = (List.range l.length).map fun i => tau ^ i := by
  apply List.ext_getElem (by simp)
  intro i h1 h2
  simp

/-- The four output lists of `eval` for the columns of a list of variables. -/
theorem evalQap_vars (w : Worker) {q : Qap F} {e : ℕ} (hq : q.Good e) (minv τ : F) (hm : minv * 2 ^ e = 1) (pot : List F)
    (hlen : pot.length = 2 ^ e) (hpot : ∀ j < 2 ^ e, pot.getD j 0 = minv * valAt (2 ^ e) (fun t => τ ^ t) (q.ω⁻¹ ^ j))
    (g1 : G1) (g2 : G2) (inv α β : F) (n : ℕ) (x : ℕ → Var) (at_ bt ct : List (List (F × ℕ)))
    (ha : at_ = (List.range n).map fun i => column (·.1) (x i) 0 q.rows)
    (hb : bt = (List.range n).map fun i => column (·.2.1) (x i) 0 q.rows)
    (hc : ct = (List.range n).map fun i => column (·.2.2) (x i) 0 q.rows)
    (out : EvalOut G1 G2) (h1 : out.a.length = n) (h2 : out.bG1.length = n) (h3 : out.bG2.length = n)
    (h4 : out.ext.length = n) (hpos : w.multicore = true ∨ 0 < n) :
    evalQap w ⟨g1, g2, pot, inv, α, β⟩ at_ bt ct out = some
      { a := (List.range n).map fun i => (q.u (x i)).eval τ • g1
        bG1 := (List.range n).map fun i => (q.v (x i)).eval τ • g1
        bG2 := (List.range n).map fun i => (q.v (x i)).eval τ • g2
        ext := (List.range n).map fun i => (q.comb α β τ (x i) * inv) • g1 } := by
  have hin : ∀ (sel : Row F → LC F), InPot pot ((List.range n).map fun i => column sel (x i) 0 q.rows) := by
    intro sel p hp y hy
    obtain ⟨i, _, rfl⟩ := List.mem_map.1 hp
    have := column_lt sel (x i) q.rows 0 y hy
    have := hq.len
    omega
  have hs : ∀ (sel : Row F → LC F) (i : ℕ), sumAt pot (column sel (x i) 0 q.rows) = (q.interp (q.entry sel (x i))).eval τ :=
    fun sel i => Qap.sumAt_eq hq minv τ hm pot hpot sel (x i)
  subst ha hb hc
  rw [evalQap_eq]
  · simp only [zip_map_prod, List.map_map, Function.comp_def, extVal, hs, Option.some.injEq, EvalOut.mk.injEq]
    refine ⟨rfl, rfl, rfl, List.map_congr_left fun i _ => ?_⟩
    congr 1
    unfold Qap.comb Qap.u Qap.v Qap.w
    ring
  all_goals first | exact hin _ | simp [h1, h2, h3, h4, hpos]

variable [DecidableEq G1] [DecidableEq G2]

/-- What happens after synthesis, in terms of the circuit's program. -/
theorem generateParameters_spec (w : Worker) (circuit : Synth F Unit) (g1 : G1) (g2 : G2) (α β γ δ τ : F) (t : List (Ev F))
    (s : KeypairAssembly F) (ha : assemble circuit = Res.ok s)
    (hs : Holds s (numIn t + 1) (numAux t) (consOf t ++ inputRows (numIn t + 1))) :
    let q := Qap.ofTrace t
    let out := generateParameters w circuit g1 g2 α β γ δ τ
    (2 ^ (S F - 1) < q.rows.length → out = Res.err .polynomialDegreeTooLarge) ∧
    (q.rows.length ≤ 2 ^ (S F - 1) →
      (γ = 0 ∨ δ = 0 → out = Res.err .unexpectedIdentity) ∧
      (γ ≠ 0 → δ ≠ 0 →
        (w.multicore = false → q.m = 1 → out = Res.panic) ∧
        (w.FftFits (Nat.clog 2 q.rows.length) →
          (w.multicore = false → q.k = 0 → out = Res.panic) ∧
          (w.multicore = true ∨ 1 < q.m ∧ 0 < q.k →
            ((∃ i < q.k, (q.comb α β τ (.aux i) / δ) • g1 = 0) → out = Res.err .unconstrainedVariable) ∧
            ((∀ i < q.k, (q.comb α β τ (.aux i) / δ) • g1 ≠ 0) → out = Res.ok (q.crs g1 g2 α β γ δ τ)))) ∧
        (¬ w.FftFits (Nat.clog 2 q.rows.length) → out = Res.panic))) := by
  intro q out
  have hn : q.n = numIn t + 1 := rfl
  have hk : q.k = numAux t := rfl
  have hrows : q.rows = consOf t ++ inputRows (numIn t + 1) := rfl
  have hnc : s.numConstraints = q.rows.length := hs.constraints
  have hout : out = generateParameters w circuit g1 g2 α β γ δ τ := rfl
  unfold generateParameters at hout
  rw [ha, Res.ok_bind] at hout
  rcases fromCoeffs_cases (F := F) (List.replicate s.numConstraints (0 : F)) with ⟨d, e1, wd, hle, hmin, hco, hom⟩ | ⟨e1, hgt⟩
  swap
  · rw [List.length_replicate, hnc] at hgt
    refine ⟨fun _ => ?_, fun h => absurd hgt (by omega)⟩
    rw [hout, e1]; rfl
  rw [List.length_replicate, hnc] at hle hmin
  have hS : q.rows.length ≤ 2 ^ (S F - 1) := hle.trans (Nat.pow_le_pow_right (by norm_num) (by have := wd.exp_lt; omega))
  refine ⟨fun h => absurd h (by omega), fun _ => ?_⟩
  have e1' : fromCoeffs (List.replicate s.numConstraints (0 : F)) = Res.ok d := e1
  rw [e1', Res.ok_bind] at hout
  obtain ⟨hq, hω⟩ := ofRows_good (k := numAux t) wd hle hmin hom
  have hq : q.Good d.exp := hq
  have hω : q.ω = d.omega := hω
  have hm := hq.m
  have hclen := wd.len
  have hcoeffs : d.coeffs.length = 2 ^ d.exp := wd.len
  constructor
  · rintro (rfl | rfl)
    · rw [hout]; simp [invertOrIdentity]
    · rw [hout]
      by_cases hγ : γ = 0 <;> simp [invertOrIdentity, hγ]
  intro hγ hδ
  simp only [invertOrIdentity, if_neg hγ, if_neg hδ, Res.ok_bind] at hout
  rw [powers_eq _ _ _ wd.pos, mapIdx_pow_eq, hclen] at hout
  simp only [Res.lift_some, Res.ok_bind] at hout
  constructor
  · intro hmc h1
    rw [hm] at h1
    rw [hout, h1]
    have : hQuery (w.site 1) g1 (({ d with coeffs := (List.range 1).map fun i => τ ^ i } : EvaluationDomain F F).z τ * δ⁻¹) (List.replicate (1 - 1) (0 : G1)) ((List.range 1).map fun i => τ ^ i) = none := by
      unfold hQuery
      have : (w.site 1).chunkSize 0 = 0 := by simp [Worker.chunkSize, Worker.site, hmc]
      simp [this, chunks?]
    rw [this]
    rfl
  rw [clog_of_bounds hle hmin]
  have hz : ({ d with coeffs := (List.range (2 ^ d.exp)).map fun i => τ ^ i } : EvaluationDomain F F).z τ = τ ^ 2 ^ d.exp - 1 := by
    simp [EvaluationDomain.z]
  rw [hz] at hout
  have hwd : ({ d with coeffs := (List.range (2 ^ d.exp)).map fun i => τ ^ i } : EvaluationDomain F F).WF :=
    wd.with_coeffs _ (by simp [hclen])
  -- Lagrange coefficients
  set pot := (dftList d.omegainv ((List.range (2 ^ d.exp)).map fun i => τ ^ i)).map fun x => d.minv • x with hpot
  have hplen : pot.length = 2 ^ d.exp := by simp [hpot, dftList_length]
  have hpg : ∀ j < 2 ^ d.exp, pot.getD j 0 = d.minv * valAt (2 ^ d.exp) (fun t => τ ^ t) (q.ω⁻¹ ^ j) := by
    intro j hj
    rw [hpot, getD_map_smul, dftList_getD _ _ _ (by simpa using hj), hω, ← wd.omegainv_eq, smul_eq_mul]
    congr 1
    simp only [List.length_map, List.length_range]
    exact valAt_congr _ fun i hi => by simp [hi]
  have hsi : ∀ k, (w.site k).multicore = w.multicore := fun _ => rfl
  obtain ⟨ai, aa⟩ := inputs_eq hs.at_
  obtain ⟨bi, ba⟩ := inputs_eq hs.bt_
  obtain ⟨ci, ca⟩ := inputs_eq hs.ct_
  rw [hs.wf.ai, hs.inputs] at ai
  rw [hs.wf.bi, hs.inputs] at bi
  rw [hs.wf.ci, hs.inputs] at ci
  rw [hs.wf.aa, hs.aux] at aa
  rw [hs.wf.ba, hs.aux] at ba
  rw [hs.wf.ca, hs.aux] at ca
  have evI := evalQap_vars (w.site 3) hq d.minv τ wd.minv pot hplen hpg g1 g2 γ⁻¹ α β (numIn t + 1) Var.input _ _ _ ai bi ci
    ⟨(List.replicate (s.numInputs + s.numAux) (0 : G1)).take s.numInputs, (List.replicate (s.numInputs + s.numAux) (0 : G1)).take s.numInputs,
      (List.replicate (s.numInputs + s.numAux) (0 : G2)).take s.numInputs, List.replicate s.numInputs (0 : G1)⟩
    (by simp [hs.inputs]) (by simp [hs.inputs]) (by simp [hs.inputs]) (by simp [hs.inputs]) (Or.inr (by omega))
  have hhq : w.multicore = true ∨ 1 < q.m →
      hQuery (w.site 1) g1 ((τ ^ 2 ^ d.exp - 1) * δ⁻¹) (List.replicate (2 ^ d.exp - 1) (0 : G1)) ((List.range (2 ^ d.exp)).map fun i => τ ^ i) =
        some ((List.range (q.m - 1)).map fun i => (τ ^ i * q.Z.eval τ / δ) • g1) := by
    intro h
    rw [hQuery_eq]
    · simp only [List.length_replicate, Option.some.injEq, ← List.map_take, List.take_range, List.map_map, hm]
      rw [Nat.min_eq_left (by omega)]
      refine List.map_congr_left fun i _ => ?_
      simp only [Function.comp, Qap.Z, eval_sub, eval_pow, eval_X, eval_one, hm]
      congr 1
      rw [div_eq_mul_inv]; ring
    · simp
    · simp only [hsi, List.length_replicate]
      rcases h with h | h
      · exact .inl h
      · rw [hm] at h; exact .inr (by omega)
  constructor
  swap
  · intro hnf
    rcases hh : hQuery (w.site 1) g1 ((τ ^ 2 ^ d.exp - 1) * δ⁻¹) (List.replicate (2 ^ d.exp - 1) (0 : G1))
      ((List.range (2 ^ d.exp)).map fun i => τ ^ i) with _ | hh'
    · rw [hh] at hout; exact hout
    · rw [hh, Res.lift_some, Res.ok_bind, ifft_none (w.site 2) { d with coeffs := (List.range (2 ^ d.exp)).map fun i => τ ^ i } hnf] at hout
      exact hout
  intro he32
  constructor
  · intro hmc hk0
    by_cases h1 : q.m = 1
    · rw [hm] at h1
      rw [hout, h1]
      have : hQuery (w.site 1) g1 ((τ ^ 1 - 1) * δ⁻¹) (List.replicate (1 - 1) (0 : G1)) ((List.range 1).map fun i => τ ^ i) = none := by
        unfold hQuery
        have : (w.site 1).chunkSize 0 = 0 := by simp [Worker.chunkSize, Worker.site, hmc]
        simp [this, chunks?]
      rw [this]
      rfl
    · have hm1 : 1 < q.m := by
        have : 0 < q.m := by rw [hm]; positivity
        omega
      rw [hhq (.inr hm1)] at hout
      simp only [Res.lift_some, Res.ok_bind] at hout
      rw [ifft_eq (w.site 2) _ hwd he32] at hout
      simp only [Res.lift_some, Res.ok_bind, EvaluationDomain.intoCoeffs] at hout
      rw [← hpot, evI] at hout
      simp only [Res.lift_some, Res.ok_bind] at hout
      have haux : s.numAux = 0 := by rw [hs.aux, ← hk, hk0]
      have : evalQap (w.site 4) ⟨g1, g2, pot, δ⁻¹, α, β⟩ s.atAux s.btAux s.ctAux
        ⟨(List.replicate (s.numInputs + s.numAux) (0 : G1)).drop s.numInputs, (List.replicate (s.numInputs + s.numAux) (0 : G1)).drop s.numInputs,
          (List.replicate (s.numInputs + s.numAux) (0 : G2)).drop s.numInputs, List.replicate s.numAux (0 : G1)⟩ = none := by
        unfold evalQap
        have h0 : (w.site 4).chunkSize 0 = 0 := by simp [Worker.chunkSize, Worker.site, hmc]
        simp [haux, hs.wf.aa, hs.wf.ba, hs.wf.ca, h0, chunks?]
      rw [this] at hout
      rw [hout]
      rfl
  intro hmc
  rw [hhq (hmc.imp id And.left)] at hout
  simp only [Res.lift_some, Res.ok_bind] at hout
  rw [ifft_eq (w.site 2) _ hwd he32] at hout
  simp only [Res.lift_some, Res.ok_bind, EvaluationDomain.intoCoeffs] at hout
  rw [← hpot, evI] at hout
  simp only [Res.lift_some, Res.ok_bind] at hout
  have evA := evalQap_vars (w.site 4) hq d.minv τ wd.minv pot hplen hpg g1 g2 δ⁻¹ α β (numAux t) Var.aux _ _ _ aa ba ca
    ⟨(List.replicate (s.numInputs + s.numAux) (0 : G1)).drop s.numInputs, (List.replicate (s.numInputs + s.numAux) (0 : G1)).drop s.numInputs,
      (List.replicate (s.numInputs + s.numAux) (0 : G2)).drop s.numInputs, List.replicate s.numAux (0 : G1)⟩
    (by simp [hs.aux]) (by simp [hs.aux]) (by simp [hs.aux]) (by simp [hs.aux]) (by
      rcases hmc with h | h
      · exact .inl h
      · exact .inr (by rw [← hk]; exact h.2))
  rw [evA] at hout
  simp only [Res.lift_some, Res.ok_bind] at hout
  have hany : ((List.range (numAux t)).map fun i => (q.comb α β τ (.aux i) * δ⁻¹) • g1).any (· = 0) = true ↔
      ∃ i < q.k, (q.comb α β τ (.aux i) / δ) • g1 = 0 := by
    simp [List.any_eq_true, hk, div_eq_mul_inv]
  constructor
  · intro h
    rw [hout, if_pos (hany.2 h)]
  · intro h
    rw [hout, if_neg (fun hc => by obtain ⟨i, hi, h0⟩ := hany.1 hc; exact h i hi h0)]
    congr 1
    simp only [Qap.crs, Qap.vars, List.map_append, List.map_map, Function.comp_def, div_eq_mul_inv, hn, hk]

end Groups

end Bellman
