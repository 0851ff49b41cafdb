import Verif.Groth16.Prover
import Verif.Spec.Groth16
import Verif.Proofs.Crs
import Verif.Proofs.SameCircuit
import Verif.Props.Multiexp

/-!
# The prover computes Groth16 proofs
-/

namespace Bellman

open PrimeField Polynomial Finset EvaluationDomain

set_option linter.unusedSectionVars false

variable {F : Type} [PrimeField F]

/-! ## The assignment -/

/-- A run of the prover through the circuit with the given trace of calls (specification). -/
structure ProverTrace (circuit : Synth F Unit) (t : List (Ev F)) : Prop where
  exec : Honest circuit.run t (some (.ok ()))
  numbered : Numbered 1 0 t

/-- The witness of a trace: the constant one, the inputs and the auxiliaries. -/
def witness (t : List (Ev F)) : Var → F := assign (1 :: inVals t) (auxVals t)

/-- What the prover holds after synthesis and the input constraints. -/
structure Assigned (p : ProvingAssignment F) (t : List (Ev F)) (n : ℕ) : Prop where
  wf : p.WF
  inputs : p.inputAssignment = 1 :: inVals t
  aux : p.auxAssignment = auxVals t
  nIn : (inVals t).length = numIn t
  nAux : (auxVals t).length = numAux t
  a : p.a = (consOf t ++ inputRows n : List (Row F)).map fun k : Row F => k.1.eval (witness t)
  b : p.b = (consOf t ++ inputRows n : List (Row F)).map fun k : Row F => k.2.1.eval (witness t)
  c : p.c = (consOf t ++ inputRows n : List (Row F)).map fun k : Row F => k.2.2.eval (witness t)
  aAux : ∀ i, p.aAuxDensity.Has i ↔ ∃ k ∈ consOf t, Occurs k.1.terms (.aux i)
  bInput : ∀ i, p.bInputDensity.Has i ↔ ∃ k ∈ consOf t, Occurs k.2.1.terms (.input i)
  bAux : ∀ i, p.bAuxDensity.Has i ↔ ∃ k ∈ consOf t, Occurs k.2.1.terms (.aux i)

/-- The state before synthesis: the constant one is allocated. -/
def proverStart (F : Type) [PrimeField F] : ProvingAssignment F := ((ProvingAssignment.new : ProvingAssignment F).allocInput (.ok 1)).2

theorem proverStart_WF : (proverStart F).WF := ⟨rfl, rfl, rfl⟩

theorem Assigned.input {p : ProvingAssignment F} {t : List (Ev F)} {j : ℕ} (h : Assigned p t j) (hj : j < numIn t + 1) :
    ∃ p', p.enforce ((LC.zero : LC F) + Var.input j) LC.zero LC.zero = some p' ∧ Assigned p' t (j + 1) := by
  have ht : ((LC.zero : LC F) + Var.input j).terms = [(.input j, 1)] := rfl
  have hz : (LC.zero : LC F).terms = [] := rfl
  have hlen : p.inputAssignment.length = numIn t + 1 := by rw [h.inputs, List.length_cons, h.nIn]
  obtain ⟨p', hp'⟩ := ProvingAssignment.enforce_isSome (p := p) (a := (LC.zero : LC F) + Var.input j) (b := LC.zero) (c := LC.zero) h.wf (by
    rw [ht, hz]
    intro x hx
    simp only [List.append_nil, List.mem_singleton] at hx
    subst hx
    show j < p.inputAssignment.length
    omega)
  refine ⟨p', hp', ?_⟩
  obtain ⟨h1, _, h3, h4, h5, h6, h7, h8, h9, h10⟩ := ProvingAssignment.enforce_spec h.wf hp'
  have hw : assign p.inputAssignment p.auxAssignment = witness t := by rw [h.inputs, h.aux]; rfl
  have hrows : (inputRows (j + 1) : List (Row F)) = inputRows j ++ [(⟨[(.input j, 1)]⟩, ⟨[]⟩, ⟨[]⟩)] := by
    simp [inputRows, List.range_succ]
  rw [hw] at h5 h6 h7
  have hno : ∀ v, ¬ Occurs (LC.zero : LC F).terms v := by
    rintro v ⟨c, _, hc⟩
    rw [hz] at hc
    cases hc
  have hno' : ∀ i, ¬ Occurs ((LC.zero : LC F) + Var.input j).terms (.aux i) := by
    rintro v ⟨c, _, hc⟩
    rw [ht] at hc
    simp at hc
  refine ⟨h1, by rw [h3, h.inputs], by rw [h4, h.aux], h.nIn, h.nAux, ?_, ?_, ?_, ?_, ?_, ?_⟩
  · rw [h5, h.a, hrows, ← List.append_assoc, List.map_append (l₁ := consOf t ++ inputRows j)]
    rfl
  · rw [h6, h.b, hrows, ← List.append_assoc, List.map_append (l₁ := consOf t ++ inputRows j)]
    rfl
  · rw [h7, h.c, hrows, ← List.append_assoc, List.map_append (l₁ := consOf t ++ inputRows j)]
    rfl
  · intro i; rw [h8, h.aAux]; simp [hno']
  · intro i; rw [h9, h.bInput]; simp [hno]
  · intro i; rw [h10, h.bAux]; simp [hno]

theorem assigned_of_recorded {p' : ProvingAssignment F} {t : List (Ev F)} (h : ProvingAssignment.Recorded (proverStart F) t p') :
    Assigned p' t 0 := by
  have hi : p'.inputAssignment = 1 :: inVals t := h.inputs
  have ha : p'.auxAssignment = auxVals t := by rw [h.aux]; rfl
  have hno : ∀ l : List Bool, (l = [] ∨ l = [false]) → ∀ i, ¬ (⟨l⟩ : DensityTracker).Has i := by
    rintro l (rfl | rfl) i hi
    · simp [DensityTracker.Has] at hi
    · rcases i with _ | i <;> simp [DensityTracker.Has] at hi
  have w0 : witness t = assign p'.inputAssignment p'.auxAssignment := by rw [hi, ha]; rfl
  refine ⟨h.wf, hi, ha, h.nIn, h.nAux, ?_, ?_, ?_, ?_, ?_, ?_⟩
  · rw [h.a, w0]; simp [inputRows, proverStart, ProvingAssignment.new, ProvingAssignment.allocInput]
  · rw [h.b, w0]; simp [inputRows, proverStart, ProvingAssignment.new, ProvingAssignment.allocInput]
  · rw [h.c, w0]; simp [inputRows, proverStart, ProvingAssignment.new, ProvingAssignment.allocInput]
  · intro i; rw [h.aAux]
    exact or_iff_right (hno _ (.inl rfl) i)
  · intro i; rw [h.bInput]
    exact or_iff_right (hno _ (.inr rfl) i)
  · intro i; rw [h.bAux]
    exact or_iff_right (hno _ (.inl rfl) i)

theorem Assigned.inputConstraints {p : ProvingAssignment F} {t : List (Ev F)} (h : Assigned p t 0) :
    ∃ p', proverInputConstraints p = some p' ∧ Assigned p' t (numIn t + 1) := by
  unfold proverInputConstraints
  have hlen : p.inputAssignment.length = numIn t + 1 := by rw [h.inputs, List.length_cons, h.nIn]
  rw [hlen]
  exact foldlM_range_inv (n := numIn t + 1) (fun j p' => Assigned p' t j) h fun j hj p' hp' => hp'.input hj

/-- The outcomes of synthesis with a witness. -/
theorem assign?_cases (circuit : Synth F Unit) :
    (∃ t p, ProverTrace circuit t ∧ synthesizeWith ProvingAssignment.impl circuit (proverStart F) = Res.ok ((), p) ∧
      ∃ p', assign? circuit = Res.ok p' ∧ Assigned p' t (numIn t + 1)) ∨
    (∃ e, synthesizeWith ProvingAssignment.impl circuit (proverStart F) = Res.err e ∧ assign? circuit = Res.err e) ∨
    (synthesizeWith ProvingAssignment.impl circuit (proverStart F) = Res.panic ∧ assign? circuit = Res.panic) := by
  have h0 : assign? circuit = (synthesizeWith ProvingAssignment.impl circuit (proverStart F) >>= fun out =>
      Res.lift (proverInputConstraints out.2)) := rfl
  rcases hh : synthesizeWith ProvingAssignment.impl circuit (proverStart F) with _ | (e | ⟨⟨⟩, p⟩)
  · right; right
    rw [hh] at h0
    exact ⟨rfl, h0⟩
  · right; left
    rw [hh] at h0
    exact ⟨e, rfl, h0⟩
  · left
    have hr := synthesizeWith_ok.1 hh
    obtain ⟨t, he, hrec⟩ := ProvingAssignment.run_recorded _ proverStart_WF hr
    obtain ⟨p', hp', ha⟩ := (assigned_of_recorded hrec).inputConstraints
    refine ⟨t, p, ⟨he, hrec.numbered⟩, rfl, p', ?_, ha⟩
    rw [h0, hh]
    show Res.lift (proverInputConstraints p) = _
    rw [hp']
    rfl

/-! ## Polynomials -/

theorem Scoped.consOf {n m : ℕ} {t : List (Ev F)} (h : Scoped n m t) :
    ∀ r ∈ consOf t, ∀ x ∈ r.1.terms ++ r.2.1.terms ++ r.2.2.terms, x.1.InRange (n + numIn t) (m + numAux t) := by
  have mono : ∀ (v : Var) (a b a' b' : ℕ), v.InRange a b → a ≤ a' → b ≤ b' → v.InRange a' b' := by
    intro v a b a' b' hv ha hb
    cases v with
    | input i => exact lt_of_lt_of_le hv ha
    | aux i => exact lt_of_lt_of_le hv hb
  induction t generalizing n m with
  | nil => simp
  | cons e t ih =>
    rcases e with ⟨_ | _, nm, x, v⟩ | ⟨nm, a, b, c⟩ | _ | _
    · have h : Scoped n (m + 1) t := h
      intro r hr x hx
      have := ih h r (by simpa using hr) x hx
      simpa [add_assoc, add_comm, add_left_comm] using this
    · have h : Scoped (n + 1) m t := h
      intro r hr x hx
      have := ih h r (by simpa using hr) x hx
      simpa [add_assoc, add_comm, add_left_comm] using this
    · obtain ⟨h1, h2⟩ : (∀ x ∈ a.terms ++ b.terms ++ c.terms, x.1.InRange n m) ∧ Scoped n m t := h
      intro r hr x hx
      have hr : r = (a, b, c) ∨ r ∈ Bellman.consOf t := by simpa using hr
      rcases hr with rfl | hr
      · exact mono _ _ _ _ _ (h1 x hx) (by simp) (by simp)
      · simpa using ih h2 r hr x hx
    · have h : Scoped n m t := h
      intro r hr x hx
      simpa using ih h r (by simpa using hr) x hx
    · have h : Scoped n m t := h
      intro r hr x hx
      simpa using ih h r (by simpa using hr) x hx

theorem LC.coeffOf_cons (t : Var × F) (ts : List (Var × F)) (v : Var) :
    (⟨t :: ts⟩ : LC F).coeffOf v = (if t.1 = v then t.2 else 0) + (⟨ts⟩ : LC F).coeffOf v := by
  simp [LC.coeffOf]

/-- A combination of variables in range is the sum over all variables. -/
theorem LC.eval_eq_sum (n k : ℕ) (z : Var → F) (l : LC F) (h : ∀ x ∈ l.terms, x.1.InRange n k) :
    l.eval z = ∑ i ∈ range n, z (.input i) * l.coeffOf (.input i) + ∑ i ∈ range k, z (.aux i) * l.coeffOf (.aux i) := by
  obtain ⟨ts⟩ := l
  induction ts with
  | nil => simp [LC.eval, LC.coeffOf]
  | cons t ts ih =>
    have h1 := ih fun x hx => h x (List.mem_cons_of_mem _ hx)
    have h2 : (⟨t :: ts⟩ : LC F).eval z = z t.1 * t.2 + (⟨ts⟩ : LC F).eval z := by
      simp [LC.eval, mul_comm]
    rw [h2, h1]
    simp only [LC.coeffOf_cons, mul_add, sum_add_distrib]
    have h3 := h t List.mem_cons_self
    obtain ⟨v, c⟩ := t
    cases v with
    | input j =>
      have h3 : j < n := h3
      have e1 : ∑ i ∈ range n, z (.input i) * (if Var.input j = Var.input i then c else 0) = z (.input j) * c := by
        rw [sum_eq_single j]
        · simp
        · intro b _ hb; rw [if_neg (by simpa using Ne.symm hb), mul_zero]
        · intro hj; exact absurd (mem_range.2 h3) hj
      have e2 : ∑ i ∈ range k, z (.aux i) * (if Var.input j = Var.aux i then c else 0) = 0 :=
        sum_eq_zero fun i _ => by rw [if_neg (by simp), mul_zero]
      simp only
      rw [e1, e2]
      ring
    | aux j =>
      have h3 : j < k := h3
      have e1 : ∑ i ∈ range k, z (.aux i) * (if Var.aux j = Var.aux i then c else 0) = z (.aux j) * c := by
        rw [sum_eq_single j]
        · simp
        · intro b _ hb; rw [if_neg (by simpa using Ne.symm hb), mul_zero]
        · intro hj; exact absurd (mem_range.2 h3) hj
      have e2 : ∑ i ∈ range n, z (.input i) * (if Var.aux j = Var.input i then c else 0) = 0 :=
        sum_eq_zero fun i _ => by rw [if_neg (by simp), mul_zero]
      simp only
      rw [e1, e2]
      ring

/-- All combinations of the program mention its variables only. -/
def Qap.InScope (q : Qap F) : Prop := ∀ r ∈ q.rows, ∀ x ∈ r.1.terms ++ r.2.1.terms ++ r.2.2.terms, x.1.InRange q.n q.k

theorem KeyTrace.qapScope {circuit : Synth F Unit} {t : List (Ev F)} (h : KeyTrace circuit t) : (Qap.ofTrace t).InScope := by
  intro r hr x hx
  have hr : r ∈ consOf t ++ inputRows (numIn t + 1) := hr
  show x.1.InRange (numIn t + 1) (numAux t)
  rcases List.mem_append.1 hr with hr | hr
  · have := h.inScope.consOf r hr x hx
    rwa [Nat.add_comm 1, Nat.zero_add] at this
  · obtain ⟨i, hi, rfl⟩ := List.mem_map.1 hr
    simp only [List.append_nil, List.mem_singleton] at hx
    subst hx
    exact List.mem_range.1 hi

namespace Qap

variable {q : Qap F} {e : ℕ}

/-- The common part of `A_degree` etc. -/
theorem sum_degree (hg : q.Good e) (z : Var → F) (f : Var → ℕ → F) :
    (∑ i ∈ range q.n, C (z (.input i)) * q.interp (f (.input i)) + ∑ i ∈ range q.k, C (z (.aux i)) * q.interp (f (.aux i))).degree <
      (2 ^ e : ℕ) := by
  have hc : ∀ v, (C (z v) * q.interp (f v)).degree < (2 ^ e : ℕ) := fun v =>
    (degree_C_mul_le' _ _).trans_lt (Qap.interp_degree hg _)
  have hb : (⊥ : WithBot ℕ) < ((2 ^ e : ℕ) : WithBot ℕ) := WithBot.bot_lt_coe _
  refine (degree_add_le _ _).trans_lt (max_lt ?_ ?_)
  · exact (degree_sum_le _ _).trans_lt ((Finset.sup_lt_iff hb).2 fun i _ => hc _)
  · exact (degree_sum_le _ _).trans_lt ((Finset.sup_lt_iff hb).2 fun i _ => hc _)

theorem A_degree (hg : q.Good e) (z : Var → F) : (q.A z).degree < (2 ^ e : ℕ) := sum_degree hg z (q.entry (·.1))
theorem B_degree (hg : q.Good e) (z : Var → F) : (q.B z).degree < (2 ^ e : ℕ) := sum_degree hg z (q.entry (·.2.1))
theorem Cc_degree (hg : q.Good e) (z : Var → F) : (q.Cc z).degree < (2 ^ e : ℕ) := sum_degree hg z (q.entry (·.2.2))

theorem sum_eval (hg : q.Good e) (sel : Row F → LC F) (hs : ∀ r ∈ q.rows, ∀ x ∈ (sel r).terms, x.1.InRange q.n q.k) (z : Var → F) (j : ℕ) (hj : j < 2 ^ e) :
    (∑ i ∈ range q.n, C (z (.input i)) * q.interp (q.entry sel (.input i)) +
      ∑ i ∈ range q.k, C (z (.aux i)) * q.interp (q.entry sel (.aux i))).eval (q.ω ^ j) =
      (q.rows.map fun r => (sel r).eval z).getD j 0 := by
  simp only [eval_add, eval_finsetSum, eval_mul, eval_C, Qap.interp_eval hg _ j hj]
  unfold Qap.entry
  rw [List.getD_eq_getElem?_getD, List.getElem?_map]
  rcases hr : q.rows[j]? with _ | r
  · simp
  · simp only [Option.map_some, Option.getD_some]
    exact (LC.eval_eq_sum _ _ _ _ (hs r (List.mem_of_getElem? hr))).symm

theorem A_eval (hg : q.Good e) (hs : q.InScope) (z : Var → F) (j : ℕ) (hj : j < 2 ^ e) :
    (q.A z).eval (q.ω ^ j) = (q.rows.map fun r => r.1.eval z).getD j 0 :=
  sum_eval hg (·.1) (fun r hr x hx => hs r hr x (by simp [hx])) z j hj
theorem B_eval (hg : q.Good e) (hs : q.InScope) (z : Var → F) (j : ℕ) (hj : j < 2 ^ e) :
    (q.B z).eval (q.ω ^ j) = (q.rows.map fun r => r.2.1.eval z).getD j 0 :=
  sum_eval hg (·.2.1) (fun r hr x hx => hs r hr x (by simp [hx])) z j hj
theorem Cc_eval (hg : q.Good e) (hs : q.InScope) (z : Var → F) (j : ℕ) (hj : j < 2 ^ e) :
    (q.Cc z).eval (q.ω ^ j) = (q.rows.map fun r => r.2.2.eval z).getD j 0 :=
  sum_eval hg (·.2.2) (fun r hr x hx => hs r hr x (by simp [hx])) z j hj

/-- Satisfying assignments are those for which `A·B - C` vanishes on the domain, that is, is divisible by `Z`. -/
theorem satBy_iff (hg : q.Good e) (hs : q.InScope) (z : Var → F) :
    q.SatBy z ↔ ∀ j < 2 ^ e, (q.A z * q.B z - q.Cc z).eval (q.ω ^ j) = 0 := by
  constructor
  · intro h j hj
    rw [eval_sub, eval_mul, A_eval hg hs z j hj, B_eval hg hs z j hj, Cc_eval hg hs z j hj]
    simp only [List.getD_eq_getElem?_getD, List.getElem?_map]
    rcases hr : q.rows[j]? with _ | r
    · simp
    · simp [h r (List.mem_of_getElem? hr)]
  · intro h r hr
    obtain ⟨j, hj⟩ := List.getElem?_of_mem hr
    have hlt : j < 2 ^ e := by
      have := (List.getElem?_eq_some_iff.1 hj).1
      exact lt_of_lt_of_le this hg.len
    have := h j hlt
    rw [eval_sub, eval_mul, A_eval hg hs z j hlt, B_eval hg hs z j hlt, Cc_eval hg hs z j hlt] at this
    simp only [List.getD_eq_getElem?_getD, List.getElem?_map, hj] at this
    simpa [sub_eq_zero] using this

theorem rem_eq_zero_iff (hg : q.Good e) (P : F[X]) : rem P (2 ^ e) = 0 ↔ ∀ j < 2 ^ e, P.eval (q.ω ^ j) = 0 := by
  have key : ∀ j, P.eval (q.ω ^ j) = (rem P (2 ^ e)).eval (q.ω ^ j) := by
    intro j
    conv_lhs => rw [← rem_add_quo P (2 ^ e)]
    have : (q.ω ^ j) ^ 2 ^ e = 1 := by rw [← pow_mul, Nat.mul_comm, pow_mul, hg.prim.pow_eq_one, one_pow]
    simp [this]
  constructor
  · intro h j _
    rw [key, h, eval_zero]
  · intro h
    exact poly_eq_of_domain q.ω (2 ^ e) hg.prim _ _ (rem_degree _ _ (by positivity)) (by rw [degree_zero]; exact WithBot.bot_lt_coe _)
      fun j hj => by rw [← key, h j hj, eval_zero]

/-- The polynomial whose coefficients the prover puts into the exponent. -/
noncomputable def proverH (q : Qap F) (z : Var → F) : F[X] :=
  ∑ i ∈ range (q.m - 1), C ((hPoly (q.A z * q.B z - q.Cc z) q.m).coeff i) * X ^ i

theorem proverH_coeff (z : Var → F) (i : ℕ) :
    (q.proverH z).coeff i = if i < q.m - 1 then (hPoly (q.A z * q.B z - q.Cc z) q.m).coeff i else 0 := by
  unfold proverH
  rw [finsetSum_coeff]
  simp only [coeff_C_mul, coeff_X_pow, mul_ite, mul_one, mul_zero]
  rw [sum_ite_eq]
  simp

/-- For a satisfying assignment it is the quotient. -/
theorem proverH_sat (hg : q.Good e) (hs : q.InScope) (z : Var → F) (h : q.SatBy z) :
    q.proverH z * q.Z = q.A z * q.B z - q.Cc z := by
  have h0 := (rem_eq_zero_iff hg _).2 ((satBy_iff hg hs z).1 h)
  have hq : q.proverH z = quo (q.A z * q.B z - q.Cc z) (2 ^ e) := by
    ext i
    rw [proverH_coeff, hg.m]
    have hh : hPoly (q.A z * q.B z - q.Cc z) (2 ^ e) = quo (q.A z * q.B z - q.Cc z) (2 ^ e) := by
      unfold hPoly; rw [h0, mul_zero, add_zero]
    rw [hh]
    split
    · rfl
    · rename_i hi
      have := quo_degree (by positivity) (A_degree hg z) (B_degree hg z) (Cc_degree hg z)
      symm
      by_cases h1 : 2 ^ e = 1
      · -- constant polynomials: the quotient is zero
        have hz : quo (q.A z * q.B z - q.Cc z) (2 ^ e) = 0 := by
          unfold quo
          refine (divByMonic_eq_zero_iff (monic_Z _ (by positivity))).2 ?_
          rw [degree_eq_natDegree (monic_Z (F := F) _ (by positivity)).ne_zero, natDegree_Z]
          have hd := natDegree_mul_sub (A_degree hg z) (B_degree hg z) (Cc_degree hg z)
          rw [h1] at hd ⊢
          refine degree_le_natDegree.trans_lt ?_
          exact_mod_cast (by omega : (q.A z * q.B z - q.Cc z).natDegree < 1)
        rw [hz, coeff_zero]
      · have : 1 < 2 ^ e := by
          have : 0 < 2 ^ e := by positivity
          omega
        exact coeff_eq_zero_of_natDegree_lt (by omega)
  rw [hq]
  unfold Qap.Z
  rw [hg.m]
  conv_rhs => rw [← rem_add_quo (q.A z * q.B z - q.Cc z) (2 ^ e), h0, zero_add]
  ring

theorem proverH_natDegree (z : Var → F) : (q.proverH z * q.Z).natDegree ≤ 2 * q.m - 2 ∨ q.proverH z = 0 := by
  by_cases h : q.proverH z = 0
  · exact .inr h
  · left
    have h1 : (q.proverH z).natDegree < q.m - 1 := by
      by_contra hc
      have := proverH_coeff (q := q) z (q.proverH z).natDegree
      rw [if_neg hc] at this
      exact h (leadingCoeff_eq_zero.1 this)
    refine natDegree_mul_le.trans ?_
    have : q.Z.natDegree = q.m := natDegree_Z _
    omega

end Qap

end Bellman
