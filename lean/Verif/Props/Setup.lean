import Verif.Proofs.Crs
import Verif.Props.Core

/-!
# Properties of key generation: C29, C39
-/

namespace Bellman

open PrimeField Polynomial

set_option linter.unusedSectionVars false

variable {F G1 G2 : Type} [PrimeField F] [AddCommGroup G1] [AddCommGroup G2] [Module F G1] [Module F G2] [DecidableEq G1]
  [DecidableEq G2]

/-! ## C29 -/

/-- C29: if `generate_parameters` succeeds, its result is the Groth16 common reference string of the circuit's QAP, the circuit
being the (unique) trace of calls made by synthesis without a witness; the trapdoors `γ`, `δ` are not zero and no `l` element is
the identity. -/
theorem C29_crs (w : Worker) (circuit : Synth F Unit) (g1 : G1) (g2 : G2) (α β γ δ τ : F) (params : Parameters G1 G2)
    (h : generateParameters w circuit g1 g2 α β γ δ τ = Res.ok params) :
    ∃ t, KeyTrace circuit t ∧ (∀ t', KeyTrace circuit t' → t' = t) ∧ params = (Qap.ofTrace t).crs g1 g2 α β γ δ τ ∧
      γ ≠ 0 ∧ δ ≠ 0 ∧ (∀ x ∈ params.l, x ≠ 0) ∧ (Qap.ofTrace t).rows.length ≤ 2 ^ (S F - 1) := by
  rcases assemble_cases circuit with ⟨t, s, h1, h2, h3⟩ | ⟨e, h1, h2⟩ | ⟨h1, h2⟩
  swap
  · unfold generateParameters at h
    rw [h2] at h; cases h
  swap
  · unfold generateParameters at h
    rw [h2] at h; cases h
  obtain ⟨p1, p2⟩ := generateParameters_spec w circuit g1 g2 α β γ δ τ t s h2 h3
  rw [h] at p1 p2
  have hrows : (Qap.ofTrace t).rows.length ≤ 2 ^ (S F - 1) := by
    by_contra hc
    cases p1 (by omega)
  obtain ⟨p3, p4⟩ := p2 hrows
  have hγ : γ ≠ 0 := fun hc => by cases p3 (.inl hc)
  have hδ : δ ≠ 0 := fun hc => by cases p3 (.inr hc)
  obtain ⟨p5, p6, p7⟩ := p4 hγ hδ
  have hfit : w.FftFits (Nat.clog 2 (Qap.ofTrace t).rows.length) := by
    by_contra hc
    cases p7 hc
  obtain ⟨p8, p9⟩ := p6 hfit
  have hmc : w.multicore = true ∨ 1 < (Qap.ofTrace t).m ∧ 0 < (Qap.ofTrace t).k := by
    by_contra hc
    push Not at hc
    obtain ⟨c1, c2⟩ := hc
    have c1 : w.multicore = false := by simpa using c1
    by_cases hm : (Qap.ofTrace t).m = 1
    · cases p5 c1 hm
    · have : 0 < (Qap.ofTrace t).m := by simp [Qap.ofTrace, Qap.ofRows]
      cases p8 c1 (by have := c2 (by omega); omega)
  obtain ⟨p10, p11⟩ := p9 hmc
  have hl : ∀ i < (Qap.ofTrace t).k, ((Qap.ofTrace t).comb α β τ (.aux i) / δ) • g1 ≠ 0 := by
    by_contra hc
    push Not at hc
    cases p10 hc
  have hp := Res.ok_inj.1 (p11 hl)
  refine ⟨t, h1, fun t' ht' => ht'.unique h1, hp, hγ, hδ, ?_, hrows⟩
  rw [hp]
  intro x hx
  simp only [Qap.crs, List.mem_map, List.mem_range] at hx
  obtain ⟨i, hi, rfl⟩ := hx
  exact hl i hi

/-- C29: the lengths of the vectors and of the queries: `n + 1` input elements, one `l` element for every auxiliary variable, a
power of two minus one `h` elements with the power at least the number of constraints plus inputs; the queries lose the
identities only. -/
theorem C29_lengths (t : List (Ev F)) (g1 : G1) (g2 : G2) (α β γ δ τ : F) (params : Parameters G1 G2)
    (h : params = (Qap.ofTrace t).crs g1 g2 α β γ δ τ) :
    params.vk.ic.length = numIn t + 1 ∧ params.l.length = numAux t ∧
    (∃ e, params.h.length = 2 ^ e - 1 ∧ (consOf t).length + (numIn t + 1) ≤ 2 ^ e ∧
      (0 < e → 2 ^ (e - 1) < (consOf t).length + (numIn t + 1))) ∧
    params.a.length ≤ numIn t + 1 + numAux t ∧ params.bG1.length ≤ numIn t + 1 + numAux t ∧
    params.bG2.length ≤ numIn t + 1 + numAux t ∧ (∀ x ∈ params.a, x ≠ 0) ∧ (∀ x ∈ params.bG1, x ≠ 0) ∧
    (∀ x ∈ params.bG2, x ≠ 0) := by
  have hlen : ((Qap.ofTrace t).rows : List (Row F)).length = (consOf t).length + (numIn t + 1) := by
    simp [Qap.ofTrace, Qap.ofRows, inputRows]
  have hm : (Qap.ofTrace t).m = 2 ^ Nat.clog 2 ((consOf t).length + (numIn t + 1)) := by
    rw [← hlen]; rfl
  subst h
  refine ⟨by simp [Qap.crs, Qap.ofTrace, Qap.ofRows], by simp [Qap.crs, Qap.ofTrace, Qap.ofRows],
    ⟨Nat.clog 2 ((consOf t).length + (numIn t + 1)), by simp [Qap.crs, hm], Nat.le_pow_clog (by norm_num) _, fun h => ?_⟩,
    ?_, ?_, ?_, ?_, ?_, ?_⟩
  · exact (Nat.lt_clog_iff_pow_lt (b := 2) (by norm_num)).1 (by omega)
  · refine (List.length_filter_le _ _).trans ?_
    simp [Qap.vars, Qap.ofTrace, Qap.ofRows]
  · refine (List.length_filter_le _ _).trans ?_
    simp [Qap.vars, Qap.ofTrace, Qap.ofRows]
  · refine (List.length_filter_le _ _).trans ?_
    simp [Qap.vars, Qap.ofTrace, Qap.ofRows]
  · intro x hx; simpa using (List.mem_filter.1 hx).2
  · intro x hx; simpa using (List.mem_filter.1 hx).2
  · intro x hx; simpa using (List.mem_filter.1 hx).2

/-- C29: what the polynomials in the reference string are: of degree below `m`, with the coefficients of the constraints as
values at the `m` powers of a primitive `m`-th root of unity. -/
theorem C29_polynomials (t : List (Ev F)) (h : (Qap.ofTrace t).rows.length ≤ 2 ^ (S F - 1)) :
    let q := Qap.ofTrace t
    IsPrimitiveRoot q.ω q.m ∧ q.rows = consOf t ++ inputRows (numIn t + 1) ∧ q.rows.length ≤ q.m ∧
    ∀ x, (q.u x).degree < (q.m : ℕ) ∧ (q.v x).degree < (q.m : ℕ) ∧ (q.w x).degree < (q.m : ℕ) ∧
      (∀ j < q.m, ∀ r, q.rows[j]? = some r → (q.u x).eval (q.ω ^ j) = r.1.coeffOf x ∧
        (q.v x).eval (q.ω ^ j) = r.2.1.coeffOf x ∧ (q.w x).eval (q.ω ^ j) = r.2.2.coeffOf x) ∧
      (∀ j < q.m, q.rows.length ≤ j → (q.u x).eval (q.ω ^ j) = 0 ∧ (q.v x).eval (q.ω ^ j) = 0 ∧ (q.w x).eval (q.ω ^ j) = 0) := by
  intro q
  have hg : q.Good _ := Qap.ofTrace_good t h
  refine ⟨by rw [hg.m]; exact hg.prim, rfl, by rw [hg.m]; exact hg.len, fun x => ?_⟩
  have hdeg : ∀ f, (q.interp f).degree < (q.m : ℕ) := fun f => by rw [hg.m]; exact Qap.interp_degree hg f
  have hev : ∀ f, ∀ j < q.m, (q.interp f).eval (q.ω ^ j) = f j := fun f j hj => Qap.interp_eval hg f j (by rwa [← hg.m])
  refine ⟨hdeg _, hdeg _, hdeg _, fun j hj r hr => ⟨?_, ?_, ?_⟩, fun j hj hr => ⟨?_, ?_, ?_⟩⟩
  all_goals first
    | rw [Qap.u, hev _ j hj]
    | rw [Qap.v, hev _ j hj]
    | rw [Qap.w, hev _ j hj]
  all_goals unfold Qap.entry
  · rw [hr]
  · rw [hr]
  · rw [hr]
  · rw [List.getElem?_eq_none hr]
  · rw [List.getElem?_eq_none hr]
  · rw [List.getElem?_eq_none hr]

/-- C29: the outcome for a circuit whose synthesis succeeds, in all cases; the last two hypotheses say that the FFT's limit of
`2^32` elements per thread is respected and, without the `multicore` feature, that no work list is empty (see C39). -/
theorem C29_outcome (w : Worker) (circuit : Synth F Unit) (g1 : G1) (g2 : G2) (α β γ δ τ : F) (t : List (Ev F))
    (ht : KeyTrace circuit t) (hf : w.FftFits (Nat.clog 2 (Qap.ofTrace t).rows.length))
    (hw : w.multicore = true ∨ 1 < (Qap.ofTrace t).m ∧ 0 < numAux t) :
    let q := Qap.ofTrace t
    let out := generateParameters w circuit g1 g2 α β γ δ τ
    (2 ^ (S F - 1) < q.rows.length ∧ out = Res.err .polynomialDegreeTooLarge) ∨
    (q.rows.length ≤ 2 ^ (S F - 1) ∧ (γ = 0 ∨ δ = 0) ∧ out = Res.err .unexpectedIdentity) ∨
    (q.rows.length ≤ 2 ^ (S F - 1) ∧ γ ≠ 0 ∧ δ ≠ 0 ∧ (∃ i < numAux t, (q.comb α β τ (.aux i) / δ) • g1 = 0) ∧
      out = Res.err .unconstrainedVariable) ∨
    (q.rows.length ≤ 2 ^ (S F - 1) ∧ γ ≠ 0 ∧ δ ≠ 0 ∧ (∀ i < numAux t, (q.comb α β τ (.aux i) / δ) • g1 ≠ 0) ∧
      out = Res.ok (q.crs g1 g2 α β γ δ τ)) := by
  intro q out
  obtain ⟨s, h2, h3⟩ := ht.assemble
  obtain ⟨p1, p2⟩ := generateParameters_spec w circuit g1 g2 α β γ δ τ t s h2 h3
  by_cases c1 : q.rows.length ≤ 2 ^ (S F - 1)
  swap
  · exact .inl ⟨not_le.1 c1, p1 (not_le.1 c1)⟩
  obtain ⟨p3, p4⟩ := p2 c1
  by_cases c2 : γ = 0 ∨ δ = 0
  · exact .inr (.inl ⟨c1, c2, p3 c2⟩)
  push Not at c2
  obtain ⟨c2, c3⟩ := c2
  obtain ⟨_, p6, _⟩ := p4 c2 c3
  obtain ⟨p10, p11⟩ := (p6 hf).2 hw
  by_cases c4 : ∃ i < numAux t, (q.comb α β τ (.aux i) / δ) • g1 = 0
  · exact .inr (.inr (.inl ⟨c1, c2, c3, c4, p10 c4⟩))
  · have c5 : ∀ i < numAux t, (q.comb α β τ (.aux i) / δ) • g1 ≠ 0 := by simpa using c4
    exact .inr (.inr (.inr ⟨c1, c2, c3, c5, p11 c5⟩))

/-- C29: a circuit with an auxiliary variable that no constraint mentions is refused, whatever the trapdoors. -/
theorem C29_unused_variable (w : Worker) (circuit : Synth F Unit) (g1 : G1) (g2 : G2) (α β γ δ τ : F) (t : List (Ev F))
    (ht : KeyTrace circuit t) (i : ℕ) (hi : i < numAux t)
    (hu : ∀ r ∈ consOf t, ∀ x ∈ r.1.terms ++ r.2.1.terms ++ r.2.2.terms, x.1 ≠ .aux i) (params : Parameters G1 G2) :
    generateParameters w circuit g1 g2 α β γ δ τ ≠ Res.ok params := by
  intro h
  obtain ⟨t', h1, h2, rfl, _, _, h6, _⟩ := C29_crs w circuit g1 g2 α β γ δ τ params h
  obtain rfl := h2 t ht
  refine h6 (((Qap.ofTrace t).comb α β τ (.aux i) / δ) • g1) ?_ ?_
  · simp only [Qap.crs, List.mem_map, List.mem_range]
    exact ⟨i, hi, rfl⟩
  · have hz : ∀ (sel : Row F → LC F), (∀ r ∈ consOf t, ∀ x ∈ (sel r).terms, x.1 ≠ .aux i) →
        (∀ r ∈ (inputRows (numIn t + 1) : List (Row F)), ∀ x ∈ (sel r).terms, x.1 ≠ .aux i) →
        (Qap.ofTrace t).interp ((Qap.ofTrace t).entry sel (.aux i)) = 0 := by
      intro sel hs hs'
      have : (Qap.ofTrace t).entry sel (.aux i) = 0 := by
        funext j
        unfold Qap.entry
        split
        · rename_i r hr
          have hm := List.mem_of_getElem? hr
          have hx : ∀ x ∈ (sel r).terms, x.1 ≠ .aux i := by
            rcases List.mem_append.1 hm with hm | hm
            · exact hs r hm
            · exact hs' r hm
          show ((sel r).terms.map fun t => if t.1 = Var.aux i then t.2 else 0).sum = 0
          refine List.sum_eq_zero fun y hy => ?_
          obtain ⟨x, hxm, rfl⟩ := List.mem_map.1 hy
          rw [if_neg (hx x hxm)]
        · rfl
      rw [this]
      unfold Qap.interp
      exact map_zero _
    have hin : ∀ r ∈ (inputRows (numIn t + 1) : List (Row F)), ∃ k, r = (⟨[(.input k, 1)]⟩, ⟨[]⟩, ⟨[]⟩) := by
      intro r hr
      obtain ⟨k, _, rfl⟩ := List.mem_map.1 hr
      exact ⟨k, rfl⟩
    have hu' : (Qap.ofTrace t).comb α β τ (.aux i) = 0 := by
      unfold Qap.comb Qap.u Qap.v Qap.w
      rw [hz _ (fun r hr x hx => hu r hr x (by simp [hx])) (fun r hr x hx => by
          obtain ⟨k, rfl⟩ := hin r hr
          simp only [List.mem_singleton] at hx
          subst hx; simp),
        hz _ (fun r hr x hx => hu r hr x (by simp [hx])) (fun r hr x hx => by
          obtain ⟨k, rfl⟩ := hin r hr
          simp at hx),
        hz _ (fun r hr x hx => hu r hr x (by simp [hx])) (fun r hr x hx => by
          obtain ⟨k, rfl⟩ := hin r hr
          simp at hx)]
      simp
    rw [hu', zero_div, zero_smul]

/-- C29: an error that the circuit returns when it runs on the assembly is passed on, the very same. -/
theorem C29_synthesis_error (w : Worker) (circuit : Synth F Unit) (g1 : G1) (g2 : G2) (α β γ δ τ : F) (e : SynthesisError)
    (s : KeypairAssembly F) (h : circuit.run.run KeypairAssembly.impl (KeypairAssembly.new : KeypairAssembly F).allocInput.2 = some (.error e, s)) :
    generateParameters w circuit g1 g2 α β γ δ τ = Res.err e := by
  have h : synthesizeWith KeypairAssembly.impl circuit (KeypairAssembly.new : KeypairAssembly F).allocInput.2 = Res.err e := by
    unfold synthesizeWith
    rw [h]
    rfl
  unfold generateParameters assemble
  simp only [h, Res.err_bind]

/-! ## C39 -/

/-- C39: with the `multicore` feature `generate_parameters` panics only if the circuit does or the FFT limit is exceeded. -/
theorem C39_multicore (w : Worker) (hw : w.multicore = true) (circuit : Synth F Unit) (g1 : G1) (g2 : G2) (α β γ δ τ : F)
    (h : generateParameters w circuit g1 g2 α β γ δ τ = Res.panic) :
    circuit.run.run KeypairAssembly.impl (KeypairAssembly.new : KeypairAssembly F).allocInput.2 = none ∨
    ∃ t, KeyTrace circuit t ∧ 2 ^ 31 < (consOf t).length + (numIn t + 1) := by
  rcases assemble_cases circuit with ⟨t, s, h1, h2, h3⟩ | ⟨e, h1, h2⟩ | ⟨h1, h2⟩
  · right
    refine ⟨t, h1, ?_⟩
    by_contra hc
    have hlen : ((Qap.ofTrace t).rows : List (Row F)).length = (consOf t).length + (numIn t + 1) := by
      simp [Qap.ofTrace, Qap.ofRows, inputRows]
    have hf : w.FftFits (Nat.clog 2 (Qap.ofTrace t).rows.length) := by
      left
      have : Nat.clog 2 (Qap.ofTrace t).rows.length ≤ 31 := (Nat.clog_le_iff_le_pow (by norm_num)).2 (by rw [hlen]; omega)
      omega
    rcases C29_outcome w circuit g1 g2 α β γ δ τ t h1 hf (.inl hw) with ⟨_, h'⟩ | ⟨_, _, h'⟩ | ⟨_, _, _, _, h'⟩ | ⟨_, _, _, _, h'⟩ <;>
    · rw [h] at h'; cases h'
  · unfold generateParameters at h
    rw [h2] at h
    cases h
  · left
    unfold synthesizeWith at h1
    split at h1
    · assumption
    · cases h1
    · cases h1

/-- C39: without the feature, every circuit with no auxiliary variables or with a one-element domain makes
`generate_parameters` panic (unless the trapdoors or the degree are refused first). -/
theorem C39_no_multicore (w : Worker) (hw : w.multicore = false) (circuit : Synth F Unit) (g1 : G1) (g2 : G2)
    (α β γ δ τ : F) (t : List (Ev F)) (ht : KeyTrace circuit t) (hr : (consOf t).length + (numIn t + 1) ≤ 2 ^ (S F - 1))
    (hγ : γ ≠ 0) (hδ : δ ≠ 0) (h : numAux t = 0 ∨ consOf t = [] ∧ numIn t = 0) :
    generateParameters w circuit g1 g2 α β γ δ τ = Res.panic := by
  obtain ⟨s, h2, h3⟩ := ht.assemble
  obtain ⟨_, p2⟩ := generateParameters_spec w circuit g1 g2 α β γ δ τ t s h2 h3
  have hlen : ((Qap.ofTrace t).rows : List (Row F)).length = (consOf t).length + (numIn t + 1) := by
    simp [Qap.ofTrace, Qap.ofRows, inputRows]
  obtain ⟨p5, p6, p7⟩ := (p2 (by rw [hlen]; exact hr)).2 hγ hδ
  rcases h with h | ⟨h, h'⟩
  · by_cases hf : w.FftFits (Nat.clog 2 (Qap.ofTrace t).rows.length)
    · exact (p6 hf).1 hw h
    · exact p7 hf
  · refine p5 hw ?_
    show 2 ^ Nat.clog 2 (Qap.ofTrace t).rows.length = 1
    rw [hlen, h, h']
    norm_num


/-- C39: and these are the only circuits: without the feature, key generation returns for every circuit with an auxiliary variable
and at least two rows (constraints and inputs, the constant one included). -/
theorem C39_no_multicore_returns (w : Worker) (circuit : Synth F Unit) (g1 : G1) (g2 : G2) (α β γ δ τ : F) (t : List (Ev F))
    (ht : KeyTrace circuit t) (hr : (consOf t).length + (numIn t + 1) ≤ 2 ^ 31) (ha : 0 < numAux t)
    (h1 : 1 < (consOf t).length + (numIn t + 1)) : generateParameters w circuit g1 g2 α β γ δ τ ≠ Res.panic := by
  have hlen : ((Qap.ofTrace t).rows : List (Row F)).length = (consOf t).length + (numIn t + 1) := by
    simp [Qap.ofTrace, Qap.ofRows, inputRows]
  intro h
  have hf : w.FftFits (Nat.clog 2 (Qap.ofTrace t).rows.length) := by
    left
    have : Nat.clog 2 (Qap.ofTrace t).rows.length ≤ 31 := (Nat.clog_le_iff_le_pow (by norm_num)).2 (by rw [hlen]; omega)
    omega
  have hm : 1 < (Qap.ofTrace t).m := by
    show 1 < 2 ^ Nat.clog 2 (Qap.ofTrace t).rows.length
    rw [hlen]
    exact lt_of_lt_of_le h1 (Nat.le_pow_clog (by norm_num) _)
  rcases C29_outcome w circuit g1 g2 α β γ δ τ t ht hf (.inr ⟨hm, ha⟩) with ⟨_, h'⟩ | ⟨_, _, h'⟩ | ⟨_, _, _, _, h'⟩ | ⟨_, _, _, _, h'⟩ <;>
  · rw [h] at h'; cases h'

/-! ## A concrete setup -/

/-- The calls made by `squareCircuit` without a witness. -/
def squareTrace : List (Ev DummyFr) :=
  [.alloc false "x" (.aux 0) none, .alloc true "y" (.input 1) none,
   .enforce "square" ⟨[(.aux 0, 1)]⟩ ⟨[(.aux 0, 1), (.input 1, 0)]⟩ ⟨[(.input 1, 1)]⟩,
   .enforce "twice" ⟨[(.aux 0, 2)]⟩ ⟨[(.input 0, 1)]⟩ ⟨[(.aux 0, 1), (.aux 0, 1)]⟩]

theorem squareTrace_key : KeyTrace (squareCircuit none) squareTrace where
  exec := .allocSkip _ (.allocSkip _ (.enforce (.enforce (.ret _))))
  numbered := ⟨rfl, rfl, trivial⟩
  inScope := by
    simp [squareTrace, Scoped, Var.InRange]

theorem squareTrace_rows : (Qap.ofTrace squareTrace).rows.length = 4 := rfl

theorem square_clog : Nat.clog 2 (Qap.ofTrace squareTrace).rows.length = 2 := by
  rw [squareTrace_rows]
  exact Nat.clog_pow 2 2 (by norm_num)

theorem square_good : (Qap.ofTrace squareTrace).Good 2 := by
  have h := Qap.ofTrace_good squareTrace (by rw [squareTrace_rows]; decide)
  rwa [square_clog] at h

theorem square_ω : (Qap.ofTrace squareTrace).ω = 35676 := by
  show (ROOT_OF_UNITY : DummyFr) ^ (2 ^ (S DummyFr - Nat.clog 2 (Qap.ofTrace squareTrace).rows.length)) = _
  rw [square_clog]
  decide +kernel

/-- The Lagrange basis of the four-point domain at `τ = 3`. -/
theorem square_interp (f : ℕ → DummyFr) :
    ((Qap.ofTrace squareTrace).interp f).eval 3 = 10 * f 0 + 20515 * f 1 + 64508 * f 2 + 43994 * f 3 := by
  rw [Qap.interp_eval_sum square_good 48385 3 (by decide +kernel), square_ω]
  simp only [Finset.sum_range_succ, Finset.sum_range_zero, zero_add, valAt, show (2 : ℕ) ^ 2 = 4 from rfl]
  congr 1; congr 1; congr 1
  all_goals
    congr 1
    decide +kernel

/-- The QAP of `squareCircuit` at `τ = 3`: the columns of the constant one, of `y` and of `x`. -/
theorem square_values :
    let q := Qap.ofTrace squareTrace
    (q.u (.input 0)).eval 3 = 64508 ∧ (q.v (.input 0)).eval 3 = 20515 ∧ (q.w (.input 0)).eval 3 = 0 ∧
    (q.u (.input 1)).eval 3 = 43994 ∧ (q.v (.input 1)).eval 3 = 0 ∧ (q.w (.input 1)).eval 3 = 10 ∧
    (q.u (.aux 0)).eval 3 = 41040 ∧ (q.v (.aux 0)).eval 3 = 10 ∧ (q.w (.aux 0)).eval 3 = 41030 := by
  unfold Qap.u Qap.v Qap.w
  simp only [square_interp]
  decide +kernel

/-- `squareCircuit` meets the hypotheses of `C29_outcome` and falls into its last case (hence also meets those of `C29_crs`). -/
theorem square_generate (w : Worker) : ∃ params, generateParameters w (squareCircuit none) (1 : DummyFr) (1 : DummyFr) 2 5 7 11 3 = Res.ok params ∧
    params = (Qap.ofTrace squareTrace).crs (1 : DummyFr) (1 : DummyFr) 2 5 7 11 3 := by
  have hm : (Qap.ofTrace squareTrace).m = 4 := square_good.m
  obtain ⟨_, _, _, _, _, _, u2, v2, w2⟩ := square_values
  have hc : (Qap.ofTrace squareTrace).comb 2 5 3 (.aux 0) / 11 * 1 ≠ 0 := by
    unfold Qap.comb
    rw [u2, v2, w2]
    decide +kernel
  rcases C29_outcome w (squareCircuit none) (1 : DummyFr) (1 : DummyFr) 2 5 7 11 3 squareTrace squareTrace_key
    (by rw [square_clog]; exact .inl (by norm_num)) (.inr ⟨by rw [hm]; norm_num, by decide⟩) with
    ⟨h, _⟩ | ⟨_, h, _⟩ | ⟨_, _, _, ⟨i, hi, h⟩, _⟩ | ⟨_, _, _, _, h⟩
  · rw [squareTrace_rows] at h
    exact absurd h (by decide)
  · exact absurd h (by decide)
  · have : i = 0 := by
      have : numAux squareTrace = 1 := rfl
      omega
    subst this
    exact absurd h hc
  · exact ⟨_, h, rfl⟩

/-- It also meets the hypotheses of `C39_no_multicore_returns`. -/
example (w : Worker) (α β γ δ τ : DummyFr) : generateParameters w (squareCircuit none) (1 : DummyFr) (1 : DummyFr) α β γ δ τ ≠ Res.panic :=
  C39_no_multicore_returns w _ _ _ _ _ _ _ _ squareTrace squareTrace_key (by decide) (by decide) (by decide)

/-- The same circuit with `δ = 0`. -/
example (w : Worker) : generateParameters w (squareCircuit none) (1 : DummyFr) (1 : DummyFr) 2 5 7 0 3 = Res.err .unexpectedIdentity := by
  have hm : (Qap.ofTrace squareTrace).m = 4 := square_good.m
  rcases C29_outcome w (squareCircuit none) (1 : DummyFr) (1 : DummyFr) 2 5 7 0 3 squareTrace squareTrace_key
    (by rw [square_clog]; exact .inl (by norm_num)) (.inr ⟨by rw [hm]; norm_num, by decide⟩) with
    ⟨h, _⟩ | ⟨_, _, h⟩ | ⟨_, _, h, _⟩ | ⟨_, _, h, _⟩
  · rw [squareTrace_rows] at h
    exact absurd h (by decide)
  · exact h
  · exact absurd rfl h
  · exact absurd rfl h

/-- A circuit with an auxiliary variable that occurs in no constraint. -/
def unusedCircuit : Synth DummyFr Unit := do
  let (vx, _) ← Synth.alloc "x" (Synth.optGet (some (1 : DummyFr)))
  let _ ← Synth.alloc "unused" (Synth.optGet (some (1 : DummyFr)))
  Synth.enforce "square" (· + vx) (· + vx) (· + vx)

/-- It meets the hypotheses of `C29_unused_variable`. -/
example (w : Worker) (α β γ δ τ : DummyFr) (params : Parameters DummyFr DummyFr) :
    generateParameters w unusedCircuit (1 : DummyFr) (1 : DummyFr) α β γ δ τ ≠ Res.ok params :=
  C29_unused_variable w unusedCircuit 1 1 α β γ δ τ
    [.alloc false "x" (.aux 0) none, .alloc false "unused" (.aux 1) none,
      .enforce "square" ⟨[(.aux 0, 1)]⟩ ⟨[(.aux 0, 1)]⟩ ⟨[(.aux 0, 1)]⟩]
    { exec := .allocSkip _ (.allocSkip _ (.enforce (.ret _)))
      numbered := ⟨rfl, rfl, trivial⟩
      inScope := by simp [Scoped, Var.InRange] } 1 (by decide) (by simp [consOf]) params

/-- A circuit whose synthesis fails; it meets the hypothesis of `C29_synthesis_error`. -/
example (w : Worker) : generateParameters w (throw .divisionByZero : Synth DummyFr Unit) (1 : DummyFr) (1 : DummyFr) 2 5 7 11 3 =
    Res.err .divisionByZero :=
  C29_synthesis_error w _ _ _ _ _ _ _ _ _ _ rfl

/-- A circuit with one public input and no auxiliary variables. -/
def publicOnly : Synth DummyFr Unit := do
  let (vx, _) ← Synth.allocInput "x" (Synth.optGet (some (1 : DummyFr)))
  Synth.enforce "boolean" (· + vx) (· + vx) (· + vx)

def publicTrace : List (Ev DummyFr) := [.alloc true "x" (.input 1) none, .enforce "boolean" ⟨[(.input 1, 1)]⟩ ⟨[(.input 1, 1)]⟩ ⟨[(.input 1, 1)]⟩]

theorem publicTrace_key : KeyTrace publicOnly publicTrace where
  exec := .allocSkip _ (.enforce (.ret _))
  numbered := ⟨rfl, trivial⟩
  inScope := by simp [publicTrace, Scoped, Var.InRange]

/-- It meets the hypotheses of `C39_no_multicore`, and with the feature key generation does not panic: the two builds differ. -/
example (w w' : Worker) (h : w.multicore = false) (h' : w'.multicore = true) :
    generateParameters w publicOnly (1 : DummyFr) (1 : DummyFr) 2 5 7 11 3 = Res.panic ∧
    generateParameters w' publicOnly (1 : DummyFr) (1 : DummyFr) 2 5 7 11 3 ≠ Res.panic := by
  refine ⟨C39_no_multicore w h _ _ _ _ _ _ _ _ publicTrace publicTrace_key (by decide) (by decide) (by decide) (.inl rfl), fun hc => ?_⟩
  rcases C39_multicore w' h' _ _ _ _ _ _ _ _ hc with h | ⟨t, ht, h⟩
  · cases h
  · rw [ht.unique publicTrace_key] at h
    exact absurd h (by decide)

end Bellman
