import Mathlib.Algebra.BigOperators.Field
import Verif.Proofs.Prover
import Verif.Proofs.Queries
import Mathlib.Tactic.Module

/-!
# `create_proof` computes the Groth16 proof
-/

namespace Bellman

open PrimeField Polynomial Finset EvaluationDomain

set_option linter.unusedSectionVars false

theorem Res.ofExcept_ok {α : Type} (a : α) : Res.ofExcept (.ok a) = Res.ok a := rfl
theorem Res.ofExcept_eq_ok {α : Type} {x : Except SynthesisError α} {a : α} : Res.ofExcept x = Res.ok a ↔ x = .ok a :=
  ⟨fun h => (by cases h; rfl), fun h => by rw [h]; rfl⟩

section
variable {F G : Type} [PrimeField F] [AddCommGroup G] [Module F G] [DecidableEq G]

/-- A sum over the first `n` values. -/
theorem zipWith_range (es : List F) (n : ℕ) (h : es.length = n) (f : ℕ → F) (g : G) :
    (List.zipWith (fun e b => e • b) es ((List.range n).map fun i => f i • g)).sum = (∑ i ∈ range n, es.getD i 0 * f i) • g := by
  rw [zipWith_sum_range _ _ (by simp [h]), h, sum_smul]
  refine sum_congr rfl fun i hi => ?_
  rw [mul_smul]
  congr 1
  have : i < n := mem_range.1 hi
  simp [this]

theorem covers_range (n : ℕ) (f : ℕ → G) (bits : List Bool) (hl : bits.length = n) (h : ∀ i < n, f i ≠ 0 → bits[i]? = some true) :
    Covers ((List.range n).map f) bits := by
  refine List.forall₂_iff_get.2 ⟨by simp [hl], fun i h1 h2 => ?_⟩
  simp only [List.get_eq_getElem, List.getElem_map, List.getElem_range]
  intro h0
  have := h i (by omega) h0
  rw [List.getElem?_eq_getElem h2] at this
  simpa using this

theorem exactly_range (n : ℕ) (f : ℕ → G) (bits : List Bool) (hl : bits.length = n) :
    Exactly ((List.range n).map f) bits ↔ ∀ i < n, (f i ≠ 0 ↔ bits[i]? = some true) := by
  unfold Exactly
  rw [List.forall₂_iff_get]
  constructor
  · rintro ⟨_, h⟩ i hi
    have := h i (by simpa using hi) (by omega)
    simp only [List.get_eq_getElem, List.getElem_map, List.getElem_range] at this
    rw [this, List.getElem?_eq_getElem (by omega)]
    simp
  · intro h
    refine ⟨by simp [hl], fun i h1 h2 => ?_⟩
    simp only [List.get_eq_getElem, List.getElem_map, List.getElem_range]
    rw [h i (by omega), List.getElem?_eq_getElem h2]
    simp

end

variable {F : Type} [PrimeField F]

/-- A variable that occurs in no constraint has the zero polynomial. -/
theorem Qap.interp_zero (q : Qap F) (sel : Row F → LC F) (x : Var) (h : ∀ r ∈ q.rows, ¬ Occurs (sel r).terms x) :
    q.interp (q.entry sel x) = 0 := by
  have : q.entry sel x = 0 := by
    funext j
    unfold Qap.entry
    split
    · rename_i r hr
      have hx := h r (List.mem_of_getElem? hr)
      show ((sel r).terms.map fun t => if t.1 = x then t.2 else 0).sum = 0
      refine List.sum_eq_zero fun y hy => ?_
      obtain ⟨t, ht, rfl⟩ := List.mem_map.1 hy
      split
      · rename_i hh
        by_contra h0
        exact hx ⟨t.2, h0, by rw [← hh]; exact ht⟩
      · rfl
    · rfl
  rw [this]
  unfold Qap.interp
  exact map_zero _

theorem ofTrace_rows (t : List (Ev F)) : (Qap.ofTrace t).rows = consOf t ++ inputRows (numIn t + 1) := rfl

theorem u_aux_occurs {t : List (Ev F)} {i : ℕ} {τ : F} (h : ((Qap.ofTrace t).u (.aux i)).eval τ ≠ 0) :
    ∃ k ∈ consOf t, Occurs k.1.terms (.aux i) := by
  by_contra hc
  refine h ?_
  unfold Qap.u
  rw [Qap.interp_zero, eval_zero]
  intro r hr ho
  rw [ofTrace_rows] at hr
  rcases List.mem_append.1 hr with hr | hr
  · exact hc ⟨r, hr, ho⟩
  · obtain ⟨j, _, rfl⟩ := List.mem_map.1 hr
    obtain ⟨c, _, hm⟩ := ho
    simp at hm

theorem v_occurs {t : List (Ev F)} {x : Var} {τ : F} (h : ((Qap.ofTrace t).v x).eval τ ≠ 0) :
    ∃ k ∈ consOf t, Occurs k.2.1.terms x := by
  by_contra hc
  refine h ?_
  unfold Qap.v
  rw [Qap.interp_zero, eval_zero]
  intro r hr ho
  rw [ofTrace_rows] at hr
  rcases List.mem_append.1 hr with hr | hr
  · exact hc ⟨r, hr, ho⟩
  · obtain ⟨j, _, rfl⟩ := List.mem_map.1 hr
    obtain ⟨c, _, hm⟩ := ho
    simp at hm

/-- The quotient computation on the prover's vectors. -/
theorem hCoeffs_assigned (w : Worker) {p : ProvingAssignment F} {t : List (Ev F)} (h : Assigned p t (numIn t + 1))
    (hs : (Qap.ofTrace t).InScope) :
    (2 ^ (S F - 1) < (Qap.ofTrace t).rows.length ∧ hCoeffs w p.a p.b p.c = some (.error .polynomialDegreeTooLarge)) ∨
    ((Qap.ofTrace t).rows.length ≤ 2 ^ (S F - 1) ∧ ¬ w.FftFits (Nat.clog 2 (Qap.ofTrace t).rows.length) ∧
      hCoeffs w p.a p.b p.c = none) ∨
    ((Qap.ofTrace t).rows.length ≤ 2 ^ (S F - 1) ∧ w.FftFits (Nat.clog 2 (Qap.ofTrace t).rows.length) ∧
      hCoeffs w p.a p.b p.c = some (.ok ((List.range ((Qap.ofTrace t).m - 1)).map ((Qap.ofTrace t).proverH (witness t)).coeff))) := by
  set q := Qap.ofTrace t with hq
  have la : p.a = q.rows.map fun r => r.1.eval (witness t) := h.a
  have lb : p.b = q.rows.map fun r => r.2.1.eval (witness t) := h.b
  have lc : p.c = q.rows.map fun r => r.2.2.eval (witness t) := h.c
  have hla : p.a.length = q.rows.length := by rw [la, List.length_map]
  rcases fromCoeffs_cases (F := F) p.a with ⟨d, hd, wd, hle, hmin, hco, hom⟩ | ⟨hd, hgt⟩
  · rw [hla] at hle hmin
    have hclog := clog_of_bounds hle hmin
    have hsm : q.rows.length ≤ 2 ^ (S F - 1) := by
      rcases Nat.lt_or_ge (2 ^ (S F - 1)) q.rows.length with hc | hc
      · exfalso
        rcases fromCoeffs_cases (F := F) p.a with ⟨d', hd', wd', hle', _⟩ | ⟨hd', _⟩
        · have h1 := wd'.exp_lt
          rw [hla] at hle'
          have : 2 ^ d'.exp ≤ 2 ^ (S F - 1) := Nat.pow_le_pow_right (by norm_num) (by omega)
          omega
        · rw [hd] at hd'; cases hd'
      · exact hc
    have hg : q.Good d.exp := by
      have := Qap.ofTrace_good t hsm
      rw [hclog] at this
      exact this
    have hω : q.ω = d.omega := by
      show ROOT_OF_UNITY ^ (2 ^ (S F - Nat.clog 2 q.rows.length)) = _
      rw [hclog, hom]
    rw [hclog]
    by_cases hf : w.FftFits d.exp
    · right; right
      refine ⟨hsm, hf, ?_⟩
      have hspec := hCoeffs_spec w p.a p.b p.c (by rw [la, lb]; simp) (by rw [la, lc]; simp) d hd hf (q.A (witness t)) (q.B (witness t))
        (q.Cc (witness t)) (Qap.A_degree hg _) (Qap.B_degree hg _) (Qap.Cc_degree hg _)
        (fun i hi => by rw [← hω, Qap.A_eval hg hs _ i hi, la])
        (fun i hi => by rw [← hω, Qap.B_eval hg hs _ i hi, lb])
        (fun i hi => by rw [← hω, Qap.Cc_eval hg hs _ i hi, lc])
      rw [hspec, ← hg.m]
      congr 2
      refine List.map_congr_left fun i hi => ?_
      rw [Qap.proverH_coeff, if_pos (List.mem_range.1 hi)]
    · right; left
      refine ⟨hsm, hf, ?_⟩
      have hd2 : ∀ l : List F, l.length = p.a.length → ∃ d', fromCoeffs (F := F) l = some (.ok d') := by
        intro l hl
        rcases fromCoeffs_cases (F := F) l with ⟨d', hd', _⟩ | ⟨_, hgt⟩
        · exact ⟨d', hd'⟩
        · omega
      obtain ⟨d2, e2⟩ := hd2 p.b (by rw [la, lb]; simp)
      obtain ⟨d3, e3⟩ := hd2 p.c (by rw [la, lc]; simp)
      unfold hCoeffs
      rw [hd, e2, e3]
      have : d.ifft ((w.site 0).site 0) = none := ifft_none ((w.site 0).site 0) d hf
      simp only [Option.bind_eq_bind, Option.bind_some, toCoset]
      rw [this]
      rfl
  · left
    refine ⟨by omega, ?_⟩
    unfold hCoeffs
    rw [hd]
    rfl


section
variable {G1 G2 : Type} [AddCommGroup G1] [AddCommGroup G2] [Module F G1] [Module F G2] [DecidableEq G1] [DecidableEq G2]

/-- The multi-exponentiations of `create_proof` all succeed, with the given results. -/
structure Answers (w : Worker) (p : ProvingAssignment F) (params : Parameters G1 G2) (h l a1 a2 b1 b2 : G1) (c1 c2 : G2) : Prop where
  h : ∃ hc, hCoeffs (w.site 0) p.a p.b p.c = some (.ok hc) ∧
    multiexp F (w.site 1) ⟨params.h, 0⟩ .full (hc.map Exponent.ofField) = some (.ok h)
  l : multiexp F (w.site 2) ⟨params.l, 0⟩ .full (p.auxAssignment.map Exponent.ofField) = some (.ok l)
  a1 : multiexp F (w.site 3) ⟨params.a, 0⟩ .full (p.inputAssignment.map Exponent.ofField) = some (.ok a1)
  a2 : multiexp F (w.site 4) ⟨params.a, p.inputAssignment.length⟩ (.tracker p.aAuxDensity) (p.auxAssignment.map Exponent.ofField) =
    some (.ok a2)
  b1 : multiexp F (w.site 5) ⟨params.bG1, 0⟩ (.tracker p.bInputDensity) (p.inputAssignment.map Exponent.ofField) = some (.ok b1)
  b2 : multiexp F (w.site 6) ⟨params.bG1, p.bInputDensity.getTotalDensity⟩ (.tracker p.bAuxDensity)
    (p.auxAssignment.map Exponent.ofField) = some (.ok b2)
  c1 : multiexp F (w.site 7) ⟨params.bG2, 0⟩ (.tracker p.bInputDensity) (p.inputAssignment.map Exponent.ofField) = some (.ok c1)
  c2 : multiexp F (w.site 8) ⟨params.bG2, p.bInputDensity.getTotalDensity⟩ (.tracker p.bAuxDensity)
    (p.auxAssignment.map Exponent.ofField) = some (.ok c2)

theorem createProof_ok_of (w : Worker) (circuit : Synth F Unit) (params : Parameters G1 G2) (r s : F) (p : ProvingAssignment F)
    (h l a1 a2 b1 b2 : G1) (c1 c2 : G2) (hp : assign? circuit = Res.ok p) (hA : Answers w p params h l a1 a2 b1 b2 c1 c2)
    (hδ1 : params.vk.deltaG1 ≠ 0) (hδ2 : params.vk.deltaG2 ≠ 0) :
    createProof w circuit params r s = Res.ok
      { a := r • params.vk.deltaG1 + params.vk.alphaG1 + (a1 + a2)
        b := s • params.vk.deltaG2 + params.vk.betaG2 + (c1 + c2)
        c := (r * s) • params.vk.deltaG1 + s • params.vk.alphaG1 + r • params.vk.betaG1 + s • (a1 + a2) + r • (b1 + b2) + h + l } := by
  obtain ⟨hc, e0, e1⟩ := hA.h
  have e0' : (hCoeffs (w.site 0) p.a p.b p.c : Res (List F)) = Res.ok hc := e0
  unfold createProof
  simp only [hp, Res.ok_bind, Parameters.getVk, Parameters.getH, Parameters.getL, Parameters.getA, Parameters.getBG1, Parameters.getBG2,
    Res.ofExcept_ok, e0', e1, hA.l, hA.a1, hA.a2, hA.b1, hA.b2, hA.c1, hA.c2, Res.lift_some, List.length_map, hδ1, hδ2, or_self,
    if_false, Res.pure_eq]

theorem createProof_ok_inv {w : Worker} {circuit : Synth F Unit} {params : Parameters G1 G2} {r s : F} {pf : Proof G1 G2}
    (hok : createProof w circuit params r s = Res.ok pf) : ∃ p h l a1 a2 b1 b2 c1 c2, assign? circuit = Res.ok p ∧
      Answers w p params h l a1 a2 b1 b2 c1 c2 ∧ params.vk.deltaG1 ≠ 0 ∧ params.vk.deltaG2 ≠ 0 := by
  unfold createProof at hok
  obtain ⟨p, hp, hok⟩ := Res.bind_eq_ok.1 hok
  simp only [Parameters.getVk, Parameters.getH, Parameters.getL, Parameters.getA, Parameters.getBG1, Parameters.getBG2,
    Res.ofExcept_ok, Res.ok_bind, List.length_map] at hok
  obtain ⟨hc, e0, hok⟩ := Res.bind_eq_ok.1 hok
  obtain ⟨h, e1, hok⟩ := Res.bind_eq_ok.1 hok
  obtain ⟨l, e2, hok⟩ := Res.bind_eq_ok.1 hok
  obtain ⟨a1, e3, hok⟩ := Res.bind_eq_ok.1 hok
  obtain ⟨a2, e4, hok⟩ := Res.bind_eq_ok.1 hok
  obtain ⟨b1, e5, hok⟩ := Res.bind_eq_ok.1 hok
  obtain ⟨b2, e6, hok⟩ := Res.bind_eq_ok.1 hok
  obtain ⟨c1, e7, hok⟩ := Res.bind_eq_ok.1 hok
  obtain ⟨c2, e8, hok⟩ := Res.bind_eq_ok.1 hok
  split at hok
  · cases hok
  rename_i hδ
  obtain ⟨a1', f3, hok⟩ := Res.bind_eq_ok.1 hok
  obtain ⟨a2', f4, hok⟩ := Res.bind_eq_ok.1 hok
  obtain ⟨b1', f5, hok⟩ := Res.bind_eq_ok.1 hok
  obtain ⟨b2', f6, hok⟩ := Res.bind_eq_ok.1 hok
  obtain ⟨c1', f7, hok⟩ := Res.bind_eq_ok.1 hok
  obtain ⟨c2', f8, hok⟩ := Res.bind_eq_ok.1 hok
  obtain ⟨h', f1, hok⟩ := Res.bind_eq_ok.1 hok
  obtain ⟨l', f2, hok⟩ := Res.bind_eq_ok.1 hok
  rw [Res.ofExcept_eq_ok] at f1 f2 f3 f4 f5 f6 f7 f8
  subst f1 f2 f3 f4 f5 f6 f7 f8
  rw [Res.lift_eq_ok] at e1 e2 e3 e4 e5 e6 e7 e8
  exact ⟨p, h', l', a1', a2', b1', b2', c1', c2', hp, ⟨⟨hc, e0, e1⟩, e2, e3, e4, e5, e6, e7, e8⟩,
    fun h => hδ (.inl h), fun h => hδ (.inr h)⟩

end


section
variable {G : Type} [AddCommGroup G] [Module F G] [DecidableEq G]

theorem full_ok (w : Worker) (es : List F) (n : ℕ) (hn : es.length = n) (f : ℕ → F) (g r : G)
    (h : multiexp F w ⟨(List.range n).map fun i => f i • g, 0⟩ .full (es.map Exponent.ofField) = some (.ok r)) :
    (∀ i < n, f i • g = 0 → es.getD i 0 = 0) ∧ r = (∑ i ∈ range n, es.getD i 0 * f i) • g := by
  obtain ⟨_, _, h2, h3⟩ := C24_ok w _ _ _ _ h
  refine ⟨fun i hi h0 => ?_, ?_⟩
  · refine h2 i _ ⟨?_, ?_⟩
    · show es[i]? = _
      rw [List.getD_eq_getElem?_getD, List.getElem?_eq_getElem (by omega)]; rfl
    · show ((List.range n).map fun i => f i • g)[0 + i]? = some 0
      simp [hi, h0]
  · rw [h3, sum_smul]
    show ∑ i ∈ range es.length, _ = _
    rw [hn]
    refine sum_congr rfl fun i hi => ?_
    have : i < n := mem_range.1 hi
    rw [mul_smul]
    show es.getD i 0 • ((List.range n).map fun i => f i • g).getD (0 + i) 0 = _
    simp [this]

theorem full_regular (w : Worker) (es : List F) (n : ℕ) (hn : es.length = n) (h32 : n < 2 ^ 32) (f : ℕ → F) (g : G)
    (h : ∀ i < n, f i • g = 0 → es.getD i 0 = 0) :
    multiexp F w ⟨(List.range n).map fun i => f i • g, 0⟩ .full (es.map Exponent.ofField) =
      some (.ok ((∑ i ∈ range n, es.getD i 0 * f i) • g)) := by
  have hs : ¬ Short (F := F) (⟨(List.range n).map fun i => f i • g, 0⟩ : BaseSource G) .full es := by
    unfold Short queried; simp [hn]
  have := C24_multiexp w (⟨(List.range n).map fun i => f i • g, 0⟩ : BaseSource G) .full es (by omega) trivial hs ?_
  · obtain ⟨_, h3⟩ := full_ok w es n hn f g _ this
    rw [this, h3]
  · rintro i e ⟨h1, h2⟩
    have h1 : es[i]? = some e := h1
    have h2 : ((List.range n).map fun i => f i • g)[0 + i]? = some 0 := h2
    have hi : i < n := by have := (List.getElem?_eq_some_iff.1 h1).1; omega
    have := h i hi (by simpa [hi] using h2)
    rwa [List.getD_eq_getElem?_getD, h1] at this

end

namespace Qap
variable {q : Qap F}

theorem vars_map {β : Type} (f : Var → β) :
    q.vars.map f = ((List.range q.n).map fun i => f (.input i)) ++ (List.range q.k).map fun i => f (.aux i) := by
  unfold vars; simp [Function.comp_def]

theorem mem_vars_input {i : ℕ} : Var.input i ∈ q.vars ↔ i < q.n := by unfold vars; simp
theorem mem_vars_aux {i : ℕ} : Var.aux i ∈ q.vars ↔ i < q.k := by unfold vars; simp

theorem A_eval_sum (z : Var → F) (τ : F) : (q.A z).eval τ =
    ∑ i ∈ range q.n, z (.input i) * (q.u (.input i)).eval τ + ∑ i ∈ range q.k, z (.aux i) * (q.u (.aux i)).eval τ := by
  unfold A; simp [eval_finsetSum]
theorem B_eval_sum (z : Var → F) (τ : F) : (q.B z).eval τ =
    ∑ i ∈ range q.n, z (.input i) * (q.v (.input i)).eval τ + ∑ i ∈ range q.k, z (.aux i) * (q.v (.aux i)).eval τ := by
  unfold B; simp [eval_finsetSum]

theorem proverH_eval (z : Var → F) (τ : F) : (q.proverH z).eval τ = ∑ i ∈ range (q.m - 1), (q.proverH z).coeff i * τ ^ i := by
  conv_lhs => unfold proverH
  rw [eval_finsetSum]
  refine sum_congr rfl fun i hi => ?_
  rw [proverH_coeff, if_pos (mem_range.1 hi)]
  simp

end Qap

theorem uses_aux {t : List (Ev F)} {i : ℕ} : (Qap.ofTrace t).Uses (·.1) (.aux i) ↔ ∃ k ∈ consOf t, Occurs k.1.terms (.aux i) := by
  unfold Qap.Uses
  rw [ofTrace_rows]
  constructor
  · rintro ⟨r, hr, c, h0, hc⟩
    rcases List.mem_append.1 hr with hr | hr
    · exact ⟨r, hr, c, h0, hc⟩
    · obtain ⟨j, _, rfl⟩ := List.mem_map.1 hr
      simp at hc
  · rintro ⟨r, hr, c, h0, hc⟩
    exact ⟨r, List.mem_append_left _ hr, c, h0, hc⟩

theorem uses_input {t : List (Ev F)} {i : ℕ} (h : i < numIn t + 1) : (Qap.ofTrace t).Uses (·.1) (.input i) :=
  ⟨_, by rw [ofTrace_rows]; exact List.mem_append_right _ (List.mem_map.2 ⟨i, List.mem_range.2 h, rfl⟩), 1, one_ne_zero, by simp⟩

theorem uses_b {t : List (Ev F)} {x : Var} : (Qap.ofTrace t).Uses (·.2.1) x ↔ ∃ k ∈ consOf t, Occurs k.2.1.terms x := by
  unfold Qap.Uses
  rw [ofTrace_rows]
  constructor
  · rintro ⟨r, hr, c, h0, hc⟩
    rcases List.mem_append.1 hr with hr | hr
    · exact ⟨r, hr, c, h0, hc⟩
    · obtain ⟨j, _, rfl⟩ := List.mem_map.1 hr
      simp at hc
  · rintro ⟨r, hr, c, h0, hc⟩
    exact ⟨r, List.mem_append_left _ hr, c, h0, hc⟩

section
variable {G1 G2 : Type} [AddCommGroup G1] [AddCommGroup G2] [Module F G1] [Module F G2] [DecidableEq G1] [DecidableEq G2]

theorem smul_ne {G : Type} [AddCommGroup G] [Module F G] {a : F} {g : G} (h : a • g ≠ 0) : a ≠ 0 := by
  rintro rfl; exact h (zero_smul F g)

/-- The multi-exponentiations over the reference string of the circuit give the parts of the Groth16 proof. -/
theorem answers_crs (w : Worker) {p : ProvingAssignment F} {t : List (Ev F)} (ha : Assigned p t (numIn t + 1))
    (hs : (Qap.ofTrace t).InScope) (g1 : G1) (g2 : G2) (α β γ δ τ : F) (h l a1 a2 b1 b2 : G1) (c1 c2 : G2)
    (hA : Answers w p ((Qap.ofTrace t).crs g1 g2 α β γ δ τ) h l a1 a2 b1 b2 c1 c2)
    (hδ1 : δ • g1 ≠ 0) (hδ2 : δ • g2 ≠ 0) :
    let q := Qap.ofTrace t
    let z := witness t
    q.Ready g1 g2 α β δ τ z (q.proverH z) ∧ q.rows.length ≤ 2 ^ (S F - 1) ∧
    (w.site 0).FftFits (Nat.clog 2 q.rows.length) ∧
    h = ((q.proverH z).eval τ * q.Z.eval τ / δ) • g1 ∧ l = (q.priv α β τ z / δ) • g1 ∧
    a1 + a2 = (q.A z).eval τ • g1 ∧ b1 + b2 = (q.B z).eval τ • g1 ∧ c1 + c2 = (q.B z).eval τ • g2 := by
  intro q z
  have hin : p.inputAssignment.length = numIn t + 1 := by rw [ha.inputs]; simp [ha.nIn]
  have hau : p.auxAssignment.length = numAux t := by rw [ha.aux, ha.nAux]
  have zin : ∀ i, p.inputAssignment.getD i 0 = z (.input i) := by intro i; rw [ha.inputs]; rfl
  have zau : ∀ i, p.auxAssignment.getD i 0 = z (.aux i) := by intro i; rw [ha.aux]; rfl
  have hn : q.n = numIn t + 1 := rfl
  have hk : q.k = numAux t := rfl
  -- h
  obtain ⟨hc, e0, e1⟩ := hA.h
  obtain ⟨hsm, hff, e0'⟩ : q.rows.length ≤ 2 ^ (S F - 1) ∧ (w.site 0).FftFits (Nat.clog 2 q.rows.length) ∧
      hc = (List.range (q.m - 1)).map (q.proverH z).coeff := by
    rcases hCoeffs_assigned (w.site 0) ha hs with ⟨_, hh⟩ | ⟨_, _, hh⟩ | ⟨h1, h2, hh⟩
    · rw [hh] at e0; cases e0
    · rw [hh] at e0; cases e0
    · rw [hh] at e0; cases e0; exact ⟨h1, h2, rfl⟩
  obtain ⟨h1, h2⟩ := full_ok _ hc (q.m - 1) (by rw [e0']; simp) (fun i => τ ^ i * q.Z.eval τ / δ) g1 h e1
  have hcd : ∀ i < q.m - 1, hc.getD i 0 = (q.proverH z).coeff i := by intro i hi; rw [e0']; simp [hi]
  -- l
  obtain ⟨l1, l2⟩ := full_ok _ _ q.k hau (fun i => q.comb α β τ (.aux i) / δ) g1 l hA.l
  -- a
  have ea1 := hA.a1
  have ea2 := hA.a2
  have hfa : (q.crs g1 g2 α β γ δ τ).a = (((List.range q.n).map fun i => (q.u (.input i)).eval τ • g1) ++
      (List.range q.k).map fun i => (q.u (.aux i)).eval τ • g1).filter (· ≠ 0) := by rw [← Qap.vars_map (fun x => (q.u x).eval τ • g1)]; rfl
  rw [hfa] at ea1 ea2
  obtain ⟨xa1, xa2, sa1, sa2⟩ := query_pair_ok _ _ _ _ _ _ _ _
    (covers_range q.n _ _ (by simp [bitsOf, hin, hn]) fun i hi _ => by simp [bitsOf, hin, ← hn, hi])
    (covers_range q.k _ (bitsOf (.tracker p.aAuxDensity) p.auxAssignment.length) (by rw [hk, ← hau]; exact ha.wf.aa)
      fun i hi h0 => (ha.aAux i).2 (u_aux_occurs (smul_ne h0)))
    _ (by simp [bitsOf]) a1 a2 ea1 ea2
  rw [exactly_range _ _ _ (by simp [bitsOf, hin, hn])] at xa1
  rw [exactly_range _ _ _ (by rw [hk, ← hau]; exact ha.wf.aa)] at xa2
  rw [zipWith_range _ q.n hin] at sa1
  rw [zipWith_range _ q.k hau] at sa2
  -- b in G1
  have eb1 := hA.b1
  have eb2 := hA.b2
  have hfb : (q.crs g1 g2 α β γ δ τ).bG1 = (((List.range q.n).map fun i => (q.v (.input i)).eval τ • g1) ++
      (List.range q.k).map fun i => (q.v (.aux i)).eval τ • g1).filter (· ≠ 0) := by rw [← Qap.vars_map (fun x => (q.v x).eval τ • g1)]; rfl
  rw [hfb] at eb1 eb2
  obtain ⟨xb1, xb2, sb1, sb2⟩ := query_pair_ok _ _ _ _ _ _ _ _
    (covers_range q.n _ (bitsOf (.tracker p.bInputDensity) p.inputAssignment.length) (by rw [hn, ← hin]; exact ha.wf.bi)
      fun i hi h0 => (ha.bInput i).2 (v_occurs (smul_ne h0)))
    (covers_range q.k _ (bitsOf (.tracker p.bAuxDensity) p.auxAssignment.length) (by rw [hk, ← hau]; exact ha.wf.ba)
      fun i hi h0 => (ha.bAux i).2 (v_occurs (smul_ne h0)))
    _ rfl b1 b2 eb1 eb2
  rw [exactly_range _ _ _ (by rw [hn, ← hin]; exact ha.wf.bi)] at xb1
  rw [exactly_range _ _ _ (by rw [hk, ← hau]; exact ha.wf.ba)] at xb2
  rw [zipWith_range _ q.n hin] at sb1
  rw [zipWith_range _ q.k hau] at sb2
  -- b in G2
  have ec1 := hA.c1
  have ec2 := hA.c2
  have hfc : (q.crs g1 g2 α β γ δ τ).bG2 = (((List.range q.n).map fun i => (q.v (.input i)).eval τ • g2) ++
      (List.range q.k).map fun i => (q.v (.aux i)).eval τ • g2).filter (· ≠ 0) := by rw [← Qap.vars_map (fun x => (q.v x).eval τ • g2)]; rfl
  rw [hfc] at ec1 ec2
  obtain ⟨xc1, xc2, sc1, sc2⟩ := query_pair_ok _ _ _ _ _ _ _ _
    (covers_range q.n _ (bitsOf (.tracker p.bInputDensity) p.inputAssignment.length) (by rw [hn, ← hin]; exact ha.wf.bi)
      fun i hi h0 => (ha.bInput i).2 (v_occurs (smul_ne h0)))
    (covers_range q.k _ (bitsOf (.tracker p.bAuxDensity) p.auxAssignment.length) (by rw [hk, ← hau]; exact ha.wf.ba)
      fun i hi h0 => (ha.bAux i).2 (v_occurs (smul_ne h0)))
    _ rfl c1 c2 ec1 ec2
  rw [exactly_range _ _ _ (by rw [hn, ← hin]; exact ha.wf.bi)] at xc1
  rw [exactly_range _ _ _ (by rw [hk, ← hau]; exact ha.wf.ba)] at xc2
  rw [zipWith_range _ q.n hin] at sc1
  rw [zipWith_range _ q.k hau] at sc2
  simp only [zin, zau] at sa1 sa2 sb1 sb2 sc1 sc2 l1 l2
  refine ⟨⟨?_, ?_, ?_, ?_, l1, hδ1, hδ2⟩, hsm, hff, ?_, ?_, ?_, ?_, ?_⟩
  · rintro (i | i) hx hu
    · rw [Qap.mem_vars_input] at hx
      exact (xa1 i hx).2 (by simp [bitsOf, hin, ← hn, hx])
    · rw [Qap.mem_vars_aux] at hx
      exact (xa2 i hx).2 ((ha.aAux i).2 (uses_aux.1 hu))
  · rintro (i | i) hx hu
    · rw [Qap.mem_vars_input] at hx
      exact (xb1 i hx).2 ((ha.bInput i).2 (uses_b.1 hu))
    · rw [Qap.mem_vars_aux] at hx
      exact (xb2 i hx).2 ((ha.bAux i).2 (uses_b.1 hu))
  · rintro (i | i) hx hu
    · rw [Qap.mem_vars_input] at hx
      exact (xc1 i hx).2 ((ha.bInput i).2 (uses_b.1 hu))
    · rw [Qap.mem_vars_aux] at hx
      exact (xc2 i hx).2 ((ha.bAux i).2 (uses_b.1 hu))
  · intro i hi h0
    rw [← hcd i hi]
    exact h1 i hi h0
  · rw [h2, Qap.proverH_eval, sum_mul, sum_div]
    congr 1
    refine sum_congr rfl fun i hi => ?_
    rw [hcd i (mem_range.1 hi)]
    ring
  · rw [l2]
    unfold Qap.priv
    rw [sum_div]
    congr 1
    exact sum_congr rfl fun i _ => by ring
  · rw [sa1, sa2, Qap.A_eval_sum, add_smul]
  · rw [sb1, sb2, Qap.B_eval_sum, add_smul]
  · rw [sc1, sc2, Qap.B_eval_sum, add_smul]

/-- Conversely, all multi-exponentiations succeed if the parameters are ready. -/
theorem answers_of_ready (w : Worker) {p : ProvingAssignment F} {t : List (Ev F)} (ha : Assigned p t (numIn t + 1))
    (hs : (Qap.ofTrace t).InScope) (g1 : G1) (g2 : G2) (α β γ δ τ : F)
    (hr : (Qap.ofTrace t).Ready g1 g2 α β δ τ (witness t) ((Qap.ofTrace t).proverH (witness t)))
    (hsm : (Qap.ofTrace t).rows.length ≤ 2 ^ (S F - 1)) (hff : (w.site 0).FftFits (Nat.clog 2 (Qap.ofTrace t).rows.length))
    (n32 : numIn t + 1 < 2 ^ 32) (k32 : numAux t < 2 ^ 32) (m32 : (Qap.ofTrace t).m ≤ 2 ^ 32) :
    ∃ h l a1 a2 b1 b2 c1 c2, Answers w p ((Qap.ofTrace t).crs g1 g2 α β γ δ τ) h l a1 a2 b1 b2 c1 c2 := by
  set q := Qap.ofTrace t with hq
  set z := witness t with hz
  have hin : p.inputAssignment.length = numIn t + 1 := by rw [ha.inputs]; simp [ha.nIn]
  have hau : p.auxAssignment.length = numAux t := by rw [ha.aux, ha.nAux]
  have zau : ∀ i, p.auxAssignment.getD i 0 = z (.aux i) := by intro i; rw [ha.aux]; rfl
  have hn : q.n = numIn t + 1 := rfl
  have hk : q.k = numAux t := rfl
  have hmp : 0 < q.m := by
    show 0 < 2 ^ _
    positivity
  obtain ⟨hc, e0, e0'⟩ : ∃ hc, hCoeffs (w.site 0) p.a p.b p.c = some (.ok hc) ∧ hc = (List.range (q.m - 1)).map (q.proverH z).coeff := by
    rcases hCoeffs_assigned (w.site 0) ha hs with ⟨h1, _⟩ | ⟨_, h1, _⟩ | ⟨_, _, hh⟩
    · exact absurd hsm (not_le.2 h1)
    · exact absurd hff h1
    · exact ⟨_, hh, rfl⟩
  have hcd : ∀ i < q.m - 1, hc.getD i 0 = (q.proverH z).coeff i := by intro i hi; rw [e0']; simp [hi]
  have f1 := full_regular (w.site 1) hc (q.m - 1) (by rw [e0']; simp) (by omega) (fun i => τ ^ i * q.Z.eval τ / δ) g1
    (fun i hi h0 => by rw [hcd i hi]; exact hr.h i hi h0)
  have f2 := full_regular (w.site 2) _ q.k hau k32 (fun i => q.comb α β τ (.aux i) / δ) g1
    (fun i hi h0 => by rw [zau]; exact hr.l i hi h0)
  have hfa : (q.crs g1 g2 α β γ δ τ).a = (((List.range q.n).map fun i => (q.u (.input i)).eval τ • g1) ++
      (List.range q.k).map fun i => (q.u (.aux i)).eval τ • g1).filter (· ≠ 0) := by rw [← Qap.vars_map (fun x => (q.u x).eval τ • g1)]; rfl
  have hfb : (q.crs g1 g2 α β γ δ τ).bG1 = (((List.range q.n).map fun i => (q.v (.input i)).eval τ • g1) ++
      (List.range q.k).map fun i => (q.v (.aux i)).eval τ • g1).filter (· ≠ 0) := by rw [← Qap.vars_map (fun x => (q.v x).eval τ • g1)]; rfl
  have hfc : (q.crs g1 g2 α β γ δ τ).bG2 = (((List.range q.n).map fun i => (q.v (.input i)).eval τ • g2) ++
      (List.range q.k).map fun i => (q.v (.aux i)).eval τ • g2).filter (· ≠ 0) := by rw [← Qap.vars_map (fun x => (q.v x).eval τ • g2)]; rfl
  have bi : p.bInputDensity.bv.length = q.n := by rw [ha.wf.bi, hin]; rfl
  have ba : p.bAuxDensity.bv.length = q.k := by rw [ha.wf.ba, hau]; rfl
  have aa : p.aAuxDensity.bv.length = q.k := by rw [ha.wf.aa, hau]; rfl
  obtain ⟨f3, f4⟩ := query_pair_regular (w.site 3) (w.site 4) ((List.range q.n).map fun i => (q.u (.input i)).eval τ • g1)
    ((List.range q.k).map fun i => (q.u (.aux i)).eval τ • g1) .full (.tracker p.aAuxDensity) p.inputAssignment p.auxAssignment
    ((exactly_range _ _ _ (by simp [bitsOf, hin, hn])).2 fun i hi =>
      ⟨fun _ => by simp [bitsOf, hin, ← hn, hi], fun _ => hr.a _ (Qap.mem_vars_input.2 hi) (uses_input hi)⟩)
    ((exactly_range _ _ _ aa).2 fun i hi => ⟨fun h0 => (ha.aAux i).2 (u_aux_occurs (smul_ne h0)),
      fun h0 => hr.a _ (Qap.mem_vars_aux.2 hi) (uses_aux.2 ((ha.aAux i).1 h0))⟩)
    p.inputAssignment.length (by simp [bitsOf]) (by omega) (by omega) trivial ha.wf.aa
  obtain ⟨f5, f6⟩ := query_pair_regular (w.site 5) (w.site 6) ((List.range q.n).map fun i => (q.v (.input i)).eval τ • g1)
    ((List.range q.k).map fun i => (q.v (.aux i)).eval τ • g1) (.tracker p.bInputDensity) (.tracker p.bAuxDensity)
    p.inputAssignment p.auxAssignment
    ((exactly_range _ _ _ bi).2 fun i hi => ⟨fun h0 => (ha.bInput i).2 (v_occurs (smul_ne h0)),
      fun h0 => hr.b1 _ (Qap.mem_vars_input.2 hi) (uses_b.2 ((ha.bInput i).1 h0))⟩)
    ((exactly_range _ _ _ ba).2 fun i hi => ⟨fun h0 => (ha.bAux i).2 (v_occurs (smul_ne h0)),
      fun h0 => hr.b1 _ (Qap.mem_vars_aux.2 hi) (uses_b.2 ((ha.bAux i).1 h0))⟩)
    p.bInputDensity.getTotalDensity rfl (by omega) (by omega) ha.wf.bi ha.wf.ba
  obtain ⟨f7, f8⟩ := query_pair_regular (w.site 7) (w.site 8) ((List.range q.n).map fun i => (q.v (.input i)).eval τ • g2)
    ((List.range q.k).map fun i => (q.v (.aux i)).eval τ • g2) (.tracker p.bInputDensity) (.tracker p.bAuxDensity)
    p.inputAssignment p.auxAssignment
    ((exactly_range _ _ _ bi).2 fun i hi => ⟨fun h0 => (ha.bInput i).2 (v_occurs (smul_ne h0)),
      fun h0 => hr.b2 _ (Qap.mem_vars_input.2 hi) (uses_b.2 ((ha.bInput i).1 h0))⟩)
    ((exactly_range _ _ _ ba).2 fun i hi => ⟨fun h0 => (ha.bAux i).2 (v_occurs (smul_ne h0)),
      fun h0 => hr.b2 _ (Qap.mem_vars_aux.2 hi) (uses_b.2 ((ha.bAux i).1 h0))⟩)
    p.bInputDensity.getTotalDensity rfl (by omega) (by omega) ha.wf.bi ha.wf.ba
  rw [← hfa] at f3 f4
  rw [← hfb] at f5 f6
  rw [← hfc] at f7 f8
  exact ⟨_, _, _, _, _, _, _, _, ⟨⟨hc, e0, f1⟩, f2, f3, f4, f5, f6, f7, f8⟩⟩

/-- If `create_proof` succeeds on the parameters of the circuit, its result is the Groth16 proof. -/
theorem createProof_ok {w : Worker} {circuit : Synth F Unit} {t : List (Ev F)} {p : ProvingAssignment F}
    (hp : assign? circuit = Res.ok p) (ha : Assigned p t (numIn t + 1))
    (hs : (Qap.ofTrace t).InScope) {g1 : G1} {g2 : G2} {α β γ δ τ r s : F} {pf : Proof G1 G2}
    (hok : createProof w circuit ((Qap.ofTrace t).crs g1 g2 α β γ δ τ) r s = Res.ok pf) :
    let q := Qap.ofTrace t
    let z := witness t
    q.Ready g1 g2 α β δ τ z (q.proverH z) ∧ q.rows.length ≤ 2 ^ (S F - 1) ∧
    (w.site 0).FftFits (Nat.clog 2 q.rows.length) ∧ pf = q.proof g1 g2 α β δ τ z (q.proverH z) r s := by
  intro q z
  obtain ⟨p', h, l, a1, a2, b1, b2, c1, c2, hp', hA, hδ1, hδ2⟩ := createProof_ok_inv hok
  cases hp.symm.trans hp'
  obtain ⟨hR, hsm, hff, eh, el, ea, eb, ec⟩ := answers_crs w ha hs g1 g2 α β γ δ τ h l a1 a2 b1 b2 c1 c2 hA hδ1 hδ2
  refine ⟨hR, hsm, hff, ?_⟩
  have := createProof_ok_of w circuit _ r s p h l a1 a2 b1 b2 c1 c2 hp hA hδ1 hδ2
  rw [hok] at this
  rw [Res.ok_inj.1 this, ea, eb, ec, eh, el]
  have hδ : δ ≠ 0 := smul_ne hδ1
  unfold Qap.proof Qap.crs
  simp only
  congr 1
  · module
  · module
  · simp only [← smul_assoc, ← add_smul, smul_eq_mul]
    congr 1
    field_simp
    ring

end

end Bellman
