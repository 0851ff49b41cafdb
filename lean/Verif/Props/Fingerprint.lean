import Verif.Props.Keygen
import Verif.Props.Equality
import Verif.Props.Core
import Verif.Spec.Matrices

/-!
# C70: parameters identify the constraint matrices of the circuit
-/

namespace Bellman

open Polynomial PrimeField Finset

set_option linter.unusedSectionVars false

variable {F G1 G2 : Type} [PrimeField F] [AddCommGroup G1] [AddCommGroup G2] [Module F G1] [Module F G2] [DecidableEq G1] [DecidableEq G2]

namespace Qap

theorem ofTrace_m (t : List (Ev F)) : (ofTrace t).m = 2 ^ Nat.clog 2 (ofTrace t).rows.length := rfl

theorem ofTrace_len (t : List (Ev F)) : (ofTrace t).rows.length ≤ (ofTrace t).m := Nat.le_pow_clog (by norm_num) _

theorem clog_eq {t t' : List (Ev F)} (h : (ofTrace t).m = (ofTrace t').m) :
    Nat.clog 2 (ofTrace t).rows.length = Nat.clog 2 (ofTrace t').rows.length := by
  rw [ofTrace_m, ofTrace_m] at h
  exact Nat.pow_right_injective (le_refl 2) h

theorem ω_eq {t t' : List (Ev F)} (h : (ofTrace t).m = (ofTrace t').m) : (ofTrace t).ω = (ofTrace t').ω := by
  show ROOT_OF_UNITY ^ (2 ^ (S F - Nat.clog 2 (ofTrace t).rows.length)) = ROOT_OF_UNITY ^ (2 ^ (S F - Nat.clog 2 (ofTrace t').rows.length))
  rw [clog_eq h]

theorem interp_congr {q q' : Qap F} (h : q.m = q'.m) (hω : q.ω = q'.ω) (f g : ℕ → F) (hfg : ∀ j < q.m, f j = g j) :
    q.interp f = q'.interp g := by
  unfold interp
  rw [← h, ← hω]
  simp only [Lagrange.interpolate_apply]
  exact sum_congr rfl fun j hj => by rw [hfg j (mem_range.1 hj)]

theorem SameMatrices.polys {q q' : Qap F} (h : q.SameMatrices q') (hω : q.ω = q'.ω) {x : Var} (hx : x ∈ q.vars) :
    q.u x = q'.u x ∧ q.v x = q'.v x ∧ q.w x = q'.w x :=
  ⟨interp_congr h.m hω _ _ (h.a x hx), interp_congr h.m hω _ _ (h.b x hx), interp_congr h.m hω _ _ (h.c x hx)⟩

theorem SameMatrices.comb {q q' : Qap F} (h : q.SameMatrices q') (hω : q.ω = q'.ω) {x : Var} (hx : x ∈ q.vars)
    (α β τ : F) : q.comb α β τ x = q'.comb α β τ x := by
  obtain ⟨h1, h2, h3⟩ := h.polys hω hx
  unfold Qap.comb
  rw [h1, h2, h3]

theorem SameMatrices.crs {q q' : Qap F} (h : q.SameMatrices q') (hω : q.ω = q'.ω) (g1 : G1) (g2 : G2) (α β γ δ τ : F) :
    q.crs g1 g2 α β γ δ τ = q'.crs g1 g2 α β γ δ τ := by
  have hv : q'.vars = q.vars := by unfold vars; rw [h.n, h.k]
  have hZ : q'.Z = q.Z := by unfold Z; rw [h.m]
  have e1 : ((List.range q.n).map fun i => (q.comb α β τ (.input i) / γ) • g1) =
      (List.range q'.n).map fun i => (q'.comb α β τ (.input i) / γ) • g1 := by
    rw [← h.n]
    exact List.map_congr_left fun i hi => by rw [h.comb hω (mem_vars_input.2 (List.mem_range.1 hi))]
  have e2 : ((List.range q.k).map fun i => (q.comb α β τ (.aux i) / δ) • g1) =
      (List.range q'.k).map fun i => (q'.comb α β τ (.aux i) / δ) • g1 := by
    rw [← h.k]
    exact List.map_congr_left fun i hi => by rw [h.comb hω (mem_vars_aux.2 (List.mem_range.1 hi))]
  have e3 : (q.vars.map fun x => (q.u x).eval τ • g1) = q'.vars.map fun x => (q'.u x).eval τ • g1 := by
    rw [hv]
    exact List.map_congr_left fun x hx => by rw [(h.polys hω hx).1]
  have e4 : (q.vars.map fun x => (q.v x).eval τ • g1) = q'.vars.map fun x => (q'.v x).eval τ • g1 := by
    rw [hv]
    exact List.map_congr_left fun x hx => by rw [(h.polys hω hx).2.1]
  have e5 : (q.vars.map fun x => (q.v x).eval τ • g2) = q'.vars.map fun x => (q'.v x).eval τ • g2 := by
    rw [hv]
    exact List.map_congr_left fun x hx => by rw [(h.polys hω hx).2.1]
  unfold Qap.crs
  rw [e1, e2, e3, e4, e5, hZ, h.m]

/-- Value of the selected part of the constraint in place `j`, from the matrix. -/
theorem row_value {q : Qap F} (sel : Row F → LC F) (hs : ∀ r ∈ q.rows, ∀ x ∈ (sel r).terms, x.1.InRange q.n q.k) (z : Var → F) (j : ℕ) :
    ((q.rows[j]?).map fun r => (sel r).eval z).getD 0 =
      ∑ i ∈ range q.n, z (.input i) * q.entry sel (.input i) j + ∑ i ∈ range q.k, z (.aux i) * q.entry sel (.aux i) j := by
  unfold entry
  rcases hr : q.rows[j]? with _ | r
  · simp
  · simp only [Option.map_some, Option.getD_some]
    exact LC.eval_eq_sum _ _ _ _ (hs r (List.mem_of_getElem? hr))

theorem satBy_places (q : Qap F) (hl : q.rows.length ≤ q.m) (z : Var → F) :
    q.SatBy z ↔ ∀ j < q.m, ((q.rows[j]?).map fun r => r.1.eval z).getD 0 * ((q.rows[j]?).map fun r => r.2.1.eval z).getD 0 =
      ((q.rows[j]?).map fun r => r.2.2.eval z).getD 0 := by
  constructor
  · intro h j _
    rcases hr : q.rows[j]? with _ | r
    · simp
    · simpa using h r (List.mem_of_getElem? hr)
  · intro h r hr
    obtain ⟨j, hj, rfl⟩ := List.getElem_of_mem hr
    have := h j (hj.trans_le hl)
    rw [List.getElem?_eq_getElem hj] at this
    simpa using this

end Qap

/-- C70: circuits with the same constraint matrices have the same parameters, or the same error, at all trapdoors: names, the order of
terms, repeated terms and terms with coefficient zero do not matter. -/
theorem C70_same (w : Worker) {kc kc' : Synth F Unit} {t t' : List (Ev F)} (ht : KeyTrace kc t) (ht' : KeyTrace kc' t')
    (h : (Qap.ofTrace t).SameMatrices (Qap.ofTrace t')) (hf : w.FftFits (Nat.clog 2 (Qap.ofTrace t).rows.length))
    (hw : w.multicore = true ∨ 1 < (Qap.ofTrace t).m ∧ 0 < numAux t) (g1 : G1) (g2 : G2) (α β γ δ τ : F) :
    generateParameters w kc g1 g2 α β γ δ τ = generateParameters w kc' g1 g2 α β γ δ τ := by
  have hω := Qap.ω_eq h.m
  have hk : numAux t = numAux t' := h.k
  have hclog := Qap.clog_eq h.m
  have hlen : (Qap.ofTrace t').rows.length ≤ 2 ^ (S F - 1) ↔ (Qap.ofTrace t).rows.length ≤ 2 ^ (S F - 1) := by
    rw [← Nat.clog_le_iff_le_pow (by norm_num), ← Nat.clog_le_iff_le_pow (by norm_num), hclog]
  have hc : ∀ i < numAux t, (Qap.ofTrace t).comb α β τ (.aux i) = (Qap.ofTrace t').comb α β τ (.aux i) := fun i hi =>
    h.comb hω (Qap.mem_vars_aux.2 hi) α β τ
  have h1 := C29_outcome w kc g1 g2 α β γ δ τ t ht hf hw
  have h2 := C29_outcome w kc' g1 g2 α β γ δ τ t' ht' (by rwa [← hclog]) (by rwa [← h.m, ← hk])
  have hcrs := h.crs hω g1 g2 α β γ δ τ
  have hm := h.m
  clear h hω hf hw ht ht'
  rw [← hk] at h2
  generalize generateParameters w kc g1 g2 α β γ δ τ = o1 at h1 ⊢
  generalize generateParameters w kc' g1 g2 α β γ δ τ = o2 at h2 ⊢
  generalize Qap.ofTrace t = q at *
  generalize Qap.ofTrace t' = q' at *
  simp only at h1 h2
  rw [← hcrs, hlen, ← not_le, hlen, not_le] at h2
  have e3 : (∃ i < numAux t, (q'.comb α β τ (.aux i) / δ) • g1 = 0) ↔ ∃ i < numAux t, (q.comb α β τ (.aux i) / δ) • g1 = 0 :=
    exists_congr fun i => and_congr_right fun hi => by rw [hc i hi]
  have e4 : (∀ i < numAux t, (q'.comb α β τ (.aux i) / δ) • g1 ≠ 0) ↔ ∀ i < numAux t, (q.comb α β τ (.aux i) / δ) • g1 ≠ 0 :=
    forall_congr' fun i => imp_congr_right fun hi => by rw [hc i hi]
  rw [e3, e4] at h2
  rcases h1 with ⟨a, b⟩ | ⟨a, b, c⟩ | ⟨a, b, c, ⟨i, hi, d⟩, e⟩ | ⟨a, b, c, d, e⟩ <;>
  rcases h2 with ⟨a', b'⟩ | ⟨a', b', c'⟩ | ⟨a', b', c', ⟨i', hi', d'⟩, e'⟩ | ⟨a', b', c', d', e'⟩ <;>
  first
    | omega
    | exact absurd d (d' i hi)
    | exact absurd d' (d i' hi')
    | (rw [b, b'])
    | (rw [c, c'])
    | (rw [e, e'])
    | (exfalso; rcases b with b | b <;> contradiction)
    | (exfalso; rcases b' with b' | b' <;> contradiction)

/-- C70: unless two circuits have the same constraint matrices, their parameters agree at few trapdoors only; even the `ic` elements,
the `l` elements and the number of `h` elements agree at few trapdoors only. -/
theorem C70_different {kc kc' : Synth F Unit} {t t' : List (Ev F)} (ht : KeyTrace kc t) (ht' : KeyTrace kc' t') :
    (Qap.ofTrace t).SameMatrices (Qap.ofTrace t') ∨
    ({x : F × F × F × F × F | ∃ (w w' : Worker) (g1 : G1) (g2 : G2) (params params' : Parameters G1 G2), g1 ≠ 0 ∧
        generateParameters w kc g1 g2 x.1 x.2.1 x.2.2.1 x.2.2.2.1 x.2.2.2.2 = Res.ok params ∧
        generateParameters w' kc' g1 g2 x.1 x.2.1 x.2.2.1 x.2.2.2.1 x.2.2.2.2 = Res.ok params' ∧
        params.vk.ic = params'.vk.ic ∧ params.l = params'.l ∧ params.h.length = params'.h.length} : Set _).ncard ≤
      (Qap.ofTrace t).m * p F ^ 4 := by
  classical
  have := PrimeField.finite (F := F)
  by_cases hS : (Qap.ofTrace t).SameMatrices (Qap.ofTrace t')
  · exact .inl hS
  right
  set X := {x : F × F × F × F × F | ∃ (w w' : Worker) (g1 : G1) (g2 : G2) (params params' : Parameters G1 G2), g1 ≠ 0 ∧
        generateParameters w kc g1 g2 x.1 x.2.1 x.2.2.1 x.2.2.2.1 x.2.2.2.2 = Res.ok params ∧
        generateParameters w' kc' g1 g2 x.1 x.2.1 x.2.2.1 x.2.2.2.1 x.2.2.2.2 = Res.ok params' ∧
        params.vk.ic = params'.vk.ic ∧ params.l = params'.l ∧ params.h.length = params'.h.length} with hX
  have hmpos : ∀ t : List (Ev F), 0 < (Qap.ofTrace t).m := fun t => by rw [Qap.ofTrace_m]; positivity
  -- what an element of the set tells
  have key : ∀ x ∈ X, (Qap.ofTrace t).n = (Qap.ofTrace t').n ∧ (Qap.ofTrace t).k = (Qap.ofTrace t').k ∧
      (Qap.ofTrace t).m = (Qap.ofTrace t').m ∧ (Qap.ofTrace t).rows.length ≤ 2 ^ (S F - 1) ∧
      (Qap.ofTrace t').rows.length ≤ 2 ^ (S F - 1) ∧
      ∀ v ∈ (Qap.ofTrace t).vars, (Qap.ofTrace t).comb x.1 x.2.1 x.2.2.2.2 v = (Qap.ofTrace t').comb x.1 x.2.1 x.2.2.2.2 v := by
    rintro x ⟨w, w', g1, g2, P, P', hg1, hP, hP', hic, hl, hh⟩
    obtain ⟨t1, ht1, _, rfl, hγ, hδ, _, hr⟩ := C29_crs w kc g1 g2 _ _ _ _ _ P hP
    obtain ⟨t2, ht2, _, rfl, _, _, _, hr'⟩ := C29_crs w' kc' g1 g2 _ _ _ _ _ P' hP'
    cases ht1.unique ht
    cases ht2.unique ht'
    simp only [Qap.crs] at hic hl hh
    simp only [List.length_map, List.length_range] at hh
    have hn : (Qap.ofTrace t).n = (Qap.ofTrace t').n := by simpa using congrArg List.length hic
    have hk : (Qap.ofTrace t).k = (Qap.ofTrace t').k := by simpa using congrArg List.length hl
    have hm : (Qap.ofTrace t).m = (Qap.ofTrace t').m := by have := hmpos t; have := hmpos t'; omega
    refine ⟨hn, hk, hm, hr, hr', fun v hv => ?_⟩
    have hinj : ∀ {a b c : F}, c ≠ 0 → (a / c) • g1 = (b / c) • g1 → a = b := by
      intro a b c hc h
      rw [← sub_eq_zero, ← sub_smul, smul_eq_zero] at h
      have := h.resolve_right hg1
      rw [← sub_div, div_eq_zero_iff] at this
      exact sub_eq_zero.1 (this.resolve_right hc)
    rcases List.mem_append.1 hv with hv | hv
    · obtain ⟨i, hi, rfl⟩ := List.mem_map.1 hv
      rw [← hn] at hic
      exact hinj hγ (List.map_inj_left.1 hic i hi)
    · obtain ⟨i, hi, rfl⟩ := List.mem_map.1 hv
      rw [← hk] at hl
      exact hinj hδ (List.map_inj_left.1 hl i hi)
  by_cases hne : X.Nonempty
  swap
  · rw [Set.not_nonempty_iff_eq_empty.1 hne]; simp
  obtain ⟨x0, hx0⟩ := hne
  obtain ⟨hn, hk, hm, hr, hr', _⟩ := key x0 hx0
  have hg := Qap.ofTrace_good t hr
  have hg' := Qap.ofTrace_good t' hr'
  -- the difference
  have hdiff : ∃ v ∈ (Qap.ofTrace t).vars, (Qap.ofTrace t).u v - (Qap.ofTrace t').u v ≠ 0 ∨ (Qap.ofTrace t).v v - (Qap.ofTrace t').v v ≠ 0 ∨
      (Qap.ofTrace t).w v - (Qap.ofTrace t').w v ≠ 0 := by
    by_contra hcon
    push Not at hcon
    have hent : ∀ sel : Row F → LC F, ∀ v, (Qap.ofTrace t).interp ((Qap.ofTrace t).entry sel v) = (Qap.ofTrace t').interp ((Qap.ofTrace t').entry sel v) →
        ∀ j < (Qap.ofTrace t).m, (Qap.ofTrace t).entry sel v j = (Qap.ofTrace t').entry sel v j := by
      intro sel v h j hj
      rw [← Qap.interp_eval hg ((Qap.ofTrace t).entry sel v) j (by rwa [← hg.m]), h, Qap.ω_eq hm]
      exact Qap.interp_eval hg' _ j (by rwa [← hg'.m, ← hm])
    exact hS ⟨hn, hk, hm, fun v hv => hent _ v (sub_eq_zero.1 (hcon v hv).1), fun v hv => hent _ v (sub_eq_zero.1 (hcon v hv).2.1),
      fun v hv => hent _ v (sub_eq_zero.1 (hcon v hv).2.2)⟩
  obtain ⟨v, hv, hne⟩ := hdiff
  have hdeg : ∀ f g, ((Qap.ofTrace t).interp f - (Qap.ofTrace t').interp g).natDegree ≤ (Qap.ofTrace t).m - 1 := fun f g =>
    (natDegree_sub_le _ _).trans (max_le (Qap.natDegree_interp hg f) (by rw [hm]; exact Qap.natDegree_interp hg' g))
  refine (Set.ncard_le_ncard ?_ (Set.toFinite _)).trans (ncard_comb _ _ _ _ (hmpos t) (hdeg _ _) (hdeg _ _) (hdeg _ _) hne)
  intro x hx
  have := (key x hx).2.2.2.2.2 v hv
  unfold Qap.comb at this
  simp only [Set.mem_ofPred_eq, eval_sub]
  have h2 := sub_eq_zero.2 this
  unfold Qap.u Qap.v Qap.w at h2
  linear_combination h2

/-- C70: circuits with the same constraint matrices are satisfied by the same assignments. -/
theorem C70_relation {kc kc' : Synth F Unit} {t t' : List (Ev F)} (ht : KeyTrace kc t) (ht' : KeyTrace kc' t')
    (h : (Qap.ofTrace t).SameMatrices (Qap.ofTrace t')) (z : Var → F) : Sat z t ↔ Sat z t' := by
  rw [← satBy_of_sat, ← satBy_of_sat, Qap.satBy_places _ (Qap.ofTrace_len t), Qap.satBy_places _ (Qap.ofTrace_len t'), ← h.m]
  have hs := ht.qapScope
  have hs' := ht'.qapScope
  refine forall_congr' fun j => imp_congr_right fun hj => ?_
  have hval : ∀ sel : Row F → LC F, (∀ r : Row F, ∀ x ∈ (sel r).terms, x ∈ r.1.terms ++ r.2.1.terms ++ r.2.2.terms) →
      (∀ x ∈ (Qap.ofTrace t).vars, (Qap.ofTrace t).entry sel x j = (Qap.ofTrace t').entry sel x j) →
      (((Qap.ofTrace t).rows[j]?).map fun r => (sel r).eval z).getD 0 = (((Qap.ofTrace t').rows[j]?).map fun r => (sel r).eval z).getD 0 := by
    intro sel hsel he
    rw [Qap.row_value sel (fun r hr x hx => hs r hr x (hsel r x hx)), Qap.row_value sel (fun r hr x hx => hs' r hr x (hsel r x hx)), ← h.n, ← h.k]
    congr 1
    · exact sum_congr rfl fun i hi => by rw [he _ (Qap.mem_vars_input.2 (mem_range.1 hi))]
    · exact sum_congr rfl fun i hi => by rw [he _ (Qap.mem_vars_aux.2 (mem_range.1 hi))]
  rw [hval (·.1) (fun r x hx => by simp [hx]) fun x hx => h.a x hx j hj, hval (·.2.1) (fun r x hx => by simp [hx]) fun x hx => h.b x hx j hj,
    hval (·.2.2) (fun r x hx => by simp [hx]) fun x hx => h.c x hx j hj]

/-- C70: circuits with different constraint matrices are written as different parameter files, except at few trapdoors. -/
theorem C70_files (c1 : PointCodec G1) (c2 : PointCodec G2) {kc kc' : Synth F Unit} {t t' : List (Ev F)} (ht : KeyTrace kc t)
    (ht' : KeyTrace kc' t') :
    (Qap.ofTrace t).SameMatrices (Qap.ofTrace t') ∨
    ({x : F × F × F × F × F | ∃ (w w' : Worker) (g1 : G1) (g2 : G2) (params params' : Parameters G1 G2), g1 ≠ 0 ∧
        generateParameters w kc g1 g2 x.1 x.2.1 x.2.2.1 x.2.2.2.1 x.2.2.2.2 = Res.ok params ∧
        generateParameters w' kc' g1 g2 x.1 x.2.1 x.2.2.1 x.2.2.2.1 x.2.2.2.2 = Res.ok params' ∧
        (∀ P ∈ [params, params'], (∀ v ∈ [P.vk.ic, P.h, P.l, P.a, P.bG1], v.length < 2 ^ 32) ∧ P.bG2.length < 2 ^ 32) ∧
        written (params.write c1 c2) = written (params'.write c1 c2)} : Set _).ncard ≤
      (Qap.ofTrace t).m * p F ^ 4 := by
  have := PrimeField.finite (F := F)
  refine (C70_different (G1 := G1) (G2 := G2) ht ht').imp_right fun h => (Set.ncard_le_ncard ?_ (Set.toFinite _)).trans h
  rintro x ⟨w, w', g1, g2, P, P', hg1, hP, hP', hl, hb⟩
  have h1 := hl P (by simp)
  have h2 := hl P' (by simp)
  have he := (Parameters.eq_iff P P').1 (((C59_parameters (c1 := c1) (c2 := c2) P P' h1.1 h1.2 h2.1 h2.2).2).2 hb)
  exact ⟨w, w', g1, g2, P, P', hg1, hP, hP', by rw [he], by rw [he], by rw [he]⟩

/-- C70: circuits that differ in a single satisfying assignment have different parameters, except at few trapdoors. -/
theorem C70_distinct {kc kc' : Synth F Unit} {t t' : List (Ev F)} (ht : KeyTrace kc t) (ht' : KeyTrace kc' t') (z : Var → F)
    (hz : Sat z t) (hz' : ¬ Sat z t') :
    ({x : F × F × F × F × F | ∃ (w w' : Worker) (g1 : G1) (g2 : G2) (params : Parameters G1 G2), g1 ≠ 0 ∧
        generateParameters w kc g1 g2 x.1 x.2.1 x.2.2.1 x.2.2.2.1 x.2.2.2.2 = Res.ok params ∧
        generateParameters w' kc' g1 g2 x.1 x.2.1 x.2.2.1 x.2.2.2.1 x.2.2.2.2 = Res.ok params} : Set _).ncard ≤
      (Qap.ofTrace t).m * p F ^ 4 := by
  have := PrimeField.finite (F := F)
  rcases C70_different (G1 := G1) (G2 := G2) ht ht' with h | h
  · exact absurd ((C70_relation ht ht' h z).1 hz) hz'
  · refine (Set.ncard_le_ncard ?_ (Set.toFinite _)).trans h
    rintro x ⟨w, w', g1, g2, P, hg1, hP, hP'⟩
    exact ⟨w, w', g1, g2, P, P, hg1, hP, hP', rfl, rfl, rfl⟩

/-- The circuit `x² = c x` for a secret `x`. -/
def twin (c : F) (x : Option F) : Synth F Unit := do
  let (x, _) ← Synth.alloc "x" (Synth.optGet x)
  Synth.enforce "x^2 = c x" (· + x) (· + x) (· + (c, x))

/-- Its calls. -/
def twinTrace (c : F) (x : Option F) : List (Ev F) :=
  [.alloc false "x" (.aux 0) x, .enforce "x^2 = c x" ⟨[(.aux 0, 1)]⟩ ⟨[(.aux 0, 1)]⟩ ⟨[(.aux 0, c)]⟩]

theorem twin_key (c : F) : KeyTrace (twin c none) (twinTrace c none) where
  exec := .allocSkip _ (.enforce (.ret _))
  numbered := ⟨rfl, trivial⟩
  inScope := ⟨by simp [Var.InRange], trivial⟩

theorem twin_sat (c : F) (x : Option F) (z : Var → F) : Sat z (twinTrace c x) ↔ z (.aux 0) * z (.aux 0) = c * z (.aux 0) := by
  constructor
  · intro h
    simpa [LC.eval] using h _ _ _ _ (List.mem_cons_of_mem _ (List.mem_singleton.2 rfl))
  · intro h n a b d hm
    simp only [twinTrace, List.mem_cons, List.not_mem_nil, or_false, reduceCtorEq, false_or, Ev.enforce.injEq] at hm
    obtain ⟨-, rfl, rfl, rfl⟩ := hm
    simpa [LC.eval] using h

/-- C70: the verifying key alone does not identify the circuit: there are circuits satisfied by different assignments whose verifying
keys agree at all trapdoors, and key generation succeeds for both at almost all trapdoors. -/
theorem C70_vk_alone (hS : 2 ≤ S F) : ∃ (kc kc' : Synth F Unit) (t t' : List (Ev F)), KeyTrace kc t ∧ KeyTrace kc' t' ∧
    (∃ z, Sat z t ∧ ¬ Sat z t') ∧
    (∀ (w w' : Worker) (g1 : G1) (g2 : G2) (α β γ δ τ : F) (params params' : Parameters G1 G2),
      generateParameters w kc g1 g2 α β γ δ τ = Res.ok params → generateParameters w' kc' g1 g2 α β γ δ τ = Res.ok params' →
      params.vk = params'.vk) ∧
    ∀ (w : Worker) (g1 : G1) (g2 : G2), g1 ≠ 0 →
      ({x : F × F × F × F × F | ¬ ∃ params params', generateParameters w kc g1 g2 x.1 x.2.1 x.2.2.1 x.2.2.2.1 x.2.2.2.2 = Res.ok params ∧
        generateParameters w kc' g1 g2 x.1 x.2.1 x.2.2.1 x.2.2.2.1 x.2.2.2.2 = Res.ok params'} : Set _).ncard ≤ 8 * p F ^ 4 := by
  have := PrimeField.finite (F := F)
  refine ⟨twin 1 none, twin 2 none, _, _, twin_key 1, twin_key 2, ⟨fun _ => 1, by simp [twin_sat], ?_⟩, ?_, ?_⟩
  · rw [twin_sat]
    intro h
    have : (1 : F) = 0 := by linear_combination -h
    exact one_ne_zero this
  · intro w w' g1 g2 α β γ δ τ P P' hP hP'
    obtain ⟨t1, ht1, _, rfl, _⟩ := C29_crs w _ g1 g2 _ _ _ _ _ P hP
    obtain ⟨t2, ht2, _, rfl, _⟩ := C29_crs w' _ g1 g2 _ _ _ _ _ P' hP'
    cases ht1.unique (twin_key 1)
    cases ht2.unique (twin_key 2)
    have hm : (Qap.ofTrace (twinTrace (1 : F) none)).m = (Qap.ofTrace (twinTrace (2 : F) none)).m := rfl
    have hω := Qap.ω_eq hm
    have hp : ∀ sel : Row F → LC F, (sel = (·.1) ∨ sel = (·.2.1) ∨ sel = (·.2.2)) → (Qap.ofTrace (twinTrace (1 : F) none)).interp ((Qap.ofTrace (twinTrace (1 : F) none)).entry sel (.input 0)) =
        (Qap.ofTrace (twinTrace (2 : F) none)).interp ((Qap.ofTrace (twinTrace (2 : F) none)).entry sel (.input 0)) := by
      intro sel hsel
      refine Qap.interp_congr hm hω _ _ fun j _ => ?_
      rcases j with _ | j
      · rcases hsel with rfl | rfl | rfl <;> simp [Qap.entry, Qap.ofTrace, Qap.ofRows, twinTrace, consOf, LC.coeffOf]
      · rfl
    have hcomb : (Qap.ofTrace (twinTrace (1 : F) none)).comb α β τ (.input 0) = (Qap.ofTrace (twinTrace (2 : F) none)).comb α β τ (.input 0) := by
      unfold Qap.comb Qap.u Qap.v Qap.w
      rw [hp _ (.inl rfl), hp _ (.inr (.inl rfl)), hp _ (.inr (.inr rfl))]
    have hn1 : (Qap.ofTrace (twinTrace (1 : F) none)).n = 1 := rfl
    have hn2 : (Qap.ofTrace (twinTrace (2 : F) none)).n = 1 := rfl
    unfold Qap.crs
    rw [hn1, hn2]
    simp [hcomb]
  · intro w g1 g2 hg1
    have hone : ∀ c : F, ({x : F × F × F × F × F | ¬ ∃ params, generateParameters w (twin c none) g1 g2 x.1 x.2.1 x.2.2.1 x.2.2.2.1 x.2.2.2.2 = Res.ok params} :
        Set _).ncard ≤ 4 * p F ^ 4 := by
      intro c
      have hc1 : (consOf (twinTrace c none)).length = 1 := rfl
      have hn : numIn (twinTrace c none) = 0 := rfl
      have hk : numAux (twinTrace c none) = 1 := rfl
      have hl : (Qap.ofTrace (twinTrace c none)).rows.length = 2 := rfl
      have hm : (Qap.ofTrace (twinTrace c none)).m = 2 := by rw [Qap.ofTrace_m, hl]; rfl
      have := C46_constrained w (twin c none) g1 g2 hg1 (twinTrace c none) (twin_key c) (fun i hi => by
          obtain rfl : i = 0 := by rw [hk] at hi; omega
          exact ⟨_, List.mem_singleton.2 rfl, .inl (by simp [LC.coeffOf])⟩)
        (by rw [hc1, hn]; calc 1 + (0 + 1) = 2 ^ 1 := by norm_num
              _ ≤ 2 ^ (S F - 1) := Nat.pow_le_pow_right (by norm_num) (by omega))
        (.inl (by rw [hc1, hn]; decide)) (.inr (by rw [hk]; norm_num))
      rwa [hk, hm] at this
    refine (Set.ncard_le_ncard ?_ (Set.toFinite _)).trans ((Set.ncard_union_le _ _).trans ((add_le_add (hone 1) (hone 2)).trans (by omega)))
    intro x hx
    by_contra hcon
    rw [Set.mem_union, not_or] at hcon
    simp only [Set.mem_ofPred_eq, not_not] at hcon hx
    obtain ⟨⟨P, hP⟩, P', hP'⟩ := hcon
    exact hx ⟨P, P', hP, hP'⟩

/-! Concrete cases. -/

/-- The circuit `x² = x` written with two terms for one variable and a term whose coefficient is zero. -/
def wordy : Synth F Unit := do
  let (x, _) ← Synth.alloc "bit" (Synth.optGet none)
  Synth.enforce "x^2 = 3 x - 2 x" (· + x) (fun lc => lc + ((0 : F), Var.input 0) + x) (fun lc => lc + ((3 : F), x) - ((2 : F), x))

/-- Its calls. -/
def wordyTrace : List (Ev F) :=
  [.alloc false "bit" (.aux 0) none, .enforce "x^2 = 3 x - 2 x" ⟨[(.aux 0, 1)]⟩ ⟨[(.input 0, 0), (.aux 0, 1)]⟩ ⟨[(.aux 0, 3), (.aux 0, -2)]⟩]

theorem wordy_key : KeyTrace (wordy (F := F)) wordyTrace where
  exec := .allocSkip _ (.enforce (.ret _))
  numbered := ⟨rfl, trivial⟩
  inScope := ⟨by simp [Var.InRange], trivial⟩

theorem wordy_same : (Qap.ofTrace (twinTrace (1 : F) none)).SameMatrices (Qap.ofTrace wordyTrace) where
  n := rfl
  k := rfl
  m := rfl
  a := fun x _ j _ => by rcases j with _ | j <;> rfl
  b := fun x _ j _ => by
    rcases j with _ | j
    · simp [Qap.entry, Qap.ofTrace, Qap.ofRows, twinTrace, wordyTrace, consOf, LC.coeffOf]
    · rfl
  c := fun x _ j _ => by
    rcases j with _ | j
    · simp [Qap.entry, Qap.ofTrace, Qap.ofRows, twinTrace, wordyTrace, consOf, LC.coeffOf]
      split_ifs <;> ring
    · rfl

example (w : Worker) (g1 : G1) (g2 : G2) (α β γ δ τ : F) :
    generateParameters w (twin 1 none) g1 g2 α β γ δ τ = generateParameters w wordy g1 g2 α β γ δ τ :=
  C70_same w (twin_key 1) wordy_key wordy_same (.inl (by rw [show (Qap.ofTrace (twinTrace (1 : F) none)).rows.length = 2 from rfl]; decide))
    (.inr ⟨by rw [Qap.ofTrace_m, show (Qap.ofTrace (twinTrace (1 : F) none)).rows.length = 2 from rfl]; decide, Nat.one_pos⟩) g1 g2 α β γ δ τ

example (z : Var → DummyFr) : Sat z (twinTrace 1 none) ↔ Sat z wordyTrace := C70_relation (twin_key 1) wordy_key wordy_same z

example : KeyTrace (twin (1 : DummyFr) none) (twinTrace 1 none) ∧ KeyTrace (twin (2 : DummyFr) none) (twinTrace 2 none) ∧
    Sat (fun _ => (1 : DummyFr)) (twinTrace 1 none) ∧ ¬ Sat (fun _ => (1 : DummyFr)) (twinTrace 2 none) ∧
    ¬ (Qap.ofTrace (twinTrace (1 : DummyFr) none)).SameMatrices (Qap.ofTrace (twinTrace 2 none)) ∧ 2 ≤ S DummyFr := by
  have h1 : Sat (fun _ => (1 : DummyFr)) (twinTrace 1 none) := (twin_sat _ _ _).2 (by norm_num)
  have h2 : ¬ Sat (fun _ => (1 : DummyFr)) (twinTrace 2 none) := by
    rw [twin_sat]
    intro h
    have : (1 : DummyFr) = 0 := by linear_combination -h
    exact one_ne_zero this
  exact ⟨twin_key 1, twin_key 2, h1, h2, fun h => h2 ((C70_relation (twin_key 1) (twin_key 2) h _).1 h1), by decide⟩

end Bellman
