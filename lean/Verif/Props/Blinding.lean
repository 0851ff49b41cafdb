import Verif.Props.Groth16
import Verif.Props.Mimc
import Verif.Props.UnitTests

/-!
# C76: the blinding factors are needed, both of them, and fresh for every proof

`create_proof` takes the blinding factors `r` and `s` as arguments; `create_random_proof` draws them.  By C34 a proof with two secret
uniform factors says nothing about the witness.  Here: with the same `r` the first elements of two proofs, and with the same `s` the
second elements, show whether the two witnesses give the constraints the same values.
-/

set_option linter.unusedSectionVars false

namespace Bellman

open Polynomial PrimeField Finset

variable {F : Type} [PrimeField F] {G1 G2 GT : Type} [AddCommGroup G1] [AddCommGroup G2] [AddCommGroup GT] [Module F G1] [Module F G2]
  [Module F GT] [DecidableEq G1] [DecidableEq G2] [DecidableEq GT]

/-- The values of the left factors of all constraints, under the prover's own assignment. -/
def leftValues (t : List (Ev F)) : List F := (consOf t).map fun k => k.1.eval (witness t)

/-- The values of the right factors of all constraints, under the prover's own assignment. -/
def rightValues (t : List (Ev F)) : List F := (consOf t).map fun k => k.2.1.eval (witness t)

/-- Two proofs with the same parameters, for programs of the same shape. -/
theorem two_proofs {w w' w'' : Worker} {R R' : Unit → Unit → Prop} {kc pc pc' : Synth F Unit} (h : SShape R kc pc) (h' : SShape R' kc pc')
    {g1 : G1} {g2 : G2} {α β γ δ τ r r' s s' : F} {params : Parameters G1 G2} {pf pf' : Proof G1 G2}
    (hk : generateParameters w kc g1 g2 α β γ δ τ = Res.ok params) (hp : createProof w' pc params r s = Res.ok pf)
    (hp' : createProof w'' pc' params r' s' = Res.ok pf') {t t' : List (Ev F)} (ht : ProverTrace pc t) (ht' : ProverTrace pc' t') :
    g1 ≠ 0 ∧ g2 ≠ 0 ∧ pf.a = (α + ((Qap.ofTrace t).A (witness t)).eval τ + r * δ) • g1 ∧
      pf.b = (β + ((Qap.ofTrace t).B (witness t)).eval τ + s * δ) • g2 ∧
      pf'.a = (α + ((Qap.ofTrace t).A (witness t')).eval τ + r' * δ) • g1 ∧
      pf'.b = (β + ((Qap.ofTrace t).B (witness t')).eval τ + s' * δ) • g2 ∧
      (Qap.ofTrace t).InScope ∧ (Qap.ofTrace t).Good (Nat.clog 2 (Qap.ofTrace t).rows.length) ∧ consOf t' = consOf t ∧ numIn t' = numIn t := by
  obtain ⟨t0, t1, ht0, ht1, hsame, hsc, -, -, -, hR, hsm, hpf⟩ := prove_spec h hk hp
  cases ht.unique ht1
  obtain ⟨t0', t1', ht0', ht1', hsame', -, -, -, -, -, -, hpf'⟩ := prove_spec h' hk hp'
  cases ht'.unique ht1'
  rw [← ht0.unique ht0'] at hsame'
  have hqq : Qap.ofTrace t' = Qap.ofTrace t := (ofTrace_same hsame').symm.trans (ofTrace_same hsame)
  rw [hqq] at hpf'
  refine ⟨fun h0 => hR.δ1 (by rw [h0, smul_zero]), fun h0 => hR.δ2 (by rw [h0, smul_zero]), by rw [hpf]; rfl, by rw [hpf]; rfl, by rw [hpf']; rfl,
    by rw [hpf']; rfl, hsc, Qap.ofTrace_good t hsm, ?_, ?_⟩
  · rw [← Ev.Same.consOf hsame', Ev.Same.consOf hsame]
  · rw [← Ev.Same.numIn hsame', Ev.Same.numIn hsame]

theorem inputRows_eval (n : ℕ) (sel : Row F → LC F) (hsel : sel = (·.1) ∨ sel = (·.2.1)) {z z' : Var → F}
    (h : ∀ i < n, z (.input i) = z' (.input i)) :
    ((inputRows n : List (Row F)).map fun r => (sel r).eval z) = (inputRows n).map fun r => (sel r).eval z' := by
  refine List.map_congr_left fun r hr => ?_
  obtain ⟨i, hi, rfl⟩ := List.mem_map.1 hr
  rcases hsel with rfl | rfl
  · simp [LC.eval, h i (List.mem_range.1 hi)]
  · simp [LC.eval]

/-- Equal values in all constraints and equal public inputs give equal polynomials. -/
theorem A_eq_of_values {t t' : List (Ev F)} (hg : (Qap.ofTrace t).Good (Nat.clog 2 (Qap.ofTrace t).rows.length)) (hs : (Qap.ofTrace t).InScope)
    (hc : consOf t' = consOf t) (hin : inVals t = inVals t') (hv : leftValues t = leftValues t') :
    (Qap.ofTrace t).A (witness t) = (Qap.ofTrace t).A (witness t') := by
  refine poly_eq_of_domain _ _ hg.prim _ _ (Qap.A_degree hg _) (Qap.A_degree hg _) fun j hj => ?_
  rw [Qap.A_eval hg hs _ j hj, Qap.A_eval hg hs _ j hj, ofTrace_rows, List.map_append, List.map_append]
  unfold leftValues at hv
  rw [hc] at hv
  rw [hv, inputRows_eval _ (·.1) (.inl rfl) fun i _ => ?_]
  show ((1 : F) :: inVals t).getD i 0 = ((1 : F) :: inVals t').getD i 0
  rw [hin]

theorem B_eq_of_values {t t' : List (Ev F)} (hg : (Qap.ofTrace t).Good (Nat.clog 2 (Qap.ofTrace t).rows.length)) (hs : (Qap.ofTrace t).InScope)
    (hc : consOf t' = consOf t) (hv : rightValues t = rightValues t') :
    (Qap.ofTrace t).B (witness t) = (Qap.ofTrace t).B (witness t') := by
  refine poly_eq_of_domain _ _ hg.prim _ _ (Qap.B_degree hg _) (Qap.B_degree hg _) fun j hj => ?_
  rw [Qap.B_eval hg hs _ j hj, Qap.B_eval hg hs _ j hj, ofTrace_rows, List.map_append, List.map_append]
  unfold rightValues at hv
  rw [hc] at hv
  rw [hv]
  congr 2
  refine List.map_congr_left fun r hr => ?_
  obtain ⟨i, hi, rfl⟩ := List.mem_map.1 hr
  simp [LC.eval]

theorem values_of_A_eq {t t' : List (Ev F)} (hg : (Qap.ofTrace t).Good (Nat.clog 2 (Qap.ofTrace t).rows.length)) (hs : (Qap.ofTrace t).InScope)
    (hc : consOf t' = consOf t) (hA : (Qap.ofTrace t).A (witness t) = (Qap.ofTrace t).A (witness t')) : leftValues t = leftValues t' := by
  unfold leftValues
  rw [hc]
  refine List.ext_getElem (by simp) fun j hj _ => ?_
  rw [List.length_map] at hj
  have hj' : j < 2 ^ Nat.clog 2 (Qap.ofTrace t).rows.length :=
    lt_of_lt_of_le (by rw [ofTrace_rows, List.length_append]; omega) (Nat.le_pow_clog (by norm_num) _)
  have := congrArg (fun P => P.eval ((Qap.ofTrace t).ω ^ j)) hA
  rw [Qap.A_eval hg hs _ j hj', Qap.A_eval hg hs _ j hj', ofTrace_rows] at this
  rw [List.map_append, List.map_append, List.getD_append _ _ _ _ (by simpa using hj), List.getD_append _ _ _ _ (by simpa using hj)] at this
  simpa [hj] using this

theorem values_of_B_eq {t t' : List (Ev F)} (hg : (Qap.ofTrace t).Good (Nat.clog 2 (Qap.ofTrace t).rows.length)) (hs : (Qap.ofTrace t).InScope)
    (hc : consOf t' = consOf t) (hB : (Qap.ofTrace t).B (witness t) = (Qap.ofTrace t).B (witness t')) : rightValues t = rightValues t' := by
  unfold rightValues
  rw [hc]
  refine List.ext_getElem (by simp) fun j hj _ => ?_
  rw [List.length_map] at hj
  have hj' : j < 2 ^ Nat.clog 2 (Qap.ofTrace t).rows.length :=
    lt_of_lt_of_le (by rw [ofTrace_rows, List.length_append]; omega) (Nat.le_pow_clog (by norm_num) _)
  have := congrArg (fun P => P.eval ((Qap.ofTrace t).ω ^ j)) hB
  rw [Qap.B_eval hg hs _ j hj', Qap.B_eval hg hs _ j hj', ofTrace_rows] at this
  rw [List.map_append, List.map_append, List.getD_append _ _ _ _ (by simpa using hj), List.getD_append _ _ _ _ (by simpa using hj)] at this
  simpa [hj] using this

/-- Two different polynomials of degree below `m` agree in at most `m - 1` places. -/
theorem ncard_agree {P Q : F[X]} {m : ℕ} (hP : P.degree < m) (hQ : Q.degree < m) (hne : P ≠ Q) :
    ({τ : F | P.eval τ = Q.eval τ} : Set F).ncard ≤ m - 1 := by
  classical
  have h0 : P - Q ≠ 0 := sub_ne_zero.2 hne
  have hd : (P - Q).natDegree < m := by
    rw [Polynomial.natDegree_lt_iff_degree_lt h0]
    exact lt_of_le_of_lt (Polynomial.degree_sub_le _ _) (max_lt hP hQ)
  have hsub : ({τ : F | P.eval τ = Q.eval τ} : Set F) ⊆ ((P - Q).roots.toFinset : Set F) := by
    intro τ hτ
    rw [Finset.mem_coe, Multiset.mem_toFinset, mem_roots h0, IsRoot.def, eval_sub, sub_eq_zero]
    exact hτ
  calc _ ≤ ((P - Q).roots.toFinset : Set F).ncard := Set.ncard_le_ncard hsub (Finset.finite_toSet _)
    _ = (P - Q).roots.toFinset.card := Set.ncard_coe_finset _
    _ ≤ (P - Q).natDegree := (Multiset.toFinset_card_le _).trans (card_roots' _)
    _ ≤ m - 1 := by omega

/-- C76: with the same `r`, witnesses that give all left factors the same values (and the same public inputs) give proofs with the same first element,
whatever else differs. -/
theorem C76_same_first (w w' w'' : Worker) {R R' : Unit → Unit → Prop} {kc pc pc' : Synth F Unit} (h : SShape R kc pc) (h' : SShape R' kc pc')
    (g1 : G1) (g2 : G2) (α β γ δ τ r s s' : F) (params : Parameters G1 G2) (pf pf' : Proof G1 G2)
    (hk : generateParameters w kc g1 g2 α β γ δ τ = Res.ok params) (hp : createProof w' pc params r s = Res.ok pf)
    (hp' : createProof w'' pc' params r s' = Res.ok pf') (t t' : List (Ev F)) (ht : ProverTrace pc t) (ht' : ProverTrace pc' t')
    (hin : inVals t = inVals t') (hv : leftValues t = leftValues t') : pf.a = pf'.a := by
  obtain ⟨-, -, e1, -, e2, -, hsc, hg, hc, -⟩ := two_proofs h h' hk hp hp' ht ht'
  rw [e1, e2, A_eq_of_values hg hsc hc hin hv]

/-- C76: with the same `s`, witnesses that give all right factors the same values give proofs with the same second element. -/
theorem C76_same_second (w w' w'' : Worker) {R R' : Unit → Unit → Prop} {kc pc pc' : Synth F Unit} (h : SShape R kc pc) (h' : SShape R' kc pc')
    (g1 : G1) (g2 : G2) (α β γ δ τ r r' s : F) (params : Parameters G1 G2) (pf pf' : Proof G1 G2)
    (hk : generateParameters w kc g1 g2 α β γ δ τ = Res.ok params) (hp : createProof w' pc params r s = Res.ok pf)
    (hp' : createProof w'' pc' params r' s = Res.ok pf') (t t' : List (Ev F)) (ht : ProverTrace pc t) (ht' : ProverTrace pc' t')
    (hv : rightValues t = rightValues t') : pf.b = pf'.b := by
  obtain ⟨-, -, -, e1, -, e2, hsc, hg, hc, -⟩ := two_proofs h h' hk hp hp' ht ht'
  rw [e1, e2, B_eq_of_values hg hsc hc hv]

/-- C76: if the values of the left factors differ in some constraint, two proofs with the same `r` differ in their first element, for all but at
most `m - 1` values of `tau`, whatever the other trapdoors, generators, blinding factors and workers are. -/
theorem C76_other_first {R R' : Unit → Unit → Prop} {kc pc pc' : Synth F Unit} (h : SShape R kc pc) (h' : SShape R' kc pc')
    (t t' : List (Ev F)) (ht : ProverTrace pc t) (ht' : ProverTrace pc' t') (hv : leftValues t ≠ leftValues t') :
    ({τ : F | ∃ (w w' w'' : Worker) (g1 : G1) (g2 : G2) (α β γ δ r s s' : F) (params : Parameters G1 G2) (pf pf' : Proof G1 G2),
        generateParameters w kc g1 g2 α β γ δ τ = Res.ok params ∧ createProof w' pc params r s = Res.ok pf ∧
        createProof w'' pc' params r s' = Res.ok pf' ∧ pf.a = pf'.a} : Set F).ncard ≤ (Qap.ofTrace t).m - 1 := by
  have := PrimeField.finite (F := F)
  rcases Set.eq_empty_or_nonempty {τ : F | ∃ (w w' w'' : Worker) (g1 : G1) (g2 : G2) (α β γ δ r s s' : F) (params : Parameters G1 G2) (pf pf' : Proof G1 G2),
        generateParameters w kc g1 g2 α β γ δ τ = Res.ok params ∧ createProof w' pc params r s = Res.ok pf ∧
        createProof w'' pc' params r s' = Res.ok pf' ∧ pf.a = pf'.a} with he | ⟨τ0, w, w', w'', g1, g2, α, β, γ, δ, r, s, s', params, pf, pf', hk, hp, hp', -⟩
  · rw [he, Set.ncard_empty]; omega
  obtain ⟨-, -, -, -, -, -, hsc, hg, hc, -⟩ := two_proofs h h' hk hp hp' ht ht'
  have hne : (Qap.ofTrace t).A (witness t) ≠ (Qap.ofTrace t).A (witness t') := fun hA => hv (values_of_A_eq hg hsc hc hA)
  refine (Set.ncard_le_ncard ?_ (Set.toFinite _)).trans (ncard_agree (m := (Qap.ofTrace t).m) (by rw [hg.m]; exact Qap.A_degree hg _)
    (by rw [hg.m]; exact Qap.A_degree hg _) hne)
  rintro τ ⟨w, w', w'', g1, g2, α, β, γ, δ, r, s, s', params, pf, pf', hk, hp, hp', hab⟩
  obtain ⟨hg1, -, e1, -, e2, -⟩ := two_proofs h h' hk hp hp' ht ht'
  rw [e1, e2] at hab
  have := smul_left_injective F hg1 hab
  show _ = _
  linear_combination this

/-- C76: if the values of the right factors differ in some constraint, two proofs with the same `s` differ in their second element, for all but at
most `m - 1` values of `tau`. -/
theorem C76_other_second {R R' : Unit → Unit → Prop} {kc pc pc' : Synth F Unit} (h : SShape R kc pc) (h' : SShape R' kc pc')
    (t t' : List (Ev F)) (ht : ProverTrace pc t) (ht' : ProverTrace pc' t') (hv : rightValues t ≠ rightValues t') :
    ({τ : F | ∃ (w w' w'' : Worker) (g1 : G1) (g2 : G2) (α β γ δ r r' s : F) (params : Parameters G1 G2) (pf pf' : Proof G1 G2),
        generateParameters w kc g1 g2 α β γ δ τ = Res.ok params ∧ createProof w' pc params r s = Res.ok pf ∧
        createProof w'' pc' params r' s = Res.ok pf' ∧ pf.b = pf'.b} : Set F).ncard ≤ (Qap.ofTrace t).m - 1 := by
  have := PrimeField.finite (F := F)
  rcases Set.eq_empty_or_nonempty {τ : F | ∃ (w w' w'' : Worker) (g1 : G1) (g2 : G2) (α β γ δ r r' s : F) (params : Parameters G1 G2) (pf pf' : Proof G1 G2),
        generateParameters w kc g1 g2 α β γ δ τ = Res.ok params ∧ createProof w' pc params r s = Res.ok pf ∧
        createProof w'' pc' params r' s = Res.ok pf' ∧ pf.b = pf'.b} with he | ⟨τ0, w, w', w'', g1, g2, α, β, γ, δ, r, s, s', params, pf, pf', hk, hp, hp', -⟩
  · rw [he, Set.ncard_empty]; omega
  obtain ⟨-, -, -, -, -, -, hsc, hg, hc, -⟩ := two_proofs h h' hk hp hp' ht ht'
  have hne : (Qap.ofTrace t).B (witness t) ≠ (Qap.ofTrace t).B (witness t') := fun hB => hv (values_of_B_eq hg hsc hc hB)
  refine (Set.ncard_le_ncard ?_ (Set.toFinite _)).trans (ncard_agree (m := (Qap.ofTrace t).m) (by rw [hg.m]; exact Qap.B_degree hg _)
    (by rw [hg.m]; exact Qap.B_degree hg _) hne)
  rintro τ ⟨w, w', w'', g1, g2, α, β, γ, δ, r, s, s', params, pf, pf', hk, hp, hp', hab⟩
  obtain ⟨-, hg2, -, e1, -, e2, -⟩ := two_proofs h h' hk hp hp' ht ht'
  rw [e1, e2] at hab
  have := smul_left_injective F hg2 hab
  show _ = _
  linear_combination this

/-- C76, a prover without randomness: with both factors the same, two witnesses of the same statement that give all factors the same values give
the very same proof. -/
theorem C76_same_proof (E : Engine F G1 G2 GT) (w w' w'' : Worker) {R R' : Unit → Unit → Prop} {kc pc pc' : Synth F Unit} (h : SShape R kc pc)
    (h' : SShape R' kc pc') (g1 : G1) (g2 : G2) (α β γ δ τ r s : F) (params : Parameters G1 G2) (pf pf' : Proof G1 G2)
    (hk : generateParameters w kc g1 g2 α β γ δ τ = Res.ok params) (hp : createProof w' pc params r s = Res.ok pf)
    (hp' : createProof w'' pc' params r s = Res.ok pf') (t t' : List (Ev F)) (ht : ProverTrace pc t) (ht' : ProverTrace pc' t')
    (hs : Sat (witness t) t) (hs' : Sat (witness t') t') (hin : inVals t = inVals t') (hl : leftValues t = leftValues t')
    (hr : rightValues t = rightValues t') : pf = pf' := by
  have ea := C76_same_first w w' w'' h h' g1 g2 α β γ δ τ r s s params pf pf' hk hp hp' t t' ht ht' hin hl
  have eb := C76_same_second w w' w'' h h' g1 g2 α β γ δ τ r r s params pf pf' hk hp hp' t t' ht ht' hr
  have v := C30_completeness E w w' h g1 g2 α β γ δ τ r s params pf hk hp t ht hs
  have v' := C30_completeness E w w'' h' g1 g2 α β γ δ τ r s params pf' hk hp' t' ht' hs'
  obtain ⟨p, _, _, _, _, _, _, _, _, hass, hA, hδ1, hδ2⟩ := createProof_ok_inv hp
  have hlen : (inVals t).length + 1 = params.vk.ic.length := ((C32_verify E params.vk pf (inVals t)).2.1.1 v).1
  rw [← hin] at v'
  obtain ⟨a, b, c⟩ := pf
  obtain ⟨a', b', c'⟩ := pf'
  dsimp only at ea eb
  subst ea eb
  rw [(C32_unique_c E params.vk a b (inVals t) hlen hδ2).unique v v']

/-- C76, testing a guess: if a guessed witness gives some factor another value, then a prover with the same factors makes another proof from it, for all
but at most `m - 1` values of `tau`.  So whoever knows the factors recognises the right guess by running `create_proof`. -/
theorem C76_guess {R R' : Unit → Unit → Prop} {kc pc pc' : Synth F Unit} (h : SShape R kc pc) (h' : SShape R' kc pc')
    (t t' : List (Ev F)) (ht : ProverTrace pc t) (ht' : ProverTrace pc' t') (hv : leftValues t ≠ leftValues t' ∨ rightValues t ≠ rightValues t') :
    ({τ : F | ∃ (w w' w'' : Worker) (g1 : G1) (g2 : G2) (α β γ δ r s : F) (params : Parameters G1 G2) (pf : Proof G1 G2),
        generateParameters w kc g1 g2 α β γ δ τ = Res.ok params ∧ createProof w' pc params r s = Res.ok pf ∧
        createProof w'' pc' params r s = Res.ok pf} : Set F).ncard ≤ (Qap.ofTrace t).m - 1 := by
  have := PrimeField.finite (F := F)
  rcases hv with hv | hv
  · refine (Set.ncard_le_ncard ?_ (Set.toFinite _)).trans (C76_other_first (G1 := G1) (G2 := G2) h h' t t' ht ht' hv)
    rintro τ ⟨w, w', w'', g1, g2, α, β, γ, δ, r, s, params, pf, hk, hp, hp'⟩
    exact ⟨w, w', w'', g1, g2, α, β, γ, δ, r, s, s, params, pf, pf, hk, hp, hp', rfl⟩
  · refine (Set.ncard_le_ncard ?_ (Set.toFinite _)).trans (C76_other_second (G1 := G1) (G2 := G2) h h' t t' ht ht' hv)
    rintro τ ⟨w, w', w'', g1, g2, α, β, γ, δ, r, s, params, pf, hk, hp, hp'⟩
    exact ⟨w, w', w'', g1, g2, α, β, γ, δ, r, r, s, params, pf, pf, hk, hp, hp', rfl⟩

/-- C76, the contrast: with both factors secret no guess is excluded; every witness of the statement explains the proof with exactly one pair of
factors. -/
theorem C76_hidden (E : Engine F G1 G2 GT) (w w' w'' : Worker) {R R' : Unit → Unit → Prop} {kc pc pc' : Synth F Unit} (h : SShape R kc pc)
    (h' : SShape R' kc pc') (g1 : G1) (g2 : G2) (α β γ δ τ r s : F) (params : Parameters G1 G2) (pf : Proof G1 G2)
    (hk : generateParameters w kc g1 g2 α β γ δ τ = Res.ok params) (hp : createProof w' pc params r s = Res.ok pf)
    (hok' : ∃ r s pf, createProof w'' pc' params r s = Res.ok pf) (t t' : List (Ev F)) (ht : ProverTrace pc t) (ht' : ProverTrace pc' t')
    (hs : Sat (witness t) t) (hs' : Sat (witness t') t') (hin : inVals t = inVals t') :
    ∃! x : F × F, createProof w'' pc' params x.1 x.2 = Res.ok pf := by
  have v := C30_completeness E w w' h g1 g2 α β γ δ τ r s params pf hk hp t ht hs
  rw [hin] at v
  exact (C34_simulation E w w'' h' g1 g2 α β γ δ τ params hk t' ht' hs' hok' pf.a pf.b pf.c).2 v

/-- The left factors of the first two rounds determine the preimage. -/
theorem mimc_left (c0 c1 : F) (cs : List F) (v v' : Option (F × F)) {ρ ρ' : Var → F} (hs : Sat ρ (Mimc.demoTr (c0 :: c1 :: cs) v))
    (hs' : Sat ρ' (Mimc.demoTr (c0 :: c1 :: cs) v')) (o : ρ (.input 0) = 1) (o' : ρ' (.input 0) = 1)
    (hv : ((consOf (Mimc.demoTr (c0 :: c1 :: cs) v)).map fun k => k.1.eval ρ) = (consOf (Mimc.demoTr (c0 :: c1 :: cs) v')).map fun k => k.1.eval ρ') :
    ρ (.aux 0) = ρ' (.aux 0) ∧ ρ (.aux 1) = ρ' (.aux 1) := by
  have n0 : Mimc.newVar 0 2 = .aux 3 := rfl
  simp only [Mimc.demoTr, Mimc.loopTr, Sat_alloc, Sat_push, Sat_enforce, Sat_pop, n0] at hs hs'
  obtain ⟨-, a2, -⟩ := hs
  obtain ⟨-, b2, -⟩ := hs'
  simp only [Mimc.demoTr, Mimc.loopTr, consOf_alloc, consOf_push, consOf_enforce, consOf_pop, List.map_cons, n0, List.cons.injEq] at hv
  obtain ⟨v1, v2, v3, -⟩ := hv
  simp only [Mimc.rowA, Mimc.rowV, Mimc.rowC, LC.eval, List.map_cons, List.map_nil, List.sum_cons, List.sum_nil, o, o'] at a2 b2 v1 v2 v3
  have hx : ρ (.aux 0) = ρ' (.aux 0) := by linear_combination v1
  rw [hx] at a2
  refine ⟨hx, ?_⟩
  linear_combination v3 + a2 - b2 - (ρ' (.aux 0) + c0) * v2

/-- C76, for the MiMC circuit: a prover that uses the same `r` twice, or one that anybody can predict, proves with different first elements for
different preimages, be they of the same image or not, except for at most 1023 values of `tau`. -/
theorem C76_mimc (cs : List F) (h : cs.length = 322) (xl xr yl yr : F) (hne : (xl, xr) ≠ (yl, yr)) :
    ({τ : F | ∃ (w w' w'' : Worker) (g1 : G1) (g2 : G2) (α β γ δ r s s' : F) (params : Parameters G1 G2) (pf pf' : Proof G1 G2),
        generateParameters w (Mimc.Demo.mk none none cs).synthesize g1 g2 α β γ δ τ = Res.ok params ∧
        createProof w' (Mimc.Demo.mk (some xl) (some xr) cs).synthesize params r s = Res.ok pf ∧
        createProof w'' (Mimc.Demo.mk (some yl) (some yr) cs).synthesize params r s' = Res.ok pf' ∧ pf.a = pf'.a} : Set F).ncard ≤ 1023 := by
  obtain ⟨t, ht, hs, -, e0, e1⟩ := C48_complete cs h xl xr
  obtain ⟨t', ht', hs', -, e0', e1'⟩ := C48_complete cs h yl yr
  obtain ⟨t0, ht0, -, -, -, -, hm⟩ := C48_key cs h
  have hq := ofTrace_same (pair_traces (Mimc.shape_key cs xl xr) ht0 ht)
  have := C76_other_first (G1 := G1) (G2 := G2) (Mimc.shape_key cs xl xr) (Mimc.shape_key cs yl yr) t t' ht ht' ?_
  · rwa [← hq, hm] at this
  intro hv
  refine hne ?_
  cases ht.unique (Mimc.proverTrace_demo cs h xl xr)
  cases ht'.unique (Mimc.proverTrace_demo cs h yl yr)
  obtain ⟨c0, c1, cs, rfl⟩ : ∃ c0 c1 l, cs = c0 :: c1 :: l := by
    rcases cs with _ | ⟨c0, _ | ⟨c1, l⟩⟩
    · simp at h
    · simp at h
    · exact ⟨c0, c1, l, rfl⟩
  obtain ⟨q0, q1⟩ := mimc_left c0 c1 cs _ _ hs hs' rfl rfl hv
  rw [e0, e0'] at q0
  rw [e1, e1'] at q1
  rw [q0, q1]

open UnitTests in
/-- C76, in the setup of the unit test `test_xordemo` and for this very `tau`: whoever knows `s` alone reads both secret bits off the second element
of the proof. -/
theorem C76_xor (w : Worker) : ∃ params : Parameters DummyFr DummyFr,
    generateParameters w ((XorDemo.mk none none).synthesize (F := DummyFr)) (1 : DummyFr) (1 : DummyFr) 48577 22580 53332 5481 3673 = Res.ok params ∧
    (∀ (w' : Worker) (a b : Bool) (r s : DummyFr), ∃ pf, createProof w' ((XorDemo.mk (some a) (some b)).synthesize (F := DummyFr)) params r s = Res.ok pf) ∧
    ∀ (w' w'' : Worker) (a b a' b' : Bool) (r r' s : DummyFr) (pf pf' : Proof DummyFr DummyFr),
      createProof w' ((XorDemo.mk (some a) (some b)).synthesize (F := DummyFr)) params r s = Res.ok pf →
      createProof w'' ((XorDemo.mk (some a') (some b')).synthesize (F := DummyFr)) params r' s = Res.ok pf' →
      (pf.b = pf'.b ↔ a = a' ∧ b = b') := by
  obtain ⟨-, ⟨v0, v1, v2, v3⟩, -⟩ := xq_values
  refine ⟨_, xq_generate w, fun w' a b r s => ?_, ?_⟩
  · have hq : Qap.ofTrace (xorTrace (F := DummyFr) (some (bit a)) (some (bit b)) (some (bit (a ^^ b)))) = xq := rfl
    exact (C31_outcome w' (xor_shape (F := DummyFr) none none (some a) (some b)) (1 : DummyFr) (1 : DummyFr) 48577 22580 53332 5481 3673
      r s _ _ xor_key (xor_prover a b) (show 1 + 1 < 2 ^ 32 by norm_num) (show 2 < 2 ^ 32 by norm_num)
      (by rw [hq, xor_m]; norm_num)).2
      ⟨by rw [hq]; exact xq_ready _ _, by rw [hq, xor_rows]; decide, by rw [hq, xor_rows, clog_five]; exact .inl (by norm_num)⟩
  · intro w' w'' a b a' b' r r' s pf pf' hp hp'
    obtain ⟨-, -, -, e1, -, e2, -⟩ := two_proofs (xor_shape none none (some a) (some b)) (xor_shape none none (some a') (some b')) (xq_generate w) hp hp'
      (xor_prover a b) (xor_prover a' b')
    have hB : ∀ c d : Bool, ((Qap.ofTrace (xorTrace (F := DummyFr) (some (bit a)) (some (bit b)) (some (bit (a ^^ b))))).B
        (witness (xorTrace (some (bit c)) (some (bit d)) (some (bit (c ^^ d)))))).eval 3673 = bit c * 60619 + bit d * 30791 := by
      intro c d
      show (xq.B (witness (xorTrace (some (bit c)) (some (bit d)) (some (bit (c ^^ d)))))).eval 3673 = _
      rw [Qap.B_eval_sum]
      show (∑ i ∈ Finset.range 2, _ * (xq.v (.input i)).eval 3673) + ∑ i ∈ Finset.range 2, _ * (xq.v (.aux i)).eval 3673 = _
      simp only [Finset.sum_range_succ, Finset.sum_range_zero, v0, v1, v2, v3, mul_zero, zero_add]
      rfl
    rw [e1, e2, hB, hB, smul_eq_mul, smul_eq_mul, mul_one, mul_one]
    rw [add_left_inj, add_right_inj]
    revert a b a' b'
    intro a b a' b' _ _ _ _ _
    cases a <;> cases b <;> cases a' <;> cases b' <;> simp only [bit] <;> decide +kernel

/-- The hypotheses of `C76_other_first`, `C76_other_second` and `C76_guess` for two witnesses of the same statement of `XorDemo`. -/
example : leftValues (UnitTests.xorTrace (F := F) (some 1) (some 0) (some 1)) ≠ leftValues (UnitTests.xorTrace (some 0) (some 1) (some 1)) ∧
    rightValues (UnitTests.xorTrace (F := F) (some 1) (some 0) (some 1)) ≠ rightValues (UnitTests.xorTrace (some 0) (some 1) (some 1)) ∧
    inVals (UnitTests.xorTrace (F := F) (some 1) (some 0) (some 1)) = inVals (UnitTests.xorTrace (F := F) (some 0) (some 1) (some 1)) := by
  refine ⟨?_, ?_, rfl⟩
  · simp [leftValues, UnitTests.xorTrace, witness, assign, LC.eval, auxVals, inVals, Var.one]
  · simp [rightValues, UnitTests.xorTrace, witness, assign, LC.eval, auxVals, inVals]

/-- A circuit in which two witnesses of the same statement give all factors the same values: two summands of a public sum. -/
def sumDemo (x y : Option F) : Synth F Unit := do
  let a ← Synth.alloc "x" (Synth.optGet x)
  let b ← Synth.alloc "y" (Synth.optGet y)
  let c ← Synth.allocInput "sum" (Synth.optGet (x.bind fun x => y.map fun y => x + y))
  Synth.enforce "sum" (fun lc => lc + a.1 + b.1) (fun lc => lc + Var.one) (fun lc => lc + c.1)

/-- The calls it makes. -/
def sumTrace (x y : Option F) : List (Ev F) :=
  [.alloc false "x" (.aux 0) x, .alloc false "y" (.aux 1) y, .alloc true "sum" (.input 1) (x.bind fun x => y.map fun y => x + y),
   .enforce "sum" ⟨[(.aux 0, 1), (.aux 1, 1)]⟩ ⟨[(.one, 1)]⟩ ⟨[(.input 1, 1)]⟩]

theorem sum_prover (x y : F) : ProverTrace (sumDemo (some x) (some y)) (sumTrace (some x) (some y)) where
  exec := .allocRun _ _ rfl (.allocRun _ _ rfl (.allocRun _ _ rfl (.enforce (.ret _))))
  numbered := ⟨rfl, rfl, rfl, trivial⟩

/-- The hypotheses of `C76_same_first`, `C76_same_second` and `C76_same_proof` for two different witnesses. -/
example : SShape (fun _ _ : Unit => True) (sumDemo (F := F) none none) (sumDemo (some 2) (some 3)) ∧
    SShape (fun _ _ : Unit => True) (sumDemo (F := F) none none) (sumDemo (some 3) (some 2)) ∧
    leftValues (sumTrace (some (2 : F)) (some 3)) = leftValues (sumTrace (some 3) (some 2)) ∧
    rightValues (sumTrace (some (2 : F)) (some 3)) = rightValues (sumTrace (some 3) (some 2)) ∧
    inVals (sumTrace (some (2 : F)) (some 3)) = inVals (sumTrace (some 3) (some 2)) := by
  have hs : ∀ x y : Option F, SShape (fun _ _ : Unit => True) (sumDemo (F := F) none none) (sumDemo x y) := fun x y =>
    SShape.bind (SShape.alloc _) fun a a' ha => SShape.bind (SShape.alloc _) fun b b' hb => SShape.bind (SShape.allocInput _) fun c c' hc =>
      SShape.enforce _ (by rw [ha, hb]) rfl (by rw [hc])
  refine ⟨hs _ _, hs _ _, ?_, ?_, ?_⟩
  · simp [leftValues, sumTrace, witness, assign, LC.eval, auxVals, inVals, add_comm]
  · simp [rightValues, sumTrace, witness, assign, LC.eval, auxVals, inVals, Var.one]
  · simp [sumTrace, inVals, add_comm]

end Bellman
