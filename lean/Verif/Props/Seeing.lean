import Verif.Proofs.Seeing
import Verif.Props.Adaptive

/-!
# C75: seeing proofs of other statements does not help
-/

namespace Bellman

open Polynomial PrimeField Finset

set_option linter.unusedSectionVars false

variable {F G1 G2 GT : Type} [PrimeField F] [AddCommGroup G1] [AddCommGroup G2] [AddCommGroup GT]
  [Module F G1] [Module F G2] [Module F GT] [DecidableEq GT] [DecidableEq G1] [DecidableEq G2] {n : ℕ}

/-- `Σ xᵢ fᵢ` over the public inputs, the constant one included. -/
noncomputable def Qap.pubPoly (q : Qap F) (f : Var → F[X]) (xs : List F) : F[X] := ∑ i ∈ range q.n, C (((1 : F) :: xs).getD i 0) * f (.input i)

/-- The combination of the public inputs at the trapdoors. -/
noncomputable def Qap.pubAt (q : Qap F) (α β τ : F) (xs : List F) : F :=
  β * (q.pubPoly q.u xs).eval τ + α * (q.pubPoly q.v xs).eval τ + (q.pubPoly q.w xs).eval τ

theorem Qap.ic_sum (q : Qap F) (g1 : G1) (g2 : G2) (α β γ δ τ : F) (xs : List F) :
    ∑ i ∈ range (q.crs g1 g2 α β γ δ τ).vk.ic.length, ((1 : F) :: xs).getD i 0 • (q.crs g1 g2 α β γ δ τ).vk.ic.getD i 0 =
      (q.pubAt α β τ xs / γ) • g1 := by
  have hic : ∑ i ∈ range (q.crs g1 g2 α β γ δ τ).vk.ic.length, ((1 : F) :: xs).getD i 0 • (q.crs g1 g2 α β γ δ τ).vk.ic.getD i 0 =
      linSum (fun i => ((1 : F) :: xs).getD i 0) ((List.range q.n).map fun i => (q.comb α β τ (.input i) / γ) • g1) := rfl
  rw [hic, linSum_range, comb_sum]
  rfl

/-- Acceptance of the proof of a strategy that has seen simulated proofs is an equation between discrete logarithms. -/
theorem accepts_seeing (q : Qap F) (E : Engine F G1 G2 GT) (σ : SeeingStrategy F n) {g1 : G1} {g2 : G2} {α β γ δ τ : F} (hg1 : g1 ≠ 0)
    (hg2 : g2 ≠ 0) (hγ : γ ≠ 0) (hδ : δ ≠ 0) (hτ : q.Generic τ) (seen : Fin n → List F) (y : Fin n → F × F) (xs : List F)
    (h : Accepts E (q.crs g1 g2 α β γ δ τ).vk (σ.proof g1 g2 (q.crs g1 g2 α β γ δ τ)
      fun k => simulateProof g1 g2 α β γ δ (q.crs g1 g2 α β γ δ τ).vk (seen k) (y k)) xs) :
    seeingEq ((σ.base.a.lin q).val (RingHom.id F) (evalRingHom τ) α β γ δ / (γ * δ))
      (σ.base.b.beta * β + (C σ.base.b.gen + polySum σ.base.b.b q.v q.bVars).eval τ + σ.base.b.gamma * γ + σ.base.b.delta * δ)
      ((σ.base.c.lin q).val (RingHom.id F) (evalRingHom τ) α β γ δ / (γ * δ)) (α * β + q.pubAt α β τ xs) δ
      (fun k => α * β + q.pubAt α β τ (seen k)) σ.aa σ.ac σ.bb σ.ca σ.cc (fun k => (y k).1) (fun k => (y k).2) = 0 := by
  unfold Accepts SeeingStrategy.proof simulateProof at h
  simp only [Coeffs1.apply_eq q _ g2 hg1 hγ hδ hτ, Coeffs2.apply_eq q _ g1 hg2 hτ, Qap.ic_sum] at h
  have hc : ∀ k, ((y k).1 * (y k).2 - α * β) / δ - γ / δ * (q.pubAt α β τ (seen k) / γ) =
      ((y k).1 * (y k).2 - (α * β + q.pubAt α β τ (seen k))) / δ := fun k => by field_simp; ring
  simp only [← mul_smul, ← sub_smul, hc, ← add_smul, ← sum_smul] at h
  simp only [Qap.crs, map_smul, LinearMap.smul_apply, ← mul_smul, ← add_smul] at h
  rw [← sub_eq_zero, ← sub_smul, smul_eq_zero] at h
  have hne : E.pairing g1 g2 ≠ 0 := fun h0 => (E.nondegenerate _ _ h0).elim hg1 hg2
  have h := h.resolve_right hne
  unfold seeingEq
  have e : q.pubAt α β τ xs / γ * γ = q.pubAt α β τ xs := div_mul_cancel₀ _ hγ
  linear_combination h + e

/-- Either the strategy's coefficients are a witness, or few trapdoors satisfy its verification equation. -/
theorem strategy_count {t : List (Ev F)} (hs : (Qap.ofTrace t).InScope) (hsm : (Qap.ofTrace t).rows.length ≤ 2 ^ (S F - 1)) (xs : List F) (σ : Strategy F) :
    Sat (σ.extract xs) t ∨
    ({x : F × F × F × F × F | knowledgeEq (RingHom.id F) (evalRingHom x.2.2.2.2) x.1 x.2.1 x.2.2.1 x.2.2.2.1
      (σ.a.lin (Qap.ofTrace t)) (σ.c.lin (Qap.ofTrace t)) σ.b.beta σ.b.gamma σ.b.delta
      (C σ.b.gen + polySum σ.b.b (Qap.ofTrace t).v (Qap.ofTrace t).bVars)
      ((Qap.ofTrace t).pubPoly (Qap.ofTrace t).u xs) ((Qap.ofTrace t).pubPoly (Qap.ofTrace t).v xs)
      ((Qap.ofTrace t).pubPoly (Qap.ofTrace t).w xs) = 0} : Set _).ncard ≤ (3 * (Qap.ofTrace t).m + 1) * p F ^ 4 := by
  have := PrimeField.finite (F := F)
  have hg := Qap.ofTrace_good t hsm
  rw [← satBy_of_sat]
  generalize Qap.ofTrace t = q at *
  have hm : 0 < q.m := by rw [hg.m]; positivity
  have hu : ∀ x, (q.u x).natDegree ≤ q.m - 1 := fun x => Qap.natDegree_interp hg _
  have hv : ∀ x, (q.v x).natDegree ≤ q.m - 1 := fun x => Qap.natDegree_interp hg _
  have hw : ∀ x, (q.w x).natDegree ≤ q.m - 1 := fun x => Qap.natDegree_interp hg _
  rcases knowledge_count (σ.a.lin q) (σ.c.lin q) σ.b.beta σ.b.gamma σ.b.delta (C σ.b.gen + polySum σ.b.b q.v q.bVars)
    (q.pubPoly q.u xs) (q.pubPoly q.v xs) (q.pubPoly q.w xs) q.m hm (σ.a.lin_small hg) (σ.c.lin_small hg)
    (natDegree_add_le_of_degree_le (by simp) (polySum_degree hv)) (natDegree_comb_le fun i => hu _)
    (natDegree_comb_le fun i => hv _) (natDegree_comb_le fun i => hw _) with hid | hcount
  · left
    rw [Qap.satBy_iff hg hs]
    intro j hj
    have hA : q.A (σ.extract xs) * q.B (σ.extract xs) - q.Cc (σ.extract xs) =
        (∑ i ∈ range (q.m - 1), C (σ.c.h i) * X ^ i) * q.Z := by
      unfold Coeffs1.lin Qap.pubPoly at hid
      simp only at hid
      unfold Qap.A Qap.B Qap.Cc
      simp only [show ∀ i, σ.extract xs (.aux i) = σ.c.l i from fun i => rfl, show ∀ i, σ.extract xs (.input i) = ((1 : F) :: xs).getD i 0 from fun i => rfl]
      linear_combination hid
    rw [hA, eval_mul, Qap.Z, eval_sub, eval_pow, eval_X, eval_one, ← pow_mul, mul_comm j, pow_mul, hg.m, hg.prim.pow_eq_one,
      one_pow, sub_self, mul_zero]
  · right
    rw [← PrimeField.card_eq (F := F)]
    refine le_trans (le_of_eq ?_) hcount
    exact ncard_tuple fun a b c d e => knowledgeEq (RingHom.id F) (evalRingHom e) a b c d (σ.a.lin q) (σ.c.lin q) σ.b.beta σ.b.gamma σ.b.delta
      (C σ.b.gen + polySum σ.b.b q.v q.bVars) (q.pubPoly q.u xs) (q.pubPoly q.v xs) (q.pubPoly q.w xs) = 0

/-- Public inputs of the right number are determined by their combination with the auxiliary variables. -/
theorem pubPoly_injective {t : List (Ev F)} (hsm : (Qap.ofTrace t).rows.length ≤ 2 ^ (S F - 1)) (xs ys : List F) (hx : xs.length = numIn t)
    (hy : ys.length = numIn t) (l : ℕ → F)
    (h : (Qap.ofTrace t).pubPoly (Qap.ofTrace t).u xs - (Qap.ofTrace t).pubPoly (Qap.ofTrace t).u ys +
      ∑ i ∈ range (Qap.ofTrace t).k, C (l i) * (Qap.ofTrace t).u (.aux i) = 0) : xs = ys := by
  have hn : (Qap.ofTrace t).n = numIn t + 1 := rfl
  have := Qap.inputs_independent hsm (fun i => ((1 : F) :: xs).getD i 0 - ((1 : F) :: ys).getD i 0) l (by
    rw [← h]
    unfold Qap.pubPoly
    rw [← sum_sub_distrib]
    congr 1
    exact sum_congr rfl fun i _ => by rw [map_sub]; ring)
  refine List.ext_getElem (hx.trans hy.symm) fun i h1 h2 => ?_
  have h3 := this (i + 1) (by rw [hn]; omega)
  simp only [List.getD_cons_succ] at h3
  rw [List.getD_eq_getElem _ _ h1, List.getD_eq_getElem _ _ h2] at h3
  exact sub_eq_zero.1 h3

/-- C75: fix a circuit, the public inputs of `n` statements, those of another statement, and an algebraic strategy, i.e. the coefficients with
which the three proof elements are combined from the elements of the parameters and of proofs of the `n` statements.  Either the coefficients are a
witness for the new statement, or the proof is rejected for all but a fraction `(D + 3) / |F|` of the trapdoors and the randomness of the proofs
seen; here these are simulated, so that the statements seen need not even be true. -/
theorem C75_simulated (E : Engine F G1 G2 GT) (w : Worker) {kc : Synth F Unit} {t : List (Ev F)} (ht : KeyTrace kc t) (g1 : G1) (g2 : G2) (hg1 : g1 ≠ 0)
    (hg2 : g2 ≠ 0) (seen : Fin n → List F) (hl : ∀ k, (seen k).length = numIn t) (xs : List F) (hne : ∀ k, xs ≠ seen k) (σ : SeeingStrategy F n) :
    Sat (σ.extract xs) t ∨
    ({x : (F × F × F × F × F) × (Fin n → F × F) | ∃ params : Parameters G1 G2,
        generateParameters w kc g1 g2 x.1.1 x.1.2.1 x.1.2.2.1 x.1.2.2.2.1 x.1.2.2.2.2 = Res.ok params ∧
        verifyProof E (prepareVerifyingKey E params.vk) (σ.proof g1 g2 params fun k =>
          simulateProof g1 g2 x.1.1 x.1.2.1 x.1.2.2.1 x.1.2.2.2.1 params.vk (seen k) (x.2 k)) xs = some (.ok ())} : Set _).ncard ≤
      (3 * (Qap.ofTrace t).m + 4 + 2 * (numIn t + 1 + numAux t) * ((Qap.ofTrace t).m - 1)) * p F ^ (2 * n + 4) := by
  have := PrimeField.finite (F := F)
  have hcard : Nat.card F = p F := PrimeField.card_eq
  by_cases hx : xs.length = numIn t
  swap
  · right
    refine le_trans (le_of_eq ?_) (Nat.zero_le _)
    rw [Set.ncard_eq_zero (Set.toFinite _), Set.eq_empty_iff_forall_notMem]
    rintro x ⟨params, hk, hv⟩
    obtain ⟨t', ht', _, rfl, _⟩ := C29_crs w kc g1 g2 _ _ _ _ _ params hk
    cases ht'.unique ht
    have := ((verifyProof_ok E _ _ _).1 hv).1
    rw [show ∀ a b c d e : F, ((Qap.ofTrace t).crs g1 g2 a b c d e).vk.ic.length = numIn t + 1 from fun a b c d e => by
      simp [Qap.crs]; rfl] at this
    omega
  by_cases hsm : (Qap.ofTrace t).rows.length ≤ 2 ^ (S F - 1)
  swap
  · right
    refine le_trans (le_of_eq ?_) (Nat.zero_le _)
    rw [Set.ncard_eq_zero (Set.toFinite _), Set.eq_empty_iff_forall_notMem]
    rintro x ⟨params, hk, _⟩
    obtain ⟨t', ht', _, _, _, _, _, hsm'⟩ := C29_crs w kc g1 g2 _ _ _ _ _ params hk
    rw [ht'.unique ht] at hsm'
    exact hsm hsm'
  have hg := Qap.ofTrace_good t hsm
  have hsc : (Qap.ofTrace t).InScope := ht.qapScope
  have hnk : (Qap.ofTrace t).n + (Qap.ofTrace t).k = numIn t + 1 + numAux t := rfl
  have hinj := fun k => mt (pubPoly_injective hsm xs (seen k) hx (hl k) σ.base.c.l) (hne k)
  have hcount := strategy_count hsc hsm xs σ.base
  have hkey : ∀ (a b c d e : F) (params : Parameters G1 G2), generateParameters w kc g1 g2 a b c d e = Res.ok params →
      params = (Qap.ofTrace t).crs g1 g2 a b c d e ∧ c ≠ 0 ∧ d ≠ 0 := by
    intro a b c d e params hk
    obtain ⟨t', ht', _, hp, hγ, hδ, _, _⟩ := C29_crs w kc g1 g2 _ _ _ _ _ params hk
    cases ht'.unique ht
    exact ⟨hp, hγ, hδ⟩
  refine hcount.imp id fun hcount => ?_
  rw [← hnk]
  generalize Qap.ofTrace t = q at *
  have hm : 0 < q.m := by rw [hg.m]; positivity
  have hu : ∀ x, (q.u x).natDegree ≤ q.m - 1 := fun x => Qap.natDegree_interp hg _
  have hv : ∀ x, (q.v x).natDegree ≤ q.m - 1 := fun x => Qap.natDegree_interp hg _
  have hw : ∀ x, (q.w x).natDegree ≤ q.m - 1 := fun x => Qap.natDegree_interp hg _
  have hsubd : ∀ (f : Var → F[X]) (ys : List F) (κ : F), (∀ x, (f x).natDegree ≤ q.m - 1) →
      (q.pubPoly f xs - C κ * q.pubPoly f ys).natDegree ≤ q.m - 1 := fun f ys κ hf =>
    (natDegree_sub_le_of_le (natDegree_comb_le fun i => hf _) ((natDegree_C_mul_le _ _).trans (natDegree_comb_le fun i => hf _))).trans
      (max_self _).le
  -- trapdoors for which all randomness satisfies the equation
  obtain ⟨S2, hS2, hsub⟩ : ∃ S2 : Set (F × F × F × F × F), S2.ncard ≤ (3 * q.m + 1) * p F ^ 4 ∧ ∀ α β γ δ τ : F, γ ≠ 0 → δ ≠ 0 →
      (∀ μ ν, seeingEq ((σ.base.a.lin q).val (RingHom.id F) (evalRingHom τ) α β γ δ / (γ * δ))
      (σ.base.b.beta * β + (C σ.base.b.gen + polySum σ.base.b.b q.v q.bVars).eval τ + σ.base.b.gamma * γ + σ.base.b.delta * δ)
      ((σ.base.c.lin q).val (RingHom.id F) (evalRingHom τ) α β γ δ / (γ * δ)) (α * β + q.pubAt α β τ xs) δ
      (fun k => α * β + q.pubAt α β τ (seen k)) σ.aa σ.ac σ.bb σ.ca σ.cc μ ν = 0) → (α, β, γ, δ, τ) ∈ S2 := by
    have h2 : (2 : F) ≠ 0 := PrimeField.two_ne_zero'
    by_cases hb : ∃ j, σ.bb j ≠ 0
    · obtain ⟨j, hj⟩ := hb
      have hc := replay_count (σ.cc j) (σ.base.c.lin q) (q.pubPoly q.u xs - C (σ.cc j) * q.pubPoly q.u (seen j))
        (q.pubPoly q.v xs - C (σ.cc j) * q.pubPoly q.v (seen j)) (q.pubPoly q.w xs - C (σ.cc j) * q.pubPoly q.w (seen j)) q.m hm
        (σ.base.c.lin_small hg)
        (hsubd _ _ _ hu)
        (hsubd _ _ _ hv)
        (hsubd _ _ _ hw)
        (fun h1 h0 => hinj j (by rw [h1, map_one, one_mul] at h0; exact h0))
      refine ⟨{x | replayEq (RingHom.id F) (evalRingHom x.2.2.2.2) x.1 x.2.1 x.2.2.1 x.2.2.2.1 (σ.cc j) (σ.base.c.lin q)
        (q.pubPoly q.u xs - C (σ.cc j) * q.pubPoly q.u (seen j)) (q.pubPoly q.v xs - C (σ.cc j) * q.pubPoly q.v (seen j))
        (q.pubPoly q.w xs - C (σ.cc j) * q.pubPoly q.w (seen j)) = 0}, ?_, fun α β γ δ τ hγ hδ h => ?_⟩
      · rw [← hcard]
        refine le_trans (le_of_eq ?_) hc
        exact ncard_tuple fun a b c d e => replayEq (RingHom.id F) (evalRingHom e) a b c d (σ.cc j) (σ.base.c.lin q)
          (q.pubPoly q.u xs - C (σ.cc j) * q.pubPoly q.u (seen j)) (q.pubPoly q.v xs - C (σ.cc j) * q.pubPoly q.v (seen j))
          (q.pubPoly q.w xs - C (σ.cc j) * q.pubPoly q.w (seen j)) = 0
      · have h1 := (seeingEq_zero h2 hδ h).1 j hj
        show replayEq _ _ _ _ _ _ _ _ _ _ _ = 0
        unfold replayEq
        generalize (σ.base.c.lin q).val (RingHom.id F) (evalRingHom τ) α β γ δ = cv at *
        simp only [RingHom.id_apply, coe_evalRingHom, eval_sub, eval_mul, eval_C]
        unfold Qap.pubAt at h1
        have e : γ * (δ * (cv / (γ * δ))) = cv := by field_simp
        linear_combination γ * h1 - e
    · refine ⟨_, hcount, fun α β γ δ τ hγ hδ h => ?_⟩
      have h1 := (seeingEq_zero h2 hδ h).2 (by simpa using hb)
      show knowledgeEq _ _ _ _ _ _ _ _ _ _ _ _ _ _ _ = 0
      unfold knowledgeEq
      generalize (σ.base.c.lin q).val (RingHom.id F) (evalRingHom τ) α β γ δ = cv at *
      generalize (σ.base.a.lin q).val (RingHom.id F) (evalRingHom τ) α β γ δ = av at *
      simp only [RingHom.id_apply, coe_evalRingHom]
      unfold Qap.pubAt at h1
      field_simp at h1
      linear_combination h1
  obtain ⟨bad, hbad, hgen⟩ := q.exists_generic hg
  set S1 : Set (F × F × F × F × F) := {x | x.2.2.2.2 ∈ bad} with hS1
  have h1 : S1.ncard ≤ (2 * (q.n + q.k) * (q.m - 1)) * p F ^ 4 := by
    rw [ncard_last, hcard]; exact Nat.mul_le_mul_right _ hbad
  have hpos : 0 < p F := prime.pos
  have hfib := ncard_pairs_le {x : (F × F × F × F × F) × (Fin n → F × F) | ∃ params : Parameters G1 G2,
        generateParameters w kc g1 g2 x.1.1 x.1.2.1 x.1.2.2.1 x.1.2.2.2.1 x.1.2.2.2.2 = Res.ok params ∧
        verifyProof E (prepareVerifyingKey E params.vk) (σ.proof g1 g2 params fun k =>
          simulateProof g1 g2 x.1.1 x.1.2.1 x.1.2.2.1 x.1.2.2.2.1 params.vk (seen k) (x.2 k)) xs = some (.ok ())} (S1 ∪ S2) (p F)
    (3 * p F ^ (2 * n)) (by
      rintro ⟨α, β, γ, δ, τ⟩ hx
      simp only [Set.mem_union, not_or] at hx
      by_cases hγ : γ = 0 ∨ δ = 0
      · refine le_trans (le_of_eq ?_) (Nat.zero_le _)
        rw [Nat.mul_eq_zero]
        left
        rw [Set.ncard_eq_zero (Set.toFinite _), Set.eq_empty_iff_forall_notMem]
        rintro y ⟨params, hk, _⟩
        obtain ⟨_, h1, h2⟩ := hkey _ _ _ _ _ _ hk
        exact hγ.elim h1 h2
      push Not at hγ
      rcases seeing_blinding ((σ.base.a.lin q).val (RingHom.id F) (evalRingHom τ) α β γ δ / (γ * δ))
        (σ.base.b.beta * β + (C σ.base.b.gen + polySum σ.base.b.b q.v q.bVars).eval τ + σ.base.b.gamma * γ + σ.base.b.delta * δ)
        ((σ.base.c.lin q).val (RingHom.id F) (evalRingHom τ) α β γ δ / (γ * δ)) (α * β + q.pubAt α β τ xs) δ
        (fun k => α * β + q.pubAt α β τ (seen k)) σ.aa σ.ac σ.bb σ.ca σ.cc with hfew | hall
      · rw [hcard] at hfew
        refine le_trans (Nat.mul_le_mul_right _ (Set.ncard_le_ncard ?_ (Set.toFinite _))) hfew
        rintro y ⟨params, hk, hver⟩
        obtain ⟨rfl, _, _⟩ := hkey _ _ _ _ _ _ hk
        exact accepts_seeing q E σ hg1 hg2 hγ.1 hγ.2 (hgen τ hx.1) seen y xs ((verifyProof_ok E _ _ _).1 hver).2
      · exact absurd (hsub _ _ _ _ _ hγ.1 hγ.2 hall) hx.2)
  have hY : Nat.card (Fin n → F × F) = p F ^ (2 * n) := by
    rw [Nat.card_fun, Nat.card_prod, hcard, Nat.card_eq_fintype_card, Fintype.card_fin, ← pow_two, ← pow_mul]
  have hX : Nat.card (F × F × F × F × F) = p F ^ 5 := by
    simp only [Nat.card_prod, hcard]; ring
  rw [hY, hX] at hfib
  have hU : (S1 ∪ S2).ncard ≤ (3 * q.m + 1 + 2 * (q.n + q.k) * (q.m - 1)) * p F ^ 4 := by
    refine (Set.ncard_union_le _ _).trans ?_
    rw [add_mul, add_comm]
    exact add_le_add hS2 h1
  refine Nat.le_of_mul_le_mul_right (hfib.trans ?_) hpos
  calc (S1 ∪ S2).ncard * p F ^ (2 * n) * p F + p F ^ 5 * (3 * p F ^ (2 * n))
      ≤ (3 * q.m + 1 + 2 * (q.n + q.k) * (q.m - 1)) * p F ^ 4 * p F ^ (2 * n) * p F + p F ^ 5 * (3 * p F ^ (2 * n)) :=
        Nat.add_le_add_right (Nat.mul_le_mul_right _ (Nat.mul_le_mul_right _ hU)) _
    _ = _ := by ring

/-- C75: the proofs seen are made by `create_proof` from witnesses of their statements, with blinding factors unknown to the prover.  Whoever turns
them into a proof of another statement has a witness of it in their coefficients, except for a fraction `(D + 3) / |F|` of the trapdoors and
blinding factors. -/
theorem C75_knowledge (E : Engine F G1 G2 GT) (w w' : Worker) {kc : Synth F Unit} {t : List (Ev F)} (ht : KeyTrace kc t) (g1 : G1) (g2 : G2)
    (hg1 : g1 ≠ 0) (hg2 : g2 ≠ 0) (pc : Fin n → Synth F Unit) (hsh : ∀ k, ∃ R, SShape R kc (pc k)) (ts : Fin n → List (Ev F))
    (hts : ∀ k, ProverTrace (pc k) (ts k)) (hsat : ∀ k, Sat (witness (ts k)) (ts k)) (xs : List F) (hne : ∀ k, xs ≠ inVals (ts k))
    (σ : SeeingStrategy F n) :
    Sat (σ.extract xs) t ∨
    ({x : (F × F × F × F × F) × (Fin n → F × F) | ∃ (params : Parameters G1 G2) (seen : Fin n → Proof G1 G2),
        generateParameters w kc g1 g2 x.1.1 x.1.2.1 x.1.2.2.1 x.1.2.2.2.1 x.1.2.2.2.2 = Res.ok params ∧
        (∀ k, createProof w' (pc k) params (x.2 k).1 (x.2 k).2 = Res.ok (seen k)) ∧
        verifyProof E (prepareVerifyingKey E params.vk) (σ.proof g1 g2 params seen) xs = some (.ok ())} : Set _).ncard ≤
      (3 * (Qap.ofTrace t).m + 4 + 2 * (numIn t + 1 + numAux t) * ((Qap.ofTrace t).m - 1)) * p F ^ (2 * n + 4) := by
  have := PrimeField.finite (F := F)
  have hlen : ∀ k, (inVals (ts k)).length = numIn t := by
    intro k
    obtain ⟨R, hR⟩ := hsh k
    have := ofTrace_same (pair_traces hR ht (hts k))
    have h1 : numIn t + 1 = numIn (ts k) + 1 := congrArg Qap.n this
    rw [(hts k).inputs_len]; omega
  refine (C75_simulated E w ht g1 g2 hg1 hg2 (fun k => inVals (ts k)) hlen xs hne σ).imp id fun h => ?_
  have hex : ∀ (x : F × F × F × F × F) (k : Fin n), ∃ e : F × F ≃ F × F, ∀ (params : Parameters G1 G2),
      generateParameters w kc g1 g2 x.1 x.2.1 x.2.2.1 x.2.2.2.1 x.2.2.2.2 = Res.ok params → ∀ r pf, createProof w' (pc k) params r.1 r.2 = Res.ok pf →
        pf = simulateProof g1 g2 x.1 x.2.1 x.2.2.1 x.2.2.2.1 params.vk (inVals (ts k)) (e r) := by
    intro x k
    obtain ⟨R, hR⟩ := hsh k
    by_cases hk : ∃ params : Parameters G1 G2, generateParameters w kc g1 g2 x.1 x.2.1 x.2.2.1 x.2.2.2.1 x.2.2.2.2 = Res.ok params ∧
        ∃ r s pf, createProof w' (pc k) params r s = Res.ok pf
    · obtain ⟨params, hk, hok⟩ := hk
      obtain ⟨e, he⟩ := C65_simulator E w w' hR g1 g2 _ _ _ _ _ params hk (ts k) (hts k) (hsat k) hok
      refine ⟨e, fun params' hk' r pf hp => ?_⟩
      cases Res.ok_inj.1 (hk.symm.trans hk')
      exact Res.ok_inj.1 (hp.symm.trans (he r))
    · exact ⟨Equiv.refl _, fun params hk' r pf hp => absurd ⟨params, hk', _, _, _, hp⟩ hk⟩
  choose e he using hex
  refine le_trans (Set.ncard_le_ncard_of_injOn (fun x => (x.1, fun k => e x.1 k (x.2 k))) ?_ ?_ (Set.toFinite _)) h
  · rintro x ⟨params, seen, hk, hp, hv⟩
    refine ⟨params, hk, ?_⟩
    rw [show seen = _ from funext fun k => he x.1 k params hk (x.2 k) (seen k) (hp k)] at hv
    exact hv
  · rintro ⟨x, y⟩ _ ⟨x', y'⟩ _ hxy
    obtain ⟨rfl, h2⟩ := Prod.mk.inj hxy
    exact Prod.ext rfl (funext fun k => (e x k).injective (congrFun h2 k))

/-- C75: if the new statement has no witness at all, seeing proofs of others does not help to prove it. -/
theorem C75_no_witness (E : Engine F G1 G2 GT) (w w' : Worker) {kc : Synth F Unit} {t : List (Ev F)} (ht : KeyTrace kc t) (g1 : G1) (g2 : G2)
    (hg1 : g1 ≠ 0) (hg2 : g2 ≠ 0) (pc : Fin n → Synth F Unit) (hsh : ∀ k, ∃ R, SShape R kc (pc k)) (ts : Fin n → List (Ev F))
    (hts : ∀ k, ProverTrace (pc k) (ts k)) (hsat : ∀ k, Sat (witness (ts k)) (ts k)) (xs : List F)
    (hno : ∀ z : Var → F, (∀ i, z (.input i) = ((1 : F) :: xs).getD i 0) → ¬ Sat z t) (σ : SeeingStrategy F n) :
    ({x : (F × F × F × F × F) × (Fin n → F × F) | ∃ (params : Parameters G1 G2) (seen : Fin n → Proof G1 G2),
        generateParameters w kc g1 g2 x.1.1 x.1.2.1 x.1.2.2.1 x.1.2.2.2.1 x.1.2.2.2.2 = Res.ok params ∧
        (∀ k, createProof w' (pc k) params (x.2 k).1 (x.2 k).2 = Res.ok (seen k)) ∧
        verifyProof E (prepareVerifyingKey E params.vk) (σ.proof g1 g2 params seen) xs = some (.ok ())} : Set _).ncard ≤
      (3 * (Qap.ofTrace t).m + 4 + 2 * (numIn t + 1 + numAux t) * ((Qap.ofTrace t).m - 1)) * p F ^ (2 * n + 4) := by
  refine (C75_knowledge E w w' ht g1 g2 hg1 hg2 pc hsh ts hts hsat xs (fun k hk => ?_) σ).resolve_left (hno _ fun _ => rfl)
  obtain ⟨R, hR⟩ := hsh k
  refine hno (witness (ts k)) (fun i => by rw [hk]; cases i <;> rfl) ?_
  have hq := ofTrace_same (pair_traces hR ht (hts k))
  rw [← satBy_of_sat, hq, satBy_of_sat]
  exact hsat k

/-- C75: for a statement that was proved to them, provers without a witness succeed: they copy the proof. -/
theorem C75_copy : ∃ σ : SeeingStrategy F 1, (∀ xs i, σ.extract xs (.aux i) = 0) ∧
    ∀ (g1 : G1) (g2 : G2) (params : Parameters G1 G2) (pf : Proof G1 G2), σ.proof g1 g2 params (fun _ => pf) = pf := by
  refine ⟨⟨⟨⟨0, 0, 0, 0, fun _ => 0, fun _ => 0, fun _ => 0, fun _ => 0, fun _ => 0⟩, ⟨0, 0, 0, 0, fun _ => 0⟩,
    ⟨0, 0, 0, 0, fun _ => 0, fun _ => 0, fun _ => 0, fun _ => 0, fun _ => 0⟩⟩, fun _ => 1, fun _ => 0, fun _ => 1, fun _ => 0, fun _ => 1⟩,
    fun _ _ => rfl, fun g1 g2 params pf => ?_⟩
  simp [SeeingStrategy.proof, Coeffs1.apply, Coeffs2.apply, linSum]

/-- C75 for MiMC: having seen proofs of knowledge of preimages of any number of images, whoever makes one for another image has a preimage of it
in their coefficients, except for a fraction `1326838 / |F|` of the trapdoors and blinding factors. -/
theorem C75_mimc (E : Engine F G1 G2 GT) (cs : List F) (h : cs.length = 322) (w w' : Worker) (g1 : G1) (g2 : G2) (hg1 : g1 ≠ 0) (hg2 : g2 ≠ 0)
    (preimage : Fin n → F × F) (image : F) (hne : ∀ k, Spec.mimc cs (preimage k).1 (preimage k).2 ≠ image) (σ : SeeingStrategy F n) :
    Spec.mimc cs (σ.extract [image] (.aux 0)) (σ.extract [image] (.aux 1)) = image ∨
    ({x : (F × F × F × F × F) × (Fin n → F × F) | ∃ (params : Parameters G1 G2) (seen : Fin n → Proof G1 G2),
        generateParameters w (Mimc.Demo.mk none none cs).synthesize g1 g2 x.1.1 x.1.2.1 x.1.2.2.1 x.1.2.2.2.1 x.1.2.2.2.2 = Res.ok params ∧
        (∀ k, createProof w' (Mimc.Demo.mk (some (preimage k).1) (some (preimage k).2) cs).synthesize params (x.2 k).1 (x.2 k).2 =
          Res.ok (seen k)) ∧
        verifyProof E (prepareVerifyingKey E params.vk) (σ.proof g1 g2 params seen) [image] = some (.ok ())} : Set _).ncard ≤
      1326838 * p F ^ (2 * n + 4) := by
  obtain ⟨t, ht, hu, c1, c2, c3, hm⟩ := C48_key cs h
  choose ts hts hsat hin _ using fun k => C48_complete cs h (preimage k).1 (preimage k).2
  have := C75_knowledge E w w' ht g1 g2 hg1 hg2 (fun k => (Mimc.Demo.mk (some (preimage k).1) (some (preimage k).2) cs).synthesize)
    (fun k => ⟨_, Mimc.shape_key cs _ _⟩) ts hts hsat [image] (fun k hk => hne k (by rw [hin] at hk; simpa using hk.symm)) σ
  rw [hm, c1, c2] at this
  exact this.imp (fun hs => (C48_sound cs h ht _ rfl hs).symm) id

/-! ### Concrete cases -/

/-- `squareCircuit`: having seen proofs that 25 and 36 are squares, nobody can prove that 5 is one, except for a fraction `34 / 64513` of the
trapdoors and blinding factors. -/
example (w w' : Worker) (σ : SeeingStrategy DummyFr 2) :
    ({x : (DummyFr × DummyFr × DummyFr × DummyFr × DummyFr) × (Fin 2 → DummyFr × DummyFr) |
        ∃ (params : Parameters DummyFr DummyFr) (seen : Fin 2 → Proof DummyFr DummyFr),
        generateParameters w (squareCircuit none) 1 1 x.1.1 x.1.2.1 x.1.2.2.1 x.1.2.2.2.1 x.1.2.2.2.2 = Res.ok params ∧
        (∀ k, createProof w' ((![claimCircuit (some 5) (some 25), claimCircuit (some 6) (some 36)] : Fin 2 → Synth DummyFr Unit) k) params
          (x.2 k).1 (x.2 k).2 = Res.ok (seen k)) ∧
        verifyProof (fieldEngine DummyFr) (prepareVerifyingKey (fieldEngine DummyFr) params.vk) (σ.proof 1 1 params seen) [5] =
          some (.ok ())} : Set _).ncard ≤ 34 * 64513 ^ 8 := by
  have h := C75_no_witness (fieldEngine DummyFr) w w' squareTrace_key 1 1 one_ne_zero one_ne_zero
    ![claimCircuit (some 5) (some 25), claimCircuit (some 6) (some 36)]
    (Fin.forall_fin_two.2 ⟨⟨_, claimCircuit_shape none (some 5) (some 25)⟩, ⟨_, claimCircuit_shape none (some 6) (some 36)⟩⟩)
    ![claimTrace 5 25, claimTrace 6 36] (Fin.forall_fin_two.2 ⟨claimTrace_prover 5 25, claimTrace_prover 6 36⟩)
    (Fin.forall_fin_two.2 ⟨(claimTrace_sat 5 25).2 (by decide), (claimTrace_sat 6 36).2 (by decide)⟩) [5] (fun z hz hsat => ?_) σ
  · rw [show (Qap.ofTrace squareTrace).m = 4 from square_good.m] at h
    exact h
  · have h1 := ((Sat_iff_consOf _ _).1 hsat) (⟨[(.aux 0, 1)]⟩, ⟨[(.aux 0, 1), (.input 1, 0)]⟩, ⟨[(.input 1, 1)]⟩) (by
      simp [squareTrace, consOf])
    simp [LC.eval, hz] at h1
    exact gen_not_square _ h1

/-- The set in question is not empty in general: the copied proof is accepted for the statement it was made for, though 0 is not a root of 25. -/
example (w w' : Worker) : ∃ (params : Parameters DummyFr DummyFr) (pf : Proof DummyFr DummyFr) (σ : SeeingStrategy DummyFr 1),
    generateParameters w (squareCircuit none) 1 1 2 5 7 11 3 = Res.ok params ∧
    createProof w' (claimCircuit (some 5) (some 25)) params 1 2 = Res.ok pf ∧
    verifyProof (fieldEngine DummyFr) (prepareVerifyingKey (fieldEngine DummyFr) params.vk) (σ.proof 1 1 params fun _ => pf) [25] = some (.ok ()) ∧
    ¬ Sat (σ.extract [25]) squareTrace := by
  obtain ⟨params, pf, hk, hp⟩ := claim_proof w w' 5 25 1 2
  obtain ⟨σ, h0, hσ⟩ := C75_copy (F := DummyFr) (G1 := DummyFr) (G2 := DummyFr)
  refine ⟨params, pf, σ, hk, hp, ?_, fun hsat => ?_⟩
  · rw [hσ]
    exact C30_completeness (fieldEngine DummyFr) w w' (claimCircuit_shape none (some 5) (some 25)) _ _ _ _ _ _ _ 1 2
      params pf hk hp _ (claimTrace_prover 5 25) ((claimTrace_sat 5 25).2 (by decide))
  · have h1 := ((Sat_iff_consOf _ _).1 hsat) (⟨[(.aux 0, 1)]⟩, ⟨[(.aux 0, 1), (.input 1, 0)]⟩, ⟨[(.input 1, 1)]⟩) (by
      simp [squareTrace, consOf])
    simp [LC.eval, h0, show σ.extract [25] (.input 1) = 25 from rfl] at h1
    revert h1
    decide

/-- The hypotheses of `C75_simulated` hold for a simulated proof of the false statement that 5 is a square, and the true one that 25 is. -/
example (w : Worker) (σ : SeeingStrategy DummyFr 1) :=
  C75_simulated (fieldEngine DummyFr) w squareTrace_key 1 1 one_ne_zero one_ne_zero (fun _ : Fin 1 => [5]) (fun _ => rfl) [25] (by decide) σ

/-- Those of `C75_mimc` for the scalars of BLS12-381, 322 different constants, and any two different images. -/
example : ∃ image, counting.length = 322 ∧ ∀ k : Fin 2, Spec.mimc counting ((![(1, 2), (3, 4)] : Fin 2 → BlsScalar × BlsScalar) k).1
    ((![(1, 2), (3, 4)] : Fin 2 → BlsScalar × BlsScalar) k).2 ≠ image := by
  have := PrimeField.finite (F := BlsScalar)
  have h3 : ∃ image : BlsScalar, image ∉ ({Spec.mimc counting 1 2, Spec.mimc counting 3 4} : Finset BlsScalar) := by
    by_contra hc
    push Not at hc
    have h1 := Finset.card_le_two (a := Spec.mimc counting (1 : BlsScalar) 2) (b := Spec.mimc counting 3 4)
    have := Fintype.ofFinite BlsScalar
    have h2 : Finset.univ ⊆ ({Spec.mimc counting 1 2, Spec.mimc counting 3 4} : Finset BlsScalar) := fun x _ => hc x
    have h4 := Finset.card_le_card h2
    rw [Finset.card_univ, ← Nat.card_eq_fintype_card, PrimeField.card_eq] at h4
    have := two_lt_p (F := BlsScalar)
    omega
  obtain ⟨image, hi⟩ := h3
  simp only [Finset.mem_insert, Finset.mem_singleton, not_or] at hi
  exact ⟨image, by rw [counting, List.length_map, List.length_range], Fin.forall_fin_two.2 ⟨fun h => hi.1 h.symm, fun h => hi.2 h.symm⟩⟩

end Bellman
