import Verif.Spec.Agm
import Verif.Props.BatchKnowledge

/-!
# C64: provers who see the parameters before they choose
-/

set_option linter.unusedSectionVars false

namespace Bellman

open Polynomial PrimeField Finset

variable {F : Type} [PrimeField F] {G1 G2 GT : Type} [AddCommGroup G1] [AddCommGroup G2] [AddCommGroup GT] [Module F G1] [Module F G2]
  [Module F GT] [DecidableEq G1] [DecidableEq G2] [DecidableEq GT]

/-- C64: for a circuit, public inputs and coefficients that are not made from a witness there is a non-zero polynomial of degree at most `D`,
known to whoever knows the circuit, the inputs and the coefficients, that vanishes at the trapdoors of all parameters for which the verifier
accepts the proof.  Nothing is assumed about how inputs and coefficients were found. -/
theorem C64_betrays {kc : Synth F Unit} {t : List (Ev F)} (ht : KeyTrace kc t) (xs : List F) (σ : Strategy F) (hno : ¬ Sat (σ.extract xs) t) :
    ∃ P : MvPolynomial (Fin 5) F, P ≠ 0 ∧
      P.totalDegree ≤ 3 * (Qap.ofTrace t).m + 1 + 2 * (numIn t + 1 + numAux t) * ((Qap.ofTrace t).m - 1) ∧
      ∀ (G1 G2 GT : Type) [AddCommGroup G1] [AddCommGroup G2] [AddCommGroup GT] [Module F G1] [Module F G2] [Module F GT] [DecidableEq G1]
        [DecidableEq G2] [DecidableEq GT] (E : Engine F G1 G2 GT) (w : Worker) (g1 : G1) (g2 : G2) (x : Fin 5 → F) (params : Parameters G1 G2),
        g1 ≠ 0 → g2 ≠ 0 → generateParameters w kc g1 g2 (x 0) (x 1) (x 2) (x 3) (x 4) = Res.ok params →
        verifyProof E (prepareVerifyingKey E params.vk) (σ.proof g1 g2 params) xs = some (.ok ()) → MvPolynomial.eval x P = 0 := by
  by_cases hsm : (Qap.ofTrace t).rows.length ≤ 2 ^ (S F - 1)
  swap
  · refine ⟨1, one_ne_zero, by rw [MvPolynomial.totalDegree_one]; exact Nat.zero_le _, ?_⟩
    intro G1 G2 GT _ _ _ _ _ _ _ _ _ E w g1 g2 x params _ _ hk _
    obtain ⟨t', ht', _, _, _, _, _, hsm'⟩ := C29_crs w kc g1 g2 _ _ _ _ _ params hk
    rw [ht'.unique ht] at hsm'
    exact absurd hsm' hsm
  have hg := Qap.ofTrace_good t hsm
  refine ⟨σ.refutation (Qap.ofTrace t) xs, Strategy.refutation_ne_zero hg ht.qapScope σ xs hno, Strategy.refutation_degree hg σ xs, ?_⟩
  intro G1 G2 GT _ _ _ _ _ _ _ _ _ E w g1 g2 x params hg1 hg2 hk hver
  obtain ⟨t', ht', _, rfl, hγ, hδ, _, _⟩ := C29_crs w kc g1 g2 _ _ _ _ _ params hk
  cases ht'.unique ht
  exact Strategy.refutation_zero _ E σ x hg1 hg2 hγ hδ xs ((verifyProof_ok E _ _ _).1 hver).2

theorem powerSum_pow {G : Type} [AddCommGroup G] [Module F G] (z : F) (g : G) (f : F[X]) : powerSum (fun i => z ^ i • g) f = f.eval z • g := by
  unfold powerSum
  rw [eval_eq_sum_range, sum_smul]
  exact sum_congr rfl fun i _ => by rw [mul_smul]

/-- The simulated parameters are those of trapdoors on the line. -/
theorem Qap.simulate_eq (q : Qap F) (h1 : G1) (h2 : G2) (z : F) (a b x : Fin 5 → F) (hx : ∀ i, x i = a i * z + b i) (hγ : x 2 ≠ 0)
    (hδ : x 3 ≠ 0) :
    q.simulate (fun i => z ^ i • h1) (fun i => z ^ i • h2) a b = q.crs ((x 2 * x 3) • h1) h2 (x 0) (x 1) (x 2) (x 3) (x 4) := by
  have hl : ∀ i, (C (a i) * X + C (b i)).eval z = x i := fun i => by simp [hx]
  unfold Qap.simulate Qap.crs Qap.comb
  simp only [powerSum_pow, eval_mul, eval_add, eval_pow, eval_comp, hl, ← mul_smul]
  congr 1
  · congr 1
    refine List.map_congr_left fun i _ => ?_
    congr 1
    field_simp
  · refine List.map_congr_left fun i _ => ?_
    congr 1
    field_simp
  · refine List.map_congr_left fun i _ => ?_
    congr 1
    field_simp

/-- C64: a prover who sees the parameters and makes accepted proofs without a witness betrays discrete logarithms.  The reduction makes
parameters from the powers of an unknown `z`, with random `a`, `b` and `c`, runs the prover once and lists at most `D` candidates
(`C64_candidates`); `z` is among them with the probability that the prover succeeds on honestly generated parameters (trapdoors and first
generator drawn at random), up to `(D + 1) / |F|`. -/
theorem C64_reduction [DecidableEq F] (E : Engine F G1 G2 GT) {kc : Synth F Unit} {t : List (Ev F)} (ht : KeyTrace kc t) (w : Worker)
    (prover : AdaptiveProver F G1 G2) (h1 : G1) (h2 : G2) (hh1 : h1 ≠ 0) (hh2 : h2 ≠ 0) (z : F) :
    p F ^ 5 * ({x : (Fin 5 → F) × F | ∃ params, generateParameters w kc (x.2 • h1) h2 (x.1 0) (x.1 1) (x.1 2) (x.1 3) (x.1 4) = Res.ok params ∧
        let out := prover (x.2 • h1) h2 params
        verifyProof E (prepareVerifyingKey E params.vk) (out.2.proof (x.2 • h1) h2 params) out.1 = some (.ok ()) ∧
        ¬ Sat (out.2.extract out.1) t} : Set _).ncard ≤
      ({y : (Fin 5 → F) × (Fin 5 → F) × F |
        z ∈ (Qap.ofTrace t).candidates prover (fun i => z ^ i • y.2.2 • h1) (fun i => z ^ i • h2) y.1 y.2.1} : Set _).ncard +
      (3 * (Qap.ofTrace t).m + 1 + 2 * (numIn t + 1 + numAux t) * ((Qap.ofTrace t).m - 1) + 1) * p F ^ 10 := by
  classical
  have := PrimeField.finite (F := F)
  set q := Qap.ofTrace t with hq
  set D := 3 * q.m + 1 + 2 * (numIn t + 1 + numAux t) * (q.m - 1) with hD
  by_cases hsm : q.rows.length ≤ 2 ^ (S F - 1)
  swap
  · refine le_trans (le_of_eq ?_) (Nat.zero_le _)
    rw [Nat.mul_eq_zero]
    right
    rw [Set.ncard_eq_zero (Set.toFinite _), Set.eq_empty_iff_forall_notMem]
    rintro x ⟨params, hk, _⟩
    obtain ⟨t', ht', _, _, _, _, _, hsm'⟩ := C29_crs w kc _ _ _ _ _ _ _ params hk
    rw [ht'.unique ht] at hsm'
    exact hsm hsm'
  have hg := Qap.ofTrace_good t hsm
  have hcard5 : Nat.card (Fin 5 → F) = p F ^ 5 := by rw [Nat.card_fun, PrimeField.card_eq, Nat.card_fin]
  -- the polynomial the prover betrays on the parameters for `x`
  let P : (Fin 5 → F) × F → MvPolynomial (Fin 5) F := fun x =>
    let out := prover (x.2 • h1) h2 (q.crs (x.2 • h1) h2 (x.1 0) (x.1 1) (x.1 2) (x.1 3) (x.1 4))
    out.2.refutation q out.1
  have hdeg : ∀ x, (P x).totalDegree ≤ D := fun x => Strategy.refutation_degree hg _ _
  let W : Set ((Fin 5 → F) × F) := {x | x.2 ≠ 0 ∧ x.1 2 ≠ 0 ∧ x.1 3 ≠ 0 ∧ P x ≠ 0 ∧ MvPolynomial.eval x.1 (P x) = 0}
  let N : Set ((Fin 5 → F) × F) := {x | x.2 = 0}
  have hN : N.ncard = p F ^ 5 := by
    have : N = (Set.univ : Set (Fin 5 → F)) ×ˢ ({0} : Set F) := by ext ⟨a, b⟩; simp [N]
    rw [this, Set.ncard_prod, Set.ncard_univ, Set.ncard_singleton, hcard5, mul_one]
  refine le_trans (Nat.mul_le_mul_left _ ((Set.ncard_le_ncard (t := W ∪ N) ?_ (Set.toFinite _)).trans (Set.ncard_union_le _ _))) ?_
  · rintro x ⟨params, hk, hver, hno⟩
    by_cases hx : x.2 = 0
    · exact .inr hx
    left
    obtain ⟨t', ht', _, rfl, hγ, hδ, hl, _⟩ := C29_crs w kc _ _ _ _ _ _ _ params hk
    cases ht'.unique ht
    exact ⟨hx, hγ, hδ, Strategy.refutation_ne_zero hg ht.qapScope _ _ hno,
      Strategy.refutation_zero _ E _ x.1 (smul_ne_zero hx hh1) hh2 hγ hδ _ ((verifyProof_ok E _ _ _).1 hver).2⟩
  -- directions for which the whole line consists of zeros
  let S2 : Set (((Fin 5 → F) × F) × (Fin 5 → F)) := {y | y.1 ∈ W ∧ onLine (P y.1) y.2 (fun i => y.1.1 i - y.2 i * z) = 0}
  have hS2 : S2.ncard ≤ p F ^ 6 * (D * p F ^ 4) := by
    have := ncard_pairs (fun (x : (Fin 5 → F) × F) (a : Fin 5 → F) => x ∈ W ∧ onLine (P x) a (fun i => x.1 i - a i * z) = 0) (D * p F ^ 4) fun x => by
      by_cases hx : x ∈ W
      · refine le_trans (le_of_eq ?_) (onLine_count hx.2.2.2.1 (hdeg x) x.1 z)
        rw [← Nat.card_coe_set_eq]
        exact Nat.card_congr (Equiv.subtypeEquivRight fun a => ⟨fun h => h.2, fun h => ⟨hx, h⟩⟩)
      · have : IsEmpty {a : Fin 5 → F // x ∈ W ∧ onLine (P x) a (fun i => x.1 i - a i * z) = 0} := ⟨fun a => hx a.2.1⟩
        rw [Nat.card_of_isEmpty]
        exact Nat.zero_le _
    rwa [Nat.card_prod, hcard5, PrimeField.card_eq, ← pow_succ] at this
  let S1 : Set (((Fin 5 → F) × F) × (Fin 5 → F)) := {y | y.1 ∈ W ∧ onLine (P y.1) y.2 (fun i => y.1.1 i - y.2 i * z) ≠ 0}
  have hS1 : S1.ncard ≤ ({y : (Fin 5 → F) × (Fin 5 → F) × F |
        z ∈ q.candidates prover (fun i => z ^ i • y.2.2 • h1) (fun i => z ^ i • h2) y.1 y.2.1} : Set _).ncard := by
    refine Set.ncard_le_ncard_of_injOn (fun y => (y.2, (fun i => y.1.1 i - y.2 i * z), y.1.2 / (y.1.1 2 * y.1.1 3))) ?_ ?_ (Set.toFinite _)
    · rintro ⟨⟨x, c⟩, a⟩ ⟨⟨hc, hγ, hδ, hP, hz⟩, hline⟩
      simp only at hc hγ hδ hline
      show z ∈ q.candidates prover (fun i => z ^ i • (c / (x 2 * x 3)) • h1) (fun i => z ^ i • h2) a (fun i => x i - a i * z)
      unfold Qap.candidates
      have hx : ∀ i, x i = a i * z + (x i - a i * z) := fun i => by ring
      have hg1 : (x 2 * x 3) • (c / (x 2 * x 3)) • h1 = c • h1 := by
        rw [← mul_smul]; congr 1; field_simp
      rw [Qap.simulate_eq q ((c / (x 2 * x 3)) • h1) h2 z a _ x hx hγ hδ, hg1, powerSum_pow]
      simp only [pow_zero, one_smul]
      have he : ((C (a 2) * X + C (x 2 - a 2 * z)) * (C (a 3) * X + C (x 3 - a 3 * z))).eval z = x 2 * x 3 := by
        simp only [eval_mul, eval_add, eval_C, eval_X]
        rw [← hx, ← hx]
      rw [he, hg1, Multiset.mem_toFinset, mem_roots hline]
      show (onLine (P (x, c)) a _).eval z = 0
      rw [onLine_eval]
      refine Eq.trans ?_ hz
      congr 2
      funext i
      exact (hx i).symm
    · rintro ⟨⟨x, c⟩, a⟩ ⟨⟨hc, hγ, hδ, _⟩, _⟩ ⟨⟨x', c'⟩, a'⟩ ⟨⟨hc', hγ', hδ', _⟩, _⟩ h
      simp only [Prod.mk.injEq] at h hγ hδ hγ' hδ'
      obtain ⟨rfl, hx, hcc⟩ := h
      have hx : x = x' := funext fun i => by
        have := congrFun hx i
        simpa using this
      subst hx
      have : c = c' := by
        rw [div_left_inj' (mul_ne_zero hγ hδ)] at hcc
        exact hcc
      rw [this]
  have hsplit : p F ^ 5 * W.ncard ≤ S1.ncard + S2.ncard := by
    rw [← hcard5, mul_comm, ← ncard_left (β := Fin 5 → F) W]
    refine (Set.ncard_le_ncard (t := S1 ∪ S2) ?_ (Set.toFinite _)).trans (Set.ncard_union_le _ _)
    intro y hy
    by_cases h0 : onLine (P y.1) y.2 (fun i => y.1.1 i - y.2 i * z) = 0
    · exact .inr ⟨hy, h0⟩
    · exact .inl ⟨hy, h0⟩
  rw [hN, Nat.mul_add]
  have e1 : p F ^ 6 * (D * p F ^ 4) = D * p F ^ 10 := by ring
  have e2 : p F ^ 5 * p F ^ 5 = p F ^ 10 := by ring
  rw [e1] at hS2
  rw [e2, Nat.add_mul, Nat.one_mul]
  omega

/-- C64: the reduction lists at most `D` candidates. -/
theorem C64_candidates [DecidableEq F] {t : List (Ev F)} (hsm : (Qap.ofTrace t).rows.length ≤ 2 ^ (S F - 1))
    (prover : AdaptiveProver F G1 G2) (powers1 : ℕ → G1) (powers2 : ℕ → G2) (a b : Fin 5 → F) :
    ((Qap.ofTrace t).candidates prover powers1 powers2 a b).card ≤
      3 * (Qap.ofTrace t).m + 1 + 2 * (numIn t + 1 + numAux t) * ((Qap.ofTrace t).m - 1) :=
  (Multiset.toFinset_card_le _).trans ((card_roots' _).trans ((onLine_degree _ _ _).trans
    (Strategy.refutation_degree (Qap.ofTrace_good t hsm) _ _)))

theorem powerSum_congr {G : Type} [AddCommGroup G] [Module F G] {c c' : ℕ → G} {N : ℕ} (h : ∀ i ≤ N, c i = c' i) {f : F[X]} (hf : f.natDegree ≤ N) :
    powerSum c f = powerSum c' f :=
  sum_congr rfl fun i hi => by rw [h i (by have := mem_range.1 hi; omega)]

/-- C64: the reduction uses the powers of `z` up to `2m + 1` in the first and up to `m` in the second group, `m` being the size of the
evaluation domain. -/
theorem C64_powers [DecidableEq F] {t : List (Ev F)} (hsm : (Qap.ofTrace t).rows.length ≤ 2 ^ (S F - 1))
    (prover : AdaptiveProver F G1 G2) (c1 c1' : ℕ → G1) (c2 c2' : ℕ → G2) (a b : Fin 5 → F)
    (h1 : ∀ i ≤ 2 * (Qap.ofTrace t).m + 1, c1 i = c1' i) (h2 : ∀ i ≤ (Qap.ofTrace t).m, c2 i = c2' i) :
    (Qap.ofTrace t).candidates prover c1 c2 a b = (Qap.ofTrace t).candidates prover c1' c2' a b := by
  set q := Qap.ofTrace t with hq
  have hg : q.Good _ := Qap.ofTrace_good t hsm
  have hm : 0 < q.m := by rw [hg.m]; positivity
  have hl : ∀ i, (C (a i) * X + C (b i)).natDegree ≤ 1 := fun i => natDegree_linear_le
  have hgd : ((C (a 2) * X + C (b 2)) * (C (a 3) * X + C (b 3))).natDegree ≤ 2 := natDegree_mul_le.trans (add_le_add (hl _) (hl _))
  have hcomp : ∀ f : F[X], f.natDegree ≤ q.m - 1 → (f.comp (C (a 4) * X + C (b 4))).natDegree ≤ q.m - 1 := fun f hf =>
    natDegree_comp_le.trans ((Nat.mul_le_mul hf (hl 4)).trans (by omega))
  have hu : ∀ x, ((q.u x).comp (C (a 4) * X + C (b 4))).natDegree ≤ q.m - 1 := fun x => hcomp _ (Qap.natDegree_interp hg _)
  have hv : ∀ x, ((q.v x).comp (C (a 4) * X + C (b 4))).natDegree ≤ q.m - 1 := fun x => hcomp _ (Qap.natDegree_interp hg _)
  have hw : ∀ x, ((q.w x).comp (C (a 4) * X + C (b 4))).natDegree ≤ q.m - 1 := fun x => hcomp _ (Qap.natDegree_interp hg _)
  have hcb : ∀ x i, (((C (a 1) * X + C (b 1)) * (q.u x).comp (C (a 4) * X + C (b 4)) + (C (a 0) * X + C (b 0)) * (q.v x).comp (C (a 4) * X + C (b 4)) +
      (q.w x).comp (C (a 4) * X + C (b 4))) * (C (a i) * X + C (b i))).natDegree ≤ 2 * q.m + 1 := by
    intro x i
    refine natDegree_mul_le.trans ((add_le_add (natDegree_add_le_of_degree_le (natDegree_add_le_of_degree_le (n := q.m)
      (natDegree_mul_le.trans ((add_le_add (hl 1) (hu x)).trans (by omega)))
      (natDegree_mul_le.trans ((add_le_add (hl 0) (hv x)).trans (by omega)))) ((hw x).trans (by omega))) (hl i)).trans (by omega))
  have hZ : (q.Z.comp (C (a 4) * X + C (b 4))).natDegree ≤ q.m :=
    natDegree_comp_le.trans ((Nat.mul_le_mul (show q.Z.natDegree ≤ q.m from natDegree_X_pow_sub_C.le) (hl 4)).trans (by omega))
  have e1 : ∀ f : F[X], f.natDegree ≤ 2 * q.m + 1 → powerSum c1 f = powerSum c1' f := fun f => powerSum_congr h1
  have e2 : ∀ f : F[X], f.natDegree ≤ q.m → powerSum c2 f = powerSum c2' f := fun f => powerSum_congr h2
  have hsim : q.simulate c1 c2 a b = q.simulate c1' c2' a b := by
    unfold Qap.simulate
    have s1 : ∀ i, powerSum c1 ((C (a i) * X + C (b i)) * ((C (a 2) * X + C (b 2)) * (C (a 3) * X + C (b 3)))) =
        powerSum c1' ((C (a i) * X + C (b i)) * ((C (a 2) * X + C (b 2)) * (C (a 3) * X + C (b 3)))) := fun i =>
      e1 _ (natDegree_mul_le.trans ((add_le_add (hl i) hgd).trans (by omega)))
    have s2 : ∀ i, powerSum c2 (C (a i) * X + C (b i)) = powerSum c2' (C (a i) * X + C (b i)) := fun i => e2 _ ((hl i).trans hm)
    simp only [s1, s2]
    congr 1
    · congr 1
      exact List.map_congr_left fun i _ => e1 _ (hcb _ _)
    · refine List.map_congr_left fun i hi => e1 _ ?_
      have hi := List.mem_range.1 hi
      refine natDegree_mul_le.trans ((add_le_add (natDegree_mul_le.trans (add_le_add natDegree_pow_le hZ)) (hl 2)).trans ?_)
      have := Nat.mul_le_mul_left i (hl 4)
      omega
    · exact List.map_congr_left fun i _ => e1 _ (hcb _ _)
    · congr 1
      exact List.map_congr_left fun x _ => e1 _ (natDegree_mul_le.trans ((add_le_add (hu x) hgd).trans (by omega)))
    · congr 1
      exact List.map_congr_left fun x _ => e1 _ (natDegree_mul_le.trans ((add_le_add (hv x) hgd).trans (by omega)))
    · congr 1
      exact List.map_congr_left fun x _ => e2 _ ((hv x).trans (by omega))
  unfold Qap.candidates
  rw [hsim, e1 _ (hgd.trans (by omega)), h2 0 (Nat.zero_le _)]

/-! ## Batches -/

/-- The batch of the proofs handed in by a batch prover. -/
def AdaptiveBatchProver.batch {n : ℕ} (prover : AdaptiveBatchProver F G1 G2 n) (g1 : G1) (g2 : G2) (params : Parameters G1 G2) :
    BatchVerifier F G1 G2 :=
  queueAll (List.ofFn fun i => ((prover g1 g2 params i).2.proof g1 g2 params, (prover g1 g2 params i).1))

theorem adaptive_batch_count [DecidableEq F] (E : Engine F G1 G2 GT) {kc : Synth F Unit} {t : List (Ev F)} (ht : KeyTrace kc t) (w : Worker)
    {n : ℕ} (prover : AdaptiveBatchProver F G1 G2 n) (h1 : G1) (h2 : G2) (hh1 : h1 ≠ 0) (hh2 : h2 ≠ 0) (z : F) (Z : Type) [Finite Z]
    (acc : Z → VerifyingKey G1 G2 → BatchVerifier F G1 G2 → Prop) (B : ℕ)
    (hlen : ∀ z vk v (it : Item F G1 G2), acc z vk v → it ∈ v.items → it.inputs.length + 1 = vk.ic.length)
    (hB : ∀ vk (v : BatchVerifier F G1 G2) it, v.items.length = n → it ∈ v.items →
      it.verifySingle E (prepareVerifyingKey E vk) = some (.error .invalidProof) → Nat.card {z // acc z vk v} ≤ B) :
    p F ^ 5 * ({x : ((Fin 5 → F) × F) × Z | ∃ params, generateParameters w kc (x.1.2 • h1) h2 (x.1.1 0) (x.1.1 1) (x.1.1 2) (x.1.1 3) (x.1.1 4) =
        Res.ok params ∧ acc x.2 params.vk (prover.batch (x.1.2 • h1) h2 params) ∧
        ∃ i, ¬ Sat ((prover (x.1.2 • h1) h2 params i).2.extract (prover (x.1.2 • h1) h2 params i).1) t} : Set _).ncard ≤
      (({y : (Fin 5 → F) × (Fin 5 → F) × F |
        z ∈ (Qap.ofTrace t).candidates (prover.pick t) (fun i => z ^ i • y.2.2 • h1) (fun i => z ^ i • h2) y.1 y.2.1} : Set _).ncard +
      (3 * (Qap.ofTrace t).m + 1 + 2 * (numIn t + 1 + numAux t) * ((Qap.ofTrace t).m - 1) + 1) * p F ^ 10) * Nat.card Z + p F ^ 11 * B := by
  classical
  have := PrimeField.finite (F := F)
  have hred := C64_reduction E ht w (prover.pick t) h1 h2 hh1 hh2 z
  set W : Set ((Fin 5 → F) × F) := {x | _} with hW
  have hcard : Nat.card ((Fin 5 → F) × F) = p F ^ 6 := by
    rw [Nat.card_prod, Nat.card_fun, PrimeField.card_eq, Nat.card_fin, ← pow_succ]
  have hitems : ∀ g1 (params : Parameters G1 G2), (prover.batch g1 h2 params).items =
      List.ofFn fun i => (⟨(prover g1 h2 params i).2.proof g1 h2 params, (prover g1 h2 params i).1⟩ : Item F G1 G2) := by
    intro g1 params
    unfold AdaptiveBatchProver.batch queueAll
    rw [C35_queue, List.map_ofFn]
    rfl
  -- the proof that is picked belongs to the batch and is not made from a witness
  have hpick : ∀ g1 (params : Parameters G1 G2), (∃ i, ¬ Sat ((prover g1 h2 params i).2.extract (prover g1 h2 params i).1) t) →
      (∃ i, prover.pick t g1 h2 params = prover g1 h2 params i) ∧
      ¬ Sat ((prover.pick t g1 h2 params).2.extract (prover.pick t g1 h2 params).1) t := by
    rintro g1 params ⟨i, hi⟩
    unfold AdaptiveBatchProver.pick
    cases hf : (List.ofFn (prover g1 h2 params)).find? fun x => ¬ Sat (x.2.extract x.1) t with
    | none =>
      rw [List.find?_eq_none] at hf
      exact absurd (by simpa using hf _ ((List.mem_ofFn' _ _).2 ⟨i, rfl⟩)) hi
    | some x =>
      obtain ⟨j, hj⟩ := (List.mem_ofFn' _ _).1 (List.mem_of_find?_eq_some hf)
      exact ⟨⟨j, hj.symm⟩, by simpa using List.find?_some hf⟩
  let R : (Fin 5 → F) × F → Z → Prop := fun x z => ∃ params : Parameters G1 G2,
      generateParameters w kc (x.2 • h1) h2 (x.1 0) (x.1 1) (x.1 2) (x.1 3) (x.1 4) = Res.ok params ∧
      acc z params.vk (prover.batch (x.2 • h1) h2 params) ∧
      (∃ i, ¬ Sat ((prover (x.2 • h1) h2 params i).2.extract (prover (x.2 • h1) h2 params i).1) t) ∧
      verifyProof E (prepareVerifyingKey E params.vk) ((prover.pick t (x.2 • h1) h2 params).2.proof (x.2 • h1) h2 params)
        (prover.pick t (x.2 • h1) h2 params).1 ≠ some (.ok ())
  have hR := ncard_pairs R B fun a => by
    by_cases he : ∃ z, R a z
    · obtain ⟨z0, params, hk, hz0, hns, hv⟩ := he
      obtain ⟨⟨i, hi⟩, -⟩ := hpick (a.2 • h1) params hns
      rw [hi] at hv
      have hmem : (⟨(prover (a.2 • h1) h2 params i).2.proof (a.2 • h1) h2 params, (prover (a.2 • h1) h2 params i).1⟩ : Item F G1 G2) ∈
          (prover.batch (a.2 • h1) h2 params).items := by
        rw [hitems]; exact (List.mem_ofFn' _ _).2 ⟨i, rfl⟩
      refine le_trans (Nat.card_le_card_of_injective (β := {z // acc z params.vk (prover.batch (a.2 • h1) h2 params)})
        (fun z => ⟨z.1, ?_⟩) fun z z' h => Subtype.ext (by simpa using h)) (hB _ _ _ (by rw [hitems, List.length_ofFn]) hmem
          (verifyProof_total E _ _ (hlen _ _ _ _ hz0 hmem) hv))
      obtain ⟨params', hk', ha', -⟩ := z.2
      cases hk.symm.trans hk'
      exact ha'
    · refine le_trans (le_of_eq ?_) (Nat.zero_le B)
      rw [Nat.card_eq_zero]
      exact .inl ⟨fun z => he ⟨z.1, z.2⟩⟩
  rw [hcard] at hR
  have hsplit := (Set.ncard_le_ncard (s := {x : ((Fin 5 → F) × F) × Z | ∃ params, generateParameters w kc (x.1.2 • h1) h2 (x.1.1 0) (x.1.1 1)
        (x.1.1 2) (x.1.1 3) (x.1.1 4) =
        Res.ok params ∧ acc x.2 params.vk (prover.batch (x.1.2 • h1) h2 params) ∧
        ∃ i, ¬ Sat ((prover (x.1.2 • h1) h2 params i).2.extract (prover (x.1.2 • h1) h2 params i).1) t})
      (t := {x | x.1 ∈ W} ∪ {x | R x.1 x.2}) (by
    rintro x ⟨params, hk, ha, hns⟩
    by_cases hv : verifyProof E (prepareVerifyingKey E params.vk) ((prover.pick t (x.1.2 • h1) h2 params).2.proof (x.1.2 • h1) h2 params)
        (prover.pick t (x.1.2 • h1) h2 params).1 = some (.ok ())
    · exact .inl ⟨params, hk, hv, (hpick _ _ hns).2⟩
    · exact .inr ⟨params, hk, ha, hns, hv⟩) (Set.toFinite _)).trans (Set.ncard_union_le _ _)
  rw [ncard_left] at hsplit
  calc _ ≤ p F ^ 5 * (W.ncard * Nat.card Z + p F ^ 6 * B) := Nat.mul_le_mul_left _ (hsplit.trans (Nat.add_le_add_left hR _))
    _ = (p F ^ 5 * W.ncard) * Nat.card Z + p F ^ 11 * B := by ring
    _ ≤ _ := Nat.add_le_add_right (Nat.mul_le_mul_right _ hred) _

/-- C64, batches: provers who see the parameters hand in `n` proofs, then the verifier draws its weights.  If the batch is accepted although
one of the proofs is not made from a witness, the reduction finds `z`, except with probability `(D + 1) / |F| + 1 / (|F| - 1)`. -/
theorem C64_batch [DecidableEq F] (E : Engine F G1 G2 GT) {kc : Synth F Unit} {t : List (Ev F)} (ht : KeyTrace kc t) (w : Worker)
    {n : ℕ} (prover : AdaptiveBatchProver F G1 G2 n) (h1 : G1) (h2 : G2) (hh1 : h1 ≠ 0) (hh2 : h2 ≠ 0) (z : F) :
    p F ^ 5 * ({x : ((Fin 5 → F) × F) × (Fin n → Fˣ) | ∃ params, generateParameters w kc (x.1.2 • h1) h2 (x.1.1 0) (x.1.1 1) (x.1.1 2) (x.1.1 3)
        (x.1.1 4) = Res.ok params ∧
        (prover.batch (x.1.2 • h1) h2 params).verify E (List.ofFn fun i => (x.2 i : F)) params.vk = some (.ok ()) ∧
        ∃ i, ¬ Sat ((prover (x.1.2 • h1) h2 params i).2.extract (prover (x.1.2 • h1) h2 params i).1) t} : Set _).ncard ≤
      (({y : (Fin 5 → F) × (Fin 5 → F) × F |
        z ∈ (Qap.ofTrace t).candidates (prover.pick t) (fun i => z ^ i • y.2.2 • h1) (fun i => z ^ i • h2) y.1 y.2.1} : Set _).ncard +
      (3 * (Qap.ofTrace t).m + 1 + 2 * (numIn t + 1 + numAux t) * ((Qap.ofTrace t).m - 1) + 1) * p F ^ 10) * (p F - 1) ^ n +
        p F ^ 11 * (p F - 1) ^ (n - 1) := by
  have := PrimeField.finite (F := F)
  have hc : Nat.card (Fin n → Fˣ) = (p F - 1) ^ n := by
    rw [Nat.card_fun, card_units, Nat.card_eq_fintype_card, Fintype.card_fin]
  rw [← hc]
  refine adaptive_batch_count E ht w prover h1 h2 hh1 hh2 z (Fin n → Fˣ)
    (fun z vk v => v.verify E (List.ofFn fun i => (z i : F)) vk = some (.ok ())) _ ?_ ?_
  · intro z vk v it ha hit
    by_contra hl
    have := (C36_length E vk v (List.ofFn fun i => (z i : F)) (fun _ => []) .identity it hit hl).1
    rw [ha] at this
    cases this
  · rintro vk v it rfl hit hbad
    exact C36_single_count E vk v it hit hbad

/-- C64, the multicore batch verifier: except with probability `(D + 1) / |F| + 8 / (|F| - 1)`. -/
theorem C64_batch_multicore [DecidableEq F] (E : Engine F G1 G2 GT) {kc : Synth F Unit} {t : List (Ev F)} (ht : KeyTrace kc t) (w : Worker)
    {n : ℕ} (prover : AdaptiveBatchProver F G1 G2 n) (h1 : G1) (h2 : G2) (hh1 : h1 ≠ 0) (hh2 : h2 ≠ 0) (z : F) (tree : ReduceTree)
    (htree : tree.size = (n + 7) / 8) :
    p F ^ 5 * ({x : ((Fin 5 → F) × F) × (Fin ((n + 7) / 8) → Fˣ) | ∃ params, generateParameters w kc (x.1.2 • h1) h2 (x.1.1 0) (x.1.1 1) (x.1.1 2)
        (x.1.1 3) (x.1.1 4) = Res.ok params ∧
        (prover.batch (x.1.2 • h1) h2 params).verifyMulticore E
          (fun i => if h : i < (n + 7) / 8 then [(x.2 ⟨i, h⟩ : F)] else []) tree params.vk = some (.ok ()) ∧
        ∃ i, ¬ Sat ((prover (x.1.2 • h1) h2 params i).2.extract (prover (x.1.2 • h1) h2 params i).1) t} : Set _).ncard ≤
      (({y : (Fin 5 → F) × (Fin 5 → F) × F |
        z ∈ (Qap.ofTrace t).candidates (prover.pick t) (fun i => z ^ i • y.2.2 • h1) (fun i => z ^ i • h2) y.1 y.2.1} : Set _).ncard +
      (3 * (Qap.ofTrace t).m + 1 + 2 * (numIn t + 1 + numAux t) * ((Qap.ofTrace t).m - 1) + 1) * p F ^ 10) * (p F - 1) ^ ((n + 7) / 8) +
        p F ^ 11 * (8 * (p F - 1) ^ ((n + 7) / 8 - 1)) := by
  have := PrimeField.finite (F := F)
  have hc : Nat.card (Fin ((n + 7) / 8) → Fˣ) = (p F - 1) ^ ((n + 7) / 8) := by
    rw [Nat.card_fun, card_units, Nat.card_eq_fintype_card, Fintype.card_fin]
  rw [← hc]
  refine adaptive_batch_count E ht w prover h1 h2 hh1 hh2 z (Fin ((n + 7) / 8) → Fˣ)
    (fun z vk v => v.verifyMulticore E (fun i => if h : i < (n + 7) / 8 then [(z ⟨i, h⟩ : F)] else []) tree vk = some (.ok ())) _ ?_ ?_
  · intro z vk v it ha hit
    by_contra hl
    have := (C36_length E vk v [] (fun i => if h : i < (n + 7) / 8 then [(z ⟨i, h⟩ : F)] else []) tree it hit hl).2
    rw [ha] at this
    cases this
  · rintro vk v it rfl hit hbad
    exact C36_multicore_count E vk v it hit hbad tree htree

/-! ## A prover who takes discrete logarithms -/

/-- In the groups of `fieldEngine` discrete logarithms are easy.  This prover reads `γ / δ` off the parameters and claims whatever it likes. -/
def forger (xs : List F) : AdaptiveProver F F F := fun _ _ params =>
  (xs, ⟨⟨0, 1, 0, 0, 0, 0, 0, 0, 0⟩, ⟨0, 1, 0, 0, 0⟩,
    ⟨0, 0, 0, 0, fun i => -(params.vk.gammaG2 / params.vk.deltaG2) * ((1 : F) :: xs).getD i 0, 0, 0, 0, 0⟩⟩)

theorem forger_accepted (xs : List F) (g1 g2 : F) (params : Parameters F F) (hδ : params.vk.deltaG2 ≠ 0)
    (hl : xs.length + 1 = params.vk.ic.length) :
    verifyProof (fieldEngine F) (prepareVerifyingKey (fieldEngine F) params.vk) ((forger xs g1 g2 params).2.proof g1 g2 params) xs = some (.ok ()) := by
  refine (verifyProof_ok _ _ _ _).2 ⟨hl, ?_⟩
  have h0 : ∀ l : List F, linSum (0 : ℕ → F) l = 0 := fun l => by simp [linSum]
  have hc : linSum (fun i => -(params.vk.gammaG2 / params.vk.deltaG2) * ((1 : F) :: xs).getD i 0) params.vk.ic =
      -(params.vk.gammaG2 / params.vk.deltaG2) * ∑ i ∈ range params.vk.ic.length, ((1 : F) :: xs).getD i 0 • params.vk.ic.getD i 0 := by
    unfold linSum
    rw [mul_sum]
    exact sum_congr rfl fun i _ => by simp only [smul_eq_mul]; ring
  unfold Accepts Strategy.proof forger Coeffs1.apply Coeffs2.apply
  simp only [h0, hc, zero_smul, one_smul, add_zero, zero_add]
  simp only [fieldEngine, LinearMap.mul_apply_apply]
  field_simp
  ring

/-- The forger proves that 5, which is not a square, is one: the case counted by `C64_reduction` occurs. -/
example (w : Worker) : ∃ params, generateParameters w (squareCircuit none) (1 : DummyFr) (1 : DummyFr) 2 5 7 11 3 = Res.ok params ∧
    verifyProof (fieldEngine DummyFr) (prepareVerifyingKey (fieldEngine DummyFr) params.vk)
      ((forger [5] 1 1 params).2.proof 1 1 params) (forger [5] 1 1 params).1 = some (.ok ()) ∧
    ¬ Sat ((forger [5] 1 1 params).2.extract (forger [5] 1 1 params).1) squareTrace := by
  obtain ⟨params, hk, he⟩ := square_generate w
  refine ⟨params, hk, forger_accepted [5] 1 1 params ?_ ?_, fun hsat => ?_⟩
  · rw [he]; decide +kernel
  · rw [he]; simp [Qap.crs, Qap.ofTrace, Qap.ofRows, squareTrace, numIn]
  · have h1 := ((Sat_iff_consOf _ _).1 hsat) (⟨[(.aux 0, 1)]⟩, ⟨[(.aux 0, 1), (.input 1, 0)]⟩, ⟨[(.input 1, 1)]⟩) (by
      simp [squareTrace, consOf])
    simp [LC.eval, Strategy.extract, forger] at h1
    revert h1; decide +kernel

/-- So a polynomial of degree at most 31 vanishes at these trapdoors, and at all others for which the same coefficients are accepted. -/
example (w : Worker) : ∃ P : MvPolynomial (Fin 5) DummyFr, P ≠ 0 ∧ P.totalDegree ≤ 31 ∧ MvPolynomial.eval ![2, 5, 7, 11, 3] P = 0 := by
  obtain ⟨params, hk, he⟩ := square_generate w
  obtain ⟨P, h1, h2, h3⟩ := C64_betrays squareTrace_key [5] (forger [5] 1 1 params).2 (fun hsat => by
    have h1 := ((Sat_iff_consOf _ _).1 hsat) (⟨[(.aux 0, 1)]⟩, ⟨[(.aux 0, 1), (.input 1, 0)]⟩, ⟨[(.input 1, 1)]⟩) (by
      simp [squareTrace, consOf])
    simp [LC.eval, Strategy.extract, forger] at h1
    revert h1; decide +kernel)
  rw [show (Qap.ofTrace squareTrace).m = 4 from square_good.m] at h2
  refine ⟨P, h1, h2, h3 DummyFr DummyFr DummyFr (fieldEngine DummyFr) w 1 1 _ params one_ne_zero one_ne_zero hk (forger_accepted [5] 1 1 params ?_ ?_)⟩
  · rw [he]; decide +kernel
  · rw [he]; simp [Qap.crs, Qap.ofTrace, Qap.ofRows, squareTrace, numIn]

/-- The hypotheses of `C64_candidates` and `C64_powers` hold for the same circuit. -/
example : (Qap.ofTrace squareTrace).rows.length ≤ 2 ^ (S DummyFr - 1) := by rw [squareTrace_rows]; decide

/-- Nine forgeries on several cores: the hypotheses of `C64_batch_multicore` can be met (and those of `C64_reduction` and `C64_batch`). -/
example : KeyTrace (squareCircuit none) squareTrace ∧ (1 : DummyFr) ≠ 0 ∧ (ReduceTree.node .item .item).size = (9 + 7) / 8 ∧
    ∀ params : Parameters DummyFr DummyFr, AdaptiveBatchProver.pick (n := 9) (fun g1 g2 params _ => forger [5] g1 g2 params) squareTrace 1 1 params =
      forger [5] 1 1 params := by
  refine ⟨squareTrace_key, one_ne_zero, rfl, fun params => ?_⟩
  have hns : ¬ Sat ((forger [5] 1 1 params).2.extract (forger [5] 1 1 params).1) squareTrace := fun hsat => by
    have h1 := ((Sat_iff_consOf _ _).1 hsat) (⟨[(.aux 0, 1)]⟩, ⟨[(.aux 0, 1), (.input 1, 0)]⟩, ⟨[(.input 1, 1)]⟩) (by
      simp [squareTrace, consOf])
    simp [LC.eval, Strategy.extract, forger] at h1
    revert h1; decide +kernel
  unfold AdaptiveBatchProver.pick
  simp [hns]

end Bellman
