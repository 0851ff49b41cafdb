import Verif.Proofs.Knowledge
import Mathlib.Data.Set.Card

/-!
# Algebraic knowledge soundness: from the parameters to the polynomial identity
-/

namespace Bellman

open Polynomial PrimeField Finset

set_option linter.unusedSectionVars false

variable {F : Type} [PrimeField F]

/-- `Σ cᵢ f(xᵢ)` over a list of variables. -/
noncomputable def polySum (c : ℕ → F) (f : Var → F[X]) (xs : List Var) : F[X] :=
  ∑ i ∈ range xs.length, C (c i) * ((xs.map f).getD i 0)

theorem polySum_degree {c : ℕ → F} {f : Var → F[X]} {xs : List Var} {n : ℕ} (h : ∀ x, (f x).natDegree ≤ n) :
    (polySum c f xs).natDegree ≤ n := by
  unfold polySum
  refine natDegree_sum_le_of_forall_le _ _ fun i _ => ?_
  refine (natDegree_C_mul_le _ _).trans ?_
  rw [List.getD_eq_getElem?_getD, List.getElem?_map]
  cases xs[i]? <;> simp [h]

theorem linSum_map {G : Type} [AddCommGroup G] [Module F G] (c : ℕ → F) (f : Var → F[X]) (xs : List Var) (τ : F) (g : G) :
    linSum c (xs.map fun x => (f x).eval τ • g) = (polySum c f xs).eval τ • g := by
  unfold linSum polySum
  rw [eval_finsetSum, sum_smul, List.length_map]
  refine sum_congr rfl fun i hi => ?_
  have hi := mem_range.1 hi
  simp [List.getD_eq_getElem?_getD, List.getElem?_map, List.getElem?_eq_getElem hi, mul_smul]

theorem linSum_range {G : Type} [AddCommGroup G] [Module F G] (c : ℕ → F) (f : ℕ → F) (n : ℕ) (g : G) :
    linSum c ((List.range n).map fun i => f i • g) = (∑ i ∈ range n, c i * f i) • g := by
  unfold linSum
  rw [sum_smul, List.length_map, List.length_range]
  refine sum_congr rfl fun i hi => ?_
  have hi := mem_range.1 hi
  simp [List.getD_eq_getElem?_getD, List.getElem?_map, List.getElem?_range hi, mul_smul]

section
variable (q : Qap F)

open Classical in
/-- The variables with an element in the `a` query, for generic `τ`. -/
noncomputable def Qap.aVars : List Var := q.vars.filter fun x => q.u x ≠ 0

open Classical in
/-- The variables with an element in the `b` queries, for generic `τ`. -/
noncomputable def Qap.bVars : List Var := q.vars.filter fun x => q.v x ≠ 0

/-- `τ` is not a root of the polynomial of any variable. -/
def Qap.Generic (τ : F) : Prop := ∀ x ∈ q.vars, (q.u x ≠ 0 → (q.u x).eval τ ≠ 0) ∧ (q.v x ≠ 0 → (q.v x).eval τ ≠ 0)

theorem filter_generic {G : Type} [AddCommGroup G] [Module F G] [DecidableEq G] {f : Var → F[X]} [DecidablePred fun x => f x ≠ 0]
    {xs : List Var} {τ : F} {g : G} (hg : g ≠ 0) (h : ∀ x ∈ xs, f x ≠ 0 → (f x).eval τ ≠ 0) :
    (xs.map fun x => (f x).eval τ • g).filter (· ≠ 0) = (xs.filter fun x => f x ≠ 0).map fun x => (f x).eval τ • g := by
  rw [List.filter_map]
  congr 1
  refine List.filter_congr fun x hx => ?_
  by_cases h0 : f x = 0
  · simp [h0]
  · simp [h0, h x hx h0, hg]

/-- The discrete logarithm of a combination of the parameters' elements. -/
noncomputable def Coeffs1.lin (c : Coeffs1 F) : Lin1 F where
  α := c.alpha
  β := c.beta
  δ := c.delta
  U := C c.gen + polySum c.a q.u q.aVars + polySum c.b q.v q.bVars
  uI := ∑ i ∈ range q.n, C (c.ic i) * q.u (.input i)
  vI := ∑ i ∈ range q.n, C (c.ic i) * q.v (.input i)
  wI := ∑ i ∈ range q.n, C (c.ic i) * q.w (.input i)
  uL := ∑ i ∈ range q.k, C (c.l i) * q.u (.aux i)
  vL := ∑ i ∈ range q.k, C (c.l i) * q.v (.aux i)
  wL := ∑ i ∈ range q.k, C (c.l i) * q.w (.aux i) + (∑ i ∈ range (q.m - 1), C (c.h i) * X ^ i) * q.Z

theorem Qap.natDegree_interp {q : Qap F} {e : ℕ} (hg : q.Good e) (f : ℕ → F) : (q.interp f).natDegree ≤ q.m - 1 := by
  rw [hg.m]; exact natDegree_le_of_degree_lt (Qap.interp_degree hg f)

theorem natDegree_comb_le {n m : ℕ} {c : ℕ → F} {f : ℕ → F[X]} (h : ∀ i, (f i).natDegree ≤ m) :
    (∑ i ∈ range n, C (c i) * f i).natDegree ≤ m :=
  natDegree_sum_le_of_forall_le _ _ fun i _ => (natDegree_C_mul_le _ _).trans (h i)

theorem Coeffs1.lin_small (c : Coeffs1 F) {q : Qap F} {e : ℕ} (hg : q.Good e) : (c.lin q).Small q.m := by
  have hu : ∀ x, (q.u x).natDegree ≤ q.m - 1 := fun x => Qap.natDegree_interp hg _
  have hv : ∀ x, (q.v x).natDegree ≤ q.m - 1 := fun x => Qap.natDegree_interp hg _
  have hw : ∀ x, (q.w x).natDegree ≤ q.m - 1 := fun x => Qap.natDegree_interp hg _
  have hm : 0 < q.m := by rw [hg.m]; positivity
  refine ⟨?_, natDegree_comb_le fun i => hu _, natDegree_comb_le fun i => hv _, natDegree_comb_le fun i => hw _,
    natDegree_comb_le fun i => hu _, natDegree_comb_le fun i => hv _, ?_⟩
  · refine natDegree_add_le_of_degree_le (natDegree_add_le_of_degree_le ?_ (polySum_degree hu)) (polySum_degree hv)
    simp
  · refine natDegree_add_le_of_degree_le ((natDegree_comb_le fun i => hw _).trans (by omega)) ?_
    by_cases hm1 : q.m = 1
    · rw [hm1]; simp
    · have h1 : (∑ i ∈ range (q.m - 1), C (c.h i) * X ^ i : F[X]).natDegree ≤ q.m - 2 :=
        natDegree_sum_le_of_forall_le _ _ fun i hi => (natDegree_C_mul_X_pow_le _ _).trans (by have := mem_range.1 hi; omega)
      have h2 : q.Z.natDegree ≤ q.m := natDegree_X_pow_sub_C.le
      exact natDegree_mul_le.trans (by omega)

variable {G1 G2 : Type} [AddCommGroup G1] [AddCommGroup G2] [Module F G1] [Module F G2] [DecidableEq G1] [DecidableEq G2]

theorem comb_sum (α β τ : F) (c : ℕ → F) (n : ℕ) (x : ℕ → Var) (d : F) :
    ∑ i ∈ range n, c i * (q.comb α β τ (x i) / d) =
      (β * (∑ i ∈ range n, C (c i) * q.u (x i)).eval τ + α * (∑ i ∈ range n, C (c i) * q.v (x i)).eval τ +
        (∑ i ∈ range n, C (c i) * q.w (x i)).eval τ) / d := by
  simp only [eval_finsetSum, eval_mul, eval_C, mul_sum, ← sum_add_distrib, sum_div]
  refine sum_congr rfl fun i _ => ?_
  unfold Qap.comb
  ring

theorem Coeffs1.apply_eq (c : Coeffs1 F) {g1 : G1} (g2 : G2) {α β γ δ τ : F} (hg1 : g1 ≠ 0) (hγ : γ ≠ 0) (hδ : δ ≠ 0) (hτ : q.Generic τ) :
    c.apply g1 (q.crs g1 g2 α β γ δ τ) = ((c.lin q).val (RingHom.id F) (evalRingHom τ) α β γ δ / (γ * δ)) • g1 := by
  classical
  unfold Coeffs1.apply
  simp only [Qap.crs]
  rw [filter_generic hg1 fun x hx => (hτ x hx).1, filter_generic hg1 fun x hx => (hτ x hx).2, linSum_map, linSum_map, linSum_range,
    linSum_range, linSum_range, comb_sum, comb_sum]
  simp only [← mul_smul, ← add_smul]
  congr 1
  unfold Lin1.val Coeffs1.lin
  simp only [RingHom.id_apply, coe_evalRingHom, eval_add, eval_mul, eval_C]
  have hh : ∑ i ∈ range (q.m - 1), c.h i * (τ ^ i * eval τ q.Z / δ) =
      (∑ i ∈ range (q.m - 1), C (c.h i) * X ^ i).eval τ * eval τ q.Z / δ := by
    simp only [eval_finsetSum, eval_mul, eval_C, eval_pow, eval_X, sum_mul, sum_div]
    exact sum_congr rfl fun i _ => by ring
  rw [hh]
  have ha : (q.vars.filter fun x => decide (q.u x ≠ 0)) = q.aVars := by unfold Qap.aVars; congr
  have hb : (q.vars.filter fun x => decide (q.v x ≠ 0)) = q.bVars := by unfold Qap.bVars; congr
  rw [ha, hb]
  field_simp
  ring

theorem Coeffs2.apply_eq (c : Coeffs2 F) (g1 : G1) {g2 : G2} {α β γ δ τ : F} (hg2 : g2 ≠ 0) (hτ : q.Generic τ) :
    c.apply g2 (q.crs g1 g2 α β γ δ τ) =
      (c.beta * β + (C c.gen + polySum c.b q.v q.bVars).eval τ + c.gamma * γ + c.delta * δ) • g2 := by
  classical
  unfold Coeffs2.apply
  simp only [Qap.crs]
  rw [filter_generic hg2 fun x hx => (hτ x hx).2, linSum_map]
  simp only [← mul_smul, ← add_smul]
  have hb : (q.vars.filter fun x => decide (q.v x ≠ 0)) = q.bVars := by unfold Qap.bVars; congr
  rw [hb, eval_add, eval_C]
  congr 1
  ring

variable {GT : Type} [AddCommGroup GT] [Module F GT] [DecidableEq GT]

/-- Acceptance of a strategy's proof is the polynomial equation. -/
theorem accepts_strategy (E : Engine F G1 G2 GT) (σ : Strategy F) {g1 : G1} {g2 : G2} {α β γ δ τ : F} (hg1 : g1 ≠ 0) (hg2 : g2 ≠ 0)
    (hγ : γ ≠ 0) (hδ : δ ≠ 0) (hτ : q.Generic τ) (xs : List F)
    (h : Accepts E (q.crs g1 g2 α β γ δ τ).vk (σ.proof g1 g2 (q.crs g1 g2 α β γ δ τ)) xs) :
    knowledgeEq (RingHom.id F) (evalRingHom τ) α β γ δ (σ.a.lin q) (σ.c.lin q) σ.b.beta σ.b.gamma σ.b.delta
      (C σ.b.gen + polySum σ.b.b q.v q.bVars) (∑ i ∈ range q.n, C (σ.extract xs (.input i)) * q.u (.input i))
      (∑ i ∈ range q.n, C (σ.extract xs (.input i)) * q.v (.input i))
      (∑ i ∈ range q.n, C (σ.extract xs (.input i)) * q.w (.input i)) = 0 := by
  unfold Accepts Strategy.proof at h
  simp only [Coeffs1.apply_eq q _ g2 hg1 hγ hδ hτ, Coeffs2.apply_eq q _ g1 hg2 hτ] at h
  have hic : ∑ i ∈ range (q.crs g1 g2 α β γ δ τ).vk.ic.length, ((1 : F) :: xs).getD i 0 • (q.crs g1 g2 α β γ δ τ).vk.ic.getD i 0 =
      linSum (fun i => σ.extract xs (.input i)) ((List.range q.n).map fun i => (q.comb α β τ (.input i) / γ) • g1) := rfl
  rw [hic, linSum_range, comb_sum] at h
  simp only [Qap.crs, map_smul, LinearMap.smul_apply, ← mul_smul, ← add_smul] at h
  rw [← sub_eq_zero, ← sub_smul, smul_eq_zero] at h
  have hne : E.pairing g1 g2 ≠ 0 := fun h0 => (E.nondegenerate _ _ h0).elim hg1 hg2
  have h := h.resolve_right hne
  unfold knowledgeEq
  simp only [RingHom.id_apply, coe_evalRingHom]
  generalize (σ.a.lin q).val (RingHom.id F) (evalRingHom τ) α β γ δ = a at *
  generalize (σ.c.lin q).val (RingHom.id F) (evalRingHom τ) α β γ δ = c at *
  have hγδ : γ * δ ≠ 0 := mul_ne_zero hγ hδ
  field_simp at h
  linear_combination h

end

end Bellman
