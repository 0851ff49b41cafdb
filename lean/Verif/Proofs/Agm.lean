import Verif.Props.Knowledge

/-!
# Algebraic provers who see the parameters: the polynomial that betrays the trapdoors
-/

namespace Bellman

open Polynomial PrimeField Finset

set_option linter.unusedSectionVars false

variable {F : Type} [PrimeField F]

/-- The verification equation for the proof of a strategy, as a polynomial in the trapdoors `α, β, γ, δ, τ`: the difference of the discrete
logarithms of the two sides, multiplied by `γδ`. -/
noncomputable def Strategy.equation (q : Qap F) (σ : Strategy F) (xs : List F) : MvPolynomial (Fin 5) F :=
  knowledgeEq MvPolynomial.C tau (MvPolynomial.X 0) (MvPolynomial.X 1) (MvPolynomial.X 2) (MvPolynomial.X 3) (σ.a.lin q) (σ.c.lin q)
    σ.b.beta σ.b.gamma σ.b.delta (C σ.b.gen + polySum σ.b.b q.v q.bVars)
    (∑ i ∈ range q.n, C (σ.extract xs (.input i)) * q.u (.input i))
    (∑ i ∈ range q.n, C (σ.extract xs (.input i)) * q.v (.input i))
    (∑ i ∈ range q.n, C (σ.extract xs (.input i)) * q.w (.input i))

/-- The product of the polynomials of the variables, without those that are zero. -/
noncomputable def Qap.product (q : Qap F) : F[X] := (q.aVars.map q.u).prod * (q.bVars.map q.v).prod

/-- A polynomial that vanishes at the trapdoors whenever the proof of the strategy is accepted. -/
noncomputable def Strategy.refutation (q : Qap F) (σ : Strategy F) (xs : List F) : MvPolynomial (Fin 5) F :=
  σ.equation q xs * tau q.product

theorem tau_ne_zero {f : F[X]} (h : f ≠ 0) : tau f ≠ 0 := by
  intro h0
  have h1 := congrArg (MvPolynomial.aeval (fun _ => (X : F[X]))) h0
  have h2 : (MvPolynomial.aeval (fun _ : Fin 5 => (X : F[X]))) (tau f) = f := by
    unfold tau
    show (MvPolynomial.aeval (fun _ : Fin 5 => (X : F[X]))) (Polynomial.aeval (MvPolynomial.X 4) f) = f
    rw [← Polynomial.aeval_algHom_apply, MvPolynomial.aeval_X]
    simp
  rw [h2, map_zero] at h1
  exact h h1

theorem prod_map_ne_zero {f : Var → F[X]} {xs : List Var} (h : ∀ x ∈ xs, f x ≠ 0) : (xs.map f).prod ≠ 0 := by
  rw [Ne, List.prod_eq_zero_iff]
  intro h0
  obtain ⟨x, hx, h1⟩ := List.mem_map.1 h0
  exact h x hx h1

theorem natDegree_prod_map {f : Var → F[X]} {n : ℕ} (h : ∀ x, (f x).natDegree ≤ n) (xs : List Var) :
    (xs.map f).prod.natDegree ≤ xs.length * n := by
  induction xs with
  | nil => simp
  | cons x xs ih =>
    rw [List.map_cons, List.prod_cons, List.length_cons, Nat.succ_mul, Nat.add_comm]
    exact natDegree_mul_le.trans (add_le_add (h x) ih)

theorem Qap.product_ne_zero (q : Qap F) : q.product ≠ 0 :=
  mul_ne_zero (prod_map_ne_zero fun x hx => by simpa using (List.mem_filter.1 hx).2)
    (prod_map_ne_zero fun x hx => by simpa using (List.mem_filter.1 hx).2)

theorem Qap.product_degree {q : Qap F} {e : ℕ} (hg : q.Good e) : q.product.natDegree ≤ 2 * (q.n + q.k) * (q.m - 1) := by
  have hl : q.vars.length = q.n + q.k := by simp [Qap.vars]
  have h1 := natDegree_prod_map (fun x => Qap.natDegree_interp hg (q.entry (·.1) x)) q.aVars
  have h2 := natDegree_prod_map (fun x => Qap.natDegree_interp hg (q.entry (·.2.1) x)) q.bVars
  have h3 : q.aVars.length ≤ q.n + q.k := hl ▸ List.length_filter_le _ _
  have h4 : q.bVars.length ≤ q.n + q.k := hl ▸ List.length_filter_le _ _
  calc q.product.natDegree ≤ q.aVars.length * (q.m - 1) + q.bVars.length * (q.m - 1) := natDegree_mul_le.trans (add_le_add h1 h2)
    _ ≤ (q.n + q.k) * (q.m - 1) + (q.n + q.k) * (q.m - 1) := add_le_add (Nat.mul_le_mul_right _ h3) (Nat.mul_le_mul_right _ h4)
    _ = _ := by ring

theorem Qap.generic_of_product (q : Qap F) {τ : F} (h : q.product.eval τ ≠ 0) : q.Generic τ := by
  unfold Qap.product at h
  rw [eval_mul, mul_ne_zero_iff] at h
  have key : ∀ (f : Var → F[X]) (xs : List Var), (xs.map f).prod.eval τ ≠ 0 → ∀ x ∈ xs, (f x).eval τ ≠ 0 := by
    intro f xs h x hx h0
    refine h ?_
    rw [← coe_evalRingHom, map_list_prod, List.prod_eq_zero_iff, List.map_map]
    exact List.mem_map.2 ⟨x, hx, h0⟩
  exact fun x hx => ⟨fun h0 => key _ _ h.1 x (List.mem_filter.2 ⟨hx, by simpa using h0⟩),
    fun h0 => key _ _ h.2 x (List.mem_filter.2 ⟨hx, by simpa using h0⟩)⟩

theorem Strategy.refutation_degree {q : Qap F} {e : ℕ} (hg : q.Good e) (σ : Strategy F) (xs : List F) :
    (σ.refutation q xs).totalDegree ≤ 3 * q.m + 1 + 2 * (q.n + q.k) * (q.m - 1) := by
  have hm : 0 < q.m := by rw [hg.m]; positivity
  have hu : ∀ x, (q.u x).natDegree ≤ q.m - 1 := fun x => Qap.natDegree_interp hg _
  have hv : ∀ x, (q.v x).natDegree ≤ q.m - 1 := fun x => Qap.natDegree_interp hg _
  have hw : ∀ x, (q.w x).natDegree ≤ q.m - 1 := fun x => Qap.natDegree_interp hg _
  exact td_mul (knowledgeEq_degree _ _ _ hm (σ.a.lin_small hg) (σ.c.lin_small hg)
    (natDegree_add_le_of_degree_le (by simp) (polySum_degree hv)) (natDegree_comb_le fun i => hu _)
    (natDegree_comb_le fun i => hv _) (natDegree_comb_le fun i => hw _)) (td_tau (Qap.product_degree hg)) le_rfl

theorem Strategy.refutation_ne_zero {t : List (Ev F)} {e : ℕ} (hg : (Qap.ofTrace t).Good e) (hs : (Qap.ofTrace t).InScope) (σ : Strategy F)
    (xs : List F) (hno : ¬ Sat (σ.extract xs) t) : σ.refutation (Qap.ofTrace t) xs ≠ 0 := by
  set q := Qap.ofTrace t with hq
  refine mul_ne_zero (fun h0 => hno ?_) (tau_ne_zero q.product_ne_zero)
  have hid := knowledge_identity _ _ _ _ _ _ _ _ _ h0
  rw [← satBy_of_sat, Qap.satBy_iff hg hs]
  intro j hj
  have hA : q.A (σ.extract xs) * q.B (σ.extract xs) - q.Cc (σ.extract xs) =
      (∑ i ∈ range (q.m - 1), C (σ.c.h i) * X ^ i) * q.Z := by
    unfold Coeffs1.lin at hid
    simp only at hid
    unfold Qap.A Qap.B Qap.Cc
    simp only [show ∀ i, σ.extract xs (.aux i) = σ.c.l i from fun i => rfl]
    linear_combination hid
  rw [hA, eval_mul, Qap.Z, eval_sub, eval_pow, eval_X, eval_one, ← pow_mul, mul_comm j, pow_mul, hg.m, hg.prim.pow_eq_one,
    one_pow, sub_self, mul_zero]

variable {G1 G2 GT : Type} [AddCommGroup G1] [AddCommGroup G2] [Module F G1] [Module F G2] [DecidableEq G1] [DecidableEq G2]
  [AddCommGroup GT] [Module F GT] [DecidableEq GT]

theorem Strategy.refutation_zero (q : Qap F) (E : Engine F G1 G2 GT) (σ : Strategy F) {g1 : G1} {g2 : G2} (x : Fin 5 → F) (hg1 : g1 ≠ 0)
    (hg2 : g2 ≠ 0) (hγ : x 2 ≠ 0) (hδ : x 3 ≠ 0) (xs : List F)
    (h : Accepts E (q.crs g1 g2 (x 0) (x 1) (x 2) (x 3) (x 4)).vk (σ.proof g1 g2 (q.crs g1 g2 (x 0) (x 1) (x 2) (x 3) (x 4))) xs) :
    MvPolynomial.eval x (σ.refutation q xs) = 0 := by
  have h2 : (MvPolynomial.eval x).comp (tau : F[X] →+* _) = evalRingHom (x 4) := by
    refine Polynomial.ringHom_ext (fun y => ?_) ?_ <;> simp [tau]
  unfold Strategy.refutation
  rw [map_mul, show MvPolynomial.eval x (tau q.product) = q.product.eval (x 4) from congrFun (congrArg DFunLike.coe h2) q.product]
  by_cases h0 : q.product.eval (x 4) = 0
  · rw [h0, mul_zero]
  · have := accepts_strategy q E σ hg1 hg2 hγ hδ (q.generic_of_product h0) xs h
    have h1 : (MvPolynomial.eval x).comp (MvPolynomial.C : F →+* MvPolynomial (Fin 5) F) = RingHom.id F := by ext y; simp
    unfold Strategy.equation
    rw [knowledgeEq_map, h1, h2]
    simp only [MvPolynomial.eval_X]
    rw [this, zero_mul]

/-! ## Trapdoors on a line -/

/-- The polynomial restricted to the line `a Z + b`. -/
noncomputable def onLine (P : MvPolynomial (Fin 5) F) (a b : Fin 5 → F) : F[X] := MvPolynomial.aeval (fun i => C (a i) * X + C (b i)) P

theorem onLine_eval (P : MvPolynomial (Fin 5) F) (a b : Fin 5 → F) (z : F) :
    (onLine P a b).eval z = MvPolynomial.eval (fun i => a i * z + b i) P := by
  unfold onLine
  rw [← coe_evalRingHom, MvPolynomial.aeval_def, MvPolynomial.hom_eval₂]
  unfold MvPolynomial.eval
  rw [MvPolynomial.coe_eval₂Hom]
  congr 1
  · ext x; simp
  · ext i; simp

theorem onLine_degree (P : MvPolynomial (Fin 5) F) (a b : Fin 5 → F) : (onLine P a b).natDegree ≤ P.totalDegree := by
  unfold onLine
  rw [MvPolynomial.aeval_def, MvPolynomial.eval₂_eq]
  refine natDegree_sum_le_of_forall_le _ _ fun d hd => ?_
  rw [show (algebraMap F F[X]) = (C : F →+* F[X]) from rfl]
  refine (natDegree_C_mul_le _ _).trans ((natDegree_prod_le _ _).trans ?_)
  refine le_trans (sum_le_sum (g := fun i => d i) fun i _ => ?_) (MvPolynomial.le_totalDegree hd)
  refine natDegree_pow_le.trans ?_
  have : (C (a i) * X + C (b i)).natDegree ≤ 1 := natDegree_linear_le
  exact (Nat.mul_le_mul_left _ this).trans (by omega)

/-- A line through a fixed point lies in the zeros of a given polynomial for few directions. -/
theorem onLine_count {P : MvPolynomial (Fin 5) F} (hP : P ≠ 0) {D : ℕ} (hD : P.totalDegree ≤ D) (x : Fin 5 → F) (z : F) :
    ({a : Fin 5 → F | onLine P a (fun i => x i - a i * z) = 0} : Set _).ncard ≤ D * p F ^ 4 := by
  have := PrimeField.finite (F := F)
  have h := schwartz_zippel_card hP hD
  rw [PrimeField.card_eq] at h
  refine le_trans (Set.ncard_le_ncard_of_injOn (fun a => a + x) (fun a ha => ?_) (fun a _ b _ h => add_right_cancel h) (Set.toFinite _)) h
  have ha : onLine P a (fun i => x i - a i * z) = 0 := ha
  have h1 := onLine_eval P a (fun i => x i - a i * z) (z + 1)
  rw [ha, eval_zero] at h1
  show MvPolynomial.eval (a + x) P = 0
  rw [h1]
  congr 2
  funext i
  simp only [Pi.add_apply]
  ring

end Bellman
