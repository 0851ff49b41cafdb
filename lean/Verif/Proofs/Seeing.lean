import Verif.Spec.Seeing
import Verif.Proofs.Agm

/-!
# Algebraic provers who have seen proofs: the verification equation as a polynomial in the blinding factors
-/

namespace Bellman

open Finset PrimeField

set_option linter.unusedSectionVars false

section algebra
variable {F : Type} [Field F] {n : ℕ}

/-- Discrete logarithms of a proof combined from seen proofs with blinding `μ`, `ν`: the difference of the two sides of the verification
equation. -/
def seeingEq (A0 B0 C0 K δ : F) (Z aa ac bb ca cc : Fin n → F) (μ ν : Fin n → F) : F :=
  (A0 + ∑ k, (aa k * μ k + ac k * ((μ k * ν k - Z k) / δ))) * (B0 + ∑ k, bb k * ν k) -
    (K + δ * (C0 + ∑ k, (ca k * μ k + cc k * ((μ k * ν k - Z k) / δ))))

theorem sum_single_mul (f : Fin n → F) (k : Fin n) (s : F) : ∑ i, f i * (Pi.single k s : Fin n → F) i = f k * s := by
  rw [Finset.sum_eq_single k]
  · simp
  · intro b _ hb; simp [hb]
  · simp

theorem seeingEq_zero (h2 : (2 : F) ≠ 0) {A0 B0 C0 K δ : F} (hδ : δ ≠ 0) {Z aa ac bb ca cc : Fin n → F}
    (h : ∀ μ ν, seeingEq A0 B0 C0 K δ Z aa ac bb ca cc μ ν = 0) :
    (∀ j, bb j ≠ 0 → K + δ * C0 = cc j * Z j) ∧ ((∀ j, bb j = 0) → A0 * B0 = K + δ * C0) := by
  set A1 := A0 - (∑ k, ac k * Z k) / δ with hA1
  set C1 := δ * C0 - ∑ k, cc k * Z k with hC1
  have key : ∀ μ ν : Fin n → F, (A1 + ∑ k, aa k * μ k + (∑ k, ac k * (μ k * ν k)) / δ) * (B0 + ∑ k, bb k * ν k) =
      K + C1 + δ * ∑ k, ca k * μ k + ∑ k, cc k * (μ k * ν k) := by
    intro μ ν
    have h0 := h μ ν
    unfold seeingEq at h0
    have e : ∀ (x y : Fin n → F), ∑ k, (x k * μ k + y k * ((μ k * ν k - Z k) / δ)) =
        ∑ k, x k * μ k + ((∑ k, y k * (μ k * ν k)) / δ - (∑ k, y k * Z k) / δ) := by
      intro x y
      rw [sum_add_distrib, sum_div, sum_div, ← sum_sub_distrib]
      congr 1
      exact sum_congr rfl fun k _ => by ring
    rw [e, e] at h0
    rw [hA1, hC1]
    field_simp at h0 ⊢
    linear_combination h0
  have z0 : ∀ f : Fin n → F, ∑ k, f k * (0 : Fin n → F) k = 0 := fun f => by simp
  have p00 := key 0 0
  simp only [Pi.zero_apply, mul_zero, sum_const_zero, zero_div, add_zero] at p00
  have p0 : ∀ j, A1 * bb j = 0 := by
    intro j
    have := key 0 (Pi.single j 1)
    simp only [Pi.zero_apply, mul_zero, zero_mul, sum_const_zero, zero_div, add_zero, sum_single_mul, mul_one] at this
    linear_combination this - p00
  have mm : ∀ (f : Fin n → F) (k : Fin n) (s : F) (ν : Fin n → F), ∑ i, f i * ((Pi.single k s : Fin n → F) i * ν i) = f k * (s * ν k) := by
    intro f k s ν
    rw [Finset.sum_eq_single k]
    · simp
    · intro b _ hb; simp [hb]
    · simp
  have pk : ∀ k (ν : Fin n → F), (A1 + aa k + ac k * ν k / δ) * (B0 + ∑ i, bb i * ν i) = K + C1 + δ * ca k + cc k * ν k := by
    intro k ν
    have := key (Pi.single k 1) ν
    simpa only [sum_single_mul, mm, mul_one, one_mul] using this
  have q0 : ∀ k, (A1 + aa k) * B0 = K + C1 + δ * ca k := by
    intro k
    have := pk k 0
    simpa only [Pi.zero_apply, mul_zero, sum_const_zero, zero_div, add_zero] using this
  have q1 : ∀ k j, j ≠ k → (A1 + aa k) * bb j = 0 := by
    intro k j hj
    have := pk k (Pi.single j 1)
    simp only [sum_single_mul, mul_one, Pi.single_eq_of_ne hj.symm, mul_zero, zero_div, add_zero] at this
    linear_combination this - q0 k
  have q2 : ∀ k s, (A1 + aa k + ac k * s / δ) * (B0 + bb k * s) = K + C1 + δ * ca k + cc k * s := by
    intro k s
    have := pk k (Pi.single k s)
    simpa only [sum_single_mul, Pi.single_eq_same] using this
  have q3 : ∀ k, ac k * bb k = 0 := by
    intro k
    have e1 := q2 k 1
    have e2 := q2 k (-1)
    have e0 := q0 k
    have : 2 * (ac k * bb k / δ) = 0 := by linear_combination e1 + e2 - 2 * e0
    rcases mul_eq_zero.1 this with h | h
    · exact absurd h h2
    · exact (div_eq_zero_iff.1 h).resolve_right hδ
  have q4 : ∀ k, (A1 + aa k) * bb k + ac k * B0 / δ = cc k := by
    intro k
    have e1 := q2 k 1
    have e0 := q0 k
    have e3 := q3 k
    have : ac k * bb k / δ = 0 := by rw [e3, zero_div]
    linear_combination e1 - e0 - this
  have q5 : ∀ k j, ac k * bb j = 0 := by
    intro k j
    rcases eq_or_ne j k with rfl | hj
    · exact q3 j
    have e1 := pk k (Pi.single k 1 + Pi.single j 1)
    simp only [Pi.add_apply, mul_add, sum_add_distrib, sum_single_mul, Pi.single_eq_same, Pi.single_eq_of_ne hj.symm, mul_one, add_zero] at e1
    have e2 := q2 k 1
    have e3 := q1 k j hj
    have : ac k * bb j / δ = 0 := by linear_combination e1 - e2 - e3
    exact (div_eq_zero_iff.1 this).resolve_right hδ
  refine ⟨fun j hj => ?_, fun hb => ?_⟩
  · have ha : ∀ k, ac k = 0 := fun k => (mul_eq_zero.1 (q5 k j)).resolve_right hj
    have hA : A1 = 0 := (mul_eq_zero.1 (p0 j)).resolve_right hj
    have hc : ∀ k, k ≠ j → cc k = 0 := by
      intro k hk
      have e1 := (mul_eq_zero.1 (q1 k j hk.symm)).resolve_right hj
      rw [← q4 k, e1, ha k]; simp
    rw [hA, zero_mul, hC1, Finset.sum_eq_single j (fun k _ hk => by rw [hc k hk, zero_mul]) (by simp)] at p00
    linear_combination -p00
  · have hs : (∑ k, ac k * Z k) * B0 = (∑ k, cc k * Z k) * δ := by
      rw [sum_mul, sum_mul]
      refine sum_congr rfl fun k _ => ?_
      have := q4 k
      rw [hb k, mul_zero, zero_add, div_eq_iff hδ] at this
      linear_combination Z k * this
    rw [hA1, hC1] at p00
    have e : (∑ k, ac k * Z k) / δ * B0 = ∑ k, cc k * Z k := by rw [div_mul_eq_mul_div, hs, mul_div_cancel_right₀ _ hδ]
    linear_combination p00 + e

open MvPolynomial in
/-- `seeingEq` as a polynomial in the blinding factors. -/
noncomputable def seeingPoly (A0 B0 C0 K δ : F) (Z aa ac bb ca cc : Fin n → F) : MvPolynomial (Fin n ⊕ Fin n) F :=
  (C A0 + ∑ k, (C (aa k) * X (.inl k) + C (ac k / δ) * (X (.inl k) * X (.inr k) - C (Z k)))) * (C B0 + ∑ k, C (bb k) * X (.inr k)) -
    (C K + C δ * (C C0 + ∑ k, (C (ca k) * X (.inl k) + C (cc k / δ) * (X (.inl k) * X (.inr k) - C (Z k)))))

theorem seeingPoly_eval (A0 B0 C0 K δ : F) (Z aa ac bb ca cc : Fin n → F) (y : Fin n ⊕ Fin n → F) :
    MvPolynomial.eval y (seeingPoly A0 B0 C0 K δ Z aa ac bb ca cc) =
      seeingEq A0 B0 C0 K δ Z aa ac bb ca cc (fun k => y (.inl k)) (fun k => y (.inr k)) := by
  unfold seeingPoly seeingEq
  simp only [map_sub, map_mul, map_add, map_sum, MvPolynomial.eval_C, MvPolynomial.eval_X]
  simp only [div_mul_eq_mul_div, mul_div_assoc]

theorem seeingPoly_degree (A0 B0 C0 K δ : F) (Z aa ac bb ca cc : Fin n → F) :
    (seeingPoly A0 B0 C0 K δ Z aa ac bb ca cc).totalDegree ≤ 3 := by
  have dC : ∀ (x : F) m, (MvPolynomial.C x : MvPolynomial (Fin n ⊕ Fin n) F).totalDegree ≤ m := fun x m => by
    rw [MvPolynomial.totalDegree_C]; exact Nat.zero_le _
  have dX : ∀ i, (MvPolynomial.X i : MvPolynomial (Fin n ⊕ Fin n) F).totalDegree ≤ 1 := fun i => by rw [MvPolynomial.totalDegree_X]
  have dA : ∀ {p q : MvPolynomial (Fin n ⊕ Fin n) F} {m}, p.totalDegree ≤ m → q.totalDegree ≤ m → (p + q).totalDegree ≤ m :=
    fun hp hq => (MvPolynomial.totalDegree_add _ _).trans (max_le hp hq)
  have dS : ∀ {p q : MvPolynomial (Fin n ⊕ Fin n) F} {m}, p.totalDegree ≤ m → q.totalDegree ≤ m → (p - q).totalDegree ≤ m :=
    fun hp hq => (MvPolynomial.totalDegree_sub _ _).trans (max_le hp hq)
  have dM : ∀ {p q : MvPolynomial (Fin n ⊕ Fin n) F} {m : ℕ} (a b : ℕ), p.totalDegree ≤ a → q.totalDegree ≤ b → a + b ≤ m → (p * q).totalDegree ≤ m :=
    fun a b hp hq h => (MvPolynomial.totalDegree_mul _ _).trans ((add_le_add hp hq).trans h)
  have d2 : ∀ (w : F) (x y : Fin n → F), (MvPolynomial.C w + ∑ k, (MvPolynomial.C (x k) * MvPolynomial.X (.inl k) +
      MvPolynomial.C (y k / δ) * (MvPolynomial.X (.inl k) * MvPolynomial.X (.inr k) - MvPolynomial.C (Z k))) :
      MvPolynomial (Fin n ⊕ Fin n) F).totalDegree ≤ 2 := fun w x y =>
    dA (dC _ _) (MvPolynomial.totalDegree_finsetSum_le fun k _ => dA (dM 0 1 (dC _ _) (dX _) (by omega))
      (dM 0 2 (dC _ _) (dS (dM 1 1 (dX _) (dX _) le_rfl) (dC _ _)) le_rfl))
  unfold seeingPoly
  refine dS (dM 2 1 (d2 _ _ _) (dA (dC _ _) (MvPolynomial.totalDegree_finsetSum_le fun k _ => dM 0 1 (dC _ _) (dX _) le_rfl)) le_rfl)
    (dA (dC _ _) (dM 0 2 (dC _ _) (d2 _ _ _) (by omega)))

/-- Schwartz–Zippel for polynomials in the blinding factors, as a count. -/
theorem schwartz_zippel_blinding [Finite F] {P : MvPolynomial (Fin n ⊕ Fin n) F} (hP : P ≠ 0) {d : ℕ} (hd : P.totalDegree ≤ d) :
    ({y : Fin n → F × F | MvPolynomial.eval (Sum.elim (fun k => (y k).1) fun k => (y k).2) P = 0} : Set _).ncard * Nat.card F ≤
      d * Nat.card F ^ (2 * n) := by
  classical
  have := Fintype.ofFinite F
  set Q := MvPolynomial.rename finSumFinEquiv P with hQ
  have hQ0 : Q ≠ 0 := fun h => hP (MvPolynomial.rename_injective _ finSumFinEquiv.injective (h.trans (map_zero _).symm))
  have hQd : Q.totalDegree ≤ d := (MvPolynomial.totalDegree_rename_le _ _).trans hd
  have h := MvPolynomial.schwartz_zippel_totalDegree hQ0 (Finset.univ : Finset F)
  have hc : 0 < Fintype.card F := Fintype.card_pos
  have hc' : (0 : ℚ≥0) < Fintype.card F := by exact_mod_cast hc
  rw [Finset.card_univ, div_le_div_iff₀ (by positivity) hc'] at h
  have h2 : (Finset.card ((Fintype.piFinset fun _ => (Finset.univ : Finset F)).filter fun f => MvPolynomial.eval f Q = 0)) *
      Fintype.card F ≤ Q.totalDegree * Fintype.card F ^ (n + n) := by exact_mod_cast h
  rw [Nat.card_eq_fintype_card]
  refine le_trans (Nat.mul_le_mul_right _ ?_) (h2.trans (by rw [two_mul]; exact Nat.mul_le_mul_right _ hQd))
  rw [← Set.ncard_coe_finset]
  refine Set.ncard_le_ncard_of_injOn (fun y : Fin n → F × F => fun i => (Sum.elim (fun k => (y k).1) fun k => (y k).2) (finSumFinEquiv.symm i))
    (fun y hy => ?_) ?_ (Set.toFinite _)
  · simp only [coe_filter, Fintype.mem_piFinset, mem_univ, implies_true, true_and, Set.mem_ofPred_eq] at hy ⊢
    rw [hQ, MvPolynomial.eval_rename]
    convert hy using 2
    congr 1
    funext i
    simp
  · intro y _ y' _ h
    funext k
    have e1 := congrFun h (finSumFinEquiv (.inl k))
    have e2 := congrFun h (finSumFinEquiv (.inr k))
    simp only [Equiv.symm_apply_apply, Sum.elim_inl, Sum.elim_inr] at e1 e2
    exact Prod.ext e1 e2

/-- Either few blinding factors satisfy the verification equation, or all do. -/
theorem seeing_blinding [Finite F] (A0 B0 C0 K δ : F) (Z aa ac bb ca cc : Fin n → F) :
    ({y : Fin n → F × F | seeingEq A0 B0 C0 K δ Z aa ac bb ca cc (fun k => (y k).1) (fun k => (y k).2) = 0} : Set _).ncard * Nat.card F ≤
      3 * Nat.card F ^ (2 * n) ∨ ∀ μ ν, seeingEq A0 B0 C0 K δ Z aa ac bb ca cc μ ν = 0 := by
  by_cases hP : seeingPoly A0 B0 C0 K δ Z aa ac bb ca cc = 0
  · right
    intro μ ν
    have := seeingPoly_eval A0 B0 C0 K δ Z aa ac bb ca cc (Sum.elim μ ν)
    rw [hP, map_zero] at this
    exact this.symm
  · left
    have h := schwartz_zippel_blinding hP (seeingPoly_degree A0 B0 C0 K δ Z aa ac bb ca cc)
    simpa only [seeingPoly_eval, Sum.elim_inl, Sum.elim_inr] using h

end algebra

section trapdoors
open Polynomial

variable {F : Type} [CommRing F]

/-- `γ` times the verification equation when the proof is the `j`-th one seen, up to a factor `κ` and an element of the parameters. -/
noncomputable def replayEq {R : Type} [CommRing R] (ι : F →+* R) (e : F[X] →+* R) (α β γ δ : R) (κ : F) (c : Lin1 F) (u v w : F[X]) : R :=
  γ * ((1 - ι κ) * (α * β) + (β * e u + α * e v + e w)) + c.val ι e α β γ δ

theorem replayEq_map {R R' : Type} [CommRing R] [CommRing R'] (φ : R →+* R') (ι : F →+* R) (e : F[X] →+* R) (α β γ δ : R)
    (κ : F) (c : Lin1 F) (u v w : F[X]) :
    φ (replayEq ι e α β γ δ κ c u v w) = replayEq (φ.comp ι) (φ.comp e) (φ α) (φ β) (φ γ) (φ δ) κ c u v w := by
  simp [replayEq, Lin1.val]

theorem replayEq_degree [IsDomain F] {c : Lin1 F} (κ : F) {u v w : F[X]} {m : ℕ} (hm : 0 < m) (hc : c.Small m)
    (hu : u.natDegree ≤ m - 1) (hv : v.natDegree ≤ m - 1) (hw : w.natDegree ≤ m - 1) :
    (replayEq MvPolynomial.C tau (MvPolynomial.X 0) (MvPolynomial.X 1) (MvPolynomial.X 2) (MvPolynomial.X 3) κ c u v w).totalDegree
      ≤ 3 * m + 1 := by
  unfold replayEq
  refine td_add (td_mul (a := 1) (b := m + 1) (td_X _) (td_add ?_ ?_) (by omega)) ((Lin1.val_degree hm hc).trans (by omega))
  · refine td_mul (a := 0) (b := 2) ?_ (td_mul (td_X _) (td_X _) le_rfl) (by omega)
    rw [← map_one MvPolynomial.C, ← map_sub]
    exact td_C _
  · exact td_comb hu hv (hw.trans (by omega)) (by omega)

theorem replayEq_at {T : Type} [CommRing T] (j : F[X] →+* T) (α β : T) (κ : F) (c : Lin1 F) (u v w : F[X])
    (h : replayEq MvPolynomial.C tau (MvPolynomial.X 0) (MvPolynomial.X 1) (MvPolynomial.X 2) (MvPolynomial.X 3) κ c u v w = 0) :
    (1 - j (C κ)) * (α * β) + (β * j u + α * j v + j w) + (β * j c.uL + α * j c.vL + j c.wL) = 0 := by
  let φ : MvPolynomial (Fin 5) F →+* T := MvPolynomial.eval₂Hom (j.comp C) (![α, β, 1, 0, j X] : Fin 5 → T)
  have hι : φ.comp MvPolynomial.C = j.comp C := by ext1 x; simp [φ]
  have he : φ.comp tau = j := by
    refine Polynomial.ringHom_ext (fun x => ?_) ?_ <;> simp [φ, tau]
  have h' := congrArg φ h
  rw [replayEq_map, hι, he, map_zero] at h'
  simp only [φ, MvPolynomial.eval₂Hom_X', Matrix.cons_val_zero, Matrix.cons_val_one, Matrix.cons_val] at h'
  unfold replayEq Lin1.val at h'
  simp only [RingHom.comp_apply] at h'
  linear_combination h'

theorem replay_inner {R : Type} [CommRing R] (k u v w u' v' w' : R)
    (h : (1 - C (C k)) * (C X * X) + (X * C (C u) + C X * C (C v) + C (C w)) + (X * C (C u') + C X * C (C v') + C (C w')) = (0 : R[X][X])) :
    k = 1 ∧ u + u' = 0 := by
  have h4 : C (C (w + w') + C (v + v') * X + C 0 * X ^ 2 + C 0 * X ^ 3) +
      C (C (u + u') + C (1 - k) * X + C 0 * X ^ 2 + C 0 * X ^ 3) * X + C 0 * X ^ 2 + C 0 * X ^ 3 =
      C (C 0 + C 0 * X + C 0 * X ^ 2 + C 0 * X ^ 3) + C (C 0 + C 0 * X + C 0 * X ^ 2 + C 0 * X ^ 3) * X +
      C 0 * X ^ 2 + (C 0 * X ^ 3 : R[X][X]) := by
    simp only [map_add, map_mul, map_sub, map_zero, map_one]
    linear_combination h
  obtain ⟨-, d1, -, -⟩ := cubic_ext h4
  obtain ⟨e0, e1, -, -⟩ := cubic_ext d1
  exact ⟨(sub_eq_zero.1 e1).symm, e0⟩

theorem replayEq_identity (κ : F) (c : Lin1 F) (u v w : F[X])
    (h : replayEq MvPolynomial.C tau (MvPolynomial.X 0) (MvPolynomial.X 1) (MvPolynomial.X 2) (MvPolynomial.X 3) κ c u v w = 0) :
    κ = 1 ∧ u + c.uL = 0 := by
  have h0 := replayEq_at (T := F[X][X][X]) (C.comp C) (C X) X κ c u v w h
  simp only [RingHom.comp_apply] at h0
  obtain ⟨h1, h2⟩ := replay_inner (R := F[X]) (C κ) u v w c.uL c.vL c.wL h0
  exact ⟨C_injective (h1.trans (map_one C).symm), h2⟩

end trapdoors

section count
open Polynomial

variable {F : Type} [PrimeField F]

/-- Evaluating a polynomial of the trapdoors. -/
theorem eval_comp_tau (x : Fin 5 → F) : (MvPolynomial.eval x).comp (tau : F[X] →+* _) = evalRingHom (x 4) := by
  refine Polynomial.ringHom_ext (fun y => ?_) ?_ <;> simp [tau]

theorem replay_count (κ : F) (c : Lin1 F) (u v w : F[X]) (m : ℕ) (hm : 0 < m) (hc : c.Small m)
    (hu : u.natDegree ≤ m - 1) (hv : v.natDegree ≤ m - 1) (hw : w.natDegree ≤ m - 1) (hne : κ = 1 → u + c.uL ≠ 0) :
    ({x : Fin 5 → F | replayEq (RingHom.id F) (evalRingHom (x 4)) (x 0) (x 1) (x 2) (x 3) κ c u v w = 0} : Set _).ncard ≤
      (3 * m + 1) * Nat.card F ^ 4 := by
  have := PrimeField.finite (F := F)
  have hP : replayEq MvPolynomial.C tau (MvPolynomial.X 0) (MvPolynomial.X 1) (MvPolynomial.X 2) (MvPolynomial.X 3) κ c u v w ≠ 0 :=
    fun h => hne (replayEq_identity κ c u v w h).1 (replayEq_identity κ c u v w h).2
  have := schwartz_zippel_card hP (replayEq_degree κ hm hc hu hv hw)
  refine le_trans (le_of_eq ?_) this
  congr 1
  ext x
  simp only [Set.mem_ofPred_eq]
  rw [replayEq_map, eval_comp_tau]
  have h1 : (MvPolynomial.eval x).comp (MvPolynomial.C : F →+* MvPolynomial (Fin 5) F) = RingHom.id F := by ext y; simp
  rw [h1]
  simp

/-- Counting trapdoors as tuples. -/
theorem ncard_tuple (P : F → F → F → F → F → Prop) :
    ({x : F × F × F × F × F | P x.1 x.2.1 x.2.2.1 x.2.2.2.1 x.2.2.2.2} : Set _).ncard =
      ({x : Fin 5 → F | P (x 0) (x 1) (x 2) (x 3) (x 4)} : Set _).ncard := by
  refine Set.ncard_congr (fun x _ => (![x.1, x.2.1, x.2.2.1, x.2.2.2.1, x.2.2.2.2] : Fin 5 → F)) (fun x hx => hx) ?_ ?_
  · rintro ⟨a, b, c, d, e⟩ ⟨a', b', c', d', e'⟩ _ _ h
    have h0 := congrFun h 0
    have h1 := congrFun h 1
    have h2 := congrFun h 2
    have h3 := congrFun h 3
    have h4 := congrFun h 4
    simp at h0 h1 h2 h3 h4
    simp [h0, h1, h2, h3, h4]
  · intro x hx
    refine ⟨(x 0, x 1, x 2, x 3, x 4), hx, ?_⟩
    funext i
    fin_cases i <;> rfl

/-- Counting pairs by their first components, of which some are bad. -/
theorem ncard_pairs_le {X Y : Type} [Finite X] [Finite Y] (T : Set (X × Y)) (bad : Set X) (c M : ℕ)
    (h : ∀ x ∉ bad, ({y | (x, y) ∈ T} : Set Y).ncard * c ≤ M) : T.ncard * c ≤ bad.ncard * Nat.card Y * c + Nat.card X * M := by
  classical
  have := Fintype.ofFinite X
  have := Fintype.ofFinite Y
  have hT : T.ncard = ∑ x : X, ({y | (x, y) ∈ T} : Set Y).ncard := by
    have e : T = ((univ.filter fun z => z ∈ T : Finset (X × Y)) : Set _) := by ext z; simp
    conv_lhs => rw [e]
    rw [Set.ncard_coe_finset, Finset.card_eq_sum_card_fiberwise (f := Prod.fst) (t := univ) (fun _ _ => mem_univ _)]
    refine sum_congr rfl fun x _ => ?_
    rw [← Set.ncard_coe_finset]
    symm
    refine Set.ncard_congr (fun y _ => (x, y)) (fun y hy => ?_) (fun y y' _ _ h => (Prod.mk.inj h).2) fun z hz => ?_
    · simpa using hy
    · obtain ⟨x', y⟩ := z
      simp at hz
      exact ⟨y, by simpa [← hz.2] using hz.1, by rw [← hz.2]⟩
  rw [hT, sum_mul, ← sum_filter_add_sum_filter_not univ (· ∈ bad)]
  refine add_le_add ?_ ?_
  · have hb : bad.ncard = (univ.filter (· ∈ bad)).card := by rw [← Set.ncard_coe_finset]; congr 1; ext; simp
    rw [hb, mul_assoc, ← smul_eq_mul, ← Finset.sum_const]
    refine sum_le_sum fun x _ => Nat.mul_le_mul_right _ ?_
    exact (Set.ncard_le_ncard (Set.subset_univ _) (Set.toFinite _)).trans (Set.ncard_univ _).le
  · refine (sum_le_sum fun x hx => h x (mem_filter.1 hx).2).trans ?_
    rw [Finset.sum_const, smul_eq_mul, Nat.card_eq_fintype_card]
    exact Nat.mul_le_mul_right _ (card_le_univ _)

/-- The rows appended for the public inputs make their polynomials independent of each other and of those of the auxiliary variables. -/
theorem Qap.inputs_independent {t : List (Ev F)} (hsm : (Qap.ofTrace t).rows.length ≤ 2 ^ (S F - 1)) (x l : ℕ → F)
    (h : ∑ i ∈ range (Qap.ofTrace t).n, C (x i) * (Qap.ofTrace t).u (.input i) +
      ∑ i ∈ range (Qap.ofTrace t).k, C (l i) * (Qap.ofTrace t).u (.aux i) = 0) : ∀ i < (Qap.ofTrace t).n, x i = 0 := by
  intro i hi
  set q := Qap.ofTrace t with hq
  have hg := Qap.ofTrace_good t hsm
  set r := (consOf t).length + i with hr
  have hrow : q.rows[r]? = some (⟨[(.input i, 1)]⟩, ⟨[]⟩, ⟨[]⟩) := by
    show ((consOf t) ++ inputRows q.n)[r]? = _
    rw [List.getElem?_append_right (by omega), hr, Nat.add_sub_cancel_left]
    unfold inputRows
    rw [List.getElem?_map, List.getElem?_range hi]
    rfl
  have hent : ∀ y, q.entry (·.1) y r = if Var.input i = y then 1 else 0 := by
    intro y
    unfold Qap.entry
    rw [hrow]
    simp [LC.coeffOf]
  have hlt : r < 2 ^ Nat.clog 2 q.rows.length :=
    lt_of_lt_of_le (List.getElem?_eq_some_iff.1 hrow).1 (Nat.le_pow_clog (by norm_num) _)
  have h1 := congrArg (Polynomial.eval (q.ω ^ r)) h
  have hev : ∀ y, (q.u y).eval (q.ω ^ r) = if Var.input i = y then 1 else 0 := fun y => by
    rw [← hent y]; exact Qap.interp_eval hg _ r hlt
  simp only [eval_add, eval_finsetSum, eval_mul, eval_C, hev, eval_zero] at h1
  simpa [hi] using h1

end count

end Bellman
