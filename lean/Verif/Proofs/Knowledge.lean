import Mathlib.Algebra.MvPolynomial.SchwartzZippel
import Mathlib.Algebra.Polynomial.Bivariate
import Mathlib.Tactic.LinearCombination
import Verif.Spec.Strategy
import Verif.Proofs.Groth16

/-!
# Algebraic knowledge soundness: the polynomial identity and the count of trapdoors
-/

open Polynomial

namespace Bellman

theorem cubic_ext {T : Type} [CommRing T] {p0 p1 p2 p3 q0 q1 q2 q3 : T}
    (h : C p0 + C p1 * X + C p2 * X ^ 2 + C p3 * X ^ 3 = C q0 + C q1 * X + C q2 * X ^ 2 + C q3 * X ^ 3) :
    p0 = q0 ∧ p1 = q1 ∧ p2 = q2 ∧ p3 = q3 := by
  have e : ∀ i, _ := fun i => congrArg (fun P => P.coeff i) h
  have e0 := e 0
  have e1 := e 1
  have e2 := e 2
  have e3 := e 3
  simp only [coeff_add, coeff_C_mul, coeff_X_pow, coeff_X, coeff_C] at e0 e1 e2 e3
  norm_num at e0 e1 e2 e3
  exact ⟨e0, e1, e2, e3⟩

/-- Comparing coefficients of `δ` and `γ`. -/
theorem knowledge_outer {T : Type} [CommRing T] (A0 aδ ica la B0 bγ bδ K C0 cδ icc lc : T)
    (h : ((C (C A0) + C (C aδ) * X) * (C X * X) + C (C ica) * X + C (C la) * C X) * (C (C B0) + C (C bγ) * C X + C (C bδ) * X) =
      C (C K) * (C X * X) + ((C (C C0) + C (C cδ) * X) * (C X * X) + C (C icc) * X + C (C lc) * C X) * X) :
    la * B0 = 0 ∧ ica * B0 = 0 ∧ A0 * B0 + ica * bγ + la * bδ = K + lc := by
  have h' : C (C 0 + C (la * B0) * X + C (la * bγ) * X ^ 2 + C 0 * X ^ 3) +
      C (C (ica * B0) + C (A0 * B0 + ica * bγ + la * bδ) * X + C (A0 * bγ) * X ^ 2 + C 0 * X ^ 3) * X +
      C (C (ica * bδ) + C (aδ * B0 + A0 * bδ) * X + C (aδ * bγ) * X ^ 2) * X ^ 2 + C (C (aδ * bδ) * X) * X ^ 3 =
      C (C 0 + C 0 * X + C 0 * X ^ 2 + C 0 * X ^ 3) + C (C 0 + C (K + lc) * X + C 0 * X ^ 2 + C 0 * X ^ 3) * X +
        C (C C0 * X + C icc) * X ^ 2 + C (C cδ * X) * X ^ 3 := by
    simp only [map_add, map_mul, map_pow, map_zero] at h ⊢
    linear_combination h
  obtain ⟨d0, d1, -, -⟩ := cubic_ext h'
  obtain ⟨-, e1, -, -⟩ := cubic_ext d0
  obtain ⟨f0, f1, -, -⟩ := cubic_ext d1
  exact ⟨e1, f0, f1⟩

/-- Comparing coefficients of `α` (inner) and `β` (outer). -/
theorem knowledge_inner {R : Type} [CommRing R] [IsDomain R] (aα aβ U bβ V uI vI wI uL vL wL bγ bδ u v w u' v' w' : R)
    (h1 : (X * C (C uL) + C X * C (C vL) + C (C wL)) * (C (C bβ) * X + C (C V)) = (0 : R[X][X]))
    (h2 : (X * C (C uI) + C X * C (C vI) + C (C wI)) * (C (C bβ) * X + C (C V)) = (0 : R[X][X]))
    (h3 : (C (C aα) * C X + C (C aβ) * X + C (C U)) * (C (C bβ) * X + C (C V)) +
      (X * C (C uI) + C X * C (C vI) + C (C wI)) * C (C bγ) + (X * C (C uL) + C X * C (C vL) + C (C wL)) * C (C bδ) =
      C X * X + (X * C (C u) + C X * C (C v) + C (C w)) + (X * C (C u') + C X * C (C v') + C (C w'))) :
    aα * bβ = 1 ∧ aβ = 0 ∧ aα * V = v + v' ∧ bβ * U = u + u' ∧ U * V = w + w' := by
  by_cases hB : (C (C bβ) * X + C (C V) : R[X][X]) = 0
  · exfalso
    rw [hB] at h3
    have h4 : C (C (wI * bγ + wL * bδ) + C (vI * bγ + vL * bδ) * X + C 0 * X ^ 2 + C 0 * X ^ 3) +
        C (C (uI * bγ + uL * bδ) + C 0 * X + C 0 * X ^ 2 + C 0 * X ^ 3) * X + C 0 * X ^ 2 + C 0 * X ^ 3 =
        C (C (w + w') + C (v + v') * X + C 0 * X ^ 2 + C 0 * X ^ 3) + C (C (u + u') + C 1 * X + C 0 * X ^ 2 + C 0 * X ^ 3) * X +
        C 0 * X ^ 2 + C 0 * X ^ 3 := by
      simp only [map_add, map_mul, map_zero, map_one] at h3 ⊢
      linear_combination h3
    obtain ⟨-, d1, -, -⟩ := cubic_ext h4
    obtain ⟨-, e1, -, -⟩ := cubic_ext d1
    exact zero_ne_one e1
  · rw [(mul_eq_zero.1 h1).resolve_right hB, (mul_eq_zero.1 h2).resolve_right hB, zero_mul, zero_mul, add_zero, add_zero] at h3
    have h4 : C (C (U * V) + C (aα * V) * X + C 0 * X ^ 2 + C 0 * X ^ 3) +
        C (C (aβ * V + bβ * U) + C (aα * bβ) * X + C 0 * X ^ 2 + C 0 * X ^ 3) * X +
        C (C (aβ * bβ) + C 0 * X + C 0 * X ^ 2 + C 0 * X ^ 3) * X ^ 2 + C 0 * X ^ 3 =
        C (C (w + w') + C (v + v') * X + C 0 * X ^ 2 + C 0 * X ^ 3) + C (C (u + u') + C 1 * X + C 0 * X ^ 2 + C 0 * X ^ 3) * X +
        C (C 0 + C 0 * X + C 0 * X ^ 2 + C 0 * X ^ 3) * X ^ 2 + C 0 * X ^ 3 := by
      simp only [map_add, map_mul, map_zero, map_one] at h3 ⊢
      linear_combination h3
    obtain ⟨d0, d1, d2, -⟩ := cubic_ext h4
    obtain ⟨e00, e01, -, -⟩ := cubic_ext d0
    obtain ⟨e10, e11, -, -⟩ := cubic_ext d1
    obtain ⟨e20, -, -, -⟩ := cubic_ext d2
    have hb : aβ = 0 := by
      rcases mul_eq_zero.1 e20 with h | h
      · exact h
      · rw [h, mul_zero] at e11; exact absurd e11 zero_ne_one
    rw [hb, zero_mul, zero_add] at e10
    exact ⟨e11, hb, e01, e10, e00⟩


section count

variable {F : Type} [CommRing F]

/-- The discrete logarithm of an element output by an algebraic prover, as a Laurent polynomial in the trapdoors. -/
structure Lin1 (F : Type) [CommRing F] where
  α : F
  β : F
  δ : F
  U : F[X]
  uI : F[X]
  vI : F[X]
  wI : F[X]
  uL : F[X]
  vL : F[X]
  wL : F[X]

structure Lin1.Small (c : Lin1 F) (m : ℕ) : Prop where
  U : c.U.natDegree ≤ m - 1
  uI : c.uI.natDegree ≤ m - 1
  vI : c.vI.natDegree ≤ m - 1
  wI : c.wI.natDegree ≤ m - 1
  uL : c.uL.natDegree ≤ m - 1
  vL : c.vL.natDegree ≤ m - 1
  wL : c.wL.natDegree ≤ 2 * m - 2

/-- `γδ` times the discrete logarithm of the element, over any commutative ring with values for `α, β, γ, δ, τ`. -/
noncomputable def Lin1.val {R : Type} [CommRing R] (ι : F →+* R) (e : F[X] →+* R) (α β γ δ : R) (c : Lin1 F) : R :=
  (ι c.α * α + ι c.β * β + e c.U + ι c.δ * δ) * (γ * δ) + (β * e c.uI + α * e c.vI + e c.wI) * δ +
    (β * e c.uL + α * e c.vL + e c.wL) * γ

/-- The difference of the two sides of the verification equation, multiplied by `γδ`. -/
noncomputable def knowledgeEq {R : Type} [CommRing R] (ι : F →+* R) (e : F[X] →+* R) (α β γ δ : R) (a c : Lin1 F) (bβ bγ bδ : F) (V u v w : F[X]) : R :=
  a.val ι e α β γ δ * (ι bβ * β + e V + ι bγ * γ + ι bδ * δ) - ((α * β + (β * e u + α * e v + e w)) * (γ * δ) +
    c.val ι e α β γ δ * δ)

theorem knowledgeEq_map {R R' : Type} [CommRing R] [CommRing R'] (φ : R →+* R') (ι : F →+* R) (e : F[X] →+* R) (α β γ δ : R)
    (a c : Lin1 F) (bβ bγ bδ : F) (V u v w : F[X]) :
    φ (knowledgeEq ι e α β γ δ a c bβ bγ bδ V u v w) =
      knowledgeEq (φ.comp ι) (φ.comp e) (φ α) (φ β) (φ γ) (φ δ) a c bβ bγ bδ V u v w := by
  simp [knowledgeEq, Lin1.val]

open MvPolynomial in
theorem totalDegree_tau [IsDomain F] (f : F[X]) : (Polynomial.aeval (MvPolynomial.X (4 : Fin 5) : MvPolynomial (Fin 5) F) f).totalDegree ≤ f.natDegree := by
  rw [Polynomial.aeval_eq_sum_range]
  refine (MvPolynomial.totalDegree_finsetSum_le (d := f.natDegree) fun i hi => ?_)
  refine (MvPolynomial.totalDegree_smul_le _ _).trans ?_
  rw [MvPolynomial.totalDegree_X_pow]
  have := Finset.mem_range.1 hi
  omega

theorem td_add {p q : MvPolynomial (Fin 5) F} {n : ℕ} (hp : p.totalDegree ≤ n) (hq : q.totalDegree ≤ n) : (p + q).totalDegree ≤ n :=
  (MvPolynomial.totalDegree_add _ _).trans (max_le hp hq)

theorem td_mul {p q : MvPolynomial (Fin 5) F} {a b n : ℕ} (hp : p.totalDegree ≤ a) (hq : q.totalDegree ≤ b) (h : a + b ≤ n) :
    (p * q).totalDegree ≤ n :=
  (MvPolynomial.totalDegree_mul _ _).trans ((add_le_add hp hq).trans h)

theorem td_X [IsDomain F] (i : Fin 5) : (MvPolynomial.X i : MvPolynomial (Fin 5) F).totalDegree ≤ 1 := by
  rw [MvPolynomial.totalDegree_X]

theorem td_C (x : F) : (MvPolynomial.C x : MvPolynomial (Fin 5) F).totalDegree ≤ 0 := by
  rw [MvPolynomial.totalDegree_C]

theorem td_lin [IsDomain F] (x : F) (i : Fin 5) : (MvPolynomial.C x * MvPolynomial.X i : MvPolynomial (Fin 5) F).totalDegree ≤ 1 :=
  td_mul (td_C x) (td_X i) (by omega)

/-- Evaluation of univariate polynomials at the fifth variable. -/
noncomputable def tau : F[X] →+* MvPolynomial (Fin 5) F := (Polynomial.aeval (MvPolynomial.X (4 : Fin 5))).toRingHom

theorem td_tau [IsDomain F] {f : F[X]} {n : ℕ} (h : f.natDegree ≤ n) : (tau f).totalDegree ≤ n := (totalDegree_tau f).trans h

theorem td_comb [IsDomain F] {u v w : F[X]} {i j : Fin 5} {m n : ℕ} (hu : u.natDegree ≤ m) (hv : v.natDegree ≤ m) (hw : w.natDegree ≤ n) (h : m + 1 ≤ n) :
    (MvPolynomial.X j * tau u + MvPolynomial.X i * tau v + tau w).totalDegree ≤ n :=
  td_add (td_add (td_mul (td_X j) (td_tau hu) (by omega)) (td_mul (td_X i) (td_tau hv) (by omega))) (td_tau hw)

theorem Lin1.val_degree [IsDomain F] {c : Lin1 F} {m : ℕ} (hm : 0 < m) (h : c.Small m) :
    (c.val MvPolynomial.C tau (MvPolynomial.X 0) (MvPolynomial.X 1) (MvPolynomial.X 2) (MvPolynomial.X 3)).totalDegree ≤ 2 * m + 1 := by
  unfold Lin1.val
  refine td_add (td_add ?_ ?_) ?_
  · refine td_mul (a := m) (b := 2) (td_add (td_add (td_add ?_ ?_) ?_) ?_) (td_mul (td_X _) (td_X _) le_rfl) (by omega)
    · exact (td_lin _ _).trans hm
    · exact (td_lin _ _).trans hm
    · exact td_tau (h.U.trans (by omega))
    · exact (td_lin _ _).trans hm
  · exact td_mul (td_comb h.uI h.vI (h.wI.trans (by omega : m - 1 ≤ m)) (by omega)) (td_X _) (by omega)
  · exact td_mul (td_comb h.uL h.vL (h.wL.trans (by omega : _ ≤ 2 * m)) (by omega)) (td_X _) (by omega)

theorem knowledgeEq_degree [IsDomain F] {a c : Lin1 F} (bβ bγ bδ : F) {V u v w : F[X]} {m : ℕ} (hm : 0 < m) (ha : a.Small m) (hc : c.Small m)
    (hV : V.natDegree ≤ m - 1) (hu : u.natDegree ≤ m - 1) (hv : v.natDegree ≤ m - 1) (hw : w.natDegree ≤ m - 1) :
    (knowledgeEq MvPolynomial.C tau (MvPolynomial.X 0) (MvPolynomial.X 1) (MvPolynomial.X 2) (MvPolynomial.X 3) a c bβ bγ bδ V u v w).totalDegree
      ≤ 3 * m + 1 := by
  unfold knowledgeEq
  refine (MvPolynomial.totalDegree_sub _ _).trans (max_le ?_ (td_add ?_ ?_))
  · refine td_mul (b := m) (Lin1.val_degree hm ha) (td_add (td_add (td_add ?_ ?_) ?_) ?_) (by omega)
    · exact (td_lin _ _).trans hm
    · exact td_tau (hV.trans (by omega))
    · exact (td_lin _ _).trans hm
    · exact (td_lin _ _).trans hm
  · refine td_mul (a := m + 1) (b := 2) (td_add ?_ ?_) (td_mul (td_X _) (td_X _) le_rfl) ?_
    · exact td_mul (td_X _) (td_X _) (by omega)
    · exact td_comb hu hv (hw.trans (by omega)) (by omega)
    · omega
  · exact td_mul (Lin1.val_degree hm hc) (td_X _) (by omega)

theorem knowledge_identity_outer {T : Type} [CommRing T] (j : F[X] →+* T) (α β : T) (a c : Lin1 F) (bβ bγ bδ : F) (V u v w : F[X])
    (h : knowledgeEq MvPolynomial.C tau (MvPolynomial.X 0) (MvPolynomial.X 1) (MvPolynomial.X 2) (MvPolynomial.X 3) a c bβ bγ bδ V u v w = 0) :
    (β * j a.uL + α * j a.vL + j a.wL) * (j (C bβ) * β + j V) = 0 ∧ (β * j a.uI + α * j a.vI + j a.wI) * (j (C bβ) * β + j V) = 0 ∧
    (j (C a.α) * α + j (C a.β) * β + j a.U) * (j (C bβ) * β + j V) + (β * j a.uI + α * j a.vI + j a.wI) * j (C bγ) +
      (β * j a.uL + α * j a.vL + j a.wL) * j (C bδ) =
      α * β + (β * j u + α * j v + j w) + (β * j c.uL + α * j c.vL + j c.wL) := by
  let e : F[X] →+* T[X][X] := C.comp (C.comp j)
  let ι : F →+* T[X][X] := e.comp C
  let φ : MvPolynomial (Fin 5) F →+* T[X][X] := MvPolynomial.eval₂Hom ι (![C (C α), C (C β), C X, X, e X] : Fin 5 → T[X][X])
  have hι : φ.comp MvPolynomial.C = ι := by ext1 x; simp [φ]
  have he : φ.comp tau = e := by
    refine Polynomial.ringHom_ext (fun x => ?_) ?_
    · simp [φ, tau, ι, e]
    · simp [φ, tau, e]
  have h' := congrArg φ h
  rw [knowledgeEq_map, hι, he, map_zero] at h'
  simp only [φ, MvPolynomial.eval₂Hom_X', Matrix.cons_val_zero, Matrix.cons_val_one, Matrix.cons_val] at h'
  unfold knowledgeEq Lin1.val at h'
  have h'' := sub_eq_zero.1 h'
  simp only [ι, e, RingHom.comp_apply] at h''
  refine knowledge_outer (T := T) (j (C a.α) * α + j (C a.β) * β + j a.U) (j (C a.δ)) _ _ _ (j (C bγ)) (j (C bδ)) _
    (j (C c.α) * α + j (C c.β) * β + j c.U) (j (C c.δ)) (β * j c.uI + α * j c.vI + j c.wI) _ ?_
  simp only [map_add, map_mul]
  linear_combination h''

/-- If the verification equation holds identically, the combined polynomials satisfy the program's equation. -/
theorem knowledge_identity [IsDomain F] (a c : Lin1 F) (bβ bγ bδ : F) (V u v w : F[X])
    (h : knowledgeEq MvPolynomial.C tau (MvPolynomial.X 0) (MvPolynomial.X 1) (MvPolynomial.X 2) (MvPolynomial.X 3) a c bβ bγ bδ V u v w = 0) :
    (u + c.uL) * (v + c.vL) = w + c.wL := by
  obtain ⟨o1, o2, o3⟩ := knowledge_identity_outer (T := F[X][X][X]) (C.comp C) (C X) X a c bβ bγ bδ V u v w h
  simp only [RingHom.comp_apply] at o1 o2 o3
  obtain ⟨i1, i2, i3, i4, i5⟩ := knowledge_inner (R := F[X]) (C a.α) (C a.β) a.U (C bβ) V a.uI a.vI a.wI a.uL a.vL a.wL (C bγ) (C bδ)
    u v w c.uL c.vL c.wL o1 o2 o3
  rw [← i3, ← i4, ← i5]
  linear_combination a.U * V * i1

/-- Schwartz–Zippel, as a count. -/
theorem schwartz_zippel_card [IsDomain F] [Finite F] {P : MvPolynomial (Fin 5) F} (hP : P ≠ 0) {d : ℕ} (hd : P.totalDegree ≤ d) :
    ({x : Fin 5 → F | MvPolynomial.eval x P = 0} : Set _).ncard ≤ d * Nat.card F ^ 4 := by
  classical
  have := Fintype.ofFinite F
  have h := MvPolynomial.schwartz_zippel_totalDegree hP (Finset.univ : Finset F)
  have hset : ({x : Fin 5 → F | MvPolynomial.eval x P = 0} : Set _) =
      ((Fintype.piFinset fun _ => (Finset.univ : Finset F)).filter fun f => MvPolynomial.eval f P = 0 : Finset _) := by
    ext x; simp
  rw [hset, Set.ncard_coe_finset, Nat.card_eq_fintype_card]
  rw [Finset.card_univ] at h
  have hc : 0 < Fintype.card F := Fintype.card_pos
  have hc' : (0 : ℚ≥0) < Fintype.card F := by exact_mod_cast hc
  rw [div_le_div_iff₀ (by positivity) hc'] at h
  have h2 : (Finset.card ((Fintype.piFinset fun _ => (Finset.univ : Finset F)).filter fun f => MvPolynomial.eval f P = 0)) *
      Fintype.card F ≤ P.totalDegree * Fintype.card F ^ 5 := by exact_mod_cast h
  have h3 : P.totalDegree * Fintype.card F ^ 5 ≤ (d * Fintype.card F ^ 4) * Fintype.card F := by
    rw [mul_assoc, ← pow_succ]; exact Nat.mul_le_mul_right _ hd
  exact Nat.le_of_mul_le_mul_right (h2.trans h3) hc

/-- Either the strategy's polynomials satisfy the program's equation, or few trapdoors satisfy the verification equation. -/
theorem knowledge_count [IsDomain F] [Finite F] (a c : Lin1 F) (bβ bγ bδ : F) (V u v w : F[X]) (m : ℕ) (hm : 0 < m) (ha : a.Small m) (hc : c.Small m)
    (hV : V.natDegree ≤ m - 1) (hu : u.natDegree ≤ m - 1) (hv : v.natDegree ≤ m - 1) (hw : w.natDegree ≤ m - 1) :
    (u + c.uL) * (v + c.vL) = w + c.wL ∨
    ({x : Fin 5 → F | knowledgeEq (RingHom.id F) (evalRingHom (x 4)) (x 0) (x 1) (x 2) (x 3) a c bβ bγ bδ V u v w = 0} : Set _).ncard ≤
      (3 * m + 1) * Nat.card F ^ 4 := by
  by_cases hP : knowledgeEq MvPolynomial.C tau (MvPolynomial.X 0) (MvPolynomial.X 1) (MvPolynomial.X 2) (MvPolynomial.X 3) a c bβ bγ bδ V u v w = 0
  · exact .inl (knowledge_identity a c bβ bγ bδ V u v w hP)
  · right
    have := schwartz_zippel_card hP (knowledgeEq_degree bβ bγ bδ hm ha hc hV hu hv hw)
    refine le_trans (le_of_eq ?_) this
    congr 1
    ext x
    simp only [Set.mem_ofPred_eq]
    rw [knowledgeEq_map]
    have h1 : (MvPolynomial.eval x).comp (MvPolynomial.C : F →+* MvPolynomial (Fin 5) F) = RingHom.id F := by ext y; simp
    have h2 : (MvPolynomial.eval x).comp (tau : F[X] →+* _) = evalRingHom (x 4) := by
      refine Polynomial.ringHom_ext (fun y => ?_) ?_ <;> simp [tau]
    rw [h1, h2]
    simp

end count

end Bellman
