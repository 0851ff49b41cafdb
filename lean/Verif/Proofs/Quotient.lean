import Verif.Groth16.Quotient
import Verif.Proofs.Domain
import Mathlib.Algebra.Polynomial.Div
import Mathlib.Algebra.Polynomial.Degree.Domain

/-!
# The coset pipeline computes a polynomial quotient
-/

namespace Bellman

open PrimeField Finset EvaluationDomain Polynomial

set_option linter.unusedSectionVars false

variable {F : Type} [PrimeField F]

theorem getD_eq_get (l : List F) (i : ℕ) (h : i < l.length) : l.getD i 0 = l[i] := by simp [h]

/-- The polynomial with the given coefficients. -/
noncomputable def toPoly (l : List F) : F[X] := ∑ i ∈ range l.length, C (l.getD i 0) * X ^ i

theorem toPoly_eval (l : List F) (x : F) : (toPoly l).eval x = valAt l.length (fun t => l.getD t 0) x := by
  unfold toPoly valAt
  rw [eval_finset_sum]
  refine sum_congr rfl fun i _ => ?_
  rw [eval_mul, eval_C, eval_pow, eval_X, smul_eq_mul, mul_comm]

theorem toPoly_coeff (l : List F) (i : ℕ) : (toPoly l).coeff i = l.getD i 0 := by
  unfold toPoly
  rw [finset_sum_coeff]
  simp only [coeff_C_mul, coeff_X_pow, mul_ite, mul_one, mul_zero]
  rw [sum_ite_eq]
  split
  · rfl
  · rename_i h
    have h' : l.length ≤ i := by simpa using h
    simp [h']

theorem toPoly_degree (l : List F) : (toPoly l).degree < l.length := by
  rw [degree_lt_iff_coeff_zero]
  intro m hm
  rw [toPoly_coeff]
  simp [hm]

theorem eval_eq_valAt (P : F[X]) (m : ℕ) (h : P.degree < m) (x : F) : P.eval x = valAt m P.coeff x := by
  unfold valAt
  simp only [smul_eq_mul]
  by_cases hP : P = 0
  · subst hP; simp
  rw [eval_eq_sum_range' (n := m)]
  · exact sum_congr rfl fun i _ => mul_comm _ _
  · rwa [natDegree_lt_iff_degree_lt hP]

theorem coeffs_getD (P : F[X]) (m i : ℕ) (hi : i < m) : ((List.range m).map P.coeff).getD i 0 = P.coeff i := by
  simp [hi]

/-- Values on the coset determine the coefficients: the inverse coset transform of the values of a polynomial. -/
theorem icoset_values (w minv ginv : F) (e : ℕ) (g : F) (hp : IsPrimitiveRoot w (2 ^ e)) (hm : minv * 2 ^ e = 1)
    (hg : ginv * g = 1) (P : F[X]) (hP : P.degree < (2 ^ e : ℕ)) (v : List F) (hv : v.length = 2 ^ e)
    (hval : ∀ i < 2 ^ e, v.getD i 0 = P.eval (g * w ^ i)) :
    ((dftList w⁻¹ v).map fun x => minv • x).mapIdx (fun i x => ginv ^ i • x) = (List.range (2 ^ e)).map P.coeff := by
  set l := (List.range (2 ^ e)).map P.coeff with hl
  have hll : l.length = 2 ^ e := by simp [hl]
  have hv' : v = dftList w (l.mapIdx fun i x => g ^ i • x) := by
    apply ext_getD
    · simp [dftList_length, hv, hll]
    · intro i hi
      rw [hv] at hi
      rw [hval i hi, coset_getD _ _ _ _ (by rw [hll]; exact hi), hll, eval_eq_valAt P _ hP]
      exact valAt_congr _ fun t ht => (coeffs_getD P _ t ht).symm
  rw [hv', ifft_fft_list w minv e hp hm _ (by simpa using hll), mapIdx_pow_cancel g ginv hg]

/-- A polynomial of degree below the domain size is determined by its values on the domain. -/
theorem poly_eq_of_domain (w : F) (m : ℕ) (hp : IsPrimitiveRoot w m) (P Q : F[X]) (hP : P.degree < m) (hQ : Q.degree < m)
    (h : ∀ i < m, P.eval (w ^ i) = Q.eval (w ^ i)) : P = Q := by
  refine Polynomial.eq_of_degrees_lt_of_eval_index_eq (s := range m) (v := fun i => w ^ i) ?_ (by simpa using hP) (by simpa using hQ)
    fun i hi => h i (mem_range.1 hi)
  intro i hi j hj hij
  exact hp.pow_inj (mem_range.1 hi) (mem_range.1 hj) hij

/-- `ifft` then `coset_fft` turns values on the domain into values on the coset. -/
theorem toCoset_spec (wk : Worker) (d : EvaluationDomain F F) (hd : d.WF) (h32 : wk.FftFits d.exp) (P : F[X])
    (hP : P.degree < (2 ^ d.exp : ℕ)) (hv : ∀ i < 2 ^ d.exp, d.coeffs.getD i 0 = P.eval (d.omega ^ i)) :
    ∃ v, toCoset wk d = some { d with coeffs := v } ∧ v.length = 2 ^ d.exp ∧
      ∀ i < 2 ^ d.exp, v.getD i 0 = P.eval (MULTIPLICATIVE_GENERATOR * d.omega ^ i) := by
  set l := (dftList d.omegainv d.coeffs).map fun x => d.minv • x with hl
  have hll : l.length = 2 ^ d.exp := by simp [hl, dftList_length, hd.len]
  have hlP : toPoly l = P := by
    refine poly_eq_of_domain d.omega (2 ^ d.exp) hd.prim _ _ (by have := toPoly_degree l; rwa [hll] at this) hP fun i hi => ?_
    have hinv := fft_ifft_list d.omega d.minv d.exp hd.prim hd.minv d.coeffs hd.len
    rw [← hd.omegainv_eq, ← hl] at hinv
    rw [toPoly_eval, ← dftList_getD d.omega l i (by rw [hll]; exact hi), hinv, hv i hi]
  refine ⟨dftList d.omega (l.mapIdx fun i x => (MULTIPLICATIVE_GENERATOR : F) ^ i • x), ?_, ?_, ?_⟩
  · unfold toCoset
    rw [ifft_eq (wk.site 0) _ hd h32]
    simp only [Option.bind_eq_bind, Option.bind_some]
    exact cosetFft_eq _ _ (hd.with_coeffs l (by rw [hll, hd.len])) h32
  · simp [dftList_length, hll]
  · intro i hi
    rw [coset_getD _ _ _ _ (by rw [hll]; exact hi), ← toPoly_eval, hlP]

/-- Quotient by `X^m - 1`. -/
noncomputable def quo (P : F[X]) (m : ℕ) : F[X] := P /ₘ (X ^ m - 1)
/-- Remainder by `X^m - 1`. -/
noncomputable def rem (P : F[X]) (m : ℕ) : F[X] := P %ₘ (X ^ m - 1)

theorem monic_Z (m : ℕ) (hm : 0 < m) : (X ^ m - 1 : F[X]).Monic := by
  simpa using monic_X_pow_sub_C (1 : F) (Nat.pos_iff_ne_zero.1 hm)

theorem natDegree_Z (m : ℕ) : (X ^ m - 1 : F[X]).natDegree = m := by
  simpa using natDegree_X_pow_sub_C (R := F) (n := m) (r := 1)

theorem rem_add_quo (P : F[X]) (m : ℕ) : rem P m + (X ^ m - 1) * quo P m = P := by
  by_cases hm : 0 < m
  · exact modByMonic_add_div P (X ^ m - 1)
  · have : m = 0 := by omega
    subst this
    exact modByMonic_add_div P _

theorem rem_degree (P : F[X]) (m : ℕ) (hm : 0 < m) : (rem P m).degree < m := by
  have h := degree_modByMonic_lt P (monic_Z (F := F) m hm)
  have h2 : (X ^ m - 1 : F[X]).degree = m := by
    rw [degree_eq_natDegree (monic_Z (F := F) m hm).ne_zero, natDegree_Z]
  rwa [h2] at h

theorem quo_natDegree (P : F[X]) (m : ℕ) (hm : 0 < m) : (quo P m).natDegree = P.natDegree - m := by
  unfold quo
  rw [natDegree_divByMonic P (monic_Z (F := F) m hm), natDegree_Z]

/-- The polynomial whose coefficients the pipeline computes: the quotient plus, if the division is not exact, a multiple
of the remainder. -/
noncomputable def hPoly (P : F[X]) (m : ℕ) : F[X] :=
  quo P m + C ((MULTIPLICATIVE_GENERATOR : F) ^ m - 1)⁻¹ * rem P m

theorem natDegree_le_of_degree_lt {P : F[X]} {m : ℕ} (h : P.degree < m) : P.natDegree ≤ m - 1 := by
  by_cases hP : P = 0
  · subst hP; simp
  · have := (natDegree_lt_iff_degree_lt hP).2 h
    omega

theorem natDegree_mul_sub {A B Cc : F[X]} {m : ℕ} (hA : A.degree < m) (hB : B.degree < m)
    (hC : Cc.degree < m) : (A * B - Cc).natDegree ≤ 2 * m - 2 := by
  have h1 := natDegree_le_of_degree_lt hA
  have h2 := natDegree_le_of_degree_lt hB
  have h3 := natDegree_le_of_degree_lt hC
  refine (natDegree_sub_le _ _).trans (max_le (natDegree_mul_le.trans (by omega)) (by omega))

theorem quo_degree {A B Cc : F[X]} {m : ℕ} (hm : 0 < m) (hA : A.degree < m) (hB : B.degree < m) (hC : Cc.degree < m) :
    (quo (A * B - Cc) m).natDegree ≤ m - 2 := by
  rw [quo_natDegree _ _ hm]
  have := natDegree_mul_sub hA hB hC
  omega

theorem degree_C_mul_le' (x : F) (P : F[X]) : (C x * P).degree ≤ P.degree := by
  refine (degree_mul_le _ _).trans ?_
  calc (C x).degree + P.degree ≤ 0 + P.degree := by gcongr; exact degree_C_le
    _ = P.degree := zero_add _

theorem hPoly_degree {A B Cc : F[X]} {m : ℕ} (hm : 0 < m) (hA : A.degree < m) (hB : B.degree < m) (hC : Cc.degree < m) :
    (hPoly (A * B - Cc) m).degree < m := by
  unfold hPoly
  refine (degree_add_le _ _).trans_lt (max_lt ?_ ?_)
  · refine degree_le_natDegree.trans_lt ?_
    have := quo_degree hm hA hB hC
    exact_mod_cast (by omega : (quo (A * B - Cc) m).natDegree < m)
  · refine (degree_C_mul_le' _ _).trans_lt (rem_degree _ _ hm)

theorem hPoly_eval_coset (P : F[X]) (m : ℕ) (w : F) (hw : w ^ m = 1) (hz : (MULTIPLICATIVE_GENERATOR : F) ^ m - 1 ≠ 0)
    (i : ℕ) : (hPoly P m).eval (MULTIPLICATIVE_GENERATOR * w ^ i) =
      ((MULTIPLICATIVE_GENERATOR : F) ^ m - 1)⁻¹ * P.eval (MULTIPLICATIVE_GENERATOR * w ^ i) := by
  set g := (MULTIPLICATIVE_GENERATOR : F)
  set x := g * w ^ i with hx
  have hxm : x ^ m = g ^ m := by
    rw [hx, mul_pow, ← pow_mul, Nat.mul_comm, pow_mul, hw, one_pow, mul_one]
  have hP : P.eval x = (rem P m).eval x + (g ^ m - 1) * (quo P m).eval x := by
    conv_lhs => rw [← rem_add_quo P m]
    simp [hxm]
  rw [hP]
  unfold hPoly
  simp only [eval_add, eval_mul, eval_C]
  rw [mul_add, ← mul_assoc, inv_mul_cancel₀ hz, one_mul, add_comm]

/-- The pipeline of `create_proof`, for arbitrary vectors. -/
theorem hCoeffs_spec (wk : Worker) (a b c : List F) (hab : a.length = b.length) (hac : a.length = c.length)
    (d : EvaluationDomain F F) (hd : fromCoeffs a = some (.ok d)) (h32 : wk.FftFits d.exp) (A B Cc : F[X])
    (hA : A.degree < (2 ^ d.exp : ℕ)) (hB : B.degree < (2 ^ d.exp : ℕ)) (hC : Cc.degree < (2 ^ d.exp : ℕ))
    (va : ∀ i < 2 ^ d.exp, A.eval (d.omega ^ i) = a.getD i 0) (vb : ∀ i < 2 ^ d.exp, B.eval (d.omega ^ i) = b.getD i 0)
    (vc : ∀ i < 2 ^ d.exp, Cc.eval (d.omega ^ i) = c.getD i 0) :
    hCoeffs wk a b c = some (.ok ((List.range (2 ^ d.exp - 1)).map (hPoly (A * B - Cc) (2 ^ d.exp)).coeff)) := by
  -- the three domains have the same size
  have hdom : ∀ l : List F, l.length = a.length → ∃ d' : EvaluationDomain F F, fromCoeffs l = some (.ok d') ∧ d'.WF ∧
      d' = { d with coeffs := l ++ List.replicate (2 ^ d.exp - l.length) 0 } := by
    intro l hl
    unfold fromCoeffs at hd ⊢
    rw [hl]
    rcases sizeLoop_cases (F := F) a.length with ⟨e, he, hle, hmin⟩ | ⟨he, _⟩
    · rcases fromCoeffs_cases (F := F) l with ⟨d', h1, h2, _⟩ | ⟨h1, h2⟩
      · refine ⟨d', ?_, h2, ?_⟩
        · rw [← h1]; unfold fromCoeffs; rw [hl]
        · unfold fromCoeffs at h1
          rw [hl, he] at h1
          rw [he] at hd
          simp only [Option.bind_eq_bind, Option.bind_eq_some_iff, Option.pure_def, Option.some.injEq, Except.ok.injEq] at hd h1
          obtain ⟨x1, y1, x2, y2, x3, y3, rfl⟩ := hd
          obtain ⟨x1', y1', x2', y2', x3', y3', rfl⟩ := h1
          rw [y1] at y1'; rw [y2] at y2'; rw [y3] at y3'
          simp only [Option.some.injEq] at y1' y2' y3'
          subst y1' y2' y3'
          simp only [hl]
      · exfalso
        unfold fromCoeffs at h1
        rw [hl, he] at h1
        simp only [Option.bind_eq_bind, Option.bind_eq_some_iff, Option.pure_def, Option.some.injEq] at h1
        obtain ⟨_, _, _, _, _, _, h⟩ := h1
        cases h
    · rw [he] at hd
      simp at hd
  obtain ⟨da, ea, wa, qa⟩ := hdom a rfl
  obtain ⟨db, eb, wb, qb⟩ := hdom b hab.symm
  obtain ⟨dc, ec, wc, qc⟩ := hdom c hac.symm
  have hpad : ∀ (l : List F) (n i : ℕ), (l ++ List.replicate n 0).getD i 0 = l.getD i 0 := by
    intro l n i
    rw [List.getD_eq_getElem?_getD, List.getD_eq_getElem?_getD, List.getElem?_append]
    split
    · rfl
    · rename_i h
      rw [List.getElem?_eq_none (by omega : l.length ≤ i), List.getElem?_replicate]
      split <;> rfl
  subst qa qb qc
  obtain ⟨v1, e1, l1, g1⟩ := toCoset_spec (wk.site 0) _ wa h32 A hA fun i hi => by rw [va i hi]; exact hpad _ _ _
  obtain ⟨v2, e2, l2, g2⟩ := toCoset_spec (wk.site 1) _ wb h32 B hB fun i hi => by rw [vb i hi]; exact hpad _ _ _
  obtain ⟨v3, e3, l3, g3⟩ := toCoset_spec (wk.site 2) _ wc h32 Cc hC fun i hi => by rw [vc i hi]; exact hpad _ _ _
  simp only at l1 l2 l3 g1 g2 g3 e1 e2 e3
  have hpos : 0 < 2 ^ d.exp := by positivity
  unfold hCoeffs
  rw [ea, eb, ec]
  simp only [Option.bind_eq_bind, Option.bind_some, e1, e2, e3]
  rw [mulAssign_eq _ _ _ (by simp only; rw [l1, l2]) (by simp only; rw [l1]; exact hpos)]
  simp only [Option.bind_some]
  rw [subAssign_eq _ _ _ (by simp [l1, l2, l3]) (by simp [l1, l2])]
  simp only [Option.bind_some]
  set v := List.zipWith (fun x y => x - y) (List.zipWith (fun x y => y • x) v1 v2) v3 with hv
  have hvl : v.length = 2 ^ d.exp := by simp [hv, l1, l2, l3]
  have hvg : ∀ i < 2 ^ d.exp, v.getD i 0 = (A * B - Cc).eval (MULTIPLICATIVE_GENERATOR * d.omega ^ i) := by
    intro i hi
    have t1 := g1 i hi
    have t2 := g2 i hi
    have t3 := g3 i hi
    rw [getD_eq_get _ _ (by omega)] at t1 t2 t3
    rw [getD_eq_get _ _ (by omega)]
    simp only [hv, List.getElem_zipWith, t1, t2, t3, smul_eq_mul, eval_sub, eval_mul]
    ring
  have hwv : ({ d with coeffs := v } : EvaluationDomain F F).WF := by
    have := wa.with_coeffs v (by rw [hvl]; exact wa.len.symm)
    exact this
  rw [divideByZ_eq _ _ hwv]
  simp only [Option.bind_some]
  have hzlen : ({ d with coeffs := v } : EvaluationDomain F F).z (MULTIPLICATIVE_GENERATOR : F) =
      (MULTIPLICATIVE_GENERATOR : F) ^ 2 ^ d.exp - 1 := by unfold EvaluationDomain.z; rw [hvl]
  have hz0 := z_gen_ne_zero _ hwv
  rw [hzlen] at hz0 ⊢
  set u := v.map fun x => ((MULTIPLICATIVE_GENERATOR : F) ^ 2 ^ d.exp - 1)⁻¹ • x with hu
  have hul : u.length = 2 ^ d.exp := by simp [hu, hvl]
  have hwu : ({ d with coeffs := u } : EvaluationDomain F F).WF := by
    have := wa.with_coeffs u (by rw [hul]; exact wa.len.symm)
    exact this
  rw [icosetFft_eq (wk.site 6) _ hwu h32]
  simp only [Option.bind_some]
  rw [wa.omegainv_eq]
  rw [icoset_values d.omega d.minv d.geninv d.exp MULTIPLICATIVE_GENERATOR wa.prim wa.minv wa.geninv
    (hPoly (A * B - Cc) (2 ^ d.exp)) (hPoly_degree hpos hA hB hC) u hul (fun i hi => by
      rw [hu, getD_map_smul, hvg i hi, hPoly_eval_coset _ _ _ wa.prim.pow_eq_one hz0, smul_eq_mul])]
  simp only [EvaluationDomain.intoCoeffs, Option.pure_def, List.length_map, List.length_range]
  rw [← List.map_take, List.take_range, Nat.min_eq_left (by omega)]

end Bellman
