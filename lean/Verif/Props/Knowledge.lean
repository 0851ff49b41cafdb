import Verif.Proofs.Extract
import Verif.Props.Groth16
import Mathlib.FieldTheory.Finite.Basic

/-!
# C42: an algebraic prover that convinces the verifier knows a witness
-/

namespace Bellman

open Polynomial PrimeField Finset

set_option linter.unusedSectionVars false

variable {F G1 G2 GT : Type} [PrimeField F] [AddCommGroup G1] [AddCommGroup G2] [AddCommGroup GT]
  [Module F G1] [Module F G2] [Module F GT] [DecidableEq GT] [DecidableEq G1] [DecidableEq G2]

theorem PrimeField.finite : Finite F := Finite.of_injective (fun x : F => (⟨val x, val_lt x⟩ : Fin (p F))) fun x y h => by
  have : val x = val y := by simpa using h
  rw [← cast_val x, ← cast_val y, this]

theorem PrimeField.card_eq : Nat.card F = p F := by
  have e : F ≃ Fin (p F) :=
    { toFun := fun x => ⟨val x, val_lt x⟩
      invFun := fun i => ((i : ℕ) : F)
      left_inv := fun x => cast_val x
      right_inv := fun i => Fin.ext (val_cast_of_lt i.2) }
  rw [Nat.card_congr e, Nat.card_eq_fintype_card, Fintype.card_fin]

/-- Few `τ` are roots of a variable's polynomial. -/
theorem Qap.exists_generic (q : Qap F) {e : ℕ} (hg : q.Good e) :
    ∃ bad : Finset F, bad.card ≤ 2 * (q.n + q.k) * (q.m - 1) ∧ ∀ τ ∉ bad, q.Generic τ := by
  classical
  have hroots : ∀ f, (q.interp f).roots.toFinset.card ≤ q.m - 1 := fun f =>
    (Multiset.toFinset_card_le _).trans ((card_roots' _).trans (Qap.natDegree_interp hg f))
  refine ⟨q.vars.toFinset.biUnion fun x => (q.u x).roots.toFinset ∪ (q.v x).roots.toFinset, ?_, fun τ hτ x hx => ?_⟩
  · refine (card_biUnion_le_card_mul _ _ (2 * (q.m - 1)) fun x _ => ?_).trans ?_
    · refine (card_union_le _ _).trans ?_
      have h1 := hroots (q.entry (·.1) x)
      have h2 := hroots (q.entry (·.2.1) x)
      unfold Qap.u Qap.v
      omega
    · have : q.vars.toFinset.card ≤ q.n + q.k := (List.toFinset_card_le _).trans (by simp [Qap.vars])
      calc _ ≤ (q.n + q.k) * (2 * (q.m - 1)) := Nat.mul_le_mul_right _ this
        _ = _ := by ring
  · simp only [mem_biUnion, mem_union, not_exists, not_and, not_or, List.mem_toFinset, Multiset.mem_toFinset] at hτ
    obtain ⟨h1, h2⟩ := hτ x hx
    exact ⟨fun h0 he => h1 ((mem_roots h0).2 he), fun h0 he => h2 ((mem_roots h0).2 he)⟩

/-- Trapdoors with fifth component in a given set. -/
theorem ncard_last (bad : Finset F) :
    ({x : F × F × F × F × F | x.2.2.2.2 ∈ bad} : Set _).ncard = bad.card * Nat.card F ^ 4 := by
  have := PrimeField.finite (F := F)
  have := Fintype.ofFinite F
  classical
  have : ({x : F × F × F × F × F | x.2.2.2.2 ∈ bad} : Set _) =
      ((univ : Finset F) ×ˢ (univ : Finset F) ×ˢ (univ : Finset F) ×ˢ (univ : Finset F) ×ˢ bad : Finset _) := by
    ext ⟨a, b, c, d, e⟩; simp
  rw [this, Set.ncard_coe_finset]
  simp only [card_product, card_univ, Nat.card_eq_fintype_card]
  ring

/-- C42: fix a circuit, public inputs and an algebraic strategy, i.e. the coefficients with which the three proof elements are
combined from the elements of the parameters (and the generators).  Either the coefficients of the auxiliary elements `l` in the
third proof element are a witness for the public inputs, or the proof is rejected for all but a fraction `D / |F|` of the
trapdoors, where `D = 3m + 1 + 2 (number of variables) (m - 1)` and `m` is the size of the evaluation domain. -/
theorem C42_knowledge (E : Engine F G1 G2 GT) {kc : Synth F Unit} {t : List (Ev F)} (ht : KeyTrace kc t) (xs : List F)
    (σ : Strategy F) :
    Sat (σ.extract xs) t ∨
    ({x : F × F × F × F × F | ∃ (w : Worker) (g1 : G1) (g2 : G2) (params : Parameters G1 G2), g1 ≠ 0 ∧ g2 ≠ 0 ∧
        generateParameters w kc g1 g2 x.1 x.2.1 x.2.2.1 x.2.2.2.1 x.2.2.2.2 = Res.ok params ∧
        verifyProof E (prepareVerifyingKey E params.vk) (σ.proof g1 g2 params) xs = some (.ok ())} : Set _).ncard ≤
      (3 * (Qap.ofTrace t).m + 1 + 2 * (numIn t + 1 + numAux t) * ((Qap.ofTrace t).m - 1)) * p F ^ 4 := by
  have := PrimeField.finite (F := F)
  set q := Qap.ofTrace t with hq
  have hcard : Nat.card F = p F := PrimeField.card_eq
  by_cases hsm : q.rows.length ≤ 2 ^ (S F - 1)
  swap
  · right
    refine le_trans (le_of_eq ?_) (Nat.zero_le _)
    rw [Set.ncard_eq_zero (Set.toFinite _), Set.eq_empty_iff_forall_notMem]
    rintro x ⟨w, g1, g2, params, _, _, hk, _⟩
    obtain ⟨t', ht', _, _, _, _, _, hsm'⟩ := C29_crs w kc g1 g2 _ _ _ _ _ params hk
    rw [ht'.unique ht] at hsm'
    exact hsm hsm'
  have hg : q.Good (Nat.clog 2 q.rows.length) := Qap.ofTrace_good t hsm
  have hs : q.InScope := ht.qapScope
  have hm : 0 < q.m := by rw [hg.m]; positivity
  have hu : ∀ x, (q.u x).natDegree ≤ q.m - 1 := fun x => Qap.natDegree_interp hg _
  have hv : ∀ x, (q.v x).natDegree ≤ q.m - 1 := fun x => Qap.natDegree_interp hg _
  have hw : ∀ x, (q.w x).natDegree ≤ q.m - 1 := fun x => Qap.natDegree_interp hg _
  rcases knowledge_count (σ.a.lin q) (σ.c.lin q) σ.b.beta σ.b.gamma σ.b.delta (C σ.b.gen + polySum σ.b.b q.v q.bVars)
    (∑ i ∈ range q.n, C (σ.extract xs (.input i)) * q.u (.input i))
    (∑ i ∈ range q.n, C (σ.extract xs (.input i)) * q.v (.input i))
    (∑ i ∈ range q.n, C (σ.extract xs (.input i)) * q.w (.input i)) q.m hm (σ.a.lin_small hg) (σ.c.lin_small hg)
    (natDegree_add_le_of_degree_le (by simp) (polySum_degree hv)) (natDegree_comb_le fun i => hu _)
    (natDegree_comb_le fun i => hv _) (natDegree_comb_le fun i => hw _) with hid | hcount
  · left
    rw [← satBy_of_sat, Qap.satBy_iff hg hs]
    intro j hj
    have hA : q.A (σ.extract xs) * q.B (σ.extract xs) - q.Cc (σ.extract xs) =
        (∑ i ∈ range (q.m - 1), C (σ.c.h i) * X ^ i) * q.Z := by
      unfold Coeffs1.lin at hid
      simp only at hid
      unfold Qap.A Qap.B Qap.Cc
      simp only [show ∀ i, σ.extract xs (.aux i) = σ.c.l i from fun i => rfl]
      linear_combination hid
    rw [hA, eval_mul, Qap.Z, eval_sub, eval_pow, eval_X, eval_one, ← pow_mul, mul_comm j, pow_mul, hg.m, hg.prim.pow_eq_one,
      one_pow, sub_self, mul_zero]
  · right
    obtain ⟨bad, hbad, hgen⟩ := q.exists_generic hg
    rw [hcard] at hcount
    let S1 : Set (F × F × F × F × F) := {x | x.2.2.2.2 ∈ bad}
    let S2 : Set (F × F × F × F × F) := {x | knowledgeEq (RingHom.id F) (evalRingHom x.2.2.2.2) x.1 x.2.1 x.2.2.1 x.2.2.2.1
      (σ.a.lin q) (σ.c.lin q) σ.b.beta σ.b.gamma σ.b.delta (C σ.b.gen + polySum σ.b.b q.v q.bVars)
      (∑ i ∈ range q.n, C (σ.extract xs (.input i)) * q.u (.input i))
      (∑ i ∈ range q.n, C (σ.extract xs (.input i)) * q.v (.input i))
      (∑ i ∈ range q.n, C (σ.extract xs (.input i)) * q.w (.input i)) = 0}
    have h2 : S2.ncard ≤ (3 * q.m + 1) * p F ^ 4 := by
      refine le_trans (Set.ncard_le_ncard_of_injOn (fun x : F × F × F × F × F => (![x.1, x.2.1, x.2.2.1, x.2.2.2.1, x.2.2.2.2] : Fin 5 → F))
        (fun x hx => ?_) ?_ (Set.toFinite _)) hcount
      · exact hx
      · rintro ⟨a, b, c, d, e⟩ _ ⟨a', b', c', d', e'⟩ _ h
        have h0 := congrFun h 0
        have h1 := congrFun h 1
        have h2 := congrFun h 2
        have h3 := congrFun h 3
        have h4 := congrFun h 4
        simp at h0 h1 h2 h3 h4
        simp [h0, h1, h2, h3, h4]
    have h1 : S1.ncard ≤ (2 * (numIn t + 1 + numAux t) * (q.m - 1)) * p F ^ 4 := by
      rw [ncard_last, hcard]; exact Nat.mul_le_mul_right _ hbad
    refine (Set.ncard_le_ncard (t := S1 ∪ S2) ?_ (Set.toFinite _)).trans ((Set.ncard_union_le _ _).trans ?_)
    · rintro ⟨α, β, γ, δ, τ⟩ ⟨w, g1, g2, params, hg1, hg2, hk, hver⟩
      by_cases hτ : τ ∈ bad
      · exact .inl hτ
      · right
        obtain ⟨t', ht', _, rfl, hγ, hδ, _, _⟩ := C29_crs w kc g1 g2 _ _ _ _ _ params hk
        cases ht'.unique ht
        exact accepts_strategy q E σ hg1 hg2 hγ hδ (hgen τ hτ) xs ((verifyProof_ok E _ _ _).1 hver).2
    · rw [add_mul, add_comm]
      exact add_le_add h2 h1

/-- C42: if the public inputs have no witness at all, every algebraic strategy fails for all but a fraction `D / |F|` of the
trapdoors. -/
theorem C42_no_witness (E : Engine F G1 G2 GT) {kc : Synth F Unit} {t : List (Ev F)} (ht : KeyTrace kc t) (xs : List F)
    (hno : ∀ z : Var → F, (∀ i, z (.input i) = ((1 : F) :: xs).getD i 0) → ¬ Sat z t) (σ : Strategy F) :
    ({x : F × F × F × F × F | ∃ (w : Worker) (g1 : G1) (g2 : G2) (params : Parameters G1 G2), g1 ≠ 0 ∧ g2 ≠ 0 ∧
        generateParameters w kc g1 g2 x.1 x.2.1 x.2.2.1 x.2.2.2.1 x.2.2.2.2 = Res.ok params ∧
        verifyProof E (prepareVerifyingKey E params.vk) (σ.proof g1 g2 params) xs = some (.ok ())} : Set _).ncard ≤
      (3 * (Qap.ofTrace t).m + 1 + 2 * (numIn t + 1 + numAux t) * ((Qap.ofTrace t).m - 1)) * p F ^ 4 :=
  (C42_knowledge E ht xs σ).resolve_left (hno _ fun _ => rfl)

/-- The strategy of the honest prover. -/
noncomputable def honestStrategy (q : Qap F) (z : Var → F) (h : F[X]) (r s : F) : Strategy F where
  a := ⟨0, 1, 0, r, 0, 0, 0, fun j => (q.aVars.map z).getD j 0, 0⟩
  b := ⟨0, 1, 0, s, fun j => (q.bVars.map z).getD j 0⟩
  c := ⟨0, s, r, r * s, 0, h.coeff, fun i => z (.aux i), fun j => s * (q.aVars.map z).getD j 0,
    fun j => r * (q.bVars.map z).getD j 0⟩

theorem sum_range_getD {α : Type} [AddCommMonoid α] (f : Var → α) (xs : List Var) : ∑ i ∈ range xs.length, (xs.map f).getD i 0 = (xs.map f).sum := by
  induction xs with
  | nil => simp
  | cons x xs ih =>
    rw [List.length_cons, sum_range_succ', List.map_cons, List.sum_cons, ← ih, add_comm]
    simp

theorem polySum_values (z : Var → F) (f : Var → F[X]) (xs : List Var) (c : F) :
    polySum (fun j => c * (xs.map z).getD j 0) f xs = C c * (xs.map fun x => C (z x) * f x).sum := by
  unfold polySum
  rw [← sum_range_getD, mul_sum]
  refine sum_congr rfl fun i hi => ?_
  have hi := mem_range.1 hi
  simp [List.getD_eq_getElem?_getD, List.getElem?_map, List.getElem?_eq_getElem hi, mul_assoc]

theorem sum_filter_ne (z : Var → F) (f : Var → F[X]) [DecidablePred fun x => f x ≠ 0] (xs : List Var) :
    ((xs.filter fun x => f x ≠ 0).map fun x => C (z x) * f x).sum = (xs.map fun x => C (z x) * f x).sum := by
  induction xs with
  | nil => rfl
  | cons x xs ih =>
    rw [List.filter_cons, List.map_cons, List.sum_cons, ← ih]
    split
    · rw [List.map_cons, List.sum_cons]
    · rename_i h
      simp at h
      simp [h]

theorem list_sum_range {α : Type} [AddCommMonoid α] (f : ℕ → α) (n : ℕ) : ((List.range n).map f).sum = ∑ i ∈ range n, f i := by
  induction n with
  | zero => rfl
  | succ n ih => rw [List.range_succ, List.map_append, List.sum_append, ih, sum_range_succ]; simp

theorem Qap.sum_vars {α : Type} [AddCommMonoid α] (q : Qap F) (f : Var → α) :
    (q.vars.map f).sum = ∑ i ∈ range q.n, f (.input i) + ∑ i ∈ range q.k, f (.aux i) := by
  unfold Qap.vars
  rw [List.map_append, List.sum_append, List.map_map, List.map_map, list_sum_range, list_sum_range]
  rfl

theorem Qap.uses_of_ne (q : Qap F) (sel : Row F → LC F) (x : Var) (h : q.interp (q.entry sel x) ≠ 0) : q.Uses sel x := by
  by_contra hc
  apply h
  have : q.entry sel x = 0 := by
    funext j
    unfold Qap.entry
    split
    · rename_i r hr
      have hr := List.mem_of_getElem? hr
      unfold LC.coeffOf
      refine List.sum_eq_zero fun y hy => ?_
      obtain ⟨⟨v, c⟩, hv, rfl⟩ := List.mem_map.1 hy
      dsimp only
      split
      · rename_i hvx
        subst hvx
        by_contra h0
        exact hc ⟨r, hr, c, h0, hv⟩
      · rfl
    · rfl
  rw [this]
  unfold Qap.interp
  simp

/-- C42: the honest prover is such a strategy: the proof made by `create_proof` is a combination of the elements of the
parameters whose coefficients depend on the witness and the blinding factors only, and the assignment read off it is the witness. -/
theorem C42_honest {R : Unit → Unit → Prop} {kc pc : Synth F Unit} (hsh : SShape R kc pc) {t : List (Ev F)} (ht : ProverTrace pc t)
    (r s : F) :
    ∃ σ : Strategy F, (∀ i, σ.extract (inVals t) (.input i) = witness t (.input i)) ∧
      (∀ i, σ.extract (inVals t) (.aux i) = witness t (.aux i)) ∧
      ∀ (w w' : Worker) (g1 : G1) (g2 : G2) (α β γ δ τ : F) (params : Parameters G1 G2) (pf : Proof G1 G2),
        generateParameters w kc g1 g2 α β γ δ τ = Res.ok params → createProof w' pc params r s = Res.ok pf →
        pf = σ.proof g1 g2 params := by
  classical
  set q := Qap.ofTrace t with hq
  refine ⟨honestStrategy q (witness t) (q.proverH (witness t)) r s, fun i => rfl, fun i => rfl, ?_⟩
  intro w w' g1 g2 α β γ δ τ params pf hk hp
  obtain ⟨t0, t', ht0, ht', hsame, hs, rfl, hγ, hδ, hR, hsm, rfl⟩ := prove_spec hsh hk hp
  cases ht.unique ht'
  have hg1 : g1 ≠ 0 := fun h0 => hR.δ1 (by rw [h0, smul_zero])
  have hg2 : g2 ≠ 0 := fun h0 => hR.δ2 (by rw [h0, smul_zero])
  have hgen : q.Generic τ := fun x hx =>
    ⟨fun h0 h1 => hR.a x hx (q.uses_of_ne _ x h0) (by rw [h1, zero_smul]),
      fun h0 h1 => hR.b1 x hx (q.uses_of_ne _ x h0) (by rw [h1, zero_smul])⟩
  have hg := Qap.ofTrace_good t hsm
  have hA : ∀ c : F, polySum (fun j => c * (q.aVars.map (witness t)).getD j 0) q.u q.aVars = C c * q.A (witness t) := by
    intro c
    rw [polySum_values]
    congr 1
    unfold Qap.aVars
    rw [sum_filter_ne, Qap.sum_vars]
    rfl
  have hB : ∀ c : F, polySum (fun j => c * (q.bVars.map (witness t)).getD j 0) q.v q.bVars = C c * q.B (witness t) := by
    intro c
    rw [polySum_values]
    congr 1
    unfold Qap.bVars
    rw [sum_filter_ne, Qap.sum_vars]
    rfl
  have hA1 := hA 1
  have hB1 := hB 1
  simp only [one_mul, map_one] at hA1 hB1
  have h0 : ∀ (f : Var → F[X]) (xs : List Var), polySum (0 : ℕ → F) f xs = 0 := by
    intro f xs; unfold polySum; simp
  unfold Strategy.proof
  rw [← hq, Coeffs1.apply_eq q _ g2 hg1 hγ hδ hgen, Coeffs1.apply_eq q _ g2 hg1 hγ hδ hgen, Coeffs2.apply_eq q _ g1 hg2 hgen]
  unfold Qap.proof
  simp only
  congr 1
  · congr 1
    unfold Lin1.val Coeffs1.lin honestStrategy
    simp only [hA1, h0, RingHom.id_apply, coe_evalRingHom]
    simp
    field_simp
  · congr 1
    unfold honestStrategy
    simp only [hB1]
    simp
  · congr 1
    have hh : (∑ i ∈ range (q.m - 1), C ((q.proverH (witness t)).coeff i) * X ^ i : F[X]).eval τ = (q.proverH (witness t)).eval τ := by
      rw [Qap.proverH_eval]
      simp [eval_finsetSum]
    unfold Lin1.val Coeffs1.lin honestStrategy
    simp only [hA, hB, RingHom.id_apply, coe_evalRingHom, eval_add, eval_mul, hh, eval_C]
    have hpr : q.priv α β τ (witness t) = β * (∑ i ∈ range q.k, C (witness t (.aux i)) * q.u (.aux i)).eval τ +
        α * (∑ i ∈ range q.k, C (witness t (.aux i)) * q.v (.aux i)).eval τ +
        (∑ i ∈ range q.k, C (witness t (.aux i)) * q.w (.aux i)).eval τ := by
      have := comb_sum q α β τ (fun i => witness t (.aux i)) q.k .aux 1
      simp only [div_one] at this
      exact this
    rw [hpr]
    simp only [Pi.zero_apply, map_zero, zero_mul, sum_const_zero, eval_zero, mul_zero, add_zero, zero_add]
    field_simp
    ring

/-! ### A concrete case -/

/-- The multiplicative generator of a field is not a square. -/
theorem gen_not_square (x : F) : x * x ≠ MULTIPLICATIVE_GENERATOR := by
  intro h
  have hp := two_lt_p (F := F)
  have hx : x ≠ 0 := by
    rintro rfl
    have h1 := gen_order (F := F)
    rw [← h, mul_zero, orderOf_zero] at h1
    omega
  have hodd : 2 ∣ p F - 1 := by
    rcases (prime (F := F)).eq_two_or_odd with h2 | h2
    · exact absurd h2 p_ne_two
    · omega
  have hdvd : p F - 1 ∣ (p F - 1) / 2 := by
    conv_lhs => rw [← gen_order (F := F)]
    rw [orderOf_dvd_iff_pow_eq_one, ← h, ← pow_two, ← pow_mul, Nat.mul_div_cancel' hodd]
    have := PrimeField.finite (F := F)
    have := Fintype.ofFinite F
    rw [← PrimeField.card_eq (F := F), Nat.card_eq_fintype_card]
    exact FiniteField.pow_card_sub_one_eq_one x hx
  have := Nat.le_of_dvd (by omega) hdvd
  omega

/-- `squareCircuit` with the public input 5, which has no square root in the field of 64513 elements: whatever coefficients a prover
uses, its proof is rejected for all but a fraction `31 / 64513` of the trapdoors. -/
example (σ : Strategy DummyFr) :
    ({x : DummyFr × DummyFr × DummyFr × DummyFr × DummyFr | ∃ (w : Worker) (g1 g2 : DummyFr) (params : Parameters DummyFr DummyFr),
        g1 ≠ 0 ∧ g2 ≠ 0 ∧ generateParameters w (squareCircuit none) g1 g2 x.1 x.2.1 x.2.2.1 x.2.2.2.1 x.2.2.2.2 = Res.ok params ∧
        verifyProof (fieldEngine DummyFr) (prepareVerifyingKey (fieldEngine DummyFr) params.vk) (σ.proof g1 g2 params) [5] =
          some (.ok ())} : Set _).ncard ≤ 31 * 64513 ^ 4 := by
  have h := C42_no_witness (fieldEngine DummyFr) squareTrace_key [5] (fun z hz hsat => ?_) σ
  · rw [show (Qap.ofTrace squareTrace).m = 4 from square_good.m] at h
    exact h
  · have h1 := ((Sat_iff_consOf _ _).1 hsat) (⟨[(.aux 0, 1)]⟩, ⟨[(.aux 0, 1), (.input 1, 0)]⟩, ⟨[(.input 1, 1)]⟩) (by
      simp [squareTrace, consOf])
    simp [LC.eval, hz] at h1
    exact gen_not_square _ h1

/-- The honest prover of the same circuit is a strategy from which the witness is read off. -/
example (r s : DummyFr) : ∃ σ : Strategy DummyFr, σ.extract [25] (.aux 0) = 5 ∧
    ∀ (w w' : Worker) (g1 g2 α β γ δ τ : DummyFr) (params : Parameters DummyFr DummyFr) (pf : Proof DummyFr DummyFr),
      generateParameters w (squareCircuit none) g1 g2 α β γ δ τ = Res.ok params →
      createProof w' (claimCircuit (some 5) (some 25)) params r s = Res.ok pf → pf = σ.proof g1 g2 params := by
  obtain ⟨σ, h1, h2, h3⟩ := C42_honest (G1 := DummyFr) (G2 := DummyFr) (claimCircuit_shape none (some 5) (some 25)) (claimTrace_prover 5 25) r s
  exact ⟨σ, h2 0, h3⟩

end Bellman
