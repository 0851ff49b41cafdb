import Verif.Props.Knowledge
import Verif.Props.Serialize
import Verif.Gadgets.Num
import Verif.Spec.Constrained

/-!
# C46: which variables make key generation fail, and which parameters can be stored
-/

namespace Bellman

open Polynomial PrimeField Finset

set_option linter.unusedSectionVars false

variable {F G1 G2 : Type} [PrimeField F] [AddCommGroup G1] [AddCommGroup G2] [Module F G1] [Module F G2] [DecidableEq G1] [DecidableEq G2]

theorem ncard_first (f : F → F → F → F → F) :
    ({x : F × F × F × F × F | x.1 = f x.2.1 x.2.2.1 x.2.2.2.1 x.2.2.2.2} : Set _).ncard ≤ p F ^ 4 := by
  have := PrimeField.finite (F := F)
  rw [← PrimeField.card_eq (F := F)]
  have : Nat.card (F × F × F × F) = Nat.card F ^ 4 := by simp only [Nat.card_prod]; ring
  rw [← this, ← Set.ncard_univ]
  refine Set.ncard_le_ncard_of_injOn (fun x => x.2) (fun _ _ => Set.mem_univ _) ?_ (Set.toFinite _)
  rintro ⟨a, b⟩ h ⟨a', b'⟩ h' (rfl : b = b')
  exact congrArg (·, b) (h.trans h'.symm)

theorem ncard_second (f : F → F → F → F → F) :
    ({x : F × F × F × F × F | x.2.1 = f x.1 x.2.2.1 x.2.2.2.1 x.2.2.2.2} : Set _).ncard ≤ p F ^ 4 := by
  have := PrimeField.finite (F := F)
  rw [← PrimeField.card_eq (F := F)]
  have : Nat.card (F × F × F × F) = Nat.card F ^ 4 := by simp only [Nat.card_prod]; ring
  rw [← this, ← Set.ncard_univ]
  refine Set.ncard_le_ncard_of_injOn (fun x => (x.1, x.2.2)) (fun _ _ => Set.mem_univ _) ?_ (Set.toFinite _)
  rintro ⟨a, b, c⟩ h ⟨a', b', c'⟩ h' e
  simp only [Prod.mk.injEq] at e
  obtain ⟨rfl, rfl⟩ := e
  exact congrArg (fun z => (a, z, c)) (h.trans h'.symm)

/-- Trapdoors at which one fixed combination vanishes. -/
theorem ncard_comb (u v w : F[X]) (m : ℕ) (hm : 0 < m) (hu : u.natDegree ≤ m - 1) (hv : v.natDegree ≤ m - 1) (hw : w.natDegree ≤ m - 1)
    (h : u ≠ 0 ∨ v ≠ 0 ∨ w ≠ 0) :
    ({x : F × F × F × F × F | x.2.1 * u.eval x.2.2.2.2 + x.1 * v.eval x.2.2.2.2 + w.eval x.2.2.2.2 = 0} : Set _).ncard ≤ m * p F ^ 4 := by
  classical
  have := PrimeField.finite (F := F)
  have hr : ∀ q : F[X], q.natDegree ≤ m - 1 → ({x : F × F × F × F × F | x.2.2.2.2 ∈ q.roots.toFinset} : Set _).ncard ≤ (m - 1) * p F ^ 4 := by
    intro q hq
    rw [ncard_last, PrimeField.card_eq]
    exact Nat.mul_le_mul_right _ ((Multiset.toFinset_card_le _).trans ((card_roots' _).trans hq))
  have hmm : m * p F ^ 4 = (m - 1) * p F ^ 4 + p F ^ 4 := by
    obtain ⟨k, rfl⟩ : ∃ k, m = k + 1 := ⟨m - 1, by omega⟩
    rw [Nat.add_sub_cancel]; ring
  have hmem : ∀ (q : F[X]) (τ : F), q ≠ 0 → q.eval τ = 0 → τ ∈ q.roots.toFinset := fun q τ hq h0 =>
    Multiset.mem_toFinset.2 ((mem_roots hq).2 h0)
  by_cases hu0 : u = 0
  · by_cases hv0 : v = 0
    · have hw0 : w ≠ 0 := by simpa [hu0, hv0] using h
      refine (Set.ncard_le_ncard ?_ (Set.toFinite _)).trans ((hr w hw).trans (Nat.mul_le_mul_right _ (Nat.sub_le _ _)))
      rintro x hx
      simp only [hu0, hv0, eval_zero, mul_zero, zero_add, Set.mem_ofPred_eq] at hx
      exact hmem w _ hw0 hx
    · rw [hmm]
      refine (Set.ncard_le_ncard ?_ (Set.toFinite _)).trans ((Set.ncard_union_le _ _).trans
        (add_le_add (hr v hv) (ncard_first fun _ _ _ τ => - w.eval τ / v.eval τ)))
      rintro x hx
      simp only [hu0, eval_zero, mul_zero, zero_add, Set.mem_ofPred_eq] at hx
      by_cases h0 : v.eval x.2.2.2.2 = 0
      · exact .inl (hmem v _ hv0 h0)
      · right
        rw [Set.mem_ofPred_eq, eq_div_iff h0]
        linear_combination hx
  · rw [hmm]
    refine (Set.ncard_le_ncard ?_ (Set.toFinite _)).trans ((Set.ncard_union_le _ _).trans
      (add_le_add (hr u hu) (ncard_second fun α _ _ τ => - (α * v.eval τ + w.eval τ) / u.eval τ)))
    rintro x hx
    simp only [Set.mem_ofPred_eq] at hx
    by_cases h0 : u.eval x.2.2.2.2 = 0
    · exact .inl (hmem u _ hu0 h0)
    · right
      rw [Set.mem_ofPred_eq, eq_div_iff h0]
      linear_combination hx

theorem Qap.interp_ne_zero {q : Qap F} {e : ℕ} (hg : q.Good e) (sel : Row F → LC F) (x : Var) (h : ∃ r ∈ q.rows, (sel r).coeffOf x ≠ 0) :
    q.interp (q.entry sel x) ≠ 0 := by
  obtain ⟨r, hr, hne⟩ := h
  intro h0
  obtain ⟨j, hj, hjr⟩ := List.getElem_of_mem hr
  have he := Qap.interp_eval hg (q.entry sel x) j (lt_of_lt_of_le hj hg.len)
  rw [h0, eval_zero] at he
  unfold Qap.entry at he
  rw [List.getElem?_eq_getElem hj, hjr] at he
  exact hne he.symm

theorem Qap.comb_count {q : Qap F} {e : ℕ} (hg : q.Good e) (x : Var) (hx : Constrained q.rows x) :
    ({y : F × F × F × F × F | q.comb y.1 y.2.1 y.2.2.2.2 x = 0} : Set _).ncard ≤ q.m * p F ^ 4 := by
  have hm : 0 < q.m := by rw [hg.m]; positivity
  refine ncard_comb _ _ _ _ hm (Qap.natDegree_interp hg _) (Qap.natDegree_interp hg _) (Qap.natDegree_interp hg _) ?_
  obtain ⟨r, hr, h | h | h⟩ := hx
  · exact .inl (Qap.interp_ne_zero hg _ x ⟨r, hr, h⟩)
  · exact .inr (.inl (Qap.interp_ne_zero hg _ x ⟨r, hr, h⟩))
  · exact .inr (.inr (Qap.interp_ne_zero hg _ x ⟨r, hr, h⟩))

theorem ncard_biUnion_range {X : Type} [Finite X] (n k : ℕ) (A : ℕ → Set X) (h : ∀ i < n, (A i).ncard ≤ k) :
    {x | ∃ i < n, x ∈ A i}.ncard ≤ n * k := by
  induction n with
  | zero => simp
  | succ n ih =>
    refine (Set.ncard_le_ncard (t := {x | ∃ i < n, x ∈ A i} ∪ A n) ?_ (Set.toFinite _)).trans ((Set.ncard_union_le _ _).trans ?_)
    · rintro x ⟨i, hi, hx⟩
      rcases Nat.lt_succ_iff_lt_or_eq.1 hi with hi | rfl
      · exact .inl ⟨i, hi, hx⟩
      · exact .inr hx
    · rw [Nat.add_mul, Nat.one_mul]
      exact add_le_add (ih fun i hi => h i (by omega)) (h n (by omega))

/-- C46: an auxiliary variable that no constraint depends on makes key generation fail for all trapdoors. -/
theorem C46_unconstrained (w : Worker) (kc : Synth F Unit) (g1 : G1) (g2 : G2) (α β γ δ τ : F) (t : List (Ev F)) (ht : KeyTrace kc t)
    (i : ℕ) (hi : i < numAux t) (hun : ¬ Constrained (consOf t) (.aux i)) (params : Parameters G1 G2) :
    generateParameters w kc g1 g2 α β γ δ τ ≠ Res.ok params := by
  intro hk
  obtain ⟨t', ht', _, rfl, _, _, hl, _⟩ := C29_crs w kc g1 g2 α β γ δ τ params hk
  cases ht'.unique ht
  have hz : ∀ sel : Row F → LC F, (∀ r ∈ consOf t, (sel r).coeffOf (.aux i) = 0) →
      (∀ r ∈ (inputRows (numIn t + 1) : List (Row F)), (sel r).coeffOf (.aux i) = 0) →
      (Qap.ofTrace t).interp ((Qap.ofTrace t).entry sel (.aux i)) = 0 := by
    intro sel h1 h2
    have : (Qap.ofTrace t).entry sel (.aux i) = 0 := by
      funext j
      unfold Qap.entry
      split
      · rename_i r hr
        rcases List.mem_append.1 (List.mem_of_getElem? hr) with hr | hr
        · exact h1 r hr
        · exact h2 r hr
      · rfl
    rw [this]
    unfold Qap.interp
    exact map_zero _
  have hin : ∀ r ∈ (inputRows (numIn t + 1) : List (Row F)), r.1.coeffOf (.aux i) = 0 ∧ r.2.1.coeffOf (.aux i) = 0 ∧ r.2.2.coeffOf (.aux i) = 0 := by
    intro r hr
    obtain ⟨j, _, rfl⟩ := List.mem_map.1 hr
    simp [LC.coeffOf]
  unfold Constrained at hun
  push Not at hun
  refine hl _ (List.mem_map.2 ⟨i, List.mem_range.2 hi, rfl⟩) ?_
  unfold Qap.comb Qap.u Qap.v Qap.w
  rw [hz _ (fun r hr => (hun r hr).1) fun r hr => (hin r hr).1, hz _ (fun r hr => (hun r hr).2.1) fun r hr => (hin r hr).2.1,
    hz _ (fun r hr => (hun r hr).2.2) fun r hr => (hin r hr).2.2]
  simp

/-- C46: if every auxiliary variable is constrained and the circuit fits the field, key generation succeeds except for a fraction
`(k m + 2) / |F|` of the trapdoors, `k` being the number of auxiliary variables and `m` the size of the domain. -/
theorem C46_constrained (w : Worker) (kc : Synth F Unit) (g1 : G1) (g2 : G2) (hg1 : g1 ≠ 0) (t : List (Ev F)) (ht : KeyTrace kc t)
    (hc : ∀ i < numAux t, Constrained (consOf t) (.aux i)) (hsm : (consOf t).length + (numIn t + 1) ≤ 2 ^ (S F - 1))
    (hf : w.FftFits (Nat.clog 2 ((consOf t).length + (numIn t + 1)))) (hw : w.multicore = true ∨ 0 < numAux t) :
    ({x : F × F × F × F × F | ¬ ∃ params, generateParameters w kc g1 g2 x.1 x.2.1 x.2.2.1 x.2.2.2.1 x.2.2.2.2 = Res.ok params} :
      Set _).ncard ≤ (numAux t * (Qap.ofTrace t).m + 2) * p F ^ 4 := by
  have := PrimeField.finite (F := F)
  classical
  set q := Qap.ofTrace t with hq
  have hlen : q.rows.length = (consOf t).length + (numIn t + 1) := by simp [hq, Qap.ofTrace, Qap.ofRows, inputRows]
  have hg : q.Good (Nat.clog 2 q.rows.length) := Qap.ofTrace_good t (by rw [hlen]; exact hsm)
  have hm1 : w.multicore = true ∨ 1 < q.m ∧ 0 < numAux t := by
    rcases hw with h | h
    · exact .inl h
    · refine .inr ⟨?_, h⟩
      obtain ⟨r, hr, _⟩ := hc 0 h
      have : 0 < (consOf t).length := List.length_pos_of_mem hr
      rw [hg.m]
      have h2 : q.rows.length ≤ 2 ^ Nat.clog 2 q.rows.length := Nat.le_pow_clog (by norm_num) _
      omega
  refine (Set.ncard_le_ncard (t := ({x : F × F × F × F × F | ∃ i < numAux t, x ∈ {y : F × F × F × F × F | q.comb y.1 y.2.1 y.2.2.2.2 (.aux i) = 0}} ∪
    ({x | x.2.2.1 = 0} ∪ {x | x.2.2.2.1 = 0}))) ?_ (Set.toFinite _)).trans ((Set.ncard_union_le _ _).trans ?_)
  · rintro ⟨α, β, γ, δ, τ⟩ hx
    rcases C29_outcome w kc g1 g2 α β γ δ τ t ht (by rw [← hq, hlen]; exact hf) hm1 with h | h | h | h
    · exact absurd h.1 (by rw [← hq, hlen]; omega)
    · rcases h.2.1 with h | h
      · exact .inr (.inl h)
      · exact .inr (.inr h)
    · obtain ⟨_, _, hδ, ⟨i, hi, h⟩, _⟩ := h
      refine .inl ⟨i, hi, ?_⟩
      rcases smul_eq_zero.1 h with h | h
      · exact (div_eq_zero_iff.1 h).resolve_right hδ
      · exact absurd h hg1
    · exact absurd ⟨_, h.2.2.2.2⟩ hx
  · rw [add_mul, Nat.mul_assoc]
    refine add_le_add (ncard_biUnion_range _ _ _ fun i hi => ?_) ((Set.ncard_union_le _ _).trans ?_)
    · obtain ⟨r, hr, h⟩ := hc i hi
      exact Qap.comb_count hg _ ⟨r, List.mem_append_left _ hr, h⟩
    · have h3 : ({x : F × F × F × F × F | x.2.2.1 = 0} : Set _).ncard ≤ p F ^ 4 := by
        rw [← PrimeField.card_eq (F := F), show Nat.card F ^ 4 = Nat.card (F × F × F × F) by simp only [Nat.card_prod]; ring, ← Set.ncard_univ]
        refine Set.ncard_le_ncard_of_injOn (fun x => (x.1, x.2.1, x.2.2.2)) (fun _ _ => Set.mem_univ _) ?_ (Set.toFinite _)
        rintro ⟨a, b, c, d⟩ h ⟨a', b', c', d'⟩ h' e
        simp only [Prod.mk.injEq, Set.mem_ofPred_eq] at e h h'
        obtain ⟨rfl, rfl, rfl⟩ := e
        rw [h, h']
      have h4 : ({x : F × F × F × F × F | x.2.2.2.1 = 0} : Set _).ncard ≤ p F ^ 4 := by
        rw [← PrimeField.card_eq (F := F), show Nat.card F ^ 4 = Nat.card (F × F × F × F) by simp only [Nat.card_prod]; ring, ← Set.ncard_univ]
        refine Set.ncard_le_ncard_of_injOn (fun x => (x.1, x.2.1, x.2.2.1, x.2.2.2.2)) (fun _ _ => Set.mem_univ _) ?_ (Set.toFinite _)
        rintro ⟨a, b, c, d, e⟩ h ⟨a', b', c', d', e'⟩ h' hh
        simp only [Prod.mk.injEq, Set.mem_ofPred_eq] at hh h h'
        obtain ⟨rfl, rfl, rfl, rfl⟩ := hh
        rw [h, h']
      omega

/-- C46: the parameters that key generation returns contain no identity, so that they can be written and read back, except for a
fraction `(n m + m + 1) / |F|` of the trapdoors, `n` being the number of inputs with the constant one. -/
theorem C46_storable (kc : Synth F Unit) (t : List (Ev F)) (ht : KeyTrace kc t) :
    ({x : F × F × F × F × F | ∃ (w : Worker) (g1 : G1) (g2 : G2) (params : Parameters G1 G2), g1 ≠ 0 ∧ g2 ≠ 0 ∧
        generateParameters w kc g1 g2 x.1 x.2.1 x.2.2.1 x.2.2.2.1 x.2.2.2.2 = Res.ok params ∧
        ¬ ((∀ v ∈ [params.vk.ic, params.h, params.l, params.a, params.bG1], ∀ g ∈ v, g ≠ 0) ∧ ∀ g ∈ params.bG2, g ≠ 0)} : Set _).ncard ≤
      ((numIn t + 1) * (Qap.ofTrace t).m + (Qap.ofTrace t).m + 1) * p F ^ 4 := by
  classical
  have := PrimeField.finite (F := F)
  set q := Qap.ofTrace t with hq
  by_cases hsm : q.rows.length ≤ 2 ^ (S F - 1)
  swap
  · refine le_trans (le_of_eq ?_) (Nat.zero_le _)
    rw [Set.ncard_eq_zero (Set.toFinite _), Set.eq_empty_iff_forall_notMem]
    rintro x ⟨w, g1, g2, params, _, _, hk, _⟩
    obtain ⟨t', ht', _, _, _, _, _, hsm'⟩ := C29_crs w kc g1 g2 _ _ _ _ _ params hk
    rw [ht'.unique ht] at hsm'
    exact hsm hsm'
  have hg : q.Good (Nat.clog 2 q.rows.length) := Qap.ofTrace_good t hsm
  have hmpos : 0 < q.m := by rw [hg.m]; positivity
  have hZ0 : q.Z ≠ 0 := (monic_X_pow_sub_C (1 : F) hmpos.ne').ne_zero
  have hZdeg : q.Z.natDegree = q.m := natDegree_X_pow_sub_C
  let bad : Finset F := q.Z.roots.toFinset ∪ {0}
  have hbad : bad.card ≤ q.m + 1 := by
    refine (card_union_le _ _).trans ?_
    rw [card_singleton]
    exact Nat.add_le_add_right ((Multiset.toFinset_card_le _).trans ((card_roots' _).trans hZdeg.le)) 1
  refine (Set.ncard_le_ncard (t := ({x : F × F × F × F × F | ∃ i < numIn t + 1, x ∈ {y : F × F × F × F × F | q.comb y.1 y.2.1 y.2.2.2.2 (.input i) = 0}} ∪
    {x | x.2.2.2.2 ∈ bad})) ?_ (Set.toFinite _)).trans ((Set.ncard_union_le _ _).trans ?_)
  · rintro ⟨α, β, γ, δ, τ⟩ ⟨w, g1, g2, params, hg1, hg2, hk, hx⟩
    obtain ⟨t', ht', _, he, hγ, hδ, hl, _⟩ := C29_crs w kc g1 g2 _ _ _ _ _ params hk
    cases ht'.unique ht
    obtain ⟨_, _, _, _, _, _, ha, hb1, hb2⟩ := C29_lengths t g1 g2 _ _ _ _ _ params he
    by_contra hn
    refine hx ⟨?_, hb2⟩
    have hn1 : ∀ i < numIn t + 1, q.comb α β τ (.input i) ≠ 0 := fun i hi h0 => hn (.inl ⟨i, hi, h0⟩)
    have hn2 : τ ∉ bad := fun h => hn (.inr h)
    simp only [bad, mem_union, mem_singleton, Multiset.mem_toFinset, not_or] at hn2
    have hic : ∀ g ∈ params.vk.ic, g ≠ 0 := by
      rw [he]
      intro g hg
      obtain ⟨i, hi, rfl⟩ := List.mem_map.1 hg
      exact smul_ne_zero (div_ne_zero (hn1 i (List.mem_range.1 hi)) hγ) hg1
    have hh : ∀ g ∈ params.h, g ≠ 0 := by
      rw [he]
      intro g hg
      obtain ⟨i, hi, rfl⟩ := List.mem_map.1 hg
      exact smul_ne_zero (div_ne_zero (mul_ne_zero (pow_ne_zero _ hn2.2) fun h0 => hn2.1 ((mem_roots hZ0).2 h0)) hδ) hg1
    intro v hv
    simp only [List.mem_cons, List.not_mem_nil, or_false] at hv
    rcases hv with rfl | rfl | rfl | rfl | rfl
    exacts [hic, hh, hl, ha, hb1]
  · rw [Nat.add_assoc, add_mul, Nat.mul_assoc]
    refine add_le_add (ncard_biUnion_range _ _ _ fun i hi => ?_) ?_
    · refine Qap.comb_count hg _ ⟨(⟨[(.input i, 1)]⟩, ⟨[]⟩, ⟨[]⟩), List.mem_append_right _ (List.mem_map.2 ⟨i, List.mem_range.2 hi, rfl⟩), .inl ?_⟩
      simp [LC.coeffOf]
    · rw [ncard_last, PrimeField.card_eq]
      exact Nat.mul_le_mul_right _ hbad

/-- C46: the whole way through files. Parameters are generated and written; whoever reads them (with or without checks) can prove, and
the proof, written and read, is accepted under the key that was read, or under the verifying key written on its own. The codecs accept
the multiples of the two generators; no element that is stored is the identity (see `C46_storable`). -/
theorem C46_files {GT : Type} [AddCommGroup GT] [Module F GT] [DecidableEq GT] (E : Engine F G1 G2 GT) (c1 : PointCodec G1) (c2 : PointCodec G2)
    {R : Unit → Unit → Prop} {kc pc : Synth F Unit} (h : SShape R kc pc) (w w' : Worker) (g1 : G1) (g2 : G2)
    (hv1 : ∀ a : F, c1.Valid (a • g1)) (hv2 : ∀ a : F, c2.Valid (a • g2)) (α β γ δ τ r s : F) (params : Parameters G1 G2)
    (hk : generateParameters w kc g1 g2 α β γ δ τ = Res.ok params)
    (h0 : ∀ v ∈ [params.vk.ic, params.h, params.l, params.a, params.bG1], (∀ g ∈ v, g ≠ 0) ∧ v.length < 2 ^ 32)
    (h0' : (∀ g ∈ params.bG2, g ≠ 0) ∧ params.bG2.length < 2 ^ 32) (t : List (Ev F)) (ht : ProverTrace pc t) (hs : Sat (witness t) t)
    (checked : Bool) :
    ∃ pbytes vbytes, params.write c1 c2 ⟨[], none⟩ = (.ok (), ⟨pbytes, none⟩) ∧ params.vk.write c1 c2 ⟨[], none⟩ = (.ok (), ⟨vbytes, none⟩) ∧
      ∃ params' vk', Parameters.read c1 c2 checked pbytes = some (.ok (params', [])) ∧
        VerifyingKey.read c1 c2 vbytes = some (.ok (vk', [])) ∧
        ∀ pf, createProof w' pc params' r s = Res.ok pf → pf.a ≠ 0 → pf.b ≠ 0 → pf.c ≠ 0 →
          ∃ fbytes, pf.write c1 c2 ⟨[], none⟩ = (.ok (), ⟨fbytes, none⟩) ∧
            ∃ pf', Proof.read c1 c2 fbytes = some (.ok (pf', [])) ∧
              verifyProof E (prepareVerifyingKey E params'.vk) pf' (inVals t) = some (.ok ()) ∧
              verifyProof E (prepareVerifyingKey E vk') pf' (inVals t) = some (.ok ()) := by
  obtain ⟨t0, ht0, _, he, _⟩ := C29_crs w kc g1 g2 α β γ δ τ params hk
  have hvk : params.vk.Valid c1 c2 := by
    rw [he]
    refine ⟨hv1 _, hv1 _, hv2 _, hv2 _, hv1 _, hv2 _, fun g hg => ?_⟩
    obtain ⟨i, _, rfl⟩ := List.mem_map.1 hg
    exact hv1 _
  have hv : params.Valid c1 c2 := by
    rw [he]
    refine ⟨fun g hg => ?_, fun g hg => ?_, fun g hg => ?_, fun g hg => ?_, fun g hg => ?_⟩
    · obtain ⟨i, _, rfl⟩ := List.mem_map.1 hg
      exact hv1 _
    · obtain ⟨i, _, rfl⟩ := List.mem_map.1 hg
      exact hv1 _
    · obtain ⟨i, _, rfl⟩ := List.mem_map.1 (List.mem_filter.1 hg).1
      exact hv1 _
    · obtain ⟨i, _, rfl⟩ := List.mem_map.1 (List.mem_filter.1 hg).1
      exact hv1 _
    · obtain ⟨i, _, rfl⟩ := List.mem_map.1 (List.mem_filter.1 hg).1
      exact hv2 _
  obtain ⟨pbytes, p1, p2⟩ := C37_parameters c1 c2 checked params hvk (fun _ => hv) h0 h0'
  obtain ⟨vbytes, v1, v2⟩ := C37_vk c1 c2 params.vk hvk (h0 _ (by simp)).1 (h0 _ (by simp)).2
  refine ⟨pbytes, vbytes, p1 [], v1 [], params, params.vk, ?_, ?_, fun pf hp ha hb hc => ?_⟩
  · simpa using p2 []
  · simpa using v2 []
  · obtain ⟨_, _, _, _, _, _, _, _, _, _, _, hpf⟩ := prove_spec h hk hp
    have hpv : pf.Valid c1 c2 := by
      rw [hpf]
      exact ⟨hv1 _, hv2 _, hv1 _⟩
    obtain ⟨fbytes, f1, f2⟩ := C37_proof c1 c2 pf hpv ha hb hc
    have hacc := C30_completeness E w w' h g1 g2 α β γ δ τ r s params pf hk hp t ht hs
    exact ⟨fbytes, f1 [], pf, by simpa using f2 [], hacc, hacc⟩

/-! ### The hypotheses are met -/

/-- `squareCircuit` constrains its variable: key generation fails for at most a fraction `6 / 64513` of the trapdoors. -/
example (w : Worker) : ({x : DummyFr × DummyFr × DummyFr × DummyFr × DummyFr | ¬ ∃ params : Parameters DummyFr DummyFr,
    generateParameters w (squareCircuit none) 1 1 x.1 x.2.1 x.2.2.1 x.2.2.2.1 x.2.2.2.2 = Res.ok params} : Set _).ncard ≤ 6 * 64513 ^ 4 := by
  have h := C46_constrained (G1 := DummyFr) (G2 := DummyFr) w (squareCircuit none) 1 1 one_ne_zero squareTrace squareTrace_key
    (fun i hi => ?_) (by decide) (by
      show w.FftFits (Nat.clog 2 (Qap.ofTrace squareTrace).rows.length)
      rw [square_clog]; exact .inl (by norm_num)) (.inr (by decide))
  · rw [show (Qap.ofTrace squareTrace).m = 4 from square_good.m] at h
    exact h
  · have : i = 0 := by
      have : numAux squareTrace = 1 := rfl
      omega
    subst this
    exact ⟨(⟨[(.aux 0, 1)]⟩, ⟨[(.aux 0, 1), (.input 1, 0)]⟩, ⟨[(.input 1, 1)]⟩), by simp [squareTrace, consOf], .inl (by simp [LC.coeffOf])⟩

/-- A circuit that allocates a number and forgets to constrain it. -/
def looseCircuit (x : Option DummyFr) : Synth DummyFr Unit := do
  let _ ← AllocatedNum.alloc (Synth.optGet x)

theorem looseTrace_key : KeyTrace (looseCircuit none) [.alloc false "num" (.aux 0) none] where
  exec := .allocSkip _ (.ret _)
  numbered := ⟨rfl, trivial⟩
  inScope := trivial

example (w : Worker) (α β γ δ τ : DummyFr) (params : Parameters DummyFr DummyFr) :
    generateParameters w (looseCircuit none) (1 : DummyFr) (1 : DummyFr) α β γ δ τ ≠ Res.ok params :=
  C46_unconstrained w _ _ _ _ _ _ _ _ _ looseTrace_key 0 (by decide) (by rintro ⟨r, hr, _⟩; cases hr) params

/-- Two bytes for an element of the 16-bit field. -/
def fieldCodec : PointCodec DummyFr :=
  let enc (g : DummyFr) : List UInt8 := [UInt8.ofNat (val g / 256), UInt8.ofNat (val g % 256)]
  let dec : List UInt8 → Option DummyFr
    | [a, b] => if a.toNat * 256 + b.toNat < 64513 then some ((a.toNat * 256 + b.toNat : ℕ) : DummyFr) else none
    | _ => none
  have hp : p DummyFr = 64513 := rfl
  have hed : ∀ g, dec (enc g) = some g := fun g => by
    have hlt : val g < 64513 := val_lt g
    have h1 : (UInt8.ofNat (val g / 256)).toNat = val g / 256 := by
      rw [UInt8.toNat_ofNat']; exact Nat.mod_eq_of_lt (by omega)
    have h2 : (UInt8.ofNat (val g % 256)).toNat = val g % 256 := by
      rw [UInt8.toNat_ofNat']; exact Nat.mod_eq_of_lt (by omega)
    show (if _ then _ else _) = _
    rw [h1, h2, Nat.div_add_mod', if_pos hlt, cast_val]
  have hde : ∀ bs g, dec bs = some g → enc g = bs := fun bs g h => by
    match bs, h with
    | [a, b], h =>
      have h : (if a.toNat * 256 + b.toNat < 64513 then some ((a.toNat * 256 + b.toNat : ℕ) : DummyFr) else none) = some g := h
      split at h
      · rename_i hlt
        cases h
        have hb := b.toNat_lt
        show [UInt8.ofNat (val ((a.toNat * 256 + b.toNat : ℕ) : DummyFr) / 256), UInt8.ofNat (val ((a.toNat * 256 + b.toNat : ℕ) : DummyFr) % 256)] = _
        rw [val_cast_of_lt (by rw [hp]; exact hlt), show (a.toNat * 256 + b.toNat) / 256 = a.toNat by omega,
          show (a.toNat * 256 + b.toNat) % 256 = b.toNat by omega, UInt8.ofNat_toNat, UInt8.ofNat_toNat]
      · cases h
  { size := 2, toBytes := enc, toBytes_length := fun _ => rfl, fromBytes := dec, Valid := fun _ => True
    fromBytes_toBytes := fun g _ => hed g
    fromBytes_valid := fun _ _ _ => trivial
    toBytes_fromBytes := fun bs g _ h => hde bs g h
    usize := 2, toUncompressed := enc, toUncompressed_length := fun _ => rfl, fromUncompressed := dec, fromUncompressedUnchecked := dec
    fromUncompressed_toUncompressed := fun g _ => hed g
    fromUncompressed_valid := fun _ _ _ => trivial
    unchecked_toUncompressed := hed
    toUncompressed_unchecked := fun bs g _ h => hde bs g h
    unchecked_of_checked := fun _ _ h => h }

/-- The hypotheses of `C46_files` hold for the honest proof that 25 is a square. -/
theorem square_storable (w : Worker) : ∃ params, generateParameters w (squareCircuit none) (1 : DummyFr) (1 : DummyFr) 2 5 7 11 3 = Res.ok params ∧
    (∀ a : DummyFr, fieldCodec.Valid (a • (1 : DummyFr))) ∧
    (∀ v ∈ [params.vk.ic, params.h, params.l, params.a, params.bG1], (∀ g ∈ v, g ≠ 0) ∧ v.length < 2 ^ 32) ∧
    (∀ g ∈ params.bG2, g ≠ 0) ∧ params.bG2.length < 2 ^ 32 ∧ ProverTrace (claimCircuit (some 5) (some 25)) (claimTrace 5 25) ∧
    Sat (witness (claimTrace 5 25)) (claimTrace 5 25) := by
  obtain ⟨params, hk, he⟩ := square_generate w
  obtain ⟨l1, l2, l3, l4, l5, l6, z1, z2, z3⟩ := C29_lengths squareTrace _ _ _ _ _ _ _ params he
  obtain ⟨u0, v0, w0, u1, v1, w1, u2, v2, w2⟩ := square_values
  have hn : numIn squareTrace = 1 := rfl
  have hka : numAux squareTrace = 1 := rfl
  have hm : (Qap.ofTrace squareTrace).m = 4 := square_good.m
  have hl : ∀ g ∈ params.l, g ≠ 0 := by
    obtain ⟨_, _, _, _, _, _, h, _⟩ := C29_crs w _ _ _ _ _ _ _ _ params hk
    exact h
  have hic : ∀ g ∈ params.vk.ic, g ≠ 0 := by
    rw [he]
    intro g hg
    obtain ⟨i, hi, rfl⟩ := List.mem_map.1 hg
    have hi : i < 2 := List.mem_range.1 hi
    unfold Qap.comb
    interval_cases i
    · rw [u0, v0, w0]; decide +kernel
    · rw [u1, v1, w1]; decide +kernel
  have hZ : (Qap.ofTrace squareTrace).Z.eval 3 = 80 := by
    unfold Qap.Z
    rw [hm, eval_sub, eval_pow, eval_X, eval_one]
    decide +kernel
  have hh : ∀ g ∈ params.h, g ≠ 0 := by
    rw [he]
    intro g hg
    obtain ⟨i, hi, rfl⟩ := List.mem_map.1 hg
    rw [hZ]
    exact smul_ne_zero (div_ne_zero (mul_ne_zero (pow_ne_zero _ (by decide +kernel)) (by decide +kernel)) (by decide +kernel)) one_ne_zero
  have hlen : params.h.length = 3 := by rw [he]; simp [Qap.crs, hm]
  refine ⟨params, hk, fun _ => trivial, fun v hv => ?_, z3, by omega, claimTrace_prover 5 25, (claimTrace_sat 5 25).2 (by decide)⟩
  simp only [List.mem_cons, List.not_mem_nil, or_false] at hv
  rcases hv with rfl | rfl | rfl | rfl | rfl
  exacts [⟨hic, by omega⟩, ⟨hh, by omega⟩, ⟨hl, by omega⟩, ⟨z1, by omega⟩, ⟨z2, by omega⟩]

end Bellman
