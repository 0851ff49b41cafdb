import Verif.Proofs.Mimc
import Verif.Props.Keygen
import Verif.Props.Witness
import Verif.Props.Preimage

/-!
# C48: the MiMC circuit of the integration tests, end to end

`MiMCDemo` proves knowledge of a preimage of a MiMC image. Here every step is unconditional: how many variables and constraints there
are, for how few trapdoors the setup or a proof can fail at all, and what verification means.
-/

set_option linter.unusedSectionVars false

namespace Bellman

open PrimeField Mimc

variable {F : Type} [PrimeField F] {G1 G2 GT : Type} [AddCommGroup G1] [AddCommGroup G2] [AddCommGroup GT] [Module F G1] [Module F G2]
  [Module F GT] [DecidableEq G1] [DecidableEq G2] [DecidableEq GT]

/-- C48: the native function computes the hash of the pseudocode, and panics on a wrong number of constants. -/
theorem C48_native (constants : List F) (xl xr : F) :
    Mimc.mimc xl xr constants = if constants.length = 322 then some (Spec.mimc constants xl xr) else none := by
  unfold Mimc.mimc
  by_cases h : constants.length = 322
  · rw [if_pos (show constants.length = ROUNDS from h), if_pos h]
    have key : ∀ (cs : List F) (a b : F), cs.foldl (fun (st : F × F) c => ((st.1 + c) * (st.1 + c) * (st.1 + c) + st.2, st.1)) (a, b) =
        Spec.mimcRounds cs a b := by
      intro cs
      induction cs with
      | nil => intros; rfl
      | cons c cs ih =>
        intro a b
        rw [List.foldl_cons, ih, Spec.mimcRounds]
        congr 1
        ring
    exact congrArg (fun x => some x.1) (key constants xl xr)
  · rw [if_neg (show ¬ constants.length = ROUNDS from h), if_neg h]

/-- C48: the circuit without a preimage can be set up; it has one public input, 645 auxiliary variables, 644 constraints and a domain of
size 1024. -/
theorem C48_key (cs : List F) (h : cs.length = 322) :
    ∃ t, KeyTrace (Demo.mk none none cs).synthesize t ∧ (∀ t', KeyTrace (Demo.mk none none cs).synthesize t' → t' = t) ∧
      numIn t = 1 ∧ numAux t = 645 ∧ (consOf t).length = 644 ∧ (Qap.ofTrace t).m = 1024 := by
  have hk := keyTrace_demo cs h
  obtain ⟨c1, c2, c3⟩ := counts_demo cs h none
  refine ⟨_, hk, fun t' h' => h'.unique hk, c1, c2, c3, ?_⟩
  have hlen : (Qap.ofTrace (demoTr cs none)).rows.length = 646 := by
    rw [ofTrace_rows, List.length_append, c3, inputRows, List.length_map, List.length_range, c1]
  show 2 ^ Nat.clog 2 (Qap.ofTrace (demoTr cs none)).rows.length = 1024
  rw [hlen]
  have : Nat.clog 2 646 = 10 := by decide +kernel
  rw [this]
  norm_num

/-- C48: whatever satisfies the constraints has a preimage of the public input in its first two auxiliary variables. -/
theorem C48_sound (cs : List F) (h : cs.length = 322) {t : List (Ev F)} (ht : KeyTrace (Demo.mk none none cs).synthesize t) (ρ : Var → F)
    (h1 : ρ .one = 1) (hs : Sat ρ t) : ρ (.input 1) = Spec.mimc cs (ρ (.aux 0)) (ρ (.aux 1)) := by
  cases ht.unique (keyTrace_demo cs h)
  exact sat_demo cs h none h1 hs

/-- C48: with a preimage the prover's witness satisfies the constraints; the public input is the image. -/
theorem C48_complete (cs : List F) (h : cs.length = 322) (xl xr : F) :
    ∃ t, ProverTrace (Demo.mk (some xl) (some xr) cs).synthesize t ∧ Sat (witness t) t ∧ inVals t = [Spec.mimc cs xl xr] ∧
      witness t (.aux 0) = xl ∧ witness t (.aux 1) = xr := by
  have hp := proverTrace_demo cs h xl xr
  have ha : Agrees (witness (demoTr cs (some (xl, xr)))) (demoTr cs (some (xl, xr))) :=
    agrees_of_numbered (is := [1]) (as := []) hp.numbered hp.exec.allRun
  obtain ⟨s1, s2, s3⟩ := agrees_demo cs xl xr rfl ha
  exact ⟨_, hp, s1, inVals_demo cs h xl xr, s2, s3⟩

/-- C48, the run of the integration test, without any assumption that a step succeeds: except for a fraction `1985269 / |F|` of the
trapdoors, `generate_parameters` succeeds and then, for every preimage, all blinding factors and all workers, `create_proof` succeeds
and `verify_proof` accepts the proof for the image. -/
theorem C48_pipeline (E : Engine F G1 G2 GT) (cs : List F) (h : cs.length = 322) (hS : 11 ≤ S F) (w : Worker) (g1 : G1) (g2 : G2)
    (hg1 : g1 ≠ 0) (hg2 : g2 ≠ 0) :
    ({x : F × F × F × F × F | ¬ ∃ params, generateParameters w (Demo.mk none none cs).synthesize g1 g2 x.1 x.2.1 x.2.2.1 x.2.2.2.1 x.2.2.2.2 =
        Res.ok params ∧ ∀ (w' : Worker) (xl xr r s : F), ∃ pf image, createProof w' (Demo.mk (some xl) (some xr) cs).synthesize params r s = Res.ok pf ∧
          Mimc.mimc xl xr cs = some image ∧ verifyProof E (prepareVerifyingKey E params.vk) pf [image] = some (.ok ())} : Set _).ncard ≤
      1985269 * p F ^ 4 := by
  have := PrimeField.finite (F := F)
  have hcard : Nat.card F = p F := PrimeField.card_eq
  obtain ⟨t, ht, hu, c1, c2, c3, hm⟩ := C48_key cs h
  have hs10 : (1024 : ℕ) ≤ 2 ^ (S F - 1) := by
    calc 1024 = 2 ^ 10 := by norm_num
      _ ≤ 2 ^ (S F - 1) := Nat.pow_le_pow_right (by norm_num) (by omega)
  have hcl : Nat.clog 2 646 = 10 := by decide +kernel
  have ht' := ht.unique (keyTrace_demo cs h)
  have hA := C46_constrained (G2 := G2) w _ g1 g2 hg1 t ht
    (fun i hi => by rw [ht'] at hi ⊢; exact constrained_demo cs h none i hi) (by rw [c3, c1]; omega)
    (by rw [c3, c1, hcl]; exact .inl (by norm_num)) (.inr (by omega))
  obtain ⟨bad, hb1, hb2⟩ := C31_regular (G1 := G1) (G2 := G2) (R := fun _ _ : Unit => True) t ht (by rw [ht']; exact noCancel_demo cs h none)
    (by rw [c1]; norm_num) (by rw [c2]; norm_num) (by rw [hm]; norm_num)
  rw [c2, hm] at hA
  rw [c1, c2, hm] at hb1
  refine (Set.ncard_le_ncard (t := _ ∪ {x : F × F × F × F × F | x.2.2.2.2 ∈ bad}) ?_ (Set.toFinite _)).trans
    ((Set.ncard_union_le _ _).trans (le_trans (add_le_add hA ?_) (b := (645 * 1024 + 2) * p F ^ 4 + 1324787 * p F ^ 4) ?_))
  · rintro x hx
    by_contra hno
    rw [Set.mem_union, not_or] at hno
    obtain ⟨n1, n2⟩ := hno
    rw [Set.mem_ofPred_eq, not_not] at n1
    obtain ⟨params, hk⟩ := n1
    refine hx ⟨params, hk, fun w' xl xr r s => ?_⟩
    obtain ⟨pf, hp⟩ := hb2 _ (fun hh => n2 hh) w w' _ g1 g2 _ _ _ _ r s params (shape_key cs xl xr) (witnessOk_demo cs xl xr) hg1 hg2 hk
    obtain ⟨t1, ht1, hs1, hi1, -⟩ := C48_complete cs h xl xr
    refine ⟨pf, _, hp, by rw [C48_native, if_pos h], ?_⟩
    have := C30_completeness E w w' (shape_key cs xl xr) g1 g2 _ _ _ _ _ r s params pf hk hp t1 ht1 hs1
    rwa [hi1] at this
  · rw [ncard_last, hcard]
    exact Nat.mul_le_mul_right _ (le_trans hb1 (by norm_num))
  · rw [← Nat.add_mul]

/-- C48, knowledge: an algebraic prover either has a preimage of the image in its coefficients, or is rejected for all but a fraction
`1326835 / |F|` of the trapdoors. -/
theorem C48_knowledge (E : Engine F G1 G2 GT) (cs : List F) (h : cs.length = 322) (image : F) (σ : Strategy F) :
    Spec.mimc cs (σ.extract [image] (.aux 0)) (σ.extract [image] (.aux 1)) = image ∨
    ({x : F × F × F × F × F | ∃ (w : Worker) (g1 : G1) (g2 : G2) (params : Parameters G1 G2), g1 ≠ 0 ∧ g2 ≠ 0 ∧
        generateParameters w (Demo.mk none none cs).synthesize g1 g2 x.1 x.2.1 x.2.2.1 x.2.2.2.1 x.2.2.2.2 = Res.ok params ∧
        verifyProof E (prepareVerifyingKey E params.vk) (σ.proof g1 g2 params) [image] = some (.ok ())} : Set _).ncard ≤
      1326835 * p F ^ 4 := by
  obtain ⟨t, ht, -, c1, c2, -, hm⟩ := C48_key cs h
  rcases C42_knowledge (G1 := G1) (G2 := G2) E ht [image] σ with hh | hh
  · exact .inl (C48_sound cs h ht _ rfl hh).symm
  · right
    rw [c1, c2, hm] at hh
    exact hh

/-- C48, binding: a proof made for one preimage is rejected for every other image, for all but a small fraction of the trapdoors. -/
theorem C48_other_image (E : Engine F G1 G2 GT) (cs : List F) (h : cs.length = 322) (xl xr : F) (image : F)
    (hne : Spec.mimc cs xl xr ≠ image) (r s : F) :
    ({x : F × F × F × F × F | ∃ (w w' : Worker) (g1 : G1) (g2 : G2) (params : Parameters G1 G2) (pf : Proof G1 G2), g1 ≠ 0 ∧ g2 ≠ 0 ∧
        generateParameters w (Demo.mk none none cs).synthesize g1 g2 x.1 x.2.1 x.2.2.1 x.2.2.2.1 x.2.2.2.2 = Res.ok params ∧
        createProof w' (Demo.mk (some xl) (some xr) cs).synthesize params r s = Res.ok pf ∧
        verifyProof E (prepareVerifyingKey E params.vk) pf [image] = some (.ok ())} : Set _).ncard ≤ 1326835 * p F ^ 4 := by
  have := PrimeField.finite (F := F)
  obtain ⟨t1, h1, hs, -, e0, e1⟩ := C48_complete cs h xl xr
  obtain ⟨σ, -, q2, q3⟩ := C42_honest (G1 := G1) (G2 := G2) (shape_key cs xl xr) h1 r s
  refine le_trans (Set.ncard_le_ncard ?_ (Set.toFinite _)) ((C48_knowledge (G1 := G1) (G2 := G2) E cs h image σ).resolve_left ?_)
  · rintro x ⟨w, w', g1, g2, params, pf, z1, z2, hk, hp, hv⟩
    rw [q3 w w' g1 g2 _ _ _ _ _ params pf hk hp] at hv
    exact ⟨w, g1, g2, params, z1, z2, hk, hv⟩
  · have a0 : σ.extract [image] (.aux 0) = xl := (q2 0).trans e0
    have a1 : σ.extract [image] (.aux 1) = xr := (q2 1).trans e1
    rw [a0, a1]
    exact hne

/-- C48, zero knowledge: two preimages of the same image give the same distribution of proofs. -/
theorem C48_hiding (cs : List F) (h : cs.length = 322) (w w' w'' : Worker) (g1 : G1) (g2 : G2) (α β γ δ τ : F) (params : Parameters G1 G2)
    (hk : generateParameters w (Demo.mk none none cs).synthesize g1 g2 α β γ δ τ = Res.ok params) (xl xr xl' xr' : F)
    (heq : Spec.mimc cs xl xr = Spec.mimc cs xl' xr')
    (hok : ∃ (r s : F) (pf : Proof G1 G2), createProof w' (Demo.mk (some xl) (some xr) cs).synthesize params r s = Res.ok pf)
    (hok' : ∃ (r s : F) (pf : Proof G1 G2), createProof w'' (Demo.mk (some xl') (some xr') cs).synthesize params r s = Res.ok pf)
    (out : Res (Proof G1 G2)) :
    Nat.card {x : F × F // createProof w' (Demo.mk (some xl) (some xr) cs).synthesize params x.1 x.2 = out} =
      Nat.card {x : F × F // createProof w'' (Demo.mk (some xl') (some xr') cs).synthesize params x.1 x.2 = out} := by
  obtain ⟨t, ht, hs, hi, -⟩ := C48_complete cs h xl xr
  obtain ⟨t', ht', hs', hi', -⟩ := C48_complete cs h xl' xr'
  exact C34_distribution w w' w'' (shape_key cs xl xr) (shape_key cs xl' xr') g1 g2 α β γ δ τ params hk t t' ht ht' hs hs'
    (by rw [hi, hi', heq]) hok hok' out

/-- C48: half a preimage. Key generation with `xl` but no `xr` panics, because the circuit computes values outside the witness closures;
the prover reports `AssignmentMissing` for either half. A wrong number of constants panics. -/
theorem C48_incomplete (cs : List F) (h : cs.length = 322) (w : Worker) (g1 : G1) (g2 : G2) (α β γ δ τ : F) (params : Parameters G1 G2)
    (x r s : F) :
    generateParameters w (Demo.mk (some x) none cs).synthesize g1 g2 α β γ δ τ = Res.panic ∧
    createProof w (Demo.mk (some x) none cs).synthesize params r s = Res.err .assignmentMissing ∧
    createProof w (Demo.mk none (some x) cs).synthesize params r s = Res.err .assignmentMissing ∧
    (∀ (d : Demo F), d.constants.length ≠ 322 → generateParameters w d.synthesize g1 g2 α β γ δ τ = Res.panic ∧
      createProof w d.synthesize params r s = Res.panic) := by
  obtain ⟨c, cs, rfl⟩ : ∃ c cs', cs = c :: cs' := by
    cases cs with
    | nil => simp at h
    | cons c cs => exact ⟨c, cs, rfl⟩
  have h' : (c :: cs).length = ROUNDS := h
  refine ⟨?_, ?_, ?_, fun d hd => ?_⟩
  · unfold generateParameters assemble Demo.synthesize
    dsimp only
    rw [if_pos h']
    rfl
  · unfold createProof assign? Demo.synthesize
    dsimp only
    rw [if_pos h']
    rfl
  · unfold createProof assign? Demo.synthesize
    dsimp only
    rw [if_pos h']
    rfl
  · have hd' : ¬ d.constants.length = ROUNDS := hd
    unfold generateParameters createProof assemble assign? Demo.synthesize
    rw [if_neg hd']
    exact ⟨rfl, rfl⟩

/-! ### The hypotheses are met -/

/-- Some constants. -/
def counting : List BlsScalar := List.map (fun i : ℕ => (Nat.cast i : BlsScalar)) (List.range 322)

/-- The scalar field of BLS12-381 and the pairing of exponents. -/
example (w : Worker) : ({x : BlsScalar × BlsScalar × BlsScalar × BlsScalar × BlsScalar |
    ¬ ∃ params, generateParameters w (Demo.mk none none counting).synthesize (1 : BlsScalar) (1 : BlsScalar)
      x.1 x.2.1 x.2.2.1 x.2.2.2.1 x.2.2.2.2 = Res.ok params ∧ ∀ (w' : Worker) (xl xr r s : BlsScalar), ∃ pf image,
        createProof w' (Demo.mk (some xl) (some xr) counting).synthesize params r s = Res.ok pf ∧
          Mimc.mimc xl xr counting = some image ∧
          verifyProof (fieldEngine BlsScalar) (prepareVerifyingKey (fieldEngine BlsScalar) params.vk) pf [image] = some (.ok ())} : Set _).ncard ≤
      1985269 * p BlsScalar ^ 4 :=
  C48_pipeline _ _ (by rw [counting, List.length_map, List.length_range]) (by decide) w 1 1 one_ne_zero one_ne_zero

/-- The bound is a negligible part of the trapdoors. -/
example : 2 ^ 233 * (1985269 * p BlsScalar ^ 4) < p BlsScalar ^ 5 := by
  have h : 2 ^ 233 * 1985269 < p BlsScalar := by decide +kernel
  calc 2 ^ 233 * (1985269 * p BlsScalar ^ 4) = (2 ^ 233 * 1985269) * p BlsScalar ^ 4 := by ring
    _ < p BlsScalar * p BlsScalar ^ 4 := Nat.mul_lt_mul_of_pos_right h (by have : 0 < p BlsScalar := by decide +kernel
                                                                           positivity)
    _ = _ := by ring

end Bellman
