import Verif.Spec.Simulator
import Verif.Props.Groth16
import Verif.Props.Mimc
import Verif.Props.Agm

/-!
# C65: zero knowledge for many proofs, chosen adaptively
-/

set_option linter.unusedSectionVars false

namespace Bellman

open PrimeField Finset

variable {F : Type} [PrimeField F] {G1 G2 GT : Type} [AddCommGroup G1] [AddCommGroup G2] [AddCommGroup GT] [Module F G1] [Module F G2]
  [Module F GT] [DecidableEq G1] [DecidableEq G2] [DecidableEq GT]

/-- C65: simulated proofs are accepted, whatever the public inputs. -/
theorem C65_accepted (E : Engine F G1 G2 GT) {kc : Synth F Unit} (w : Worker) (g1 : G1) (g2 : G2) (α β γ δ τ : F) (params : Parameters G1 G2)
    (hk : generateParameters w kc g1 g2 α β γ δ τ = Res.ok params) (inputs : List F) (hl : inputs.length + 1 = params.vk.ic.length) (x : F × F) :
    verifyProof E (prepareVerifyingKey E params.vk) (simulateProof g1 g2 α β γ δ params.vk inputs x) inputs = some (.ok ()) := by
  obtain ⟨t, _, _, rfl, hγ, hδ, _, _⟩ := C29_crs w kc _ _ _ _ _ _ _ params hk
  refine (verifyProof_ok E _ _ _).2 ⟨hl, ?_⟩
  unfold Accepts simulateProof
  generalize ∑ i ∈ range ((Qap.ofTrace t).crs g1 g2 α β γ δ τ).vk.ic.length,
    ((1 : F) :: inputs).getD i 0 • ((Qap.ofTrace t).crs g1 g2 α β γ δ τ).vk.ic.getD i 0 = s
  simp only [Qap.crs, map_smul, map_sub, LinearMap.smul_apply, LinearMap.sub_apply, smul_sub, ← mul_smul]
  have e1 : δ * (γ / δ) = γ := by field_simp
  have e2 : δ * ((x.1 * x.2 - α * β) / δ) = x.1 * x.2 - α * β := by field_simp
  rw [e1, e2, sub_smul, mul_comm x.2, mul_comm β]
  abel

/-- C65, one proof: the proofs of a prover with a witness are, up to a permutation of the blinding factors, those of the simulator, who is
given the public inputs and the trapdoors. -/
theorem C65_simulator (E : Engine F G1 G2 GT) (w w' : Worker) {R : Unit → Unit → Prop} {kc pc : Synth F Unit} (h : SShape R kc pc)
    (g1 : G1) (g2 : G2) (α β γ δ τ : F) (params : Parameters G1 G2) (hk : generateParameters w kc g1 g2 α β γ δ τ = Res.ok params)
    (t : List (Ev F)) (ht : ProverTrace pc t) (hs : Sat (witness t) t) (hok : ∃ r s pf, createProof w' pc params r s = Res.ok pf) :
    ∃ e : F × F ≃ F × F, ∀ x, createProof w' pc params x.1 x.2 = Res.ok (simulateProof g1 g2 α β γ δ params.vk (inVals t) (e x)) := by
  have := PrimeField.finite (F := F)
  obtain ⟨r0, s0, pf0, hp0⟩ := id hok
  obtain ⟨_, _, _, _, _, _, _, _, _, hR, _, _⟩ := prove_spec h hk hp0
  have hg1 : g1 ≠ 0 := fun h0 => hR.δ1 (by rw [h0, smul_zero])
  have hg2 : g2 ≠ 0 := fun h0 => hR.δ2 (by rw [h0, smul_zero])
  have hl := ((verifyProof_ok E _ _ _).1 (C30_completeness E w w' h g1 g2 α β γ δ τ r0 s0 params _ hk hp0 t ht hs)).1
  have hex : ∀ y : F × F, ∃ x : F × F, createProof w' pc params x.1 x.2 = Res.ok (simulateProof g1 g2 α β γ δ params.vk (inVals t) y) := fun y =>
    ((C34_simulation E w w' h g1 g2 α β γ δ τ params hk t ht hs hok _ _ _).2 (C65_accepted E w g1 g2 α β γ δ τ params hk (inVals t) hl y)).exists
  choose f hf using hex
  have hinj : Function.Injective f := by
    intro y y' he
    have := (hf y).symm.trans (he ▸ hf y')
    rw [Res.ok_inj] at this
    unfold simulateProof at this
    simp only [Proof.mk.injEq] at this
    exact Prod.ext (smul_left_injective F hg1 this.1) (smul_left_injective F hg2 this.2.1)
  refine ⟨(Equiv.ofBijective f (Finite.injective_iff_bijective.1 hinj)).symm, fun x => ?_⟩
  have := hf ((Equiv.ofBijective f (Finite.injective_iff_bijective.1 hinj)).symm x)
  rwa [show f ((Equiv.ofBijective f _).symm x) = x from (Equiv.ofBijective f _).apply_symm_apply x] at this

/-- Rearranging the randomness of each step rearranges the randomness of the transcript. -/
theorem transcript_equiv {P : Type} (real sim : List P → F × F → P) (e : List P → F × F ≃ F × F) (he : ∀ seen x, real seen x = sim seen (e seen x)) :
    ∃ f : List P → List (F × F) ≃ List (F × F), ∀ seen, (∀ l, (f seen l).length = l.length) ∧
      ∀ l, transcript real seen l = transcript sim seen (f seen l) := by
  let fwd : List (F × F) → List P → List (F × F) := fun l => l.rec (fun _ => []) fun x _ ih seen => e seen x :: ih (seen ++ [real seen x])
  let back : List (F × F) → List P → List (F × F) := fun l => l.rec (fun _ => []) fun y _ ih seen => (e seen).symm y :: ih (seen ++ [sim seen y])
  have h1 : ∀ l seen, back (fwd l seen) seen = l := by
    intro l
    induction l with
    | nil => intro; rfl
    | cons x l ih =>
      intro seen
      show (e seen).symm (e seen x) :: back (fwd l (seen ++ [real seen x])) (seen ++ [sim seen (e seen x)]) = _
      rw [← he, ih, Equiv.symm_apply_apply]
  have h2 : ∀ l seen, fwd (back l seen) seen = l := by
    intro l
    induction l with
    | nil => intro; rfl
    | cons y l ih =>
      intro seen
      show e seen ((e seen).symm y) :: fwd (back l (seen ++ [sim seen y])) (seen ++ [real seen ((e seen).symm y)]) = _
      rw [he, Equiv.apply_symm_apply, ih]
  refine ⟨fun seen => ⟨fun l => fwd l seen, fun l => back l seen, fun l => h1 l seen, fun l => h2 l seen⟩, fun seen => ⟨fun l => ?_, fun l => ?_⟩⟩
  · show (fwd l seen).length = l.length
    induction l generalizing seen with
    | nil => rfl
    | cons x l ih =>
      show (e seen x :: fwd l (seen ++ [real seen x])).length = _
      rw [List.length_cons, List.length_cons, ih]
  · show _ = transcript sim seen (fwd l seen)
    induction l generalizing seen with
    | nil => rfl
    | cons x l ih =>
      show transcript real (seen ++ [real seen x]) l = transcript sim (seen ++ [sim seen (e seen x)]) (fwd l (seen ++ [real seen x]))
      rw [← he]
      exact ih _

/-- C65: an adversary asks for any number of proofs, choosing the statement and even the witness of each after seeing the ones before.  The
simulator, who knows the trapdoors and is told only the public inputs, produces the same transcripts, up to a permutation of the
randomness. -/
theorem C65_adaptive (E : Engine F G1 G2 GT) (w w' : Worker) {kc : Synth F Unit} (g1 : G1) (g2 : G2) (α β γ δ τ : F) (params : Parameters G1 G2)
    (hk : generateParameters w kc g1 g2 α β γ δ τ = Res.ok params)
    (choose : List (Proof G1 G2) → Synth F Unit) (inputs : List (Proof G1 G2) → List F)
    (hc : ∀ seen, ∃ R t, SShape R kc (choose seen) ∧ ProverTrace (choose seen) t ∧ Sat (witness t) t ∧ inVals t = inputs seen ∧
      ∃ r s pf, createProof w' (choose seen) params r s = Res.ok pf)
    (prove : List (Proof G1 G2) → F × F → Proof G1 G2)
    (hp : ∀ seen x pf, createProof w' (choose seen) params x.1 x.2 = Res.ok pf → prove seen x = pf) :
    ∃ f : List (F × F) ≃ List (F × F), (∀ l, (f l).length = l.length) ∧
      ∀ l, transcript prove [] l = transcript (fun seen => simulateProof g1 g2 α β γ δ params.vk (inputs seen)) [] (f l) := by
  have hex : ∀ seen, ∃ e : F × F ≃ F × F, ∀ x, prove seen x = simulateProof g1 g2 α β γ δ params.vk (inputs seen) (e x) := by
    intro seen
    obtain ⟨R, t, hsh, ht, hs, hin, hok⟩ := hc seen
    obtain ⟨e, he⟩ := C65_simulator E w w' hsh g1 g2 α β γ δ τ params hk t ht hs hok
    exact ⟨e, fun x => by rw [hp seen x _ (he x), hin]⟩
  choose e he using hex
  obtain ⟨f, hf⟩ := transcript_equiv prove (fun seen => simulateProof g1 g2 α β γ δ params.vk (inputs seen)) e he
  exact ⟨f [], hf []⟩

/-- C65 for MiMC, without any assumption that a step succeeds: except for a fraction `1985269 / |F|` of the trapdoors, setup succeeds and
then adversaries who ask for proofs of any number of preimages, one after the other, learn only the images. -/
theorem C65_mimc (E : Engine F G1 G2 GT) (cs : List F) (h : cs.length = 322) (hS : 11 ≤ S F) (w : Worker) (g1 : G1) (g2 : G2)
    (hg1 : g1 ≠ 0) (hg2 : g2 ≠ 0) :
    ({x : F × F × F × F × F | ¬ ∃ params, generateParameters w (Mimc.Demo.mk none none cs).synthesize g1 g2 x.1 x.2.1 x.2.2.1 x.2.2.2.1 x.2.2.2.2 =
        Res.ok params ∧ ∀ (w' : Worker) (preimage : List (Proof G1 G2) → F × F), ∃ prove : List (Proof G1 G2) → F × F → Proof G1 G2,
          (∀ seen y, createProof w' (Mimc.Demo.mk (some (preimage seen).1) (some (preimage seen).2) cs).synthesize params y.1 y.2 =
            Res.ok (prove seen y)) ∧
          ∃ f : List (F × F) ≃ List (F × F), (∀ l, (f l).length = l.length) ∧
            ∀ l, transcript prove [] l = transcript (fun seen => simulateProof g1 g2 x.1 x.2.1 x.2.2.1 x.2.2.2.1 params.vk
              [Spec.mimc cs (preimage seen).1 (preimage seen).2]) [] (f l)} : Set _).ncard ≤ 1985269 * p F ^ 4 := by
  have := PrimeField.finite (F := F)
  refine (Set.ncard_le_ncard ?_ (Set.toFinite _)).trans (C48_pipeline E cs h hS w g1 g2 hg1 hg2)
  rintro x hx
  refine fun hx' => hx ?_
  obtain ⟨params, hk, hall⟩ := hx'
  refine ⟨params, hk, fun w' preimage => ?_⟩
  have hex : ∀ (seen : List (Proof G1 G2)) (y : F × F), ∃ pf, createProof w' (Mimc.Demo.mk (some (preimage seen).1) (some (preimage seen).2)
      cs).synthesize params y.1 y.2 = Res.ok pf := fun seen y => by
    obtain ⟨pf, _, hp, _⟩ := hall w' (preimage seen).1 (preimage seen).2 y.1 y.2
    exact ⟨pf, hp⟩
  choose prove hprove using hex
  refine ⟨prove, hprove, C65_adaptive E w w' g1 g2 _ _ _ _ _ params hk
    (fun seen => (Mimc.Demo.mk (some (preimage seen).1) (some (preimage seen).2) cs).synthesize) _ (fun seen => ?_) prove fun seen y pf hp => ?_⟩
  · obtain ⟨t, ht, hs, hin, -⟩ := C48_complete cs h (preimage seen).1 (preimage seen).2
    exact ⟨_, t, Mimc.shape_key cs _ _, ht, hs, hin, 0, 0, _, hprove seen (0, 0)⟩
  · exact Res.ok_inj.1 ((hprove seen y).symm.trans hp)

/-- C64 for MiMC: whoever convinces the verifier that they know a preimage of some image of their choice, without their coefficients containing
one, betrays discrete logarithms. -/
theorem C64_mimc [DecidableEq F] (E : Engine F G1 G2 GT) (cs : List F) (h : cs.length = 322) {t : List (Ev F)}
    (ht : KeyTrace (Mimc.Demo.mk none none cs).synthesize t) (w : Worker)
    (prover : AdaptiveProver F G1 G2) (h1 : G1) (h2 : G2) (hh1 : h1 ≠ 0) (hh2 : h2 ≠ 0) (z : F) :
    p F ^ 5 * ({x : (Fin 5 → F) × F | ∃ params, generateParameters w (Mimc.Demo.mk none none cs).synthesize (x.2 • h1) h2 (x.1 0) (x.1 1) (x.1 2)
        (x.1 3) (x.1 4) = Res.ok params ∧ ∃ image σ, prover (x.2 • h1) h2 params = ([image], σ) ∧
        verifyProof E (prepareVerifyingKey E params.vk) (σ.proof (x.2 • h1) h2 params) [image] = some (.ok ()) ∧
        Spec.mimc cs (σ.extract [image] (.aux 0)) (σ.extract [image] (.aux 1)) ≠ image} : Set _).ncard ≤
      ({y : (Fin 5 → F) × (Fin 5 → F) × F |
        z ∈ (Qap.ofTrace t).candidates prover (fun i => z ^ i • y.2.2 • h1) (fun i => z ^ i • h2) y.1 y.2.1} : Set _).ncard +
      1326836 * p F ^ 10 := by
  have := PrimeField.finite (F := F)
  have hr := C64_reduction E ht w prover h1 h2 hh1 hh2 z
  obtain ⟨t', ht', hu, c1, c2, c3, hm⟩ := C48_key cs h
  cases hu _ ht
  rw [hm, c1, c2] at hr
  refine le_trans (Nat.mul_le_mul_left _ (Set.ncard_le_ncard ?_ (Set.toFinite _))) hr
  rintro x ⟨params, hk, image, σ, hout, hv, hne⟩
  refine ⟨params, hk, ?_⟩
  rw [hout]
  exact ⟨hv, fun hsat => hne (C48_sound cs h ht _ rfl hsat).symm⟩

/-- The hypotheses hold for the scalars of BLS12-381 with 322 different constants. -/
example : ∃ t, KeyTrace (Mimc.Demo.mk none none counting).synthesize t ∧ counting.length = 322 ∧ 11 ≤ S BlsScalar ∧ (1 : BlsScalar) ≠ 0 := by
  have h : counting.length = 322 := by rw [counting, List.length_map, List.length_range]
  obtain ⟨t, ht, -⟩ := C48_key counting h
  exact ⟨t, ht, h, by decide, one_ne_zero⟩

/-- The honest prover of the claim that 25 is a square meets the hypotheses of `C65_simulator` and `C65_accepted`. -/
example (w w' : Worker) : ∃ params, generateParameters w (squareCircuit none) (1 : DummyFr) (1 : DummyFr) 2 5 7 11 3 = Res.ok params ∧
    ∃ e : DummyFr × DummyFr ≃ DummyFr × DummyFr, ∀ x, createProof w' (claimCircuit (some 5) (some 25)) params x.1 x.2 =
      Res.ok (simulateProof 1 1 2 5 7 11 params.vk [25] (e x)) := by
  obtain ⟨params, pf, hk, hp⟩ := claim_proof w w' 5 25 0 0
  exact ⟨params, hk, C65_simulator (fieldEngine DummyFr) w w' (claimCircuit_shape none (some 5) (some 25)) 1 1 2 5 7 11 3 params hk
    (claimTrace 5 25) (claimTrace_prover 5 25) ((claimTrace_sat 5 25).2 (by decide)) ⟨_, _, _, hp⟩⟩

end Bellman
