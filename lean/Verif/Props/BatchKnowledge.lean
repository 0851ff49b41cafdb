import Verif.Props.Batch
import Verif.Props.Knowledge

/-!
# C62: batch verification of proofs made by algebraic provers
-/

namespace Bellman

open Finset PrimeField

set_option linter.unusedSectionVars false

variable {F : Type} [PrimeField F] {G1 G2 GT : Type} [AddCommGroup G1] [AddCommGroup G2] [AddCommGroup GT] [Module F G1] [Module F G2]
  [Module F GT] [DecidableEq G1] [DecidableEq G2] [DecidableEq GT]

/-- The proofs a list of algebraic provers makes from the same parameters, queued one after the other with
`BatchVerifier::queue` (groth16/src/verifier/batch.rs:93-95). -/
def queueAll (xs : List (Proof G1 G2 × List F)) : BatchVerifier F G1 G2 :=
  xs.foldl (fun v x => v.queue (Item.ofPair x)) BatchVerifier.new

/-- The pairs of proof and public inputs that the provers `σs` hand in. -/
def Strategy.pairs (σs : List (Strategy F × List F)) (g1 : G1) (g2 : G2) (params : Parameters G1 G2) : List (Proof G1 G2 × List F) :=
  σs.map fun x => (x.1.proof g1 g2 params, x.2)

/-- A set of pairs, if for each first component at most `B` second components belong to it. -/
theorem ncard_pairs {α β : Type} [Finite α] [Finite β] (P : α → β → Prop) (B : ℕ) (h : ∀ a, Nat.card {b // P a b} ≤ B) :
    ({x : α × β | P x.1 x.2} : Set _).ncard ≤ Nat.card α * B := by
  classical
  have := Fintype.ofFinite α
  have := Fintype.ofFinite β
  rw [← Nat.card_coe_set_eq]
  rw [Nat.card_congr (show ↥{x : α × β | P x.1 x.2} ≃ (Σ a, {b // P a b}) from
    { toFun := fun x => ⟨x.1.1, x.1.2, x.2⟩
      invFun := fun x => ⟨(x.1, x.2.1), x.2.2⟩
      left_inv := fun x => rfl
      right_inv := fun x => rfl })]
  rw [Nat.card_sigma, Nat.card_eq_fintype_card]
  exact (Finset.sum_le_card_nsmul _ _ B fun a _ => h a).trans (by rw [smul_eq_mul, Finset.card_univ])

theorem ncard_left {α β : Type} [Finite α] [Finite β] (s : Set α) : ({x : α × β | x.1 ∈ s} : Set _).ncard = s.ncard * Nat.card β := by
  have : ({x : α × β | x.1 ∈ s} : Set _) = s ×ˢ (Set.univ : Set β) := by ext ⟨a, b⟩; simp
  rw [this, Set.ncard_prod, Set.ncard_univ]

theorem verifyProof_total (E : Engine F G1 G2 GT) (vk : VerifyingKey G1 G2) (it : Item F G1 G2)
    (hl : it.inputs.length + 1 = vk.ic.length) (hno : it.verifySingle E (prepareVerifyingKey E vk) ≠ some (.ok ())) :
    it.verifySingle E (prepareVerifyingKey E vk) = some (.error .invalidProof) := by
  rw [verifySingle_invalid]
  refine ⟨hl, fun hd => hno ((verifySingle_ok E vk it).2 ⟨hl, hd⟩)⟩

/-- The counting behind both batch verifiers. -/
theorem batch_count (E : Engine F G1 G2 GT) {kc : Synth F Unit} {t : List (Ev F)} (ht : KeyTrace kc t) (w : Worker) (g1 : G1) (g2 : G2)
    (hg1 : g1 ≠ 0) (hg2 : g2 ≠ 0) (σs : List (Strategy F × List F)) (Z : Type) [Finite Z]
    (acc : Z → VerifyingKey G1 G2 → BatchVerifier F G1 G2 → Prop) (B : ℕ)
    (hlen : ∀ z vk v (it : Item F G1 G2), acc z vk v → it ∈ v.items → it.inputs.length + 1 = vk.ic.length)
    (hB : ∀ vk (v : BatchVerifier F G1 G2) it, v.items.length = σs.length → it ∈ v.items →
      it.verifySingle E (prepareVerifyingKey E vk) = some (.error .invalidProof) → Nat.card {z // acc z vk v} ≤ B) :
    (∀ x ∈ σs, Sat (x.1.extract x.2) t) ∨
    ({x : (F × F × F × F × F) × Z | ∃ params : Parameters G1 G2,
        generateParameters w kc g1 g2 x.1.1 x.1.2.1 x.1.2.2.1 x.1.2.2.2.1 x.1.2.2.2.2 = Res.ok params ∧
        acc x.2 params.vk (queueAll (Strategy.pairs σs g1 g2 params))} : Set _).ncard ≤
      (3 * (Qap.ofTrace t).m + 1 + 2 * (numIn t + 1 + numAux t) * ((Qap.ofTrace t).m - 1)) * p F ^ 4 * Nat.card Z + p F ^ 5 * B := by
  classical
  have := PrimeField.finite (F := F)
  by_cases hall : ∀ x ∈ σs, Sat (x.1.extract x.2) t
  · exact .inl hall
  right
  push Not at hall
  obtain ⟨x0, hx0, hns⟩ := hall
  have hkn := (C42_knowledge (G1 := G1) (G2 := G2) E ht x0.2 x0.1).resolve_left hns
  have hcard : Nat.card (F × F × F × F × F) = p F ^ 5 := by
    have : Nat.card F = p F := PrimeField.card_eq
    simp only [Nat.card_prod, this]
    ring
  set bad := ({x : F × F × F × F × F | ∃ (w : Worker) (g1 : G1) (g2 : G2) (params : Parameters G1 G2), g1 ≠ 0 ∧ g2 ≠ 0 ∧
        generateParameters w kc g1 g2 x.1 x.2.1 x.2.2.1 x.2.2.2.1 x.2.2.2.2 = Res.ok params ∧
        verifyProof E (prepareVerifyingKey E params.vk) (x0.1.proof g1 g2 params) x0.2 = some (.ok ())} : Set _) with hbad
  have hitems : ∀ params : Parameters G1 G2, (queueAll (Strategy.pairs σs g1 g2 params)).items =
      σs.map fun x => ⟨x.1.proof g1 g2 params, x.2⟩ := by
    intro params
    unfold queueAll Strategy.pairs
    rw [C35_queue, List.map_map]
    rfl
  refine (Set.ncard_le_ncard (t := {x : (F × F × F × F × F) × Z | x.1 ∈ bad} ∪ {x : (F × F × F × F × F) × Z | ∃ params : Parameters G1 G2,
        generateParameters w kc g1 g2 x.1.1 x.1.2.1 x.1.2.2.1 x.1.2.2.2.1 x.1.2.2.2.2 = Res.ok params ∧
        acc x.2 params.vk (queueAll (Strategy.pairs σs g1 g2 params)) ∧
        verifyProof E (prepareVerifyingKey E params.vk) (x0.1.proof g1 g2 params) x0.2 ≠ some (.ok ())}) ?_ (Set.toFinite _)).trans
    ((Set.ncard_union_le _ _).trans (add_le_add ?_ ?_))
  · rintro x ⟨params, hk, ha⟩
    by_cases hv : verifyProof E (prepareVerifyingKey E params.vk) (x0.1.proof g1 g2 params) x0.2 = some (.ok ())
    · exact .inl ⟨w, g1, g2, params, hg1, hg2, hk, hv⟩
    · exact .inr ⟨params, hk, ha, hv⟩
  · rw [ncard_left]
    exact Nat.mul_le_mul_right _ hkn
  · rw [← hcard]
    refine ncard_pairs (fun (a : F × F × F × F × F) (z : Z) => ∃ params : Parameters G1 G2,
        generateParameters w kc g1 g2 a.1 a.2.1 a.2.2.1 a.2.2.2.1 a.2.2.2.2 = Res.ok params ∧
        acc z params.vk (queueAll (Strategy.pairs σs g1 g2 params)) ∧
        verifyProof E (prepareVerifyingKey E params.vk) (x0.1.proof g1 g2 params) x0.2 ≠ some (.ok ())) B fun a => ?_
    by_cases he : ∃ params : Parameters G1 G2, generateParameters w kc g1 g2 a.1 a.2.1 a.2.2.1 a.2.2.2.1 a.2.2.2.2 = Res.ok params ∧
        verifyProof E (prepareVerifyingKey E params.vk) (x0.1.proof g1 g2 params) x0.2 ≠ some (.ok ()) ∧
        ∃ z, acc z params.vk (queueAll (Strategy.pairs σs g1 g2 params))
    · obtain ⟨params, hk, hv, z0, hz0⟩ := he
      have hmem : (⟨x0.1.proof g1 g2 params, x0.2⟩ : Item F G1 G2) ∈ (queueAll (Strategy.pairs σs g1 g2 params)).items := by
        rw [hitems]; exact List.mem_map.2 ⟨x0, hx0, rfl⟩
      refine le_trans (Nat.card_le_card_of_injective (β := {z // acc z params.vk (queueAll (Strategy.pairs σs g1 g2 params))})
        (fun z => ⟨z.1, ?_⟩) fun z z' h => Subtype.ext (by simpa using h)) (hB _ _ _ (by rw [hitems, List.length_map]) hmem
          (verifyProof_total E _ _ (hlen _ _ _ _ hz0 hmem) hv))
      obtain ⟨params', hk', ha', -⟩ := z.2
      cases hk.symm.trans hk'
      exact ha'
    · refine le_trans (le_of_eq ?_) (Nat.zero_le B)
      rw [Nat.card_eq_zero]
      exact .inl ⟨fun ⟨z, params, hk, ha, hv⟩ => he ⟨params, hk, hv, z, ha⟩⟩

/-- C62: fix a circuit and a list of algebraic provers, each with the public inputs it claims.  Either every prover has a witness for its
public inputs among its coefficients, or the batch of all their proofs is rejected, except for a fraction `D / |F| + 1 / (|F| - 1)` of the
trapdoors and weights. -/
theorem C62_batch (E : Engine F G1 G2 GT) {kc : Synth F Unit} {t : List (Ev F)} (ht : KeyTrace kc t) (w : Worker) (g1 : G1) (g2 : G2)
    (hg1 : g1 ≠ 0) (hg2 : g2 ≠ 0) (σs : List (Strategy F × List F)) :
    (∀ x ∈ σs, Sat (x.1.extract x.2) t) ∨
    ({x : (F × F × F × F × F) × (Fin σs.length → Fˣ) | ∃ params : Parameters G1 G2,
        generateParameters w kc g1 g2 x.1.1 x.1.2.1 x.1.2.2.1 x.1.2.2.2.1 x.1.2.2.2.2 = Res.ok params ∧
        (queueAll (Strategy.pairs σs g1 g2 params)).verify E (List.ofFn fun i => (x.2 i : F)) params.vk = some (.ok ())} : Set _).ncard ≤
      (3 * (Qap.ofTrace t).m + 1 + 2 * (numIn t + 1 + numAux t) * ((Qap.ofTrace t).m - 1)) * p F ^ 4 * (p F - 1) ^ σs.length +
        p F ^ 5 * (p F - 1) ^ (σs.length - 1) := by
  have := PrimeField.finite (F := F)
  have hc : Nat.card (Fin σs.length → Fˣ) = (p F - 1) ^ σs.length := by
    rw [Nat.card_fun, card_units, Nat.card_eq_fintype_card, Fintype.card_fin]
  rw [← hc]
  refine batch_count E ht w g1 g2 hg1 hg2 σs (Fin σs.length → Fˣ)
    (fun z vk v => v.verify E (List.ofFn fun i => (z i : F)) vk = some (.ok ())) _ ?_ ?_
  · intro z vk v it ha hit
    by_contra hl
    have := (C36_length E vk v (List.ofFn fun i => (z i : F)) (fun _ => []) .identity it hit hl).1
    rw [ha] at this
    cases this
  · intro vk v it hl hit hbad
    have := C36_single_count E vk v it hit hbad
    rwa [hl] at this

/-- C62, the multicore batch verifier: except for a fraction `D / |F| + 8 / (|F| - 1)` of the trapdoors and chunk weights. -/
theorem C62_batch_multicore (E : Engine F G1 G2 GT) {kc : Synth F Unit} {t : List (Ev F)} (ht : KeyTrace kc t) (w : Worker) (g1 : G1)
    (g2 : G2) (hg1 : g1 ≠ 0) (hg2 : g2 ≠ 0) (σs : List (Strategy F × List F)) (tree : ReduceTree) (htree : tree.size = (σs.length + 7) / 8) :
    (∀ x ∈ σs, Sat (x.1.extract x.2) t) ∨
    ({x : (F × F × F × F × F) × (Fin ((σs.length + 7) / 8) → Fˣ) | ∃ params : Parameters G1 G2,
        generateParameters w kc g1 g2 x.1.1 x.1.2.1 x.1.2.2.1 x.1.2.2.2.1 x.1.2.2.2.2 = Res.ok params ∧
        (queueAll (Strategy.pairs σs g1 g2 params)).verifyMulticore E
          (fun i => if h : i < (σs.length + 7) / 8 then [(x.2 ⟨i, h⟩ : F)] else []) tree params.vk = some (.ok ())} : Set _).ncard ≤
      (3 * (Qap.ofTrace t).m + 1 + 2 * (numIn t + 1 + numAux t) * ((Qap.ofTrace t).m - 1)) * p F ^ 4 * (p F - 1) ^ ((σs.length + 7) / 8) +
        p F ^ 5 * (8 * (p F - 1) ^ ((σs.length + 7) / 8 - 1)) := by
  have := PrimeField.finite (F := F)
  have hc : Nat.card (Fin ((σs.length + 7) / 8) → Fˣ) = (p F - 1) ^ ((σs.length + 7) / 8) := by
    rw [Nat.card_fun, card_units, Nat.card_eq_fintype_card, Fintype.card_fin]
  rw [← hc]
  refine batch_count E ht w g1 g2 hg1 hg2 σs (Fin ((σs.length + 7) / 8) → Fˣ)
    (fun z vk v => v.verifyMulticore E (fun i => if h : i < (σs.length + 7) / 8 then [(z ⟨i, h⟩ : F)] else []) tree vk = some (.ok ())) _ ?_ ?_
  · intro z vk v it ha hit
    by_contra hl
    have := (C36_length E vk v [] (fun i => if h : i < (σs.length + 7) / 8 then [(z ⟨i, h⟩ : F)] else []) tree it hit hl).2
    rw [ha] at this
    cases this
  · intro vk v it hl hit hbad
    have := C36_multicore_count E vk v it hit hbad tree (by rw [hl]; exact htree)
    rwa [hl] at this

/-- A batch that contains a proof for the public input 5, which is not a square, passes for at most the stated number of trapdoors and
weights, whatever the other provers in the batch do. -/
example (w : Worker) (σ : Strategy DummyFr) (others : List (Strategy DummyFr × List DummyFr)) :
    ({x : (DummyFr × DummyFr × DummyFr × DummyFr × DummyFr) × (Fin (others.length + 1) → DummyFrˣ) | ∃ params : Parameters DummyFr DummyFr,
        generateParameters w (squareCircuit none) 1 1 x.1.1 x.1.2.1 x.1.2.2.1 x.1.2.2.2.1 x.1.2.2.2.2 = Res.ok params ∧
        (queueAll (Strategy.pairs ((σ, [5]) :: others) 1 1 params)).verify (fieldEngine DummyFr) (List.ofFn fun i => (x.2 i : DummyFr))
          params.vk = some (.ok ())} : Set _).ncard ≤ 31 * 64513 ^ 4 * 64512 ^ (others.length + 1) + 64513 ^ 5 * 64512 ^ others.length := by
  rcases C62_batch (fieldEngine DummyFr) squareTrace_key w 1 1 one_ne_zero one_ne_zero ((σ, [5]) :: others) with h | h
  · have hsat := h _ (List.mem_cons_self ..)
    have h1 := ((Sat_iff_consOf _ _).1 hsat) (⟨[(.aux 0, 1)]⟩, ⟨[(.aux 0, 1), (.input 1, 0)]⟩, ⟨[(.input 1, 1)]⟩) (by
      simp [squareTrace, consOf])
    simp [LC.eval, Strategy.extract] at h1
    exact absurd h1 (gen_not_square _)
  · rw [show (Qap.ofTrace squareTrace).m = 4 from square_good.m] at h
    exact h

/-- The same for a batch of nine proofs on several cores, whose two chunks are added up in any order. -/
example (w : Worker) (σ : Strategy DummyFr) (others : List (Strategy DummyFr × List DummyFr)) (h8 : others.length = 8) (tree : ReduceTree)
    (ht : tree.size = 2) :
    ({x : (DummyFr × DummyFr × DummyFr × DummyFr × DummyFr) × (Fin ((((σ, [5]) :: others).length + 7) / 8) → DummyFrˣ) |
        ∃ params : Parameters DummyFr DummyFr,
        generateParameters w (squareCircuit none) 1 1 x.1.1 x.1.2.1 x.1.2.2.1 x.1.2.2.2.1 x.1.2.2.2.2 = Res.ok params ∧
        (queueAll (Strategy.pairs ((σ, [5]) :: others) 1 1 params)).verifyMulticore (fieldEngine DummyFr)
          (fun i => if h : i < (((σ, [5]) :: others).length + 7) / 8 then [(x.2 ⟨i, h⟩ : DummyFr)] else []) tree
          params.vk = some (.ok ())} : Set _).ncard ≤ 31 * 64513 ^ 4 * 64512 ^ 2 + 64513 ^ 5 * (8 * 64512) := by
  have hl : (((σ, [5]) :: others).length + 7) / 8 = 2 := by simp [h8]
  rcases C62_batch_multicore (fieldEngine DummyFr) squareTrace_key w 1 1 one_ne_zero one_ne_zero ((σ, [5]) :: others) tree
    (by rw [ht, hl]) with h | h
  · have hsat := h _ (List.mem_cons_self ..)
    have h1 := ((Sat_iff_consOf _ _).1 hsat) (⟨[(.aux 0, 1)]⟩, ⟨[(.aux 0, 1), (.input 1, 0)]⟩, ⟨[(.input 1, 1)]⟩) (by
      simp [squareTrace, consOf])
    simp [LC.eval, Strategy.extract] at h1
    exact absurd h1 (gen_not_square _)
  · rw [show (Qap.ofTrace squareTrace).m = 4 from square_good.m] at h
    refine h.trans ?_
    rw [hl]
    exact le_of_eq rfl

end Bellman
