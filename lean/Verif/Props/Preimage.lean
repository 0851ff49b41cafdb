import Verif.Proofs.Preimage
import Verif.Props.Groth16
import Verif.Props.Knowledge

/-!
# C44: the example of the crate documentation, end to end
-/

namespace Bellman

open PrimeField
open List (Forall₂)
open Preimage

set_option linter.unusedSectionVars false

variable {F : Type} [PrimeField F] {G1 G2 GT : Type} [AddCommGroup G1] [AddCommGroup G2] [AddCommGroup GT] [Module F G1] [Module F G2]
  [Module F GT] [DecidableEq G1] [DecidableEq G2] [DecidableEq GT]

theorem computeMultipacking_some (xs : List Bool) : ∃ ys, computeMultipacking F xs = some ys ∧
    ys.length = (xs.length + CAPACITY F - 1) / CAPACITY F := by
  have hc := capacity_pos (F := F)
  unfold computeMultipacking chunks?
  rw [if_neg (by omega)]
  exact ⟨_, rfl, by rw [List.length_map, chunksAux_numChunks hc le_rfl]⟩

theorem bit_unique {ρ : Var → F} {b : Boolean} {x y : Bool} (hx : b.Bit ρ x) (hy : b.Bit ρ y) : x = y := by
  cases b with
  | is a =>
    have hx : ρ a.var = if x then 1 else 0 := hx
    have hy : ρ a.var = if y then 1 else 0 := hy
    rw [hx] at hy
    cases x <;> cases y <;> simp_all
  | not a =>
    have hx : ρ a.var = if !x then 1 else 0 := hx
    have hy : ρ a.var = if !y then 1 else 0 := hy
    rw [hx] at hy
    cases x <;> cases y <;> simp_all
  | constant c =>
    have hx : c = x := hx
    have hy : c = y := hy
    rw [← hx, hy]

theorem bitValues_same (m : List (BitVec 8)) (hm : m.length = 80) :
    (MyCircuit.mk none).bitValues.length = (MyCircuit.mk (some m)).bitValues.length :=
  (bitValues_length _ (fun _ h => Option.noConfusion rfl (heq_of_eq h))).trans
    (bitValues_length _ (fun m' h => by rw [← (Option.some.inj h : m = m')]; exact hm)).symm

/-- The honest prover's assignment. -/
theorem prover_synthesize (h64 : 64 ≤ NUM_BITS F) {m : List (BitVec 8)} (hm : m.length = 80) :
    ∃ t : List (Ev F), ProverTrace (MyCircuit.mk (some m)).synthesize t ∧ Sat (witness t) t ∧ preimageOf (witness t) = m ∧
      computeMultipacking F (bytesToBitsLe (Spec.sha256d m)) = some (inVals t) := by
  obtain ⟨t, r, he, hn⟩ := (MyCircuit.mk (some m)).synthesize (F := F) |>.run.exists_honest 1 0
  have ha : Agrees (witness t) t := agrees_of_numbered (is := [1]) (as := []) hn he.allRun
  have h1 : witness t .one = 1 := rfl
  obtain ⟨hs, a, rfl, -⟩ := Synth.wpC_sound (wpC_synthesize h1 h64 hm) t r he ha
  have hpre : preimageOf (witness t) = m := by
    have he' := he
    unfold MyCircuit.synthesize at he'
    dsimp only at he'
    rw [bitValues_some, if_pos (by rw [List.length_map, length_le, hm])] at he'
    rcases Honest.bind_inv he' with ⟨_, h⟩ | ⟨t1, t2, bits, rfl, e1, e2⟩
    · cases h
    · rw [numbered_append] at hn
      have a1 : Agrees (witness (t1 ++ t2)) t1 := fun i n x v hm => ha i n x v (by simp [hm])
      obtain ⟨s1, bits, h, hb⟩ := Synth.wpC_sound (wpC_allocPreimage h1 (bytesToBitsLe m) 0) t1 _ e1 a1
      cases h
      have hb' := sound_allocPreimage h1 e1.exec hn.1 s1
      have hb'' : Forall₂ (Boolean.Bit (witness (t1 ++ t2))) bits (bytesToBitsLe (preimageOf (witness (t1 ++ t2)))) := by
        rw [preimageOf_bits]
        rw [List.length_map, length_le, hm] at hb'
        simpa using hb'
      apply C13_bytes_injective.2
      have : ∀ {bs : List Boolean} {xs ys : List Bool}, Forall₂ (Boolean.Has (witness (t1 ++ t2))) bs xs →
          Forall₂ (Boolean.Bit (witness (t1 ++ t2))) bs ys → ys = xs := by
        intro bs xs ys hx
        induction hx generalizing ys with
        | nil => intro hy; cases hy; rfl
        | cons p _ ih => intro hy; cases hy with | cons q hy => rw [ih hy, bit_unique p.2 q]
      exact this hb hb''
  refine ⟨t, ⟨he, hn⟩, hs, hpre, ?_⟩
  rw [← hpre, sound_synthesize _ he.exec hn h1 hs, Option.some.injEq]
  have hl := he.allRun.lengths.1
  apply List.ext_getElem
  · simp [hl]
  · intro i h1 h2
    simp only [List.getElem_map, List.getElem_range]
    show ((1 : F) :: inVals t).getD (1 + i) 0 = _
    rw [Nat.add_comm, List.getD_cons_succ, List.getD_eq_getElem _ _ h2]

/-- C44: key generation can follow the circuit without a preimage, and there are `⌈256 / CAPACITY⌉` public inputs. -/
theorem C44_key (h64 : 64 ≤ NUM_BITS F) :
    ∃ t : List (Ev F), KeyTrace (MyCircuit.mk none).synthesize t ∧ (∀ t', KeyTrace (MyCircuit.mk none).synthesize t' → t' = t) ∧
      numIn t = (256 + CAPACITY F - 1) / CAPACITY F := by
  have hm : (List.replicate 80 (0 : BitVec 8)).length = 80 := List.length_replicate
  obtain ⟨t1, h1, hs, -, hp⟩ := prover_synthesize (F := F) h64 hm
  have hsh : SShape (F := F) (fun _ _ => True) (MyCircuit.mk (some (List.replicate 80 (0 : BitVec 8)))).synthesize (MyCircuit.mk none).synthesize :=
    shape_synthesize (bitValues_same _ hm).symm
  obtain ⟨t, _, hb, hsame, -⟩ := hsh.transfer_blind h1.exec.exec
  have hn := Ev.Same.numbered hsame h1.numbered
  have hk : KeyTrace (MyCircuit.mk none).synthesize t := ⟨hb, hn, scoped_synthesize _ hb.exec hn⟩
  refine ⟨t, hk, fun t' h' => h'.unique hk, ?_⟩
  rw [← Ev.Same.numIn hsame, ← h1.inputs_len]
  obtain ⟨ys, e1, e2⟩ := computeMultipacking_some (F := F) (bytesToBitsLe (Spec.sha256d (List.replicate 80 0#8)))
  cases hp.symm.trans e1
  rw [e2, length_le]
  simp [Spec.sha256d, Spec.digest]

/-- C44, soundness of the statement: whatever satisfies the constraints with the packed hash as public inputs has the preimage of the
hash in its first 640 auxiliary variables. -/
theorem C44_sound {t : List (Ev F)} (ht : KeyTrace (MyCircuit.mk none).synthesize t) (hash : List (BitVec 8)) (hh : hash.length = 32)
    (xs : List F) (hx : computeMultipacking F (bytesToBitsLe hash) = some xs) (ρ : Var → F)
    (hin : ∀ i, ρ (.input i) = ((1 : F) :: xs).getD i 0) (hs : Sat ρ t) : Spec.sha256d (preimageOf ρ) = hash := by
  have h := sound_synthesize _ ht.exec.exec ht.numbered (hin 0) hs
  have hl : (Spec.sha256d (preimageOf ρ)).length = 32 := by simp [Spec.sha256d, Spec.digest]
  apply C13_bytes_injective.2
  have hlen : (bytesToBitsLe (Spec.sha256d (preimageOf ρ))).length = (bytesToBitsLe hash).length := by rw [length_le, length_le, hl, hh]
  refine C13_multipacking_inj (F := F) hlen ?_
  obtain ⟨ys, e1, e2⟩ := computeMultipacking_some (F := F) (bytesToBitsLe (Spec.sha256d (preimageOf ρ)))
  obtain ⟨zs, e3, e4⟩ := computeMultipacking_some (F := F) (bytesToBitsLe hash)
  cases hx.symm.trans e3
  rw [h, Option.some.injEq] at e1
  rw [h, hx, Option.some.injEq]
  have hnx : numIn t = xs.length := by
    have := congrArg List.length e1
    rw [List.length_map, List.length_range, e2, hlen, ← e4] at this
    exact this
  apply List.ext_getElem
  · simp [hnx]
  · intro i h1 h2
    simp only [List.getElem_map, List.getElem_range]
    rw [hin, Nat.add_comm, List.getD_cons_succ, List.getD_eq_getElem _ _ h2]

/-- C44, the run of the documentation: with parameters of the circuit without a preimage, a proof made with the preimage verifies
against the packed hash. -/
theorem C44_accept (h64 : 64 ≤ NUM_BITS F) (E : Engine F G1 G2 GT) (w w' : Worker) (g1 : G1) (g2 : G2) (α β γ δ τ r s : F)
    (params : Parameters G1 G2) (pf : Proof G1 G2) (m : List (BitVec 8)) (hm : m.length = 80)
    (hk : generateParameters w (MyCircuit.mk none).synthesize g1 g2 α β γ δ τ = Res.ok params)
    (hp : createProof w' (MyCircuit.mk (some m)).synthesize params r s = Res.ok pf) :
    ∃ xs, computeMultipacking F (bytesToBitsLe (Spec.sha256d m)) = some xs ∧
      verifyProof E (prepareVerifyingKey E params.vk) pf xs = some (.ok ()) := by
  obtain ⟨t, ht, hs, -, hx⟩ := prover_synthesize (F := F) h64 hm
  have hsh : SShape (F := F) (fun _ _ => True) (MyCircuit.mk none).synthesize (MyCircuit.mk (some m)).synthesize :=
    shape_synthesize (bitValues_same _ hm)
  exact ⟨_, hx, C30_completeness E w w' hsh g1 g2 α β γ δ τ r s params pf hk hp t ht hs⟩

/-- C44, knowledge: an algebraic prover either has a preimage of the hash in its coefficients, or is rejected for all but a small fraction
of the trapdoors. -/
theorem C44_knowledge (E : Engine F G1 G2 GT) {t : List (Ev F)} (ht : KeyTrace (MyCircuit.mk none).synthesize t)
    (hash : List (BitVec 8)) (hh : hash.length = 32) (xs : List F) (hx : computeMultipacking F (bytesToBitsLe hash) = some xs)
    (σ : Strategy F) :
    Spec.sha256d (preimageOf (σ.extract xs)) = hash ∨
    ({x : F × F × F × F × F | ∃ (w : Worker) (g1 : G1) (g2 : G2) (params : Parameters G1 G2), g1 ≠ 0 ∧ g2 ≠ 0 ∧
        generateParameters w (MyCircuit.mk none).synthesize g1 g2 x.1 x.2.1 x.2.2.1 x.2.2.2.1 x.2.2.2.2 = Res.ok params ∧
        verifyProof E (prepareVerifyingKey E params.vk) (σ.proof g1 g2 params) xs = some (.ok ())} : Set _).ncard ≤
      (3 * (Qap.ofTrace t).m + 1 + 2 * (numIn t + 1 + numAux t) * ((Qap.ofTrace t).m - 1)) * p F ^ 4 := by
  rcases C42_knowledge E ht xs σ with h | h
  · exact .inl (C44_sound ht hash hh xs hx _ (fun _ => rfl) h)
  · exact .inr h

/-- C44, binding: an honest proof for the preimage `m` is rejected for every other hash, for all but a small fraction of the trapdoors. -/
theorem C44_other_hash (h64 : 64 ≤ NUM_BITS F) (E : Engine F G1 G2 GT) {t : List (Ev F)} (ht : KeyTrace (MyCircuit.mk none).synthesize t)
    (m : List (BitVec 8)) (hm : m.length = 80) (hash : List (BitVec 8)) (hh : hash.length = 32) (hne : Spec.sha256d m ≠ hash)
    (xs : List F) (hx : computeMultipacking F (bytesToBitsLe hash) = some xs) (r s : F) :
    ({x : F × F × F × F × F | ∃ (w w' : Worker) (g1 : G1) (g2 : G2) (params : Parameters G1 G2) (pf : Proof G1 G2), g1 ≠ 0 ∧ g2 ≠ 0 ∧
        generateParameters w (MyCircuit.mk none).synthesize g1 g2 x.1 x.2.1 x.2.2.1 x.2.2.2.1 x.2.2.2.2 = Res.ok params ∧
        createProof w' (MyCircuit.mk (some m)).synthesize params r s = Res.ok pf ∧
        verifyProof E (prepareVerifyingKey E params.vk) pf xs = some (.ok ())} : Set _).ncard ≤
      (3 * (Qap.ofTrace t).m + 1 + 2 * (numIn t + 1 + numAux t) * ((Qap.ofTrace t).m - 1)) * p F ^ 4 := by
  have := PrimeField.finite (F := F)
  obtain ⟨t1, h1, hs, hpre, -⟩ := prover_synthesize (F := F) h64 hm
  have hsh : SShape (F := F) (fun _ _ => True) (MyCircuit.mk none).synthesize (MyCircuit.mk (some m)).synthesize :=
    shape_synthesize (bitValues_same _ hm)
  obtain ⟨σ, -, q2, q3⟩ := C42_honest (G1 := G1) (G2 := G2) hsh h1 r s
  have hext : preimageOf (σ.extract xs) = m := by
    rw [← hpre]
    unfold preimageOf
    have : ∀ i, σ.extract xs (.aux i) = witness t1 (.aux i) := fun i => q2 i
    simp only [this]
  refine le_trans (Set.ncard_le_ncard ?_ (Set.toFinite _))
    ((C44_knowledge (G1 := G1) (G2 := G2) E ht hash hh xs hx σ).resolve_left (by rw [hext]; exact hne))
  rintro x ⟨w, w', g1, g2, params, pf, z1, z2, hk, hp, hv⟩
  rw [q3 w w' g1 g2 _ _ _ _ _ params pf hk hp] at hv
  exact ⟨w, g1, g2, params, z1, z2, hk, hv⟩

/-- C44, zero knowledge: two preimages of the same hash give the same distribution of proofs. -/
theorem C44_hiding (h64 : 64 ≤ NUM_BITS F) (w w' w'' : Worker) (g1 : G1) (g2 : G2) (α β γ δ τ : F) (params : Parameters G1 G2)
    (hk : generateParameters w (MyCircuit.mk none).synthesize g1 g2 α β γ δ τ = Res.ok params) (m m' : List (BitVec 8))
    (hm : m.length = 80) (hm' : m'.length = 80) (heq : Spec.sha256d m = Spec.sha256d m')
    (hok : ∃ (r s : F) (pf : Proof G1 G2), createProof w' (MyCircuit.mk (some m)).synthesize params r s = Res.ok pf)
    (hok' : ∃ (r s : F) (pf : Proof G1 G2), createProof w'' (MyCircuit.mk (some m')).synthesize params r s = Res.ok pf) (out : Res (Proof G1 G2)) :
    Nat.card {x : F × F // createProof w' (MyCircuit.mk (some m)).synthesize params x.1 x.2 = out} =
      Nat.card {x : F × F // createProof w'' (MyCircuit.mk (some m')).synthesize params x.1 x.2 = out} := by
  obtain ⟨t, ht, hs, -, hx⟩ := prover_synthesize (F := F) h64 hm
  obtain ⟨t', ht', hs', -, hx'⟩ := prover_synthesize (F := F) h64 hm'
  have hsh : ∀ m, m.length = 80 → SShape (F := F) (fun _ _ => True) (MyCircuit.mk none).synthesize (MyCircuit.mk (some m)).synthesize :=
    fun m hm => shape_synthesize (bitValues_same _ hm)
  rw [heq, hx', Option.some.injEq] at hx
  exact C34_distribution w w' w'' (hsh m hm) (hsh m' hm') g1 g2 α β γ δ τ params hk t t' ht ht' hs hs' hx.symm hok hok' out

/-- C44: a preimage of the wrong length makes `synthesize` panic before anything is allocated. -/
theorem C44_length (m : List (BitVec 8)) (hm : m.length ≠ 80) (t : List (Ev F)) (r) (he : Exec (MyCircuit.mk (some m)).synthesize.run t r) :
    t = [] ∧ r = none := by
  unfold MyCircuit.synthesize at he
  dsimp only at he
  rw [bitValues_some, if_neg (by rw [List.length_map, length_le]; omega)] at he
  cases he
  exact ⟨rfl, rfl⟩

/-! ### The hypotheses are met -/

/-- The scalar field of BLS12-381 is large enough, and there are two public inputs. -/
example : ∃ t : List (Ev BlsScalar), KeyTrace (MyCircuit.mk none).synthesize t ∧ numIn t = 2 := by
  obtain ⟨t, h1, -, h2⟩ := C44_key (F := BlsScalar) (by decide)
  exact ⟨t, h1, h2⟩

/-- The preimage of the documentation. -/
example : ∃ t : List (Ev BlsScalar), ProverTrace (MyCircuit.mk (some (List.replicate 80 42#8))).synthesize t ∧ Sat (witness t) t :=
  let ⟨t, h1, h2, _⟩ := prover_synthesize (F := BlsScalar) (by decide) (m := List.replicate 80 42#8) List.length_replicate
  ⟨t, h1, h2⟩

end Bellman
