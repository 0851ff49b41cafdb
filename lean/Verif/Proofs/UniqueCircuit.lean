import Verif.Proofs.UniqueHash
import Verif.Proofs.UniqueNum
import Verif.Proofs.Mimc
import Verif.Props.HashProof
import Verif.Props.Preimage

/-!
# Uniqueness of witnesses: whole circuits
-/

namespace Bellman

open PrimeField

set_option linter.unusedSectionVars false
set_option linter.unusedVariables false

variable {F : Type} [PrimeField F] {ρ ρ' : Var → F}

/-- Which variables a trace allocates. -/
theorem mem_allocated {n k : ℕ} {t : List (Ev F)} (h : Numbered n k t) (x : Var) :
    x ∈ allocated t ↔ (∃ i < numIn t, x = .input (n + i)) ∨ ∃ j < numAux t, x = .aux (k + j) := by
  induction t generalizing n k with
  | nil => simp [numAux]
  | cons e t ih =>
    rcases e with ⟨_ | _, _, y, _⟩ | _ | _ | _
    · obtain ⟨rfl, h⟩ := h
      rw [allocated_alloc, numIn_aux, numAux_aux, List.mem_cons, ih h]
      constructor
      · rintro (rfl | h | ⟨j, hj, rfl⟩)
        · exact .inr ⟨0, by omega, rfl⟩
        · exact .inl h
        · exact .inr ⟨j + 1, by omega, by congr 1; omega⟩
      · rintro (h | ⟨j, hj, rfl⟩)
        · exact .inr (.inl h)
        · cases j with
          | zero => exact .inl rfl
          | succ j => exact .inr (.inr ⟨j, by omega, by congr 1; omega⟩)
    · obtain ⟨rfl, h⟩ := h
      rw [allocated_alloc, numIn_input, numAux_input, List.mem_cons, ih h]
      constructor
      · rintro (rfl | ⟨j, hj, rfl⟩ | h)
        · exact .inl ⟨0, by omega, rfl⟩
        · exact .inl ⟨j + 1, by omega, by congr 1; omega⟩
        · exact .inr h
      · rintro (⟨j, hj, rfl⟩ | h)
        · cases j with
          | zero => exact .inl rfl
          | succ j => exact .inr (.inl ⟨j, by omega, by congr 1; omega⟩)
        · exact .inr (.inr h)
    · exact ih h
    · exact ih h
    · exact ih h

/-- Lists of auxiliary values are equal if the assignments agree on what is allocated. -/
theorem aux_ext {t : List (Ev F)} (hn : Numbered 1 0 t) {is is' as as' : List F} (hl : as.length = numAux t) (hl' : as'.length = numAux t)
    (h : ∀ x ∈ allocated t, assign is as x = assign is' as' x) : as = as' := by
  apply List.ext_getElem (hl.trans hl'.symm)
  intro j h1 h2
  have := h (.aux j) ((mem_allocated hn _).2 (.inr ⟨j, by omega, by rw [Nat.zero_add]⟩))
  simp only [assign] at this
  rwa [List.getD_eq_getElem _ _ h1, List.getD_eq_getElem _ _ h2] at this

/-- A trace of key generation determines the result. -/
theorem Blind.result {α : Type} {c : Circ F α} {t : List (Ev F)} {a b : α} (h : Blind c t (some a)) (h' : Blind c t (some b)) : a = b := by
  induction c generalizing t with
  | ret x => cases h; cases h'; rfl
  | panic m => cases h
  | alloc i n f k ih => cases h with | allocSkip x h => cases h' with | allocSkip x h' => exact ih _ h h'
  | enforce n fa fb fc k ih => cases h with | enforce h => cases h' with | enforce h' => exact ih h h'
  | push n k ih => cases h with | push h => cases h' with | push h' => exact ih h h'
  | pop k ih => cases h with | pop h => cases h' with | pop h' => exact ih h h'

namespace Preimage

/-- What a gadget must be like so that a circuit around it has unique witnesses. -/
def DetGadget (g : List Boolean → Synth F (List Boolean)) : Prop := ∀ ρ ρ' : Var → F, ρ .one = 1 → ρ' .one = 1 → ∀ bits, DetBits ρ ρ' bits →
  SDet ρ ρ' True (g bits) (AgreeAll ρ ρ')

theorem det_sha256 : DetGadget (F := F) Sha256.sha256 := fun _ _ h1 h1' _ h => Sha256.sdet_sha256 h1 h1' h

theorem det_blake2s (p : List (BitVec 8)) : DetGadget (F := F) (fun b => Blake2s.blake2s b p) := fun _ _ h1 h1' _ h => Blake2s.sdet_blake2s h1 h1' h p

theorem areBits_of {l : List Boolean} {xs : List Bool} (h : List.Forall₂ (Boolean.Bit ρ) l xs) : AreBits l ρ := fun b hb => by
  obtain ⟨i, hi, rfl⟩ := List.getElem_of_mem hb
  exact ⟨_, (List.forall₂_iff_get.1 h).2 i hi (by rwa [← h.length_eq])⟩

theorem det_sha256d : DetGadget (F := F) sha256d := by
  intro ρ ρ' h1 h1' bits hb
  have hf : DetBits ρ ρ' (flipBytes bits) := hb.sub fun b h => mem_flipBytes h
  obtain ⟨xs, hx⟩ := areBits_forall hf.bits
  obtain ⟨xs', hx'⟩ := areBits_forall hf.bits'
  unfold sha256d
  refine SDet.bind (SDet.inNs _ ((Sha256.sdet_sha256 h1 h1' hf).sound (Sha256.wpS_sha256 h1 hx) (Sha256.wpS_sha256 h1' hx'))) ?_
  rintro mid ⟨ha, hm, hm'⟩
  refine SDet.bind (SDet.inNs _ (Sha256.sdet_sha256 h1 h1' ⟨areBits_of hm, areBits_of hm', ha⟩)) fun res hr => ?_
  exact SDet.pure trivial fun b h => hr b (mem_flipBytes h)

/-- A circuit that allocates the bits of a message, hashes it and packs the hash into the inputs: the message determines everything. -/
theorem unique_body {g : List Boolean → Synth F (List Boolean)} (hg : DetGadget g) {n1 n2 : String} {vs : List (Option Bool)} {t : List (Ev F)}
    (he : Exec (allocPreimage 0 vs >>= fun bits => Synth.inNs n1 (g bits) >>= fun h => Synth.inNs n2 (packIntoInputs h) : Synth F Unit).run t (some (.ok ())))
    (hn : Numbered 1 0 t) (h1 : ρ .one = 1) (h1' : ρ' .one = 1) (hs : Sat ρ t) (hs' : Sat ρ' t)
    (ha : ∀ j < vs.length, ρ (.aux j) = ρ' (.aux j)) : ∀ x ∈ allocated t, ρ x = ρ' x := by
  classical
  obtain ⟨t1, t2, bits, rfl, e1, e2⟩ := Synth.exec_bind_inv he
  rw [numbered_append] at hn
  rw [Sat_append] at hs hs'
  have hb := sound_allocPreimage h1 e1 hn.1 hs.1
  have hb' := sound_allocPreimage h1' e1 hn.1 hs'.1
  obtain ⟨z1, z2, hv⟩ := exec_allocPreimage e1 hn.1
  have hag : AgreeAll ρ ρ' bits := by
    refine agreeAll_of_bits hb ?_
    convert hb' using 1
    exact List.map_congr_left fun j hj => by rw [Nat.zero_add, ha j (List.mem_range.1 hj)]
  have hd : SDet ρ ρ' True (Synth.inNs n1 (g bits) >>= fun h => Synth.inNs n2 (packIntoInputs h) : Synth F Unit) fun _ => True :=
    SDet.bind (SDet.inNs _ (hg ρ ρ' h1 h1' bits ⟨areBits_of hb, areBits_of hb', hag⟩)) fun h hh => SDet.inNs _ (sdet_packIntoInputs h1 h1' hh)
  have h2 := (hd t2 () e2 hs.2 hs'.2).2.1
  intro x hx
  rw [allocated_append, List.mem_append] at hx
  rcases hx with hx | hx
  · rcases (mem_allocated hn.1 x).1 hx with ⟨i, hi, _⟩ | ⟨j, hj, rfl⟩
    · omega
    · rw [Nat.zero_add]; exact ha j (by omega)
  · exact h2 x hx

/-- The same for the circuit of the documentation. -/
theorem unique_synthesize (c : MyCircuit) {t : List (Ev F)} (he : Exec c.synthesize.run t (some (.ok ()))) (hn : Numbered 1 0 t)
    (h1 : ρ .one = 1) (h1' : ρ' .one = 1) (hs : Sat ρ t) (hs' : Sat ρ' t) (ha : ∀ j < 640, ρ (.aux j) = ρ' (.aux j)) :
    ∀ x ∈ allocated t, ρ x = ρ' x := by
  unfold MyCircuit.synthesize at he
  dsimp only at he
  split at he
  · rename_i hl
    exact unique_body det_sha256d he hn h1 h1' hs hs' (by rw [hl]; exact ha)
  · cases he

/-- The bits of the preimage are bits. -/
theorem bits_synthesize (c : MyCircuit) {t : List (Ev F)} (he : Exec c.synthesize.run t (some (.ok ()))) (hn : Numbered 1 0 t)
    (h1 : ρ .one = 1) (hs : Sat ρ t) : ∀ j < 640, ρ (.aux j) = 0 ∨ ρ (.aux j) = 1 := by
  classical
  unfold MyCircuit.synthesize at he
  dsimp only at he
  split at he
  · rename_i hl
    obtain ⟨t1, t2, bits, rfl, e1, e2⟩ := Synth.exec_bind_inv he
    rw [numbered_append] at hn
    rw [Sat_append] at hs
    have hb := sound_allocPreimage h1 e1 hn.1 hs.1
    obtain ⟨z1, z2, hv⟩ := exec_allocPreimage e1 hn.1
    intro j hj
    have hj1 : j < bits.length := by rw [hv.length_eq]; simpa [hl] using hj
    have h2 := (List.forall₂_iff_get.1 hv).2 j hj1 (by simpa [hl] using hj)
    have h3 := (List.forall₂_iff_get.1 hb).2 j hj1 (by simpa [hl] using hj)
    obtain ⟨v, h2⟩ := h2
    rw [h2] at h3
    simp only [List.get_eq_getElem, List.getElem_map, List.getElem_range, Nat.zero_add] at h3
    have h3 : ρ (.aux j) = if decide (ρ (.aux j) = 1) = true then 1 else 0 := h3
    by_cases hh : ρ (.aux j) = 1
    · exact .inr hh
    · left; rw [h3]; simp [hh]
  · cases he

theorem preimageOf_eq (h : ∀ j < 640, ρ (.aux j) = 0 ∨ ρ (.aux j) = 1) (h' : ∀ j < 640, ρ' (.aux j) = 0 ∨ ρ' (.aux j) = 1)
    (he : preimageOf ρ = preimageOf ρ') : ∀ j < 640, ρ (.aux j) = ρ' (.aux j) := by
  classical
  intro j hj
  have := congrArg bytesToBitsLe he
  rw [preimageOf_bits, preimageOf_bits] at this
  have := List.map_inj_left.1 this j (List.mem_range.2 hj)
  have h2 : ρ (.aux j) = 1 ↔ ρ' (.aux j) = 1 := by simpa using this
  rcases h j hj with e | e <;> rcases h' j hj with e' | e'
  · rw [e, e']
  · exact absurd (h2.2 e') (by rw [e]; exact zero_ne_one)
  · exact absurd (h2.1 e) (by rw [e']; exact zero_ne_one)
  · rw [e, e']

namespace HashFn

variable (H : HashFn F)

theorem unique_circuit (hg : DetGadget H.gadget) {L : ℕ} {t : List (Ev F)} (ht : KeyTrace (H.circuit L none) t) (h1 : ρ .one = 1) (h1' : ρ' .one = 1)
    (hs : Sat ρ t) (hs' : Sat ρ' t) (ha : ∀ j < 8 * L, ρ (.aux j) = ρ' (.aux j)) : ∀ x ∈ allocated t, ρ x = ρ' x := by
  have he := ht.exec.exec
  rw [circuit_none] at he
  exact unique_body hg he ht.numbered h1 h1' hs hs' (by rwa [List.length_replicate])

/-- Every message with the hash has exactly one witness. -/
theorem one_witness (hg : DetGadget H.gadget) (h64 : 64 ≤ NUM_BITS F) {L : ℕ} {t : List (Ev F)} (ht : KeyTrace (H.circuit L none) t)
    {m : List (BitVec 8)} (hm : m.length = L) (xs : List F) (hx : computeMultipacking F (H.enc (H.fn m)) = some xs) :
    ∃! as : List F, as.length = numAux t ∧ Sat (assign (1 :: xs) as) t ∧ H.MessageIn (assign (1 :: xs) as) m := by
  obtain ⟨t1, hp, hs, hmi, hi⟩ := H.prover_circuit h64 hm
  cases hx.symm.trans hi
  have hsh : SShape (F := F) (fun _ _ => True) (H.circuit L (some m)) (H.circuit L none) := by
    rw [circuit_none, circuit_some H hm]
    exact H.shape_core (by rw [List.length_replicate, List.length_map, H.enc_len, hm])
  obtain ⟨t', _, hb, hsame, -⟩ := hsh.transfer_blind hp.exec.exec
  have hn := Ev.Same.numbered hsame hp.numbered
  have hsc : Scoped 1 0 t' := by
    have := hb.exec
    rw [circuit_none] at this
    exact H.scoped_core _ this hn
  have hk : KeyTrace (H.circuit L none) t' := ⟨hb, hn, hsc⟩
  cases ht.unique hk
  refine ⟨auxVals t1, ⟨?_, Ev.Same.sat hsame hs, hmi⟩, ?_⟩
  · rw [← Ev.Same.numAux hsame]
    exact hp.exec.allRun.lengths.2
  · rintro as ⟨hl, has, ham⟩
    have hl' : (auxVals t1).length = numAux t := by
      rw [← Ev.Same.numAux hsame]
      exact hp.exec.allRun.lengths.2
    refine aux_ext ht.numbered hl hl' (H.unique_circuit hg ht rfl rfl has (Ev.Same.sat hsame hs) fun j hj => ?_)
    exact (ham j (by rw [hm]; exact hj)).trans (hmi j (by rw [hm]; exact hj)).symm

end HashFn

end Preimage

namespace Mimc

/-- The two halves of the preimage determine everything. -/
theorem unique_loop (cs : List F) (i k : ℕ) (xl xr : Var) (v : Option (F × F)) (h1 : ρ (.input 0) = 1) (h1' : ρ' (.input 0) = 1)
    (hl : ρ xl = ρ' xl) (hr : ρ xr = ρ' xr) (hs : Sat ρ (loopTr cs i k xl xr v)) (hs' : Sat ρ' (loopTr cs i k xl xr v)) :
    ∀ x ∈ allocated (loopTr cs i k xl xr v), ρ x = ρ' x := by
  induction cs generalizing i k xl xr v with
  | nil => simp [loopTr]
  | cons c cs ih =>
    rw [loopTr] at hs hs' ⊢
    simp only [Sat_push, Sat_alloc, Sat_enforce, Sat_pop] at hs hs'
    obtain ⟨s1, s2, s3⟩ := hs
    obtain ⟨s1', s2', s3'⟩ := hs'
    simp only [rowA, rowV, rowC, LC.eval, List.map_cons, List.map_nil, List.sum_cons, List.sum_nil, h1, h1'] at s1 s2 s1' s2'
    have e1 : ρ (.aux k) = ρ' (.aux k) := by
      rw [← hl] at s1'
      linear_combination s1' - s1
    have e2 : ρ (newVar i k) = ρ' (newVar i k) := by
      rw [← hl, ← hr, ← e1] at s2'
      linear_combination s2' - s2
    intro x hx
    simp only [allocated_push, allocated_alloc, allocated_enforce, allocated_pop, List.mem_cons] at hx
    rcases hx with rfl | rfl | hx
    · exact e1
    · exact e2
    · exact ih _ _ _ _ _ e2 hl s3 s3' x hx

theorem unique_demo (cs : List F) (v : Option (F × F)) (h1 : ρ (.input 0) = 1) (h1' : ρ' (.input 0) = 1)
    (hl : ρ (.aux 0) = ρ' (.aux 0)) (hr : ρ (.aux 1) = ρ' (.aux 1)) (hs : Sat ρ (demoTr cs v)) (hs' : Sat ρ' (demoTr cs v)) :
    ∀ x ∈ allocated (demoTr cs v), ρ x = ρ' x := by
  simp only [demoTr, Sat_alloc] at hs hs'
  intro x hx
  simp only [demoTr, allocated_alloc, List.mem_cons] at hx
  rcases hx with rfl | rfl | hx
  · exact hl
  · exact hr
  · exact unique_loop cs _ _ _ _ v h1 h1' hl hr hs hs' x hx

end Mimc

end Bellman
