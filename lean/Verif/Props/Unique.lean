import Verif.Proofs.UniqueCircuit
import Verif.Props.TestCS
import Verif.Props.Mimc
import Verif.Props.Num

/-!
# C66: the prover has no choice

`Unique P inputs m`: two assignments that satisfy the constraints of a successful run of `m` and agree on `inputs` agree on every variable
that the run allocates, intermediate ones included.  C07–C17 say that the *results* of the gadgets are determined; here nothing else is free
either.
-/

namespace Bellman

open PrimeField

set_option linter.unusedSectionVars false

variable {F : Type} [PrimeField F] {α β : Type}

private theorem agree_of {ρ ρ' : Var → F} {b : Boolean} {l : List Var} (h : ∀ x ∈ l, ρ x = ρ' x) (hb : ∀ x ∈ b.vars, x ∈ l) : b.Agree ρ ρ' :=
  fun x hx => h x (hb x hx)

private theorem agreeAll_of {ρ ρ' : Var → F} {bits : List Boolean} (h : ∀ x ∈ bits.flatMap Boolean.vars, ρ x = ρ' x) : AgreeAll ρ ρ' bits :=
  fun b hb => agree_of h fun _ hx => List.mem_flatMap.2 ⟨b, hb, hx⟩

private theorem detBits_of {ρ ρ' : Var → F} (h1 : ρ .one = 1) (h1' : ρ' .one = 1) {bits : List Boolean} (hb : AreBits bits ρ)
    (h : ∀ x ∈ bits.flatMap Boolean.vars, ρ x = ρ' x) : DetBits ρ ρ' bits :=
  ⟨hb, (agreeAll_of h).bits h1 h1' hb, agreeAll_of h⟩

/-- C66 for the gadgets on `AllocatedBit`, whatever the operands hold. -/
theorem C66_bits (a b : AllocatedBit) :
    Unique (F := F) anyInputs [a.var, b.var] (AllocatedBit.xor a b) ∧ Unique (F := F) anyInputs [a.var, b.var] (AllocatedBit.and a b) ∧
    Unique (F := F) anyInputs [a.var, b.var] (AllocatedBit.andNot a b) ∧ Unique (F := F) anyInputs [a.var, b.var] (AllocatedBit.nor a b) := by
  refine ⟨.of ?_, .of ?_, .of ?_, .of ?_⟩ <;> intro ρ ρ' h1 h1' _ h
  · exact ⟨_, AllocatedBit.sdet_xor (h _ (by simp)) (h _ (by simp))⟩
  · exact ⟨_, AllocatedBit.sdet_and (h _ (by simp)) (h _ (by simp))⟩
  · exact ⟨_, AllocatedBit.sdet_andNot h1 h1' (h _ (by simp)) (h _ (by simp))⟩
  · exact ⟨_, AllocatedBit.sdet_nor h1 h1' (h _ (by simp)) (h _ (by simp))⟩

/-- C66 for the gadgets on `Boolean`; `sha256_ch` and `sha256_maj` need no assumption on the operands either. -/
theorem C66_booleans (a b c : Boolean) :
    Unique (F := F) anyInputs (a.vars ++ b.vars) (Boolean.xor a b) ∧ Unique (F := F) anyInputs (a.vars ++ b.vars) (Boolean.and a b) ∧
    Unique (F := F) anyInputs (a.vars ++ b.vars ++ c.vars) (Boolean.sha256Ch a b c) ∧
    Unique (F := F) anyInputs (a.vars ++ b.vars ++ c.vars) (Boolean.sha256Maj a b c) := by
  refine ⟨.of ?_, .of ?_, .of ?_, .of ?_⟩ <;> intro ρ ρ' h1 h1' _ h
  · exact ⟨_, Boolean.sdet_xor (agree_of h (by simp +contextual)) (agree_of h (by simp +contextual))⟩
  · exact ⟨_, Boolean.sdet_and h1 h1' (agree_of h (by simp +contextual)) (agree_of h (by simp +contextual))⟩
  · exact ⟨_, Boolean.sdet_sha256Ch h1 h1' (agree_of h (by simp +contextual)) (agree_of h (by simp +contextual)) (agree_of h (by simp +contextual))⟩
  · exact ⟨_, Boolean.sdet_sha256Maj h1 h1' (agree_of h (by simp +contextual)) (agree_of h (by simp +contextual)) (agree_of h (by simp +contextual))⟩

/-- C66 for the gadgets on `AllocatedNum`: products, the inverse allocated by `assert_nonzero`, the swapped pair, the public copy, and all
variables of the strict bit decomposition. -/
theorem C66_num (a b : AllocatedNum F) (c : Boolean) :
    Unique anyInputs [a.var, b.var] (AllocatedNum.mul a b) ∧ Unique anyInputs [a.var] (AllocatedNum.square a) ∧
    Unique anyInputs [a.var] (AllocatedNum.assertNonzero a) ∧ Unique anyInputs [a.var] (AllocatedNum.inputize a) ∧
    Unique anyInputs (a.var :: b.var :: c.vars) (AllocatedNum.conditionallyReverse a b c) ∧
    Unique anyInputs [a.var] (AllocatedNum.toBitsLeStrict a) := by
  refine ⟨.of ?_, .of ?_, .of ?_, .of ?_, .of ?_, .of ?_⟩ <;> intro ρ ρ' h1 h1' _ h
  · exact ⟨_, AllocatedNum.sdet_mul (h _ (by simp)) (h _ (by simp))⟩
  · exact ⟨_, AllocatedNum.sdet_square (h _ (by simp))⟩
  · exact ⟨_, AllocatedNum.sdet_assertNonzero h1 h1' (h _ (by simp))⟩
  · exact ⟨_, AllocatedNum.sdet_inputize h1 h1' (h _ (by simp))⟩
  · exact ⟨_, AllocatedNum.sdet_conditionallyReverse h1 h1' (h _ (by simp)) (h _ (by simp)) (agree_of h (by simp +contextual))⟩
  · exact ⟨_, AllocatedNum.sdet_toBitsLeStrict h1 h1' (h _ (by simp))⟩

/-- C66 does not hold of `to_bits_le`: if a number has a second representation of `NUM_BITS` bits then its bits can be chosen. -/
theorem C66_toBitsLe_choice (a : AllocatedNum F) (is as : List F) (ha : a.var.InRange (1 :: is).length as.length)
    (hx : val (assign (1 :: is) as a.var) + p F < 2 ^ NUM_BITS F) : ¬ Unique anyInputs [a.var] (AllocatedNum.toBitsLe a) := by
  intro hu
  obtain ⟨ρ, t, o, hex, h1, he, hn, hs, hne⟩ := C11_toBitsLe_not_unique is as a ha hx
  obtain ⟨ρ', t', o', hex', he', hn', -, hs', hq⟩ := Complete.realized (1 :: is) as fun ρ hx =>
    C11_toBitsLe_complete (a := ⟨some (assign (1 :: is) as a.var), a.var⟩) hx.one ⟨rfl, hx a.var ha⟩
  obtain ⟨tb, ob, hb, hsame, hR⟩ := (AllocatedNum.shape_toBitsLe (a := a) (a' := a) rfl).transfer_blind he
  obtain ⟨tb', ob', hb', hsame', hR'⟩ :=
    (AllocatedNum.shape_toBitsLe (a := ⟨some (assign (1 :: is) as a.var), a.var⟩) (a' := a) rfl).transfer_blind he'.exec
  have hnb := Ev.Same.numbered hsame hn
  cases KeyTrace.unique_aux hb hb' hnb (Ev.Same.numbered hsame' hn')
  cases Except.ok.inj (hb.result hb')
  have hall := hu tb ob hb.exec ρ ρ' h1 hex'.one trivial (by simp [hex a.var ha, hex' a.var ha]) (Ev.Same.sat hsame hs) (Ev.Same.sat hsame' hs')
  have hk := (((AllocatedNum.slocal_toBitsLe (by simp) ha).closed tb _ hb.exec hnb).2 _ rfl).2 ob rfl
  have hag : ∀ x : Var, x.InRange (1 :: is).length (as.length + numAux tb) → ρ x = ρ' x := by
    intro x hx
    by_cases hold : x.InRange (1 :: is).length as.length
    · rw [hex x hold, hex' x hold]
    · refine hall x ((mem_allocated hnb x).2 (.inr ?_))
      cases x with
      | input i => exact absurd hx hold
      | aux j => exact ⟨j - as.length, by simp [Var.InRange] at hx hold; omega, by simp [Var.InRange] at hold; congr 1; omega⟩
  apply hne
  have hcan := Boolean.Same.bits hR' (hq.imp fun _ _ h => h.2)
  have hcan : List.Forall₂ (Boolean.Bit ρ) ob ((List.range (NUM_BITS F)).map fun i => (val (assign (1 :: is) as a.var)).testBit i) := by
    refine List.forall₂_iff_get.2 ⟨hcan.length_eq, fun i hi hj => ?_⟩
    refine Boolean.Agree.bit hex'.one h1 (fun x hx => (hag x ?_).symm) ((List.forall₂_iff_get.1 hcan).2 i hi hj)
    have := hk _ (List.getElem_mem hi)
    rw [List.get_eq_getElem] at hx
    generalize ob[i] = b at hx this
    cases b <;> simp only [Boolean.vars, List.mem_singleton, List.not_mem_nil] at hx
    · exact hx ▸ this
    · exact hx ▸ this
  rw [hex a.var ha]
  refine Boolean.Same.bits (List.Forall₂.imp (fun b b' h => ?_) hR.flip) hcan
  have h : Boolean.Same b' b := h
  cases b <;> cases b' <;> simp_all [Boolean.Same, AllocatedBit.Same]

/-- C66 for the table lookups. -/
theorem C66_lookup (bits : List Boolean) (coords : List (F × F)) :
    Unique anyInputs (bits.flatMap Boolean.vars) (lookup3xy bits coords) ∧
    Unique anyInputs (bits.flatMap Boolean.vars) (lookup3xyWithConditionalNegation bits coords) := by
  refine ⟨.of ?_, .of ?_⟩ <;> intro ρ ρ' h1 h1' _ h
  · exact ⟨_, sdet_lookup3xy h1 h1' (agreeAll_of h)⟩
  · exact ⟨_, sdet_lookup3xyWithConditionalNegation h1 h1' (agreeAll_of h)⟩

/-- C66 for the public inputs of a packed list of bits. -/
theorem C66_pack (bits : List Boolean) : Unique (F := F) anyInputs (bits.flatMap Boolean.vars) (packIntoInputs bits) :=
  .of fun _ _ h1 h1' _ h => ⟨_, sdet_packIntoInputs h1 h1' (agreeAll_of h)⟩

/-- C66 for 32-bit words.  The sum of words, with the carries, is determined if the operands are words. -/
theorem C66_words (a b c : UInt32) (ops : List UInt32) :
    Unique (F := F) anyInputs ((a.bits ++ b.bits).flatMap Boolean.vars) (UInt32.xor a b) ∧
    Unique (F := F) anyInputs ((a.bits ++ b.bits ++ c.bits).flatMap Boolean.vars) (UInt32.sha256Ch a b c) ∧
    Unique (F := F) anyInputs ((a.bits ++ b.bits ++ c.bits).flatMap Boolean.vars) (UInt32.sha256Maj a b c) ∧
    Unique (F := F) (fun ρ => ∀ u ∈ ops, ∃ w, u.Word ρ w) ((ops.flatMap UInt32.bits).flatMap Boolean.vars)
      (MSynth.withMultiEq (UInt32.addmany ops)) := by
  refine ⟨.of ?_, .of ?_, .of ?_, .of ?_⟩ <;> intro ρ ρ' h1 h1' hp h
  · exact ⟨_, UInt32.sdet_xor (fun b hb => agreeAll_of h b (by simp [hb])) (fun b hb => agreeAll_of h b (by simp [hb]))⟩
  · exact ⟨_, UInt32.sdet_sha256Ch h1 h1' (fun b hb => agreeAll_of h b (by simp [hb])) (fun b hb => agreeAll_of h b (by simp [hb]))
      (fun b hb => agreeAll_of h b (by simp [hb]))⟩
  · exact ⟨_, UInt32.sdet_sha256Maj h1 h1' (fun b hb => agreeAll_of h b (by simp [hb])) (fun b hb => agreeAll_of h b (by simp [hb]))
      (fun b hb => agreeAll_of h b (by simp [hb]))⟩
  · refine ⟨_, MDet.withMultiEq h1 h1' (UInt32.addmany_det h1 h1' (A := True) fun u hu => ?_)⟩
    have hag : AgreeAll ρ ρ' u.bits := fun b hb => agreeAll_of h b (List.mem_flatMap.2 ⟨u, hu, hb⟩)
    obtain ⟨w, hw⟩ := hp u hu
    refine ⟨⟨w, hw⟩, ⟨w, ?_, hw.const⟩, fun _ => hag⟩
    exact List.forall₂_iff_get.2 ⟨hw.bits.length_eq, fun i hi hj => (hag _ (List.getElem_mem hi)).bit h1 h1' ((List.forall₂_iff_get.1 hw.bits).2 i hi hj)⟩

/-- C66 for the hash functions: on bits, every one of the tens of thousands of variables of every block is determined. -/
theorem C66_hashes (input : List Boolean) (personalization : List (BitVec 8)) :
    Unique (F := F) (AreBits input) (input.flatMap Boolean.vars) (Sha256.sha256 input) ∧
    Unique (F := F) (AreBits input) (input.flatMap Boolean.vars) (Sha256.sha256BlockNoPadding input) ∧
    Unique (F := F) (AreBits input) (input.flatMap Boolean.vars) (Blake2s.blake2s input personalization) := by
  refine ⟨.of ?_, .of ?_, .of ?_⟩ <;> intro ρ ρ' h1 h1' hp h
  · exact ⟨_, Sha256.sdet_sha256 h1 h1' (detBits_of h1 h1' hp h)⟩
  · exact ⟨_, Sha256.sdet_sha256BlockNoPadding h1 h1' (detBits_of h1 h1' hp h)⟩
  · exact ⟨_, Blake2s.sdet_blake2s h1 h1' (detBits_of h1 h1' hp h) personalization⟩

/-- C66 composes: what a program allocates may serve as input of what follows, and what its constraints say may be assumed there. -/
theorem C66_seq {P P' : (Var → F) → Prop} {inputs : List Var} {m : Synth F α} {g : α → Synth F β} (h : Unique P inputs m)
    (hg : ∀ t a, Exec m.run t (some (.ok a)) → (∀ ρ : Var → F, ρ .one = 1 → P ρ → Sat ρ t → P' ρ) ∧ Unique P' (inputs ++ allocated t) (g a)) :
    Unique P inputs (m >>= g) := by
  intro t b he ρ ρ' h1 h1' hp hi hs hs'
  obtain ⟨t1, t2, a, rfl, e1, e2⟩ := Synth.exec_bind_inv he
  rw [Sat_append] at hs hs'
  have ha := h t1 a e1 ρ ρ' h1 h1' hp hi hs.1 hs'.1
  obtain ⟨g1, g2⟩ := hg t1 a e1
  have hb := g2 t2 b e2 ρ ρ' h1 h1' (g1 ρ h1 hp hs.1) (fun x hx => (List.mem_append.1 hx).elim (hi x) (ha x)) hs.2 hs'.2
  intro x hx
  rw [allocated_append, List.mem_append] at hx
  exact hx.elim (ha x) (hb x)

/-! ### What the unit tests sample -/

/-- C66 seen through the test constraint system, as the unit tests of the gadgets do when they overwrite a variable and expect failure: after
a satisfied run of such a gadget, overwrite any of the variables it allocated (`set`, any number of times, any values).  The system is
satisfied afterwards iff every variable has its old value again. -/
theorem C66_tested {m : Synth F α} {P : (Var → F) → Prop} {inputs : List Var} (hu : Unique P inputs m) {s s' : TestCS F} {a : α} (hs : s.WF)
    (h : m.run.run TestCS.impl s = some (.ok a, s')) (hsat : s'.isSatisfied = some true) (h1 : s'.rho .one = 1) (hP : P s'.rho)
    (edits : List (Var × String × F)) (hnamed : ∀ e ∈ edits, s'.named.lookup e.2.1 = some (.var e.1))
    (hnew : ∀ e ∈ edits, e.1 ∉ inputs ∧ e.1 ≠ .one ∧
      ((∃ i, e.1 = .input i ∧ s.inputs.length ≤ i ∧ i < s'.inputs.length) ∨ ∃ j, e.1 = .aux j ∧ s.aux.length ≤ j ∧ j < s'.aux.length)) :
    ∃ s'', TestCS.setAll (edits.map (·.2)) s' = some s'' ∧ (s''.isSatisfied = some true ↔ ∀ x, s''.rho x = s'.rho x) := by
  obtain ⟨t, he, hr⟩ := TestCS.run_recorded _ hs h
  obtain ⟨s'', e1, hw, hc, hrho, hiff⟩ := C04_setAll hr.wf edits hnamed
  have hold := (C04_isSatisfied s').1 hsat
  have hlen := congrArg List.length hr.inputs
  have hlen' := congrArg List.length hr.aux
  simp only [List.length_map, List.length_append] at hlen hlen'
  rw [hr.nIn] at hlen
  rw [hr.nAux] at hlen'
  have hother : ∀ (es : List (Var × String × F)) (ρ : Var → F) (x : Var), (∀ e ∈ es, e.1 ≠ x) →
      es.foldl (fun ρ e => Function.update ρ e.1 e.2.2) ρ x = ρ x := by
    intro es
    induction es with
    | nil => intros; rfl
    | cons e es ih =>
      intro ρ x hx
      rw [List.foldl_cons, ih _ _ fun e he => hx e (by simp [he])]
      exact Function.update_of_ne (hx e (by simp)).symm _ _
  have hsatT : ∀ {ρ : Var → F}, (∀ k ∈ s'.constraints, k.1.eval ρ * k.2.1.eval ρ = k.2.2.1.eval ρ) → Sat ρ t := fun hk => by
    refine (Sat_iff_consOf ..).2 fun k hk' => ?_
    obtain ⟨p, hp⟩ := (hr.mem_constraints k).2 (.inr hk')
    exact hk _ hp
  refine ⟨s'', e1, hiff.trans ⟨fun hk x => ?_, fun heq k hk => ?_⟩⟩
  · by_cases hx : ∃ e ∈ edits, e.1 = x
    · obtain ⟨e, hm, rfl⟩ := hx
      have hun := hu t a he.exec s'.rho s''.rho h1 ?_ hP ?_ (hsatT fun k hk => (hold k hk).2) (hsatT fun k hk' => (hk k hk').2)
      · refine (hun e.1 ((mem_allocated hr.numbered _).2 ?_)).symm
        rcases (hnew e hm).2.2 with ⟨i, hi, i1, i2⟩ | ⟨j, hj, j1, j2⟩
        · exact .inl ⟨i - s.inputs.length, by omega, by rw [hi]; congr 1; omega⟩
        · exact .inr ⟨j - s.aux.length, by omega, by rw [hj]; congr 1; omega⟩
      · rw [hrho, hother _ _ _ fun e he => (hnew e he).2.1]; exact h1
      · intro x hx
        rw [hrho, hother _ _ _ fun e he => ?_]
        rintro rfl
        exact (hnew e he).1 hx
    · rw [hrho]
      exact hother _ _ _ fun e he hex => hx ⟨e, he, hex⟩
  · have : s''.rho = s'.rho := funext heq
    rw [this]
    exact hold k hk

/-! ### Whole circuits: witnesses are preimages -/

/-- C66, circuit of the documentation: two assignments that satisfy the constraints and hold the same preimage are the same. -/
theorem C66_documentation {t : List (Ev F)} (ht : KeyTrace (Preimage.MyCircuit.mk none).synthesize t) (ρ ρ' : Var → F) (h1 : ρ .one = 1)
    (h1' : ρ' .one = 1) (hs : Sat ρ t) (hs' : Sat ρ' t) (hm : Preimage.preimageOf ρ = Preimage.preimageOf ρ') :
    (∀ i ≤ numIn t, ρ (.input i) = ρ' (.input i)) ∧ ∀ j < numAux t, ρ (.aux j) = ρ' (.aux j) := by
  have he := ht.exec.exec
  have hall := Preimage.unique_synthesize _ he ht.numbered h1 h1' hs hs'
    (Preimage.preimageOf_eq (Preimage.bits_synthesize _ he ht.numbered h1 hs) (Preimage.bits_synthesize _ he ht.numbered h1' hs') hm)
  refine ⟨fun i hi => ?_, fun j hj => ?_⟩
  · cases i with
    | zero => exact h1.trans h1'.symm
    | succ i => exact hall _ ((mem_allocated ht.numbered _).2 (.inl ⟨i, by omega, by rw [Nat.add_comm]⟩))
  · exact hall _ ((mem_allocated ht.numbered _).2 (.inr ⟨j, by omega, by rw [Nat.zero_add]⟩))

/-- C66, circuit of the documentation: for a given hash, the witnesses correspond one-to-one to the messages of 80 bytes with this SHA-256d. -/
theorem C66_documentation_bijection (h64 : 64 ≤ NUM_BITS F) {t : List (Ev F)} (ht : KeyTrace (Preimage.MyCircuit.mk none).synthesize t)
    (hash : List (BitVec 8)) (hh : hash.length = 32) (xs : List F) (hx : computeMultipacking F (bytesToBitsLe hash) = some xs) :
    Set.BijOn (fun as => Preimage.preimageOf (assign (1 :: xs) as)) {as : List F | as.length = numAux t ∧ Sat (assign (1 :: xs) as) t}
      {m | m.length = 80 ∧ Spec.sha256d m = hash} := by
  refine ⟨fun as has => ⟨Preimage.preimageOf_length _, C44_sound ht hash hh xs hx _ (fun _ => rfl) has.2⟩, fun as has as' has' he => ?_, ?_⟩
  · refine aux_ext ht.numbered has.1 has'.1 (is := 1 :: xs) (is' := 1 :: xs) fun x hx => ?_
    have := C66_documentation ht (assign (1 :: xs) as) (assign (1 :: xs) as') rfl rfl has.2 has'.2 he
    rcases (mem_allocated ht.numbered _).1 hx with ⟨i, hi, rfl⟩ | ⟨j, hj, rfl⟩
    · exact this.1 _ (by omega)
    · exact this.2 _ (by omega)
  · rintro m ⟨hm, rfl⟩
    obtain ⟨t1, hp, hs, hpre, hi⟩ := prover_synthesize (F := F) h64 hm
    cases hx.symm.trans hi
    obtain ⟨t', _, hb, hsame, -⟩ := (Preimage.shape_synthesize (F := F) (bitValues_same m hm).symm).transfer_blind hp.exec.exec
    have hn := Ev.Same.numbered hsame hp.numbered
    cases ht.unique ⟨hb, hn, Preimage.scoped_synthesize _ hb.exec hn⟩
    exact ⟨auxVals t1, ⟨by rw [← Ev.Same.numAux hsame]; exact hp.exec.allRun.lengths.2, Ev.Same.sat hsame hs⟩, hpre⟩

/-- C66, MiMC circuit: for a given image, the witnesses correspond one-to-one to the preimages. -/
theorem C66_mimc_bijection (cs : List F) (h : cs.length = 322) {t : List (Ev F)} (ht : KeyTrace (Mimc.Demo.mk none none cs).synthesize t) (image : F) :
    Set.BijOn (fun as => (as.getD 0 0, as.getD 1 0)) {as : List F | as.length = numAux t ∧ Sat (assign [1, image] as) t}
      {x | Spec.mimc cs x.1 x.2 = image} := by
  cases ht.unique (Mimc.keyTrace_demo cs h)
  refine ⟨fun as has => (Mimc.sat_demo cs h none (ρ := assign [1, image] as) rfl has.2).symm, fun as has as' has' he => ?_, ?_⟩
  · obtain ⟨e1, e2⟩ := Prod.mk.inj he
    exact aux_ext ht.numbered has.1 has'.1 (is := [1, image]) (is' := [1, image]) (Mimc.unique_demo cs none rfl rfl e1 e2 has.2 has'.2)
  · rintro ⟨xl, xr⟩ rfl
    obtain ⟨t1, hp, hs, hi, e1, e2⟩ := C48_complete cs h xl xr
    obtain ⟨t', _, hb, hsame, -⟩ := (Mimc.shape_demo cs (some (xl, xr)) none).transfer_blind hp.exec.exec
    cases KeyTrace.unique_aux ht.exec hb ht.numbered (Ev.Same.numbered hsame hp.numbered)
    have hw : witness t1 = assign [1, Spec.mimc cs xl xr] (auxVals t1) := by rw [witness, hi]
    rw [hw] at hs e1 e2
    exact ⟨auxVals t1, ⟨by rw [← Ev.Same.numAux hsame]; exact hp.exec.allRun.lengths.2, Ev.Same.sat hsame hs⟩, Prod.ext e1 e2⟩

/-- C66, SHA-256 of messages of `len` bytes: every message has exactly one witness.  By `C61_sha256_sound` every witness holds a message with
the given hash, so witnesses correspond one-to-one to preimages. -/
theorem C66_sha256_one_witness (h64 : 64 ≤ NUM_BITS F) {len : ℕ} {t : List (Ev F)} (ht : KeyTrace (Preimage.sha256Circuit len none) t)
    {m : List (BitVec 8)} (hm : m.length = len) (xs : List F) (hx : computeMultipacking F (bytesToBits (Spec.digest m)) = some xs) :
    ∃! as : List F, as.length = numAux t ∧ Sat (assign (1 :: xs) as) t ∧ HoldsBits (assign (1 :: xs) as) (bytesToBits m) := by
  obtain ⟨as, ⟨h1, h2, h3⟩, hu⟩ := (Preimage.sha256Fn F).one_witness Preimage.det_sha256 h64 ht hm xs hx
  exact ⟨as, ⟨h1, h2, (messageIn_iff _ _ m).1 h3⟩, fun as' h => hu as' ⟨h.1, h.2.1, (messageIn_iff (Preimage.sha256Fn F) _ m).2 h.2.2⟩⟩

/-- C66, BLAKE2s of messages of `len` bytes. -/
theorem C66_blake2s_one_witness (h64 : 64 ≤ NUM_BITS F) (pers : List (BitVec 8)) (hp : pers.length = 8) {len : ℕ} {t : List (Ev F)}
    (ht : KeyTrace (Preimage.blake2sCircuit pers len none) t) {m : List (BitVec 8)} (hm : m.length = len) (xs : List F)
    (hx : computeMultipacking F (bytesToBitsLe (Spec.Blake2s.blake2s pers m)) = some xs) :
    ∃! as : List F, as.length = numAux t ∧ Sat (assign (1 :: xs) as) t ∧ HoldsBits (assign (1 :: xs) as) (bytesToBitsLe m) := by
  obtain ⟨as, ⟨h1, h2, h3⟩, hu⟩ := (Preimage.blake2sFn F pers hp).one_witness (Preimage.det_blake2s pers) h64 ht hm xs hx
  exact ⟨as, ⟨h1, h2, (messageIn_iff _ _ m).1 h3⟩, fun as' h => hu as' ⟨h.1, h.2.1, (messageIn_iff (Preimage.blake2sFn F pers hp) _ m).2 h.2.2⟩⟩

/-! ### Examples -/

section Examples

/-- `true` and `false` allocated in a test constraint system, then their exclusive or. -/
private def twoBits : Synth DummyFr Unit := do
  let _ ← Synth.inNs "a" (AllocatedBit.alloc (some true))
  let _ ← Synth.inNs "b" (AllocatedBit.alloc (some false))
  pure ()

private def xorAB : Synth DummyFr AllocatedBit := AllocatedBit.xor ⟨.aux 0, some true⟩ ⟨.aux 1, some false⟩

private def before : TestCS DummyFr := ((twoBits.run.run TestCS.impl .new).map (·.2)).getD .new
private def after : TestCS DummyFr := ((xorAB.run.run TestCS.impl before).map (·.2)).getD .new

private theorem before_wf : before.WF := (TestCS.Reachable.run twoBits.run (a := .ok ()) .new (by
    unfold before
    have h : (twoBits.run.run TestCS.impl .new).isSome = true := by decide +kernel
    obtain ⟨⟨r, s⟩, e⟩ := Option.isSome_iff_exists.1 h
    have : (twoBits.run.run TestCS.impl .new).map (fun x => x.1.toOption) = some (some ()) := by decide +kernel
    rw [e] at this ⊢
    cases r with
    | error e => simp [Except.toOption] at this
    | ok u => rfl)).wf

/-- The result of the exclusive or cannot be overwritten by another value. -/
example : ∃ s'', TestCS.setAll [("xor result", (0 : DummyFr))] after = some s'' ∧ s''.isSatisfied ≠ some true := by
  have h : (xorAB.run.run TestCS.impl before).isSome = true := by decide +kernel
  obtain ⟨⟨r, s⟩, e⟩ := Option.isSome_iff_exists.1 h
  have h2 : (xorAB.run.run TestCS.impl before).map (fun x => x.1.toOption.isSome) = some true := by decide +kernel
  have ha : after = s := by rw [after, e]; rfl
  rw [e] at h2
  cases r with
  | error e => simp [Except.toOption] at h2
  | ok u =>
    obtain ⟨s'', e1, e2⟩ := C66_tested (C66_bits (F := DummyFr) ⟨.aux 0, some true⟩ ⟨.aux 1, some false⟩).1 before_wf e
      (by rw [← ha]; decide +kernel) (by rw [← ha]; decide +kernel) trivial [(.aux 2, "xor result", 0)]
      (by rw [← ha]; decide +kernel)
      (by
        intro e he
        cases List.mem_singleton.1 he
        exact ⟨by decide, by decide, .inr ⟨2, rfl, by decide +kernel, by rw [← ha]; decide +kernel⟩⟩)
    rw [← ha] at e1 e2
    refine ⟨s'', e1, fun hsat => ?_⟩
    have hx := e2.1 hsat (.aux 2)
    have h0 : (TestCS.setAll [("xor result", (0 : DummyFr))] after).map (fun s => s.rho (.aux 2)) = some 0 := by decide +kernel
    have h1 : after.rho (.aux 2) = 1 := by decide +kernel
    rw [show TestCS.setAll [("xor result", (0 : DummyFr))] after = some s'' from e1, Option.map_some, hx, h1] at h0
    exact absurd (Option.some.inj h0) (by decide +kernel)

/-- The number 5 in the BLS12-381 scalar field can be decomposed in two ways by `to_bits_le` and in one way by `to_bits_le_strict`. -/
example : ¬ Unique anyInputs [.aux 0] (⟨some 5, .aux 0⟩ : AllocatedNum BlsScalar).toBitsLe ∧
    Unique anyInputs [.aux 0] (⟨some 5, .aux 0⟩ : AllocatedNum BlsScalar).toBitsLeStrict :=
  ⟨C66_toBitsLe_choice (F := BlsScalar) ⟨some 5, .aux 0⟩ [] [5] (by simp [Var.InRange]) (by decide +kernel),
    (C66_num (F := BlsScalar) ⟨some 5, .aux 0⟩ ⟨some 5, .aux 0⟩ (.constant false)).2.2.2.2.2⟩

/-- A second step may use what the first one allocated: `(a ∧ b) ⊕ b`. -/
example (a b : AllocatedBit) : Unique (F := F) anyInputs [a.var, b.var] (do
    let c ← AllocatedBit.and a b
    AllocatedBit.xor c b) := by
  refine C66_seq (P' := anyInputs) (C66_bits a b).2.1 fun t c he => ⟨fun _ _ _ _ => trivial, ?_⟩
  intro t' d he' ρ ρ' h1 h1' _ hi
  refine (C66_bits c b).1 t' d he' ρ ρ' h1 h1' trivial fun x hx => ?_
  have hc : c.var ∈ allocated t := by
    rcases (show Exec (Circ.alloc false "and result" _ fun a => _) t _ from he) with _ | _ | ⟨x, he⟩ | ⟨x, v, hf, he⟩ | ⟨e, he⟩
    · rcases (show Exec (Circ.enforce _ _ _ _ _) _ _ from he) with _ | _ | _ | _ | _ | he
      cases he
      simp
    · rcases (show Exec (Circ.enforce _ _ _ _ _) _ _ from he) with _ | _ | _ | _ | _ | he
      cases he
      simp
    · cases he
  rcases List.mem_cons.1 hx with rfl | hx
  · exact hi _ (by simp [hc])
  · exact hi _ (by simp at hx; simp [hx])

/-- The documentation's circuit over the BLS12-381 scalar field has a key trace, so the bijection is about something. -/
example : ∃ t, KeyTrace (Preimage.MyCircuit.mk none).synthesize t ∧ ∀ m : List (BitVec 8), m.length = 80 → ∃ xs,
    ∃! as : List BlsScalar, (as.length = numAux t ∧ Sat (assign (1 :: xs) as) t) ∧ Preimage.preimageOf (assign (1 :: xs) as) = m := by
  have h64 : 64 ≤ NUM_BITS BlsScalar := by decide +kernel
  obtain ⟨t, ht, -, -⟩ := C44_key (F := BlsScalar) h64
  refine ⟨t, ht, fun m hm => ?_⟩
  have hl : (Spec.sha256d m).length = 32 := by simp [Spec.sha256d, Spec.digest]
  obtain ⟨xs, hx, -⟩ := computeMultipacking_some (F := BlsScalar) (bytesToBitsLe (Spec.sha256d m))
  obtain ⟨-, hinj, hsurj⟩ := C66_documentation_bijection h64 ht _ hl xs hx
  obtain ⟨as, has, hm'⟩ := hsurj ⟨hm, rfl⟩
  exact ⟨xs, as, ⟨has, hm'⟩, fun as' h => hinj h.1 has (h.2.trans hm'.symm)⟩

end Examples

end Bellman
