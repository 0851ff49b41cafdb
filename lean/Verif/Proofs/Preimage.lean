import Verif.Proofs.Bytes
import Verif.Props.Scope
import Verif.Props.Hash
import Verif.Props.Witness

/-!
# The documentation example: what the circuit states
-/

namespace Bellman

open PrimeField
open List (Forall₂)

set_option linter.unusedSectionVars false

variable {F : Type} [PrimeField F]

theorem Synth.exec_inNs_inv {α : Type} {s : String} {m : Synth F α} {t : List (Ev F)} {a : α}
    (h : Exec (Synth.inNs s m).run t (some (.ok a))) :
    ∃ t', t = .push s :: (t' ++ [.pop]) ∧ Exec m.run t' (some (.ok a)) := by
  cases h with
  | push h =>
    rcases Exec.bind_inv h with ⟨_, h⟩ | ⟨t1, t2, r, rfl, h1, h2⟩
    · cases h
    · cases h2 with
      | pop h2 => cases h2; exact ⟨t1, rfl, h1⟩

@[simp] theorem inputsOf_push (n : String) (t : List (Ev F)) : inputsOf (.push n :: t) = inputsOf t := rfl
@[simp] theorem inputsOf_pop (t : List (Ev F)) : inputsOf (.pop :: t) = inputsOf t := rfl

theorem numIn_inNs (s : String) (t : List (Ev F)) : numIn (.push s :: (t ++ [.pop])) = numIn t := by
  rw [numIn_push, numIn_append]; rfl

theorem numAux_inNs (s : String) (t : List (Ev F)) : numAux (.push s :: (t ++ [.pop])) = numAux t := by
  rw [numAux_push, numAux_append]; rfl

theorem numbered_inNs (s : String) (t : List (Ev F)) {n k : ℕ} : Numbered n k (.push s :: (t ++ [.pop])) ↔ Numbered n k t := by
  show Numbered n k (t ++ [.pop]) ↔ _
  rw [numbered_append]
  exact ⟨fun h => h.1, fun h => ⟨h, trivial⟩⟩

theorem sat_inNs (s : String) (t : List (Ev F)) {ρ : Var → F} : Sat ρ (.push s :: (t ++ [.pop])) ↔ Sat ρ t := by
  simp [Sat]

theorem inputsOf_inNs (s : String) (t : List (Ev F)) : inputsOf (.push s :: (t ++ [.pop])) = inputsOf t := by simp

/-- The public inputs of a trace are numbered consecutively. -/
theorem inputsOf_numbered {n k : ℕ} {t : List (Ev F)} (h : Numbered n k t) :
    inputsOf t = (List.range (numIn t)).map fun i => Var.input (n + i) := by
  induction t generalizing n k with
  | nil => rfl
  | cons e t ih =>
    rcases e with ⟨_ | _, _, _, _⟩ | _ | _ | _
    · rw [inputsOf_alloc, numIn_aux]; exact ih h.2
    · obtain ⟨rfl, h⟩ := h
      rw [inputsOf_allocInput, numIn_input, ih h, List.range_succ_eq_map, List.map_cons, List.map_map]
      simp only [Nat.add_zero, List.cons.injEq, true_and]
      refine List.map_congr_left fun i _ => ?_
      simp only [Function.comp]
      congr 1
      omega
    · rw [inputsOf_enforce, numIn_enforce]; exact ih h
    · rw [inputsOf_push, numIn_push]; exact ih h
    · rw [inputsOf_pop, numIn_pop]; exact ih h

theorem inputsOf_nil_of {t : List (Ev F)} (h : numIn t = 0) {n k : ℕ} (hn : Numbered n k t) : inputsOf t = [] := by
  rw [inputsOf_numbered hn, h]; rfl

namespace Preimage

open Classical in
/-- Byte `i` of the preimage is read off the auxiliary variables `8 i … 8 i + 7`, least significant bit first (specification). -/
noncomputable def preimageOf (ρ : Var → F) : List (BitVec 8) :=
  (List.range 80).map fun i => BitVec.ofNat 8 (∑ j ∈ Finset.range 8, if ρ (.aux (8 * i + j)) = 1 then 2 ^ j else 0)

theorem preimageOf_length (ρ : Var → F) : (preimageOf ρ).length = 80 := by simp [preimageOf]

open Classical in
theorem preimageOf_bits (ρ : Var → F) :
    bytesToBitsLe (preimageOf ρ) = (List.range 640).map fun j => decide (ρ (.aux j) = 1) := by
  have key : ∀ i, (∑ j ∈ Finset.range 8, if ρ (.aux (8 * i + j)) = 1 then 2 ^ j else 0) =
      bitsVal ((List.range 8).map fun j => decide (ρ (.aux (8 * i + j)) = 1)) := by
    intro i
    have : ∀ f : ℕ → Bool, (∑ j ∈ Finset.range 8, if f j = true then 2 ^ j else 0) = bitsVal ((List.range 8).map f) := by
      intro f
      rw [show List.range 8 = [0, 1, 2, 3, 4, 5, 6, 7] by decide]
      simp only [List.map_cons, List.map_nil, bitsVal, Finset.sum_range_succ, Finset.sum_range_zero]
      cases f 0 <;> cases f 1 <;> cases f 2 <;> cases f 3 <;> cases f 4 <;> cases f 5 <;> cases f 6 <;> cases f 7 <;> rfl
    rw [← this]
    simp only [decide_eq_true_eq]
  unfold bytesToBitsLe preimageOf
  simp only [byte_le, key]
  exact flatMap_bytes (fun (b : BitVec 8) i => b.getLsbD i) _ (fun j => decide (ρ (.aux j) = 1)) 80 fun i _ => byte_of_bits _ (by simp)

/-- The bits of the preimage are the first auxiliary variables. -/
theorem exec_allocPreimage {vs : List (Option Bool)} {i n k : ℕ} {t : List (Ev F)} {bits : List Boolean}
    (he : Exec (allocPreimage i vs : Synth F _).run t (some (.ok bits))) (hn : Numbered n k t) :
    numIn t = 0 ∧ numAux t = vs.length ∧
      Forall₂ (fun b j => ∃ v, b = Boolean.is ⟨.aux j, v⟩) bits ((List.range vs.length).map fun j => k + j) := by
  induction vs generalizing i k t bits with
  | nil =>
    obtain ⟨rfl, rfl⟩ := Synth.exec_pure_inv he
    exact ⟨rfl, rfl, .nil⟩
  | cons v vs ih =>
    rw [allocPreimage] at he
    obtain ⟨t1, t2, a, rfl, h1, h2⟩ := Synth.exec_bind_inv he
    obtain ⟨t2, t3, bs, rfl, h2', h3⟩ := Synth.exec_bind_inv h2
    obtain ⟨rfl, rfl⟩ := Synth.exec_pure_inv h3
    obtain ⟨t0, rfl, h1'⟩ := Synth.exec_inNs_inv h1
    rw [List.append_nil, numbered_append, numbered_inNs, numIn_inNs, numAux_inNs] at hn
    obtain ⟨hn1, hn2⟩ := hn
    unfold AllocatedBit.alloc at h1'
    obtain ⟨s1, s2, r, rfl, g1, g2⟩ := Synth.exec_bind_inv h1'
    obtain ⟨s2, s3, u, rfl, g2', g3⟩ := Synth.exec_bind_inv g2
    obtain ⟨rfl, rfl⟩ := Synth.exec_pure_inv g3
    have e1 := Synth.exec_alloc_inv g1
    have e2 := Synth.exec_enforce_inv g2'
    subst e1 e2
    have hv : r.1 = .aux k := hn1.1
    have c1 : numIn ([Ev.alloc false "boolean" r.1 r.2] ++ ([Ev.enforce "boolean constraint" ((⟨[]⟩ : LC F) + Var.one - r.1) ((⟨[]⟩ : LC F) + r.1) (⟨[]⟩ : LC F)] ++ [])) = 0 := rfl
    have c2 : numAux ([Ev.alloc false "boolean" r.1 r.2] ++ ([Ev.enforce "boolean constraint" ((⟨[]⟩ : LC F) + Var.one - r.1) ((⟨[]⟩ : LC F) + r.1) (⟨[]⟩ : LC F)] ++ [])) = 1 := rfl
    rw [c1, c2] at hn2
    obtain ⟨i1, i2, i3⟩ := ih h2' hn2
    refine ⟨?_, ?_, ?_⟩
    · rw [numIn_append, numIn_inNs, c1, List.append_nil, i1]
    · rw [numAux_append, numAux_inNs, c2, List.append_nil, i2, List.length_cons, Nat.add_comm]
    · rw [List.length_cons, List.range_succ_eq_map, List.map_cons, List.map_map]
      refine .cons ⟨v, by rw [hv]; rfl⟩ ?_
      convert i3 using 2
      funext j
      simp only [Function.comp]
      omega

/-! ### Soundness and completeness -/

variable {ρ : Var → F}

open Classical in
theorem sound_allocPreimage (h1 : ρ .one = 1) {vs : List (Option Bool)} {i n k : ℕ} {t : List (Ev F)} {bits : List Boolean}
    (he : Exec (allocPreimage i vs : Synth F _).run t (some (.ok bits))) (hn : Numbered n k t) (hs : Sat ρ t) :
    Forall₂ (Boolean.Bit ρ) bits ((List.range vs.length).map fun j => decide (ρ (.aux (k + j)) = 1)) := by
  have hb : Synth.wpS ρ (allocPreimage i vs) fun bits => ∀ b ∈ bits, ∃ x, Boolean.Bit ρ b x := by
    clear he hn hs
    induction vs generalizing i with
    | nil => simp [allocPreimage]
    | cons v vs ih =>
      unfold allocPreimage
      simp only [Synth.wpS_bind, Synth.wpS_inNs, Synth.wpS_pure]
      refine Synth.wpS_mono (AllocatedBit.wpS_alloc h1 v) fun a ⟨x, hx⟩ => ?_
      refine Synth.wpS_mono ih fun bs hbs => ?_
      intro b hb
      rcases List.mem_cons.1 hb with rfl | hb
      · exact ⟨x, hx⟩
      · exact hbs b hb
  have hb := (Synth.wpS_iff ..).1 hb t bits he hs
  obtain ⟨-, -, hv⟩ := exec_allocPreimage he hn
  rw [List.forall₂_map_right_iff] at hv ⊢
  refine ((List.forall₂_and_left (p := fun b => ∃ x, Boolean.Bit ρ b x) _ _).2 ⟨hb, hv⟩).imp ?_
  rintro b j ⟨⟨x, hx⟩, v, rfl⟩
  have hx : ρ (.aux (k + j)) = if x then 1 else 0 := hx
  show ρ (.aux (k + j)) = if decide _ = true then 1 else 0
  cases x
  · rw [hx]; simp
  · rw [hx]; simp

theorem wpS_sha256d (h1 : ρ .one = 1) {data : List Boolean} {xs : List Bool} (h : Forall₂ (Boolean.Bit ρ) data xs) :
    Synth.wpS ρ (sha256d data) fun o =>
      Forall₂ (Boolean.Bit ρ) o (flipBytes (Spec.Sha256.sha256 (Spec.Sha256.sha256 (flipBytes xs)))) := by
  unfold sha256d
  simp only [Synth.wpS_bind, Synth.wpS_inNs, Synth.wpS_pure]
  refine Synth.wpS_mono (Sha256.wpS_sha256 h1 (flipBytes_forall₂ h)) fun mid hm => ?_
  exact Synth.wpS_mono (Sha256.wpS_sha256 h1 hm) fun res hr => flipBytes_forall₂ hr

theorem wpC_sha256d (h1 : ρ .one = 1) (h64 : 64 ≤ NUM_BITS F) {data : List Boolean} {xs : List Bool}
    (h : Forall₂ (Boolean.Has ρ) data xs) (hl : (flipBytes xs).length % 8 = 0) :
    Synth.wpC ρ (sha256d data) fun o =>
      Forall₂ (Boolean.Has ρ) o (flipBytes (Spec.Sha256.sha256 (Spec.Sha256.sha256 (flipBytes xs)))) := by
  unfold sha256d
  simp only [Synth.wpC_bind, Synth.wpC_inNs, Synth.wpC_pure]
  have hf := flipBytes_forall₂ h
  refine Synth.wpC_mono (Sha256.wpC_sha256 h1 h64 hf (by rw [hf.length_eq]; exact hl)) fun mid hm => ?_
  exact Synth.wpC_mono (Sha256.wpC_sha256 h1 h64 hm (by rw [hm.length_eq, sha256_length])) fun res hr => flipBytes_forall₂ hr

theorem wpC_allocPreimage (h1 : ρ .one = 1) (xs : List Bool) (i : ℕ) :
    Synth.wpC ρ (allocPreimage i (xs.map some)) fun bits => Forall₂ (Boolean.Has ρ) bits xs := by
  induction xs generalizing i with
  | nil => simp [allocPreimage]
  | cons x xs ih =>
    rw [List.map_cons, allocPreimage]
    simp only [Synth.wpC_bind, Synth.wpC_inNs, Synth.wpC_pure]
    refine Synth.wpC_mono (AllocatedBit.wpC_alloc h1 x) fun a ha => ?_
    exact Synth.wpC_mono (ih _) fun bs hbs => .cons ha hbs

theorem bitValues_some (m : List (BitVec 8)) : (MyCircuit.mk (some m)).bitValues = (bytesToBitsLe m).map some := rfl

theorem length_le (m : List (BitVec 8)) : (bytesToBitsLe m).length = 8 * m.length := (C13_bytesToBitsLe m).1

theorem wpC_synthesize (h1 : ρ .one = 1) (h64 : 64 ≤ NUM_BITS F) {m : List (BitVec 8)} (hm : m.length = 80) :
    Synth.wpC ρ (MyCircuit.mk (some m)).synthesize fun _ => True := by
  unfold MyCircuit.synthesize
  rw [bitValues_some, if_pos (by rw [List.length_map, length_le, hm])]
  simp only [Synth.wpC_bind, Synth.wpC_inNs]
  refine Synth.wpC_mono (wpC_allocPreimage h1 _ 0) fun bits hb => ?_
  refine Synth.wpC_mono (wpC_sha256d h1 h64 hb ?_) fun o ho => wpC_packIntoInputs h1 ho
  rw [flip_le]
  simp [Spec.msbBits, List.length_flatMap]

/-! ### The circuit does not depend on the witness -/

theorem shape_allocPreimage {vs ws : List (Option Bool)} (h : vs.length = ws.length) (i : ℕ) :
    SShape (F := F) (Forall₂ Boolean.Same) (allocPreimage i vs) (allocPreimage i ws) := by
  induction vs generalizing ws i with
  | nil =>
    obtain rfl := List.length_eq_zero_iff.1 h.symm
    exact SShape.pure .nil
  | cons v vs ih =>
    cases ws with
    | nil => cases h
    | cons w ws =>
      rw [allocPreimage, allocPreimage]
      refine SShape.bind (SShape.inNs _ (AllocatedBit.shape_alloc v w)) fun a a' ha => ?_
      exact SShape.bind (ih (Nat.succ.inj h) (i + 1)) fun bs bs' hb => SShape.pure (.cons ha hb)

theorem shape_sha256d {data data' : List Boolean} (h : Forall₂ Boolean.Same data data') :
    SShape (F := F) (Forall₂ Boolean.Same) (sha256d data) (sha256d data') := by
  unfold sha256d
  refine SShape.bind (SShape.inNs _ (Sha256.shape_sha256 (flipBytes_forall₂ h))) fun a a' ha => ?_
  exact SShape.bind (SShape.inNs _ (Sha256.shape_sha256 ha)) fun b b' hb => SShape.pure (flipBytes_forall₂ hb)

theorem shape_synthesize {c c' : MyCircuit} (h : c.bitValues.length = c'.bitValues.length) :
    SShape (F := F) (fun _ _ => True) c.synthesize c'.synthesize := by
  unfold MyCircuit.synthesize
  dsimp only
  rw [h]
  split
  · refine SShape.bind (shape_allocPreimage h 0) fun a a' ha => ?_
    refine SShape.bind (SShape.inNs _ (shape_sha256d ha)) fun b b' hb => ?_
    exact SShape.inNs _ (shape_packIntoInputs hb)
  · exact SShape.panic

/-! ### Variables -/

theorem known_flipBytes {n k : ℕ} {l : List Boolean} (h : Known n k l) : Known n k (flipBytes l) := by
  unfold flipBytes
  refine known_flatMap (fun _ h => UInt32.known_reverse h) ?_
  cases hc : chunks? 8 l with
  | none => exact known_list_nil
  | some cs => exact known_chunks h hc

theorem slocal_allocPreimage {n k : ℕ} (hn : 0 < n) (i : ℕ) (vs : List (Option Bool)) :
    SLocal n k (allocPreimage i vs : Synth F _) := by
  induction vs generalizing i k with
  | nil => exact SLocal.pure known_list_nil
  | cons v vs ih =>
    rw [allocPreimage]
    refine SLocal.bind (SLocal.inNs _ (AllocatedBit.slocal_alloc hn v)) fun k1 a h1 ha => ?_
    refine SLocal.bind (ih (i + 1)) fun k2 bs h2 hb => SLocal.pure ?_
    exact known_list_cons (a := Boolean.is a) (Known.lift ha h2) hb

theorem slocal_sha256d {n k : ℕ} (hn : 0 < n) {data : List Boolean} (h : Known n k data) : SLocal n k (sha256d data : Synth F _) := by
  unfold sha256d
  refine SLocal.bind (SLocal.inNs _ (Sha256.slocal_sha256 hn (known_flipBytes h))) fun k1 a h1 ha => ?_
  exact SLocal.bind (SLocal.inNs _ (Sha256.slocal_sha256 hn ha)) fun k2 b h2 hb => SLocal.pure (known_flipBytes hb)

/-- `SLocal` followed by anything. -/
theorem scope_bind {α β : Type} [Handle α] {Q : ℕ → ℕ → Except SynthesisError β → Prop} {n k : ℕ} {m : Synth F α} {g : α → Synth F β}
    (h : SLocal n k m) (hg : ∀ k' a, k ≤ k' → Known n k' a → (g a).run.Scope Q n k') (hQ : ∀ k' e, Q n k' (.error e)) :
    (m >>= g).run.Scope Q n k := by
  refine Circ.Scope.bind h ?_
  rintro n' k' r hn hk ⟨rfl, h2⟩
  cases r with
  | ok a => exact hg k' a hk (h2 a rfl)
  | error e => exact hQ k' e

/-- Every constraint of the circuit mentions allocated variables only. -/
theorem scoped_synthesize (c : MyCircuit) {t : List (Ev F)} {r : Option (Except SynthesisError Unit)}
    (he : Exec c.synthesize.run t r) (ht : Numbered 1 0 t) : Scoped 1 0 t := by
  refine (Circ.Scope.exec (Q := fun _ _ _ => True) ?_ he ht).1
  unfold MyCircuit.synthesize
  dsimp only
  split
  · refine scope_bind (slocal_allocPreimage one_pos _ _) (fun k1 bits h1 hb => ?_) fun _ _ => trivial
    refine scope_bind (SLocal.inNs _ (slocal_sha256d one_pos hb)) (fun k2 hash h2 hh => ?_) fun _ _ => trivial
    show Circ.Scope _ ((packIntoInputs hash : Synth F Unit).run.bind fun r => Circ.pop (.ret r)) 1 k2
    refine Circ.Scope.bind (Q := fun _ _ _ => True) ?_ fun _ _ _ _ _ _ => trivial
    unfold packIntoInputs
    cases hc : chunks? (CAPACITY F) hash with
    | none => trivial
    | some cs => exact (scope_packChunks 0 (known_chunks hh hc)).mono fun _ _ _ _ _ _ => trivial
  · trivial

theorem bitValues_length (c : MyCircuit) (h : ∀ m, c.preimage = some m → m.length = 80) : c.bitValues.length = 80 * 8 := by
  obtain ⟨p⟩ := c
  cases p with
  | none => exact List.length_replicate
  | some m => rw [bitValues_some, List.length_map, length_le, h m rfl]

/-- What the constraints say: the public inputs are the packed SHA-256d of the bytes in the first auxiliary variables. -/
theorem sound_synthesize (c : MyCircuit) {t : List (Ev F)} (he : Exec c.synthesize.run t (some (.ok ()))) (ht : Numbered 1 0 t)
    {ρ : Var → F} (h1 : ρ .one = 1) (hs : Sat ρ t) :
    computeMultipacking F (bytesToBitsLe (Spec.sha256d (preimageOf ρ))) = some ((List.range (numIn t)).map fun i => ρ (.input (1 + i))) := by
  unfold MyCircuit.synthesize at he
  dsimp only at he
  split at he
  · rename_i hlen
    obtain ⟨t1, t2, bits, rfl, e1, e2⟩ := Synth.exec_bind_inv he
    obtain ⟨t2, t3, hash, rfl, e2', e3⟩ := Synth.exec_bind_inv e2
    obtain ⟨t2, rfl, f2⟩ := Synth.exec_inNs_inv e2'
    obtain ⟨t3, rfl, f3⟩ := Synth.exec_inNs_inv e3
    have hi := inputsOf_numbered ht
    rw [numbered_append, numbered_append, numbered_inNs, numbered_inNs, numIn_inNs, numAux_inNs] at ht
    obtain ⟨n1, n2, n3⟩ := ht
    rw [Sat_append, Sat_append, sat_inNs, sat_inNs] at hs
    obtain ⟨s1, s2, s3⟩ := hs
    have hb := sound_allocPreimage h1 e1 n1 s1
    rw [hlen] at hb
    have hb : Forall₂ (Boolean.Bit ρ) bits (bytesToBitsLe (preimageOf ρ)) := by
      rw [preimageOf_bits]
      simpa using hb
    obtain ⟨z1, -, -⟩ := exec_allocPreimage e1 n1
    have hh := (Synth.wpS_iff ..).1 (wpS_sha256d h1 hb) t2 hash f2 s2
    rw [sha256d_bits] at hh
    have hp := C13_pack_sound h1 hh f3 s3
    have k1 := ((slocal_allocPreimage (F := F) one_pos 0 c.bitValues).closed t1 _ e1 n1).2 _ rfl
    have k2 := k1.2 bits rfl
    rw [z1, Nat.add_zero] at n2 n3
    have z2 := (((slocal_sha256d one_pos k2).closed t2 _ f2 n2).2 _ rfl).1
    rw [hp, Option.some.injEq]
    rw [inputsOf_append, inputsOf_append, inputsOf_inNs, inputsOf_inNs, inputsOf_nil_of z1 n1, inputsOf_nil_of z2 n2, List.nil_append,
      List.nil_append] at hi
    rw [hi, List.map_map]
    rfl
  · cases he

end Preimage

end Bellman
