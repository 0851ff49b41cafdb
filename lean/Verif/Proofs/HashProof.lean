import Verif.Examples.HashProof
import Verif.Props.Cancel

/-!
# Circuits that hash a message and publish the hash
-/

namespace Bellman

open PrimeField
open List (Forall₂)

set_option linter.unusedSectionVars false

variable {F : Type} [PrimeField F] {G1 G2 GT : Type} [AddCommGroup G1] [AddCommGroup G2] [AddCommGroup GT] [Module F G1] [Module F G2]
  [Module F GT] [DecidableEq G1] [DecidableEq G2] [DecidableEq GT]

theorem SPost.and {α : Type} {n k : ℕ} {m : Synth F α} {P Q : α → Prop} (h1 : SPost n k P m) (h2 : SPost n k Q m) :
    SPost n k (fun a => P a ∧ Q a) m := fun t a he ht => ⟨h1 t a he ht, h2 t a he ht⟩

namespace Blake2s

variable {n k : ℕ}

theorem spost_finalLoop_length {v : List UInt32} (j i : ℕ) {h : List UInt32} (hl : h.length = 8) :
    SPost n k (fun l => l.length = 8) (finalLoop v j i h : Synth F _) := by
  induction j generalizing i h n k with
  | zero => exact SPost.pure hl
  | succ j ih =>
    unfold finalLoop
    split
    · exact SPost.bind SPost.any fun _ _ r _ _ _ => ih (i + 1) (by rw [List.length_set, hl])
    · exact SPost.panic

theorem spost_compression_length {h m : List UInt32} (t : BitVec 64) (f : Bool) :
    SPost n k (fun l => l.length = 8) (compression h m t f : Synth F _) := by
  unfold compression
  split
  · rename_i hl
    split
    · dsimp only
      split
      · refine SPost.bind SPost.any fun _ _ _ _ _ _ => SPost.bind SPost.any fun _ _ _ _ _ _ =>
          SPost.bind SPost.any fun _ _ _ _ _ _ => SPost.bind SPost.any fun _ _ _ _ _ _ => spost_finalLoop_length _ _ hl
      · exact SPost.panic
    · exact SPost.panic
  · exact SPost.panic

theorem spost_blockLoop (hn : 0 < n) (len i : ℕ) {h : List UInt32} {bs : List (List UInt32)} (hh : Known n k h) (hb : Known n k bs)
    (hs : Shorts h) : SPost n k (fun l => Shorts l ∧ l.length = 8) (blockLoop len i h bs : Synth F _) := by
  induction bs generalizing i h k with
  | nil => exact SPost.panic
  | cons b bs ih =>
    have hb' : Known n k b := hb b (by simp)
    cases bs with
    | nil => exact SPost.inNs _ (SPost.and (con_compression hn _ _ hh hb' hs).2 (spost_compression_length _ _))
    | cons b' bs =>
      exact SPost.bindKnown (SLocal.inNs _ (slocal_compression hn _ _ hh hb')) (SPost.inNs _ (con_compression hn _ _ hh hb' hs).2)
        fun k1 c h1 hc hs => ih (i + 1) hc (Known.lift (fun x hx => hb x (List.mem_cons_of_mem _ hx)) h1) hs

theorem shorts_bits {l : List UInt32} (h : Shorts l) : (l.flatMap UInt32.intoBits).length ≤ 32 * l.length := by
  induction l with
  | nil => exact le_rfl
  | cons u l ih =>
    have h1 : u.intoBits.length ≤ 32 := h u (by simp)
    have h2 := ih fun x hx => h x (by simp [hx])
    rw [List.flatMap_cons, List.length_append, List.length_cons]
    omega

theorem spost_blake2s (hn : 0 < n) {input : List Boolean} (p : List (BitVec 8)) (hi : Known n k input) :
    SPost n k (fun l => l.length ≤ 256) (blake2s input p : Synth F _) := by
  unfold blake2s
  split
  · split
    · dsimp only
      split
      · rename_i bs hbs
        refine SPost.bindKnown (slocal_blockLoop hn _ _ ?_ (known_mkBlocks hi hbs)) (spost_blockLoop hn _ _ ?_ (known_mkBlocks hi hbs) ?_)
          fun _ l _ _ hl => SPost.pure (by have := shorts_bits hl.1; omega)
        · repeat (first | exact known_list_nil | refine known_list_cons UInt32.known_constant ?_)
        · repeat (first | exact known_list_nil | refine known_list_cons UInt32.known_constant ?_)
        · intro x hx
          simp only [List.mem_cons, List.not_mem_nil, or_false] at hx
          rcases hx with rfl | rfl | rfl | rfl | rfl | rfl | rfl | rfl <;> exact UInt32.short_constant _
      · exact SPost.panic
    · exact SPost.panic
  · exact SPost.panic

end Blake2s

namespace Preimage

theorem bytesToBits_eq (m : List (BitVec 8)) : bytesToBits m = Spec.msbBits m := by
  unfold bytesToBits Spec.msbBits
  simp only [byte_be]
  congr 1
  funext v
  rw [List.map_reverse, byte_le]

theorem bytesToBitsLe_eq (m : List (BitVec 8)) : bytesToBitsLe m = Spec.Blake2s.bits m := by
  unfold bytesToBitsLe Spec.Blake2s.bits
  simp only [byte_le]

theorem length_be (m : List (BitVec 8)) : (bytesToBits m).length = 8 * m.length := (C13_bytesToBits m).1

theorem exists_be (xs : List Bool) (n : ℕ) (h : xs.length = 8 * n) : ∃ m, m.length = n ∧ bytesToBits m = xs :=
  ⟨(List.range n).map (Spec.byteAt xs), by simp, by rw [bytesToBits_eq, msbBits_bytes _ _ h]⟩

theorem exists_le (xs : List Bool) (n : ℕ) (h : xs.length = 8 * n) : ∃ m, m.length = n ∧ bytesToBitsLe m = xs := by
  refine ⟨(List.range n).map fun i => BitVec.ofNat 8 (bitsVal ((List.range 8).map fun j => xs.getD (8 * i + j) false)), by simp, ?_⟩
  unfold bytesToBitsLe
  simp only [byte_le]
  rw [flatMap_bytes (fun (b : BitVec 8) i => b.getLsbD i) _ (fun j => xs.getD j false) n fun i _ => byte_of_bits _ (by simp)]
  apply List.ext_getElem
  · simp [h]
  · intro i h1 h2
    simp [List.getD_eq_getElem?_getD, h2]

theorem leBytes_length (l : List (BitVec 32)) : (l.flatMap Spec.Blake2s.leBytes).length = 4 * l.length := by
  induction l with
  | nil => rfl
  | cons a l ih => rw [List.flatMap_cons, List.length_append, ih]; simp [Spec.Blake2s.leBytes]; omega

/-- A hash function with a gadget for it, and what has been proved about the gadget. -/
structure HashFn (F : Type) [PrimeField F] where
  gadget : List Boolean → Synth F (List Boolean)
  enc : List (BitVec 8) → List Bool
  fn : List (BitVec 8) → List (BitVec 8)
  rows : ℕ → ℕ
  vars : ℕ → ℕ
  enc_len : ∀ m, (enc m).length = 8 * m.length
  enc_inj : Function.Injective enc
  enc_surj : ∀ (xs : List Bool) (n : ℕ), xs.length = 8 * n → ∃ m, m.length = n ∧ enc m = xs
  fn_len : ∀ m, (fn m).length = 32
  sound : ∀ {ρ : Var → F}, ρ .one = 1 → ∀ {bits : List Boolean} {m}, Forall₂ (Boolean.Bit ρ) bits (enc m) →
    Synth.wpS ρ (gadget bits) fun o => Forall₂ (Boolean.Bit ρ) o (enc (fn m))
  complete : ∀ {ρ : Var → F}, ρ .one = 1 → 64 ≤ NUM_BITS F → ∀ {bits : List Boolean} {m}, Forall₂ (Boolean.Has ρ) bits (enc m) →
    Synth.wpC ρ (gadget bits) fun o => Forall₂ (Boolean.Has ρ) o (enc (fn m))
  shape : ∀ {bits bits' : List Boolean}, Forall₂ Boolean.Same bits bits' →
    SShape (F := F) (Forall₂ Boolean.Same) (gadget bits) (gadget bits')
  slocal : ∀ {n k : ℕ}, 0 < n → ∀ {bits : List Boolean}, Known n k bits → SLocal n k (gadget bits)
  scon : ∀ {n k : ℕ}, 0 < n → ∀ {bits : List Boolean}, Known n k bits → SCon n k noVar (rows bits.length) (vars bits.length) (gadget bits)
  spost : ∀ {n k : ℕ}, 0 < n → ∀ {bits : List Boolean}, Known n k bits → SPost n k (fun l => l.length ≤ 256) (gadget bits)
  snc : ∀ {n k : ℕ} {g : ℕ → Kind}, 0 < n → ∀ {bits : List Boolean}, Known n k bits → (∀ b ∈ bits, SafeB g b) →
    SNC n k g (fun g' l => ∀ n' k', SNC n' k' g' (fun _ _ => True) (packIntoInputs l : Synth F Unit)) (gadget bits)

/-- SHA-256. -/
def sha256Fn (F : Type) [PrimeField F] : HashFn F where
  gadget := Sha256.sha256
  enc := bytesToBits
  fn := Spec.digest
  rows l := 27045 * ((l + 576) / 512)
  vars l := 26860 * ((l + 576) / 512)
  enc_len := length_be
  enc_inj := C13_bytes_injective.1
  enc_surj := exists_be
  fn_len m := by simp [Spec.digest]
  sound h1 bits m h := by
    rw [bytesToBits_eq] at h
    rw [bytesToBits_eq, msbBits_digest]
    exact Sha256.wpS_sha256 h1 h
  complete h1 h64 bits m h := by
    have hl := h.length_eq
    rw [length_be] at hl
    rw [bytesToBits_eq] at h
    rw [bytesToBits_eq, msbBits_digest]
    exact Sha256.wpC_sha256 h1 h64 h (by omega)
  shape := Sha256.shape_sha256
  slocal hn _ h := Sha256.slocal_sha256 hn h
  scon hn _ h := Sha256.scon_sha256 hn h
  spost hn _ h := Sha256.spost_sha256 hn h
  snc hn _ h hs := (Sha256.snc_sha256 hn h hs).mono fun _ _ _ q _ _ => snc_packIntoInputs q

/-- BLAKE2s with a personalization of eight bytes. -/
def blake2sFn (F : Type) [PrimeField F] (pers : List (BitVec 8)) (hp : pers.length = 8) : HashFn F where
  gadget bits := Blake2s.blake2s bits pers
  enc := bytesToBitsLe
  fn := Spec.Blake2s.blake2s pers
  rows l := 21889 * max 1 ((l + 511) / 512)
  vars l := 21568 * max 1 ((l + 511) / 512)
  enc_len := length_le
  enc_inj := C13_bytes_injective.2
  enc_surj := exists_le
  fn_len m := by
    rw [Spec.Blake2s.blake2s, leBytes_length]
    simp [Spec.Blake2s.final, Spec.Blake2s.compress]
  sound h1 bits m h := by
    rw [bytesToBitsLe_eq] at h ⊢
    exact Blake2s.wpS_blake2s h1 h pers
  complete h1 h64 bits m h := by
    rw [bytesToBitsLe_eq] at h ⊢
    exact Blake2s.wpC_blake2s h1 h64 h hp
  shape h := Blake2s.shape_blake2s h pers
  slocal hn _ h := Blake2s.slocal_blake2s hn pers h
  scon hn _ h := Blake2s.scon_blake2s hn pers h
  spost hn _ h := Blake2s.spost_blake2s hn pers h
  snc hn _ h hs := (Blake2s.snc_blake2s hn pers h hs).mono fun _ _ _ q _ _ => snc_packIntoInputs_once q

/-- The circuit after the check of the length. -/
def core (gadget : List Boolean → Synth F (List Boolean)) (vs : List (Option Bool)) : Synth F Unit := do
  let preimageBits ← allocPreimage 0 vs
  let hash ← Synth.inNs "hash" (gadget preimageBits)
  Synth.inNs "pack hash" (packIntoInputs hash)

theorem hashCircuit_none (g : List Boolean → Synth F (List Boolean)) (L : ℕ) :
    hashCircuit g L none = core g (List.replicate (8 * L) none) := by
  unfold hashCircuit core
  dsimp only
  rw [if_pos List.length_replicate]

theorem hashCircuit_some (g : List Boolean → Synth F (List Boolean)) (L : ℕ) (xs : List Bool) (h : xs.length = 8 * L) :
    hashCircuit g L (some xs) = core g (xs.map some) := by
  unfold hashCircuit core
  dsimp only
  rw [if_pos (by rw [List.length_map, h])]

namespace HashFn

variable (H : HashFn F)

/-- The circuit for a hash function. -/
def circuit (L : ℕ) (m : Option (List (BitVec 8))) : Synth F Unit := hashCircuit H.gadget L (m.map H.enc)

theorem circuit_none (L : ℕ) : H.circuit L none = core H.gadget (List.replicate (8 * L) none) := hashCircuit_none _ _

theorem circuit_some {L : ℕ} {m : List (BitVec 8)} (hm : m.length = L) : H.circuit L (some m) = core H.gadget ((H.enc m).map some) :=
  hashCircuit_some _ _ _ (by rw [H.enc_len, hm])

theorem wpC_core {ρ : Var → F} (h1 : ρ .one = 1) (h64 : 64 ≤ NUM_BITS F) (m : List (BitVec 8)) :
    Synth.wpC ρ (core H.gadget ((H.enc m).map some)) fun _ => True := by
  unfold core
  simp only [Synth.wpC_bind, Synth.wpC_inNs]
  refine Synth.wpC_mono (wpC_allocPreimage h1 _ 0) fun bits hb => ?_
  exact Synth.wpC_mono (H.complete h1 h64 hb) fun o ho => wpC_packIntoInputs h1 ho

theorem shape_core {vs ws : List (Option Bool)} (h : vs.length = ws.length) :
    SShape (F := F) (fun _ _ => True) (core H.gadget vs) (core H.gadget ws) := by
  refine SShape.bind (shape_allocPreimage h 0) fun a a' ha => ?_
  refine SShape.bind (SShape.inNs _ (H.shape ha)) fun b b' hb => ?_
  exact SShape.inNs _ (shape_packIntoInputs hb)

theorem shape_circuit {L : ℕ} {m : List (BitVec 8)} (hm : m.length = L) :
    SShape (F := F) (fun _ _ => True) (H.circuit L none) (H.circuit L (some m)) := by
  rw [circuit_none, circuit_some H hm]
  exact H.shape_core (by rw [List.length_replicate, List.length_map, H.enc_len, hm])

theorem scoped_core (vs : List (Option Bool)) {t : List (Ev F)} {r : Option (Except SynthesisError Unit)}
    (he : Exec (core H.gadget vs).run t r) (ht : Numbered 1 0 t) : Scoped 1 0 t := by
  refine (Circ.Scope.exec (Q := fun _ _ _ => True) ?_ he ht).1
  unfold core
  refine scope_bind (slocal_allocPreimage one_pos _ _) (fun k1 bits h1 hb => ?_) fun _ _ => trivial
  refine scope_bind (SLocal.inNs _ (H.slocal one_pos hb)) (fun k2 hash h2 hh => ?_) fun _ _ => trivial
  show Circ.Scope _ ((packIntoInputs hash : Synth F Unit).run.bind fun r => Circ.pop (.ret r)) 1 k2
  refine Circ.Scope.bind (Q := fun _ _ _ => True) ?_ fun _ _ _ _ _ _ => trivial
  unfold packIntoInputs
  cases hc : chunks? (CAPACITY F) hash with
  | none => trivial
  | some cs => exact (scope_packChunks 0 (known_chunks hh hc)).mono fun _ _ _ _ _ _ => trivial

/-- The message in the first auxiliary variables. -/
def MessageIn (ρ : Var → F) (m : List (BitVec 8)) : Prop := ∀ j < 8 * m.length, ρ (.aux j) = if (H.enc m).getD j false then 1 else 0

/-- What the constraints say. -/
theorem sound_core {L : ℕ} (vs : List (Option Bool)) (hl : vs.length = 8 * L) {t : List (Ev F)}
    (he : Exec (core H.gadget vs).run t (some (.ok ()))) (ht : Numbered 1 0 t) {ρ : Var → F} (h1 : ρ .one = 1) (hs : Sat ρ t) :
    ∃ m, m.length = L ∧ H.MessageIn ρ m ∧
      computeMultipacking F (H.enc (H.fn m)) = some ((List.range (numIn t)).map fun i => ρ (.input (1 + i))) := by
  classical
  unfold core at he
  obtain ⟨t1, t2, bits, rfl, e1, e2⟩ := Synth.exec_bind_inv he
  obtain ⟨t2, t3, hash, rfl, e2', e3⟩ := Synth.exec_bind_inv e2
  obtain ⟨t2, rfl, f2⟩ := Synth.exec_inNs_inv e2'
  obtain ⟨t3, rfl, f3⟩ := Synth.exec_inNs_inv e3
  have hi := inputsOf_numbered ht
  rw [numbered_append, numbered_append, numbered_inNs, numbered_inNs, numIn_inNs, numAux_inNs] at ht
  obtain ⟨n1, n2, n3⟩ := ht
  rw [Sat_append, Sat_append, sat_inNs, sat_inNs] at hs
  obtain ⟨s1, s2, s3⟩ := hs
  have hb := sound_allocPreimage h1 e1 n1 s1
  obtain ⟨m, hm, hmx⟩ := H.enc_surj ((List.range vs.length).map fun j => decide (ρ (.aux (0 + j)) = 1)) L (by simp [hl])
  obtain ⟨z1, -, hv⟩ := exec_allocPreimage e1 n1
  refine ⟨m, hm, fun j hj => ?_, ?_⟩
  · rw [hm, ← hl] at hj
    rw [hmx, List.getD_eq_getElem _ _ (by simpa using hj)]
    have hj1 : j < bits.length := by rw [hv.length_eq]; simpa using hj
    have h2 := (List.forall₂_iff_get.1 hv).2 j hj1 (by simpa using hj)
    have h3 := (List.forall₂_iff_get.1 hb).2 j hj1 (by simpa using hj)
    obtain ⟨v, h2⟩ := h2
    rw [h2] at h3
    simp only [List.get_eq_getElem, List.getElem_map, List.getElem_range, Nat.zero_add] at h3 ⊢
    exact h3
  · rw [← hmx] at hb
    have hh := (Synth.wpS_iff ..).1 (H.sound h1 hb) t2 hash f2 s2
    have hp := C13_pack_sound h1 hh f3 s3
    have k1 := ((slocal_allocPreimage (F := F) one_pos 0 vs).closed t1 _ e1 n1).2 _ rfl
    have k2 := k1.2 bits rfl
    rw [z1, Nat.add_zero] at n2 n3
    have z2 := (((H.slocal one_pos k2).closed t2 _ f2 n2).2 _ rfl).1
    rw [hp, Option.some.injEq]
    rw [inputsOf_append, inputsOf_append, inputsOf_inNs, inputsOf_inNs, inputsOf_nil_of z1 n1, inputsOf_nil_of z2 n2, List.nil_append,
      List.nil_append] at hi
    rw [hi, List.map_map]
    rfl

theorem scon_core (vs : List (Option Bool)) :
    SCon 1 0 noVar (vs.length + H.rows vs.length + (256 + CAPACITY F - 1) / CAPACITY F) (vs.length + H.vars vs.length)
      (core H.gadget vs) := by
  unfold core
  refine SCon.le (SCon.bindPost (con_allocPreimage one_pos 0 vs).1 (slocal_allocPreimage one_pos _ _)
    (con_allocPreimage one_pos 0 vs).2 (N' := H.rows vs.length + (256 + CAPACITY F - 1) / CAPACITY F) (A' := H.vars vs.length)
    fun k1 bits h1 hk hl => ?_) (by omega) (by omega)
  rw [← hl]
  exact SCon.bindPost (SCon.inNs _ (H.scon one_pos hk)) (SLocal.inNs _ (H.slocal one_pos hk))
    (SPost.inNs _ (H.spost one_pos hk)) (A' := 0) fun k2 hash h2 _ hl2 =>
      SCon.le (N' := (256 + CAPACITY F - 1) / CAPACITY F) (SCon.inNs _ (scon_packIntoInputs hash))
        (Nat.div_le_div_right (by omega)) le_rfl

theorem snc_core (vs : List (Option Bool)) {g : ℕ → Kind} : SNC 1 0 g (fun _ _ => True) (core H.gadget vs) := by
  unfold core
  refine SNC.bind (snc_allocPreimage one_pos 0 vs) (slocal_allocPreimage one_pos _ _) fun k1 g1 bits h1 e1 hk q1 => ?_
  refine SNC.bind (SNC.inNs _ (H.snc one_pos hk q1)) (SLocal.inNs _ (H.slocal one_pos hk)) fun k2 g2 hash h2 e2 hh q2 => ?_
  exact SNC.inNs _ (q2 _ _)

theorem message_unique {ρ : Var → F} {m m' : List (BitVec 8)} (hl : m.length = m'.length) (h : H.MessageIn ρ m) (h' : H.MessageIn ρ m') :
    m = m' := by
  apply H.enc_inj
  apply List.ext_getElem
  · rw [H.enc_len, H.enc_len, hl]
  · intro i h1 h2
    have a := h i (by rwa [H.enc_len] at h1)
    have b := h' i (by rwa [H.enc_len] at h2)
    rw [List.getD_eq_getElem _ _ h1] at a
    rw [List.getD_eq_getElem _ _ h2, a] at b
    cases hx : (H.enc m)[i] <;> cases hy : (H.enc m')[i] <;> simp_all

/-- The honest prover's assignment. -/
theorem prover_circuit (h64 : 64 ≤ NUM_BITS F) {L : ℕ} {m : List (BitVec 8)} (hm : m.length = L) :
    ∃ t : List (Ev F), ProverTrace (H.circuit L (some m)) t ∧ Sat (witness t) t ∧ H.MessageIn (witness t) m ∧
      computeMultipacking F (H.enc (H.fn m)) = some (inVals t) := by
  rw [circuit_some H hm]
  obtain ⟨t, r, he, hn⟩ := (core H.gadget ((H.enc m).map some)).run.exists_honest 1 0
  have ha : Agrees (witness t) t := agrees_of_numbered (is := [1]) (as := []) hn he.allRun
  have h1 : witness t .one = 1 := rfl
  obtain ⟨hs, a, rfl, -⟩ := Synth.wpC_sound (H.wpC_core h1 h64 m) t r he ha
  have hpre : H.MessageIn (witness t) m := by
    have he' := he
    unfold core at he'
    rcases Honest.bind_inv he' with ⟨_, h⟩ | ⟨t1, t2, bits, rfl, e1, e2⟩
    · cases h
    · rw [numbered_append] at hn
      have a1 : Agrees (witness (t1 ++ t2)) t1 := fun i n x v hm => ha i n x v (by simp [hm])
      obtain ⟨s1, bits, h, hb⟩ := Synth.wpC_sound (wpC_allocPreimage h1 (H.enc m) 0) t1 _ e1 a1
      cases h
      obtain ⟨-, -, hv⟩ := exec_allocPreimage e1.exec hn.1
      intro j hj
      rw [← H.enc_len] at hj
      have hj1 : j < bits.length := by rw [hb.length_eq]; exact hj
      have h2 := (List.forall₂_iff_get.1 hv).2 j hj1 (by simpa using hj)
      have h3 := (List.forall₂_iff_get.1 hb).2 j hj1 hj
      obtain ⟨v, h2⟩ := h2
      rw [h2] at h3
      have h4 := h3.2
      simp only [List.get_eq_getElem, List.getElem_map, List.getElem_range, Nat.zero_add] at h4
      rw [List.getD_eq_getElem _ _ hj]
      exact h4
  refine ⟨t, ⟨he, hn⟩, hs, hpre, ?_⟩
  obtain ⟨m', hm', hin', hx⟩ := H.sound_core (L := L) _ (by rw [List.length_map, H.enc_len, hm]) he.exec hn h1 hs
  cases H.message_unique (hm'.trans hm.symm) hin' hpre
  rw [hx, Option.some.injEq]
  have hl := he.allRun.lengths.1
  apply List.ext_getElem
  · simp [hl]
  · intro i h1 h2
    simp only [List.getElem_map, List.getElem_range]
    show ((1 : F) :: inVals t).getD (1 + i) 0 = _
    rw [Nat.add_comm, List.getD_cons_succ, List.getD_eq_getElem _ _ h2]

theorem key_circuit (h64 : 64 ≤ NUM_BITS F) (L : ℕ) :
    ∃ t : List (Ev F), KeyTrace (H.circuit L none) t ∧ (∀ t', KeyTrace (H.circuit L none) t' → t' = t) ∧
      numIn t = (256 + CAPACITY F - 1) / CAPACITY F ∧ 8 * L ≤ numAux t := by
  have hm : (List.replicate L 0#8).length = L := List.length_replicate
  obtain ⟨t1, h1, hs, -, hp⟩ := H.prover_circuit h64 hm
  have hsh : SShape (F := F) (fun _ _ => True) (H.circuit L (some (List.replicate L 0#8))) (H.circuit L none) := by
    rw [circuit_none, circuit_some H hm]
    exact H.shape_core (by rw [List.length_replicate, List.length_map, H.enc_len, hm])
  obtain ⟨t, _, hb, hsame, -⟩ := hsh.transfer_blind h1.exec.exec
  have hn := Ev.Same.numbered hsame h1.numbered
  have hsc : Scoped 1 0 t := by
    have := hb.exec
    rw [circuit_none] at this
    exact H.scoped_core _ this hn
  have hk : KeyTrace (H.circuit L none) t := ⟨hb, hn, hsc⟩
  refine ⟨t, hk, fun t' h' => h'.unique hk, ?_, ?_⟩
  · rw [← Ev.Same.numIn hsame, ← h1.inputs_len]
    obtain ⟨ys, e1, e2⟩ := computeMultipacking_some (F := F) (H.enc (H.fn (List.replicate L 0#8)))
    cases hp.symm.trans e1
    rw [e2, H.enc_len, H.fn_len]
  · have he := hb.exec
    rw [circuit_none] at he
    unfold core at he
    have hr := hk.exec.exec
    rw [circuit_none] at hr
    unfold core at hr
    obtain ⟨t1, t2, bits, rfl, e1, e2⟩ := Synth.exec_bind_inv hr
    rw [numbered_append] at hn
    obtain ⟨-, z, -⟩ := exec_allocPreimage e1 hn.1
    rw [List.length_replicate] at z
    rw [numAux_append, z]
    omega

theorem pipeline (h64 : 64 ≤ NUM_BITS F) (E : Engine F G1 G2 GT) (w : Worker) (g1 : G1) (g2 : G2) (hg1 : g1 ≠ 0) (hg2 : g2 ≠ 0)
    (L M : ℕ) (hL : 0 < L) (hM : 8 * L + H.rows (8 * L) + 11 ≤ 2 ^ M) (hA : 8 * L + H.vars (8 * L) < 2 ^ 32) (hS : M < S F) (hM32 : M < 32) :
    ({x : F × F × F × F × F | ¬ ∃ params, generateParameters w (H.circuit L none) g1 g2 x.1 x.2.1 x.2.2.1 x.2.2.2.1 x.2.2.2.2 =
          Res.ok params ∧
        ∀ (w' : Worker) (m : List (BitVec 8)) (r s : F), m.length = L → ∃ pf inputs,
          createProof w' (H.circuit L (some m)) params r s = Res.ok pf ∧
          computeMultipacking F (H.enc (H.fn m)) = some inputs ∧
          verifyProof E (prepareVerifyingKey E params.vk) pf inputs = some (.ok ())} : Set _).ncard ≤
      3 * (8 * L + H.vars (8 * L) + 7) * 2 ^ M * p F ^ 4 := by
  have := PrimeField.finite (F := F)
  have hcard : Nat.card F = p F := PrimeField.card_eq
  obtain ⟨t, ht, hu, hin, haux⟩ := H.key_circuit h64 L
  have hcap : (256 + CAPACITY F - 1) / CAPACITY F ≤ 5 := by
    have h63 : 63 ≤ CAPACITY F := by have := capacity_lt (F := F); omega
    exact Nat.lt_succ_iff.1 ((Nat.div_lt_iff_lt_mul (by omega)).2 (by omega))
  have hacc : Accounted 1 0 (8 * L + H.rows (8 * L) + (256 + CAPACITY F - 1) / CAPACITY F) (8 * L + H.vars (8 * L)) (H.circuit L none) := by
    rw [circuit_none]
    have := (H.scon_core (List.replicate (8 * L) none)).accounted
    rwa [List.length_replicate] at this
  obtain ⟨hN, hA'⟩ := hacc.2 t _ ht.exec.exec ht.numbered
  have hlen : (Qap.ofTrace t).rows.length = (consOf t).length + (numIn t + 1) := by simp [Qap.ofTrace, Qap.ofRows, inputRows]
  have hm : (Qap.ofTrace t).m ≤ 2 ^ M := by
    show 2 ^ Nat.clog 2 (Qap.ofTrace t).rows.length ≤ 2 ^ M
    exact Nat.pow_le_pow_right (by norm_num) ((Nat.clog_le_iff_le_pow (by norm_num)).2 (by rw [hlen]; omega))
  have hnc : (Qap.ofTrace t).NoCancel := by
    have he := ht.exec.exec
    rw [circuit_none] at he
    exact (H.snc_core _).noCancel he ht.numbered
  have hM31 : 2 ^ M ≤ 2 ^ 31 := Nat.pow_le_pow_right (by norm_num) (by omega)
  obtain ⟨bad, hb1, hb2⟩ := C31_regular_trace (G1 := G1) (G2 := G2) (R := fun _ _ : Unit => True) t ht hnc (by omega) (by omega) (by omega)
  have hkg := C51_keygen (G2 := G2) w (H.circuit L none) g1 g2 hg1 hacc t ht (M := M) (by omega) hS hM32 (.inr (by omega))
  refine (Set.ncard_le_ncard (t := _ ∪ {x : F × F × F × F × F | x.2.2.2.2 ∈ bad}) ?_ (Set.toFinite _)).trans
    ((Set.ncard_union_le _ _).trans (le_trans (add_le_add hkg ?_)
      (b := ((8 * L + H.vars (8 * L)) * 2 ^ M + 2) * p F ^ 4 + (2 * (5 + 1 + (8 * L + H.vars (8 * L))) * (2 ^ M - 1) + 2 ^ M + 1) * p F ^ 4) ?_))
  · rintro x hx
    by_contra hno
    rw [Set.mem_union, not_or] at hno
    obtain ⟨n1, n2⟩ := hno
    rw [Set.mem_ofPred_eq, not_not] at n1
    obtain ⟨params, hk⟩ := n1
    refine hx ⟨params, hk, fun w' m r s hm => ?_⟩
    obtain ⟨t1, h1, hs, -, hx1⟩ := H.prover_circuit h64 hm
    have hsh := H.shape_circuit hm
    obtain ⟨pf, hp⟩ := hb2 _ (fun hh => n2 hh) w w' _ g1 g2 _ _ _ _ r s params hsh ⟨t1, h1⟩ hg1 hg2 hk
    exact ⟨pf, _, hp, hx1, C30_completeness E w w' hsh g1 g2 _ _ _ _ _ r s params pf hk hp t1 h1 hs⟩
  · rw [ncard_last, hcard]
    refine Nat.mul_le_mul_right _ (hb1.trans ?_)
    have h1 : 2 * (numIn t + 1 + numAux t) * ((Qap.ofTrace t).m - 1) ≤ 2 * (5 + 1 + (8 * L + H.vars (8 * L))) * (2 ^ M - 1) :=
      Nat.mul_le_mul (by omega) (by omega)
    omega
  · rw [← Nat.add_mul]
    refine Nat.mul_le_mul_right _ ?_
    obtain ⟨Z, hZ⟩ : ∃ Z, 2 ^ M = Z + 1 := ⟨2 ^ M - 1, by have := Nat.one_le_two_pow (n := M); omega⟩
    rw [hZ, Nat.add_sub_cancel]
    nlinarith [Nat.zero_le (8 * L + H.vars (8 * L)), Nat.zero_le Z]

theorem sound_circuit {L : ℕ} {t : List (Ev F)} (ht : KeyTrace (H.circuit L none) t) (hash : List (BitVec 8)) (hh : hash.length = 32)
    (xs : List F) (hx : computeMultipacking F (H.enc hash) = some xs) (ρ : Var → F)
    (hin : ∀ i, ρ (.input i) = ((1 : F) :: xs).getD i 0) (hs : Sat ρ t) : ∃ m, m.length = L ∧ H.MessageIn ρ m ∧ H.fn m = hash := by
  have he := ht.exec.exec
  rw [circuit_none] at he
  obtain ⟨m, hm, hmi, h⟩ := H.sound_core (L := L) _ List.length_replicate he ht.numbered (hin 0) hs
  refine ⟨m, hm, hmi, ?_⟩
  apply H.enc_inj
  have hlen : (H.enc (H.fn m)).length = (H.enc hash).length := by rw [H.enc_len, H.enc_len, H.fn_len, hh]
  refine C13_multipacking_inj (F := F) hlen ?_
  obtain ⟨ys, e1, e2⟩ := computeMultipacking_some (F := F) (H.enc (H.fn m))
  obtain ⟨zs, e3, e4⟩ := computeMultipacking_some (F := F) (H.enc hash)
  cases hx.symm.trans e3
  rw [h, Option.some.injEq] at e1
  rw [h, hx, Option.some.injEq]
  have hnx : numIn t = xs.length := by
    have := congrArg List.length e1
    rw [List.length_map, List.length_range, e2, hlen, ← e4] at this
    exact this
  apply List.ext_getElem
  · simp [hnx]
  · intro i h1 h2
    simp only [List.getElem_map, List.getElem_range]
    rw [hin, Nat.add_comm, List.getD_cons_succ, List.getD_eq_getElem _ _ h2]

theorem knowledge (E : Engine F G1 G2 GT) {L : ℕ} {t : List (Ev F)} (ht : KeyTrace (H.circuit L none) t)
    (hash : List (BitVec 8)) (hh : hash.length = 32) (xs : List F) (hx : computeMultipacking F (H.enc hash) = some xs)
    (σ : Strategy F) :
    (∃ m, m.length = L ∧ H.MessageIn (σ.extract xs) m ∧ H.fn m = hash) ∨
    ({x : F × F × F × F × F | ∃ (w : Worker) (g1 : G1) (g2 : G2) (params : Parameters G1 G2), g1 ≠ 0 ∧ g2 ≠ 0 ∧
        generateParameters w (H.circuit L none) g1 g2 x.1 x.2.1 x.2.2.1 x.2.2.2.1 x.2.2.2.2 = Res.ok params ∧
        verifyProof E (prepareVerifyingKey E params.vk) (σ.proof g1 g2 params) xs = some (.ok ())} : Set _).ncard ≤
      (3 * (Qap.ofTrace t).m + 1 + 2 * (numIn t + 1 + numAux t) * ((Qap.ofTrace t).m - 1)) * p F ^ 4 := by
  rcases C42_knowledge E ht xs σ with h | h
  · exact .inl (H.sound_circuit ht hash hh xs hx _ (fun _ => rfl) h)
  · exact .inr h

theorem other_hash (h64 : 64 ≤ NUM_BITS F) (E : Engine F G1 G2 GT) {L : ℕ} {t : List (Ev F)} (ht : KeyTrace (H.circuit L none) t)
    (m : List (BitVec 8)) (hm : m.length = L) (hash : List (BitVec 8)) (hh : hash.length = 32) (hne : H.fn m ≠ hash)
    (xs : List F) (hx : computeMultipacking F (H.enc hash) = some xs) (r s : F) :
    ({x : F × F × F × F × F | ∃ (w w' : Worker) (g1 : G1) (g2 : G2) (params : Parameters G1 G2) (pf : Proof G1 G2), g1 ≠ 0 ∧ g2 ≠ 0 ∧
        generateParameters w (H.circuit L none) g1 g2 x.1 x.2.1 x.2.2.1 x.2.2.2.1 x.2.2.2.2 = Res.ok params ∧
        createProof w' (H.circuit L (some m)) params r s = Res.ok pf ∧
        verifyProof E (prepareVerifyingKey E params.vk) pf xs = some (.ok ())} : Set _).ncard ≤
      (3 * (Qap.ofTrace t).m + 1 + 2 * (numIn t + 1 + numAux t) * ((Qap.ofTrace t).m - 1)) * p F ^ 4 := by
  have := PrimeField.finite (F := F)
  obtain ⟨t1, h1, hs, hpre, -⟩ := H.prover_circuit h64 hm
  obtain ⟨σ, -, q2, q3⟩ := C42_honest (G1 := G1) (G2 := G2) (H.shape_circuit hm) h1 r s
  have hext : H.MessageIn (σ.extract xs) m := fun j hj => (q2 j).trans (hpre j hj)
  refine le_trans (Set.ncard_le_ncard ?_ (Set.toFinite _))
    ((H.knowledge (G1 := G1) (G2 := G2) E ht hash hh xs hx σ).resolve_left ?_)
  · rintro x ⟨w, w', g1, g2, params, pf, z1, z2, hk, hp, hv⟩
    rw [q3 w w' g1 g2 _ _ _ _ _ params pf hk hp] at hv
    exact ⟨w, g1, g2, params, z1, z2, hk, hv⟩
  · rintro ⟨m', hm', hi, hf⟩
    cases H.message_unique (hm'.trans hm.symm) hi hext
    exact hne hf

theorem same_hash (h64 : 64 ≤ NUM_BITS F) (w w' w'' : Worker) (g1 : G1) (g2 : G2) (α β γ δ τ : F) (params : Parameters G1 G2) {L : ℕ}
    (hk : generateParameters w (H.circuit L none) g1 g2 α β γ δ τ = Res.ok params) (m m' : List (BitVec 8))
    (hm : m.length = L) (hm' : m'.length = L) (heq : H.fn m = H.fn m')
    (hok : ∃ (r s : F) (pf : Proof G1 G2), createProof w' (H.circuit L (some m)) params r s = Res.ok pf)
    (hok' : ∃ (r s : F) (pf : Proof G1 G2), createProof w'' (H.circuit L (some m')) params r s = Res.ok pf) (out : Res (Proof G1 G2)) :
    Nat.card {x : F × F // createProof w' (H.circuit L (some m)) params x.1 x.2 = out} =
      Nat.card {x : F × F // createProof w'' (H.circuit L (some m')) params x.1 x.2 = out} := by
  obtain ⟨t, ht, hs, -, hx⟩ := H.prover_circuit h64 hm
  obtain ⟨t', ht', hs', -, hx'⟩ := H.prover_circuit h64 hm'
  rw [heq, hx', Option.some.injEq] at hx
  exact C34_distribution w w' w'' (H.shape_circuit hm) (H.shape_circuit hm') g1 g2 α β γ δ τ params hk t t' ht ht' hs hs' hx.symm hok hok' out

theorem length_mismatch {L : ℕ} {m : List (BitVec 8)} (hm : m.length ≠ L) {t : List (Ev F)} {r : Option (Except SynthesisError Unit)}
    (he : Exec (H.circuit L (some m)).run t r) : t = [] ∧ r = none := by
  unfold circuit hashCircuit at he
  dsimp only [Option.map_some] at he
  rw [if_neg (by rw [List.length_map, H.enc_len]; omega)] at he
  cases he
  exact ⟨rfl, rfl⟩

end HashFn

end Preimage

end Bellman
