import Verif.Proofs.ScopeBoolean
import Verif.Proofs.ScopeNum
import Verif.Proofs.ScopeHash
import Verif.Proofs.ScopeTrace
import Verif.Proofs.ConNum
import Verif.Proofs.Crs
import Verif.Proofs.Groth16
import Verif.Props.Num

/-!
# C43: gadgets mention allocated variables only, and expose nothing

Input 0 is the constant one, so the theorems assume `0 < n`: it has been allocated, as every implementation does before
synthesis.  Nothing is assumed about the witness values, which may be absent or wrong, nor about the implementation of the constraint
system beyond consecutive numbering.
-/

namespace Bellman

open PrimeField

set_option linter.unusedSectionVars false

variable {F : Type} [PrimeField F] {n k : ℕ}

/-- C43 for the gadgets that create bits. -/
theorem C43_alloc {K : Type} [PrimeField K] (hn : 0 < n) (v : Option Bool) (w : Option (BitVec 64)) (u : Option (BitVec 32)) (x : Option K)
    (y : Except SynthesisError F) (c : AllocatedBit) (hc : Known n k c) :
    Closed n k (AllocatedBit.alloc v : Synth F _) ∧ Closed n k (AllocatedBit.allocConditionally v c : Synth F _) ∧
    Closed n k (u64IntoBooleanVecLe w : Synth F _) ∧ Closed n k (UInt32.alloc u : Synth F _) ∧
    Closed n k (fieldIntoAllocatedBitsLe x : Synth F _) ∧ Closed n k (fieldIntoBooleanVecLe x : Synth F _) ∧
    Closed n k (AllocatedNum.alloc y) :=
  ⟨(AllocatedBit.slocal_alloc hn v).closed, (AllocatedBit.slocal_allocConditionally hn v hc).closed,
    (slocal_u64IntoBooleanVecLe hn w).closed, (UInt32.slocal_alloc hn u).closed, (slocal_fieldIntoAllocatedBitsLe hn x).closed,
    (slocal_fieldIntoBooleanVecLe hn x).closed, (AllocatedNum.slocal_alloc y).closed⟩

/-- C43 for the gadgets on `AllocatedBit`. -/
theorem C43_bits (hn : 0 < n) {a b : AllocatedBit} (ha : Known n k a) (hb : Known n k b) :
    Closed n k (AllocatedBit.xor a b : Synth F _) ∧ Closed n k (AllocatedBit.and a b : Synth F _) ∧
    Closed n k (AllocatedBit.andNot a b : Synth F _) ∧ Closed n k (AllocatedBit.nor a b : Synth F _) :=
  ⟨(AllocatedBit.slocal_xor ha hb).closed, (AllocatedBit.slocal_and ha hb).closed, (AllocatedBit.slocal_andNot hn ha hb).closed,
    (AllocatedBit.slocal_nor hn ha hb).closed⟩

/-- C43 for the gadgets on `Boolean`. -/
theorem C43_booleans (hn : 0 < n) {a b c : Boolean} (ha : Known n k a) (hb : Known n k b) (hc : Known n k c) :
    Closed n k (Boolean.enforceEqual a b : Synth F _) ∧ Closed n k (Boolean.xor a b : Synth F _) ∧
    Closed n k (Boolean.and a b : Synth F _) ∧ Closed n k (Boolean.sha256Ch a b c : Synth F _) ∧
    Closed n k (Boolean.sha256Maj a b c : Synth F _) :=
  ⟨(Boolean.slocal_enforceEqual hn ha hb).closed, (Boolean.slocal_xor ha hb).closed, (Boolean.slocal_and hn ha hb).closed,
    (Boolean.slocal_sha256Ch hn ha hb hc).closed, (Boolean.slocal_sha256Maj hn ha hb hc).closed⟩

/-- C43 for the gadgets on `AllocatedNum`, except `inputize`. -/
theorem C43_num (hn : 0 < n) {a b : AllocatedNum F} {c : Boolean} (ha : Known n k a) (hb : Known n k b) (hc : Known n k c) :
    Closed n k (AllocatedNum.toBitsLeStrict a) ∧ Closed n k (AllocatedNum.toBitsLe a) ∧ Closed n k (AllocatedNum.mul a b) ∧
    Closed n k (AllocatedNum.square a) ∧ Closed n k (AllocatedNum.assertNonzero a) ∧
    Closed n k (AllocatedNum.conditionallyReverse a b c) :=
  ⟨(AllocatedNum.slocal_toBitsLeStrict hn ha).closed, (AllocatedNum.slocal_toBitsLe hn ha).closed, (AllocatedNum.slocal_mul ha hb).closed,
    (AllocatedNum.slocal_square ha).closed, (AllocatedNum.slocal_assertNonzero hn ha).closed,
    (AllocatedNum.slocal_conditionallyReverse hn ha hb hc).closed⟩

/-- C43 for the table lookups. -/
theorem C43_lookup (hn : 0 < n) {bits : List Boolean} (hb : Known n k bits) (coords : List (F × F)) :
    Closed n k (lookup3xy bits coords) ∧ Closed n k (lookup3xyWithConditionalNegation bits coords) :=
  ⟨(slocal_lookup3xy hn hb coords).closed, (slocal_lookup3xyWithConditionalNegation hn hb coords).closed⟩

/-- C43 for the gadgets on 32-bit words. -/
theorem C43_words (hn : 0 < n) {a b c : UInt32} {ops : List UInt32} (ha : Known n k a) (hb : Known n k b) (hc : Known n k c)
    (ho : Known n k ops) (i : ℕ) :
    Closed n k (UInt32.xor a b : Synth F _) ∧ Closed n k (UInt32.sha256Ch a b c : Synth F _) ∧
    Closed n k (UInt32.sha256Maj a b c : Synth F _) ∧ Closed n k (MSynth.withMultiEq (UInt32.addmany ops) : Synth F _) ∧
    Known n k (a.rotr i) ∧ Known n k (a.shr i) :=
  ⟨(UInt32.slocal_xor ha hb).closed, (UInt32.slocal_sha256Ch hn ha hb hc).closed, (UInt32.slocal_sha256Maj hn ha hb hc).closed,
    (MLocal.withMultiEq hn (UInt32.mlocal_addmany hn ho)).closed, UInt32.known_rotr ha i, UInt32.known_shr ha i⟩

/-- C43 for the hash functions. -/
theorem C43_hashes (hn : 0 < n) {input : List Boolean} (hi : Known n k input) (personalization : List (BitVec 8)) :
    Closed n k (Sha256.sha256 input : Synth F _) ∧ Closed n k (Sha256.sha256BlockNoPadding input : Synth F _) ∧
    Closed n k (Blake2s.blake2s input personalization : Synth F _) :=
  ⟨(Sha256.slocal_sha256 hn hi).closed, (Sha256.slocal_sha256BlockNoPadding hn hi).closed,
    (Blake2s.slocal_blake2s hn personalization hi).closed⟩

/-- C43: `inputize` adds exactly one public input and no auxiliary variable, and mentions allocated variables only. -/
theorem C43_inputize {a : AllocatedNum F} (ha : Known n k a) {t : List (Ev F)} {r : Option (Except SynthesisError Unit)}
    (he : Exec (AllocatedNum.inputize a).run t r) (ht : Numbered n k t) :
    Scoped n k t ∧ (r = some (.ok ()) → numIn t = 1 ∧ numAux t = 0) := by
  obtain ⟨h1, h2⟩ := Circ.Scope.exec (scope_inputize ha) he ht
  refine ⟨h1, fun hr => ?_⟩
  obtain ⟨p, q⟩ := h2 _ hr
  have := q rfl
  omega

/-- C43: `pack_into_inputs` adds `⌈length / CAPACITY⌉` public inputs and no auxiliary variable, and mentions allocated variables
only. -/
theorem C43_pack {bits : List Boolean} (hb : Known n k bits) {t : List (Ev F)} {r : Option (Except SynthesisError Unit)}
    (he : Exec (packIntoInputs bits : Synth F Unit).run t r) (ht : Numbered n k t) :
    Scoped n k t ∧ (r = some (.ok ()) → numAux t = 0 ∧ numIn t = (bits.length + CAPACITY F - 1) / CAPACITY F) := by
  unfold packIntoInputs at he
  cases hc : chunks? (CAPACITY F) bits with
  | none => rw [hc] at he; cases he; exact ⟨trivial, by rintro ⟨⟩⟩
  | some cs =>
    rw [hc] at he
    obtain ⟨h1, h2⟩ := Circ.Scope.exec (scope_packChunks 0 (known_chunks hb hc)) he ht
    refine ⟨h1, fun hr => ?_⟩
    obtain ⟨p, q⟩ := h2 _ hr
    have := q rfl
    have hl : cs.length = (bits.length + CAPACITY F - 1) / CAPACITY F := by
      unfold chunks? at hc
      split at hc
      · cases hc
      · rename_i h0
        cases hc
        exact chunksAux_numChunks (Nat.pos_of_ne_zero h0) le_rfl
    omega

/-- C43 composes: a program made of such gadgets has the property too. -/
theorem C43_seq {α β : Type} [Handle α] [Handle β] {m : Synth F α} {g : α → Synth F β} (h : Closed n k m)
    (hg : ∀ k' a, k ≤ k' → Known n k' a → Closed n k' (g a)) : Closed n k (m >>= g) := h.bind hg

/-- C43: if a circuit mentions allocated variables only, then key generation does not panic during synthesis, unless the circuit
itself does. -/
theorem C43_keygen {circuit : Synth F Unit} (h : ∀ t r, Exec circuit.run t r → Numbered 1 0 t → Scoped 1 0 t)
    (hp : synthesizeWith KeypairAssembly.impl circuit (KeypairAssembly.new : KeypairAssembly F).allocInput.2 = Res.panic) :
    ∃ t, Blind circuit.run t none ∧ Numbered 1 0 t := by
  obtain ⟨t, r, he, hn⟩ := circuit.run.exists_blind 1 0
  cases r with
  | none => exact ⟨t, he, hn⟩
  | some a =>
    obtain ⟨s', hs'⟩ := KeyTrace.run_aux he start_WF hn (h t _ he.exec hn)
    unfold synthesizeWith at hp
    rw [hs'] at hp
    cases a <;> cases hp

/-- C43: the same for the prover. -/
theorem C43_prover {circuit : Synth F Unit} (h : ∀ t r, Exec circuit.run t r → Numbered 1 0 t → Scoped 1 0 t)
    (hp : synthesizeWith ProvingAssignment.impl circuit (proverStart F) = Res.panic) :
    ∃ t, Honest circuit.run t none ∧ Numbered 1 0 t := by
  obtain ⟨t, r, he, hn⟩ := circuit.run.exists_honest 1 0
  cases r with
  | none => exact ⟨t, he, hn⟩
  | some a =>
    obtain ⟨s', hs'⟩ := he.prover_run proverStart_WF hn (h t _ he.exec hn)
    unfold synthesizeWith at hp
    rw [hs'] at hp
    cases a <;> cases hp

/-! ### The hypotheses are met, and the property can fail -/

section Examples

/-- A circuit: two bits, their conjunction, and the hash of the three. -/
def scopeDemo (v w : Option Bool) : Synth F (List Boolean) := do
  let a ← AllocatedBit.alloc v
  let b ← AllocatedBit.alloc w
  let c ← AllocatedBit.and a b
  Sha256.sha256 [.is a, .not b, .is c, .constant true, .is a, .is a, .is b, .is c]

theorem scopeDemo_closed (v w : Option Bool) : Closed 1 0 (scopeDemo (F := F) v w) :=
  C43_seq (AllocatedBit.slocal_alloc one_pos v).closed fun _ a h1 ha =>
    C43_seq (AllocatedBit.slocal_alloc one_pos w).closed fun _ b h2 hb =>
      C43_seq (C43_bits one_pos (Known.lift ha h2) hb).2.1 fun _ c h3 hc =>
        (C43_hashes one_pos (by
          have ha := Known.lift ha (h2.trans h3)
          have hb := Known.lift hb h3
          intro x hx
          simp only [List.mem_cons, List.not_mem_nil, or_false] at hx
          rcases hx with rfl | rfl | rfl | rfl | rfl | rfl | rfl | rfl <;> first | exact ha | exact hb | exact hc | trivial) []).1

/-- The circuit has runs, so the statement is not empty. -/
example (v w : Option Bool) : ∃ t r, Exec (scopeDemo (F := F) v w).run t r ∧ Numbered 1 0 t ∧ Scoped 1 0 t := by
  obtain ⟨t, r, he, hn⟩ := (scopeDemo (F := F) v w).run.exists_blind 1 0
  exact ⟨t, r, he.exec, hn, (scopeDemo_closed v w t r he.exec hn).1⟩

/-- A handle of three known bits. -/
example : Known 1 3 [Boolean.is ⟨.aux 0, none⟩, .not ⟨.aux 2, none⟩, .constant true] := by
  intro x hx
  simp only [List.mem_cons, List.not_mem_nil, or_false] at hx
  rcases hx with rfl | rfl | rfl
  · exact (by decide : 0 < 3)
  · exact (by decide : 2 < 3)
  · trivial

/-- A program that exposes a value is not `Closed`. -/
example : ¬ Closed 1 1 (AllocatedNum.inputize (⟨none, .aux 0⟩ : AllocatedNum F)) := by
  intro h
  obtain ⟨-, h⟩ := h [.alloc true "input variable" (.input 1) none, .enforce "enforce input is correct"
    ((⟨[]⟩ : LC F) + Var.input 1) ((⟨[]⟩ : LC F) + Var.one) ((⟨[]⟩ : LC F) + Var.aux 0)] (some (.ok ()))
    (.allocSkip _ (.enforce (.ret _))) ⟨rfl, trivial⟩
  exact absurd (h _ rfl).1 (by simp [numIn])

/-- A program that uses a variable nobody has allocated is not `Closed`. -/
example : ¬ Closed 1 1 (AllocatedBit.and ⟨.aux 0, none⟩ ⟨.aux 7, none⟩ : Synth F _) := by
  intro h
  obtain ⟨t, r, he, hn⟩ := (AllocatedBit.and ⟨.aux 0, none⟩ ⟨.aux 7, none⟩ : Synth F _).run.exists_blind 1 1
  obtain ⟨h, -⟩ := h t r he.exec hn
  unfold AllocatedBit.and at he
  cases he with
  | allocSkip x he =>
    cases he with
    | enforce he =>
      cases he
      have := h.1 (.aux 7, 1) (by simp [LC.addVar, LC.addTerm, HAdd.hAdd])
      exact absurd (show 7 < 2 from this) (by omega)

end Examples

end Bellman
