import Verif.Proofs.ShapeNum
import Verif.Proofs.ShapeHash
import Verif.Proofs.SameCircuit
import Verif.Proofs.Realize
import Verif.FieldInstances

/-!
# C18: gadget circuits do not depend on the witness

Each theorem takes two calls of one gadget whose arguments are handles to the same variables (`Same`: same variable, same
literal, same combination) but carry arbitrary, possibly missing and possibly different, values.
-/

set_option linter.unusedSectionVars false

namespace Bellman

open List

variable {F : Type} [PrimeField F] {α β : Type}

/-- Two programs are one circuit (specification): any two successful runs, by whatever implementations as long as these
number variables consecutively, with or without witness, make the same calls (allocations with the same
indices, same constraints, same namespaces, same order) and return related handles; and if one of them can complete, the
other can complete with the same calls as well. -/
def OneCircuit (R : α → β → Prop) (m₁ : Synth F α) (m₂ : Synth F β) : Prop :=
  (∀ t₁ t₂ a b n m, Exec m₁.run t₁ (some (.ok a)) → Exec m₂.run t₂ (some (.ok b)) → Numbered n m t₁ → Numbered n m t₂ →
    Forall₂ Ev.Same t₁ t₂ ∧ consOf t₁ = consOf t₂ ∧ R a b) ∧
  (∀ t₁ a, Exec m₁.run t₁ (some (.ok a)) →
    ∃ t₂ b, Exec m₂.run t₂ (some (.ok b)) ∧ Forall₂ Ev.Same t₁ t₂ ∧ R a b)

theorem SShape.oneCircuit {R : α → β → Prop} {m₁ : Synth F α} {m₂ : Synth F β} (h : SShape R m₁ m₂) :
    OneCircuit R m₁ m₂ := by
  refine ⟨fun t₁ t₂ a b n m h1 h2 h3 h4 => ?_, fun t₁ a h1 => ?_⟩
  · obtain ⟨hs, hr⟩ := SShape.same_trace h h1 h2 h3 h4
    exact ⟨hs, Ev.Same.consOf hs, hr⟩
  · exact SShape.transfer h h1

/-- C18: allocating bits, integers and field elements as bits. -/
theorem C18_alloc {K : Type} [PrimeField K] (v w : Option Bool) (c c' : AllocatedBit) (hc : c.var = c'.var)
    (x y : Option (BitVec 64)) (z u : Option K) (e f : Except SynthesisError F) (p q : Option (BitVec 32)) :
    OneCircuit (F := F) (fun a b => a.var = b.var) (AllocatedBit.alloc v) (AllocatedBit.alloc w) ∧
    OneCircuit (F := F) (fun a b => a.var = b.var) (AllocatedBit.allocConditionally v c) (AllocatedBit.allocConditionally w c') ∧
    OneCircuit (F := F) (Forall₂ Boolean.Same) (u64IntoBooleanVecLe x) (u64IntoBooleanVecLe y) ∧
    OneCircuit (F := F) (Forall₂ Boolean.Same) (fieldIntoBooleanVecLe z) (fieldIntoBooleanVecLe u) ∧
    OneCircuit (F := F) (Forall₂ fun a b => a.var = b.var) (fieldIntoAllocatedBitsLe z) (fieldIntoAllocatedBitsLe u) ∧
    OneCircuit (F := F) (fun a b => a.var = b.var) (AllocatedNum.alloc e) (AllocatedNum.alloc f) ∧
    OneCircuit (F := F) UInt32.Sim (UInt32.alloc p) (UInt32.alloc q) :=
  ⟨(AllocatedBit.shape_alloc v w).oneCircuit, (AllocatedBit.shape_allocConditionally v w hc).oneCircuit,
    (shape_u64IntoBooleanVecLe x y).oneCircuit, (shape_fieldIntoBooleanVecLe z u).oneCircuit,
    (shape_fieldIntoAllocatedBitsLe z u).oneCircuit, (AllocatedNum.shape_alloc e f).oneCircuit,
    (SShape.mono (UInt32.shape_alloc p q) fun _ _ h => h.toSim).oneCircuit⟩

/-- C18: the connectives on allocated bits. -/
theorem C18_bits {a a' b b' : AllocatedBit} (ha : a.var = a'.var) (hb : b.var = b'.var) :
    OneCircuit (F := F) (fun a b => a.var = b.var) (AllocatedBit.xor a b) (AllocatedBit.xor a' b') ∧
    OneCircuit (F := F) (fun a b => a.var = b.var) (AllocatedBit.and a b) (AllocatedBit.and a' b') ∧
    OneCircuit (F := F) (fun a b => a.var = b.var) (AllocatedBit.andNot a b) (AllocatedBit.andNot a' b') ∧
    OneCircuit (F := F) (fun a b => a.var = b.var) (AllocatedBit.nor a b) (AllocatedBit.nor a' b') :=
  ⟨(AllocatedBit.shape_xor ha hb).oneCircuit, (AllocatedBit.shape_and ha hb).oneCircuit,
    (AllocatedBit.shape_andNot ha hb).oneCircuit, (AllocatedBit.shape_nor ha hb).oneCircuit⟩

/-- C18: the connectives on Booleans. -/
theorem C18_booleans {a a' b b' c c' : Boolean} (ha : a.Same a') (hb : b.Same b') (hc : c.Same c') :
    OneCircuit (F := F) Boolean.Same (Boolean.xor a b) (Boolean.xor a' b') ∧
    OneCircuit (F := F) Boolean.Same (Boolean.and a b) (Boolean.and a' b') ∧
    OneCircuit (F := F) (fun _ _ => True) (Boolean.enforceEqual a b) (Boolean.enforceEqual a' b') ∧
    OneCircuit (F := F) Boolean.Same (Boolean.sha256Ch a b c) (Boolean.sha256Ch a' b' c') ∧
    OneCircuit (F := F) Boolean.Same (Boolean.sha256Maj a b c) (Boolean.sha256Maj a' b' c') :=
  ⟨(SShape.mono (Boolean.shape_xor ha hb) fun _ _ h => h.1).oneCircuit, (Boolean.shape_and ha hb).oneCircuit,
    (Boolean.shape_enforceEqual ha hb).oneCircuit, (Boolean.shape_sha256Ch ha hb hc).oneCircuit,
    (Boolean.shape_sha256Maj ha hb hc).oneCircuit⟩

/-- C18: the number gadgets, including both bit decompositions. -/
theorem C18_num {a a' b b' : AllocatedNum F} {c c' : Boolean} (ha : a.var = a'.var) (hb : b.var = b'.var)
    (hc : c.Same c') :
    OneCircuit (fun _ _ => True) a.inputize a'.inputize ∧
    OneCircuit (Forall₂ Boolean.Same) a.toBitsLeStrict a'.toBitsLeStrict ∧
    OneCircuit (Forall₂ Boolean.Same) a.toBitsLe a'.toBitsLe ∧
    OneCircuit AllocatedNum.Same (a.mul b) (a'.mul b') ∧
    OneCircuit AllocatedNum.Same a.square a'.square ∧
    OneCircuit (fun _ _ => True) a.assertNonzero a'.assertNonzero ∧
    OneCircuit (fun r r' => r.1.Same r'.1 ∧ r.2.Same r'.2) (AllocatedNum.conditionallyReverse a b c)
      (AllocatedNum.conditionallyReverse a' b' c') :=
  ⟨(AllocatedNum.shape_inputize ha).oneCircuit, (AllocatedNum.shape_toBitsLeStrict ha).oneCircuit,
    (AllocatedNum.shape_toBitsLe ha).oneCircuit, (AllocatedNum.shape_mul ha hb).oneCircuit,
    (AllocatedNum.shape_square ha).oneCircuit, (AllocatedNum.shape_assertNonzero ha).oneCircuit,
    (AllocatedNum.shape_conditionallyReverse ha hb hc).oneCircuit⟩

/-- C18: lookups and multipacking. -/
theorem C18_lookup_pack {bits bits' : List Boolean} (h : Forall₂ Boolean.Same bits bits') (coords : List (F × F)) :
    OneCircuit (fun r r' => r.1.Same r'.1 ∧ r.2.Same r'.2) (lookup3xy bits coords) (lookup3xy bits' coords) ∧
    OneCircuit (fun r r' => r.1.Same r'.1 ∧ r.2.Same r'.2) (lookup3xyWithConditionalNegation bits coords)
      (lookup3xyWithConditionalNegation bits' coords) ∧
    OneCircuit (F := F) (fun _ _ => True) (packIntoInputs bits) (packIntoInputs bits') :=
  ⟨(shape_lookup3xy h coords).oneCircuit, (shape_lookup3xyWithConditionalNegation h coords).oneCircuit,
    (shape_packIntoInputs h).oneCircuit⟩

/-- C18: the word operations without carries. -/
theorem C18_words {a a' b b' c c' : UInt32} (ha : UInt32.Sim a a') (hb : UInt32.Sim b b') (hc : UInt32.Sim c c') :
    OneCircuit (F := F) (fun r r' => UInt32.Sim r r') (a.xor b) (a'.xor b') ∧
    OneCircuit (F := F) (fun r r' => UInt32.Sim r r') (UInt32.sha256Ch a b c) (UInt32.sha256Ch a' b' c') ∧
    OneCircuit (F := F) (fun r r' => UInt32.Sim r r') (UInt32.sha256Maj a b c) (UInt32.sha256Maj a' b' c') :=
  ⟨(SShape.mono (UInt32.shape_xor ha hb) fun _ _ h => h.1).oneCircuit,
    (SShape.mono (UInt32.shape_sha256Ch ha hb hc) fun _ _ h => h.1).oneCircuit,
    (SShape.mono (UInt32.shape_sha256Maj ha hb hc) fun _ _ h => h.1).oneCircuit⟩

/-- C18: `addmany`, provided operands that consist of constant bits only have known, equal values (see
`C18_addmany_needs_known_constants` for why this is needed). -/
theorem C18_addmany {l l' : List UInt32} (h : Forall₂ UInt32.WK l l') :
    OneCircuit (F := F) UInt32.WK (MSynth.withMultiEq (UInt32.addmany l)) (MSynth.withMultiEq (UInt32.addmany l')) :=
  (MShape.withMultiEq (UInt32.shape_addmany_wk h)).oneCircuit

/-- C18: SHA-256 and BLAKE2s, for all inputs: the hypothesis of `C18_addmany` always holds inside them. -/
theorem C18_hashes {input input' : List Boolean} (h : Forall₂ Boolean.Same input input') (pers : List (BitVec 8)) :
    OneCircuit (F := F) (Forall₂ Boolean.Same) (Sha256.sha256 input) (Sha256.sha256 input') ∧
    OneCircuit (F := F) (Forall₂ Boolean.Same) (Sha256.sha256BlockNoPadding input) (Sha256.sha256BlockNoPadding input') ∧
    OneCircuit (F := F) (Forall₂ Boolean.Same) (Blake2s.blake2s input pers) (Blake2s.blake2s input' pers) :=
  ⟨(Sha256.shape_sha256 h).oneCircuit, (Sha256.shape_sha256BlockNoPadding h).oneCircuit,
    (Blake2s.shape_blake2s h pers).oneCircuit⟩

/-! ### The exception: `addmany` on constant bits with unknown value -/

/-- A circuit made of library calls only: `sha256_ch` of an allocated word with two zero words (all bits of the result are
constants, but without witness its value is unknown), added to a constant. -/
def chThenAdd (x : Option (BitVec 32)) : Synth BlsScalar Unit := do
  let u ← Synth.inNs "x" (UInt32.alloc x)
  let c ← Synth.inNs "ch" (UInt32.sha256Ch u (UInt32.constant 0) (UInt32.constant 0))
  let _ ← MSynth.withMultiEq (UInt32.addmany [c, UInt32.constant 5])
  pure ()

/-- C18, negative result: the claim is false for raw compositions of the public word operations.  Key generation (no
witness) allocates the 33 bits of the sum and enforces it, proving (with witness) returns a constant and allocates nothing:
both succeed, with different numbers of variables and constraints. -/
theorem C18_addmany_needs_known_constants : ∃ s' p',
    (chThenAdd none).run.run KeypairAssembly.impl (KeypairAssembly.new.allocInput).2 = some (.ok (), s') ∧
    (chThenAdd (some 7)).run.run ProvingAssignment.impl
      { (ProvingAssignment.new : ProvingAssignment BlsScalar) with
        inputAssignment := [1], bInputDensity := ⟨[false]⟩ } = some (.ok (), p') ∧
    s'.numAux = 65 ∧ p'.auxAssignment.length = 32 ∧ s'.numConstraints ≠ p'.a.length := by
  have h1 : ((chThenAdd none).run.run KeypairAssembly.impl (KeypairAssembly.new.allocInput).2).map
      (fun r => (r.1.toOption, r.2.numAux, r.2.numConstraints)) = some (some (), 65, 66) := by decide +kernel
  have h2 : ((chThenAdd (some 7)).run.run ProvingAssignment.impl
      { (ProvingAssignment.new : ProvingAssignment BlsScalar) with
        inputAssignment := [1], bInputDensity := ⟨[false]⟩ }).map
      (fun r => (r.1.toOption, r.2.auxAssignment.length, r.2.a.length)) = some (some (), 32, 32) := by decide +kernel
  obtain ⟨⟨r, s'⟩, e1, e2⟩ := Option.map_eq_some_iff.1 h1
  obtain ⟨⟨r', p'⟩, f1, f2⟩ := Option.map_eq_some_iff.1 h2
  simp only [Prod.mk.injEq] at e2 f2
  cases r with
  | error e => simp [Except.toOption] at e2
  | ok u =>
    cases r' with
    | error e => simp [Except.toOption] at f2
    | ok u' => exact ⟨s', p', e1, f1, e2.2.1, f2.2.1, by rw [e2.2.2, f2.2.2]; decide⟩

/-! ### The hypotheses are met -/

/-- 24 input bits, with values in one run and without in the other; both runs of `sha256` can complete. -/
example : Forall₂ Boolean.Same (List.replicate 24 (.is ⟨.aux 0, some true⟩)) (List.replicate 24 (.is ⟨.aux 0, none⟩)) := by
  generalize 24 = n
  induction n with
  | zero => exact .nil
  | succ n ih => exact .cons rfl ih

example : UInt32.WK (UInt32.constant 7) (UInt32.constant 7) := UInt32.wk_constant 7

end Bellman
