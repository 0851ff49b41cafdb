import Verif.Props.TestCS
import Verif.Props.Scope
import Verif.Props.Boolean
import Verif.Proofs.NamesTest
import Verif.Proofs.NamesExamples

/-!
# C49: gadgets use distinct names

`TestConstraintSystem` panics when a path is used twice, or a name contains a slash.  Every gadget of the crate chooses its names such
that this does not happen: it uses no path twice, whatever the constraint system answers (so also when values are missing), and the
names it uses in the namespace it is called in are the ones listed here.  Calling it in a namespace of its own is always possible.
-/

namespace Bellman

set_option linter.unusedSectionVars false

variable {F : Type} [PrimeField F] {α β : Type}

/-! ### The gadgets -/

/-- C49 for the gadgets on single bits. -/
theorem C49_bits (v : Option Bool) (a b : AllocatedBit) :
    UsesNames {"boolean", "boolean constraint"} (AllocatedBit.alloc v : Synth F _).run ∧
    UsesNames {"boolean", "boolean constraint"} (AllocatedBit.allocConditionally v a : Synth F _).run ∧
    UsesNames {"xor result", "xor constraint"} (AllocatedBit.xor a b : Synth F _).run ∧
    UsesNames {"and result", "and constraint"} (AllocatedBit.and a b : Synth F _).run ∧
    UsesNames {"and not result", "and not constraint"} (AllocatedBit.andNot a b : Synth F _).run ∧
    UsesNames {"nor result", "nor constraint"} (AllocatedBit.nor a b : Synth F _).run :=
  ⟨(AllocatedBit.snames_alloc v).uses, (AllocatedBit.snames_allocConditionally v a).uses, (AllocatedBit.snames_xor a b).uses,
    (AllocatedBit.snames_and a b).uses, (AllocatedBit.snames_andNot a b).uses, (AllocatedBit.snames_nor a b).uses⟩

/-- C49 for the allocation of integers and field elements bit by bit. -/
theorem C49_bit_allocation {K : Type} [PrimeField K] (v : Option (BitVec 64)) (w : Option K) :
    UsesNames {n | ∃ j : ℕ, n = s!"bit {j}"} (u64IntoBooleanVecLe v : Synth F _).run ∧
    UsesNames {n | ∃ j : ℕ, n = s!"bit {j}"} (fieldIntoAllocatedBitsLe w : Synth F _).run ∧
    UsesNames {n | ∃ j : ℕ, n = s!"bit {j}"} (fieldIntoBooleanVecLe w : Synth F _).run := by
  have h : idx "bit " {j | 0 ≤ j} ⊆ {n | ∃ j : ℕ, n = s!"bit {j}"} := by rintro _ ⟨j, -, rfl⟩; exact ⟨j, rfl⟩
  exact ⟨((snames_u64IntoBooleanVecLe v).weaken h).uses, ((snames_fieldIntoAllocatedBitsLe w).weaken h).uses,
    ((snames_fieldIntoBooleanVecLe w).weaken h).uses⟩

/-- C49 for the gadgets on `Boolean`. -/
theorem C49_booleans (a b c : Boolean) :
    UsesNames {"enforce equal to one", "enforce equal to zero", "enforce equal"} (Boolean.enforceEqual a b : Synth F _).run ∧
    UsesNames {"xor result", "xor constraint"} (Boolean.xor a b : Synth F _).run ∧
    UsesNames {"and result", "and constraint", "and not result", "and not constraint", "nor result", "nor constraint"}
      (Boolean.and a b : Synth F _).run ∧
    UsesNames ({"and result", "and constraint", "and not result", "and not constraint", "nor result", "nor constraint"} ∪
      {"ch", "ch computation"}) (Boolean.sha256Ch a b c : Synth F _).run ∧
    UsesNames ({"and result", "and constraint", "and not result", "and not constraint", "nor result", "nor constraint"} ∪
      {"maj", "b and c", "maj computation"}) (Boolean.sha256Maj a b c : Synth F _).run :=
  ⟨(Boolean.snames_enforceEqual a b).uses, (Boolean.snames_xor a b).uses, (Boolean.snames_and a b).uses,
    (Boolean.snames_sha256Ch a b c).uses, (Boolean.snames_sha256Maj a b c).uses⟩

/-- C49 for the gadgets on field elements. -/
theorem C49_num (v : Except SynthesisError F) (a b : AllocatedNum F) (c : Boolean) :
    UsesNames {"num"} (AllocatedNum.alloc v).run ∧
    UsesNames {"input variable", "enforce input is correct"} (AllocatedNum.inputize a).run ∧
    UsesNames AllocatedNum.toBitsNames (AllocatedNum.toBitsLeStrict a).run ∧
    UsesNames ({n | ∃ j : ℕ, n = s!"bit {j}"} ∪ {"unpacking constraint"}) (AllocatedNum.toBitsLe a).run ∧
    UsesNames {"product num", "multiplication constraint"} (AllocatedNum.mul a b).run ∧
    UsesNames {"squared num", "squaring constraint"} (AllocatedNum.square a).run ∧
    UsesNames {"ephemeral inverse", "nonzero assertion constraint"} (AllocatedNum.assertNonzero a).run ∧
    UsesNames {"conditional reversal result 1", "first conditional reversal", "conditional reversal result 2",
      "second conditional reversal"} (AllocatedNum.conditionallyReverse a b c).run := by
  have h : idx "bit " {j | 0 ≤ j} ⊆ {n | ∃ j : ℕ, n = s!"bit {j}"} := by rintro _ ⟨j, -, rfl⟩; exact ⟨j, rfl⟩
  exact ⟨(AllocatedNum.snames_alloc v).uses, (AllocatedNum.snames_inputize a).uses, (AllocatedNum.snames_toBitsLeStrict a).uses,
    ((AllocatedNum.snames_toBitsLe a).weaken (Set.union_subset_union_left _ h)).uses, (AllocatedNum.snames_mul a b).uses,
    (AllocatedNum.snames_square a).uses, (AllocatedNum.snames_assertNonzero a).uses, (AllocatedNum.snames_conditionallyReverse a b c).uses⟩

/-- C49 for the window lookups and for packing. -/
theorem C49_lookup_pack (bits : List Boolean) (coords : List (F × F)) :
    UsesNames {"x", "y", "precomp", "x-coordinate lookup", "y-coordinate lookup"} (lookup3xy bits coords).run ∧
    UsesNames {"y", "precomp", "y-coordinate lookup"} (lookup3xyWithConditionalNegation bits coords).run ∧
    UsesNames {n | ∃ j : ℕ, n = s!"input {j}" ∨ n = s!"packing constraint {j}"} (packIntoInputs bits : Synth F Unit).run := by
  refine ⟨(snames_lookup3xy bits coords).uses, (snames_lookup3xyWithConditionalNegation bits coords).uses,
    ((snames_packIntoInputs bits).weaken ?_).uses⟩
  rintro _ (⟨j, -, rfl⟩ | ⟨j, -, rfl⟩)
  exacts [⟨j, .inl rfl⟩, ⟨j, .inr rfl⟩]

/-- C49 for the gadgets on 32-bit words; `MultiEq` numbers the constraints it emits. -/
theorem C49_words (v : Option (BitVec 32)) (a b c : UInt32) (l : List UInt32) :
    UsesNames {n | ∃ j : ℕ, n = s!"allocated bit {j}"} (UInt32.alloc v : Synth F _).run ∧
    UsesNames {n | ∃ j : ℕ, n = s!"xor of bit {j}"} (UInt32.xor a b : Synth F _).run ∧
    UsesNames {n | ∃ j : ℕ, n = s!"ch {j}"} (UInt32.sha256Ch a b c : Synth F _).run ∧
    UsesNames {n | ∃ j : ℕ, n = s!"maj {j}"} (UInt32.sha256Maj a b c : Synth F _).run ∧
    UsesNames {n | ∃ j : ℕ, n = s!"result bit {j}" ∨ n = s!"multieq {j}"} (MSynth.withMultiEq (UInt32.addmany l) : Synth F _).run := by
  refine ⟨((UInt32.snames_alloc v).weaken ?_).uses, ((UInt32.snames_xor a b).weaken ?_).uses,
    ((UInt32.snames_sha256Ch a b c).weaken ?_).uses, ((UInt32.snames_sha256Maj a b c).weaken ?_).uses,
    ((MNames.withMultiEq (UInt32.mnames_addmany l)).weaken ?_).uses⟩
  iterate 4 (rintro _ ⟨j, -, rfl⟩; exact ⟨j, rfl⟩)
  rintro _ (⟨j, -, rfl⟩ | ⟨j, -, rfl⟩)
  exacts [⟨j, .inl rfl⟩, ⟨j, .inr rfl⟩]

/-- C49 for the hash functions. -/
theorem C49_hashes (input : List Boolean) (personalization : List (BitVec 8)) :
    UsesNames {n | ∃ j : ℕ, n = s!"block {j}"} (Sha256.sha256 input : Synth F _).run ∧
    UsesNames Sha256.compressionNames (Sha256.sha256BlockNoPadding input : Synth F _).run ∧
    UsesNames ({n | ∃ j : ℕ, n = s!"block {j}"} ∪ {"final block"}) (Blake2s.blake2s input personalization : Synth F _).run := by
  have h : idx "block " {j | 0 ≤ j} ⊆ {n | ∃ j : ℕ, n = s!"block {j}"} := by rintro _ ⟨j, -, rfl⟩; exact ⟨j, rfl⟩
  exact ⟨((Sha256.snames_sha256 input).weaken h).uses, (Sha256.snames_sha256BlockNoPadding input).uses,
    ((Blake2s.snames_blake2s input personalization).weaken (Set.union_subset_union_left _ h)).uses⟩

/-- C49 for the circuit of the documentation and the MiMC circuit. -/
theorem C49_examples (c : Preimage.MyCircuit) (d : Mimc.Demo F) :
    UsesNames ({n | ∃ j : ℕ, n = s!"preimage bit {j}"} ∪ {"SHA-256d(preimage)", "pack hash"}) (c.synthesize : Synth F Unit).run ∧
    UsesNames ({"preimage xl", "preimage xr"} ∪ {n | ∃ j : ℕ, n = s!"round {j}"}) d.synthesize.run := by
  refine ⟨((Preimage.snames_synthesize c).weaken (Set.union_subset_union_left _ ?_)).uses,
    ((Mimc.snames_synthesize d).weaken (Set.union_subset_union_right _ ?_)).uses⟩
  all_goals rintro _ ⟨j, -, rfl⟩; exact ⟨j, rfl⟩

/-! ### Composition -/

theorem pathsOf_trace_append (t t' : List (Ev F)) (ns : List String) : pathsOf ns (t ++ t') = pathsOf ns t ++ pathsOf (nsAfter ns t) t' := by
  induction t generalizing ns with
  | nil => rfl
  | cons e t ih => cases e <;> simp [pathsOf, nsAfter, ih]

theorem depthAfter_append (t t' : List (Ev F)) {d e : ℕ} (h : depthAfter d t = some e) : depthAfter d (t ++ t') = depthAfter e t' := by
  induction t generalizing d with
  | nil => cases h; rfl
  | cons ev t ih =>
    cases ev with
    | alloc i n x v => exact ih h
    | enforce n a b c => exact ih h
    | push n => exact ih (d := d + 1) h
    | pop =>
      cases d with
      | zero => cases h
      | succ d => exact ih (d := d) h

theorem nsAfter_length (t : List (Ev F)) {ns : List String} {e : ℕ} (h : depthAfter ns.length t = some e) : (nsAfter ns t).length = e := by
  induction t generalizing ns with
  | nil => cases h; rfl
  | cons ev t ih =>
    cases ev with
    | alloc i n x v => exact ih h
    | enforce n a b c => exact ih h
    | push n => exact ih (ns := ns ++ [n]) (by rw [List.length_append]; exact h)
    | pop =>
      cases ns with
      | nil => cases h
      | cons a l => exact ih (ns := (a :: l).dropLast) (by rw [List.length_dropLast]; exact h)

theorem nsAfter_append (t : List (Ev F)) {ns l : List String} {e : ℕ} (h : depthAfter l.length t = some e) :
    nsAfter (ns ++ l) t = ns ++ nsAfter l t := by
  induction t generalizing l with
  | nil => rfl
  | cons ev t ih =>
    cases ev with
    | alloc i n x v => exact ih h
    | enforce n a b c => exact ih h
    | push n =>
      simp only [nsAfter, List.append_assoc]
      exact ih (l := l ++ [n]) (by rw [List.length_append]; exact h)
    | pop =>
      cases l with
      | nil => cases h
      | cons a l =>
        simp only [nsAfter]
        rw [List.dropLast_append_of_ne_nil (by simp)]
        exact ih (l := (a :: l).dropLast) (by rw [List.length_dropLast]; exact h)

/-- C49: programs with separate names can be sequenced. -/
theorem C49_seq {N N' : Set String} {m : Synth F α} {g : α → Synth F β} (h : UsesNames N m.run) (hd : Disjoint N N')
    (hg : ∀ a, UsesNames N' (g a).run) : UsesNames (N ∪ N') (m >>= g).run := by
  intro t r he
  rcases Exec.bind_inv (show Exec (m.run.bind _) t r from he) with ⟨h1, rfl⟩ | ⟨t1, t2, a, rfl, h1, h2⟩
  · obtain ⟨g1, g2, g3, -⟩ := h t none h1
    refine ⟨g1, fun p hp => ?_, g3, fun h => absurd rfl h⟩
    obtain ⟨⟨n, rest, e, hn⟩, hc⟩ := g2 p hp
    exact ⟨⟨n, rest, e, .inl hn⟩, hc⟩
  · obtain ⟨g1, g2, -, g4⟩ := h t1 _ h1
    replace g4 := g4 (Option.some_ne_none _)
    have hns : nsAfter [] t1 = [] := List.length_eq_zero_iff.1 (nsAfter_length t1 (ns := []) g4)
    cases a with
    | error e =>
      cases h2
      rw [List.append_nil]
      refine ⟨g1, fun p hp => ?_, ⟨0, g4⟩, fun _ => g4⟩
      obtain ⟨⟨n, rest, e, hn⟩, hc⟩ := g2 p hp
      exact ⟨⟨n, rest, e, .inl hn⟩, hc⟩
    | ok a =>
      obtain ⟨k1, k2, k3, k4⟩ := hg a t2 r h2
      rw [pathsOf_trace_append, hns, depthAfter_append t1 t2 g4]
      refine ⟨List.nodup_append.2 ⟨g1, k1, ?_⟩, fun p hp => ?_, k3, k4⟩
      · rintro p hp q hq rfl
        obtain ⟨⟨n, rest, rfl, hn⟩, -⟩ := g2 p hp
        obtain ⟨⟨n', rest', e, hn'⟩, -⟩ := k2 _ hq
        cases e
        exact Set.disjoint_left.1 hd hn hn'
      · rcases List.mem_append.1 hp with hp | hp
        · obtain ⟨⟨n, rest, e, hn⟩, hc⟩ := g2 p hp
          exact ⟨⟨n, rest, e, .inl hn⟩, hc⟩
        · obtain ⟨⟨n, rest, e, hn⟩, hc⟩ := k2 p hp
          exact ⟨⟨n, rest, e, .inr hn⟩, hc⟩

/-- C49: in a namespace, a program uses no other name than that of the namespace. -/
theorem C49_namespace {N : Set String} {n : String} (hn : '/' ∉ n.toList) {m : Synth F α} (h : UsesNames N m.run) :
    UsesNames {n} (Synth.inNs n m).run := by
  intro t r he
  have he : Exec (.push n (m.run.bind fun r => Circ.pop (.ret r))) t r := he
  cases he with
  | @push _ _ t _ he =>
  have key (t1 : List (Ev F)) (r1 : Option (Except SynthesisError α)) (h1 : Exec m.run t1 r1) :
      ([n] :: pathsOf [n] t1).Nodup ∧
      (∀ p ∈ [n] :: pathsOf [n] t1, (∃ n' rest, p = n' :: rest ∧ n' ∈ ({n} : Set String)) ∧ ∀ n ∈ p, '/' ∉ n.toList) ∧
      ∃ d, depthAfter 1 t1 = some d := by
    obtain ⟨g1, g2, ⟨d, g3⟩, -⟩ := h t1 r1 h1
    have e : pathsOf [n] t1 = (pathsOf [] t1).map ([n] ++ ·) := pathsOf_append (ns := [n]) (l := []) g3
    rw [e]
    refine ⟨List.nodup_cons.2 ⟨fun hm => ?_, g1.map fun _ _ h => List.append_cancel_left h⟩, fun p hp => ?_, 1 + d, depthAfter_add 1 g3⟩
    · obtain ⟨q, hq, e⟩ := List.mem_map.1 hm
      exact pathsOf_ne_nil hq (by simpa using e)
    · rcases List.mem_cons.1 hp with rfl | hp
      · exact ⟨⟨n, [], rfl, rfl⟩, by simpa using hn⟩
      · obtain ⟨q, hq, rfl⟩ := List.mem_map.1 hp
        refine ⟨⟨n, q, rfl, rfl⟩, fun x hx => ?_⟩
        rcases List.mem_cons.1 (show x ∈ n :: q from hx) with rfl | hx
        exacts [hn, (g2 q hq).2 x hx]
  rcases Exec.bind_inv he with ⟨h1, rfl⟩ | ⟨t1, t2, a, rfl, h1, h2⟩
  · obtain ⟨k1, k2, k3⟩ := key t none h1
    exact ⟨k1, k2, k3, fun h => absurd rfl h⟩
  · obtain ⟨k1, k2, -⟩ := key t1 _ h1
    cases h2 with
    | pop h2 =>
    cases h2
    have hd := depthAfter_add 1 ((h t1 _ h1).2.2.2 (by simp))
    have e : pathsOf [n] (t1 ++ [Ev.pop]) = pathsOf [n] t1 := by
      rw [pathsOf_trace_append]; simp [pathsOf]
    have e2 : depthAfter 1 (t1 ++ [Ev.pop]) = some 0 := depthAfter_append t1 [.pop] hd
    refine ⟨?_, ?_, ⟨0, e2⟩, fun _ => e2⟩ <;> simp only [pathsOf, List.nil_append, e]
    exacts [k1, k2]

/-! ### The test constraint system -/

theorem TestCS.Reachable.tree {s : TestCS F} (h : s.Reachable) : ∃ K, s.Tree K := by
  induction h with
  | new => exact ⟨_, .new⟩
  | run c h hr ih =>
    obtain ⟨K, hk⟩ := ih
    exact TestCS.Tree.run c h.wf hk hr
  | @set s s' p x h hs ih =>
    obtain ⟨K, hk⟩ := ih
    have e : s'.named = s.named ∧ s'.ns = s.ns := by
      by_cases hp : ∃ v, s.named.lookup p = some (.var v)
      · obtain ⟨v, hv⟩ := hp
        obtain ⟨s'', h1, -, h3⟩ := (TestCS.set_spec h.wf p x).1 v hv
        rw [h1] at hs
        cases hs
        tauto
      · push Not at hp
        rw [(TestCS.set_spec h.wf p x).2 hp] at hs
        cases hs
    exact ⟨K, hk.clean, hk.ne, by rw [e.1]; exact hk.named, hk.parent, by rw [e.2]; exact hk.ns⟩

/-- C49: a program with distinct names, none of which is in use in the current namespace: the test constraint system does not panic.  If
there is a panic, then it is one of the program itself. -/
theorem C49_no_name_panic {s : TestCS F} (hs : s.Reachable) {N : Set String} {c : Circ F α} (hu : UsesNames N c)
    (hN : ∀ n ∈ N, pathStr (s.ns ++ [n]) ∉ s.named.map (·.1)) (hp : c.run TestCS.impl s = none) :
    ∃ t, Honest c t none ∧ Numbered s.inputs.length s.aux.length t := by
  obtain ⟨K, hk⟩ := hs.tree
  exact TestCS.run_none c hs.wf (fun t r he => TestCS.fits_of_uses hs.wf hu
    (fun n hn rest hc => hk.fresh hs.wf (hN n hn) rest hc) he) hp

/-- C49: so a gadget can be called in any namespace that is not in use yet. -/
theorem C49_fresh_namespace {s : TestCS F} (hs : s.Reachable) {N : Set String} {m : Synth F α} (hu : UsesNames N m.run) {n : String}
    (hn : '/' ∉ n.toList) (hf : pathStr (s.ns ++ [n]) ∉ s.named.map (·.1)) (hp : (Synth.inNs n m).run.run TestCS.impl s = none) :
    ∃ t, Honest m.run t none ∧ Numbered s.inputs.length s.aux.length t := by
  obtain ⟨t, h1, h2⟩ := C49_no_name_panic hs (C49_namespace hn hu) (by rintro _ rfl; exact hf) hp
  have h1 : Honest (.push n (m.run.bind fun r => Circ.pop (.ret r))) t none := h1
  cases h1 with
  | @push _ _ t _ h1 =>
  rcases Honest.bind_inv h1 with ⟨h1, -⟩ | ⟨t1, t2, a, rfl, h1, h3⟩
  · exact ⟨t, h1, h2⟩
  · cases h3 with
    | pop h3 => cases h3

/-- C49, C04 and C43 together: **the unit tests of a gadget pass**.  Take a gadget that accepts honest values, mentions allocated variables
only and has distinct names; run it on a satisfied system with none of these names in use.  It returns a value with the promised property,
and the system is satisfied. -/
theorem C49_tests_pass {s : TestCS F} (hs : s.Reachable) (hsat : s.isSatisfied = some true) {N : Set String} {m : Synth F α}
    {Q : (Var → F) → α → Prop} (hu : UsesNames N m.run) (hN : ∀ n ∈ N, pathStr (s.ns ++ [n]) ∉ s.named.map (·.1))
    (hc : ∀ t r, Exec m.run t r → Numbered s.inputs.length s.aux.length t → Scoped s.inputs.length s.aux.length t)
    (hm : ∀ ρ, Extends (s.inputs.map (·.1)) (s.aux.map (·.1)) ρ → Complete ρ m (Q ρ)) :
    ∃ a s', m.run.run TestCS.impl s = some (.ok a, s') ∧ s'.isSatisfied = some true ∧ Q s'.rho a ∧ s'.ns = s.ns := by
  have hin : s.inputs.length = (s.inputs.map (·.1)).length := by simp
  have hau : s.aux.length = (s.aux.map (·.1)).length := by simp
  have hh {t r} (he : Honest m.run t r) (hn : Numbered s.inputs.length s.aux.length t) :
      let ρ := assign (s.inputs.map (·.1) ++ inVals t) (s.aux.map (·.1) ++ auxVals t)
      Extends (s.inputs.map (·.1)) (s.aux.map (·.1)) ρ ∧ Sat ρ t ∧ ∃ a, r = some (.ok a) ∧ Q ρ a := by
    intro ρ
    have hx : Extends (s.inputs.map (·.1)) (s.aux.map (·.1)) ρ := fun v hv => assign_append _ _ _ _ v hv
    have ha : Agrees ρ t := agrees_of_numbered (by rwa [← hin, ← hau]) he.allRun
    exact ⟨hx, hm ρ hx t r he ha⟩
  cases hr : m.run.run TestCS.impl s with
  | none =>
    obtain ⟨t, he, hn⟩ := C49_no_name_panic hs hu hN hr
    obtain ⟨-, -, a, ha, -⟩ := hh he hn
    cases ha
  | some p =>
    obtain ⟨r, s'⟩ := p
    obtain ⟨t, he, hrec⟩ := TestCS.run_recorded _ hs.wf hr
    have hrho : s'.rho = assign (s.inputs.map (·.1) ++ inVals t) (s.aux.map (·.1) ++ auxVals t) := by
      rw [TestCS.rho, hrec.inputs, hrec.aux]
    obtain ⟨hx, hsatt, a, ha, hq⟩ := hh he hrec.numbered
    cases ha
    refine ⟨a, s', rfl, ?_, by rw [hrho]; exact hq, ?_⟩
    · have hlen : s'.inputs.length = s.inputs.length + numIn t ∧ s'.aux.length = s.aux.length + numAux t := by
        have e1 := congrArg List.length hrec.inputs
        have e2 := congrArg List.length hrec.aux
        simp only [List.length_map, List.length_append, hrec.nIn, hrec.nAux] at e1 e2
        exact ⟨e1, e2⟩
      rw [C04_isSatisfied] at hsat ⊢
      rintro ⟨a, b, c, p⟩ hk
      rcases (hrec.mem_constraints (a, b, c)).1 ⟨p, hk⟩ with ⟨p', hk'⟩ | hk'
      · obtain ⟨⟨i1, i2, i3⟩, hold⟩ := hsat _ hk'
        have e {l : LC F} (hl : l.InRange s.inputs.length s.aux.length) : l.eval s'.rho = l.eval s.rho := by
          rw [hrho]
          refine LC.eval_congr' fun v hv => ?_
          obtain ⟨c, -, hm⟩ := hv
          exact assign_append _ _ _ _ v (by rw [← hin, ← hau]; exact hl _ hm)
        refine ⟨?_, ?_⟩
        · have mono {l : LC F} (hl : l.InRange s.inputs.length s.aux.length) :
              l.InRange (s.inputs.length + numIn t) (s.aux.length + numAux t) := fun x hx => by
            have h := hl x hx
            revert h
            cases x.1 <;> simp only [Var.InRange] <;> omega
          rw [TestCS.Evaluable, hlen.1, hlen.2]
          exact ⟨mono i1, mono i2, mono i3⟩
        · dsimp only at hold i1 i2 i3 ⊢
          rw [e i1, e i2, e i3]; exact hold
      · refine ⟨?_, ?_⟩
        · have h := (hc t _ he.exec hrec.numbered).consOf _ hk'
          rw [TestCS.Evaluable, hlen.1, hlen.2]
          exact ⟨fun x hx => h x (by simp [hx]), fun x hx => h x (by simp [hx]), fun x hx => h x (by simp [hx])⟩
        · rw [hrho]
          exact (Sat_iff_consOf ..).1 hsatt _ hk'
    · obtain ⟨-, -, -, hd⟩ := hu t _ he.exec
      have hd := hd (Option.some_ne_none _)
      have := nsAfter_append t (ns := s.ns) (l := []) hd
      rw [List.append_nil] at this
      rw [hrec.ns, this, List.length_eq_zero_iff.1 (nsAfter_length t (ns := []) hd), List.append_nil]

/-! ### Instances -/

section Example

/-- A reachable system with one name in use: the bit `a` has been allocated in a namespace. -/
private def oneBit : Synth DummyFr AllocatedBit := Synth.inNs "a" (AllocatedBit.alloc (some true))

private def oneBitState : TestCS DummyFr := ((oneBit.run.run TestCS.impl .new).map (·.2)).getD .new

private theorem oneBitState_reachable : oneBitState.Reachable := by
  unfold oneBitState
  cases h : oneBit.run.run TestCS.impl .new with
  | none => exact .new
  | some p => exact .run oneBit.run .new h

private theorem oneBitState_named : oneBitState.named.map (·.1) = ["a/boolean constraint", "a/boolean", "a", "ONE"] := by decide +kernel

/-- The names are needed: without a namespace, a second allocation panics, though no gadget does. -/
example : (do let _ ← AllocatedBit.alloc (some true); AllocatedBit.alloc (some false) : Synth DummyFr _).run.run TestCS.impl .new = none := by
  decide +kernel

/-- Also a second namespace of the same name. -/
example : oneBit.run.run TestCS.impl oneBitState = none := by decide +kernel

/-- Allocating a second bit in a namespace `b` of the state above: `C49_tests_pass` applies. -/
example : ∃ a s', (Synth.inNs "b" (AllocatedBit.alloc (F := DummyFr) (some false))).run.run TestCS.impl oneBitState = some (.ok a, s') ∧
    s'.isSatisfied = some true ∧ a.Bit s'.rho false ∧ s'.ns = oneBitState.ns := by
  have hns : oneBitState.ns = [] := by decide +kernel
  have hin : oneBitState.inputs.map (·.1) = [1] := by decide +kernel
  refine C49_tests_pass (Q := fun ρ a => a.Bit ρ false) oneBitState_reachable (by decide +kernel)
    (C49_namespace (n := "b") (by decide) (C49_bits (some false) ⟨.one, none⟩ ⟨.one, none⟩).1) ?_ ?_ ?_
  · rintro _ rfl
    rw [hns, oneBitState_named]
    decide +kernel
  · intro t r he hn
    exact ((SLocal.inNs "b" (AllocatedBit.slocal_alloc (by decide +kernel) (some false))).closed t r he hn).1
  · intro ρ hx
    rw [hin] at hx
    refine Synth.wpC_sound ((Synth.wpC_inNs ..).2 (Synth.wpC_mono (AllocatedBit.wpC_alloc hx.one false) fun a h => ?_))
    exact h.2

/-- The circuits of `C49_examples`, run on a new system: the names are not in use. -/
example (n : String) (h : n ≠ "ONE") : pathStr ((TestCS.new : TestCS F).ns ++ [n]) ∉ (TestCS.new : TestCS F).named.map (·.1) := by
  have e : pathStr ([] ++ [n]) = n := by
    have : pathStr [n] = n := by
      rw [← String.toList_inj, pathStr, String.toList_ofList]
      simp [pathChars_cons]
    exact this
  simp only [TestCS.new, List.map_cons, List.map_nil, List.mem_singleton]
  rwa [e]

end Example

end Bellman
