import Verif.Names
import Verif.Gadgets.Lookup
import Verif.Gadgets.Multipack

/-!
# The names used by the gadgets on bits and numbers
-/

namespace Bellman

open PrimeField

set_option linter.unusedSectionVars false

variable {F : Type} [PrimeField F]

theorem snames_allocCapture {n : String} (hn : Clean n) (fb : Except SynthesisError Bool) :
    SNames {n} (allocCapture n fb : Synth F _) :=
  SNamesP.map (SNamesP.alloc hn _) fun _ _ => SNamesP.pure trivial

/-- One allocation, one constraint. -/
theorem snames_two {α β : Type} {n n' : String} {m : Synth F α} {a b c : α → LC F → LC F} {g : α → β} (hm : SNames {n} m)
    (hn' : Clean n') (h : n ≠ n') : SNames {n, n'} (do let r ← m; Synth.enforce n' (a r) (b r) (c r); pure (g r) : Synth F β) :=
  SNamesP.seq hm (by simpa using h) fun _ _ => SNamesP.map (SNamesP.enforce hn') fun _ _ => SNamesP.pure trivial

namespace AllocatedBit

theorem snames_alloc (v : Option Bool) : SNames {"boolean", "boolean constraint"} (alloc v : Synth F _) :=
  snames_two (SNamesP.alloc (by clean) _) (by clean) (by decide)

theorem snames_allocConditionally (v : Option Bool) (b : AllocatedBit) :
    SNames {"boolean", "boolean constraint"} (allocConditionally v b : Synth F _) :=
  snames_two (SNamesP.alloc (by clean) _) (by clean) (by decide)

variable (a b : AllocatedBit)

theorem snames_xor : SNames {"xor result", "xor constraint"} (xor a b : Synth F _) :=
  snames_two (snames_allocCapture (by clean) _) (by clean) (by decide)

theorem snames_and : SNames {"and result", "and constraint"} (and a b : Synth F _) :=
  snames_two (snames_allocCapture (by clean) _) (by clean) (by decide)

theorem snames_andNot : SNames {"and not result", "and not constraint"} (andNot a b : Synth F _) :=
  snames_two (snames_allocCapture (by clean) _) (by clean) (by decide)

theorem snames_nor : SNames {"nor result", "nor constraint"} (nor a b : Synth F _) :=
  snames_two (snames_allocCapture (by clean) _) (by clean) (by decide)

end AllocatedBit

/-- The step of a loop over numbered names. -/
theorem insert_idx_subset (p : String) (i : ℕ) : insert (p ++ toString i) (idx p {j | i + 1 ≤ j}) ⊆ idx p {j | i ≤ j} := by
  rintro _ (rfl | ⟨j, hj, rfl⟩)
  · exact mem_idx (le_refl i)
  · exact mem_idx ((Nat.le_succ i).trans hj)

theorem succ_not_mem (p : String) (i : ℕ) : p ++ toString i ∉ idx p {j | i + 1 ≤ j} := not_mem_idx (by simp)

theorem snames_allocBits (i : ℕ) (vs : List (Option Bool)) : SNames (idx "bit " {j | i ≤ j}) (allocBits i vs : Synth F _) := by
  induction vs generalizing i with
  | nil => exact SNamesP.pure trivial
  | cons v vs ih =>
    refine SNamesP.weaken (SNamesP.seq (SNamesP.inNs (clean_idx (by clean) i) (AllocatedBit.snames_alloc v)) (succ_not_mem "bit " i)
      fun x _ => SNamesP.map (ih (i + 1)) fun _ _ => SNamesP.pure trivial) (insert_idx_subset _ i)

theorem snames_u64IntoBooleanVecLe (v : Option (BitVec 64)) :
    SNames (idx "bit " {j | 0 ≤ j}) (u64IntoBooleanVecLe v : Synth F _) :=
  SNamesP.map (snames_allocBits _ _) fun _ _ => SNamesP.pure trivial

section K
variable {K : Type} [PrimeField K]

theorem snames_fieldIntoAllocatedBitsLe (v : Option K) :
    SNames (idx "bit " {j | 0 ≤ j}) (fieldIntoAllocatedBitsLe v : Synth F _) := by
  unfold fieldIntoAllocatedBitsLe
  split
  · dsimp only
    split
    · exact snames_allocBits _ _
    · exact SNamesP.panic
  · exact snames_allocBits _ _

theorem snames_fieldIntoBooleanVecLe (v : Option K) : SNames (idx "bit " {j | 0 ≤ j}) (fieldIntoBooleanVecLe v : Synth F _) :=
  SNamesP.map (snames_fieldIntoAllocatedBitsLe v) fun _ _ => SNamesP.pure trivial

end K

namespace Boolean

variable (a b c : Boolean)

theorem snames_enforceEqual :
    SNames {"enforce equal to one", "enforce equal to zero", "enforce equal"} (enforceEqual a b : Synth F _) := by
  unfold enforceEqual
  split
  · split
    · exact SNamesP.pure trivial
    · exact SNamesP.throw
  all_goals
    exact SNamesP.weaken (SNamesP.enforce (by clean)) (by simp)

theorem snames_xor : SNames {"xor result", "xor constraint"} (xor a b : Synth F _) := by
  unfold xor
  split <;> first
    | exact SNamesP.pure trivial
    | exact SNamesP.map (AllocatedBit.snames_xor _ _) fun _ _ => SNamesP.pure trivial

/-- The names of `Boolean::and`. -/
def andNames : Set String := {"and result", "and constraint", "and not result", "and not constraint", "nor result", "nor constraint"}

theorem snames_and : SNames andNames (and a b : Synth F _) := by
  have h1 (i n) : SNames andNames (AllocatedBit.andNot i n : Synth F _) :=
    (AllocatedBit.snames_andNot i n).weaken (by rintro x (rfl | rfl) <;> simp [andNames])
  have h2 (i n) : SNames andNames (AllocatedBit.nor i n : Synth F _) :=
    (AllocatedBit.snames_nor i n).weaken (by rintro x (rfl | rfl) <;> simp [andNames])
  have h3 (i n) : SNames andNames (AllocatedBit.and i n : Synth F _) :=
    (AllocatedBit.snames_and i n).weaken (by rintro x (rfl | rfl) <;> simp [andNames])
  unfold and
  split
  · exact SNamesP.pure trivial
  · exact SNamesP.pure trivial
  · exact SNamesP.pure trivial
  · exact SNamesP.pure trivial
  · exact SNamesP.map (h1 _ _) fun _ _ => SNamesP.pure trivial
  · exact SNamesP.map (h1 _ _) fun _ _ => SNamesP.pure trivial
  · exact SNamesP.map (h2 _ _) fun _ _ => SNamesP.pure trivial
  · exact SNamesP.map (h3 _ _) fun _ _ => SNamesP.pure trivial

theorem snames_chAlloc : SNames {"ch", "ch computation"} (chAlloc a b c : Synth F _) :=
  snames_two (SNamesP.alloc (by clean) _) (by clean) (by decide)

/-- The names of `Boolean::sha256_ch`. -/
def chNames : Set String := andNames ∪ {"ch", "ch computation"}

theorem snames_sha256Ch : SNames chNames (sha256Ch a b c : Synth F _) := by
  have h1 (a b) : SNames chNames (and a b : Synth F _) := (snames_and a b).weaken Set.subset_union_left
  have h2 (a b c) : SNames chNames (chAlloc a b c : Synth F _) := (snames_chAlloc a b c).weaken Set.subset_union_right
  unfold sha256Ch
  split
  · exact SNamesP.pure trivial
  · exact SNamesP.pure trivial
  · exact h1 _ _
  · exact h1 _ _
  · exact SNamesP.map (h1 _ _) fun _ _ => SNamesP.pure trivial
  · exact SNamesP.map (h1 _ _) fun _ _ => SNamesP.pure trivial
  · exact h2 _ _ _
  · exact h2 _ _ _

theorem snames_majAlloc : SNames {"maj", "b and c", "maj computation"} (majAlloc a b c : Synth F _) :=
  SNamesP.seq (SNamesP.alloc (by clean) _) (by simp) fun _ _ =>
    SNamesP.seq (SNamesP.inNs (by clean) (snames_and _ _)) (by simp) fun _ _ =>
      SNamesP.map (SNamesP.enforce (by clean)) fun _ _ => SNamesP.pure trivial

/-- The names of `Boolean::sha256_maj`. -/
def majNames : Set String := andNames ∪ {"maj", "b and c", "maj computation"}

theorem snames_sha256Maj : SNames majNames (sha256Maj a b c : Synth F _) := by
  have h1 (a b) : SNames majNames (and a b : Synth F _) := (snames_and a b).weaken Set.subset_union_left
  have h2 (a b c) : SNames majNames (majAlloc a b c : Synth F _) := (snames_majAlloc a b c).weaken Set.subset_union_right
  unfold sha256Maj
  split
  · exact SNamesP.pure trivial
  · exact h1 _ _
  · exact h1 _ _
  · exact h1 _ _
  · exact SNamesP.map (h1 _ _) fun _ _ => SNamesP.pure trivial
  · exact SNamesP.map (h1 _ _) fun _ _ => SNamesP.pure trivial
  · exact SNamesP.map (h1 _ _) fun _ _ => SNamesP.pure trivial
  · exact h2 _ _ _

end Boolean

namespace AllocatedNum

theorem snames_alloc (v : Except SynthesisError F) : SNames {"num"} (alloc v) :=
  SNamesP.map (SNamesP.alloc (by clean) _) fun _ _ => SNamesP.pure trivial

theorem snames_inputize (a : AllocatedNum F) : SNames {"input variable", "enforce input is correct"} (inputize a) :=
  SNamesP.seq (SNamesP.allocInput (by clean) _) (by simp) fun _ _ => SNamesP.enforce (by clean)

theorem snames_karyAndLoop (cur : AllocatedBit) (i : ℕ) (l : List AllocatedBit) :
    SNames (idx "and " {j | i ≤ j}) (karyAndLoop cur i l : Synth F _) := by
  induction l generalizing cur i with
  | nil => exact SNamesP.pure trivial
  | cons v vs ih =>
    exact SNamesP.weaken (SNamesP.seq (SNamesP.inNs (clean_idx (by clean) i) (AllocatedBit.snames_and _ _)) (succ_not_mem "and " i)
      fun x _ => ih _ (i + 1)) (insert_idx_subset _ i)

theorem snames_karyAnd (l : List AllocatedBit) : SNames (idx "and " {j | 1 ≤ j}) (karyAnd l : Synth F _) := by
  cases l with
  | nil => exact SNamesP.panic
  | cons v vs => exact snames_karyAndLoop _ _ _

/-- The names of the strict bit decomposition, from a bit on. -/
def strictNames (i : ℕ) : Set String := idx "bit " {j | i ≤ j} ∪ idx "run ending at " {j | i ≤ j}

/-- The names of one step of the strict bit decomposition. -/
def strictStepNames (i : ℕ) : Set String := {"run ending at " ++ toString i, "bit " ++ toString i}

theorem snames_strictStep (a : Option Bool) (b : Bool) (st : StrictSt) :
    SNamesP (strictStepNames st.i) (fun st' => st'.i = st.i + 1) (strictStep a b st : Synth F _) := by
  unfold strictStep
  split
  · refine SNamesP.mono (SNamesP.map (Q := fun st' : StrictSt => st'.i = st.i + 1) (SNamesP.inNs (clean_idx (by clean) st.i)
      (AllocatedBit.snames_alloc a)) fun _ _ => SNamesP.pure rfl) ?_ fun _ h => h
    rintro _ rfl
    exact .inr rfl
  · refine SNamesP.seq (P := fun st' : StrictSt => st'.i = st.i) (n := "run ending at " ++ toString st.i) ?_ ?_ fun st' hst => ?_
    · split
      · exact SNamesP.pure rfl
      · exact SNamesP.map (SNamesP.inNs (clean_idx (by clean) st.i) (snames_karyAnd _)) fun _ _ => SNamesP.pure rfl
    · rw [Set.mem_singleton_iff]
      exact fun h => absurd (congrArg base h) (by simp only [base_append, base_toString]; decide)
    · split
      · exact SNamesP.panic
      · rw [← hst]
        exact SNamesP.map (SNamesP.inNs (clean_idx (by clean) st'.i) (AllocatedBit.snames_allocConditionally _ _))
          fun _ _ => SNamesP.pure rfl

theorem snames_strictLoop (l : List (Option Bool × Bool)) (st : StrictSt) :
    SNames (strictNames st.i) (strictLoop l st : Synth F _) := by
  induction l generalizing st with
  | nil => exact SNamesP.pure trivial
  | cons p rest ih =>
    obtain ⟨a, b⟩ := p
    unfold strictLoop
    dsimp only
    split
    · refine SNamesP.weaken (SNamesP.bind (N' := strictNames (st.i + 1)) (snames_strictStep a b _) ?_ fun st' hst => ?_) ?_
      · show Disjoint {"run ending at " ++ toString st.i, "bit " ++ toString st.i} (strictNames (st.i + 1))
        unfold strictNames
        simp only [Set.disjoint_insert_left, Set.disjoint_singleton_left, Set.mem_union, not_or]
        refine ⟨⟨?_, succ_not_mem _ _⟩, succ_not_mem _ _, ?_⟩
        · exact not_mem_idx_base (by simp only [base_append, base_toString]; decide)
        · exact not_mem_idx_base (by simp only [base_append, base_toString]; decide)
      · have := ih st'
        rw [show st'.i = st.i + 1 from hst] at this
        exact this
      · rintro x ((rfl | rfl) | (h | h))
        · exact .inr (mem_idx (le_refl st.i))
        · exact .inl (mem_idx (le_refl st.i))
        · exact .inl (idx_mono (fun j hj => (Nat.le_succ st.i).trans hj) h)
        · exact .inr (idx_mono (fun j hj => (Nat.le_succ st.i).trans hj) h)
    · split
      · exact SNamesP.panic
      · exact ih { st with foundOne := st.foundOne || b }

/-- The names of the strict bit decomposition. -/
def toBitsNames : Set String := strictNames 0 ∪ {"unpacking constraint"}

theorem snames_toBitsLeStrict (a : AllocatedNum F) : SNames toBitsNames (toBitsLeStrict a) := by
  refine SNamesP.bind (snames_strictLoop _ ⟨[], none, [], false, 0⟩) ?_ fun st _ => ?_
  · unfold strictNames
    rw [Set.disjoint_singleton_right]
    fresh
  · dsimp only
    split
    · exact SNamesP.map (SNamesP.enforce (by clean)) fun _ _ => SNamesP.pure trivial
    · exact SNamesP.panic

theorem snames_toBitsLe (a : AllocatedNum F) : SNames (idx "bit " {j | 0 ≤ j} ∪ {"unpacking constraint"}) (toBitsLe a) := by
  refine SNamesP.bind (snames_fieldIntoAllocatedBitsLe _) ?_ fun _ _ => SNamesP.map (SNamesP.enforce (by clean)) fun _ _ => SNamesP.pure trivial
  rw [Set.disjoint_singleton_right]
  fresh

variable (a b : AllocatedNum F) (c : Boolean)

theorem snames_mul : SNames {"product num", "multiplication constraint"} (mul a b) :=
  snames_two (SNamesP.alloc (by clean) _) (by clean) (by decide)

theorem snames_square : SNames {"squared num", "squaring constraint"} (square a) :=
  snames_two (SNamesP.alloc (by clean) _) (by clean) (by decide)

theorem snames_assertNonzero : SNames {"ephemeral inverse", "nonzero assertion constraint"} (assertNonzero a) :=
  SNamesP.seq (SNamesP.alloc (by clean) _) (by simp) fun _ _ => SNamesP.enforce (by clean)

theorem snames_conditionallyReverse : SNames {"conditional reversal result 1", "first conditional reversal",
    "conditional reversal result 2", "second conditional reversal"} (conditionallyReverse a b c) :=
  SNamesP.seq (SNamesP.inNs (by clean) (snames_alloc _)) (by simp) fun _ _ =>
    SNamesP.seq (SNamesP.enforce (by clean)) (by simp) fun _ _ =>
      SNamesP.seq (SNamesP.inNs (by clean) (snames_alloc _)) (by simp) fun _ _ =>
        SNamesP.map (SNamesP.enforce (by clean)) fun _ _ => SNamesP.pure trivial

end AllocatedNum

theorem snames_lookup3xy (bits : List Boolean) (coords : List (F × F)) :
    SNames {"x", "y", "precomp", "x-coordinate lookup", "y-coordinate lookup"} (lookup3xy bits coords) := by
  unfold lookup3xy
  split
  · split
    · refine SNamesP.seq (SNamesP.inNs (by clean) (AllocatedNum.snames_alloc _)) (by simp) fun x _ => ?_
      refine SNamesP.seq (SNamesP.inNs (by clean) (AllocatedNum.snames_alloc _)) (by simp) fun y _ => ?_
      split
      · refine SNamesP.seq (SNamesP.inNs (by clean) (Boolean.snames_and _ _)) (by simp) fun p _ => ?_
        refine SNamesP.seq (SNamesP.enforce (by clean)) (by simp) fun _ _ => ?_
        exact SNamesP.map (SNamesP.enforce (by clean)) fun _ _ => SNamesP.pure trivial
      · exact SNamesP.panic
    · exact SNamesP.panic
  · exact SNamesP.panic

theorem snames_lookup3xyWithConditionalNegation (bits : List Boolean) (coords : List (F × F)) :
    SNames {"y", "precomp", "y-coordinate lookup"} (lookup3xyWithConditionalNegation bits coords) := by
  unfold lookup3xyWithConditionalNegation
  split
  · split
    · refine SNamesP.seq (SNamesP.inNs (by clean) (AllocatedNum.snames_alloc _)) (by simp) fun y _ => ?_
      split
      · refine SNamesP.seq (SNamesP.inNs (by clean) (Boolean.snames_and _ _)) (by simp) fun p _ => ?_
        exact SNamesP.map (SNamesP.enforce (by clean)) fun _ _ => SNamesP.pure trivial
      · exact SNamesP.panic
    · exact SNamesP.panic
  · exact SNamesP.panic

/-- The names of `pack_into_inputs`, from a chunk on. -/
def packNames (i : ℕ) : Set String := idx "input " {j | i ≤ j} ∪ idx "packing constraint " {j | i ≤ j}

theorem snames_packChunks (i : ℕ) (l : List (List Boolean)) : SNames (packNames i) (packChunks i l : Synth F Unit) := by
  induction l generalizing i with
  | nil => exact SNamesP.pure trivial
  | cons bits rest ih =>
    refine SNamesP.weaken (SNamesP.seq (SNamesP.allocInput (clean_idx (p := "input ") (by clean) i) _) ?_ fun x _ =>
      SNamesP.seq (SNamesP.enforce (clean_idx (p := "packing constraint ") (by clean) i)) ?_ fun _ _ => ih (i + 1)) ?_
    · unfold packNames
      simp only [Set.mem_insert_iff, Set.mem_union, not_or]
      refine ⟨?_, succ_not_mem _ _, ?_⟩
      · exact fun h => absurd (congrArg base h) (by simp only [base_append, base_toString]; decide)
      · exact not_mem_idx_base (by simp only [base_append, base_toString]; decide)
    · unfold packNames
      simp only [Set.mem_union, not_or]
      refine ⟨?_, succ_not_mem _ _⟩
      exact not_mem_idx_base (by simp only [base_append, base_toString]; decide)
    · rintro x (rfl | rfl | h | h)
      · exact .inl (mem_idx (le_refl i))
      · exact .inr (mem_idx (le_refl i))
      · exact .inl (idx_mono (fun j hj => (Nat.le_succ i).trans hj) h)
      · exact .inr (idx_mono (fun j hj => (Nat.le_succ i).trans hj) h)

theorem snames_packIntoInputs (bits : List Boolean) : SNames (packNames 0) (packIntoInputs bits : Synth F Unit) := by
  unfold packIntoInputs
  split
  · exact SNamesP.panic
  · exact snames_packChunks _ _

end Bellman
