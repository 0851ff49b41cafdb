import Verif.Scope

/-!
# The variables used by the boolean gadgets
-/

namespace Bellman

open PrimeField

set_option linter.unusedSectionVars false

variable {F : Type} [PrimeField F] {n k : ℕ}

theorem slocal_allocCapture (s : String) (fb : Except SynthesisError Bool) : SLocal n k (allocCapture s fb : Synth F _) := by
  refine SLocal.bind (SLocal.alloc _ _) fun k' r hk hr => SLocal.pure ⟨hr.1, trivial⟩

namespace AllocatedBit

theorem slocal_alloc (hn : 0 < n) (v : Option Bool) : SLocal n k (alloc v : Synth F _) := by
  refine SLocal.bind (SLocal.alloc _ _) fun k1 r h1 hr => ?_
  refine SLocal.bind (SLocal.enforce _ ?_ ?_ ?_) fun k2 _ h2 _ => SLocal.pure (Known.lift hr.1 h2) <;> known

theorem slocal_allocConditionally (hn : 0 < n) (v : Option Bool) {b : AllocatedBit} (hb : Known n k b) :
    SLocal n k (allocConditionally v b : Synth F _) := by
  refine SLocal.bind (SLocal.alloc _ _) fun k1 r h1 hr => ?_
  refine SLocal.bind (SLocal.enforce _ ?_ ?_ ?_) fun k2 _ h2 _ => SLocal.pure (Known.lift hr.1 h2) <;> known

variable {a b : AllocatedBit}

theorem slocal_xor (ha : Known n k a) (hb : Known n k b) : SLocal n k (xor a b : Synth F _) := by
  refine SLocal.bind (slocal_allocCapture _ _) fun k1 r h1 hr => ?_
  refine SLocal.bind (SLocal.enforce _ ?_ ?_ ?_) fun k2 _ h2 _ => SLocal.pure (Known.lift hr.1 h2) <;> known

theorem slocal_and (ha : Known n k a) (hb : Known n k b) : SLocal n k (and a b : Synth F _) := by
  refine SLocal.bind (slocal_allocCapture _ _) fun k1 r h1 hr => ?_
  refine SLocal.bind (SLocal.enforce _ ?_ ?_ ?_) fun k2 _ h2 _ => SLocal.pure (Known.lift hr.1 h2) <;> known

theorem slocal_andNot (hn : 0 < n) (ha : Known n k a) (hb : Known n k b) : SLocal n k (andNot a b : Synth F _) := by
  refine SLocal.bind (slocal_allocCapture _ _) fun k1 r h1 hr => ?_
  refine SLocal.bind (SLocal.enforce _ ?_ ?_ ?_) fun k2 _ h2 _ => SLocal.pure (Known.lift hr.1 h2) <;> known

theorem slocal_nor (hn : 0 < n) (ha : Known n k a) (hb : Known n k b) : SLocal n k (nor a b : Synth F _) := by
  refine SLocal.bind (slocal_allocCapture _ _) fun k1 r h1 hr => ?_
  refine SLocal.bind (SLocal.enforce _ ?_ ?_ ?_) fun k2 _ h2 _ => SLocal.pure (Known.lift hr.1 h2) <;> known

end AllocatedBit

theorem slocal_allocBits (hn : 0 < n) (i : ℕ) (vs : List (Option Bool)) : SLocal n k (allocBits i vs : Synth F _) := by
  induction vs generalizing i k with
  | nil => exact SLocal.pure known_list_nil
  | cons v vs ih =>
    refine SLocal.bind (SLocal.inNs _ (AllocatedBit.slocal_alloc hn v)) fun k1 x h1 hx => ?_
    refine SLocal.bind (ih (i + 1)) fun k2 xs h2 hxs => SLocal.pure ?_
    known

theorem known_map_is {l : List AllocatedBit} (h : Known n k l) : Known n k (l.map Boolean.is) := by
  intro x hx
  obtain ⟨a, ha, rfl⟩ := List.mem_map.1 hx
  exact h a ha

theorem slocal_u64IntoBooleanVecLe (hn : 0 < n) (v : Option (BitVec 64)) : SLocal n k (u64IntoBooleanVecLe v : Synth F _) :=
  SLocal.bind (slocal_allocBits hn _ _) fun _ _ _ h => SLocal.pure (known_map_is h)

section K
variable {K : Type} [PrimeField K]

theorem slocal_fieldIntoAllocatedBitsLe (hn : 0 < n) (v : Option K) :
    SLocal n k (fieldIntoAllocatedBitsLe v : Synth F _) := by
  unfold fieldIntoAllocatedBitsLe
  split
  · dsimp only
    split
    · exact slocal_allocBits hn _ _
    · exact SLocal.panic
  · exact slocal_allocBits hn _ _

theorem slocal_fieldIntoBooleanVecLe (hn : 0 < n) (v : Option K) : SLocal n k (fieldIntoBooleanVecLe v : Synth F _) :=
  SLocal.bind (slocal_fieldIntoAllocatedBitsLe hn v) fun _ _ _ h => SLocal.pure (known_map_is h)

end K

namespace Boolean

variable {a b c : Boolean}

theorem slocal_enforceEqual (hn : 0 < n) (ha : Known n k a) (hb : Known n k b) : SLocal n k (enforceEqual a b : Synth F _) := by
  unfold enforceEqual
  split
  · split
    · exact SLocal.pure trivial
    · exact SLocal.throw
  all_goals
    refine SLocal.enforce _ ?_ ?_ ?_ <;> known

theorem slocal_xor (ha : Known n k a) (hb : Known n k b) : SLocal n k (xor a b : Synth F _) := by
  unfold xor
  split <;> first
    | exact SLocal.pure (by known)
    | (refine SLocal.bind (AllocatedBit.slocal_xor ?_ ?_) fun k' r hk hr => SLocal.pure hr <;> assumption)

theorem slocal_and (hn : 0 < n) (ha : Known n k a) (hb : Known n k b) : SLocal n k (and a b : Synth F _) := by
  unfold and
  split <;> first
    | exact SLocal.pure (by known)
    | (refine SLocal.bind (AllocatedBit.slocal_andNot hn ?_ ?_) fun k' r hk hr => SLocal.pure hr <;> assumption)
    | (refine SLocal.bind (AllocatedBit.slocal_nor hn ?_ ?_) fun k' r hk hr => SLocal.pure hr <;> assumption)
    | (refine SLocal.bind (AllocatedBit.slocal_and ?_ ?_) fun k' r hk hr => SLocal.pure hr <;> assumption)

theorem slocal_chAlloc (hn : 0 < n) (ha : Known n k a) (hb : Known n k b) (hc : Known n k c) :
    SLocal n k (chAlloc a b c : Synth F _) := by
  refine SLocal.bind (SLocal.alloc _ _) fun k1 r h1 hr => ?_
  refine SLocal.bind (SLocal.enforce _ ?_ ?_ ?_) fun k2 _ h2 _ => SLocal.pure (Known.lift hr.1 h2) <;> known

theorem slocal_sha256Ch (hn : 0 < n) (ha : Known n k a) (hb : Known n k b) (hc : Known n k c) :
    SLocal n k (sha256Ch a b c : Synth F _) := by
  unfold sha256Ch
  split
  · exact SLocal.pure trivial
  · exact SLocal.pure (by known)
  · exact slocal_and hn (by known) (by known)
  · exact slocal_and hn (by known) (by known)
  · exact SLocal.bind (slocal_and hn (by known) (by known)) fun _ r _ hr => SLocal.pure (known_neg hr)
  · exact SLocal.bind (slocal_and hn (by known) (by known)) fun _ r _ hr => SLocal.pure (known_neg hr)
  · exact slocal_chAlloc hn (by known) (by known) (by known)
  · exact slocal_chAlloc hn (by known) (by known) (by known)

theorem slocal_majAlloc (hn : 0 < n) (ha : Known n k a) (hb : Known n k b) (hc : Known n k c) :
    SLocal n k (majAlloc a b c : Synth F _) := by
  refine SLocal.bind (SLocal.alloc _ _) fun k1 r h1 hr => ?_
  refine SLocal.bind (SLocal.inNs _ (slocal_and hn (Known.lift hb h1) (Known.lift hc h1))) fun k2 bc h2 hbc => ?_
  have hr := hr.1
  refine SLocal.bind (SLocal.enforce _ ?_ ?_ ?_) fun k3 _ h3 _ => SLocal.pure (Known.lift hr (by omega : k1 ≤ k3)) <;> known

theorem slocal_sha256Maj (hn : 0 < n) (ha : Known n k a) (hb : Known n k b) (hc : Known n k c) :
    SLocal n k (sha256Maj a b c : Synth F _) := by
  unfold sha256Maj
  split
  · exact SLocal.pure trivial
  · exact slocal_and hn (by known) (by known)
  · exact slocal_and hn (by known) (by known)
  · exact slocal_and hn (by known) (by known)
  · exact SLocal.bind (slocal_and hn (by known) (by known)) fun _ r _ hr => SLocal.pure (known_neg hr)
  · exact SLocal.bind (slocal_and hn (by known) (by known)) fun _ r _ hr => SLocal.pure (known_neg hr)
  · exact SLocal.bind (slocal_and hn (by known) (by known)) fun _ r _ hr => SLocal.pure (known_neg hr)
  · exact slocal_majAlloc hn (by known) (by known) (by known)

end Boolean

end Bellman
