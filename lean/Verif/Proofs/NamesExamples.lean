import Verif.Proofs.NamesHash
import Verif.Examples.Preimage
import Verif.Examples.Mimc

/-!
# The names of the example circuits
-/

namespace Bellman

set_option linter.unusedSectionVars false

variable {F : Type} [PrimeField F]

namespace Preimage

theorem snames_allocPreimage (i : ℕ) (l : List (Option Bool)) :
    SNames (idx "preimage bit " {j | i ≤ j}) (allocPreimage i l : Synth F _) := by
  induction l generalizing i with
  | nil => exact SNamesP.pure trivial
  | cons b bs ih =>
    exact SNamesP.weaken (SNamesP.seq (SNamesP.inNs (clean_idx (p := "preimage bit ") (by clean) i) (AllocatedBit.snames_alloc b))
      (succ_not_mem _ i) fun _ _ => SNamesP.map (ih (i + 1)) fun _ _ => SNamesP.pure trivial) (insert_idx_subset _ i)

theorem snames_sha256d (data : List Boolean) : SNames {"SHA-256(input)", "SHA-256(mid)"} (sha256d data : Synth F _) := by
  refine SNamesP.seq (SNamesP.inNs (by clean) (Sha256.snames_sha256 _)) (by simp) fun _ _ => ?_
  exact SNamesP.map (SNamesP.inNs (by clean) (Sha256.snames_sha256 _)) fun _ _ => SNamesP.pure trivial

theorem snames_synthesize (c : MyCircuit) :
    SNames (idx "preimage bit " {j | 0 ≤ j} ∪ {"SHA-256d(preimage)", "pack hash"}) (c.synthesize : Synth F Unit) := by
  unfold MyCircuit.synthesize
  dsimp only
  split
  · refine SNamesP.bind (P := fun _ => True) (snames_allocPreimage 0 _) ?_ fun _ _ => ?_
    · simp only [Set.disjoint_insert_right, Set.disjoint_singleton_right]
      exact ⟨not_mem_idx_base (by decide), not_mem_idx_base (by decide)⟩
    · refine SNamesP.seq (SNamesP.inNs (by clean) (snames_sha256d _)) (by simp) fun _ _ => ?_
      exact SNamesP.inNs (by clean) (snames_packIntoInputs _)
  · exact SNamesP.panic

end Preimage

namespace Mimc

theorem snames_newXlValue (c : F) (st : State F) (t : Option F) : SNames ∅ (newXlValue c st t) := by
  unfold newXlValue
  repeat' split
  all_goals first | exact SNamesP.pure trivial | exact SNamesP.panic

theorem snames_round (i : ℕ) (c : F) (st : State F) : SNames {"round " ++ toString i} (round i c st) := by
  refine SNamesP.inNs (N := {"tmp", "tmp = (xL + Ci)^2"} ∪ ({"image", "new_xl"} ∪ {"new_xL = xR + (xL + Ci)^3"})) (clean_idx (p := "round ") (by clean) i) ?_
  refine SNamesP.weaken (N := {"tmp", "tmp = (xL + Ci)^2", "image", "new_xl", "new_xL = xR + (xL + Ci)^3"}) ?_ ?_
  · refine SNamesP.seq (SNamesP.alloc (by clean) _) (by simp) fun tmp _ => ?_
    refine SNamesP.seq (SNamesP.enforce (by clean)) (by simp) fun _ _ => ?_
    refine SNamesP.weaken (SNamesP.bind (P := fun _ => True) (N := ∅) (snames_newXlValue _ _ _) (by simp) fun v _ => ?_) (Set.union_subset (Set.empty_subset _) le_rfl)
    dsimp only
    split
    · refine SNamesP.weaken (SNamesP.seq (N := {"new_xL = xR + (xL + Ci)^3"}) (SNamesP.allocInput (by clean) _) (by simp) fun _ _ => ?_) ?_
      · exact SNamesP.map (SNamesP.enforce (by clean)) fun _ _ => SNamesP.pure trivial
      · intro x hx; simp only [Set.mem_insert_iff, Set.mem_singleton_iff] at hx ⊢; tauto
    · refine SNamesP.weaken (SNamesP.seq (N := {"new_xL = xR + (xL + Ci)^3"}) (SNamesP.alloc (by clean) _) (by simp) fun _ _ => ?_) ?_
      · exact SNamesP.map (SNamesP.enforce (by clean)) fun _ _ => SNamesP.pure trivial
      · intro x hx; simp only [Set.mem_insert_iff, Set.mem_singleton_iff] at hx ⊢; tauto
  · intro x hx; simp only [Set.mem_union, Set.mem_insert_iff, Set.mem_singleton_iff] at hx ⊢; tauto

theorem snames_loop (cs : List F) (i : ℕ) (st : State F) : SNames (idx "round " {j | i ≤ j}) (loop cs i st) := by
  induction cs generalizing i st with
  | nil => exact SNamesP.pure trivial
  | cons c cs ih =>
    exact SNamesP.weaken (SNamesP.seq (snames_round i c st) (succ_not_mem _ i) fun st _ => ih (i + 1) st) (insert_idx_subset _ i)

theorem snames_synthesize (d : Demo F) : SNames ({"preimage xl", "preimage xr"} ∪ idx "round " {j | 0 ≤ j}) d.synthesize := by
  unfold Demo.synthesize
  split
  · refine SNamesP.weaken (SNamesP.seq (SNamesP.alloc (by clean) _) ?_ fun _ _ =>
      SNamesP.seq (SNamesP.alloc (by clean) _) ?_ fun _ _ => snames_loop _ 0 _) ?_
    · simp only [Set.mem_insert_iff, not_or]
      exact ⟨by decide, not_mem_idx_base (by decide)⟩
    · exact not_mem_idx_base (by decide)
    · intro x hx; simp only [Set.mem_union, Set.mem_insert_iff, Set.mem_singleton_iff] at hx ⊢; tauto
  · exact SNamesP.panic

end Mimc

end Bellman
