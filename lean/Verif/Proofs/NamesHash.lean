import Verif.Proofs.NamesGadgets
import Verif.Gadgets.Sha256
import Verif.Gadgets.Blake2s

/-!
# The names used by the gadgets on words and the hash functions
-/

namespace Bellman

open PrimeField

set_option linter.unusedSectionVars false

variable {F : Type} [PrimeField F]

namespace UInt32

theorem snames_allocLoop (i : ℕ) (vs : List (Option Bool)) :
    SNames (idx "allocated bit " {j | i ≤ j}) (allocLoop i vs : Synth F _) := by
  induction vs generalizing i with
  | nil => exact SNamesP.pure trivial
  | cons v vs ih =>
    exact SNamesP.weaken (SNamesP.seq (SNamesP.inNs (clean_idx (by clean) i) (AllocatedBit.snames_alloc v))
      (succ_not_mem "allocated bit " i) fun x _ => SNamesP.map (ih (i + 1)) fun _ _ => SNamesP.pure trivial) (insert_idx_subset _ i)

theorem snames_alloc (v : Option (BitVec 32)) : SNames (idx "allocated bit " {j | 0 ≤ j}) (alloc v : Synth F _) :=
  SNamesP.map (snames_allocLoop _ _) fun _ _ => SNamesP.pure trivial

theorem snames_triopLoop {p : String} (f : ℕ → Boolean → Boolean → Boolean → Synth F Boolean)
    (hf : ∀ i a b c, SNames {p ++ toString i} (f i a b c)) (i : ℕ) (as bs cs : List Boolean) :
    SNames (idx p {j | i ≤ j}) (triopLoop f i as bs cs) := by
  induction as generalizing i bs cs with
  | nil => exact SNamesP.pure trivial
  | cons a as ih =>
    cases bs with
    | nil => exact SNamesP.pure trivial
    | cons b bs =>
      cases cs with
      | nil => exact SNamesP.pure trivial
      | cons c cs =>
        exact SNamesP.weaken (SNamesP.seq (hf i a b c) (succ_not_mem p i) fun x _ => SNamesP.map (ih (i + 1) bs cs) fun _ _ =>
          SNamesP.pure trivial) (insert_idx_subset _ i)

variable (a b c : UInt32)

theorem snames_sha256Maj : SNames (idx "maj " {j | 0 ≤ j}) (sha256Maj a b c : Synth F _) :=
  SNamesP.map (snames_triopLoop _ (fun i _ _ _ => SNamesP.inNs (clean_idx (by clean) i) (Boolean.snames_sha256Maj _ _ _)) 0 _ _ _)
    fun _ _ => SNamesP.pure trivial

theorem snames_sha256Ch : SNames (idx "ch " {j | 0 ≤ j}) (sha256Ch a b c : Synth F _) :=
  SNamesP.map (snames_triopLoop _ (fun i _ _ _ => SNamesP.inNs (clean_idx (by clean) i) (Boolean.snames_sha256Ch _ _ _)) 0 _ _ _)
    fun _ _ => SNamesP.pure trivial

theorem snames_xorLoop (i : ℕ) (as bs : List Boolean) : SNames (idx "xor of bit " {j | i ≤ j}) (xorLoop i as bs : Synth F _) := by
  induction as generalizing i bs with
  | nil => exact SNamesP.pure trivial
  | cons a as ih =>
    cases bs with
    | nil => exact SNamesP.pure trivial
    | cons b bs =>
      exact SNamesP.weaken (SNamesP.seq (SNamesP.inNs (clean_idx (by clean) i) (Boolean.snames_xor _ _)) (succ_not_mem "xor of bit " i)
        fun x _ => SNamesP.map (ih (i + 1) bs) fun _ _ => SNamesP.pure trivial) (insert_idx_subset _ i)

theorem snames_xor : SNames (idx "xor of bit " {j | 0 ≤ j}) (xor a b : Synth F _) :=
  SNamesP.map (snames_xorLoop _ _ _) fun _ _ => SNamesP.pure trivial

theorem snames_resultLoop (value : Option ℕ) (maxValue i : ℕ) (coeff : F) (bits : List Boolean) (lc : LC F) :
    SNames (idx "result bit " {j | i ≤ j}) (resultLoop value maxValue i coeff bits lc) := by
  induction maxValue using Nat.strongRecOn generalizing i coeff bits lc with
  | _ maxValue ih =>
    unfold resultLoop
    split
    · exact SNamesP.pure trivial
    · rename_i h
      exact SNamesP.weaken (SNamesP.seq (SNamesP.inNs (clean_idx (by clean) i) (AllocatedBit.snames_alloc _))
        (succ_not_mem "result bit " i) fun x _ => ih _ (by rw [Nat.shiftRight_one]; omega) (i + 1) _ _ _) (insert_idx_subset _ i)

/-- The names of `addmany`, besides those of the `MultiEq`. -/
def addNames : Set String := idx "result bit " {j | 0 ≤ j}

theorem mnames_addmany (l : List UInt32) : MNames addNames (addmany l : MSynth F _) := by
  unfold addmany
  split
  · split
    · split
      · dsimp only
        split
        · exact MNames.pure
        · exact MNames.map (MNames.lift (snames_resultLoop _ _ _ _ _ _) (idx_disjoint_base (by decide))) fun q =>
            MNames.map (MNames.enforceEqual _ _ _) fun _ => MNames.pure
      · exact MNames.panic
    · exact MNames.panic
  · exact MNames.panic

end UInt32

theorem MNames.index {α : Type} (l : List α) (i : ℕ) : MNames ∅ (MSynth.index l i : MSynth F α) := by
  unfold MSynth.index
  split
  · exact MNames.pure
  · exact MNames.panic

/-- A call in a namespace of a `MultiEq` of a gadget that does not know about it. -/
theorem MNames.liftNs {α : Type} {n : String} {N : Set String} {m : Synth F α} (hn : Clean n) (hq : n ∉ mq 0) (h : SNames N m) :
    MNames {n} (MSynth.lift (Synth.inNs n m)) := MNames.lift (SNamesP.inNs hn h) (by simpa using hq)

open Bellman.UInt32

namespace Sha256

theorem mnames_wStep (i : ℕ) (w : List UInt32) : MNames {"w extension " ++ toString i} (wStep i w : MSynth F _) := by
  refine MNames.inNs (N := {"first xor for s0", "second xor for s0", "first xor for s1", "second xor for s1", "computation of w[i]"})
    (clean_idx (by clean) i) (by fresh) ?_
  refine MNames.skip (MNames.index _ _) (by fresh) fun w15 => ?_
  refine MNames.seq (MNames.liftNs (by clean) (by fresh) (snames_xor _ _)) (by simp) (by fresh) fun s0 => ?_
  refine MNames.seq (MNames.liftNs (by clean) (by fresh) (snames_xor _ _)) (by simp) (by fresh) fun s0 => ?_
  refine MNames.skip (MNames.index _ _) (by fresh) fun w2 => ?_
  refine MNames.seq (MNames.liftNs (by clean) (by fresh) (snames_xor _ _)) (by simp) (by fresh) fun s1 => ?_
  refine MNames.seq (MNames.liftNs (by clean) (by fresh) (snames_xor _ _)) (by simp) (by fresh) fun s1 => ?_
  refine MNames.skip (MNames.index _ _) (by fresh) fun w16 => ?_
  refine MNames.skip (MNames.index _ _) (by fresh) fun w7 => ?_
  exact MNames.map (MNames.inNs (by clean) (by fresh) (mnames_addmany _)) fun t => MNames.pure

theorem mnames_wLoop (m i : ℕ) (w : List UInt32) : MNames (idx "w extension " {j | i ≤ j}) (wLoop m i w : MSynth F _) := by
  induction m generalizing i w with
  | zero => exact MNames.pure
  | succ m ih =>
    exact MNames.weaken (MNames.seq (mnames_wStep i w) (succ_not_mem _ i) (idx_disjoint_base (by decide)) fun w => ih (i + 1) w)
      (insert_idx_subset _ i)

theorem mnames_compute (m : Maybe) (o : List UInt32) : MNames addNames (m.compute o : MSynth F _) := by
  cases m with
  | deferred v => exact mnames_addmany _
  | concrete v => exact MNames.pure

theorem mnames_round (w : List UInt32) (i : ℕ) (s : St) : MNames {"compression round " ++ toString i} (round w i s : MSynth F _) := by
  refine MNames.inNs (N := {"deferred e computation", "first xor for s1", "second xor for s1", "ch", "deferred a computation",
    "first xor for s0", "second xor for s0", "maj"}) (clean_idx (by clean) i) (by fresh) ?_
  refine MNames.seq (MNames.inNs (by clean) (by fresh) (mnames_compute _ _)) (by simp) (by fresh) fun ne => ?_
  refine MNames.seq (MNames.liftNs (by clean) (by fresh) (snames_xor _ _)) (by simp) (by fresh) fun s1 => ?_
  refine MNames.seq (MNames.liftNs (by clean) (by fresh) (snames_xor _ _)) (by simp) (by fresh) fun s1 => ?_
  refine MNames.seq (MNames.liftNs (by clean) (by fresh) (snames_sha256Ch _ _ _)) (by simp) (by fresh) fun ch => ?_
  refine MNames.skip (MNames.index _ _) (by fresh) fun kc => ?_
  refine MNames.skip (MNames.index _ _) (by fresh) fun wi => ?_
  refine MNames.seq (MNames.inNs (by clean) (by fresh) (mnames_compute _ _)) (by simp) (by fresh) fun na => ?_
  refine MNames.seq (MNames.liftNs (by clean) (by fresh) (snames_xor _ _)) (by simp) (by fresh) fun s0 => ?_
  refine MNames.seq (MNames.liftNs (by clean) (by fresh) (snames_xor _ _)) (by simp) (by fresh) fun s0 => ?_
  exact MNames.map (MNames.liftNs (by clean) (by fresh) (snames_sha256Maj _ _ _)) fun maj => MNames.pure

theorem mnames_rounds (w : List UInt32) (m i : ℕ) (s : St) : MNames (idx "compression round " {j | i ≤ j}) (rounds w m i s : MSynth F _) := by
  induction m generalizing i s with
  | zero => exact MNames.pure
  | succ m ih =>
    exact MNames.weaken (MNames.seq (mnames_round w i s) (succ_not_mem _ i) (idx_disjoint_base (by decide)) fun s => ih (i + 1) s)
      (insert_idx_subset _ i)

/-- The names of the last part of the compression function. -/
def outNames : Set String := {"deferred h0 computation", "new h1", "new h2", "new h3", "deferred h4 computation", "new h5", "new h6", "new h7"}

/-- The names of the compression function, besides those of the `MultiEq`. -/
def bodyNames : Set String := idx "w extension " {j | 16 ≤ j} ∪ (idx "compression round " {j | 0 ≤ j} ∪ outNames)

theorem mnames_compressionBody (w : List UInt32) (h0 h1 h2 h3 h4 h5 h6 h7 : UInt32) :
    MNames bodyNames (compressionBody w h0 h1 h2 h3 h4 h5 h6 h7 : MSynth F _) := by
  refine MNames.bind (mnames_wLoop _ _ _) ?_ ?_ fun w => ?_
  · refine Disjoint.symm ?_
    unfold outNames
    fresh
  · unfold outNames
    fresh
  split
  · refine MNames.bind (mnames_rounds _ _ _ _) ?_ ?_ fun s => ?_
    · refine Disjoint.symm ?_
      unfold outNames
      fresh
    · unfold outNames
      fresh
    refine MNames.seq (MNames.inNs (by clean) (by fresh) (mnames_compute _ _)) (by simp) (by fresh) fun n0 => ?_
    refine MNames.seq (MNames.inNs (by clean) (by fresh) (mnames_addmany _)) (by simp) (by fresh) fun n1 => ?_
    refine MNames.seq (MNames.inNs (by clean) (by fresh) (mnames_addmany _)) (by simp) (by fresh) fun n2 => ?_
    refine MNames.seq (MNames.inNs (by clean) (by fresh) (mnames_addmany _)) (by simp) (by fresh) fun n3 => ?_
    refine MNames.seq (MNames.inNs (by clean) (by fresh) (mnames_compute _ _)) (by simp) (by fresh) fun n4 => ?_
    refine MNames.seq (MNames.inNs (by clean) (by fresh) (mnames_addmany _)) (by simp) (by fresh) fun n5 => ?_
    refine MNames.seq (MNames.inNs (by clean) (by fresh) (mnames_addmany _)) (by simp) (by fresh) fun n6 => ?_
    exact MNames.map (MNames.inNs (by clean) (by fresh) (mnames_addmany _)) fun n7 => MNames.pure
  · exact MNames.panic

/-- The names of the compression function. -/
def compressionNames : Set String := bodyNames ∪ mq 0

theorem snames_compression (input : List Boolean) (cur : List UInt32) : SNames compressionNames (compression input cur : Synth F _) := by
  unfold compression
  split
  · split
    · split
      · exact MNames.withMultiEq (mnames_compressionBody _ _ _ _ _ _ _ _ _)
      · exact SNamesP.panic
    · exact SNamesP.panic
  · exact SNamesP.panic

theorem snames_sha256BlockNoPadding (input : List Boolean) : SNames compressionNames (sha256BlockNoPadding input : Synth F _) := by
  unfold sha256BlockNoPadding
  split
  · exact SNamesP.map (snames_compression _ _) fun _ _ => SNamesP.pure trivial
  · exact SNamesP.panic

theorem snames_blockLoop (i : ℕ) (cur : List UInt32) (bs : List (List Boolean)) :
    SNames (idx "block " {j | i ≤ j}) (blockLoop i cur bs : Synth F _) := by
  induction bs generalizing i cur with
  | nil => exact SNamesP.pure trivial
  | cons b bs ih =>
    exact SNamesP.weaken (SNamesP.seq (SNamesP.inNs (clean_idx (by clean) i) (snames_compression _ _)) (succ_not_mem "block " i)
      fun c _ => ih (i + 1) c) (insert_idx_subset _ i)

theorem snames_sha256 (input : List Boolean) : SNames (idx "block " {j | 0 ≤ j}) (sha256 input : Synth F _) := by
  unfold sha256
  split
  · dsimp only
    split
    · split
      · exact SNamesP.panic
      · exact SNamesP.map (snames_blockLoop _ _ _) fun _ _ => SNamesP.pure trivial
    · exact SNamesP.panic
  · exact SNamesP.panic

end Sha256

namespace Blake2s

theorem mnames_mixAdd3 {s : String} (hs : Clean s) (hq : s ∉ mq 0) (v : List UInt32) (a b : ℕ) (x : UInt32) :
    MNames {s} (mixAdd3 s v a b x : MSynth F _) := by
  have h : Disjoint {s} (mq 0) := by simpa using hq
  refine MNames.skip (MNames.index _ _) h fun _ => MNames.skip (MNames.index _ _) h fun _ => ?_
  exact MNames.map (MNames.inNs hs hq (mnames_addmany _)) fun _ => MNames.pure

theorem mnames_mixAdd2 {s : String} (hs : Clean s) (hq : s ∉ mq 0) (v : List UInt32) (a b : ℕ) :
    MNames {s} (mixAdd2 s v a b : MSynth F _) := by
  have h : Disjoint {s} (mq 0) := by simpa using hq
  refine MNames.skip (MNames.index _ _) h fun _ => MNames.skip (MNames.index _ _) h fun _ => ?_
  exact MNames.map (MNames.inNs hs hq (mnames_addmany _)) fun _ => MNames.pure

theorem mnames_mixXor {s : String} (hs : Clean s) (hq : s ∉ mq 0) (v : List UInt32) (d a r : ℕ) :
    MNames {s} (mixXor s v d a r : MSynth F _) := by
  have h : Disjoint {s} (mq 0) := by simpa using hq
  refine MNames.skip (MNames.index _ _) h fun _ => MNames.skip (MNames.index _ _) h fun _ => ?_
  exact MNames.map (MNames.liftNs hs hq (snames_xor _ _)) fun _ => MNames.pure

/-- The names of one mixing step. -/
def mixNames : Set String := {"mixing step 1", "mixing step 2", "mixing step 3", "mixing step 4", "mixing step 5", "mixing step 6",
  "mixing step 7", "mixing step 8"}

theorem mnames_mixingG (v : List UInt32) (a b c d : ℕ) (x y : UInt32) : MNames mixNames (mixingG v a b c d x y : MSynth F _) := by
  refine MNames.seq (mnames_mixAdd3 (by clean) (by fresh) _ _ _ _) (by simp) (by fresh) fun v => ?_
  refine MNames.seq (mnames_mixXor (by clean) (by fresh) _ _ _ _) (by simp) (by fresh) fun v => ?_
  refine MNames.seq (mnames_mixAdd2 (by clean) (by fresh) _ _ _) (by simp) (by fresh) fun v => ?_
  refine MNames.seq (mnames_mixXor (by clean) (by fresh) _ _ _ _) (by simp) (by fresh) fun v => ?_
  refine MNames.seq (mnames_mixAdd3 (by clean) (by fresh) _ _ _ _) (by simp) (by fresh) fun v => ?_
  refine MNames.seq (mnames_mixXor (by clean) (by fresh) _ _ _ _) (by simp) (by fresh) fun v => ?_
  refine MNames.seq (mnames_mixAdd2 (by clean) (by fresh) _ _ _) (by simp) (by fresh) fun v => ?_
  exact mnames_mixXor (by clean) (by fresh) _ _ _ _

theorem mnames_mixCall {s : String} (hs : Clean s) (hq : s ∉ mq 0) (m : List UInt32) (l : List ℕ) (j a b c d : ℕ) (v : List UInt32) :
    MNames {s} (mixCall s m l j a b c d v : MSynth F _) := by
  have h : Disjoint {s} (mq 0) := by simpa using hq
  refine MNames.skip (MNames.index _ _) h fun _ => MNames.skip (MNames.index _ _) h fun _ =>
    MNames.skip (MNames.index _ _) h fun _ => MNames.skip (MNames.index _ _) h fun _ => ?_
  exact MNames.inNs hs hq (mnames_mixingG _ _ _ _ _ _ _)

theorem mnames_roundBody (m : List UInt32) (i : ℕ) (v : List UInt32) :
    MNames {"round " ++ toString i} (roundBody m i v : MSynth F _) := by
  refine MNames.inNs (N := {"mixing invocation 1", "mixing invocation 2", "mixing invocation 3", "mixing invocation 4",
    "mixing invocation 5", "mixing invocation 6", "mixing invocation 7", "mixing invocation 8"}) (clean_idx (by clean) i) (by fresh) ?_
  refine MNames.skip (MNames.index _ _) (by fresh) fun s => ?_
  refine MNames.seq (mnames_mixCall (by clean) (by fresh) _ _ _ _ _ _ _ _) (by simp) (by fresh) fun v => ?_
  refine MNames.seq (mnames_mixCall (by clean) (by fresh) _ _ _ _ _ _ _ _) (by simp) (by fresh) fun v => ?_
  refine MNames.seq (mnames_mixCall (by clean) (by fresh) _ _ _ _ _ _ _ _) (by simp) (by fresh) fun v => ?_
  refine MNames.seq (mnames_mixCall (by clean) (by fresh) _ _ _ _ _ _ _ _) (by simp) (by fresh) fun v => ?_
  refine MNames.seq (mnames_mixCall (by clean) (by fresh) _ _ _ _ _ _ _ _) (by simp) (by fresh) fun v => ?_
  refine MNames.seq (mnames_mixCall (by clean) (by fresh) _ _ _ _ _ _ _ _) (by simp) (by fresh) fun v => ?_
  refine MNames.seq (mnames_mixCall (by clean) (by fresh) _ _ _ _ _ _ _ _) (by simp) (by fresh) fun v => ?_
  exact mnames_mixCall (by clean) (by fresh) _ _ _ _ _ _ _ _

theorem mnames_roundLoop (m : List UInt32) (n i : ℕ) (v : List UInt32) :
    MNames (idx "round " {j | i ≤ j}) (roundLoop m n i v : MSynth F _) := by
  induction n generalizing i v with
  | zero => exact MNames.pure
  | succ n ih =>
    exact MNames.weaken (MNames.seq (mnames_roundBody m i v) (succ_not_mem _ i) (idx_disjoint_base (by decide)) fun v => ih (i + 1) v)
      (insert_idx_subset _ i)

/-- The name of a step of the final loop. -/
def finalName (i : ℕ) : String := "h[" ++ toString i ++ "] ^ v[" ++ toString i ++ "] ^ v[" ++ toString i ++ " + 8]"

/-- The names of the final loop. -/
def finalNames (i : ℕ) : Set String := {n | ∃ j, i ≤ j ∧ n = finalName j}

theorem takeWhile_digits (i : ℕ) (l : List Char) : List.takeWhile Char.isDigit ((toString i).toList ++ ']' :: l) = (toString i).toList := by
  rw [List.takeWhile_append_of_pos (digits_isDigit i)]
  simp [show Char.isDigit ']' = false by decide]

theorem finalName_inj {i j : ℕ} (h : finalName i = finalName j) : i = j := by
  have h := congrArg (fun s : String => List.takeWhile Char.isDigit (s.toList.drop 2)) h
  have e (k : ℕ) : ((finalName k).toList.drop 2) = (toString k).toList ++ ']' ::
      (" ^ v[".toList ++ (toString k).toList ++ "] ^ v[".toList ++ (toString k).toList ++ " + 8]".toList) := by
    unfold finalName
    simp only [String.toList_append, List.append_assoc]
    rfl
  simp only [e, takeWhile_digits] at h
  exact toString_inj (String.toList_inj.1 h)

theorem base_finalName (i : ℕ) : base (finalName i) = base "h[] ^ v[] ^ v[ + ]" := by
  unfold finalName
  simp only [base_append, base_toString]
  decide

theorem clean_finalName (i : ℕ) : Clean (finalName i) :=
  clean_append (clean_append (clean_append (clean_append (clean_append (clean_append (by clean) (clean_toString i)) (by clean))
    (clean_toString i)) (by clean)) (clean_toString i)) (by clean)

theorem snames_finalLoop (v : List UInt32) (n i : ℕ) (h : List UInt32) : SNames (finalNames i) (finalLoop v n i h : Synth F _) := by
  induction n generalizing i h with
  | zero => exact SNamesP.pure trivial
  | succ n ih =>
    unfold finalLoop
    split
    · refine SNamesP.weaken (SNamesP.seq (n := finalName i) (P := fun _ => True) (SNamesP.inNs (clean_finalName i) (N := {"first xor", "second xor"}) ?_) ?_ fun r _ =>
        ih (i + 1) _) ?_
      · exact SNamesP.seq (SNamesP.inNs (by clean) (snames_xor _ _)) (by simp) fun _ _ => SNamesP.inNs (by clean) (snames_xor _ _)
      · rintro ⟨j, hj, e⟩
        have := finalName_inj e
        omega
      · rintro _ (rfl | ⟨j, hj, rfl⟩)
        · exact ⟨i, le_rfl, rfl⟩
        · exact ⟨j, by omega, rfl⟩
    · exact SNamesP.panic

/-- The names of the compression function. -/
def compressionNames : Set String :=
  insert "first xor" (insert "second xor" ({"third xor"} ∪ (idx "round " {j | 0 ≤ j} ∪ mq 0 ∪ finalNames 0)))

theorem not_mem_finalNames {n : String} (h : base n ≠ base "h[] ^ v[] ^ v[ + ]") (i : ℕ) : n ∉ finalNames i := by
  rintro ⟨j, -, rfl⟩
  exact h (base_finalName j)

theorem snames_compression (h m : List UInt32) (t : BitVec 64) (f : Bool) :
    SNames compressionNames (compression h m t f : Synth F _) := by
  unfold compression
  split
  · split
    · dsimp only
      split
      · refine SNamesP.seq (SNamesP.inNs (by clean) (snames_xor _ _)) ?_ fun r1 _ => ?_
        · simp only [Set.mem_insert_iff, Set.mem_union, Set.mem_singleton_iff, not_or]
          refine ⟨by decide, by decide, ⟨not_mem_idx_base (by decide), not_mem_idx_base (by decide)⟩, not_mem_finalNames (by decide) _⟩
        refine SNamesP.seq (SNamesP.inNs (by clean) (snames_xor _ _)) ?_ fun r2 _ => ?_
        · simp only [Set.mem_union, Set.mem_singleton_iff, not_or]
          refine ⟨by decide, ⟨not_mem_idx_base (by decide), not_mem_idx_base (by decide)⟩, not_mem_finalNames (by decide) _⟩
        refine SNamesP.bind (α := List UInt32) (P := fun _ => True) ?_ ?_ fun v _ => ?_
        · split
          · exact SNamesP.map (SNamesP.inNs (by clean) (snames_xor _ _)) fun _ _ => SNamesP.pure trivial
          · exact SNamesP.pure trivial
        · rw [Set.disjoint_singleton_left]
          simp only [Set.mem_union, not_or]
          exact ⟨⟨not_mem_idx_base (by decide), not_mem_idx_base (by decide)⟩, not_mem_finalNames (by decide) _⟩
        · refine SNamesP.bind (MNames.withMultiEq (mnames_roundLoop _ _ _ _)) ?_ fun v _ => snames_finalLoop _ _ _ _
          rw [Set.disjoint_right]
          rintro _ ⟨j, -, rfl⟩ (hm | hm)
          · exact not_mem_idx_base (by rw [base_finalName]; decide) hm
          · exact not_mem_idx_base (by rw [base_finalName]; decide) hm
      · exact SNamesP.panic
    · exact SNamesP.panic
  · exact SNamesP.panic

theorem snames_blockLoop (len i : ℕ) (h : List UInt32) (bs : List (List UInt32)) :
    SNames (idx "block " {j | i ≤ j} ∪ {"final block"}) (blockLoop len i h bs : Synth F _) := by
  induction bs generalizing i h with
  | nil => exact SNamesP.panic
  | cons b bs ih =>
    cases bs with
    | nil => exact SNamesP.weaken (SNamesP.inNs (by clean) (snames_compression _ _ _ _)) Set.subset_union_right
    | cons b' bs =>
      refine SNamesP.weaken (SNamesP.seq (SNamesP.inNs (clean_idx (by clean) i) (snames_compression _ _ _ _)) ?_ fun c _ =>
        ih (i + 1) c) ?_
      · simp only [Set.mem_union, Set.mem_singleton_iff, not_or]
        refine ⟨succ_not_mem _ _, ?_⟩
        exact fun h => absurd (congrArg base h) (by simp only [base_append, base_toString]; decide)
      · rintro x (rfl | hx | hx)
        · exact .inl (mem_idx (le_refl i))
        · exact .inl (idx_mono (fun j hj => (Nat.le_succ i).trans hj) hx)
        · exact .inr hx

theorem snames_blake2s (input : List Boolean) (p : List (BitVec 8)) :
    SNames (idx "block " {j | 0 ≤ j} ∪ {"final block"}) (blake2s input p : Synth F _) := by
  unfold blake2s
  split
  · split
    · dsimp only
      split
      · exact SNamesP.map (snames_blockLoop _ _ _ _) fun _ _ => SNamesP.pure trivial
      · exact SNamesP.panic
    · exact SNamesP.panic
  · exact SNamesP.panic

end Blake2s

end Bellman
