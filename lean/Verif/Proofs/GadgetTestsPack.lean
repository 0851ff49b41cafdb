import Verif.Proofs.GadgetTests
import Verif.Proofs.HashProof

/-! Bits allocated under numbered names, and the unit test of multipack.rs for all lists of bits. -/

namespace Bellman.GadgetTests
open PrimeField
set_option linter.unusedSectionVars false
variable {F : Type} [PrimeField F] {α β : Type}

/-- The bits allocated under the given names. -/
def allocNamed : List (String × Bool) → Synth F (List Boolean)
  | [] => pure []
  | (n, b) :: l => do
    let x ← Synth.inNs n (AllocatedBit.alloc (some b))
    let xs ← allocNamed l
    pure (.is x :: xs)

theorem snames_allocNamed (l : List (String × Bool)) (hc : ∀ e ∈ l, Clean e.1) (hd : (l.map (·.1)).Nodup) :
    SNames {n | n ∈ l.map (·.1)} (allocNamed l : Synth F _) := by
  induction l with
  | nil => exact SNamesP.pure trivial
  | cons e l ih =>
    simp only [List.map_cons, List.nodup_cons] at hd
    refine SNamesP.weaken (SNamesP.seq (SNamesP.inNs (hc e (by simp)) (AllocatedBit.snames_alloc _)) (N := {n | n ∈ l.map (fun e : String × Bool => e.1)}) hd.1
      fun x _ => SNamesP.map (ih (fun e he => hc e (by simp [he])) hd.2) fun _ _ => SNamesP.pure trivial) ?_
    intro n hn
    simpa using hn

theorem slocal_allocNamed {n k : ℕ} (hn : 0 < n) (l : List (String × Bool)) : SLocal n k (allocNamed l : Synth F _) := by
  induction l generalizing k with
  | nil => exact SLocal.pure known_list_nil
  | cons e l ih =>
    refine SLocal.bind (SLocal.inNs _ (AllocatedBit.slocal_alloc hn _)) fun k1 x h1 hx => ?_
    refine SLocal.bind ih fun k2 xs h2 hxs => SLocal.pure ?_
    exact known_list_cons (a := Boolean.is x) (Known.lift (a := x) hx h2) hxs

theorem wpC_allocNamed {ρ : Var → F} (h1 : ρ .one = 1) (l : List (String × Bool)) :
    Synth.wpC ρ (allocNamed l) fun o => List.Forall₂ (Boolean.Has ρ) o (l.map (·.2)) := by
  induction l with
  | nil => simp [allocNamed]
  | cons e l ih =>
    unfold allocNamed
    simp only [Synth.wpC_bind, Synth.wpC_inNs]
    refine Synth.wpC_mono (AllocatedBit.wpC_alloc h1 e.2) fun x hx => ?_
    refine Synth.wpC_mono ih fun xs hxs => ?_
    exact (Synth.wpC_pure ..).2 (.cons hx hxs)

theorem call_allocNamed_append (l l' : List (String × Bool)) :
    call (allocNamed (F := F) (l ++ l')) = (do
      let xs ← call (allocNamed l)
      let ys ← call (allocNamed l')
      pure (xs ++ ys)) := by
  induction l with
  | nil => simp [allocNamed, call_pure]
  | cons e l ih =>
    simp only [List.cons_append, allocNamed, call_seq, ih, call_pure, bind_assoc, pure_bind]

/-- Named by position. -/
def numbered (p : String) (i : ℕ) (bs : List Bool) : List (String × Bool) := bs.zipIdx i |>.map fun e => (p ++ toString e.2, e.1)

theorem numbered_cons (p : String) (i : ℕ) (b : Bool) (bs : List Bool) :
    numbered p i (b :: bs) = (p ++ toString i, b) :: numbered p (i + 1) bs := by simp [numbered]

theorem numbered_snd (p : String) (i : ℕ) (bs : List Bool) : (numbered p i bs).map (·.2) = bs := by
  induction bs generalizing i with
  | nil => rfl
  | cons b bs ih => rw [numbered_cons, List.map_cons, ih]

theorem mem_numbered {p : String} {i : ℕ} {bs : List Bool} {n : String} (h : n ∈ (numbered p i bs).map (·.1)) : n ∈ idx p {j | i ≤ j} := by
  induction bs generalizing i with
  | nil => simp [numbered] at h
  | cons b bs ih =>
    rw [numbered_cons, List.map_cons, List.mem_cons] at h
    rcases h with rfl | h
    · exact mem_idx (le_refl i)
    · obtain ⟨j, hj, rfl⟩ := ih h
      exact mem_idx (Nat.le_of_succ_le hj)

theorem snames_numbered {p : String} (hp : Clean p) (i : ℕ) (bs : List Bool) :
    SNames (idx p {j | i ≤ j}) (allocNamed (numbered p i bs) : Synth F _) := by
  refine SNamesP.weaken (snames_allocNamed _ ?_ ?_) fun n hn => mem_numbered hn
  · intro e he
    obtain ⟨j, -, e'⟩ := mem_numbered (List.mem_map_of_mem (f := (·.1)) he)
    rw [e']
    exact clean_idx hp j
  · induction bs generalizing i with
    | nil => simp [numbered]
    | cons b bs ih =>
      rw [numbered_cons, List.map_cons, List.nodup_cons]
      exact ⟨fun h => succ_not_mem p i (mem_numbered h), ih _⟩

theorem packBits_eq (i : ℕ) (bs : List Bool) : (packBits i bs : UTest F _) = call (allocNamed (numbered "bit " i bs)) := by
  induction bs generalizing i with
  | nil => rfl
  | cons b bs ih =>
    rw [packBits, numbered_cons]
    simp only [allocNamed, call_seq, ih, call_pure]
    rfl

theorem inputBits_eq (i : ℕ) (bs : List Bool) : (inputBits i bs : UTest F _) = call (allocNamed (numbered "input bit " i bs)) := by
  induction bs generalizing i with
  | nil => rfl
  | cons b bs ih =>
    rw [inputBits, numbered_cons]
    simp only [allocNamed, call_seq, ih, call_pure]
    rfl

/-- The program of `test_multipacking`. -/
def packProg (bits : List Bool) : Synth F (List Boolean) := do
  let xs ← allocNamed (numbered "bit " 0 bits)
  Synth.inNs "pack" (packIntoInputs xs)
  pure xs

theorem scope_pack {k : ℕ} {bits : List Boolean} (hb : Known 1 k bits) : (packIntoInputs bits : Synth F Unit).run.Scope (fun _ _ _ => True) 1 k := by
  unfold packIntoInputs
  cases hc : chunks? (CAPACITY F) bits with
  | none => trivial
  | some cs => exact (scope_packChunks 0 (known_chunks hb hc)).mono fun _ _ _ _ _ _ => trivial

theorem multipacking_passes (bits : List Bool) : Passes (multipacking (F := F) bits) := by
  have heq : multipacking (F := F) bits = (call (packProg bits) >>= fun _ => do
      let e ← unwrap (computeMultipacking F bits)
      assert (← isSatisfied)
      assert (← verify e)) := by
    rw [multipacking, packBits_eq]
    rw [computeMultipacking_eq]
    simp only [packProg, call_seq, call_pure, bind_assoc, pure_bind]
    rfl
  rw [heq]
  refine passes_of_complete (N := idx "bit " {j | 0 ≤ j} ∪ {"pack"}) (Q := fun ρ o => List.Forall₂ (Boolean.Has ρ) o bits) ?_ ?_ ?_ ?_ ?_
  · refine SNamesP.bind (snames_numbered (by clean) _ _) (by rw [Set.disjoint_singleton_right]; fresh) fun _ _ => ?_
    exact SNamesP.map (SNamesP.inNs (by clean) (snames_packIntoInputs _)) fun _ _ => SNamesP.pure trivial
  · fresh
  · refine Preimage.scope_bind (slocal_allocNamed one_pos _) (fun k1 a h1 ha => ?_) fun _ _ => trivial
    show Circ.Scope _ ((Synth.inNs "pack" (packIntoInputs a : Synth F Unit)).run.bind _) 1 k1
    refine Circ.Scope.bind (Q := fun _ _ _ => True) ?_ fun n k r _ _ _ => ?_
    · show Circ.Scope _ ((packIntoInputs a : Synth F Unit).run.bind fun r => Circ.pop (.ret r)) 1 k1
      exact Circ.Scope.bind (Q := fun _ _ _ => True) (scope_pack ha) fun _ _ _ _ _ _ => trivial
    · cases r <;> trivial
  · intro ρ h1
    unfold packProg
    simp only [Synth.wpC_bind, Synth.wpC_inNs]
    refine Synth.wpC_mono (wpC_allocNamed h1 _) fun xs hxs => ?_
    rw [numbered_snd] at hxs
    refine Synth.wpC_mono (wpC_packIntoInputs h1 hxs) fun _ _ => ?_
    exact (Synth.wpC_pure ..).2 hxs
  · intro o s hr hs ho
    obtain ⟨t, he, hrec⟩ := TestCS.run_recorded _ TestCS.WF_new hr
    have hx := (C04_isSatisfied s).1 hs
    obtain ⟨xs, hxs⟩ : ∃ xs, computeMultipacking F bits = some xs := ⟨_, computeMultipacking_eq bits⟩
    have hv : s.verify xs = some true := by
      refine (C04_verify s _).2.2 ⟨1, ?_⟩
      have hin : s.inputs.map (·.1) = 1 :: inVals t := by rw [hrec.inputs]; rfl
      have hsat : Sat s.rho t := (Sat_iff_consOf ..).2 fun k hk => by
        obtain ⟨p, hp⟩ := (hrec.mem_constraints k).2 (.inr hk)
        exact (hx _ hp).2
      have h1 : s.rho .one = 1 := by rw [TestCS.rho, hin]; rfl
      rw [hin, List.cons.injEq]
      refine ⟨rfl, ?_⟩
      have hnum := hrec.numbered
      have hvals : inVals t = (inputsOf t).map s.rho := by
        rw [inputsOf_numbered hnum, List.map_map]
        apply List.ext_getElem (by simp [hrec.nIn])
        intro i h2 h3
        simp [TestCS.rho, hin, assign, TestCS.new, Nat.add_comm, h2]
      rw [hvals]
      obtain ⟨t1, t2, bs, rfl, e1, e2⟩ := Synth.exec_bind_inv he.exec
      obtain ⟨t2, t3, _, rfl, e4, e3⟩ := Synth.exec_bind_inv e2
      obtain ⟨t2, rfl, e5⟩ := Synth.exec_inNs_inv e4
      obtain ⟨rfl, e3⟩ := Synth.exec_pure_inv e3
      cases e3
      rw [Sat_append, Sat_append, sat_inNs] at hsat
      have hp := C13_pack_sound h1 (ho.imp fun _ _ h => h.2) e5 hsat.2.1
      rw [hxs] at hp
      rw [numbered_append] at hnum
      have z1 := (((slocal_allocNamed (F := F) one_pos _).closed t1 _ e1 hnum.1).2 _ rfl).1
      rw [Option.some.inj hp, inputsOf_append, inputsOf_append, inputsOf_inNs, inputsOf_nil_of z1 hnum.1]
      simp
    exact ⟨s, by rw [unwrap_some hxs, isSatisfied_some hs, assert_true rfl, bind_eval, verify_eval, hv]; rfl⟩
end Bellman.GadgetTests
