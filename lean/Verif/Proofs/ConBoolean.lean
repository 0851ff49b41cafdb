import Verif.Constrain
import Verif.Proofs.ScopeBoolean

/-!
# The boolean gadgets constrain the variables they allocate
-/

namespace Bellman

open PrimeField

set_option linter.unusedSectionVars false

variable {F : Type} [PrimeField F] {n k : ℕ}

theorem one_ne_aux {j : ℕ} : Var.one ≠ Var.aux j := by rintro ⟨⟩

/-- The literal does not mention the variable. -/
def Avoids (x : Var) : Boolean → Prop
  | .is b | .not b => b.var ≠ x
  | .constant _ => True

theorem Avoids.neg {x : Var} {b : Boolean} (h : Avoids x b) : Avoids x b.neg := by cases b <;> exact h

theorem Avoids.lc {j : ℕ} {b : Boolean} (h : Avoids (.aux j) b) (c : F) : (b.lc c).coeffOf (.aux j) = 0 := by
  rcases b with b | b | v
  · show ((LC.zero : LC F) + (c, b.var)).coeffOf _ = 0
    rw [coeffOf_addTerm, coeffOf_zero, if_neg h, add_zero]
  · show ((LC.zero : LC F) + (c, Var.one) - (c, b.var)).coeffOf _ = 0
    rw [coeffOf_subTerm, coeffOf_addTerm, coeffOf_zero, if_neg h, if_neg one_ne_aux, add_zero, sub_zero]
  · cases v
    · exact coeffOf_zero _
    · show ((LC.zero : LC F) + (c, Var.one)).coeffOf _ = 0
      rw [coeffOf_addTerm, coeffOf_zero, if_neg one_ne_aux, add_zero]

theorem known_avoids {j : ℕ} {b : Boolean} (h : Known n k b) (hj : k ≤ j) : Avoids (.aux j) b := by
  rcases b with b | b | v
  · exact known_ne (x := b.var) h hj
  · exact known_ne (x := b.var) h hj
  · trivial

/-- `allocCapture` allocates one variable. -/
theorem SCon.captureBind {β : Type} {D : Var → Prop} {N A : ℕ} {s : String} {f : Except SynthesisError Bool}
    {g : Var × Option Bool → Synth F β} (hg : ∀ v, SCon n (k + 1) (fun x => D x ∨ x = .aux k) N A (g (.aux k, v))) :
    SCon n k D N (A + 1) (allocCapture s f >>= g) := by
  unfold allocCapture
  rw [bind_assoc]
  refine SCon.allocBind fun v => ?_
  rw [pure_bind]
  exact hg _

theorem SPost.captureBind {β : Type} {Q : β → Prop} {s : String} {f : Except SynthesisError Bool}
    {g : Var × Option Bool → Synth F β} (hg : ∀ v, SPost n (k + 1) Q (g (.aux k, v))) :
    SPost n k Q (allocCapture s f >>= g) := by
  unfold allocCapture
  rw [bind_assoc]
  refine SPost.allocBind fun v => ?_
  rw [pure_bind]
  exact hg _

/-- Evaluates coefficients of a variable in a row. -/
macro "coeffs" : tactic => `(tactic| simp only [coeffOf_addTerm, coeffOf_subTerm, coeffOf_addVar, coeffOf_subVar, coeffOf_addLC,
  coeffOf_subLC, coeffOf_addScaled, coeffOf_nil, coeffOf_zero])

namespace AllocatedBit

theorem scon_alloc (v : Option Bool) : SCon n k noVar 1 1 (alloc v : Synth F _) := by
  refine SCon.allocBind fun _ => SCon.enforceBind noVar (SCon.only (.inr (.inl ?_))) SCon.pure
  coeffs
  simp

theorem spost_alloc (v : Option Bool) : SPost n k (fun b => b.var = .aux k) (alloc v : Synth F _) :=
  SPost.allocBind fun _ => SPost.enforceBind (SPost.pure rfl)

theorem scon_allocConditionally (v : Option Bool) (b : AllocatedBit) :
    SCon n k noVar 1 1 (allocConditionally v b : Synth F _) := by
  refine SCon.allocBind fun _ => SCon.enforceBind noVar (SCon.only (.inr (.inl ?_))) SCon.pure
  coeffs
  simp

variable {a b : AllocatedBit}

theorem scon_xor (ha : Known n k a) (hb : Known n k b) : SCon n k noVar 1 1 (xor a b : Synth F _) := by
  refine SCon.captureBind fun _ => SCon.enforceBind noVar (SCon.only (.inr (.inr ?_))) SCon.pure
  coeffs
  rw [if_neg (known_ne (known_bit ha) le_rfl), if_neg (known_ne (known_bit hb) le_rfl)]
  simp

theorem scon_and (a b : AllocatedBit) : SCon n k noVar 1 1 (and a b : Synth F _) := by
  refine SCon.captureBind fun _ => SCon.enforceBind noVar (SCon.only (.inr (.inr ?_))) SCon.pure
  coeffs
  simp

theorem scon_andNot (a b : AllocatedBit) : SCon n k noVar 1 1 (andNot a b : Synth F _) := by
  refine SCon.captureBind fun _ => SCon.enforceBind noVar (SCon.only (.inr (.inr ?_))) SCon.pure
  coeffs
  simp

theorem scon_nor (a b : AllocatedBit) : SCon n k noVar 1 1 (nor a b : Synth F _) := by
  refine SCon.captureBind fun _ => SCon.enforceBind noVar (SCon.only (.inr (.inr ?_))) SCon.pure
  coeffs
  simp

theorem spost_and (a b : AllocatedBit) : SPost n k (fun r => r.var = .aux k) (and a b : Synth F _) :=
  SPost.captureBind fun _ => SPost.enforceBind (SPost.pure rfl)
theorem spost_andNot (a b : AllocatedBit) : SPost n k (fun r => r.var = .aux k) (andNot a b : Synth F _) :=
  SPost.captureBind fun _ => SPost.enforceBind (SPost.pure rfl)
theorem spost_nor (a b : AllocatedBit) : SPost n k (fun r => r.var = .aux k) (nor a b : Synth F _) :=
  SPost.captureBind fun _ => SPost.enforceBind (SPost.pure rfl)

end AllocatedBit

theorem scon_allocBits (hn : 0 < n) (i : ℕ) (vs : List (Option Bool)) :
    SCon n k noVar vs.length vs.length (allocBits i vs : Synth F _) := by
  induction vs generalizing i k with
  | nil => exact SCon.pure
  | cons v vs ih =>
    refine SCon.le (SCon.bind (SCon.inNs _ (AllocatedBit.scon_alloc v)) (SLocal.inNs _ (AllocatedBit.slocal_alloc hn v))
      fun k1 x h1 hx => SCon.bind (ih (i + 1)) (slocal_allocBits hn _ _) fun k2 xs h2 hxs => SCon.pure (N := 0) (A := 0)) ?_ ?_ <;>
      simp only [List.length_cons] <;> omega

theorem scon_u64IntoBooleanVecLe (hn : 0 < n) (v : Option (BitVec 64)) :
    SCon n k noVar 64 64 (u64IntoBooleanVecLe v : Synth F _) := by
  refine SCon.le (SCon.bind (scon_allocBits hn _ _) (slocal_allocBits hn _ _) fun _ _ _ h => SCon.pure (N := 0) (A := 0)) ?_ ?_ <;>
    cases v <;> simp

section K
variable {K : Type} [PrimeField K]

theorem scon_fieldIntoAllocatedBitsLe (hn : 0 < n) (v : Option K) :
    SCon n k noVar (NUM_BITS K) (NUM_BITS K) (fieldIntoAllocatedBitsLe v : Synth F _) := by
  unfold fieldIntoAllocatedBitsLe
  split
  · dsimp only
    split
    · rename_i h
      refine SCon.le (scon_allocBits hn _ _) ?_ ?_ <;> simp [h]
    · exact SCon.panic
  · refine SCon.le (scon_allocBits hn _ _) ?_ ?_ <;> simp

theorem scon_fieldIntoBooleanVecLe (hn : 0 < n) (v : Option K) :
    SCon n k noVar (NUM_BITS K) (NUM_BITS K) (fieldIntoBooleanVecLe v : Synth F _) :=
  SCon.le (SCon.bind (scon_fieldIntoAllocatedBitsLe hn v) (slocal_fieldIntoAllocatedBitsLe hn v)
    fun _ _ _ h => SCon.pure (N := 0) (A := 0)) (by omega) (by omega)

end K

namespace Boolean

variable {a b c : Boolean}

theorem scon_enforceEqual (a b : Boolean) : SCon n k noVar 1 0 (enforceEqual a b : Synth F _) := by
  unfold enforceEqual
  split
  · split
    · exact SCon.pure
    · exact SCon.throw
  all_goals exact SCon.enforce fun x hx => hx.elim

theorem scon_xor (ha : Known n k a) (hb : Known n k b) : SCon n k noVar 1 1 (xor a b : Synth F _) := by
  unfold xor
  split <;> first
    | exact SCon.pure
    | (refine SCon.le (SCon.bind (AllocatedBit.scon_xor ?_ ?_) (AllocatedBit.slocal_xor ?_ ?_) fun k' r hk hr => SCon.pure (N := 0)
        (A := 0)) ?_ ?_ <;> first | assumption | omega)

theorem scon_and (hn : 0 < n) (ha : Known n k a) (hb : Known n k b) : SCon n k noVar 1 1 (and a b : Synth F _) := by
  unfold and
  split <;> first
    | exact SCon.pure
    | (refine SCon.le (SCon.bind (AllocatedBit.scon_andNot _ _) (AllocatedBit.slocal_andNot hn ?_ ?_) fun k' r hk hr =>
        SCon.pure (N := 0) (A := 0)) ?_ ?_ <;> first | assumption | omega)
    | (refine SCon.le (SCon.bind (AllocatedBit.scon_nor _ _) (AllocatedBit.slocal_nor hn ?_ ?_) fun k' r hk hr =>
        SCon.pure (N := 0) (A := 0)) ?_ ?_ <;> first | assumption | omega)
    | (refine SCon.le (SCon.bind (AllocatedBit.scon_and _ _) (AllocatedBit.slocal_and ?_ ?_) fun k' r hk hr =>
        SCon.pure (N := 0) (A := 0)) ?_ ?_ <;> first | assumption | omega)

/-- The conjunction mentions only what its operands mention, or a new variable. -/
theorem spost_and {j : ℕ} (hj : j < k) (ha : Avoids (.aux j) a) (hb : Avoids (.aux j) b) :
    SPost n k (Avoids (.aux j)) (and a b : Synth F _) := by
  have key : ∀ {k' : ℕ} {r : AllocatedBit}, k ≤ k' → r.var = .aux k' → Avoids (.aux j) (.is r) := by
    intro k' r h1 h2
    show r.var ≠ _
    rw [h2]
    simp only [ne_eq, Var.aux.injEq]
    omega
  unfold and
  split <;> first
    | exact SPost.pure (by assumption)
    | exact SPost.pure trivial
    | exact SPost.bind (AllocatedBit.spost_andNot _ _) fun n' k' r _ hk hr => SPost.pure (key le_rfl hr)
    | exact SPost.bind (AllocatedBit.spost_nor _ _) fun n' k' r _ hk hr => SPost.pure (key le_rfl hr)
    | exact SPost.bind (AllocatedBit.spost_and _ _) fun n' k' r _ hk hr => SPost.pure (key le_rfl hr)

theorem scon_chAlloc (a b : Boolean) (hc : Known n k c) : SCon n k noVar 1 1 (chAlloc a b c : Synth F _) := by
  refine SCon.allocBind fun _ => SCon.enforceBind noVar (SCon.only (.inr (.inr ?_))) SCon.pure
  coeffs
  rw [(known_avoids hc le_rfl).lc]
  simp

theorem scon_sha256Ch (hn : 0 < n) (ha : Known n k a) (hb : Known n k b) (hc : Known n k c) :
    SCon n k noVar 1 1 (sha256Ch a b c : Synth F _) := by
  have key : ∀ {x y : Boolean}, Known n k x → Known n k y →
      SCon n k noVar 1 1 (do let r ← Boolean.and x y; pure r.neg : Synth F _) := fun hx hy =>
    SCon.le (SCon.bind (scon_and hn hx hy) (slocal_and hn hx hy) fun _ r _ hr => SCon.pure (N := 0) (A := 0)) (by omega) (by omega)
  unfold sha256Ch
  split
  · exact SCon.pure
  · exact SCon.pure
  · exact scon_and hn (by known) (by known)
  · exact scon_and hn (by known) (by known)
  · exact key (by known) (by known)
  · exact key (by known) (by known)
  · exact scon_chAlloc _ _ hc
  · exact scon_chAlloc _ _ hc

theorem scon_majAlloc (hn : 0 < n) (a : Boolean) (hb : Known n k b) (hc : Known n k c) :
    SCon n k noVar 2 2 (majAlloc a b c : Synth F _) := by
  refine SCon.allocBind fun _ => ?_
  have hb' : Known n (k + 1) b := Known.lift hb (by omega)
  have hc' : Known n (k + 1) c := Known.lift hc (by omega)
  refine SCon.le (SCon.bindPost (SCon.inNs _ (scon_and hn hb' hc')) (SLocal.inNs _ (slocal_and hn hb' hc'))
    (SPost.inNs _ (spost_and (j := k) (by omega) (known_avoids hb le_rfl) (known_avoids hc le_rfl))) fun k' bc hk hbc hq =>
      SCon.enforceBind (N := 0) (A := 0) noVar (SCon.only (.inr (.inr ?_))) SCon.pure) (by omega) (by omega)
  coeffs
  rw [hq.lc]
  simp

theorem scon_sha256Maj (hn : 0 < n) (ha : Known n k a) (hb : Known n k b) (hc : Known n k c) :
    SCon n k noVar 2 2 (sha256Maj a b c : Synth F _) := by
  have key : ∀ {x y : Boolean}, Known n k x → Known n k y →
      SCon n k noVar 2 2 (do let r ← Boolean.and x y; pure r.neg : Synth F _) := fun hx hy =>
    SCon.le (SCon.bind (scon_and hn hx hy) (slocal_and hn hx hy) fun _ r _ hr => SCon.pure (N := 0) (A := 0)) (by omega) (by omega)
  have key' : ∀ {x y : Boolean}, Known n k x → Known n k y →
      SCon n k noVar 2 2 (Boolean.and x y : Synth F _) := fun hx hy => SCon.le (scon_and hn hx hy) (by omega) (by omega)
  unfold sha256Maj
  split
  · exact SCon.pure
  · exact key' (by known) (by known)
  · exact key' (by known) (by known)
  · exact key' (by known) (by known)
  · exact key (by known) (by known)
  · exact key (by known) (by known)
  · exact key (by known) (by known)
  · exact scon_majAlloc hn _ (by known) (by known)

end Boolean

end Bellman
