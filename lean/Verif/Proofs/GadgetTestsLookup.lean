import Verif.Proofs.GadgetTests
import Verif.Props.BitVectors

/-! The unit tests of lookup.rs and of the bit vectors of boolean.rs, for all values. -/

namespace Bellman.GadgetTests
open PrimeField
set_option linter.unusedSectionVars false
variable {F : Type} [PrimeField F] {α β : Type}

def threeBits (x y z : Bool) (g : Boolean → Boolean → Boolean → Synth F α) : Synth F α := do
  let a ← Synth.inNs "a" (AllocatedBit.alloc (some x))
  let b ← Synth.inNs "b" (AllocatedBit.alloc (some y))
  let c ← Synth.inNs "c" (AllocatedBit.alloc (some z))
  g (.is a) (.is b) (.is c)

theorem call_threeBits (x y z : Bool) (g : Boolean → Boolean → Boolean → Synth F α) (rest : α → UTest F β) :
    (do
      let a ← call (Synth.inNs "a" (AllocatedBit.alloc (some x)))
      let b ← call (Synth.inNs "b" (AllocatedBit.alloc (some y)))
      let c ← call (Synth.inNs "c" (AllocatedBit.alloc (some z)))
      let r ← call (g (.is a) (.is b) (.is c))
      rest r) = (call (threeBits x y z g) >>= rest) := by
  simp only [threeBits, call_seq, bind_assoc]

theorem passes_threeBits [Handle α] {N : Set String} {x y z : Bool} {g : Boolean → Boolean → Boolean → Synth F α} {Q : (Var → F) → α → Prop}
    {rest : α → UTest F Unit} (hu : ∀ a b c, SNames N (g a b c)) (hN : "a" ∉ N ∧ "b" ∉ N ∧ "c" ∉ N ∧ "ONE" ∉ N)
    (hc : ∀ k a b c, Known 1 k a → Known 1 k b → Known 1 k c → SLocal 1 k (g a b c))
    (hm : ∀ ρ a b c, ρ .one = 1 → a.Has ρ x → b.Has ρ y → c.Has ρ z → Synth.wpC ρ (g a b c) (Q ρ))
    (hr : ∀ a s, s.isSatisfied = some true → Q s.rho a → ∃ s', rest a s = some ((), s')) :
    Passes (call (threeBits x y z g) >>= rest) := by
  refine passes_of_complete (N := {"a", "b", "c"} ∪ N) (Q := Q) ?_ ?_ ?_ ?_ fun a s _ => hr a s
  · refine SNamesP.weaken (N := insert "a" (insert "b" (insert "c" N))) ?_ ?_
    · refine SNamesP.seq (SNamesP.inNs (by clean) (AllocatedBit.snames_alloc _)) (by simp [hN]) fun _ _ => ?_
      refine SNamesP.seq (SNamesP.inNs (by clean) (AllocatedBit.snames_alloc _)) (by simp [hN]) fun _ _ => ?_
      exact SNamesP.seq (SNamesP.inNs (by clean) (AllocatedBit.snames_alloc _)) (by simp [hN]) fun _ _ => hu _ _ _
    · intro n hn
      simp only [Set.mem_insert_iff, Set.mem_union, Set.mem_singleton_iff] at hn ⊢
      tauto
  · simp [hN]
  · refine Preimage.scope_bind (SLocal.inNs _ (AllocatedBit.slocal_alloc one_pos _)) (fun k1 a h1 ha => ?_) fun _ _ => trivial
    refine Preimage.scope_bind (SLocal.inNs _ (AllocatedBit.slocal_alloc one_pos _)) (fun k2 b h2 hb => ?_) fun _ _ => trivial
    refine Preimage.scope_bind (SLocal.inNs _ (AllocatedBit.slocal_alloc one_pos _)) (fun k3 c h3 hc' => ?_) fun _ _ => trivial
    exact (hc k3 (.is a) (.is b) (.is c) (Known.lift (a := a) ha (by omega)) (Known.lift (a := b) hb h3) hc').mono fun _ _ _ _ _ _ => trivial
  · intro ρ h1
    unfold threeBits
    simp only [Synth.wpC_bind, Synth.wpC_inNs]
    refine Synth.wpC_mono (AllocatedBit.wpC_alloc h1 x) fun a ha => ?_
    refine Synth.wpC_mono (AllocatedBit.wpC_alloc h1 y) fun b hb => ?_
    refine Synth.wpC_mono (AllocatedBit.wpC_alloc h1 z) fun c hc => ?_
    exact hm ρ _ _ _ h1 ha hb hc

theorem lookupXy_passes (x y z : Bool) {points : List (F × F)} (h : points.length = 8) : Passes (lookupXy x y z points) := by
  unfold lookupXy
  rw [call_threeBits x y z fun a b c => lookup3xy [a, b, c] points]
  refine passes_threeBits (fun a b c => snames_lookup3xy _ _) (by simp) (fun k a b c ha hb hc => slocal_lookup3xy one_pos ?_ _)
    (fun ρ a b c h1 ha hb hc => wpC_lookup3xy h1 ha hb hc h) fun r s hs ⟨p, hp, h1, h2⟩ => ⟨s, ?_⟩
  · exact known_list_cons ha (known_list_cons hb (known_list_cons hc known_list_nil))
  · rw [isSatisfied_some hs, assert_true rfl]
    rw [unwrap_some (a := p) (by rw [← hp]; cases x <;> cases y <;> cases z <;> rfl), unwrap_some h1.1, assert_true (by simp), unwrap_some h2.1, assert_eval, if_pos (by simp)]

theorem lookupXyNeg_passes (x y z : Bool) {points : List (F × F)} (h : points.length = 4) : Passes (lookupXyNeg x y z points) := by
  unfold lookupXyNeg
  rw [call_threeBits x y z fun a b c => lookup3xyWithConditionalNegation [a, b, c] points]
  refine passes_threeBits (fun a b c => snames_lookup3xyWithConditionalNegation _ _) (by simp)
    (fun k a b c ha hb hc => slocal_lookup3xyWithConditionalNegation one_pos ?_ _)
    (fun ρ a b c h1 ha hb hc => wpC_lookup3xyWithConditionalNegation h1 ha hb hc h) fun r s hs ⟨p, hp, h1, h2⟩ => ⟨s, ?_⟩
  · exact known_list_cons ha (known_list_cons hb (known_list_cons hc known_list_nil))
  · rw [isSatisfied_some hs, assert_true rfl]
    rw [unwrap_some (a := p) (by rw [← hp]; cases x <;> cases y <;> rfl), unwrap_some h1.1, assert_true (by simp), unwrap_some h2.1, assert_eval, if_pos (by simp)]

/-- A loop whose steps leave the state alone and succeed exactly under a condition. -/
theorem forEach_iff {γ : Type} (f : γ → UTest F Unit) (P : γ → Prop) (l : List γ) (s : TestCS F) (hp : ∀ a ∈ l, P a → f a s = some ((), s))
    (hn : ∀ a ∈ l, ¬ P a → f a s = none) : (∃ s', forEach f l s = some ((), s')) ↔ ∀ a ∈ l, P a := by
  induction l with
  | nil => exact ⟨fun _ a ha => by simp at ha, fun _ => ⟨s, rfl⟩⟩
  | cons a l ih =>
    show (∃ s', (f a >>= fun _ => forEach f l) s = some ((), s')) ↔ _
    by_cases h : P a
    · rw [bind_some (hp a (by simp) h), ih (fun b hb => hp b (by simp [hb])) fun b hb => hn b (by simp [hb])]
      simp [h]
    · rw [bind_eval, hn a (by simp) h]
      simp [h]


theorem wpC_u64IntoBooleanVecLe {ρ : Var → F} (h1 : ρ .one = 1) (v : BitVec 64) :
    Synth.wpC ρ (u64IntoBooleanVecLe (some v)) fun o => List.Forall₂ (Boolean.Has ρ) o (leBits 64 v.toNat) := by
  unfold u64IntoBooleanVecLe
  dsimp only
  rw [u64_values, Synth.wpC_bind]
  exact Synth.wpC_mono (wpC_allocBits h1 0 _) fun o ho => forall₂_has_is ho

/-- The end of both tests: the bits are compared at given positions. -/
theorem bitsAt_iff {γ : Type} (value : γ → Option Bool) {bits : List γ} {xs : List Bool} (hb : List.Forall₂ (fun b x => value b = some x) bits xs)
    (expected : List (ℕ × Bool)) (s : TestCS F) :
    (∃ s', forEach (fun e : ℕ × Bool => do assert ((← unwrap (value (← unwrap bits[e.1]?))) = e.2)) expected s = some ((), s')) ↔
      ∀ e ∈ expected, xs[e.1]? = some e.2 := by
  have hl := hb.length_eq
  refine forEach_iff _ _ _ _ (fun e _ he => ?_) fun e _ he => ?_
  · obtain ⟨h1, h2⟩ := List.getElem?_eq_some_iff.1 he
    have := (List.forall₂_iff_get.1 hb).2 e.1 (by omega) h1
    simp only [List.get_eq_getElem] at this
    rw [unwrap_some (List.getElem?_eq_getElem (by omega)), unwrap_some this, assert_eval, if_pos (by simpa using h2)]
  · by_cases h1 : e.1 < xs.length
    · have := (List.forall₂_iff_get.1 hb).2 e.1 (by omega) h1
      simp only [List.get_eq_getElem] at this
      rw [List.getElem?_eq_getElem h1] at he
      rw [unwrap_some (List.getElem?_eq_getElem (by omega)), unwrap_some this, assert_eval, if_neg (by simpa using he)]
    · rw [bind_eval, unwrap_eval, List.getElem?_eq_none (by omega)]
      rfl

theorem u64IntoBits_iff (v : BitVec 64) (expected : List (ℕ × Bool)) :
    Passes (u64IntoBits (F := F) v expected) ↔ ∀ e ∈ expected, e.1 < 64 ∧ v.getLsbD e.1 = e.2 := by
  obtain ⟨o, s, h, hs, hb, -⟩ := run_complete (F := F) (Q := fun ρ o => List.Forall₂ (Boolean.Has ρ) o (leBits 64 v.toNat))
    (snames_u64IntoBooleanVecLe (some v)) (not_mem_idx_base (by decide))
    ((slocal_u64IntoBooleanVecLe one_pos (some v)).mono fun _ _ _ _ _ _ => trivial) fun ρ h1 => wpC_u64IntoBooleanVecLe h1 v
  have hl : o.length = 64 := by simpa using hb.length_eq
  unfold Passes u64IntoBits
  rw [bind_some (call_some h), isSatisfied_some hs, assert_true rfl, assert_true (by simp [hl]),
    bitsAt_iff Boolean.getValue (hb.imp fun _ _ h => h.1) expected s]
  refine forall₂_congr fun e _ => ?_
  rw [List.getElem?_eq_some_iff]
  simp [leBits, BitVec.getLsbD]

theorem fieldIntoBits_iff (r : F) (expected : List (ℕ × Bool)) :
    Passes (fieldIntoBits r expected) ↔ NUM_BITS F = 255 ∧ ∀ e ∈ expected, e.1 < 255 ∧ (val r).testBit e.1 = e.2 := by
  obtain ⟨o, s, h, hs, hb, -⟩ := run_complete (F := F) (Q := fun ρ o => List.Forall₂ (AllocatedBit.Has ρ) o (leBits (NUM_BITS F) (val r)))
    (snames_fieldIntoAllocatedBitsLe (some r)) (not_mem_idx_base (by decide))
    ((slocal_fieldIntoAllocatedBitsLe one_pos (some r)).mono fun _ _ _ _ _ _ => trivial) fun ρ h1 => wpC_fieldIntoAllocatedBitsLe h1 r
  have hl : o.length = NUM_BITS F := by simpa using hb.length_eq
  unfold Passes fieldIntoBits
  rw [bind_some (call_some h), isSatisfied_some hs, assert_true rfl]
  by_cases h255 : NUM_BITS F = 255
  · rw [assert_true (by simp [hl, h255]), bitsAt_iff AllocatedBit.value (hb.imp fun _ _ h => h.1) expected s, and_iff_right h255]
    refine forall₂_congr fun e _ => ?_
    rw [List.getElem?_eq_some_iff]
    simp [leBits, h255]
  · rw [bind_eval, assert_eval, if_neg (by simp [hl, h255])]
    simp [h255]

end Bellman.GadgetTests
