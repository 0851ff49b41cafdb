import Verif.Proofs.ScopeBoolean
import Verif.Gadgets.Lookup
import Verif.Gadgets.Multipack

/-!
# The variables used by the number, lookup and packing gadgets
-/

namespace Bellman

open PrimeField

set_option linter.unusedSectionVars false

variable {F : Type} [PrimeField F] {n k : ℕ}

namespace AllocatedNum

theorem slocal_alloc (v : Except SynthesisError F) : SLocal n k (alloc v) :=
  SLocal.bind (SLocal.alloc _ _) fun _ _ _ hr => SLocal.pure hr.1

theorem slocal_karyAndLoop {cur : AllocatedBit} {l : List AllocatedBit} (i : ℕ) (hc : Known n k cur) (hl : Known n k l) :
    SLocal n k (karyAndLoop cur i l : Synth F _) := by
  induction l generalizing cur i k with
  | nil => exact SLocal.pure hc
  | cons v vs ih =>
    refine SLocal.bind (SLocal.inNs _ (AllocatedBit.slocal_and hc (hl v (by simp)))) fun k1 c h1 hc => ?_
    exact ih (i + 1) hc (Known.lift (fun x hx => hl x (by simp [hx])) h1)

theorem slocal_karyAnd {l : List AllocatedBit} (hl : Known n k l) : SLocal n k (karyAnd l : Synth F _) := by
  cases l with
  | nil => exact SLocal.panic
  | cons v vs => exact slocal_karyAndLoop 1 (hl v (by simp)) fun x hx => hl x (by simp [hx])

/-- All variables of the loop state of `to_bits_le_strict` exist. -/
instance : Handle StrictSt where
  Known n k s := Known n k s.result ∧ (∀ l, s.lastRun = some l → Known n k l) ∧ Known n k s.currentRun
  mono hn hk h := ⟨Handle.mono hn hk h.1, fun l hl => Handle.mono hn hk (h.2.1 l hl), Handle.mono hn hk h.2.2⟩

theorem slocal_strictStep (hn : 0 < n) (a : Option Bool) (b : Bool) {st : StrictSt} (h : Known n k st) :
    SLocal n k (strictStep a b st : Synth F _) := by
  unfold strictStep
  split
  · refine SLocal.bind (SLocal.inNs _ (AllocatedBit.slocal_alloc hn a)) fun k1 x h1 hx => SLocal.pure ?_
    obtain ⟨hr, hl, hc⟩ := Known.lift h h1
    refine ⟨?_, hl, ?_⟩
    · show Known n k1 (st.result ++ [x]); known
    · show Known n k1 (st.currentRun ++ [x]); known
  · refine SLocal.bind (α := StrictSt) ?_ fun k1 st' h1 hst => ?_
    · split
      · exact SLocal.pure h
      · refine SLocal.bind (SLocal.inNs _ (slocal_karyAnd ?_)) fun k1 l h1 hl => SLocal.pure ?_
        · split
          · rename_i l hl
            have := h.2.1 l hl
            have := h.2.2
            known
          · exact h.2.2
        · obtain ⟨hr, _, hc⟩ := Known.lift h h1
          exact ⟨hr, by rintro _ ⟨⟩; exact hl, known_list_nil⟩
    · split
      · exact SLocal.panic
      · rename_i l hl
        refine SLocal.bind (SLocal.inNs _ (AllocatedBit.slocal_allocConditionally hn a (hst.2.1 l hl))) fun k2 x h2 hx =>
          SLocal.pure ?_
        obtain ⟨hr, hl, hc⟩ := Known.lift hst h2
        refine ⟨?_, hl, hc⟩
        show Known n k2 (st'.result ++ [x]); known

theorem slocal_strictLoop (hn : 0 < n) (l : List (Option Bool × Bool)) {st : StrictSt} (h : Known n k st) :
    SLocal n k (strictLoop l st : Synth F _) := by
  induction l generalizing st k with
  | nil => exact SLocal.pure h
  | cons p rest ih =>
    obtain ⟨a, b⟩ := p
    unfold strictLoop
    dsimp only
    split
    · exact SLocal.bind (slocal_strictStep hn a b h) fun k1 st' h1 hst => ih hst
    · split
      · exact SLocal.panic
      · exact ih h

theorem known_packLoop {lc : LC F} (c : F) {l : List AllocatedBit} (h : Known n k lc) (hl : Known n k l) :
    Known n k (packLoop lc c l) := by
  induction l generalizing lc c with
  | nil => exact h
  | cons b bs ih => exact ih _ (known_addTerm h (hl b (by simp))) fun x hx => hl x (by simp [hx])

theorem slocal_toBitsLeStrict (hn : 0 < n) {a : AllocatedNum F} (ha : Known n k a) : SLocal n k (toBitsLeStrict a) := by
  refine SLocal.bind (slocal_strictLoop hn _ (st := ⟨[], none, [], false, 0⟩) ⟨known_list_nil, by rintro _ ⟨⟩, known_list_nil⟩)
    fun k1 st h1 hst => ?_
  dsimp only
  split
  · have hr : Known n k1 st.result.reverse := fun x hx => hst.1 x (by simpa using hx)
    refine SLocal.bind (SLocal.enforce _ known_nil known_nil (known_subVar (known_packLoop _ known_zero hr) ?_)) fun k2 _ h2 _ =>
      SLocal.pure ?_
    · known
    · rw [← List.map_reverse]; exact known_map_is (Known.lift hr h2)
  · exact SLocal.panic

theorem slocal_toBitsLe (hn : 0 < n) {a : AllocatedNum F} (ha : Known n k a) : SLocal n k (toBitsLe a) := by
  refine SLocal.bind (slocal_fieldIntoAllocatedBitsLe hn _) fun k1 bits h1 hb => ?_
  refine SLocal.bind (SLocal.enforce _ known_nil known_nil (known_subVar (known_packLoop _ known_zero hb) ?_)) fun k2 _ h2 _ =>
    SLocal.pure ?_
  · known
  · exact known_map_is (Known.lift hb h2)

variable {a b : AllocatedNum F} {c : Boolean}

theorem slocal_mul (ha : Known n k a) (hb : Known n k b) : SLocal n k (mul a b) := by
  refine SLocal.bind (SLocal.alloc _ _) fun k1 r h1 hr => ?_
  refine SLocal.bind (SLocal.enforce _ ?_ ?_ ?_) fun k2 _ h2 _ => SLocal.pure (Known.lift hr.1 h2) <;> known

theorem slocal_square (ha : Known n k a) : SLocal n k (square a) := by
  refine SLocal.bind (SLocal.alloc _ _) fun k1 r h1 hr => ?_
  refine SLocal.bind (SLocal.enforce _ ?_ ?_ ?_) fun k2 _ h2 _ => SLocal.pure (Known.lift hr.1 h2) <;> known

theorem slocal_assertNonzero (hn : 0 < n) (ha : Known n k a) : SLocal n k (assertNonzero a) := by
  refine SLocal.bind (SLocal.alloc _ _) fun k1 r h1 hr => SLocal.enforce _ ?_ ?_ ?_ <;> known

theorem slocal_conditionallyReverse (hn : 0 < n) (ha : Known n k a) (hb : Known n k b) (hc : Known n k c) :
    SLocal n k (conditionallyReverse a b c) := by
  refine SLocal.bind (SLocal.inNs _ (slocal_alloc _)) fun k1 x h1 hx => ?_
  refine SLocal.bind (SLocal.enforce _ ?_ ?_ ?_) fun k2 _ h2 _ => ?_
  · known
  · known
  · known
  refine SLocal.bind (SLocal.inNs _ (slocal_alloc _)) fun k3 y h3 hy => ?_
  refine SLocal.bind (SLocal.enforce _ ?_ ?_ ?_) fun k4 _ h4 _ => SLocal.pure ?_
  · known
  · known
  · known
  exact ⟨Known.lift hx (by omega), Known.lift hy h4⟩

end AllocatedNum

theorem known_addBoolWithCoeff (hn : 0 < n) {a : Num F} {b : Boolean} {c : F} (ha : Known n k a) (hb : Known n k b) :
    Known n k (a.addBoolWithCoeff b c) := by
  show Known n k (a.lcomb + b.lc c)
  known

theorem known_num_zero : Known n k (Num.zero : Num F) := known_zero

theorem slocal_lookup3xy (hn : 0 < n) {bits : List Boolean} (hb : Known n k bits) (coords : List (F × F)) :
    SLocal n k (lookup3xy bits coords) := by
  unfold lookup3xy
  split
  · rename_i b0 b1 b2
    have hb0 : Known n k b0 := hb b0 (by simp)
    have hb1 : Known n k b1 := hb b1 (by simp)
    have hb2 : Known n k b2 := hb b2 (by simp)
    split
    · refine SLocal.bind (SLocal.inNs _ (AllocatedNum.slocal_alloc _)) fun k1 x h1 hx => ?_
      refine SLocal.bind (SLocal.inNs _ (AllocatedNum.slocal_alloc _)) fun k2 y h2 hy => ?_
      split
      · refine SLocal.bind (SLocal.inNs _ (Boolean.slocal_and hn (Known.lift hb1 (by omega)) (Known.lift hb2 (by omega))))
          fun k3 p h3 hp => ?_
        refine SLocal.bind (SLocal.enforce _ ?_ ?_ ?_) fun k4 _ h4 _ => ?_
        · known
        · known
        · known
        refine SLocal.bind (SLocal.enforce _ ?_ ?_ ?_) fun k5 _ h5 _ => SLocal.pure ?_
        · known
        · known
        · known
        exact ⟨Known.lift hx (by omega), Known.lift hy (by omega)⟩
      · exact SLocal.panic
    · exact SLocal.panic
  · exact SLocal.panic

theorem slocal_lookup3xyWithConditionalNegation (hn : 0 < n) {bits : List Boolean} (hb : Known n k bits) (coords : List (F × F)) :
    SLocal n k (lookup3xyWithConditionalNegation bits coords) := by
  unfold lookup3xyWithConditionalNegation
  split
  · rename_i b0 b1 b2
    have hb0 : Known n k b0 := hb b0 (by simp)
    have hb1 : Known n k b1 := hb b1 (by simp)
    have hb2 : Known n k b2 := hb b2 (by simp)
    split
    · refine SLocal.bind (SLocal.inNs _ (AllocatedNum.slocal_alloc _)) fun k1 y h1 hy => ?_
      split
      · refine SLocal.bind (SLocal.inNs _ (Boolean.slocal_and hn (Known.lift hb0 (by omega)) (Known.lift hb1 (by omega))))
          fun k3 p h3 hp => ?_
        refine SLocal.bind (SLocal.enforce _ ?_ ?_ ?_) fun k4 _ h4 _ => SLocal.pure ⟨?_, ?_⟩
        · known
        · known
        · known
        · refine known_addBoolWithCoeff hn (known_addBoolWithCoeff hn (known_addBoolWithCoeff hn
            (known_addBoolWithCoeff hn known_num_zero known_const) ?_) ?_) ?_ <;> known
        · show Known n k4 ((LC.zero : LC F) + y.var)
          known
      · exact SLocal.panic
    · exact SLocal.panic
  · exact SLocal.panic

/-! ### The two gadgets that allocate public inputs -/

theorem scope_inputize {a : AllocatedNum F} (ha : Known n k a) :
    (AllocatedNum.inputize a).run.Scope (fun n' k' r => k' = k ∧ (r = .ok () → n' = n + 1)) n k := by
  refine ⟨fun v => ⟨?_, ?_, ?_, rfl, fun _ => rfl⟩, fun e => ⟨rfl, by rintro ⟨⟩⟩⟩
  · exact known_addVar known_nil (Nat.lt_succ_self n)
  · exact known_addVar known_nil (Nat.succ_pos n)
  · exact known_addVar known_nil (Handle.mono (α := AllocatedNum F) (Nat.le_succ n) le_rfl ha)

theorem known_packNum (hn : 0 < n) {a : Num F} (c : F) {l : List Boolean} (ha : Known n k a) (hl : Known n k l) :
    Known n k (packNum a c l) := by
  induction l generalizing a c with
  | nil => exact ha
  | cons b bs ih => exact ih _ (known_addBoolWithCoeff hn ha (hl b (by simp))) fun x hx => hl x (by simp [hx])

theorem scope_packChunks (i : ℕ) {l : List (List Boolean)} (hl : Known n k l) :
    (packChunks i l : Synth F Unit).run.Scope (fun n' k' r => k' = k ∧ (r = .ok () → n' = n + l.length)) n k := by
  induction l generalizing n i with
  | nil => exact ⟨rfl, fun _ => rfl⟩
  | cons bits rest ih =>
    have hb : Known n k bits := hl bits (by simp)
    refine ⟨fun v => ⟨?_, ?_, ?_, ?_⟩, fun e => ⟨rfl, by rintro ⟨⟩⟩⟩
    · exact known_addScaled known_zero (known_lcomb (known_packNum (Nat.succ_pos n) 1 known_num_zero
        (Handle.mono (Nat.le_succ n) le_rfl hb)))
    · exact known_addVar known_nil (Nat.succ_pos n)
    · exact known_addVar known_nil (Nat.lt_succ_self n)
    · refine Circ.Scope.mono (ih (i + 1) (Handle.mono (Nat.le_succ n) le_rfl fun x hx => hl x (by simp [hx]))) ?_
      rintro n' k' r - - ⟨h1, h2⟩
      exact ⟨h1, fun h => by rw [h2 h, List.length_cons]; omega⟩

end Bellman
