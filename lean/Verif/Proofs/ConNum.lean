import Verif.Proofs.ConBoolean
import Verif.Proofs.ScopeNum

/-!
# The number and lookup gadgets constrain the variables they allocate
-/

namespace Bellman

open PrimeField

set_option linter.unusedSectionVars false

variable {F : Type} [PrimeField F] {n k : ℕ}

namespace AllocatedNum

theorem scon_karyAndLoop {cur : AllocatedBit} {l : List AllocatedBit} (i : ℕ) (hc : Known n k cur) (hl : Known n k l) :
    SCon n k noVar l.length l.length (karyAndLoop cur i l : Synth F _) := by
  induction l generalizing cur i k with
  | nil => exact SCon.pure
  | cons v vs ih =>
    refine SCon.le (SCon.bind (SCon.inNs _ (AllocatedBit.scon_and cur v))
      (SLocal.inNs _ (AllocatedBit.slocal_and hc (hl v (by simp)))) fun k1 c h1 hc =>
        ih (i + 1) hc (Known.lift (fun x hx => hl x (by simp [hx])) h1)) ?_ ?_ <;> rw [List.length_cons] <;> omega

theorem scon_karyAnd {l : List AllocatedBit} (hl : Known n k l) :
    SCon n k noVar (l.length - 1) (l.length - 1) (karyAnd l : Synth F _) := by
  cases l with
  | nil => exact SCon.panic
  | cons v vs => exact scon_karyAndLoop 1 (hl v (by simp)) fun x hx => hl x (by simp [hx])

/-- The cost of one iteration, counting the conjunctions when the run ends. -/
theorem scon_strictStep (hn : 0 < n) (a : Option Bool) (b : Bool) {st : StrictSt} (h : Known n k st) {C : ℕ}
    (hC : 1 + (if b then 0 else st.currentRun.length) ≤ C) :
    SCon n k noVar C C (strictStep a b st : Synth F _) := by
  unfold strictStep
  split
  · refine SCon.le (SCon.bind (SCon.inNs _ (AllocatedBit.scon_alloc a)) (SLocal.inNs _ (AllocatedBit.slocal_alloc hn a))
      fun k1 x h1 hx => SCon.pure (N := 0) (A := 0)) ?_ ?_ <;> omega
  · rename_i hb
    rw [if_neg hb] at hC
    refine SCon.le (SCon.bind (α := StrictSt) (N := st.currentRun.length) (A := st.currentRun.length) ?_ ?_
      fun k1 st' h1 hst => (?_ : SCon n k1 noVar 1 1 _)) (by omega) (by omega)
    · split
      · exact SCon.pure
      · have hr : Known n k (match st.lastRun with
            | some l => st.currentRun ++ [l]
            | none => st.currentRun) := by
          split
          · rename_i l hl
            have := h.2.1 l hl
            have := h.2.2
            known
          · exact h.2.2
        refine SCon.le (SCon.bind (SCon.inNs _ (scon_karyAnd hr)) (SLocal.inNs _ (slocal_karyAnd hr))
          fun k1 l h1 hl => SCon.pure (N := 0) (A := 0)) ?_ ?_ <;>
        · split
          · rw [List.length_append, List.length_singleton]; omega
          · omega
    · split
      · exact SLocal.pure h
      · refine SLocal.bind (SLocal.inNs _ (slocal_karyAnd ?_)) fun k1 l h1 hl => SLocal.pure ?_
        · split
          · rename_i l hl
            have := h.2.1 l hl
            have := h.2.2
            known
          · exact h.2.2
        · obtain ⟨hr, _, hc⟩ := Known.lift h h1
          exact ⟨hr, by rintro _ ⟨⟩; exact hl, known_list_nil⟩
    · split
      · exact SCon.panic
      · rename_i l hl
        refine SCon.le (SCon.bind (SCon.inNs _ (AllocatedBit.scon_allocConditionally a l))
          (SLocal.inNs _ (AllocatedBit.slocal_allocConditionally hn a (hst.2.1 l hl)))
          fun k2 x h2 hx => SCon.pure (N := 0) (A := 0)) ?_ ?_ <;> omega

theorem spost_strictStep (a : Option Bool) (b : Bool) (st : StrictSt) :
    SPost n k (fun s => s.currentRun.length = if b then st.currentRun.length + 1 else 0) (strictStep a b st : Synth F _) := by
  unfold strictStep
  split
  · refine SPost.bind SPost.any fun _ _ x _ _ _ => SPost.pure ?_
    simp
  · refine SPost.bind (P := fun s : StrictSt => s.currentRun.length = 0) ?_ fun _ _ s _ _ hs => ?_
    · split
      · rename_i h
        exact SPost.pure (by simpa using h)
      · exact SPost.bind SPost.any fun _ _ x _ _ _ => SPost.pure rfl
    · split
      · exact SPost.panic
      · exact SPost.bind SPost.any fun _ _ x _ _ _ => SPost.pure hs

theorem scon_strictLoop (hn : 0 < n) (l : List (Option Bool × Bool)) {st : StrictSt} (h : Known n k st) {C : ℕ}
    (hC : 2 * l.length + st.currentRun.length ≤ C) : SCon n k noVar C C (strictLoop l st : Synth F _) := by
  induction l generalizing st k C with
  | nil => exact SCon.pure
  | cons p rest ih =>
    obtain ⟨a, b⟩ := p
    unfold strictLoop
    dsimp only
    rw [List.length_cons] at hC
    have h' : Known n k ({ st with foundOne := st.foundOne || b } : StrictSt) := h
    split
    · refine SCon.le (SCon.bindPost (scon_strictStep hn a b (C := 1 + (if b then 0 else st.currentRun.length)) h' le_rfl)
        (slocal_strictStep hn a b h') (spost_strictStep a b _) fun k1 st' h1 hst hq =>
          ih hst (C := 2 * rest.length + (if b then st.currentRun.length + 1 else 0)) (by rw [hq])) ?_ ?_ <;>
      cases b <;> simp only [Bool.false_eq_true, if_false, if_true] <;> omega
    · split
      · exact SCon.panic
      · exact ih h' (C := C) (by show _ + st.currentRun.length ≤ _; omega)

theorem scon_toBitsLeStrict (hn : 0 < n) (a : AllocatedNum F) :
    SCon n k noVar (2 * REPR_BITS F + 1) (2 * REPR_BITS F) (toBitsLeStrict a) := by
  have hs : Known n k (⟨[], none, [], false, 0⟩ : StrictSt) := ⟨known_list_nil, by rintro _ ⟨⟩, known_list_nil⟩
  refine SCon.le (SCon.bind (scon_strictLoop hn _ (st := ⟨[], none, [], false, 0⟩) (C := 2 * REPR_BITS F) hs ?_)
    (slocal_strictLoop hn _ hs) fun k1 st h1 hst => (?_ : SCon n k1 noVar 1 0 _)) le_rfl le_rfl
  · show 2 * _ + 0 ≤ _
    rw [List.length_zip, List.length_reverse, show (toLeBits (-1 : F)).length = REPR_BITS F from by simp [toLeBits]]
    omega
  · dsimp only
    split
    · exact SCon.le (SCon.enforceBind noVar (fun x hx => hx.elim) (SCon.pure (N := 0) (A := 0))) le_rfl le_rfl
    · exact SCon.panic

theorem scon_toBitsLe (hn : 0 < n) (a : AllocatedNum F) : SCon n k noVar (NUM_BITS F + 1) (NUM_BITS F) (toBitsLe a) := by
  unfold toBitsLe
  refine SCon.le (SCon.bind (scon_fieldIntoAllocatedBitsLe hn a.value) (slocal_fieldIntoAllocatedBitsLe hn a.value) fun _ _ _ _ =>
    SCon.enforceBind noVar (fun _ hx => False.elim hx) (SCon.pure (N := 0) (A := 0))) ?_ ?_ <;> omega

variable {a b : AllocatedNum F} {c : Boolean}

theorem scon_mul (a b : AllocatedNum F) : SCon n k noVar 1 1 (mul a b) := by
  refine SCon.allocBind fun _ => SCon.enforceBind noVar (SCon.only (.inr (.inr ?_))) SCon.pure
  coeffs
  simp

theorem scon_square (a : AllocatedNum F) : SCon n k noVar 1 1 (square a) := by
  refine SCon.allocBind fun _ => SCon.enforceBind noVar (SCon.only (.inr (.inr ?_))) SCon.pure
  coeffs
  simp

theorem scon_assertNonzero (a : AllocatedNum F) : SCon n k noVar 1 1 (assertNonzero a) := by
  refine SCon.allocBind fun _ => SCon.enforce fun x hx => (SCon.only (.inr (.inl ?_)) x hx).resolve_left id
  coeffs
  simp

theorem scon_conditionallyReverse (ha : Known n k a) (hb : Known n k b) (c : Boolean) :
    SCon n k noVar 2 2 (conditionallyReverse a b c) := by
  refine SCon.numBind fun _ => SCon.enforceBind noVar (SCon.only (.inr (.inr ?_))) ?_
  · coeffs
    rw [if_neg (known_ne (known_num ha) le_rfl)]
    simp
  refine SCon.numBind fun _ => SCon.enforceBind noVar (SCon.only (.inr (.inr ?_))) SCon.pure
  coeffs
  rw [if_neg (known_ne (known_num hb) (Nat.le_succ k))]
  simp

end AllocatedNum

theorem scon_lookup3xy (hn : 0 < n) {bits : List Boolean} (hb : Known n k bits) (coords : List (F × F)) :
    SCon n k noVar 3 3 (lookup3xy bits coords) := by
  unfold lookup3xy
  split
  · rename_i b0 b1 b2
    have hb1 : Known n k b1 := hb b1 (by simp)
    have hb2 : Known n k b2 := hb b2 (by simp)
    split
    · refine SCon.numBind fun _ => SCon.numBind fun _ => ?_
      split
      · have h1 : Known n (k + 1 + 1) b1 := Known.lift hb1 (by omega)
        have h2 : Known n (k + 1 + 1) b2 := Known.lift hb2 (by omega)
        refine SCon.le (SCon.bindPost (SCon.inNs _ (Boolean.scon_and hn h1 h2)) (SLocal.inNs _ (Boolean.slocal_and hn h1 h2))
          (Q := fun r => Avoids (.aux k) r ∧ Avoids (.aux (k + 1)) r) ?_ fun k3 p h3 hp hq => ?_) (?_ : 1 + 2 ≤ 3) (?_ : 1 + 0 ≤ 1)
        · refine SPost.inNs _ fun t a he ht => ⟨?_, ?_⟩
          · exact Boolean.spost_and (by omega) (known_avoids hb1 le_rfl) (known_avoids hb2 le_rfl) t a he ht
          · exact Boolean.spost_and (by omega) (known_avoids hb1 (by omega)) (known_avoids hb2 (by omega)) t a he ht
        · refine SCon.enforceBind (fun x => x = .aux (k + 1)) ?_ (SCon.enforceBind noVar ?_ SCon.pure)
          · rintro x ((hx | rfl) | rfl)
            · exact hx.elim
            · right
              refine .inr (.inr ?_)
              coeffs
              rw [hq.1.lc, (known_avoids hb1 le_rfl).lc, (known_avoids hb2 le_rfl).lc, if_neg one_ne_aux]
              simp
            · exact .inl rfl
          · rintro x rfl
            right
            refine .inr (.inr ?_)
            coeffs
            rw [hq.2.lc, (known_avoids hb1 (Nat.le_succ k)).lc, (known_avoids hb2 (Nat.le_succ k)).lc, if_neg one_ne_aux]
            simp
        · omega
        · omega
      · exact SCon.panic
    · exact SCon.panic
  · exact SCon.panic

theorem scon_lookup3xyWithConditionalNegation (hn : 0 < n) {bits : List Boolean} (hb : Known n k bits) (coords : List (F × F)) :
    SCon n k noVar 2 2 (lookup3xyWithConditionalNegation bits coords) := by
  unfold lookup3xyWithConditionalNegation
  split
  · rename_i b0 b1 b2
    have hb0 : Known n k b0 := hb b0 (by simp)
    have hb1 : Known n k b1 := hb b1 (by simp)
    split
    · refine SCon.numBind fun _ => ?_
      split
      · have h1 : Known n (k + 1) b0 := Known.lift hb0 (by omega)
        have h2 : Known n (k + 1) b1 := Known.lift hb1 (by omega)
        refine SCon.le (SCon.bindPost (SCon.inNs _ (Boolean.scon_and hn h1 h2)) (SLocal.inNs _ (Boolean.slocal_and hn h1 h2))
          (SPost.inNs _ (Boolean.spost_and (j := k) (by omega) (known_avoids hb0 le_rfl) (known_avoids hb1 le_rfl)))
          fun k3 p h3 hp hq => SCon.enforceBind noVar (SCon.only (.inr (.inr ?_))) (SCon.pure (N := 0) (A := 0)))
          (?_ : 1 + 1 ≤ 2) (?_ : 1 + 0 ≤ 1)
        · coeffs
          rw [hq.lc, (known_avoids hb0 le_rfl).lc, (known_avoids hb1 le_rfl).lc, if_neg one_ne_aux]
          simp
        · omega
        · omega
      · exact SCon.panic
    · exact SCon.panic
  · exact SCon.panic

theorem AllocatedNum.scon_inputize (a : AllocatedNum F) : SCon n k noVar 1 0 (AllocatedNum.inputize a) :=
  SCon.inputBind fun _ => SCon.enforce fun _ hx => False.elim hx

theorem scon_packChunks (i : ℕ) (l : List (List Boolean)) : SCon n k noVar l.length 0 (packChunks i l : Synth F _) := by
  induction l generalizing i n with
  | nil => exact SCon.pure
  | cons b l ih => exact SCon.inputBind fun _ => SCon.enforceBind noVar (fun _ hx => False.elim hx) (ih (i + 1))

theorem chunksAux_numChunks {α : Type} {c : ℕ} (hc : 0 < c) {fuel : ℕ} {l : List α} (h : l.length ≤ fuel) :
    (chunksAux c fuel l).length = (l.length + c - 1) / c := by
  induction fuel generalizing l with
  | zero =>
    obtain rfl := List.length_eq_zero_iff.1 (Nat.le_zero.1 h)
    simp only [chunksAux, List.length_nil]
    exact (Nat.div_eq_of_lt (by omega)).symm
  | succ fuel ih =>
    cases l with
    | nil =>
      simp only [chunksAux, List.length_nil]
      exact (Nat.div_eq_of_lt (by omega)).symm
    | cons a l =>
      simp only [chunksAux, List.length_cons] at h ⊢
      rw [ih (by rw [List.length_drop, List.length_cons]; omega), List.length_drop, List.length_cons]
      by_cases hl : l.length + 1 ≤ c
      · rw [Nat.sub_eq_zero_of_le hl, Nat.div_eq_of_lt (by omega)]
        exact (Nat.div_eq_of_lt_le (by omega) (by omega)).symm
      · rw [← Nat.add_div_right _ hc]
        congr 1
        omega

theorem chunks_numChunks {α : Type} {c : ℕ} {l : List α} {cs : List (List α)} (h : chunks? c l = some cs) :
    cs.length = (l.length + c - 1) / c := by
  unfold chunks? at h
  split at h
  · cases h
  · rename_i h0
    cases h
    exact chunksAux_numChunks (Nat.pos_of_ne_zero h0) le_rfl

theorem scon_packIntoInputs (bits : List Boolean) :
    SCon n k noVar ((bits.length + CAPACITY F - 1) / CAPACITY F) 0 (packIntoInputs bits : Synth F _) := by
  unfold packIntoInputs
  split
  · exact SCon.panic
  · rename_i cs hc
    rw [← chunks_numChunks hc]
    exact scon_packChunks 0 cs

end Bellman
