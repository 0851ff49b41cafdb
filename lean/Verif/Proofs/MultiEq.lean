import Verif.Proofs.Boolean
import Verif.Gadgets.MultiEq
import Mathlib.Tactic.LinearCombination

/-!
# Lemmas about `MultiEq`
-/

set_option linter.unusedSimpArgs false
set_option linter.unusedSectionVars false
set_option linter.unusedVariables false

namespace Bellman

open PrimeField

variable {F : Type} [PrimeField F] {ρ : Var → F} {α β : Type}

namespace MSynth

/-- Soundness weakest precondition for programs with a `MultiEq`. -/
def wpS (ρ : Var → F) (m : MSynth F α) (s : MEq F) (Q : α → MEq F → Prop) : Prop :=
  Circ.wpS ρ (m.run.run s) fun r => match r.1 with
    | .ok a => Q a r.2
    | .error _ => True

/-- Completeness weakest precondition for programs with a `MultiEq`. -/
def wpC (ρ : Var → F) (m : MSynth F α) (s : MEq F) (Q : α → MEq F → Prop) : Prop :=
  Circ.wpC ρ (m.run.run s) fun r => match r.1 with
    | .ok a => Q a r.2
    | .error _ => False

theorem wpS_mono {m : MSynth F α} {s} {Q Q' : α → MEq F → Prop} (h : wpS ρ m s Q)
    (hQ : ∀ a s, Q a s → Q' a s) : wpS ρ m s Q' := by
  refine Circ.wpS_mono ρ _ ?_ h
  rintro ⟨r, s⟩
  cases r with
  | ok a => exact hQ a s
  | error e => exact id

theorem wpC_mono {m : MSynth F α} {s} {Q Q' : α → MEq F → Prop} (h : wpC ρ m s Q)
    (hQ : ∀ a s, Q a s → Q' a s) : wpC ρ m s Q' := by
  refine Circ.wpC_mono ρ _ ?_ h
  rintro ⟨r, s⟩
  cases r with
  | ok a => exact hQ a s
  | error e => exact id

theorem wpS_pure (a : α) (s) (Q : α → MEq F → Prop) : wpS ρ (pure a : MSynth F α) s Q ↔ Q a s := Iff.rfl
theorem wpC_pure (a : α) (s) (Q : α → MEq F → Prop) : wpC ρ (pure a : MSynth F α) s Q ↔ Q a s := Iff.rfl

theorem run_bind (m : MSynth F α) (g : α → MSynth F β) (s : MEq F) :
    ((m >>= g).run.run s : Circ F _) = (m.run.run s).bind fun r => match r.1 with
      | .ok a => (g a).run.run r.2
      | .error e => .ret (.error e, r.2) := by
  show Circ.bind _ _ = Circ.bind _ _
  congr 1
  funext r
  obtain ⟨r, s⟩ := r
  cases r <;> rfl

theorem wpS_bind (m : MSynth F α) (g : α → MSynth F β) (s) (Q : β → MEq F → Prop) :
    wpS ρ (m >>= g) s Q ↔ wpS ρ m s fun a s => wpS ρ (g a) s Q := by
  unfold wpS
  rw [run_bind, Circ.wpS_bind]
  constructor <;> refine Circ.wpS_mono ρ _ ?_ <;> rintro ⟨r, s⟩ <;> cases r <;> exact id

theorem wpC_bind (m : MSynth F α) (g : α → MSynth F β) (s) (Q : β → MEq F → Prop) :
    wpC ρ (m >>= g) s Q ↔ wpC ρ m s fun a s => wpC ρ (g a) s Q := by
  unfold wpC
  rw [run_bind, Circ.wpC_bind]
  constructor <;> refine Circ.wpC_mono ρ _ ?_ <;> rintro ⟨r, s⟩ <;> cases r <;> exact id

theorem wpS_inNs (n : String) (m : MSynth F α) (s) (Q : α → MEq F → Prop) :
    wpS ρ (inNs n m) s Q ↔ wpS ρ m s Q := by
  show Circ.wpS ρ (Circ.push n (Circ.bind _ _)) _ ↔ _
  simp only [Circ.wpS, Circ.wpS_bind]
  rfl

theorem wpC_inNs (n : String) (m : MSynth F α) (s) (Q : α → MEq F → Prop) :
    wpC ρ (inNs n m) s Q ↔ wpC ρ m s Q := by
  show Circ.wpC ρ (Circ.push n (Circ.bind _ _)) _ ↔ _
  simp only [Circ.wpC, Circ.wpC_bind]
  rfl

theorem wpS_lift (m : Synth F α) (s) (Q : α → MEq F → Prop) :
    wpS ρ (lift m) s Q ↔ Synth.wpS ρ m fun a => Q a s := by
  show Circ.wpS ρ (Circ.bind _ _) _ ↔ _
  rw [Circ.wpS_bind]
  rfl

theorem wpC_lift (m : Synth F α) (s) (Q : α → MEq F → Prop) :
    wpC ρ (lift m) s Q ↔ Synth.wpC ρ m fun a => Q a s := by
  show Circ.wpC ρ (Circ.bind _ _) _ ↔ _
  rw [Circ.wpC_bind]
  rfl

end MSynth

namespace MEq

/-- Soundness invariant: both sides are sums below `2^bits_used`, and if the sums agree then `P` (the
conjunction of all equalities enforced so far). -/
def SInv (ρ : Var → F) (s : MEq F) (P : Prop) : Prop :=
  ∃ L R : ℕ, s.lhs.eval ρ = (L : F) ∧ s.rhs.eval ρ = (R : F) ∧ L < 2 ^ s.bitsUsed ∧ R < 2 ^ s.bitsUsed ∧
    2 ^ s.bitsUsed < p F ∧ (L = R → P)

theorem SInv.mono {s : MEq F} {P P' : Prop} (h : SInv ρ s P) (hP : P → P') : SInv ρ s P' := by
  obtain ⟨L, R, h1, h2, h3, h4, h5, h6⟩ := h
  exact ⟨L, R, h1, h2, h3, h4, h5, fun e => hP (h6 e)⟩

theorem SInv.new : SInv ρ (MEq.new : MEq F) True :=
  ⟨0, 0, by simp [MEq.new], by simp [MEq.new], by simp [MEq.new], by simp [MEq.new],
    by simpa [MEq.new] using (lt_trans one_lt_two two_lt_p), fun _ => trivial⟩

/-- Completeness invariant: the accumulated equation holds. -/
def CInv (ρ : Var → F) (s : MEq F) : Prop := s.lhs.eval ρ = s.rhs.eval ρ

theorem CInv.new : CInv ρ (MEq.new : MEq F) := rfl

theorem SInv.acc {s : MEq F} {P : Prop} (h : SInv ρ s P) (he : s.lhs.eval ρ = s.rhs.eval ρ) : P := by
  obtain ⟨L, R, h1, h2, h3, h4, h5, h6⟩ := h
  rw [h1, h2] at he
  exact h6 (cast_inj_of_lt (h3.trans h5) (h4.trans h5) he)

/-- Values of the two sides of an equality of `n` bits. -/
structure Bounded (ρ : Var → F) (n : ℕ) (l : LC F) (a : ℕ) : Prop where
  eval : l.eval ρ = (a : F)
  lt : a < 2 ^ n

theorem wpS_enforceEqual (h1 : ρ .one = 1) {s : MEq F} {P : Prop} (hs : SInv ρ s P) {n : ℕ} {l r : LC F} {a b : ℕ}
    (hl : Bounded ρ n l a) (hr : Bounded ρ n r b) :
    MSynth.wpS ρ (enforceEqual n l r) s fun _ s => SInv ρ s (P ∧ a = b) := by
  have key : ∀ s' : MEq F, SInv ρ s' P → CAPACITY F > s'.bitsUsed + n →
      SInv ρ ⟨s'.ops, s'.bitsUsed + n, s'.lhs + ((2 ^ s'.bitsUsed : F), l), s'.rhs + ((2 ^ s'.bitsUsed : F), r)⟩
        (P ∧ a = b) := by
    rintro s' ⟨L, R, e1, e2, l1, l2, l3, hP⟩ hc
    refine ⟨L + 2 ^ s'.bitsUsed * a, R + 2 ^ s'.bitsUsed * b, ?_, ?_, ?_, ?_, ?_, ?_⟩
    · simp only [LC.eval_addScaled, e1, hl.eval]; push_cast; ring
    · simp only [LC.eval_addScaled, e2, hr.eval]; push_cast; ring
    · have := hl.lt
      simp only [pow_add]
      calc L + 2 ^ s'.bitsUsed * a < 2 ^ s'.bitsUsed * (a + 1) := by rw [Nat.mul_add]; omega
        _ ≤ _ := Nat.mul_le_mul_left _ this
    · have := hr.lt
      simp only [pow_add]
      calc R + 2 ^ s'.bitsUsed * b < 2 ^ s'.bitsUsed * (b + 1) := by rw [Nat.mul_add]; omega
        _ ≤ _ := Nat.mul_le_mul_left _ this
    · exact lt_of_lt_of_le (Nat.pow_lt_pow_right (by norm_num) hc) two_pow_capacity_lt.le
    · intro h
      have hm := congrArg (· % 2 ^ s'.bitsUsed) h
      simp only [Nat.add_mul_mod_self_left, Nat.mod_eq_of_lt l1, Nat.mod_eq_of_lt l2] at hm
      subst hm
      have h' := Nat.add_left_cancel h
      exact ⟨hP rfl, Nat.eq_of_mul_eq_mul_left (by positivity) h'⟩
  unfold MSynth.wpS enforceEqual
  show Circ.wpS ρ (if CAPACITY F ≤ s.bitsUsed + n then _ else _) _
  split
  · unfold accumulate
    show _ → _
    intro he
    rw [LC.eval_addVar, LC.eval_zero, zero_add, h1, mul_one] at he
    dsimp only
    split
    · exact key ⟨s.ops + 1, 0, LC.zero, LC.zero⟩ (SInv.mono (ρ := ρ) (s := ⟨s.ops + 1, 0, LC.zero, LC.zero⟩) SInv.new
        fun _ => hs.acc he) (by assumption)
    · trivial
  · dsimp only
    split
    · exact key s hs (by assumption)
    · trivial

theorem wpC_enforceEqual (h1 : ρ .one = 1) {s : MEq F} (hs : CInv ρ s) {n : ℕ} {l r : LC F}
    (he : l.eval ρ = r.eval ρ) (hn : n < CAPACITY F) :
    MSynth.wpC ρ (enforceEqual n l r) s fun _ s => CInv ρ s := by
  unfold MSynth.wpC enforceEqual
  show Circ.wpC ρ (if CAPACITY F ≤ s.bitsUsed + n then _ else _) _
  split
  · unfold accumulate
    refine ⟨?_, ?_⟩
    · rw [LC.eval_addVar, LC.eval_zero, zero_add, h1, mul_one]; exact hs
    · simp only []
      rw [if_pos (by omega)]
      show LC.eval _ _ = LC.eval _ _
      simp only [LC.eval_addScaled, he]
  · simp only []
    rw [if_pos (by omega)]
    show LC.eval _ _ = LC.eval _ _
    simp only [LC.eval_addScaled, he]
    rw [show s.lhs.eval ρ = s.rhs.eval ρ from hs]

end MEq

theorem MSynth.wpS_withMultiEq (h1 : ρ .one = 1) {m : MSynth F α} {Q : α → Prop} (h : MSynth.wpS ρ m MEq.new
    fun a s => MEq.SInv ρ s (Q a)) : Synth.wpS ρ (withMultiEq m) Q := by
  unfold Synth.wpS withMultiEq
  show Circ.wpS ρ (Circ.bind _ _) _
  rw [Circ.wpS_bind]
  refine Circ.wpS_mono ρ _ ?_ h
  rintro ⟨r, s⟩ hr
  cases r with
  | error e =>
    show Circ.wpS ρ (if s.bitsUsed > 0 then _ else _) _
    split
    · exact fun _ => trivial
    · trivial
  | ok a =>
    show Circ.wpS ρ (if s.bitsUsed > 0 then _ else _) _
    split
    · show _ → _
      intro he
      rw [LC.eval_addVar, LC.eval_zero, zero_add, h1, mul_one] at he
      exact MEq.SInv.acc hr he
    · obtain ⟨L, R, _, _, l1, l2, _, hP⟩ := hr
      have h0 : s.bitsUsed = 0 := by omega
      rw [h0] at l1 l2
      exact hP (by omega)

theorem MSynth.wpC_withMultiEq (h1 : ρ .one = 1) {m : MSynth F α} {Q : α → Prop} (h : MSynth.wpC ρ m MEq.new
    fun a s => MEq.CInv ρ s ∧ Q a) : Synth.wpC ρ (withMultiEq m) Q := by
  unfold Synth.wpC withMultiEq
  show Circ.wpC ρ (Circ.bind _ _) _
  rw [Circ.wpC_bind]
  refine Circ.wpC_mono ρ _ ?_ h
  rintro ⟨r, s⟩ hr
  cases r with
  | error e => exact hr.elim
  | ok a =>
    show Circ.wpC ρ (if s.bitsUsed > 0 then _ else _) _
    split
    · refine ⟨?_, hr.2⟩
      rw [LC.eval_addVar, LC.eval_zero, zero_add, h1, mul_one]; exact hr.1
    · exact hr.2

end Bellman
