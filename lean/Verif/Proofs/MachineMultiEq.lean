import Verif.Gadgets.MachineMultiEq
import Verif.Proofs.Machine
import Verif.Proofs.MultiEq
import Verif.Proofs.ConHash

/-!
# Lemmas about `MultiEq` and the hash paddings with machine integers
-/

set_option linter.unusedSectionVars false

namespace Bellman

open PrimeField

variable {F : Type} [PrimeField F] {ρ : Var → F} {α β : Type}

namespace MEq

theorem accumulateW_eq (b : Build) (k : MEq F → Circ F α) (s : MEq F) (h : s.ops + 1 < 2 ^ 64) :
    accumulateW b k s = accumulate k s := by
  unfold accumulateW accumulate
  rw [b.add_lt h]

theorem enforceEqualW_eq (b : Build) (n : ℕ) (l r : LC F) (s : MEq F) (hn : s.bitsUsed + n < 2 ^ 64) (ho : s.ops + 1 < 2 ^ 64) :
    (enforceEqualW b n l r).run.run s = (enforceEqual n l r).run.run s := by
  have ha : ∀ s' : MEq F, s'.bitsUsed + n < 2 ^ 64 → addW b n l r s' = if CAPACITY F > s'.bitsUsed + n then
        .ret (.ok (), ⟨s'.ops, s'.bitsUsed + n, s'.lhs + ((2 ^ s'.bitsUsed : F), l), s'.rhs + ((2 ^ s'.bitsUsed : F), r)⟩)
      else .panic "assert!((Scalar::CAPACITY as usize) > (self.bits_used + num_bits))" := by
    intro s' h
    unfold addW
    rw [b.add_lt h]
  have h1 : (enforceEqualW b n l r).run.run s =
      match b.add 64 s.bitsUsed n with
      | some m => if CAPACITY F ≤ m then accumulateW b (addW b n l r) s else addW b n l r s
      | none => .panic "attempt to add with overflow" := rfl
  rw [h1, b.add_lt hn]
  show (if CAPACITY F ≤ s.bitsUsed + n then _ else _) = if CAPACITY F ≤ s.bitsUsed + n then _ else _
  split
  · rw [accumulateW_eq b _ s ho]
    unfold accumulate
    rw [ha ⟨s.ops + 1, 0, LC.zero, LC.zero⟩ (by simp only; omega)]
  · rw [ha s hn]

/-- In a debug build nothing is lost: an overflow panics. -/
theorem wpS_enforceEqualW (b : Build) (h1 : ρ .one = 1) {s : MEq F} {P : Prop} (hs : SInv ρ s P) {n : ℕ} {l r : LC F} {x y : ℕ}
    (hl : Bounded ρ n l x) (hr : Bounded ρ n r y) (hn : b = .debug ∨ s.bitsUsed + n < 2 ^ 64) :
    MSynth.wpS ρ (enforceEqualW b n l r) s fun _ s => SInv ρ s (P ∧ x = y) := by
  have h := wpS_enforceEqual h1 hs hl hr
  unfold MSynth.wpS at h ⊢
  change Circ.wpS ρ (if CAPACITY F ≤ s.bitsUsed + n then _ else _) _ at h
  change Circ.wpS ρ (match b.add 64 s.bitsUsed n with
      | some m => if CAPACITY F ≤ m then accumulateW b (addW b n l r) s else addW b n l r s
      | none => .panic "attempt to add with overflow") _
  by_cases hlt : s.bitsUsed + n < 2 ^ 64
  · rw [b.add_lt hlt]
    dsimp only
    split at h
    · rename_i hc
      rw [if_pos hc]
      unfold accumulate at h
      unfold accumulateW
      intro he
      have h := h he
      dsimp only at h
      cases ho : b.add 64 s.ops 1 with
      | none => trivial
      | some ops =>
        unfold addW
        dsimp only
        rw [b.add_lt (show 0 + n < 2 ^ 64 by omega)]
        dsimp only
        split at h
        · rename_i hc
          rw [if_pos hc]
          exact h
        · rename_i hc
          rw [if_neg hc]
          trivial
    · rename_i hc
      rw [if_neg hc]
      unfold addW
      rw [b.add_lt hlt]
      exact h
  · rcases hn with rfl | hn
    · unfold Build.add Build.fit
      rw [if_neg hlt]
      trivial
    · exact absurd hn hlt

theorem SInv.bits_le {s : MEq F} {P : Prop} (h : SInv ρ s P) : s.bitsUsed ≤ CAPACITY F := by
  obtain ⟨_, _, _, _, _, _, h, _⟩ := h
  have := (Nat.pow_lt_pow_iff_right (by norm_num : 1 < 2)).1 (h.trans (p_lt_two_pow (F := F)))
  have := capacity_lt (F := F)
  omega

end MEq

theorem MSynth.wpS_withMultiEqW (b : Build) (h1 : ρ .one = 1) {m : MSynth F α} {Q : α → Prop} (h : MSynth.wpS ρ m MEq.new
    fun a s => MEq.SInv ρ s (Q a)) : Synth.wpS ρ (withMultiEqW b m) Q := by
  unfold Synth.wpS withMultiEqW
  show Circ.wpS ρ (Circ.bind _ _) _
  rw [Circ.wpS_bind]
  refine Circ.wpS_mono ρ _ ?_ h
  rintro ⟨r, s⟩ hr
  show Circ.wpS ρ (if s.bitsUsed > 0 then _ else _) _
  split
  · unfold MEq.accumulateW
    intro he
    rw [LC.eval_addVar, LC.eval_zero, zero_add, h1, mul_one] at he
    cases b.add 64 s.ops 1 with
    | none => trivial
    | some ops =>
      cases r with
      | error e => trivial
      | ok a => exact MEq.SInv.acc hr he
  · cases r with
    | error e => trivial
    | ok a =>
      obtain ⟨L, R, _, _, l1, l2, _, hP⟩ := hr
      have h0 : s.bitsUsed = 0 := by omega
      rw [h0] at l1 l2
      exact hP (by omega)

namespace Sha256

theorem padZerosW_eq (b : Build) (n : ℕ) : ∀ padded : List Boolean, (512 - (padded.length + 64) % 512) % 512 = n →
    padded.length + n + 64 < 2 ^ 64 → padZerosW b padded = some (padZeros padded) := by
  induction n with
  | zero =>
    intro padded h hl
    rw [padZerosW, padZeros, b.add_lt (show padded.length + 64 < 2 ^ 64 by omega)]
    have : (padded.length + 64) % 512 = 0 := by omega
    simp [this]
  | succ n ih =>
    intro padded h hl
    have : ¬ (padded.length + 64) % 512 = 0 := by omega
    have hr := ih (padded ++ [.constant false]) (by simp only [List.length_append, List.length_singleton]; omega)
      (by simp only [List.length_append, List.length_singleton]; omega)
    rw [padZerosW, padZeros, b.add_lt (show padded.length + 64 < 2 ^ 64 by omega), if_neg this]
    simp only [Option.bind_eq_bind, Option.bind_some, if_neg this, hr]

theorem padW_eq (b : Build) (input : List Boolean) (h : input.length < 2 ^ 63) : padW b input = some (pad input) := by
  unfold padW pad
  rw [padZerosW_eq b _ _ rfl (by
    simp only [List.length_append, List.length_singleton]
    have := Nat.mod_lt (512 - (input.length + 1 + 64) % 512) (by norm_num : 0 < 512)
    omega)]
  rfl

theorem sha256W_eq (b : Build) (input : List Boolean) (h : input.length < 2 ^ 63) :
    (sha256W b input : Synth F (List Boolean)) = sha256 input := by
  unfold sha256W sha256
  rw [padW_eq b input h]
  dsimp only
  split
  · split
    · cases chunks? 512 (pad input) <;> rfl
    · rfl
  · rfl

end Sha256

namespace Blake2s

theorem counterW_eq (b : Build) (i : ℕ) (h : i + 1 < 2 ^ 58) :
    ∃ t, (b.add 64 i 1).bind (fun x => b.mul 64 x 64) = some t ∧ BitVec.ofNat 64 t = (BitVec.ofNat 64 i + 1#64) * 64#64 := by
  refine ⟨(i + 1) * 64, ?_, ?_⟩
  · rw [b.add_lt (by omega), Option.bind_some, b.mul_lt (by omega)]
  · rw [BitVec.ofNat_mul, BitVec.ofNat_add]

theorem blockLoopW_eq (b : Build) (len : ℕ) : ∀ (blocks : List (List UInt32)) (i : ℕ) (h : List UInt32),
    i + blocks.length < 2 ^ 58 → (blockLoopW b len i h blocks : Synth F (List UInt32)) = blockLoop len i h blocks
  | [], _, _, _ => rfl
  | [_], _, _, _ => rfl
  | block :: c :: blocks, i, h, hl => by
    have hl' : i + 1 + (c :: blocks).length < 2 ^ 58 := by
      rw [List.length_cons] at hl
      rw [Nat.add_right_comm]
      exact hl
    obtain ⟨t, h1, h2⟩ := counterW_eq b i (Nat.lt_of_le_of_lt (Nat.le_add_right _ _) hl')
    have ih := fun h => blockLoopW_eq b len (c :: blocks) (i + 1) h hl'
    rw [blockLoopW, blockLoop]
    · simp only [Option.bind_eq_bind, h1, h2, ih]
    · simp
    · simp

theorem blake2sW_eq (b : Build) (input : List Boolean) (h : input.length < 2 ^ 64) (pers : List (BitVec 8)) :
    (blake2sW b input pers : Synth F (List Boolean)) = blake2s input pers := by
  unfold blake2sW blake2s
  split
  · split
    · cases hb : mkBlocks input with
      | none => rfl
      | some blocks =>
        dsimp only
        rw [blockLoopW_eq b]
        have := mkBlocks_length hb
        have : blocks.length ≤ 2 ^ 55 := by omega
        omega
    · rfl
  · rename_i hx
    split
    · exact (hx _ _ _ _ _ _ _ _ rfl).elim
    · rfl

end Blake2s

end Bellman
