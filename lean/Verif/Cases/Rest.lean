import Verif.Props.Witness
import Verif.Props.Groth16
import Verif.Props.GadgetTests
import Verif.Props.WordTests
import Verif.Props.Threads

/-! # Concrete cases: witness independence and the remaining theorems -/

namespace Bellman.Cases

open PrimeField
open List (Forall₂)

/-! ### C18: once with values and once without -/

/-- A bit with and without its value. -/
theorem same_bit (i : ℕ) (v : Bool) : Boolean.Same (.is ⟨.aux i, some v⟩) (.is ⟨.aux i, none⟩) := rfl

theorem same_bits (n : ℕ) (v : Bool) :
    Forall₂ Boolean.Same (List.replicate n (.is ⟨.aux 0, some v⟩)) (List.replicate n (.is ⟨.aux 0, none⟩)) := by
  induction n with
  | zero => exact .nil
  | succ n ih => exact .cons (same_bit 0 v) ih

example := C18_alloc (F := BlsScalar) (K := DummyFr) (some true) none ⟨.aux 3, some true⟩ ⟨.aux 3, none⟩ rfl (some 5) none (some 7) none (.ok 9)
  (.error .assignmentMissing) (some 3) none

example := C18_bits (F := BlsScalar) (a := ⟨.aux 0, some true⟩) (a' := ⟨.aux 0, none⟩) (b := ⟨.aux 1, some false⟩) (b' := ⟨.aux 1, none⟩) rfl rfl

example := C18_booleans (F := BlsScalar) (same_bit 0 true) (same_bit 1 false) (same_bit 2 true)

example := C18_num (F := BlsScalar) (a := ⟨some 5, .aux 0⟩) (a' := ⟨none, .aux 0⟩) (b := ⟨some 6, .aux 1⟩) (b' := ⟨none, .aux 1⟩) rfl rfl (same_bit 2 true)

example (coords : List (BlsScalar × BlsScalar)) := C18_lookup_pack (F := BlsScalar) (same_bits 3 true) coords

/-- A word with and without its value. -/
theorem sim_word : UInt32.Sim ⟨List.replicate 32 (.is ⟨.aux 0, some true⟩), some 0xffffffff⟩ ⟨List.replicate 32 (.is ⟨.aux 0, none⟩), none⟩ :=
  ⟨same_bits 32 true, List.length_replicate⟩

theorem wk_word : UInt32.WK ⟨List.replicate 32 (.is ⟨.aux 0, some true⟩), some 0xffffffff⟩ ⟨List.replicate 32 (.is ⟨.aux 0, none⟩), none⟩ :=
  ⟨sim_word, fun h => absurd (h (.is ⟨.aux 0, some true⟩) (by simp)) (by simp [Boolean.isConstant])⟩

example := C18_words (F := BlsScalar) sim_word sim_word sim_word

/-- A constant and two variable words. -/
example := C18_addmany (F := BlsScalar) (.cons (UInt32.wk_constant 7) (.cons wk_word (.cons wk_word .nil)))

/-- The SHA-256 circuit of sixty-four bits is one circuit whether or not the bits are known. -/
example (pers : List (BitVec 8)) := C18_hashes (F := BlsScalar) (same_bits 64 true) pers

/-! ### C31 -/

theorem square_noCancel : (Qap.ofTrace squareTrace).NoCancel := by
  intro x hx
  have hx : x ∈ [Var.input 0, .input 1, .aux 0] := hx
  have hr : (Qap.ofTrace squareTrace).rows = [((⟨[(.aux 0, 1)]⟩, ⟨[(.aux 0, 1), (.input 1, 0)]⟩, ⟨[(.input 1, 1)]⟩) : Row DummyFr),
      (⟨[(.aux 0, 2)]⟩, ⟨[(.input 0, 1)]⟩, ⟨[(.aux 0, 1), (.aux 0, 1)]⟩), (⟨[(.input 0, 1)]⟩, ⟨[]⟩, ⟨[]⟩),
      (⟨[(.input 1, 1)]⟩, ⟨[]⟩, ⟨[]⟩)] := rfl
  unfold Qap.Uses
  rw [hr]
  simp only [List.mem_cons, List.not_mem_nil, or_false] at hx
  rcases hx with rfl | rfl | rfl
  · simp [LC.coeffOf]
  · simp [LC.coeffOf]
  · simp [LC.coeffOf]

/-- For all but 23 values of `τ`, whenever parameters exist, so do proofs of every statement. -/
example : ∃ bad : Finset DummyFr, bad.card ≤ 23 ∧ ∀ τ ∉ bad, ∀ (w w' : Worker) (x y α β γ δ r s : DummyFr) (params : Parameters DummyFr DummyFr),
    generateParameters w (squareCircuit none) (1 : DummyFr) (1 : DummyFr) α β γ δ τ = Res.ok params →
    ∃ pf, createProof w' (claimCircuit (some x) (some y)) params r s = Res.ok pf := by
  obtain ⟨bad, hb, h⟩ := C31_regular_trace (G1 := DummyFr) (G2 := DummyFr) (R := fun _ _ => True) squareTrace squareTrace_key square_noCancel
    (by show 1 + 1 < _; norm_num) (by show 1 < _; norm_num) (by rw [square_good.m]; norm_num)
  rw [square_good.m] at hb
  exact ⟨bad, hb, fun τ hτ w w' x y α β γ δ r s params hk => h τ hτ w w' _ 1 1 α β γ δ r s params
    (claimCircuit_shape none (some x) (some y)) ⟨_, claimTrace_prover x y⟩ one_ne_zero one_ne_zero hk⟩

/-! ### C60: threads of the pool -/

open Compute

/-- A thread of the pool that waits for nothing may finish; with what it returns without waiting. -/
example : ∃ (c : Config ℕ ℕ) (th : Thread ℕ ℕ), Config.Reachable 1 [(true, .ret (some 5))] c ∧ c.threads[0]? = some th ∧ th.finished (some 5) ∧
    ((some 5 : Option ℕ) = none ∨ Own.Early 0 (.ret (some 5) : Own ℕ ℕ) (some 5)) := by
  have hf : (⟨true, .ret (some 5), []⟩ : Thread ℕ ℕ).finished (some 5) := ⟨rfl, by simp⟩
  exact ⟨_, ⟨true, .ret (some 5), []⟩, .refl, rfl, hf, C60_pool (n := 1) (ps := [(true, .ret (some 5))]) .refl (t := 0) rfl rfl hf⟩

/-! ### C67 -/

example := (C67_enforce_equal true false rfl true true false true).1

end Bellman.Cases
