import Verif.Spec.Size
import Verif.Proofs.CostEval
import Verif.FieldInstances
import Verif.Props.Constrained

/-!
# C55: the exact size of the hash circuits

The number of constraints is what proving costs.  The tests of the repository record it for one input each; here it is shown for all
inputs of a kind, whatever the witness, and whichever of the constraint systems runs the circuit.  It depends on the field only by
`CAPACITY`, the number of bits that fit into one batched equation; 254 is the value for BLS12-381, which the tests use.
-/

namespace Bellman

open PrimeField List

set_option linter.unusedSectionVars false

variable {F : Type} [PrimeField F]

theorem Cost.Exactly.hasSize {α : Type} {m : Synth F α} {g e c : ℕ} {Q : α → Prop} (h : Cost.Exactly m g e Q) (hc : g + e = c) :
    HasSize m g c Q := fun t r he => ⟨(h t r he).2.1, hc ▸ (h t r he).2.2, (h t r he).1⟩

theorem HasSize.mono {α : Type} {m : Synth F α} {v c : ℕ} {Q : α → Prop} (h : HasSize m v c Q) : HasSize m v c fun _ => True :=
  fun t r he => ⟨(h t r he).1, (h t r he).2.1, trivial⟩

/-- C55: sizes add up. -/
theorem C55_seq {α β : Type} {m : Synth F α} {f : α → Synth F β} {v c v' c' : ℕ} {Q : α → Prop} {P : β → Prop} (h : HasSize m v c Q)
    (hf : ∀ a, Q a → HasSize (f a) v' c' P) : HasSize (m >>= f) (v + v') (c + c') P := by
  intro t r he
  obtain ⟨t1, t2, a, rfl, e1, e2⟩ := Synth.exec_bind_inv he
  obtain ⟨h1, h2, h3⟩ := h _ _ e1
  obtain ⟨k1, k2, k3⟩ := hf a h3 _ _ e2
  rw [numAux_append, consOf_append, length_append]
  exact ⟨by omega, by omega, k3⟩

/-- C55 for one block of SHA-256 without padding: 25840 constraints. -/
theorem C55_sha256_block (hc : CAPACITY F = 254) {input : List Boolean} (hi : NoConstants input) (hl : input.length = 512) :
    HasSize (Sha256.sha256BlockNoPadding input : Synth F _) 25814 25840 fun r => NoConstants r ∧ r.length = 256 := by
  unfold Sha256.sha256BlockNoPadding
  rw [if_pos hl]
  exact ((Cost.Sha256.exactly_first hc hi hl).map fun r hr => ⟨(Cost.allV_flatMap hr).1, (Cost.allV_flatMap hr).2.1⟩).hasSize rfl

/-- C55 for SHA-256 of whole blocks: 44874 constraints for the first block together with the block of padding, and 26192 for every
further block. -/
theorem C55_sha256 (hc : CAPACITY F = 254) {input : List Boolean} (hi : NoConstants input) {b : ℕ} (hl : input.length = 512 * (b + 1)) :
    HasSize (Sha256.sha256 input : Synth F _) (44828 + 26166 * b) (44874 + 26192 * b) fun r => NoConstants r ∧ r.length = 256 := by
  rw [Nat.mul_comm 26166]
  exact (Cost.Sha256.exactly_sha256 hc hi hl).hasSize (by ring)

/-- C55 for SHA-256 of 256 bits, the size of its own output, and of 640 bits, the size of a Bitcoin block header. -/
theorem C55_sha256_short (hc : CAPACITY F = 254) {input : List Boolean} (hi : NoConstants input) :
    (input.length = 256 → HasSize (Sha256.sha256 input : Synth F _) 25218 25244 fun r => NoConstants r ∧ r.length = 256) ∧
    (input.length = 640 → HasSize (Sha256.sha256 input : Synth F _) 51140 51192 fun r => NoConstants r ∧ r.length = 256) :=
  ⟨fun hl => (Cost.Sha256.exactly_256 hc hi hl).hasSize rfl, fun hl => (Cost.Sha256.exactly_640 hc hi hl).hasSize rfl⟩

/-- C55 for BLAKE2s of whole blocks, after any number of constant blocks: 21006 constraints for the first block and 21390 for every
further one, with any personalization.  The constant blocks cost nothing. -/
theorem C55_blake2s (hc : CAPACITY F = 254) {pre input : List Boolean} {p b : ℕ} (hp : Constants pre) (hpl : pre.length = 512 * p)
    (hi : NoConstants input) (hl : input.length = 512 * (b + 1)) (personalization : List (BitVec 8)) :
    HasSize (Blake2s.blake2s (pre ++ input) personalization : Synth F _) (20960 + 21344 * b) (21006 + 21390 * b)
      fun r => NoConstants r ∧ r.length = 256 := by
  rw [Nat.mul_comm 21344]
  exact (Cost.Blake2s.exactly_blake2s hc hp hpl hi hl personalization).hasSize (by ring)

/-- C55 for constants of any length, in any field: hashing them makes no variables and no constraints, and gives constants. -/
theorem C55_constants {input : List Boolean} (hi : Constants input) (personalization : List (BitVec 8)) :
    HasSize (Sha256.sha256 input : Synth F _) 0 0 Constants ∧ HasSize (Blake2s.blake2s input personalization : Synth F _) 0 0 Constants :=
  ⟨(Cost.Sha256.exactly_sha256C hi).hasSize rfl, (Cost.Blake2s.exactly_blake2sC hi personalization).hasSize rfl⟩

theorem exactly_allocPreimage (i : ℕ) (vs : List (Option Bool)) :
    Cost.Exactly (Preimage.allocPreimage i vs : Synth F _) vs.length 0 fun r => NoConstants r ∧ r.length = vs.length := by
  induction vs generalizing i with
  | nil => exact Cost.Exactly.pure ⟨fun _ h => absurd h not_mem_nil, rfl⟩
  | cons v vs ih =>
    rw [length_cons, Nat.add_comm]
    refine (Cost.Exactly.inNs _ (Cost.exactly_alloc v)).bind (e := 0) (e' := 0) fun b _ => (ih (i + 1)).map fun r hr => ⟨?_, by simp [hr.2, Nat.add_comm]⟩
    intro x hx
    rcases mem_cons.1 hx with rfl | hx
    · rfl
    · exact hr.1 x hx

theorem exactly_packChunks (i : ℕ) (cs : List (List Boolean)) :
    Cost.Exactly (packChunks i cs : Synth F _) 0 cs.length fun _ => True := by
  induction cs generalizing i with
  | nil => exact Cost.Exactly.pure trivial
  | cons c cs ih =>
    intro t r he
    rcases (show Exec (Circ.alloc true _ _ fun a => _) t _ from he) with _ | _ | ⟨x, he⟩ | ⟨x, v, hf, he⟩ | ⟨e, he⟩
    · rcases (show Exec (Circ.enforce _ _ _ _ _) _ _ from he) with _ | _ | _ | _ | _ | he
      obtain ⟨-, h1, h2⟩ := ih _ _ _ he
      refine ⟨trivial, ?_, ?_⟩
      · simpa using h1
      · simpa using h2
    · rcases (show Exec (Circ.enforce _ _ _ _ _) _ _ from he) with _ | _ | _ | _ | _ | he
      obtain ⟨-, h1, h2⟩ := ih _ _ _ he
      refine ⟨trivial, ?_, ?_⟩
      · simpa using h1
      · simpa using h2
    · cases he

theorem exactly_packIntoInputs {bits : List Boolean} (hc : CAPACITY F = 254) (hl : bits.length = 256) :
    Cost.Exactly (packIntoInputs bits : Synth F _) 0 2 fun _ => True := by
  unfold packIntoInputs
  rw [chunks?, hc, if_neg (by norm_num), hl]
  have : (chunksAux 254 256 bits).length = 2 := by
    have h := (chunksAux_map 254 (fun _ => ()) 256 bits)
    rw [map_const', hl] at h
    rw [← length_map (as := chunksAux 254 256 bits) (List.map fun _ => ()), ← h]
    decide +kernel
  rw [← this]
  exact exactly_packChunks 0 _

theorem flipBytes_noConstants {l : List Boolean} (h : NoConstants l) : NoConstants (Preimage.flipBytes l) ∧ (Preimage.flipBytes l).length = l.length := by
  have hf := chunksAux_flatten 8 (by norm_num) l.length l le_rfl
  unfold Preimage.flipBytes
  rw [chunks?, if_neg (by norm_num), Option.getD_some]
  constructor
  · intro b hb
    obtain ⟨c, hc, hbc⟩ := mem_flatMap.1 hb
    refine h b ?_
    rw [← hf]
    exact mem_flatten.2 ⟨c, hc, mem_reverse.1 hbc⟩
  · conv_rhs => rw [← hf]
    rw [length_flatMap, length_flatten]
    congr 1
    exact map_congr_left fun c _ => length_reverse

/-- C55 for the example of the crate documentation: it has exactly 77078 constraints and 76998 auxiliary variables, with or without
a preimage. -/
theorem C55_documentation_size (hc : CAPACITY F = 254) (c : Preimage.MyCircuit) :
    HasSize (c.synthesize : Synth F _) 76998 77078 fun _ => True := by
  unfold Preimage.MyCircuit.synthesize
  dsimp only
  split
  · rename_i hlen
    have h := (exactly_allocPreimage (F := F) 0 c.bitValues).bind fun bits hb =>
      (Cost.Exactly.inNs "SHA-256d(preimage)" (m := Preimage.sha256d bits) (g := 76358) (e := 78) (Q := fun r => r.length = 256) (by
        have hf := flipBytes_noConstants hb.1
        exact (Cost.Exactly.inNs _ (Cost.Sha256.exactly_640 hc hf.1 (by rw [hf.2, hb.2, hlen]))).bind fun mid hm =>
          (Cost.Exactly.inNs _ (Cost.Sha256.exactly_256 hc hm.1 hm.2)).map fun r hr => by rw [(flipBytes_noConstants hr.1).2, hr.2])).bind fun hash hh =>
        Cost.Exactly.inNs "pack hash" (exactly_packIntoInputs hc hh)
    rw [hlen] at h
    exact h.hasSize rfl
  · exact (Cost.Exactly.panic (g := 76998) (e := 80)).hasSize rfl

/-- C55 for the documentation example, as key generation sees it: two public inputs, 77078 constraints, 76998 auxiliary variables, and
an evaluation domain of 2¹⁷ points. -/
theorem C55_documentation (hc : CAPACITY F = 254) :
    ∃ t : List (Ev F), KeyTrace (Preimage.MyCircuit.mk none).synthesize t ∧ numIn t = 2 ∧ numAux t = 76998 ∧ (consOf t).length = 77078 ∧
      (18 ≤ S F → (Qap.ofTrace t).m = 2 ^ 17) := by
  have h64 : 64 ≤ NUM_BITS F := by have := capacity_lt (F := F); omega
  obtain ⟨t, ht, -, hin⟩ := C44_key (F := F) h64
  obtain ⟨hA, hC, -⟩ := C55_documentation_size hc _ t () ht.exec.exec
  have hin' : numIn t = 2 := by rw [hin, hc]
  refine ⟨t, ht, hin', hA, hC, fun hS => ?_⟩
  have hlen : (Qap.ofTrace t).rows.length = 77081 := by simp [Qap.ofTrace, Qap.ofRows, inputRows, hC, hin']
  have hg : (Qap.ofTrace t).Good (Nat.clog 2 (Qap.ofTrace t).rows.length) :=
    Qap.ofTrace_good t (by rw [hlen]; exact le_trans (by norm_num) (Nat.pow_le_pow_right (by norm_num) (show 17 ≤ S F - 1 by omega)))
  rw [hg.m, hlen]
  rfl

/-! ### The hypotheses are met -/

section Examples

/-- The field of the tests. -/
example : CAPACITY BlsScalar = 254 ∧ 18 ≤ S BlsScalar := ⟨rfl, by decide⟩

/-- src/gadgets/sha256.rs:305-332 `test_full_block` and src/gadgets/blake2s.rs:413-428 `test_blake2s_constraints`: 512 allocated bits. -/
example (vs : List (Option Bool)) (h : vs.length = 512) (pers : List (BitVec 8)) :
    HasSize (do let bits ← Preimage.allocPreimage 0 vs; Sha256.sha256BlockNoPadding bits : Synth BlsScalar _) 26326 26352 (fun _ => True) ∧
    HasSize (do let bits ← Preimage.allocPreimage 0 vs; Blake2s.blake2s bits pers : Synth BlsScalar _) 21472 21518 (fun _ => True) := by
  have e := (exactly_allocPreimage (F := BlsScalar) 0 vs).hasSize rfl
  rw [h] at e
  refine ⟨C55_seq (v' := 25814) (c' := 25840) e fun bits hb => ?_, C55_seq (v' := 20960) (c' := 21006) e fun bits hb => ?_⟩
  · exact (C55_sha256_block rfl hb.1 hb.2).mono
  · exact (C55_blake2s (pre := []) (p := 0) (b := 0) rfl (fun _ h => absurd h not_mem_nil) rfl hb.1 hb.2 pers).mono

end Examples

end Bellman
