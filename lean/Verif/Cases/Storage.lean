import Verif.Props.Equality
import Verif.Props.Fingerprint
import Verif.Props.Streams
import Verif.Props.Random
import Verif.Props.Source
import Verif.Props.Witness
import Verif.Props.Constrained
import Verif.Props.Cancel
import Verif.Props.Cost
import Verif.Props.Handles
import Verif.Props.GadgetSizes
import Verif.Props.GadgetTests

/-! # Concrete cases: stored keys and proofs, fingerprints, sizes

Points are single bytes (`byteCodec`); the circuits are over the dummy field or the scalars of BLS12-381. -/

namespace Bellman.Cases

open PrimeField List

/-! ### C37, C38 -/

theorem read_proof : Proof.read byteCodec byteCodec [1, 2, 3, 9] = some (.ok ((⟨1, 2, 3⟩ : Proof UInt8 UInt8), [9])) := rfl

theorem read_vk : VerifyingKey.read byteCodec byteCodec [2, 2, 3, 3, 4, 4, 0, 0, 5, 5, 6, 6, 0, 0, 0, 2, 7, 7, 8, 8, 9] = some (.ok (byteKey, [9])) := by
  decide

/-- The bytes of parameters with two elements of `b_g1` and one of `h`. -/
def paramBytes : List UInt8 := [2, 2, 3, 3, 4, 4, 0, 0, 5, 5, 6, 6, 0, 0, 0, 2, 7, 7, 8, 8] ++
    [0, 0, 0, 1, 9, 9] ++ [0, 0, 0, 0] ++ [0, 0, 0, 0] ++ [0, 0, 0, 2, 3, 3, 4, 4] ++ [0, 0, 0, 0]

theorem read_params : Parameters.read byteCodec byteCodec true paramBytes =
    some (.ok ((⟨byteKey, [9], [], [], [3, 4], []⟩ : Parameters UInt8 UInt8), [])) := by decide

example : ∃ bytes, [1, 2, 3, 9] = bytes ++ [9] ∧
    ∀ out, (⟨1, 2, 3⟩ : Proof UInt8 UInt8).write byteCodec byteCodec ⟨out, none⟩ = (.ok (), ⟨out ++ bytes, none⟩) :=
  C37_proof_canonical byteCodec byteCodec _ _ _ read_proof

example := C37_vk_canonical byteCodec byteCodec _ _ _ read_vk

example := C37_parameters_canonical byteCodec byteCodec true _ _ _ read_params

example (out rest : List UInt8) := C37_truncated byteCodec byteCodec byteKey byteKey_valid (by decide) out rest

example := C38_proof_accepted byteCodec byteCodec _ _ _ read_proof

example := C38_vk_accepted byteCodec byteCodec _ _ _ read_vk

example := C38_parameters_accepted byteCodec byteCodec true _ _ _ read_params

/-! ### C83 -/

example := C83_work_proof byteCodec byteCodec 1 (by decide) (by decide)
  [.interrupted, .data [1], .interrupted, .data [2, 3, 9], .fail 5] (.ok ⟨1, 2, 3⟩) ⟨[.data [9], .fail 5], 3⟩ rfl

/-- The parameters in three pieces: nine points are decoded. -/
theorem read_params_stream : Parameters.readStream byteCodec byteCodec true
    ⟨[.data (paramBytes.take 5), .interrupted, .data ((paramBytes.drop 5).take 20), .data (paramBytes.drop 25)], 0⟩ =
      some (.ok (⟨byteKey, [9], [], [], [3, 4], []⟩ : Parameters UInt8 UInt8), ⟨[], 11⟩) := by decide +kernel

example : 2 * 11 + 0 ≤ InEvent.total
    [.data (paramBytes.take 5), .interrupted, .data ((paramBytes.drop 5).take 20), .data (paramBytes.drop 25)] :=
  (C83_work_parameters byteCodec byteCodec true 2 (by decide) (by decide) _ _ _ read_params_stream).1

/-! ### C59 -/

example : Proof.eq (⟨3, 5, 7⟩ : Proof UInt8 UInt8) ⟨3, 5, 7⟩ = true :=
  (C59_proof (c1 := byteCodec) (c2 := byteCodec) ⟨3, 5, 7⟩ ⟨3, 5, 7⟩ ⟨by decide, by decide, by decide⟩ ⟨by decide, by decide, by decide⟩).1.2 ⟨rfl, rfl, rfl⟩

example : byteKey.eq { byteKey with ic := [7] } = false := by
  rw [← Bool.not_eq_true, (C59_vk (c1 := byteCodec) (c2 := byteCodec) byteKey { byteKey with ic := [7] } (by decide) (by decide)).1]
  rintro ⟨_, _, _, _, _, _, h⟩
  exact absurd h (by decide)

example : Parameters.eq (⟨byteKey, [9], [], [], [3, 4], []⟩ : Parameters UInt8 UInt8) ⟨byteKey, [9], [1], [], [3, 4], []⟩ = false := by
  rw [← Bool.not_eq_true, (C59_parameters (c1 := byteCodec) (c2 := byteCodec) ⟨byteKey, [9], [], [], [3, 4], []⟩ ⟨byteKey, [9], [1], [], [3, 4], []⟩
    (by decide) (by decide) (by decide) (by decide)).1]
  rintro ⟨_, _, h, _⟩
  exact absurd h (by decide)

/-! ### C70 -/

theorem twin1_sat : Sat (fun _ => (1 : DummyFr)) (twinTrace 1 none) := (twin_sat _ _ _).2 (by norm_num)

theorem twin2_sat : ¬ Sat (fun _ => (1 : DummyFr)) (twinTrace 2 none) := by
  rw [twin_sat]; decide

example := C70_different (G1 := DummyFr) (G2 := DummyFr) (twin_key (1 : DummyFr)) (twin_key 2)

example (c : PointCodec DummyFr) := C70_files c c (twin_key (1 : DummyFr)) (twin_key 2)

example := C70_distinct (G1 := DummyFr) (G2 := DummyFr) (twin_key (1 : DummyFr)) (twin_key 2) _ twin1_sat twin2_sat

example := C70_vk_alone (F := DummyFr) (G1 := DummyFr) (G2 := DummyFr) (by decide)

/-! ### C45 -/

/-- Both calls with generators whose states are the values they return. -/
example (w w' : Worker) (r s : DummyFr) : ∃ params pf, (generateRandomParameters tape5 w (squareCircuit none) (2, 5, 7, 11, 3)).1 = Res.ok params ∧
    (createRandomProof tape2 w' (claimCircuit (some 5) (some 25)) params (r, s)).1 = Res.ok pf := by
  obtain ⟨params, pf, hk, hp⟩ := claim_proof w w' 5 25 r s
  exact ⟨params, pf, hk, hp⟩

/-! ### C58 -/

example (w : Worker) (key : Parameters DummyFr DummyFr) (r s : DummyFr) (st' : ℕ) (log : Log) :=
  C58_requests w (claimCircuit (some 5) (some 25)) _ (claimTrace_prover 5 25) (sliced key) r s 0 st' log

/-! ### C51, C52, C55, C82 -/

theorem known_bit (i : ℕ) (hi : i < 3) : Known 1 3 (.is ⟨.aux i, none⟩ : Boolean) := hi

example := C51_booleans (F := DummyFr) one_pos (known_bit 0 (by decide)) (known_bit 1 (by decide)) (known_bit 2 (by decide))

example := C51_num (F := DummyFr) one_pos (a := ⟨none, .aux 0⟩) (b := ⟨none, .aux 1⟩) (k := 2) (.is ⟨.aux 0, none⟩)
  (show 0 < 2 by decide) (show 1 < 2 by decide)

example (coords : List (DummyFr × DummyFr)) := C51_lookup (F := DummyFr) (k := 3) one_pos (bits := [.is ⟨.aux 0, none⟩, .not ⟨.aux 1, none⟩, .constant true])
  (by intro b hb; simp only [mem_cons, not_mem_nil, or_false] at hb; rcases hb with rfl | rfl | rfl
      · exact (show 0 < 3 by decide)
      · exact (show 1 < 3 by decide)
      · exact trivial) coords

example (vs : List (Option Bool)) (pers : List (BitVec 8)) (t : List (Ev DummyFr)) (ht : Numbered 1 0 t)
    (he : Exec (Preimage.allocPreimage 0 vs >>= fun bits => Blake2s.blake2s bits pers >>= packIntoInputs).run t (some (.ok ()))) :
    RowsOk (consOf t) ∧ (Qap.ofTrace t).NoCancel :=
  C52_packed (Preimage.slocal_allocPreimage one_pos 0 vs) (usable_alloc vs) pers t ht (.inr he)

example := C52_cancels (F := DummyFr) (G1 := DummyFr) (G2 := DummyFr) (by decide)

theorem bits_noConstants (n : ℕ) : NoConstants (replicate n (.is ⟨.aux 0, none⟩ : Boolean)) := by
  intro b hb
  rw [eq_of_mem_replicate hb]
  rfl

/-- A message of two blocks. -/
example : HasSize (Sha256.sha256 (replicate 1024 (.is ⟨.aux 0, none⟩)) : Synth BlsScalar _) (44828 + 26166 * 1) (44874 + 26192 * 1)
    fun r => NoConstants r ∧ r.length = 256 :=
  C55_sha256 rfl (bits_noConstants 1024) (b := 1) (length_replicate ..)

example : HasSize (Sha256.sha256 (replicate 256 (.is ⟨.aux 0, none⟩)) : Synth BlsScalar _) 25218 25244 fun r => NoConstants r ∧ r.length = 256 :=
  (C55_sha256_short rfl (bits_noConstants 256)).1 (length_replicate ..)

example (pers : List (BitVec 8)) := C55_constants (F := BlsScalar) (input := [.constant true, .constant false]) (by
  intro b hb; simp only [mem_cons, not_mem_nil, or_false] at hb; rcases hb with rfl | rfl <;> rfl) pers

/-- The choice between a variable and a constant. -/
example :=
  C82_ch (F := DummyFr) (.is ⟨.aux 0, none⟩) (.is ⟨.aux 1, none⟩) (.constant true) (by decide)

end Bellman.Cases
