import Verif.Props.Num
import Verif.Proofs.Preimage

/-!
# C47: allocating the bits of an integer or of a field element

`u64_into_boolean_vec_le`, `field_into_boolean_vec_le` and `field_into_allocated_bits_le` allocate fresh bits.  The bits are
forced to be bits, the honest prover's are the binary expansion of the value, least significant first, and nothing else is forced:
in particular nothing ties the bits to the value, and the bits of a field element need not be below its modulus.
-/

set_option linter.unusedSectionVars false

namespace Bellman

open PrimeField List

variable {F : Type} [PrimeField F] {ρ : Var → F} {K : Type} [PrimeField K]

theorem exec_allocBits {vs : List (Option Bool)} {i : ℕ} {t : List (Ev F)} {o : List AllocatedBit}
    (he : Exec (allocBits i vs : Synth F _).run t (some (.ok o))) :
    numIn t = 0 ∧ numAux t = vs.length ∧ (consOf t).length = vs.length ∧ o.length = vs.length := by
  induction vs generalizing i t o with
  | nil =>
    obtain ⟨rfl, rfl⟩ := Synth.exec_pure_inv he
    exact ⟨rfl, rfl, rfl, rfl⟩
  | cons v vs ih =>
    obtain ⟨t1, t2, x, rfl, h1, h2⟩ := Synth.exec_bind_inv he
    obtain ⟨t3, t4, xs, rfl, h3, h4⟩ := Synth.exec_bind_inv h2
    obtain ⟨rfl, rfl⟩ := Synth.exec_pure_inv h4
    obtain ⟨t1', rfl, h1'⟩ := Synth.exec_inNs_inv h1
    obtain ⟨i1, i2, i3, i4⟩ := ih h3
    unfold AllocatedBit.alloc at h1'
    obtain ⟨t5, t6, y, rfl, h5, h6⟩ := Synth.exec_bind_inv h1'
    obtain ⟨t7, t8, z, rfl, h7, h8⟩ := Synth.exec_bind_inv h6
    obtain ⟨rfl, _⟩ := Synth.exec_pure_inv h8
    have e5 := Synth.exec_alloc_inv h5
    have e7 := Synth.exec_enforce_inv h7
    subst e5 e7
    simp [i1, i2, i3, i4]

theorem and_one_testBit (v : BitVec 64) (i : ℕ) : ((v >>> i) &&& 1#64 == 1#64) = v.toNat.testBit i := by
  rw [Bool.eq_iff_iff, beq_iff_eq, ← BitVec.toNat_inj]
  simp [Nat.testBit_eq_decide_div_mod_eq, Nat.shiftRight_eq_div_pow, Nat.and_one_is_mod]

theorem u64_values (v : BitVec 64) :
    ((List.range 64).map fun i => some ((v >>> i) &&& 1#64 == 1#64)) = (leBits 64 v.toNat).map some := by
  rw [leBits, List.map_map]
  refine List.map_congr_left fun i _ => ?_
  rw [and_one_testBit]; rfl

/-- C47: the 64 results are bits of some integer, whatever the prover does. -/
theorem C47_u64_sound (h1 : ρ .one = 1) (v : Option (BitVec 64)) :
    Sound ρ (u64IntoBooleanVecLe v) fun o => ∃ n : ℕ, n < 2 ^ 64 ∧
      Forall₂ (Boolean.Bit ρ) o ((List.range 64).map fun i => n.testBit i) := by
  refine (Synth.wpS_iff ..).1 ?_
  have key : ∀ vs : List (Option Bool), vs.length = 64 → Synth.wpS ρ (do let bits ← allocBits 0 vs; pure (bits.map Boolean.is)) fun o =>
      ∃ n : ℕ, n < 2 ^ 64 ∧ Forall₂ (Boolean.Bit ρ) o ((List.range 64).map fun i => n.testBit i) := by
    intro vs hl
    rw [Synth.wpS_bind]
    refine Synth.wpS_mono (wpS_allocBits h1 _ _) fun o ⟨xs, hxs, hlo⟩ => ?_
    have hlx : xs.length = 64 := by rw [← hxs.length_eq, hlo, hl]
    refine ⟨bitsVal xs, by rw [← hlx]; exact bitsVal_lt xs, ?_⟩
    have e := leBits_bitsVal xs
    rw [hlx] at e
    change Forall₂ (Boolean.Bit ρ) _ (leBits 64 (bitsVal xs))
    rw [e]
    exact forall₂_is hxs
  cases v with
  | none => exact key _ (by simp)
  | some v => exact key _ (by simp)

/-- C47: the honest prover's bits are those of the value, least significant first. -/
theorem C47_u64_complete (h1 : ρ .one = 1) (v : BitVec 64) :
    Complete ρ (u64IntoBooleanVecLe (some v)) fun o => Forall₂ (Boolean.Has ρ) o ((List.range 64).map fun i => v.toNat.testBit i) := by
  refine Synth.wpC_sound ?_
  unfold u64IntoBooleanVecLe
  dsimp only
  rw [u64_values, Synth.wpC_bind]
  refine Synth.wpC_mono (wpC_allocBits h1 0 _) fun o ho => ?_
  exact forall₂_has_is ho

/-- C47: the same number of bits of the field element's canonical representative are allocated whether or not the value is
known, with one constraint each. -/
theorem C47_counts {t : List (Ev F)} :
    (∀ (v : Option (BitVec 64)) o, Exec (u64IntoBooleanVecLe v : Synth F _).run t (some (.ok o)) →
      numIn t = 0 ∧ numAux t = 64 ∧ (consOf t).length = 64 ∧ o.length = 64) ∧
    (∀ (v : Option K) o, Exec (fieldIntoBooleanVecLe v : Synth F _).run t (some (.ok o)) →
      numIn t = 0 ∧ numAux t = NUM_BITS K ∧ (consOf t).length = NUM_BITS K ∧ o.length = NUM_BITS K) := by
  have key : ∀ (vs : List (Option Bool)) o, Exec (do let bits ← allocBits 0 vs; pure (bits.map Boolean.is) : Synth F _).run t (some (.ok o)) →
      numIn t = 0 ∧ numAux t = vs.length ∧ (consOf t).length = vs.length ∧ o.length = vs.length := by
    intro vs o he
    obtain ⟨t1, t2, x, rfl, h1, h2⟩ := Synth.exec_bind_inv he
    obtain ⟨rfl, rfl⟩ := Synth.exec_pure_inv h2
    obtain ⟨i1, i2, i3, i4⟩ := exec_allocBits h1
    simp [i1, i2, i3, i4]
  refine ⟨fun v o he => ?_, fun v o he => ?_⟩
  · cases v with
    | none => simpa using key _ _ he
    | some v => simpa using key _ _ he
  · cases v with
    | none => simpa using key (List.replicate (NUM_BITS K) none).reverse _ he
    | some v =>
      unfold fieldIntoBooleanVecLe fieldIntoAllocatedBitsLe at he
      dsimp only at he
      rw [skipLeading_field, if_pos (by simp)] at he
      simpa using key _ _ he

/-- C47: the results are `NUM_BITS` bits, whatever the prover does. -/
theorem C47_field_sound (h1 : ρ .one = 1) (v : Option K) :
    Sound ρ (fieldIntoBooleanVecLe v) fun o => ∃ n : ℕ, n < 2 ^ NUM_BITS K ∧
      Forall₂ (Boolean.Bit ρ) o ((List.range (NUM_BITS K)).map fun i => n.testBit i) := by
  refine (Synth.wpS_iff ..).1 ?_
  unfold fieldIntoBooleanVecLe
  rw [Synth.wpS_bind]
  refine Synth.wpS_mono (wpS_fieldIntoAllocatedBitsLe h1 v) fun o ⟨xs, hxs, hl⟩ => ?_
  refine ⟨bitsVal xs, by rw [← hl]; exact bitsVal_lt xs, ?_⟩
  have e := leBits_bitsVal xs
  rw [hl] at e
  change Forall₂ (Boolean.Bit ρ) _ (leBits _ (bitsVal xs))
  rw [e]
  exact forall₂_is hxs

/-- C47: the honest prover's bits are those of the canonical representative, least significant first.  The field of the value need
not be the circuit's. -/
theorem C47_field_complete (h1 : ρ .one = 1) (v : K) :
    Complete ρ (fieldIntoBooleanVecLe (some v)) fun o =>
      Forall₂ (Boolean.Has ρ) o ((List.range (NUM_BITS K)).map fun i => (val v).testBit i) := by
  refine Synth.wpC_sound ?_
  unfold fieldIntoBooleanVecLe
  rw [Synth.wpC_bind]
  exact Synth.wpC_mono (wpC_fieldIntoAllocatedBitsLe h1 v) fun o ho => forall₂_has_is ho

/-- C47: nothing more is forced.  Whatever value is passed (or none), and for every `n < 2^NUM_BITS`, also one that is not below
the modulus, there is a satisfying assignment under which the results are the bits of `n`. -/
theorem C47_field_free (is as : List F) (v : Option K) (n : ℕ) :
    ∃ ρ t o, Extends (1 :: is) as ρ ∧ Exec (fieldIntoBooleanVecLe v).run t (some (.ok o)) ∧ Numbered (1 :: is).length as.length t ∧
      Sat ρ t ∧ Forall₂ (Boolean.Bit ρ) o ((List.range (NUM_BITS K)).map fun i => n.testBit i) := by
  have hc : ∀ ρ, Extends (1 :: is) as ρ → Complete ρ (do let bits ← allocBits 0 ((leBits (NUM_BITS K) n).map some); pure (bits.map Boolean.is) : Synth F _)
      fun o => Forall₂ (Boolean.Has ρ) o (leBits (NUM_BITS K) n) := fun ρ he => Synth.wpC_sound <| by
    rw [Synth.wpC_bind]
    exact Synth.wpC_mono (wpC_allocBits he.one 0 _) fun o ho => forall₂_has_is ho
  obtain ⟨ρ, t, bs, hex, he, hn, hag, hs, hq⟩ := Complete.realized (1 :: is) as hc
  have hsh : SShape (F := F) (Forall₂ AllocatedBit.Same) (allocBits 0 ((leBits (NUM_BITS K) n).map some)) (fieldIntoAllocatedBitsLe v) := by
    cases v with
    | none =>
      unfold fieldIntoAllocatedBitsLe
      exact shape_allocBits 0 (by simp)
    | some v =>
      unfold fieldIntoAllocatedBitsLe
      dsimp only
      rw [skipLeading_field, if_pos (by simp)]
      exact shape_allocBits 0 (by simp)
  have hsh' : SShape (F := F) (Forall₂ Boolean.Same) (do let bits ← allocBits 0 ((leBits (NUM_BITS K) n).map some); pure (bits.map Boolean.is))
      (fieldIntoBooleanVecLe v) := SShape.bind hsh fun _ _ h => SShape.pure (shape_map_is h)
  obtain ⟨t₂, o, he₂, hsame, hR⟩ := hsh'.transfer he.exec
  exact ⟨ρ, t₂, o, hex, he₂, Ev.Same.numbered hsame hn, Ev.Same.sat hsame hs,
    Boolean.Same.bits hR (hq.imp fun _ _ h => h.2)⟩

/-- C47: without a value the prover reports `AssignmentMissing` at the first bit. -/
theorem C47_missing {t : List (Ev F)} {r} :
    (Honest (u64IntoBooleanVecLe none : Synth F _).run t r → t = [.push "bit 0", .pop] ∧ r = some (.error .assignmentMissing)) ∧
    (Honest (fieldIntoBooleanVecLe (none : Option K) : Synth F _).run t r →
      t = [.push "bit 0", .pop] ∧ r = some (.error .assignmentMissing)) := by
  have key : ∀ (vs : List (Option Bool)), Honest (do let bits ← allocBits 0 (none :: vs); pure (bits.map Boolean.is) : Synth F _).run t r →
      t = [.push "bit 0", .pop] ∧ r = some (.error .assignmentMissing) := by
    intro vs h
    cases h with
    | push h => cases h with
      | allocRun x v hf h => cases hf
      | allocErr e hf h => cases hf; cases h with
        | pop h => cases h; exact ⟨rfl, rfl⟩
  refine ⟨fun h => key _ h, fun h => ?_⟩
  obtain ⟨m, hm⟩ : ∃ m, NUM_BITS K = m + 1 := ⟨NUM_BITS K - 1, by have := capacity_lt (F := K); omega⟩
  unfold fieldIntoBooleanVecLe fieldIntoAllocatedBitsLe at h
  dsimp only at h
  rw [hm, List.reverse_replicate] at h
  exact key _ h

/-- The bits of 6, in a circuit over the BLS12-381 scalar field. -/
example (ρ : Var → BlsScalar) (h1 : ρ .one = 1) : Complete ρ (u64IntoBooleanVecLe (some 6)) fun o =>
    Forall₂ (Boolean.Has ρ) o (false :: true :: true :: List.replicate 61 false) := C47_u64_complete h1 6

/-- The modulus itself: a field element whose bits are those of `p`, not of a canonical representative. -/
example : ∃ (ρ : Var → BlsScalar) (t : _) (o : _), Extends [1] [] ρ ∧ Exec (fieldIntoBooleanVecLe (some (0 : BlsScalar))).run t (some (.ok o)) ∧
    Numbered 1 0 t ∧ Sat ρ t ∧ Forall₂ (Boolean.Bit ρ) o ((List.range (NUM_BITS BlsScalar)).map fun i => (p BlsScalar).testBit i) :=
  C47_field_free [] [] _ _

end Bellman
