import Verif.Spec.Sha256d
import Verif.Examples.Preimage
import Verif.Proofs.Sha256
import Verif.Proofs.Multipack
import Verif.Props.Num

/-!
# Bits and bytes
-/

namespace Bellman

open List (Forall₂)

/-- Cutting a concatenation of blocks of equal size gives the blocks back. -/
theorem chunksAux_blocks {α : Type} {c : ℕ} (hc : 0 < c) (bs : List (List α)) (hb : ∀ b ∈ bs, b.length = c) (fuel : ℕ)
    (hf : bs.flatten.length ≤ fuel) : chunksAux c fuel bs.flatten = bs := by
  induction bs generalizing fuel with
  | nil => cases fuel <;> rfl
  | cons b bs ih =>
    have hl : b.length = c := hb b (by simp)
    rw [List.flatten_cons] at hf ⊢
    cases fuel with
    | zero => simp only [List.length_append] at hf; omega
    | succ fuel =>
      obtain ⟨x, b', rfl⟩ : ∃ x b', b = x :: b' := by
        cases b with
        | nil => simp at hl; omega
        | cons x b' => exact ⟨x, b', rfl⟩
      rw [List.cons_append, chunksAux, ← List.cons_append, List.take_left' hl, List.drop_left' hl,
        ih (fun b hb' => hb b (by simp [hb']))]
      simp only [List.length_append, List.length_cons] at hf hl
      omega

namespace Preimage

theorem flipBytes_blocks {α : Type} (bs : List (List α)) (hb : ∀ b ∈ bs, b.length = 8) :
    flipBytes bs.flatten = bs.flatMap List.reverse := by
  unfold flipBytes chunks?
  rw [if_neg (by decide), Option.getD_some, chunksAux_blocks (by decide) bs hb _ le_rfl]

theorem flipBytes_forall₂ {α β : Type} {R : α → β → Prop} {l : List α} {l' : List β} (h : Forall₂ R l l') :
    Forall₂ R (flipBytes l) (flipBytes l') := by
  unfold flipBytes chunks?
  rw [if_neg (by decide), if_neg (by decide), Option.getD_some, Option.getD_some, h.length_eq]
  have := chunksAux_forall₂ 8 l'.length h
  revert this
  generalize chunksAux 8 l'.length l = cs
  generalize chunksAux 8 l'.length l' = cs'
  intro hc
  induction hc with
  | nil => exact .nil
  | cons hb _ ih =>
    rw [List.flatMap_cons, List.flatMap_cons]
    exact List.rel_append (List.rel_reverse hb) ih

theorem byte_shift (v : BitVec 8) (i : ℕ) : ((v >>> i) &&& 1#8 == 1#8) = v.getLsbD i := by
  rw [Bool.eq_iff_iff, beq_iff_eq]
  constructor
  · intro h
    have := congrArg (fun w => w.getLsbD 0) h
    simpa using this
  · intro h
    ext j hj
    by_cases h0 : j = 0
    · subst h0; simpa using h
    · simp [h0]

theorem byte_le (v : BitVec 8) : ((List.range 8).map fun i => (v >>> i) &&& 1#8 == 1#8) = (List.range 8).map fun i => v.getLsbD i :=
  List.map_congr_left fun i _ => byte_shift v i

theorem byte_be (v : BitVec 8) : ((List.range 8).map fun i => v.getMsbD i) = ((List.range 8).map fun i => v.getLsbD i).reverse := by
  rw [← List.map_reverse]
  have : (List.range 8).reverse = (List.range 8).map fun i => 7 - i := by decide
  rw [this, List.map_map]
  refine List.map_congr_left fun i hi => ?_
  have := List.mem_range.1 hi
  simp [BitVec.getMsbD, this]

theorem flip_le (m : List (BitVec 8)) : flipBytes (bytesToBitsLe m) = Spec.msbBits m := by
  unfold bytesToBitsLe Spec.msbBits
  simp only [byte_le, byte_be]
  rw [List.flatMap_def, flipBytes_blocks _ (by simp)]
  rw [List.flatMap_map]

theorem flip_be (m : List (BitVec 8)) : flipBytes (Spec.msbBits m) = bytesToBitsLe m := by
  unfold bytesToBitsLe Spec.msbBits
  simp only [byte_le, byte_be]
  rw [List.flatMap_def, flipBytes_blocks _ (by simp)]
  rw [List.flatMap_map]
  simp only [List.reverse_reverse]

/-- A bit string cut into bytes. -/
theorem flatMap_bytes {β : Type} (bit : β → ℕ → Bool) (g : ℕ → β) (f : ℕ → Bool) (m : ℕ)
    (h : ∀ i < m, ((List.range 8).map fun j => bit (g i) j) = (List.range 8).map fun j => f (8 * i + j)) :
    (((List.range m).map g).flatMap fun b => (List.range 8).map fun j => bit b j) = (List.range (8 * m)).map f := by
  induction m with
  | zero => rfl
  | succ m ih =>
    rw [List.range_succ (n := m), List.map_append, List.flatMap_append, ih fun i hi => h i (by omega), show 8 * (m + 1) = 8 * m + 8 by ring,
      List.range_add, List.map_append, List.map_map]
    simp only [List.map_cons, List.map_nil, List.flatMap_cons, List.flatMap_nil, List.append_nil]
    rw [h m (by omega)]
    rfl

theorem byte_of_bits (l : List Bool) (hl : l.length = 8) : ((List.range 8).map fun i => (BitVec.ofNat 8 (bitsVal l)).getLsbD i) = l := by
  conv_rhs => rw [← leBits_bitsVal l, hl]
  refine List.map_congr_left fun i hi => ?_
  have := List.mem_range.1 hi
  rw [BitVec.getLsbD_ofNat]
  simp [this]

theorem msbBits_bytes (l : List Bool) (m : ℕ) (hl : l.length = 8 * m) :
    Spec.msbBits ((List.range m).map (Spec.byteAt l)) = l := by
  unfold Spec.msbBits
  rw [flatMap_bytes (fun (b : BitVec 8) i => b.getMsbD i) _ (fun j => l.getD j false) m]
  · apply List.ext_getElem
    · simp [hl]
    · intro i h1 h2
      simp [List.getD_eq_getElem?_getD, h2]
  · intro i hi
    have h8 : ((l.drop (8 * i)).take 8).length = 8 := by simp; omega
    rw [byte_be, Spec.byteAt, Sha256.beNat_eq, byte_of_bits _ (by simpa using h8), List.reverse_reverse]
    apply List.ext_getElem
    · rw [h8]; simp
    · intro j h1 h2
      simp only [List.getElem_take, List.getElem_drop, List.getElem_map, List.getElem_range]
      rw [List.getD_eq_getElem _ _ (by simp at h2; omega)]

theorem sha256_length (m : List Bool) : (Spec.Sha256.sha256 m).length = 256 := by
  simp [Spec.Sha256.sha256, Spec.Sha256.State.bits, Spec.Sha256.beBits]

theorem msbBits_digest (m : List (BitVec 8)) : Spec.msbBits (Spec.digest m) = Spec.Sha256.sha256 (Spec.msbBits m) :=
  msbBits_bytes _ 32 (sha256_length _)

/-- The bits computed by the circuit are those of SHA-256d. -/
theorem sha256d_bits (m : List (BitVec 8)) :
    flipBytes (Spec.Sha256.sha256 (Spec.Sha256.sha256 (flipBytes (bytesToBitsLe m)))) = bytesToBitsLe (Spec.sha256d m) := by
  rw [flip_le, ← msbBits_digest, ← msbBits_digest, flip_be]
  rfl

end Preimage

end Bellman
