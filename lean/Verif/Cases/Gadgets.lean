import Verif.Props.Boolean
import Verif.Props.Num
import Verif.Props.Hash
import Verif.Props.BitVectors

/-!
# Concrete cases of the gadget theorems (C06 to C17, C47)

For each pair of a soundness and a completeness theorem: an assignment, an accepting execution that satisfies the
constraints, obtained from the completeness theorem, and what the soundness theorem then says of it. The hypotheses of both
theorems therefore hold together in the case shown.
-/

set_option linter.unusedSectionVars false

namespace Bellman.Cases

open PrimeField List

variable {F : Type} [PrimeField F] {α : Type}

/-- An accepting, satisfied execution of a complete gadget, to which its soundness theorem applies (device of this file). -/
theorem both {m : Synth F α} {Qc Qs : (Var → F) → α → Prop} (is as : List F)
    (hc : ∀ ρ, Extends is as ρ → Complete ρ m (Qc ρ)) (hs : ∀ ρ, Extends is as ρ → Sound ρ m (Qs ρ)) :
    ∃ ρ t a, Extends is as ρ ∧ Exec m.run t (some (.ok a)) ∧ Sat ρ t ∧ Qc ρ a ∧ Qs ρ a := by
  obtain ⟨ρ, t, a, hx, he, -, -, hsat, hq⟩ := Complete.realized is as hc
  exact ⟨ρ, t, a, hx, he.exec, hsat, hq, hs ρ hx t a he.exec hsat⟩

/-- Auxiliary 0 holds 1, auxiliary 1 holds 0. -/
private abbrev tt : AllocatedBit := ⟨.aux 0, some true⟩
private abbrev ff : AllocatedBit := ⟨.aux 1, some false⟩

section Bits
variable {ρ : Var → DummyFr} (hx : Extends [1] [1, 0] ρ)
include hx

private theorem htt : tt.Has ρ true := ⟨rfl, hx (.aux 0) (by simp [Var.InRange])⟩
private theorem hff : ff.Has ρ false := ⟨rfl, hx (.aux 1) (by simp [Var.InRange])⟩
private theorem hit : (Boolean.is tt).Has ρ true := htt hx
private theorem hif : (Boolean.is ff).Has ρ false := hff hx
private theorem hnt : (Boolean.not tt).Has ρ false :=
  (C07_not (.is tt) true).2.2 (hit hx)
private theorem hnf : (Boolean.not ff).Has ρ true :=
  (C07_not (.is ff) false).2.2 (hif hx)
private theorem hct : (Boolean.constant true).Has ρ true := ⟨rfl, rfl⟩
end Bits

/-! ### C06 -/

example : ∃ (ρ : Var → DummyFr) (t : _) (a : _), Extends [1] [1, 0] ρ ∧
    Exec (AllocatedBit.alloc (F := DummyFr) (some true)).run t (some (.ok a)) ∧ Sat ρ t ∧
    (a.value = some true ∧ ρ a.var = 1) ∧ (ρ a.var = 0 ∨ ρ a.var = 1) :=
  both [1] [1, 0] (fun _ hx => C06_alloc_complete hx.one true) fun _ hx => C06_alloc_sound hx.one _

/-- With the condition bit set, a 0 can be allocated and nothing else. -/
example : ∃ (ρ : Var → DummyFr) (t : _) (a : _), Extends [1] [1, 0] ρ ∧
    Exec (AllocatedBit.allocConditionally (F := DummyFr) (some false) tt).run t (some (.ok a)) ∧ Sat ρ t ∧
    (a.value = some false ∧ ρ a.var = 0) ∧ (ρ a.var = 0 ∨ ρ a.var = 1) ∧ (ρ tt.var = 1 → ρ a.var = 0) :=
  both [1] [1, 0] (fun _ hx => C06_allocConditionally_complete hx.one false true (htt hx).2 fun _ => rfl)
    fun _ hx => C06_allocConditionally_sound hx.one _ (htt hx).2

/-- Without a value the run exists, and ends as the theorem says. -/
example : ∃ t, Honest (AllocatedBit.alloc none : Synth DummyFr _).run t (some (.error .assignmentMissing)) := by
  obtain ⟨t, r, h, -⟩ := (AllocatedBit.alloc none : Synth DummyFr _).run.exists_honest 1 1
  obtain ⟨rfl, rfl⟩ := C06_alloc_missing h
  exact ⟨_, h⟩

example : ∃ t, Honest (AllocatedBit.allocConditionally none tt : Synth DummyFr _).run t
    (some (.error .assignmentMissing)) := by
  obtain ⟨t, r, h, -⟩ := (AllocatedBit.allocConditionally none tt : Synth DummyFr _).run.exists_honest 1 1
  obtain ⟨rfl, rfl⟩ := C06_allocConditionally_missing h
  exact ⟨_, h⟩

/-! ### C07 -/

example : ∃ (ρ : Var → DummyFr) (t : _) (a : _), Extends [1] [1, 0] ρ ∧
    Exec (AllocatedBit.xor (F := DummyFr) tt ff).run t (some (.ok a)) ∧ Sat ρ t ∧ a.Has ρ true ∧ a.Bit ρ true :=
  both [1] [1, 0] (fun _ hx => C07_bit_xor_complete (htt hx) (hff hx)) fun _ hx => C07_bit_xor_sound (htt hx).2 (hff hx).2

example : ∃ (ρ : Var → DummyFr) (t : _) (a : _), Extends [1] [1, 0] ρ ∧
    Exec (AllocatedBit.and (F := DummyFr) tt tt).run t (some (.ok a)) ∧ Sat ρ t ∧ a.Has ρ true ∧ a.Bit ρ true :=
  both [1] [1, 0] (fun _ hx => C07_bit_and_complete (htt hx) (htt hx)) fun _ hx => C07_bit_and_sound (htt hx).2 (htt hx).2

example : ∃ (ρ : Var → DummyFr) (t : _) (a : _), Extends [1] [1, 0] ρ ∧
    Exec (AllocatedBit.andNot (F := DummyFr) tt ff).run t (some (.ok a)) ∧ Sat ρ t ∧ a.Has ρ true ∧ a.Bit ρ true :=
  both [1] [1, 0] (fun _ hx => C07_bit_andNot_complete hx.one (htt hx) (hff hx))
    fun _ hx => C07_bit_andNot_sound hx.one (htt hx).2 (hff hx).2

example : ∃ (ρ : Var → DummyFr) (t : _) (a : _), Extends [1] [1, 0] ρ ∧
    Exec (AllocatedBit.nor (F := DummyFr) ff ff).run t (some (.ok a)) ∧ Sat ρ t ∧ a.Has ρ true ∧ a.Bit ρ true :=
  both [1] [1, 0] (fun _ hx => C07_bit_nor_complete hx.one (hff hx) (hff hx))
    fun _ hx => C07_bit_nor_sound hx.one (hff hx).2 (hff hx).2

/-- A negated and a plain operand. -/
example : ∃ (ρ : Var → DummyFr) (t : _) (a : _), Extends [1] [1, 0] ρ ∧
    Exec (Boolean.xor (F := DummyFr) (.not ff) (.is ff)).run t (some (.ok a)) ∧ Sat ρ t ∧ a.Has ρ true ∧ a.Bit ρ true :=
  both [1] [1, 0] (fun _ hx => C07_xor_complete (hnf hx) (hif hx)) fun _ hx => C07_xor_sound (hnf hx).2 (hif hx).2

example : ∃ (ρ : Var → DummyFr) (t : _) (a : _), Extends [1] [1, 0] ρ ∧
    Exec (Boolean.and (F := DummyFr) (.not ff) (.is tt)).run t (some (.ok a)) ∧ Sat ρ t ∧ a.Has ρ true ∧ a.Bit ρ true :=
  both [1] [1, 0] (fun _ hx => C07_and_complete hx.one (hnf hx) (hit hx))
    fun _ hx => C07_and_sound hx.one (hnf hx).2 (hit hx).2

example : ∃ (ρ : Var → DummyFr) (t : _) (a : _), Extends [1] [1, 0] ρ ∧
    Exec (Boolean.enforceEqual (F := DummyFr) (.not ff) (.is tt)).run t (some (.ok a)) ∧ Sat ρ t ∧ True ∧ true = true :=
  both [1] [1, 0] (fun _ hx => C07_enforceEqual_complete hx.one (hnf hx).2 (hit hx).2)
    fun _ hx => C07_enforceEqual_sound hx.one (hnf hx).2 (hit hx).2

/-- Different values: no satisfied accepting execution (the negated auxiliary 0 against itself). -/
example {ρ : Var → DummyFr} (hx : Extends [1] [1, 0] ρ) {t : _} {a : _}
    (he : Exec (Boolean.enforceEqual (F := DummyFr) (.not tt) (.is tt)).run t (some (.ok a))) : ¬ Sat ρ t := fun hs =>
  Bool.false_ne_true (C07_enforceEqual_sound hx.one (hnt hx).2 (hit hx).2 t a he hs)

/-- Two different constants: the run exists, in every implementation. -/
example : ∃ t, Honest (Boolean.enforceEqual (.constant true) (.constant false) : Synth DummyFr _).run t
    (some (.error .unsatisfiable)) := by
  obtain ⟨t, r, h, -⟩ := (Boolean.enforceEqual (.constant true) (.constant false) : Synth DummyFr _).run.exists_honest 1 1
  obtain ⟨rfl, rfl⟩ := C07_enforceEqual_constants true false h.exec
  exact ⟨_, h⟩

example : ∃ t, Honest (AllocatedBit.and tt ⟨.aux 1, none⟩ : Synth DummyFr _).run t (some (.error .assignmentMissing)) := by
  obtain ⟨t, r, h, -⟩ := (AllocatedBit.and tt ⟨.aux 1, none⟩ : Synth DummyFr _).run.exists_honest 1 2
  obtain ⟨rfl, rfl⟩ := C07_bit_and_missing (.inr rfl) h
  exact ⟨_, h⟩

/-! ### C08 -/

/-- Three variables: the third operand is selected. -/
example : ∃ (ρ : Var → DummyFr) (t : _) (a : _), Extends [1] [1, 0] ρ ∧
    Exec (Boolean.sha256Ch (F := DummyFr) (.is ff) (.is ff) (.is tt)).run t (some (.ok a)) ∧ Sat ρ t ∧
    a.Has ρ true ∧ a.Bit ρ true :=
  both [1] [1, 0] (fun _ hx => C08_ch_complete hx.one (hif hx) (hif hx) (hit hx))
    fun _ hx => C08_ch_sound hx.one (hif hx).2 (hif hx).2 (hit hx).2

example : ∃ (ρ : Var → DummyFr) (t : _) (a : _), Extends [1] [1, 0] ρ ∧
    Exec (Boolean.sha256Maj (F := DummyFr) (.is tt) (.is ff) (.not ff)).run t (some (.ok a)) ∧ Sat ρ t ∧
    a.Has ρ true ∧ a.Bit ρ true :=
  both [1] [1, 0] (fun _ hx => C08_maj_complete hx.one (hit hx) (hif hx) (hnf hx))
    fun _ hx => C08_maj_sound hx.one (hit hx).2 (hif hx).2 (hnf hx).2

/-! ### C09 -/

/-- Auxiliary 0 holding 7, auxiliary 1 holding 5, auxiliary 2 holding 1. -/
private abbrev n7 : AllocatedNum DummyFr := ⟨some 7, .aux 0⟩
private abbrev n5 : AllocatedNum DummyFr := ⟨some 5, .aux 1⟩
private abbrev b1 : Boolean := .is ⟨.aux 2, some true⟩

section Nums
variable {ρ : Var → DummyFr} (hx : Extends [1] [7, 5, 1] ρ)
include hx
private theorem has7 : n7.Has ρ 7 := ⟨rfl, hx (.aux 0) (by simp [Var.InRange])⟩
private theorem has5 : n5.Has ρ 5 := ⟨rfl, hx (.aux 1) (by simp [Var.InRange])⟩
private theorem has1 : b1.Has ρ true := ⟨rfl, hx (.aux 2) (by simp [Var.InRange])⟩
end Nums

example : ∃ (ρ : Var → DummyFr) (t : _) (a : _), Extends [1] [7, 5, 1] ρ ∧ Exec n7.square.run t (some (.ok a)) ∧ Sat ρ t ∧
    a.Has ρ (7 ^ 2) ∧ ρ a.var = ρ n7.var ^ 2 :=
  both [1] [7, 5, 1] (fun _ hx => C09_square_complete (has7 hx)) fun _ _ => C09_square_sound n7

example : ∃ (ρ : Var → DummyFr) (t : _) (a : _), Extends [1] [7, 5, 1] ρ ∧ Exec n7.assertNonzero.run t (some (.ok a)) ∧
    Sat ρ t ∧ True ∧ ρ n7.var ≠ 0 :=
  both [1] [7, 5, 1] (fun _ hx => C09_assertNonzero_complete hx.one (has7 hx) (by decide +kernel))
    fun _ hx => C09_assertNonzero_sound hx.one n7

example : ∃ (ρ : Var → DummyFr) (t : _) (o : _), Extends [1] [7, 5, 1] ρ ∧
    Exec (AllocatedNum.conditionallyReverse n7 n5 b1).run t (some (.ok o)) ∧ Sat ρ t ∧
    (o.1.Has ρ 5 ∧ o.2.Has ρ 7) ∧ (ρ o.1.var, ρ o.2.var) = (ρ n5.var, ρ n7.var) :=
  both [1] [7, 5, 1] (fun _ hx => C09_conditionallyReverse_complete hx.one (has7 hx) (has5 hx) (has1 hx))
    fun _ hx => C09_conditionallyReverse_sound hx.one n7 n5 (has1 hx).2

private theorem num7 : (Num.ofAllocated n7).Has (assign [1] [7, 5, 1]) 7 := ⟨rfl, by decide +kernel⟩

/-- `7 + 3 * 1 + 9 * 0`, doubled. -/
example : ((addBools (Num.ofAllocated n7) [(b1, 3), (.constant false, 9)]).lc 2).eval (assign [1] [7, 5, 1]) =
    (2 : DummyFr) * (7 + (3 + (0 + 0))) :=
  C09_num_sum (ρ := assign [1] [7, 5, 1]) (l := [(b1, 3), (.constant false, 9)]) (xs := [true, false]) rfl (.cons rfl (.cons rfl .nil)) 2 num7.2

example : (addBools (Num.ofAllocated n7) [(b1, 3), (.constant false, 9)]).value = some ((7 : DummyFr) + (3 + (0 + 0))) :=
  C09_num_value (ρ := assign [1] [7, 5, 1]) (xs := [true, false]) rfl (.cons ⟨rfl, rfl⟩ (.cons ⟨rfl, rfl⟩ .nil)) num7

/-! ### C10, C11 -/

private theorem hasAux {ρ : Var → BlsScalar} {x : BlsScalar} (hx : Extends [1] [x] ρ) :
    (⟨some x, .aux 0⟩ : AllocatedNum BlsScalar).Has ρ x := ⟨rfl, hx (.aux 0) (by simp [Var.InRange])⟩

/-- The largest element: its bits are those of `p - 1`. -/
example : ∃ (ρ : Var → BlsScalar) (t : _) (o : _), Extends [1] [-1] ρ ∧
    Exec (⟨some (-1), .aux 0⟩ : AllocatedNum BlsScalar).toBitsLeStrict.run t (some (.ok o)) ∧ Sat ρ t ∧
    Forall₂ (Boolean.Has ρ) o ((List.range (NUM_BITS BlsScalar)).map fun i => (val (-1 : BlsScalar)).testBit i) ∧
    Forall₂ (Boolean.Bit ρ) o ((List.range (NUM_BITS BlsScalar)).map fun i => (val (ρ (.aux 0))).testBit i) :=
  both [1] [-1] (fun _ hx => C10_strict_complete hx.one (hasAux hx)) fun _ hx => C10_strict_sound hx.one _

/-- An execution that has satisfying assignments, all of which give it the same bits. -/
example : ∃ (ρ : Var → BlsScalar) (t : _) (o : _), ρ .one = 1 ∧ ρ (.aux 0) = -1 ∧
    Exec (⟨some (-1), .aux 0⟩ : AllocatedNum BlsScalar).toBitsLeStrict.run t (some (.ok o)) ∧ Sat ρ t ∧
    ∀ ρ' : Var → BlsScalar, ρ' .one = 1 → ρ' (.aux 0) = -1 → Sat ρ' t → ∀ b ∈ o, ∀ x, b.Bit ρ x ↔ b.Bit ρ' x := by
  obtain ⟨ρ, t, o, hx, he, -, -, hs, -⟩ := Complete.realized (F := BlsScalar) [1] [-1] fun _ hx =>
    C10_strict_complete hx.one (hasAux hx)
  refine ⟨ρ, t, o, hx.one, (hasAux hx).2, he.exec, hs, fun ρ' h1 h0 hs' => ?_⟩
  exact C10_strict_unique hx.one h1 ⟨some (-1), .aux 0⟩ ((hasAux hx).2.trans h0.symm) he.exec hs hs'

example : ∃ (ρ : Var → BlsScalar) (t : _) (o : _), Extends [1] [5] ρ ∧
    Exec (⟨some 5, .aux 0⟩ : AllocatedNum BlsScalar).toBitsLe.run t (some (.ok o)) ∧ Sat ρ t ∧
    Forall₂ (Boolean.Has ρ) o ((List.range (NUM_BITS BlsScalar)).map fun i => (val (5 : BlsScalar)).testBit i) ∧
    ∃ xs, Forall₂ (Boolean.Bit ρ) o xs ∧ xs.length = NUM_BITS BlsScalar ∧ (bitsVal xs : BlsScalar) = ρ (.aux 0) :=
  both [1] [5] (fun _ hx => C11_toBitsLe_complete hx.one (hasAux hx)) fun _ hx => C11_toBitsLe_sound hx.one _

/-! ### C12, C13 -/

private abbrev rows8 : List (DummyFr × DummyFr) :=
  [(0, 0), (1, 10), (2, 20), (3, 30), (4, 40), (5, 50), (6, 60), (7, 70)]
private abbrev rows4 : List (DummyFr × DummyFr) := [(0, 0), (1, 10), (2, 20), (3, 30)]

/-- Bits 1, 0, 1: the row of index 5. -/
example : ∃ (ρ : Var → DummyFr) (t : _) (o : _), Extends [1] [1, 0] ρ ∧
    Exec (lookup3xy [.is tt, .is ff, .not ff] rows8).run t (some (.ok o)) ∧ Sat ρ t ∧
    (∃ c, rows8[5]? = some c ∧ o.1.Has ρ c.1 ∧ o.2.Has ρ c.2) ∧ rows8[5]? = some (ρ o.1.var, ρ o.2.var) :=
  both [1] [1, 0] (fun _ hx => C12_lookup3_complete hx.one (hit hx) (hif hx) (hnf hx) rfl)
    fun _ hx => C12_lookup3_sound hx.one (hit hx).2 (hif hx).2 (hnf hx).2 _

/-- Bits 1, 0 and a set sign: the row of index 1, second coordinate negated. -/
example : ∃ (ρ : Var → DummyFr) (t : _) (o : _), Extends [1] [1, 0] ρ ∧
    Exec (lookup3xyWithConditionalNegation [.is tt, .is ff, .not ff] rows4).run t (some (.ok o)) ∧ Sat ρ t ∧
    (∃ c, rows4[1]? = some c ∧ o.1.Has ρ c.1 ∧ o.2.Has ρ (-c.2)) ∧ ∃ c, rows4[1]? = some c ∧ o.1.Is ρ c.1 ∧ o.2.Is ρ (-c.2) :=
  both [1] [1, 0] (fun _ hx => C12_lookupNeg_complete hx.one (hit hx) (hif hx) (hnf hx) rfl)
    fun _ hx => C12_lookupNeg_sound hx.one (hit hx).2 (hif hx).2 (hnf hx).2 _

private theorem has_rep {F : Type} [PrimeField F] {ρ : Var → F} {b : Boolean} {x : Bool} (h : b.Has ρ x) :
    ∀ n, Forall₂ (Boolean.Has ρ) (List.replicate n b) (List.replicate n x)
  | 0 => .nil
  | n + 1 => .cons h (has_rep h n)

private theorem bits_of_has {F : Type} [PrimeField F] {ρ : Var → F} {bs : List Boolean} {xs : List Bool}
    (h : Forall₂ (Boolean.Has ρ) bs xs) : Forall₂ (Boolean.Bit ρ) bs xs := h.imp fun _ _ h => h.2

/-- Twenty set bits over a field of capacity 15: two inputs, with the values a verifier computes. -/
example : ∃ (ρ : Var → DummyFr) (t : _), Exec (packIntoInputs (F := DummyFr) (List.replicate 20 (.is tt))).run t (some (.ok ())) ∧
    Sat ρ t ∧ computeMultipacking DummyFr (List.replicate 20 true) = some ((inputsOf t).map ρ) ∧
    (computeMultipacking DummyFr (List.replicate 20 true)).map List.length = some (inputsOf t).length := by
  obtain ⟨ρ, t, a, hx, he, -, -, hs, -⟩ := Complete.realized (F := DummyFr) (Q := fun _ _ => True) [1] [1, 0] fun _ hx =>
    C13_pack_complete hx.one (has_rep (hit hx) 20)
  exact ⟨ρ, t, he.exec, hs, C13_pack_sound hx.one (bits_of_has (has_rep (hit hx) 20)) he.exec hs,
    C13_pack_count (by simp) he.exec⟩

/-- Two strings of 16 bits that differ in the last one have different packings. -/
example : computeMultipacking DummyFr (List.replicate 15 true ++ [true]) ≠
    computeMultipacking DummyFr (List.replicate 15 true ++ [false]) := fun h =>
  absurd (C13_multipacking_inj (by simp) h) (by decide)

/-! ### C47 -/

example : ∃ (ρ : Var → BlsScalar) (t : _) (o : _), Extends [1] [] ρ ∧
    Exec (u64IntoBooleanVecLe (F := BlsScalar) (some 6)).run t (some (.ok o)) ∧ Sat ρ t ∧
    Forall₂ (Boolean.Has ρ) o ((List.range 64).map fun i => (6 : ℕ).testBit i) ∧
    ∃ n : ℕ, n < 2 ^ 64 ∧ Forall₂ (Boolean.Bit ρ) o ((List.range 64).map fun i => n.testBit i) :=
  both [1] [] (fun _ hx => C47_u64_complete hx.one 6) fun _ hx => C47_u64_sound hx.one _

example : ∃ (ρ : Var → BlsScalar) (t : _) (o : _), Extends [1] [] ρ ∧
    Exec (fieldIntoBooleanVecLe (F := BlsScalar) (some (6 : DummyFr))).run t (some (.ok o)) ∧ Sat ρ t ∧
    Forall₂ (Boolean.Has ρ) o ((List.range (NUM_BITS DummyFr)).map fun i => (val (6 : DummyFr)).testBit i) ∧
    ∃ n : ℕ, n < 2 ^ NUM_BITS DummyFr ∧ Forall₂ (Boolean.Bit ρ) o ((List.range (NUM_BITS DummyFr)).map fun i => n.testBit i) :=
  both [1] [] (fun _ hx => C47_field_complete hx.one (6 : DummyFr)) fun _ hx => C47_field_sound hx.one _

/-! ### C14 -/

private abbrev eq3 : List (ℕ × LC DummyFr × LC DummyFr) := List.replicate 3 (4, ⟨[(.aux 0, 1)]⟩, ⟨[(.aux 1, 3)]⟩)

section Equations
variable {ρ : Var → DummyFr} (hx : Extends [1] [15, 5] ρ)
include hx

private theorem eval3 : (⟨[(.aux 0, 1)]⟩ : LC DummyFr).eval ρ = ((15 : ℕ) : DummyFr) ∧
    (⟨[(.aux 1, 3)]⟩ : LC DummyFr).eval ρ = ((15 : ℕ) : DummyFr) := by
  have h0 : ρ (.aux 0) = 15 := hx (.aux 0) (by simp [Var.InRange])
  have h1 : ρ (.aux 1) = 5 := hx (.aux 1) (by simp [Var.InRange])
  constructor
  · simp [LC.eval, h0]
  · simp only [LC.eval, List.map_cons, List.map_nil, List.sum_cons, List.sum_nil, h1]
    decide +kernel

private theorem eq3_bounds : ∀ c ∈ eq3, ∃ a b : ℕ, a < 2 ^ c.1 ∧ b < 2 ^ c.1 ∧
    c.2.1.eval ρ = (a : DummyFr) ∧ c.2.2.eval ρ = (b : DummyFr) := fun c h => by
  rw [eq_of_mem_replicate h]
  exact ⟨15, 15, by norm_num, by norm_num, (eval3 hx).1, (eval3 hx).2⟩

private theorem eq3_equal : ∀ c ∈ eq3, c.1 < CAPACITY DummyFr ∧ c.2.1.eval ρ = c.2.2.eval ρ := fun c h => by
  rw [eq_of_mem_replicate h]
  exact ⟨by decide, (eval3 hx).1.trans (eval3 hx).2.symm⟩
end Equations

/-- Three packed equations over 4-bit numbers. -/
example : ∃ (ρ : Var → DummyFr) (t : _) (a : Unit), Extends [1] [15, 5] ρ ∧
    Exec (MSynth.withMultiEq (runItems (eq3.map fun c => .eq c.1 c.2.1 c.2.2))).run t (some (.ok a)) ∧ Sat ρ t ∧ True ∧
    ∀ n l r, MItem.eq n l r ∈ eq3.map (fun c => MItem.eq c.1 c.2.1 c.2.2) → l.eval ρ = r.eval ρ :=
  both [1] [15, 5]
    (fun _ hx => C14_complete hx.one _ (fun n l r h => by
      obtain ⟨c, hc, e⟩ := List.mem_map.1 h
      cases e
      exact eq3_equal hx c hc) fun m h => by obtain ⟨c, -, e⟩ := List.mem_map.1 h; cases e)
    fun _ hx => C14_sound hx.one _ fun n l r h => by
      obtain ⟨c, hc, e⟩ := List.mem_map.1 h
      cases e
      exact eq3_bounds hx c hc

/-- The same equations in every run: they hold exactly when the packed constraints do. -/
example {ρ : Var → DummyFr} (hx : Extends [1] [15, 5] ρ) {t : _}
    (he : Exec (MSynth.withMultiEq (runItems (eq3.map fun c => .eq c.1 c.2.1 c.2.2))).run t (some (.ok ()))) : Sat ρ t :=
  (C14_iff hx.one eq3 (fun c h => (eq3_equal hx c h).1) (eq3_bounds hx) he).2 fun c h => (eq3_equal hx c h).2

/-! ### C15 -/

/-- The word of thirty-two copies of auxiliary 0, which holds 1. -/
private abbrev ones : Bellman.UInt32 := ⟨List.replicate 32 (.is tt), some 0xffffffff#32⟩

section Words
variable {ρ : Var → BlsScalar} (hx : Extends [1] [1, 0] ρ)
include hx
private theorem hbt : (Boolean.is tt).Has ρ true := ⟨rfl, hx (.aux 0) (by simp [Var.InRange])⟩
private theorem hones : ones.HasWord ρ 0xffffffff#32 := by
  refine ⟨rfl, ?_⟩
  rw [show wbits 0xffffffff#32 = List.replicate 32 true by decide +kernel]
  exact has_rep (hbt hx) 32
end Words

open _root_.Bellman.UInt32 C15

private theorem word_of {F : Type} [PrimeField F] {ρ : Var → F} {u : Bellman.UInt32} {w : BitVec 32} (h : u.HasWord ρ w) : u.Word ρ w :=
  h.word

example {ρ : Var → BlsScalar} (hx : Extends [1] [1, 0] ρ) :
    ones.bits.length = 32 ∧ ∃ xs, Forall₂ (Boolean.Bit ρ) ones.intoBits xs ∧ bitsVal xs = 2 ^ 32 - 1 :=
  C15_word_spec (word_of (hones hx))

example {ρ : Var → BlsScalar} (hx : Extends [1] [1, 0] ρ) :
    Forall₂ (Boolean.Bit ρ) ones.intoBitsBe ((List.range 32).map fun i => (0xffffffff#32).getMsbD i) :=
  (C15_intoBits (word_of (hones hx))).2

example {ρ : Var → BlsScalar} (hx : Extends [1] [1, 0] ρ) :
    ∃ u w, fromBits (List.replicate 32 (.is tt)) = some u ∧ u.HasWord ρ w ∧ w.toNat = bitsVal (List.replicate 32 true) ∧ u.Word ρ w := by
  obtain ⟨u, w, hu, hw, hv⟩ := C15_fromBits_complete (has_rep (hbt hx) 32) (by simp)
  obtain ⟨w', hv', hw'⟩ := (C15_fromBits (bits_of_has (has_rep (hbt hx) 32))).2 u hu
  exact ⟨u, w, hu, hw, hv, (BitVec.eq_of_toNat_eq (hv'.trans hv.symm)) ▸ hw'⟩

example : ∃ (ρ : Var → BlsScalar) (t : _) (a : _), Extends [1] [] ρ ∧
    Exec (alloc (F := BlsScalar) (some 0xdeadbeef#32)).run t (some (.ok a)) ∧ Sat ρ t ∧ a.HasWord ρ 0xdeadbeef#32 ∧
    ∃ w, a.Word ρ w :=
  both [1] [] (fun _ hx => C15_alloc_complete hx.one _) fun _ hx => C15_alloc_sound hx.one _

example : ∃ (ρ : Var → BlsScalar) (t : _) (a : _), Extends [1] [1, 0] ρ ∧
    Exec (UInt32.xor (F := BlsScalar) ones ones).run t (some (.ok a)) ∧ Sat ρ t ∧ a.HasWord ρ 0 ∧ a.Word ρ 0 :=
  both [1] [1, 0] (fun _ hx => C15_xor_complete (hones hx) (hones hx))
    fun _ hx => C15_xor_sound (word_of (hones hx)) (word_of (hones hx))

example : ∃ (ρ : Var → BlsScalar) (t : _) (a : _), Extends [1] [1, 0] ρ ∧
    Exec (UInt32.sha256Ch (F := BlsScalar) ones ones (constant 5)).run t (some (.ok a)) ∧ Sat ρ t ∧
    a.HasWord ρ 0xffffffff#32 ∧ a.Word ρ 0xffffffff#32 :=
  both [1] [1, 0] (fun _ hx => C15_ch_complete hx.one (hones hx) (hones hx) (C15_constant 5))
    fun _ hx => C15_ch_sound hx.one (word_of (hones hx)) (word_of (hones hx)) (word_of (C15_constant 5))

example : ∃ (ρ : Var → BlsScalar) (t : _) (a : _), Extends [1] [1, 0] ρ ∧
    Exec (UInt32.sha256Maj (F := BlsScalar) ones (constant 0) (constant 5)).run t (some (.ok a)) ∧ Sat ρ t ∧
    a.HasWord ρ 5#32 ∧ a.Word ρ 5#32 :=
  both [1] [1, 0] (fun _ hx => C15_maj_complete hx.one (hones hx) (C15_constant 0) (C15_constant 5))
    fun _ hx => C15_maj_sound hx.one (word_of (hones hx)) (word_of (C15_constant 0)) (word_of (C15_constant 5))

/-- `2^32 - 1 + 2` wraps around to 1. -/
example : ∃ (ρ : Var → BlsScalar) (t : _) (a : _), Extends [1] [1, 0] ρ ∧
    Exec (MSynth.withMultiEq (addmany (F := BlsScalar) [ones, constant 2])).run t (some (.ok a)) ∧ Sat ρ t ∧
    a.HasWord ρ 1#32 ∧ a.Word ρ 1#32 :=
  both [1] [1, 0] (fun _ hx => C15_addmany_complete hx.one (by decide) (.cons (hones hx) (.cons (C15_constant 2) .nil))
      (by simp) (by simp))
    fun _ hx => C15_addmany_sound hx.one (.cons (word_of (hones hx)) (.cons (word_of (C15_constant 2)) .nil))

/-- Two additions sharing one `MultiEq`: `2^32 - 1 + 2`, then `+ 3 + 4`. -/
example {ρ : Var → BlsScalar} (hx : Extends [1] [1, 0] ρ) :
    Sound ρ (MSynth.withMultiEq (addChain (F := BlsScalar) ones [[constant 2], [constant 3, constant 4]])) fun o => o.Word ρ 8#32 :=
  C15_addChain_sound hx.one (word_of (hones hx)) (ws := [[2], [3, 4]])
    (.cons (.cons (word_of (C15_constant 2)) .nil)
      (.cons (.cons (word_of (C15_constant 3)) (.cons (word_of (C15_constant 4)) .nil)) .nil))

/-! ### C16, C17 -/

/-- A full block without padding. -/
example : ∃ (ρ : Var → BlsScalar) (t : _) (o : _), Extends [1] [1, 0] ρ ∧
    Exec (Sha256.sha256BlockNoPadding (F := BlsScalar) (List.replicate 512 (.is tt))).run t (some (.ok o)) ∧ Sat ρ t ∧
    Forall₂ (Boolean.Has ρ) o (Spec.Sha256.sha256Block (List.replicate 512 true)) ∧
    Forall₂ (Boolean.Bit ρ) o (Spec.Sha256.sha256Block (List.replicate 512 true)) :=
  both [1] [1, 0] (fun _ hx => C16_sha256Block_complete hx.one (by decide) (has_rep (hbt hx) 512) List.length_replicate)
    fun _ hx => C16_sha256Block_sound hx.one (bits_of_has (has_rep (hbt hx) 512))

example : ∃ (ρ : Var → BlsScalar) (t : _) (o : _), Extends [1] [1, 0] ρ ∧
    Exec (Sha256.sha256 (F := BlsScalar) (List.replicate 24 (.is tt))).run t (some (.ok o)) ∧ Sat ρ t ∧
    Forall₂ (Boolean.Has ρ) o (Spec.Sha256.sha256 (List.replicate 24 true)) ∧
    Forall₂ (Boolean.Bit ρ) o (Spec.Sha256.sha256 (List.replicate 24 true)) :=
  both [1] [1, 0] (fun _ hx => C16_sha256_complete hx.one (by decide) (has_rep (hbt hx) 24) (by simp))
    fun _ hx => C16_sha256_sound hx.one (bits_of_has (has_rep (hbt hx) 24))

private theorem bytes_ff : Spec.Blake2s.bits [0xff#8, 0xff#8] = List.replicate 16 true := by decide +kernel

example : ∃ (ρ : Var → BlsScalar) (t : _) (o : _), Extends [1] [1, 0] ρ ∧
    Exec (Blake2s.blake2s (F := BlsScalar) (List.replicate 16 (.is tt)) [1, 2, 3, 4, 5, 6, 7, 8]).run t (some (.ok o)) ∧ Sat ρ t ∧
    Forall₂ (Boolean.Has ρ) o (Spec.Blake2s.bits (Spec.Blake2s.blake2s [1, 2, 3, 4, 5, 6, 7, 8] [0xff#8, 0xff#8])) ∧
    Forall₂ (Boolean.Bit ρ) o (Spec.Blake2s.bits (Spec.Blake2s.blake2s [1, 2, 3, 4, 5, 6, 7, 8] [0xff#8, 0xff#8])) :=
  both [1] [1, 0] (fun _ hx => C17_blake2s_complete hx.one (by decide) (bytes_ff ▸ has_rep (hbt hx) 16) rfl)
    fun _ hx => C17_blake2s_sound hx.one (bytes_ff ▸ bits_of_has (has_rep (hbt hx) 16)) _

end Bellman.Cases
