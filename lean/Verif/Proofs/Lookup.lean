import Verif.Proofs.Num
import Verif.Gadgets.Lookup

/-!
# Lemmas about the lookup gadgets
-/

set_option linter.unusedSimpArgs false
set_option linter.unusedTactic false
set_option linter.unreachableTactic false
set_option linter.unusedSectionVars false
set_option linter.unusedVariables false
set_option linter.unnecessarySeqFocus false

namespace Bellman

open PrimeField

variable {F : Type} [PrimeField F] {ρ : Var → F}

theorem synth3 (c0 c1 c2 c3 c4 c5 c6 c7 : F) :
    synth 3 [c0, c1, c2, c3, c4, c5, c6, c7] (List.replicate 8 0) =
      some [c0, c1 - c0, c2 - c0, c3 - c2 - c1 + c0, c4 - c0, c5 - c4 - c1 + c0, c6 - c4 - c2 + c0,
        c7 - c6 - c5 + c4 - c3 + c2 + c1 - c0] := by
  simp only [synth, synthLoop, List.replicate, List.mapIdx_cons, List.mapIdx_nil, List.length_cons, List.length_nil]
  simp
  refine ⟨?_, ?_, ?_, ?_, ?_, ?_, ?_⟩ <;> ring

theorem synth2 (c0 c1 c2 c3 : F) :
    synth 2 [c0, c1, c2, c3] (List.replicate 4 0) = some [c0, c1 - c0, c2 - c0, c3 - c2 - c1 + c0] := by
  simp only [synth, synthLoop, List.replicate, List.mapIdx_cons, List.mapIdx_nil, List.length_cons, List.length_nil]
  simp
  refine ⟨?_, ?_, ?_⟩ <;> ring

/-- The index with the given bits, least significant first. -/
def idx3 (x y z : Bool) : ℕ := x.toNat + 2 * y.toNat + 4 * z.toNat
/-- The index with the given bits, least significant first. -/
def idx2 (x y : Bool) : ℕ := x.toNat + 2 * y.toNat

theorem list8 {α : Type} {l : List α} (h : l.length = 8) :
    ∃ a b c d e f g i, l = [a, b, c, d, e, f, g, i] := by
  match l, h with
  | [a, b, c, d, e, f, g, i], _ => exact ⟨a, b, c, d, e, f, g, i, rfl⟩

theorem list4 {α : Type} {l : List α} (h : l.length = 4) : ∃ a b c d, l = [a, b, c, d] := by
  match l, h with
  | [a, b, c, d], _ => exact ⟨a, b, c, d, rfl⟩

theorem wpS_lookup3xy (h1 : ρ .one = 1) {b0 b1 b2 : Boolean} {x y z : Bool} (hx : b0.Bit ρ x) (hy : b1.Bit ρ y)
    (hz : b2.Bit ρ z) (coords : List (F × F)) :
    Synth.wpS ρ (lookup3xy [b0, b1, b2] coords) fun o =>
      coords[idx3 x y z]? = some (ρ o.1.var, ρ o.2.var) := by
  unfold lookup3xy
  dsimp only
  split
  · rename_i hlen
    obtain ⟨⟨x0, y0⟩, ⟨x1, y1⟩, ⟨x2, y2⟩, ⟨x3, y3⟩, ⟨x4, y4⟩, ⟨x5, y5⟩, ⟨x6, y6⟩, ⟨x7, y7⟩, rfl⟩ := list8 hlen
    rw [Synth.wpS_bind, Synth.wpS_inNs]
    refine Synth.wpS_mono (AllocatedNum.wpS_alloc _) fun rx _ => ?_
    rw [Synth.wpS_bind, Synth.wpS_inNs]
    refine Synth.wpS_mono (AllocatedNum.wpS_alloc _) fun ry _ => ?_
    simp only [List.map_cons, List.map_nil, synth3]
    rw [Synth.wpS_bind, Synth.wpS_inNs]
    refine Synth.wpS_mono (Boolean.wpS_and h1 hy hz) fun pc hp => ?_
    simp only [Synth.wpS_bind, Synth.wpS_enforce, Synth.wpS_pure, LC.eval_addTerm, LC.eval_subTerm, LC.eval_addLC,
      LC.eval_subLC, LC.eval_addVar, LC.eval_zero, h1, Boolean.eval_lc h1 hx, Boolean.eval_lc h1 hy,
      Boolean.eval_lc h1 hz, Boolean.eval_lc h1 hp]
    intro e1 e2
    cases x <;> cases y <;> cases z <;>
      simp [idx3] at e1 e2 ⊢ <;> constructor <;>
      first | linear_combination e1 | linear_combination -e1 | linear_combination e2 | linear_combination -e2
  · trivial

theorem coordAt_some (coords : List (F × F)) (i : ℕ) (pr : F × F → F) {c} (h : coords[i]? = some c) :
    coordAt coords (some i) pr = .ok (pr c) := by
  unfold coordAt
  simp only [Synth.optGet_some]
  show (match coords[i]? with | some c => _ | none => _) = _
  rw [h]; rfl

theorem wpC_lookup3xy (h1 : ρ .one = 1) {b0 b1 b2 : Boolean} {x y z : Bool} (hx : b0.Has ρ x) (hy : b1.Has ρ y)
    (hz : b2.Has ρ z) {coords : List (F × F)} (hlen : coords.length = 8) :
    Synth.wpC ρ (lookup3xy [b0, b1, b2] coords) fun o =>
      ∃ c, coords[idx3 x y z]? = some c ∧ o.1.Has ρ c.1 ∧ o.2.Has ρ c.2 := by
  unfold lookup3xy
  dsimp only
  rw [if_pos hlen]
  have hi : lookupIndex3 b0 b1 b2 = some (idx3 x y z) := by
    simp only [lookupIndex3, hx.1, hy.1, hz.1]
    cases x <;> cases y <;> cases z <;> rfl
  rw [hi]
  obtain ⟨c, hc⟩ : ∃ c, coords[idx3 x y z]? = some c := by
    refine ⟨coords[idx3 x y z]'?_, List.getElem?_eq_getElem _⟩
    rw [hlen]; cases x <;> cases y <;> cases z <;> simp [idx3]
  rw [coordAt_some _ _ _ hc, coordAt_some _ _ _ hc]
  obtain ⟨⟨x0, y0⟩, ⟨x1, y1⟩, ⟨x2, y2⟩, ⟨x3, y3⟩, ⟨x4, y4⟩, ⟨x5, y5⟩, ⟨x6, y6⟩, ⟨x7, y7⟩, rfl⟩ := list8 hlen
  rw [Synth.wpC_bind, Synth.wpC_inNs]
  refine Synth.wpC_mono (AllocatedNum.wpC_alloc _) fun rx hrx => ?_
  rw [Synth.wpC_bind, Synth.wpC_inNs]
  refine Synth.wpC_mono (AllocatedNum.wpC_alloc _) fun ry hry => ?_
  simp only [List.map_cons, List.map_nil, synth3]
  rw [Synth.wpC_bind, Synth.wpC_inNs]
  refine Synth.wpC_mono (Boolean.wpC_and h1 hy hz) fun pc hp => ?_
  simp only [Synth.wpC_bind, Synth.wpC_enforce, Synth.wpC_pure, LC.eval_addTerm, LC.eval_subTerm, LC.eval_addLC,
    LC.eval_subLC, LC.eval_addVar, LC.eval_zero, h1, Boolean.eval_lc h1 hx.2, Boolean.eval_lc h1 hy.2,
    Boolean.eval_lc h1 hz.2, Boolean.eval_lc h1 hp.2, hrx.2, hry.2]
  refine ⟨?_, ?_, c, hc, hrx, hry⟩
  all_goals
    cases x <;> cases y <;> cases z <;> simp [idx3] at hc ⊢ <;> rw [← hc] <;> ring

theorem wpS_lookup3xyWithConditionalNegation (h1 : ρ .one = 1) {b0 b1 b2 : Boolean} {x y z : Bool} (hx : b0.Bit ρ x)
    (hy : b1.Bit ρ y) (hz : b2.Bit ρ z) (coords : List (F × F)) :
    Synth.wpS ρ (lookup3xyWithConditionalNegation [b0, b1, b2] coords) fun o =>
      ∃ c, coords[idx2 x y]? = some c ∧ o.1.Is ρ c.1 ∧ o.2.Is ρ (if z then -c.2 else c.2) := by
  unfold lookup3xyWithConditionalNegation
  dsimp only
  split
  · rename_i hlen
    obtain ⟨⟨x0, y0⟩, ⟨x1, y1⟩, ⟨x2, y2⟩, ⟨x3, y3⟩, rfl⟩ := list4 hlen
    rw [Synth.wpS_bind, Synth.wpS_inNs]
    refine Synth.wpS_mono (AllocatedNum.wpS_alloc _) fun ry _ => ?_
    simp only [List.map_cons, List.map_nil, synth2]
    rw [Synth.wpS_bind, Synth.wpS_inNs]
    refine Synth.wpS_mono (Boolean.wpS_and h1 hx hy) fun pc hp => ?_
    simp only [Synth.wpS_bind, Synth.wpS_enforce, Synth.wpS_pure, LC.eval_addTerm, LC.eval_subTerm, LC.eval_addLC,
      LC.eval_subLC, LC.eval_addVar, LC.eval_subVar, LC.eval_zero, h1, Boolean.eval_lc h1 hx, Boolean.eval_lc h1 hy,
      Boolean.eval_lc h1 hz, Boolean.eval_lc h1 hp]
    intro e1
    have hX := Num.is_addBool h1 (Num.is_addBool h1 (Num.is_addBool h1 (Num.is_addBool h1
      (Num.is_zero (F := F) (ρ := ρ)) (Boolean.bit_constant (c := true) (x := true) |>.2 rfl) x0) hx (x1 - x0)) hy (x2 - x0)) hp (x3 - x2 - x1 + x0)
    have hY : (Num.ofAllocated ry).Is ρ (ρ ry.var) := by simp [Num.Is, Num.ofAllocated]
    cases x <;> cases y <;> cases z <;> simp [idx2, Num.Is] at e1 hX hY ⊢ <;>
      (refine ⟨?_, ?_⟩
       · rw [hX] <;> ring
       · rw [hY]
         first | linear_combination e1 | linear_combination -e1)
  · trivial

theorem wpC_lookup3xyWithConditionalNegation (h1 : ρ .one = 1) {b0 b1 b2 : Boolean} {x y z : Bool} (hx : b0.Has ρ x)
    (hy : b1.Has ρ y) (hz : b2.Has ρ z) {coords : List (F × F)} (hlen : coords.length = 4) :
    Synth.wpC ρ (lookup3xyWithConditionalNegation [b0, b1, b2] coords) fun o =>
      ∃ c, coords[idx2 x y]? = some c ∧ o.1.Has ρ c.1 ∧ o.2.Has ρ (if z then -c.2 else c.2) := by
  unfold lookup3xyWithConditionalNegation
  dsimp only
  rw [if_pos hlen]
  have hi : lookupIndex2 b0 b1 = some (idx2 x y) := by
    simp only [lookupIndex2, hx.1, hy.1]
    cases x <;> cases y <;> rfl
  rw [hi]
  obtain ⟨c, hc⟩ : ∃ c, coords[idx2 x y]? = some c := by
    refine ⟨coords[idx2 x y]'?_, List.getElem?_eq_getElem _⟩
    rw [hlen]; cases x <;> cases y <;> simp [idx2]
  rw [coordAt_some _ _ _ hc, hz.1]
  have hv : (do let tmp ← (.ok c.2 : Except SynthesisError F); let s ← Synth.optGet (some z)
                pure (if s = true then -tmp else tmp)) = (.ok (if z then -c.2 else c.2) : Except SynthesisError F) := rfl
  rw [hv]
  obtain ⟨⟨x0, y0⟩, ⟨x1, y1⟩, ⟨x2, y2⟩, ⟨x3, y3⟩, rfl⟩ := list4 hlen
  rw [Synth.wpC_bind, Synth.wpC_inNs]
  refine Synth.wpC_mono (AllocatedNum.wpC_alloc _) fun ry hry => ?_
  simp only [List.map_cons, List.map_nil, synth2]
  rw [Synth.wpC_bind, Synth.wpC_inNs]
  refine Synth.wpC_mono (Boolean.wpC_and h1 hx hy) fun pc hp => ?_
  simp only [Synth.wpC_bind, Synth.wpC_enforce, Synth.wpC_pure, LC.eval_addTerm, LC.eval_subTerm, LC.eval_addLC,
    LC.eval_subLC, LC.eval_addVar, LC.eval_subVar, LC.eval_zero, h1, Boolean.eval_lc h1 hx.2, Boolean.eval_lc h1 hy.2,
    Boolean.eval_lc h1 hz.2, Boolean.eval_lc h1 hp.2, hry.2]
  have hX := Num.has_addBool h1 (Num.has_addBool h1 (Num.has_addBool h1 (Num.has_addBool h1
      (Num.has_zero (F := F) (ρ := ρ)) (Boolean.has_constant (c := true) (x := true) |>.2 rfl) x0) hx (x1 - x0)) hy (x2 - x0)) hp (x3 - x2 - x1 + x0)
  have hY : (Num.ofAllocated ry).Has ρ (if z then -c.2 else c.2) := ⟨hry.1, by simp [Num.ofAllocated, hry.2]⟩
  refine ⟨?_, c, hc, ?_, hY⟩
  · cases x <;> cases y <;> cases z <;> simp [idx2] at hc ⊢ <;> rw [← hc] <;> ring
  · convert hX using 1
    cases x <;> cases y <;> simp [idx2] at hc ⊢ <;> rw [← hc] <;> ring

end Bellman
