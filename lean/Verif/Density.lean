import Mathlib.Data.List.Basic

/-!
# Model of `DensityTracker` (src/multiexp.rs:117-157)
-/

namespace Bellman

/-- src/multiexp.rs:117-119 `struct DensityTracker { bv: BitVec }`. -/
structure DensityTracker where
  bv : List Bool
deriving DecidableEq

namespace DensityTracker

/-- src/multiexp.rs:140-142 `new`. -/
def new : DensityTracker := ⟨[]⟩

/-- src/multiexp.rs:144-146 `add_element`. -/
def addElement (d : DensityTracker) : DensityTracker := ⟨d.bv ++ [false]⟩

/-- src/multiexp.rs:148-152 `inc`; `self.bv.get(idx).unwrap()` panics (`none`) out of range. -/
def inc (d : DensityTracker) (idx : ℕ) : Option DensityTracker :=
  match d.bv[idx]? with
  | none => none
  | some b => some (if !b then ⟨d.bv.set idx true⟩ else d)

/-- src/multiexp.rs:154-156 `get_total_density`. -/
def getTotalDensity (d : DensityTracker) : ℕ := d.bv.count true

end DensityTracker

end Bellman
