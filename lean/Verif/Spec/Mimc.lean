import Mathlib.Algebra.Field.Defs

/-!
# MiMC (specification)

The pseudocode of `LongsightF322p3`: `for i from 0 up to 321 { xL, xR := xR + (xL + Ci)^3, xL }; return xL`.
-/

namespace Bellman.Spec

/-- The state after the rounds with the given constants. -/
def mimcRounds {F : Type} [Field F] : List F → F → F → F × F
  | [], xL, xR => (xL, xR)
  | c :: cs, xL, xR => mimcRounds cs (xR + (xL + c) ^ 3) xL

/-- The hash: the left half of the last state. -/
def mimc {F : Type} [Field F] (constants : List F) (xL xR : F) : F := (mimcRounds constants xL xR).1

end Bellman.Spec
