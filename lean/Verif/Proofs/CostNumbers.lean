import Verif.Cost

/-!
# The counting interpreter run on the compression functions

The kernel evaluates the interpreter; each statement is about one fixed computation, and is used for all inputs by way of
`Proofs/CostHash.lean`.
-/

namespace Bellman.Cost

open List

set_option maxRecDepth 100000

/-- A word without constant bits. -/
def VW : AW := .mix (replicate 32 .var)

namespace Sha256

/-- What is known of the initial hash value. -/
def aiv : List AW := Bellman.Sha256.IV.map .lit

theorem eval_first : compression 254 (words (replicate 512 .var)) aiv ⟨0, 0, 0⟩ = some (replicate 8 VW, ⟨25814, 26, 0⟩) := by
  decide +kernel

theorem eval_next : compression 254 (words (replicate 512 .var)) (replicate 8 VW) ⟨0, 0, 0⟩ = some (replicate 8 VW, ⟨26166, 26, 0⟩) := by
  decide +kernel

theorem eval_pad : compression 254 (words (replicate 512 .any)) (replicate 8 VW) ⟨0, 0, 0⟩ = some (replicate 8 VW, ⟨19014, 20, 0⟩) := by
  decide +kernel

theorem eval_640 : compression 254 (words (replicate 128 .var ++ replicate 384 .any)) (replicate 8 VW) ⟨0, 0, 0⟩ =
    some (replicate 8 VW, ⟨25326, 26, 0⟩) := by
  decide +kernel

theorem eval_256 : compression 254 (words (replicate 256 .var ++ replicate 256 .any)) aiv ⟨0, 0, 0⟩ =
    some (replicate 8 VW, ⟨25218, 26, 0⟩) := by
  decide +kernel

end Sha256

namespace Blake2s

theorem eval_first : compression 254 (replicate 8 .con) (replicate 16 VW) ⟨0, 0, 0⟩ = some (replicate 8 VW, ⟨20960, 46, 0⟩) := by
  decide +kernel

theorem eval_next : compression 254 (replicate 8 VW) (replicate 16 VW) ⟨0, 0, 0⟩ = some (replicate 8 VW, ⟨21344, 46, 0⟩) := by
  decide +kernel

end Blake2s

end Bellman.Cost
