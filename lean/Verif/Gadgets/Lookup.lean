import Verif.Gadgets.Num

/-!
# Model of src/gadgets/lookup.rs
-/

namespace Bellman

open PrimeField

variable {F : Type} [PrimeField F]

/-- src/gadgets/lookup.rs:17-26, the loop over the constants from index `i`.  `assignment[i]` out of range is a
panic (`none`). -/
def synthLoop (i : ℕ) : List F → List F → Option (List F)
  | [], assignment => some assignment
  | c :: cs, assignment =>
    match assignment[i]? with
    | none => none
    | some x =>
      let cur := -x + c
      let assignment := assignment.mapIdx fun j e =>
        if j = i then cur else if i + 1 ≤ j ∧ j &&& i = i then e + cur else e
      synthLoop (i + 1) cs assignment

/-- src/gadgets/lookup.rs:11-27 `synth`. -/
def synth (windowSize : ℕ) (constants : List F) (assignment : List F) : Option (List F) :=
  if assignment.length = 2 ^ windowSize then synthLoop 0 constants assignment else none

/-- src/gadgets/lookup.rs:42-62: the index into `coords`. -/
def lookupIndex3 (a b c : Boolean) : Option ℕ :=
  match a.getValue, b.getValue, c.getValue with
  | some a, some b, some c => some ((if a then 1 else 0) + (if b then 2 else 0) + (if c then 4 else 0))
  | _, _, _ => none

/-- `coords[*i.get()?].0` in a closure: missing index is `AssignmentMissing`; the index is always in range
(a `match` on `none` stands for the out-of-range panic and is unreachable). src/gadgets/lookup.rs:65, 68, 150. -/
def coordAt (coords : List (F × F)) (i : Option ℕ) (proj : F × F → F) : Except SynthesisError F := do
  let i ← Synth.optGet i
  match coords[i]? with
  | some c => pure (proj c)
  | none => throw .assignmentMissing

/-- src/gadgets/lookup.rs:31-117 `lookup3_xy`. -/
def lookup3xy (bits : List Boolean) (coords : List (F × F)) :
    Synth F (AllocatedNum F × AllocatedNum F) :=
  match bits with
  | [b0, b1, b2] =>
    if coords.length = 8 then do
      let i := lookupIndex3 b0 b1 b2
      let resX ← Synth.inNs "x" (AllocatedNum.alloc (coordAt coords i Prod.fst))
      let resY ← Synth.inNs "y" (AllocatedNum.alloc (coordAt coords i Prod.snd))
      match synth 3 (coords.map Prod.fst) (List.replicate 8 0), synth 3 (coords.map Prod.snd) (List.replicate 8 0) with
      | some [x0, x1, x2, x3, x4, x5, x6, x7], some [y0, y1, y2, y3, y4, y5, y6, y7] => do
        let precomp ← Synth.inNs "precomp" (Boolean.and b1 b2)
        Synth.enforce "x-coordinate lookup"
          (fun lc => lc + (x1, Var.one) + b1.lc x3 + b2.lc x5 + precomp.lc x7)
          (fun lc => lc + b0.lc (1 : F))
          (fun lc => lc + resX.var - (x0, Var.one) - b1.lc x2 - b2.lc x4 - precomp.lc x6)
        Synth.enforce "y-coordinate lookup"
          (fun lc => lc + (y1, Var.one) + b1.lc y3 + b2.lc y5 + precomp.lc y7)
          (fun lc => lc + b0.lc (1 : F))
          (fun lc => lc + resY.var - (y0, Var.one) - b1.lc y2 - b2.lc y4 - precomp.lc y6)
        pure (resX, resY)
      | _, _ => Synth.panic "index out of bounds"
    else Synth.panic "assert_eq!(coords.len(), 8)"
  | _ => Synth.panic "assert_eq!(bits.len(), 3)"

/-- src/gadgets/lookup.rs:133-145: the index into `coords`. -/
def lookupIndex2 (a b : Boolean) : Option ℕ :=
  match a.getValue, b.getValue with
  | some a, some b => some ((if a then 1 else 0) + (if b then 2 else 0))
  | _, _ => none

/-- src/gadgets/lookup.rs:121-186 `lookup3_xy_with_conditional_negation`. -/
def lookup3xyWithConditionalNegation (bits : List Boolean) (coords : List (F × F)) :
    Synth F (Num F × Num F) :=
  match bits with
  | [b0, b1, b2] =>
    if coords.length = 4 then do
      let i := lookupIndex2 b0 b1
      let y ← Synth.inNs "y" (AllocatedNum.alloc (do
        let tmp ← coordAt coords i Prod.snd
        let s ← Synth.optGet b2.getValue
        pure (if s then -tmp else tmp)))
      match synth 2 (coords.map Prod.fst) (List.replicate 4 0), synth 2 (coords.map Prod.snd) (List.replicate 4 0) with
      | some [x0, x1, x2, x3], some [y0, y1, y2, y3] => do
        let precomp ← Synth.inNs "precomp" (Boolean.and b0 b1)
        let x := (((Num.zero.addBoolWithCoeff (Boolean.constant true) x0).addBoolWithCoeff b0 x1).addBoolWithCoeff
          b1 x2).addBoolWithCoeff precomp x3
        let yLc := precomp.lc y3 + b1.lc y2 + b0.lc y1 + (y0, Var.one)
        Synth.enforce "y-coordinate lookup"
          (fun lc => lc + yLc + yLc)
          (fun lc => lc + b2.lc (1 : F))
          (fun lc => lc + yLc - y.var)
        pure (x, Num.ofAllocated y)
      | _, _ => Synth.panic "index out of bounds"
    else Synth.panic "assert_eq!(coords.len(), 4)"
  | _ => Synth.panic "assert_eq!(bits.len(), 3)"

end Bellman
