import Verif.Gadgets.Boolean

/-!
# Model of src/gadgets/num.rs
-/

namespace Bellman

open PrimeField

variable {F : Type} [PrimeField F]

/-- src/gadgets/num.rs:11-14 `struct AllocatedNum { value, variable }`. -/
structure AllocatedNum (F : Type) where
  value : Option F
  var : Var

namespace AllocatedNum

/-- src/gadgets/num.rs:26-47 `AllocatedNum::alloc`; `value` is the result of the closure.  The stored value is
the one captured when the closure runs. -/
def alloc (value : Except SynthesisError F) : Synth F (AllocatedNum F) := do
  let r ← Synth.alloc "num" value
  pure ⟨r.2, r.1⟩

/-- src/gadgets/num.rs:49-63 `inputize`. -/
def inputize (self : AllocatedNum F) : Synth F Unit := do
  let r ← Synth.allocInput "input variable" (Synth.optGet self.value)
  Synth.enforce "enforce input is correct"
    (fun lc => lc + r.1)
    (fun lc => lc + Var.one)
    (fun lc => lc + self.var)

/-- src/gadgets/num.rs:75-102 `kary_and`, the loop from the second element on: `cur` is the conjunction so far,
`i` the index of the next element. -/
def karyAndLoop (cur : AllocatedBit) (i : ℕ) : List AllocatedBit → Synth F AllocatedBit
  | [] => pure cur
  | v :: vs => do
    let c ← Synth.inNs s!"and {i}" (AllocatedBit.and cur v)
    karyAndLoop c (i + 1) vs

/-- src/gadgets/num.rs:75-102 `kary_and`. -/
def karyAnd : List AllocatedBit → Synth F AllocatedBit
  | [] => Synth.panic "assert!(!v.is_empty())"
  | v :: vs => karyAndLoop v 1 vs

/-- The local variables of the loop src/gadgets/num.rs:112-169. -/
structure StrictSt where
  result : List AllocatedBit
  lastRun : Option AllocatedBit
  currentRun : List AllocatedBit
  foundOne : Bool
  i : ℕ

/-- src/gadgets/num.rs:133-168, the body of the loop after the leading zeros have been skipped. -/
def strictStep (aBit : Option Bool) (b : Bool) (st : StrictSt) : Synth F StrictSt :=
  if b then do
    let x ← Synth.inNs s!"bit {st.i}" (AllocatedBit.alloc aBit)
    pure { st with currentRun := st.currentRun ++ [x], result := st.result ++ [x], i := st.i + 1 }
  else do
    let st ← (if st.currentRun.isEmpty then pure st else do
      let run := match st.lastRun with
        | some l => st.currentRun ++ [l]
        | none => st.currentRun
      let l ← Synth.inNs s!"run ending at {st.i}" (karyAnd run)
      pure { st with lastRun := some l, currentRun := [] } : Synth F StrictSt)
    match st.lastRun with
    | none => Synth.panic "char always starts with a one"
    | some l => do
      let x ← Synth.inNs s!"bit {st.i}" (AllocatedBit.allocConditionally aBit l)
      pure { st with result := st.result ++ [x], i := st.i + 1 }

/-- src/gadgets/num.rs:120-169, the loop over the big-endian bits of `r - 1` (second component), in lockstep
with the big-endian bits of the value if known (first component). -/
def strictLoop : List (Option Bool × Bool) → StrictSt → Synth F StrictSt
  | [], st => pure st
  | (aBit, b) :: rest, st =>
    let st := { st with foundOne := st.foundOne || b }
    if st.foundOne then do
      let st ← strictStep aBit b st
      strictLoop rest st
    else if aBit = some true then Synth.panic "assert!(!e)"
    else strictLoop rest st

/-- The loops src/gadgets/num.rs:178-185 and 205-212: `lc = lc + (coeff, bit.get_variable()); coeff =
coeff.double()`. -/
def packLoop (lc : LC F) (coeff : F) : List AllocatedBit → LC F
  | [] => lc
  | b :: bs => packLoop (lc + (coeff, b.var)) (coeff + coeff) bs

/-- src/gadgets/num.rs:106-110, 121: the big-endian bits of the value, or as many unknown bits as `r - 1` has
(in Rust, `a.as_ref().map(|e| e.next().unwrap())` in step with the bits of `r - 1`). -/
def strictABits (v : Option F) : List (Option Bool) :=
  match v with
  | some v => (toLeBits v).reverse.map some
  | none => (toLeBits (-1 : F)).reverse.map fun _ => none

/-- src/gadgets/num.rs:70-193 `to_bits_le_strict`. -/
def toBitsLeStrict (self : AllocatedNum F) : Synth F (List Boolean) := do
  let b := (toLeBits (-1 : F)).reverse
  let st ← strictLoop ((strictABits self.value).zip b) ⟨[], none, [], false, 0⟩
  if st.currentRun.length = 0 then do
    let lc := packLoop (LC.zero : LC F) 1 st.result.reverse
    let lc := lc - self.var
    Synth.enforce "unpacking constraint" (fun lc => lc) (fun lc => lc) (fun _ => lc)
    pure (st.result.map Boolean.is).reverse
  else Synth.panic "assert_eq!(current_run.len(), 0)"

/-- src/gadgets/num.rs:198-219 `to_bits_le`. -/
def toBitsLe (self : AllocatedNum F) : Synth F (List Boolean) := do
  let bits ← fieldIntoAllocatedBitsLe (K := F) self.value
  let lc := packLoop (LC.zero : LC F) 1 bits
  let lc := lc - self.var
  Synth.enforce "unpacking constraint" (fun lc => lc) (fun lc => lc) (fun _ => lc)
  pure (bits.map Boolean.is)

/-- src/gadgets/num.rs:221-251 `mul`. -/
def mul (self other : AllocatedNum F) : Synth F (AllocatedNum F) := do
  let r ← Synth.alloc "product num" (do
    let x ← Synth.optGet self.value
    let y ← Synth.optGet other.value
    pure (x * y))
  Synth.enforce "multiplication constraint"
    (fun lc => lc + self.var)
    (fun lc => lc + other.var)
    (fun lc => lc + r.1)
  pure ⟨r.2, r.1⟩

/-- src/gadgets/num.rs:253-282 `square`. -/
def square (self : AllocatedNum F) : Synth F (AllocatedNum F) := do
  let r ← Synth.alloc "squared num" (do
    let x ← Synth.optGet self.value
    pure (x * x))
  Synth.enforce "squaring constraint"
    (fun lc => lc + self.var)
    (fun lc => lc + self.var)
    (fun lc => lc + r.1)
  pure ⟨r.2, r.1⟩

/-- src/gadgets/num.rs:284-312 `assert_nonzero`. -/
def assertNonzero (self : AllocatedNum F) : Synth F Unit := do
  let r ← Synth.alloc "ephemeral inverse" (do
    let x ← Synth.optGet self.value
    if x = 0 then throw .divisionByZero else pure x⁻¹)
  Synth.enforce "nonzero assertion constraint"
    (fun lc => lc + self.var)
    (fun lc => lc + r.1)
    (fun lc => lc + Var.one)

/-- src/gadgets/num.rs:317-357 `conditionally_reverse`. -/
def conditionallyReverse (a b : AllocatedNum F) (condition : Boolean) :
    Synth F (AllocatedNum F × AllocatedNum F) := do
  let c ← Synth.inNs "conditional reversal result 1" (alloc (do
    let x ← Synth.optGet condition.getValue
    if x then Synth.optGet b.value else Synth.optGet a.value))
  Synth.enforce "first conditional reversal"
    (fun lc => lc + a.var - b.var)
    (fun _ => condition.lc (1 : F))
    (fun lc => lc + a.var - c.var)
  let d ← Synth.inNs "conditional reversal result 2" (alloc (do
    let x ← Synth.optGet condition.getValue
    if x then Synth.optGet a.value else Synth.optGet b.value))
  Synth.enforce "second conditional reversal"
    (fun lc => lc + b.var - a.var)
    (fun _ => condition.lc (1 : F))
    (fun lc => lc + b.var - d.var)
  pure (c, d)

end AllocatedNum

/-- src/gadgets/num.rs:368-371 `struct Num { value, lc }`. -/
structure Num (F : Type) where
  value : Option F
  lcomb : LC F

namespace Num

/-- src/gadgets/num.rs:373-380 `From<AllocatedNum> for Num`. -/
def ofAllocated (n : AllocatedNum F) : Num F := ⟨n.value, (LC.zero : LC F) + n.var⟩

/-- src/gadgets/num.rs:383-388 `Num::zero`. -/
def zero : Num F := ⟨some 0, LC.zero⟩

/-- src/gadgets/num.rs:394-396 `Num::lc`. -/
def lc (n : Num F) (coeff : F) : LC F := (LC.zero : LC F) + (coeff, n.lcomb)

/-- src/gadgets/num.rs:398-415 `Num::add_bool_with_coeff`, with `one = CS::one()`. -/
def addBoolWithCoeff (n : Num F) (bit : Boolean) (coeff : F) : Num F :=
  let newval := match n.value, bit.getValue with
    | some cur, some b => some (if b then cur + coeff else cur)
    | _, _ => none
  ⟨newval, n.lcomb + bit.lc coeff⟩

end Num

end Bellman
