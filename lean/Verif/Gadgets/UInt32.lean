import Verif.Gadgets.MultiEq

/-!
# Model of src/gadgets/uint32.rs
-/

namespace Bellman

open PrimeField

variable {F : Type} [PrimeField F]

/-- src/gadgets/uint32.rs:17-21 `struct UInt32 { bits, value }` (least significant bit first).  A Rust `u32` is a
`BitVec 32`. -/
structure UInt32 where
  bits : List Boolean
  value : Option (BitVec 32)

/-- The loops `for _ in 0..n { push(tmp & 1 == 1); tmp >>= 1; }` (src/gadgets/uint32.rs:28-37 and 53-58). -/
def shiftBits : ℕ → BitVec 32 → List Bool
  | 0, _ => []
  | n + 1, tmp => (tmp &&& 1#32 == 1#32) :: shiftBits n (tmp >>> 1)

namespace UInt32

/-- src/gadgets/uint32.rs:25-43 `constant`. -/
def constant (value : BitVec 32) : UInt32 :=
  ⟨(shiftBits 32 value).map Boolean.constant, some value⟩

/-- src/gadgets/uint32.rs:65-74, the loop of `alloc`; `i` is the running index. -/
def allocLoop (i : ℕ) : List (Option Bool) → Synth F (List Boolean)
  | [] => pure []
  | v :: vs => do
    let b ← Synth.inNs s!"allocated bit {i}" (AllocatedBit.alloc v)
    let bs ← allocLoop (i + 1) vs
    pure (.is b :: bs)

/-- src/gadgets/uint32.rs:46-77 `alloc`. -/
def alloc (value : Option (BitVec 32)) : Synth F UInt32 := do
  let values := match value with
    | some val => (shiftBits 32 val).map some
    | none => List.replicate 32 none
  let bits ← allocLoop 0 values
  pure ⟨bits, value⟩

/-- src/gadgets/uint32.rs:79-83 `into_bits_be`. -/
def intoBitsBe (u : UInt32) : List Boolean := u.bits.reverse

/-- src/gadgets/uint32.rs:88-105 and 125-158: the accumulation of the value, most significant bit first.  (The
two loops differ only in spelling out `get_value`.) -/
def valueLoop (value : Option (BitVec 32)) : List Boolean → Option (BitVec 32)
  | [] => value
  | b :: bs =>
    let value := value.map fun (v : BitVec 32) => v <<< 1
    let value := match b.getValue with
      | some true => value.map fun v => v ||| 1#32
      | some false => value
      | none => none
    valueLoop value bs

/-- src/gadgets/uint32.rs:85-111 `from_bits_be`; `none` is the panic of the length assertion. -/
def fromBitsBe (bits : List Boolean) : Option UInt32 :=
  if bits.length = 32 then some ⟨bits.reverse, valueLoop (some 0#32) bits⟩ else none

/-- src/gadgets/uint32.rs:114-116 `into_bits`. -/
def intoBits (u : UInt32) : List Boolean := u.bits

/-- src/gadgets/uint32.rs:120-164 `from_bits`; `none` is the panic of the length assertion. -/
def fromBits (bits : List Boolean) : Option UInt32 :=
  if bits.length = 32 then some ⟨bits, valueLoop (some 0#32) bits.reverse⟩ else none

/-- src/gadgets/uint32.rs:166-182 `rotr`. -/
def rotr (u : UInt32) (by_ : ℕ) : UInt32 :=
  let by_ := by_ % 32
  ⟨(u.bits.drop by_ ++ u.bits).take 32, u.value.map fun v => v.rotateRight by_⟩

/-- src/gadgets/uint32.rs:184-202 `shr`.  The endless iterator of constant zeros is cut to 32 elements, which is all
that `take(32)` can use. -/
def shr (u : UInt32) (by_ : ℕ) : UInt32 :=
  let by_ := by_ % 32
  ⟨(u.bits.drop by_ ++ List.replicate 32 (Boolean.constant false)).take 32, u.value.map fun (v : BitVec 32) => v >>> by_⟩

/-- src/gadgets/uint32.rs:223-230, the bit loop of `triop`. -/
def triopLoop (circuitFn : ℕ → Boolean → Boolean → Boolean → Synth F Boolean) (i : ℕ) :
    List Boolean → List Boolean → List Boolean → Synth F (List Boolean)
  | a :: as, b :: bs, c :: cs => do
    let r ← circuitFn i a b c
    let rs ← triopLoop circuitFn (i + 1) as bs cs
    pure (r :: rs)
  | _, _, _ => pure []

/-- src/gadgets/uint32.rs:204-236 `triop`. -/
def triop (a b c : UInt32) (triFn : BitVec 32 → BitVec 32 → BitVec 32 → BitVec 32)
    (circuitFn : ℕ → Boolean → Boolean → Boolean → Synth F Boolean) : Synth F UInt32 := do
  let newValue := match a.value, b.value, c.value with
    | some a, some b, some c => some (triFn a b c)
    | _, _, _ => none
  let bits ← triopLoop circuitFn 0 a.bits b.bits c.bits
  pure ⟨bits, newValue⟩

/-- src/gadgets/uint32.rs:240-258 `sha256_maj`. -/
def sha256Maj (a b c : UInt32) : Synth F UInt32 :=
  triop a b c (fun a b c => ((a &&& b) ^^^ (a &&& c)) ^^^ (b &&& c))
    (fun i a b c => Synth.inNs s!"maj {i}" (Boolean.sha256Maj a b c))

/-- src/gadgets/uint32.rs:262-280 `sha256_ch`. -/
def sha256Ch (a b c : UInt32) : Synth F UInt32 :=
  triop a b c (fun a b c => (a &&& b) ^^^ (~~~a &&& c))
    (fun i a b c => Synth.inNs s!"ch {i}" (Boolean.sha256Ch a b c))

/-- src/gadgets/uint32.rs:293-299, the bit loop of `xor`. -/
def xorLoop (i : ℕ) : List Boolean → List Boolean → Synth F (List Boolean)
  | a :: as, b :: bs => do
    let r ← Synth.inNs s!"xor of bit {i}" (Boolean.xor a b)
    let rs ← xorLoop (i + 1) as bs
    pure (r :: rs)
  | _, _ => pure []

/-- src/gadgets/uint32.rs:283-305 `xor`. -/
def xor (self other : UInt32) : Synth F UInt32 := do
  let newValue := match self.value, other.value with
    | some a, some b => some (a ^^^ b)
    | _, _ => none
  let bits ← xorLoop 0 self.bits other.bits
  pure ⟨bits, newValue⟩

/-- src/gadgets/uint32.rs:351-358, the loop over the bits of one operand: accumulated combination and
`all_constants`. -/
def addBits (lc : LC F) (allConst : Bool) (coeff : F) : List Boolean → LC F × Bool
  | [] => (lc, allConst)
  | b :: bs => addBits (lc + b.lc coeff) (allConst && b.isConstant) (coeff + coeff) bs

/-- src/gadgets/uint32.rs:324-359, the loop over the operands.  The sum is a `u64` in Rust; it cannot overflow with
at most ten operands, so it is a natural number here. -/
def addOperands (value : Option ℕ) (lc : LC F) (allConst : Bool) : List UInt32 → Option ℕ × LC F × Bool
  | [] => (value, lc, allConst)
  | op :: ops =>
    let value := match op.value with
      | some val => value.map fun v => v + val.toNat
      | none => none
    let r := addBits lc allConst 1 op.bits
    addOperands value r.1 r.2 ops

/-- src/gadgets/uint32.rs:378-396, the loop that allocates the bits of the sum; returns the bits, the combination
`result_lc` and the count `i`. -/
def resultLoop (value : Option ℕ) (maxValue i : ℕ) (coeff : F) (bits : List Boolean) (lc : LC F) :
    Synth F (List Boolean × LC F × ℕ) :=
  if maxValue = 0 then pure (bits, lc, i)
  else do
    let b ← Synth.inNs s!"result bit {i}" (AllocatedBit.alloc (value.map fun v => (v >>> i) &&& 1 == 1))
    resultLoop value (maxValue >>> 1) (i + 1) (coeff + coeff) (bits ++ [.is b]) (lc + (coeff, b.var))
termination_by maxValue
decreasing_by simp only [Nat.shiftRight_one]; omega

/-- src/gadgets/uint32.rs:308-408 `addmany`. -/
def addmany (operands : List UInt32) : MSynth F UInt32 :=
  if NUM_BITS F ≥ 64 then
    if operands.length ≥ 2 then
      if operands.length ≤ 10 then
        let maxValue := operands.length * (2 ^ 32 - 1)
        let r := addOperands (some 0) (LC.zero : LC F) true operands
        let modularValue : Option (BitVec 32) := r.1.map fun v => BitVec.ofNat 32 v
        match r.2.2, modularValue with
        | true, some result => pure (UInt32.constant result)
        | _, _ => do
          let q ← MSynth.lift (resultLoop r.1 maxValue 0 (1 : F) [] (LC.zero : LC F))
          MEq.enforceEqual q.2.2 r.2.1 q.2.1
          pure ⟨q.1.take 32, modularValue⟩
      else MSynth.lift (Synth.panic "assert!(operands.len() <= 10)")
    else MSynth.lift (Synth.panic "assert!(operands.len() >= 2)")
  else MSynth.lift (Synth.panic "assert!(Scalar::NUM_BITS >= 64)")

end UInt32

end Bellman
