import Verif.Circ

/-!
# Model of src/gadgets/boolean.rs
-/

namespace Bellman

open PrimeField

variable {F : Type} [PrimeField F]

/-- `if b { Scalar::ONE } else { Scalar::ZERO }`, as in src/gadgets/boolean.rs:40-46 and passim. -/
def boolF (b : Bool) : F := if b then 1 else 0

/-- src/gadgets/boolean.rs:11-15 `struct AllocatedBit { variable, value }`. -/
structure AllocatedBit where
  var : Var
  value : Option Bool

/-- The calls `cs.alloc(|| name, || { if <fb> { result_value = Some(true); Ok(ONE) } else { result_value =
Some(false); Ok(ZERO) } })?` of src/gadgets/boolean.rs (e.g. 109-121): allocates and returns the variable
together with the captured `result_value`, which stays `None` if the closure is not invoked. -/
def allocCapture (name : String) (fb : Except SynthesisError Bool) : Synth F (Var × Option Bool) := do
  let r ← Synth.alloc name (fb.map boolF)
  pure (r.1, if r.2.isSome then fb.toOption else none)

namespace AllocatedBit

/-- src/gadgets/boolean.rs:26-66 `AllocatedBit::alloc_conditionally`. -/
def allocConditionally (value : Option Bool) (mustBeFalse : AllocatedBit) : Synth F AllocatedBit := do
  let r ← Synth.alloc "boolean" ((Synth.optGet value).map boolF)
  Synth.enforce "boolean constraint"
    (fun lc => lc + Var.one - mustBeFalse.var - r.1)
    (fun lc => lc + r.1)
    (fun lc => lc)
  pure ⟨r.1, value⟩

/-- src/gadgets/boolean.rs:68-99 `AllocatedBit::alloc`. -/
def alloc (value : Option Bool) : Synth F AllocatedBit := do
  let r ← Synth.alloc "boolean" ((Synth.optGet value).map boolF)
  Synth.enforce "boolean constraint"
    (fun lc => lc + Var.one - r.1)
    (fun lc => lc + r.1)
    (fun lc => lc)
  pure ⟨r.1, value⟩

/-- src/gadgets/boolean.rs:101-150 `AllocatedBit::xor`. -/
def xor (a b : AllocatedBit) : Synth F AllocatedBit := do
  let r ← allocCapture "xor result" (do
    let x ← Synth.optGet a.value
    let y ← Synth.optGet b.value
    pure (Bool.xor x y))
  Synth.enforce "xor constraint"
    (fun lc => lc + a.var + a.var)
    (fun lc => lc + b.var)
    (fun lc => lc + a.var + b.var - r.1)
  pure ⟨r.1, r.2⟩

/-- src/gadgets/boolean.rs:153-189 `AllocatedBit::and`. -/
def and (a b : AllocatedBit) : Synth F AllocatedBit := do
  let r ← allocCapture "and result" (do
    let x ← Synth.optGet a.value
    let y ← Synth.optGet b.value
    pure (x && y))
  Synth.enforce "and constraint"
    (fun lc => lc + a.var)
    (fun lc => lc + b.var)
    (fun lc => lc + r.1)
  pure ⟨r.1, r.2⟩

/-- src/gadgets/boolean.rs:192-227 `AllocatedBit::and_not`. -/
def andNot (a b : AllocatedBit) : Synth F AllocatedBit := do
  let r ← allocCapture "and not result" (do
    let x ← Synth.optGet a.value
    let y ← Synth.optGet b.value
    pure (x && !y))
  Synth.enforce "and not constraint"
    (fun lc => lc + a.var)
    (fun lc => lc + Var.one - b.var)
    (fun lc => lc + r.1)
  pure ⟨r.1, r.2⟩

/-- src/gadgets/boolean.rs:230-265 `AllocatedBit::nor`. -/
def nor (a b : AllocatedBit) : Synth F AllocatedBit := do
  let r ← allocCapture "nor result" (do
    let x ← Synth.optGet a.value
    let y ← Synth.optGet b.value
    pure (!x && !y))
  Synth.enforce "nor constraint"
    (fun lc => lc + Var.one - a.var)
    (fun lc => lc + Var.one - b.var)
    (fun lc => lc + r.1)
  pure ⟨r.1, r.2⟩

end AllocatedBit

/-- src/gadgets/boolean.rs:358-368 `enum Boolean`. -/
inductive Boolean where
  | is (b : AllocatedBit)
  | not (b : AllocatedBit)
  | constant (c : Bool)

/-- `.into_iter().enumerate().map(|(i, b)| AllocatedBit::alloc(cs.namespace(|| format!("bit {}", i)), b))
.collect::<Result<Vec<_>, _>>()` (src/gadgets/boolean.rs:287-296, 348-353): `collect` stops at the first
error.  `i` is the running index. -/
def allocBits (i : ℕ) : List (Option Bool) → Synth F (List AllocatedBit)
  | [] => pure []
  | b :: bs => do
    let x ← Synth.inNs s!"bit {i}" (AllocatedBit.alloc b)
    let xs ← allocBits (i + 1) bs
    pure (x :: xs)

/-- src/gadgets/boolean.rs:269-298 `u64_into_boolean_vec_le`; the `u64` is a `BitVec 64`. -/
def u64IntoBooleanVecLe (value : Option (BitVec 64)) : Synth F (List Boolean) := do
  let values := match value with
    | some v => (List.range 64).map fun i => some ((v >>> i) &&& 1#64 == 1#64)
    | none => List.replicate 64 none
  let bits ← allocBits 0 values
  pure (bits.map Boolean.is)

/-- src/gadgets/boolean.rs:324-337, the loop over the big-endian bits of the value: leading bits are skipped
until the first one bit of the (big-endian) characteristic.  `zip` replaces `field_char.next().unwrap()`; both
bit strings have `REPR_BITS` bits. -/
def skipLeading : Bool → List (Bool × Bool) → List Bool
  | _, [] => []
  | found, (b, c) :: rest =>
    let found := found || c
    if found then b :: skipLeading found rest else skipLeading found rest

/-- src/gadgets/boolean.rs:313-356 `field_into_allocated_bits_le::<Scalar, CS, F>`; `K` is the field `F` of
the value, which may differ from the circuit's field. -/
def fieldIntoAllocatedBitsLe {K : Type} [PrimeField K] (value : Option K) :
    Synth F (List AllocatedBit) := do
  match value with
  | some v =>
    let tmp := skipLeading false ((toLeBits v).reverse.zip (charLeBits K).reverse)
    if tmp.length = NUM_BITS K then
      allocBits 0 (tmp.map some).reverse
    else Synth.panic "assert_eq!(tmp.len(), F::NUM_BITS as usize)"
  | none => allocBits 0 (List.replicate (NUM_BITS K) none).reverse

/-- src/gadgets/boolean.rs:300-311 `field_into_boolean_vec_le`. -/
def fieldIntoBooleanVecLe {K : Type} [PrimeField K] (value : Option K) : Synth F (List Boolean) := do
  let v ← fieldIntoAllocatedBitsLe value
  pure (v.map Boolean.is)

namespace Boolean

/-- src/gadgets/boolean.rs:371-373 `is_constant`. -/
def isConstant : Boolean → Bool
  | .constant _ => true
  | _ => false

/-- src/gadgets/boolean.rs:421-427 `get_value`. -/
def getValue : Boolean → Option Bool
  | .constant c => some c
  | .is v => v.value
  | .not v => v.value.map fun b => !b

/-- src/gadgets/boolean.rs:429-447 `lc`, with `one = CS::one()`. -/
def lc (b : Boolean) (coeff : F) : LC F :=
  match b with
  | .constant c => if c then (LC.zero : LC F) + (coeff, Var.one) else LC.zero
  | .is v => (LC.zero : LC F) + (coeff, v.var)
  | .not v => (LC.zero : LC F) + (coeff, Var.one) - (coeff, v.var)

/-- src/gadgets/boolean.rs:375-419 `enforce_equal`. -/
def enforceEqual (a b : Boolean) : Synth F Unit :=
  match a, b with
  | .constant a, .constant b => if a = b then pure () else throw .unsatisfiable
  | .constant true, a | a, .constant true =>
    Synth.enforce "enforce equal to one" (fun lc => lc) (fun lc => lc)
      (fun lc => lc + Var.one - a.lc (1 : F))
  | .constant false, a | a, .constant false =>
    Synth.enforce "enforce equal to zero" (fun lc => lc) (fun lc => lc) (fun _ => a.lc (1 : F))
  | a, b =>
    Synth.enforce "enforce equal" (fun lc => lc) (fun lc => lc) (fun _ => a.lc (1 : F) - b.lc (1 : F))

/-- src/gadgets/boolean.rs:455-461 `Boolean::not`. -/
def neg : Boolean → Boolean
  | .constant c => .constant (!c)
  | .is v => .not v
  | .not v => .is v

/-- src/gadgets/boolean.rs:464-483 `Boolean::xor`.  The recursive call (`is`, `not.not()`) always
lands in the `Is, Is` case and is inlined. -/
def xor (a b : Boolean) : Synth F Boolean :=
  match a, b with
  | .constant false, x | x, .constant false => pure x
  | .constant true, x | x, .constant true => pure x.neg
  | .is i, .not n | .not n, .is i => do
    let r ← AllocatedBit.xor i n
    pure (Boolean.is r).neg
  | .is a, .is b | .not a, .not b => do
    let r ← AllocatedBit.xor a b
    pure (.is r)

/-- src/gadgets/boolean.rs:486-512 `Boolean::and`. -/
def and (a b : Boolean) : Synth F Boolean :=
  match a, b with
  | .constant false, _ | _, .constant false => pure (.constant false)
  | .constant true, x | x, .constant true => pure x
  | .is i, .not n | .not n, .is i => do
    let r ← AllocatedBit.andNot i n
    pure (.is r)
  | .not a, .not b => do
    let r ← AllocatedBit.nor a b
    pure (.is r)
  | .is a, .is b => do
    let r ← AllocatedBit.and a b
    pure (.is r)

/-- src/gadgets/boolean.rs:525-531: `ch_value`. -/
def chValue (a b c : Boolean) : Option Bool :=
  match a.getValue, b.getValue, c.getValue with
  | some a, some b, some c => some (Bool.xor (a && b) (!a && c))
  | _, _, _ => none

/-- src/gadgets/boolean.rs:597-618: the part of `sha256_ch` after the match (allocation and constraint). -/
def chAlloc (a b c : Boolean) : Synth F Boolean := do
  let r ← Synth.alloc "ch" ((Synth.optGet (chValue a b c)).map boolF)
  Synth.enforce "ch computation"
    (fun _ => b.lc (1 : F) - c.lc (1 : F))
    (fun _ => a.lc (1 : F))
    (fun lc => lc + r.1 - c.lc (1 : F))
  pure (.is ⟨r.1, chValue a b c⟩)

/-- src/gadgets/boolean.rs:515-619 `sha256_ch`, arms in source order. -/
def sha256Ch (a b c : Boolean) : Synth F Boolean :=
  match a, b, c with
  | .constant a', .constant b', .constant c' =>
    match chValue (.constant a') (.constant b') (.constant c') with
    | some v => pure (.constant v)
    | none => Synth.panic "they're all constants"
  | .constant false, _, c => pure c
  | a, .constant false, c => Boolean.and a.neg c
  | a, b, .constant false => Boolean.and a b
  | a, b, .constant true => do
    let r ← Boolean.and a b.neg
    pure r.neg
  | a, .constant true, c => do
    let r ← Boolean.and a.neg c.neg
    pure r.neg
  | .constant true, b, c => chAlloc (.constant true) b c
  | a, b, c => chAlloc a b c

/-- src/gadgets/boolean.rs:632-638: `maj_value`. -/
def majValue (a b c : Boolean) : Option Bool :=
  match a.getValue, b.getValue, c.getValue with
  | some a, some b, some c => some (Bool.xor (Bool.xor (a && b) (a && c)) (b && c))
  | _, _, _ => none

/-- src/gadgets/boolean.rs:700-742: the part of `sha256_maj` after the match. -/
def majAlloc (a b c : Boolean) : Synth F Boolean := do
  let r ← Synth.alloc "maj" ((Synth.optGet (majValue a b c)).map boolF)
  let bc ← Synth.inNs "b and c" (Boolean.and b c)
  Synth.enforce "maj computation"
    (fun _ => bc.lc (1 : F) + bc.lc (1 : F) - b.lc (1 : F) - c.lc (1 : F))
    (fun _ => a.lc (1 : F))
    (fun _ => bc.lc (1 : F) - r.1)
  pure (.is ⟨r.1, majValue a b c⟩)

/-- src/gadgets/boolean.rs:622-743 `sha256_maj`, arms in source order. -/
def sha256Maj (a b c : Boolean) : Synth F Boolean :=
  match a, b, c with
  | .constant a', .constant b', .constant c' =>
    match majValue (.constant a') (.constant b') (.constant c') with
    | some v => pure (.constant v)
    | none => Synth.panic "they're all constants"
  | .constant false, b, c => Boolean.and b c
  | a, .constant false, c => Boolean.and a c
  | a, b, .constant false => Boolean.and a b
  | a, b, .constant true => do
    let r ← Boolean.and a.neg b.neg
    pure r.neg
  | a, .constant true, c => do
    let r ← Boolean.and a.neg c.neg
    pure r.neg
  | .constant true, b, c => do
    let r ← Boolean.and b.neg c.neg
    pure r.neg
  | a, b, c => majAlloc a b c

end Boolean

end Bellman
