import Verif.FieldInstances

/-!
# The test engine of the Groth16 crate

groth16/src/tests/dummy_engine.rs implements `ff::Field`, `ff::PrimeField`, the group traits and `pairing::Engine` for a
16-bit field held in a wrapping 32-bit word. This file models those functions on machine words.
-/

namespace Bellman

namespace Dummy

/-- groth16/src/tests/dummy_engine.rs:17-18 `struct Fr(Wrapping<u32>)`; `PartialEq` is derived. -/
structure Fr where
  w : BitVec 32
deriving DecidableEq

/-- groth16/src/tests/dummy_engine.rs:15 `MODULUS_R`. -/
def MODULUS_R : BitVec 32 := 64513#32

/-- groth16/src/tests/dummy_engine.rs:26-30 `ConstantTimeEq::ct_eq`. -/
def Fr.ctEq (a b : Fr) : Bool := a.w == b.w

/-- groth16/src/tests/dummy_engine.rs:38-42 `From<u64>`. -/
def Fr.fromU64 (v : BitVec 64) : Fr := ⟨(v % MODULUS_R.setWidth 64).setWidth 32⟩

/-- groth16/src/tests/dummy_engine.rs:44-52 `conditional_select`: the second argument when the choice is set. -/
def Fr.conditionalSelect (a b : Fr) (choice : Bool) : Fr := ⟨if choice then b.w else a.w⟩

/-- groth16/src/tests/dummy_engine.rs:200 `Field::ZERO`. -/
def Fr.ZERO : Fr := ⟨0#32⟩

/-- groth16/src/tests/dummy_engine.rs:201 `Field::ONE`. -/
def Fr.ONE : Fr := ⟨1#32⟩

/-- groth16/src/tests/dummy_engine.rs:207-209 `Field::is_zero` (`is_zero_vartime` of crate `ff` is the same test). -/
def Fr.isZero (a : Fr) : Bool := a.w == 0#32

/-- groth16/src/tests/dummy_engine.rs:78-87 `Neg::neg`. -/
def Fr.neg (a : Fr) : Fr := if a.isZero then a else ⟨MODULUS_R - a.w⟩

/-- groth16/src/tests/dummy_engine.rs:108-118 `AddAssign`, and `Add` (89-106) which calls it. -/
def Fr.add (a b : Fr) : Fr := ⟨(a.w + b.w) % MODULUS_R⟩

/-- groth16/src/tests/dummy_engine.rs:139-149 `SubAssign`, and `Sub` (120-137) which calls it. -/
def Fr.sub (a b : Fr) : Fr := ⟨((MODULUS_R + a.w) - b.w) % MODULUS_R⟩

/-- groth16/src/tests/dummy_engine.rs:170-180 `MulAssign`, and `Mul` (151-168) which calls it. -/
def Fr.mul (a b : Fr) : Fr := ⟨(a.w * b.w) % MODULUS_R⟩

/-- groth16/src/tests/dummy_engine.rs:54-64 `Sum`. -/
def Fr.sum (l : List Fr) : Fr := l.foldl Fr.add Fr.ZERO

/-- groth16/src/tests/dummy_engine.rs:66-76 `Product`. -/
def Fr.product (l : List Fr) : Fr := l.foldl Fr.mul Fr.ONE

/-- groth16/src/tests/dummy_engine.rs:182-188 `BitAnd<u64>`. -/
def Fr.bitand (a : Fr) (rhs : BitVec 64) : BitVec 64 := a.w.setWidth 64 &&& rhs

/-- groth16/src/tests/dummy_engine.rs:190-197 `Shr<u32>`; a shift by 32 or more panics in a debug build (`none`). -/
def Fr.shr (a : Fr) (rhs : ℕ) : Option Fr := if rhs < 32 then some ⟨a.w >>> rhs⟩ else none

/-- groth16/src/tests/dummy_engine.rs:203-205 `Field::random`, given the word that `next_u32` returns. -/
def Fr.random (next : BitVec 32) : Fr := ⟨next % MODULUS_R⟩

/-- groth16/src/tests/dummy_engine.rs:211-213 `Field::square`. -/
def Fr.square (a : Fr) : Fr := ⟨(a.w * a.w) % MODULUS_R⟩

/-- groth16/src/tests/dummy_engine.rs:215-217 `Field::double`. -/
def Fr.double (a : Fr) : Fr := ⟨(a.w <<< 1) % MODULUS_R⟩

/-- `ff::Field::pow_vartime` (provided method, external) for an exponent of one 64-bit limb: for every bit, most significant
first, square and multiply when the bit is set. -/
def Fr.powVartime (a : Fr) (e : BitVec 64) : Fr :=
  (List.range 64).reverse.foldl (fun res i => if e.getLsbD i then res.square.mul a else res.square) Fr.ONE

/-- groth16/src/tests/dummy_engine.rs:219-224 `Field::invert`. -/
def Fr.invert (a : Fr) : Option Fr :=
  if !a.isZero then some (a.powVartime (MODULUS_R.setWidth 64 - 2#64)) else none

/-- groth16/src/tests/dummy_engine.rs:299 `PrimeField::S`. -/
def Fr.S : ℕ := 10

/-- groth16/src/tests/dummy_engine.rs:297 `PrimeField::NUM_BITS`. -/
def Fr.NUM_BITS : ℕ := 16

/-- groth16/src/tests/dummy_engine.rs:298 `PrimeField::CAPACITY`. -/
def Fr.CAPACITY : ℕ := 15

/-- groth16/src/tests/dummy_engine.rs:315 `PrimeField::MODULUS`. -/
def Fr.MODULUS : String := "64513"

/-- groth16/src/tests/dummy_engine.rs:316 `PrimeField::TWO_INV`. -/
def Fr.TWO_INV : Fr := ⟨32257#32⟩

/-- groth16/src/tests/dummy_engine.rs:317 `PrimeField::MULTIPLICATIVE_GENERATOR`. -/
def Fr.MULTIPLICATIVE_GENERATOR : Fr := ⟨5#32⟩

/-- groth16/src/tests/dummy_engine.rs:318 `PrimeField::ROOT_OF_UNITY`. -/
def Fr.ROOT_OF_UNITY : Fr := ⟨57751#32⟩

/-- groth16/src/tests/dummy_engine.rs:319 `PrimeField::ROOT_OF_UNITY_INV`. -/
def Fr.ROOT_OF_UNITY_INV : Fr := ⟨12832#32⟩

/-- groth16/src/tests/dummy_engine.rs:320 `PrimeField::DELTA`. -/
def Fr.DELTA : Fr := ⟨38779#32⟩

/-! ## Square roots -/

/-- What a run of a loop does within a given number of steps: return a value, panic, or still be running. -/
inductive Outcome (α : Type) where
  | done (a : α)
  | panic
  | running
deriving DecidableEq

/-- The inner loop of `sqrt` (groth16/src/tests/dummy_engine.rs:242-252): the first `i ≥ 1` at which the squares of `t` reach one.
`i += 1` on a `u32` panics when it overflows (debug builds, in which the tests run). -/
def Fr.orderLoop : ℕ → Fr → ℕ → Outcome ℕ
  | 0, _, _ => .running
  | fuel + 1, t2i, i =>
    if t2i = Fr.ONE then .done i
    else if i + 1 < 2 ^ 32 then orderLoop fuel t2i.square (i + 1)
    else .panic

/-- The outer loop of `sqrt` (groth16/src/tests/dummy_engine.rs:241-261). `m - i - 1` is a `u32` subtraction, which panics below
zero (debug builds). -/
def Fr.sqrtLoop (inner : ℕ) : ℕ → Fr → Fr → Fr → ℕ → Outcome Fr
  | 0, _, _, _, _ => .running
  | fuel + 1, c, r, t, m =>
    if t = Fr.ONE then .done r
    else
      match Fr.orderLoop inner t.square 1 with
      | .running => .running
      | .panic => .panic
      | .done i =>
        if i + 1 ≤ m then
          let c := (List.range (m - i - 1)).foldl (fun c _ => c.square) c
          sqrtLoop inner fuel c.square (r.mul c) (t.mul c.square) i
        else .panic

/-- groth16/src/tests/dummy_engine.rs:231-264 `Field::sqrt`, cut off after `fuel` rounds of either loop. -/
def Fr.sqrt (fuel : ℕ) (a : Fr) : Outcome (Option Fr) :=
  match Fr.sqrtLoop fuel fuel Fr.ROOT_OF_UNITY (a.powVartime 32#64) (a.powVartime 63#64) Fr.S with
  | .done r => .done (if (r.mul r).ctEq a then some r else none)
  | .panic => .panic
  | .running => .running

/-! ## Encodings -/

/-- `u64::to_le_bytes` (std). -/
def toLeBytes (v : BitVec 64) : List (BitVec 8) := (List.range 8).map fun i => (v >>> (8 * i)).setWidth 8

/-- `u64::from_le_bytes` (std). -/
def fromLeBytes (l : List (BitVec 8)) : BitVec 64 := l.foldr (fun b acc => (acc <<< 8) ||| b.setWidth 64) 0#64

/-- groth16/src/tests/dummy_engine.rs:276-280 `FrRepr::from(&Fr)`, and `to_repr` (307-309) which calls it. -/
def Fr.toRepr (a : Fr) : List (BitVec 8) := toLeBytes (a.w.setWidth 64)

/-- groth16/src/tests/dummy_engine.rs:301-305 `PrimeField::from_repr`. -/
def Fr.fromRepr (repr : List (BitVec 8)) : Option Fr :=
  let v := fromLeBytes repr
  if v ≥ MODULUS_R.setWidth 64 then none else some ⟨v.setWidth 32⟩

/-- groth16/src/tests/dummy_engine.rs:311-313 `PrimeField::is_odd`. -/
def Fr.isOdd (a : Fr) : Bool := (a.w % 2#32).setWidth 8 == 1#8

/-- groth16/src/tests/dummy_engine.rs:326-328 `to_le_bits`: the bits of the word, least significant first. -/
def Fr.toLeBits (a : Fr) : List Bool := (List.range 64).map fun i => (a.w.setWidth 64).getLsbD i

/-- groth16/src/tests/dummy_engine.rs:330-332 `char_le_bits`. -/
def Fr.charLeBits : List Bool := (List.range 64).map fun i => (MODULUS_R.setWidth 64).getLsbD i

/-! ## The engine -/

/-- groth16/src/tests/dummy_engine.rs:358-368 `multi_miller_loop`. -/
def multiMillerLoop (terms : List (Fr × Fr)) : Fr := terms.foldl (fun acc ab => acc.add (ab.1.mul ab.2)) Fr.ZERO

/-- groth16/src/tests/dummy_engine.rs:375-377 `final_exponentiation`. -/
def finalExponentiation (a : Fr) : Fr := a

/-- groth16/src/tests/dummy_engine.rs:348-350 `Engine::pairing`. -/
def pairing (p q : Fr) : Fr := finalExponentiation (multiMillerLoop [(p, q)])

/-- groth16/src/tests/dummy_engine.rs:383-385 `Group::random`. -/
def groupRandom (next : BitVec 32) : Fr := Fr.random next

/-- groth16/src/tests/dummy_engine.rs:387-389 (and 443-445) `identity`. -/
def identity : Fr := Fr.ZERO

/-- groth16/src/tests/dummy_engine.rs:391-393 (and 447-449) `generator`. -/
def generator : Fr := Fr.ONE

/-- groth16/src/tests/dummy_engine.rs:395-397 (and 451-453) `is_identity`. -/
def isIdentity (a : Fr) : Bool := a.isZero

/-- groth16/src/tests/dummy_engine.rs:399-401 `Group::double`. -/
def groupDouble (a : Fr) : Fr := a.double

/-- groth16/src/tests/dummy_engine.rs:409-411 `to_affine` (and 455-457 `to_curve`). -/
def toAffine (a : Fr) : Fr := a

/-- groth16/src/tests/dummy_engine.rs:496-498 `pairing_with`. -/
def pairingWith (a other : Fr) : Fr := a.mul other

end Dummy

end Bellman
