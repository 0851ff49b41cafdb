import Verif.Machine
import Verif.Gadgets.MultiEq
import Verif.Gadgets.Sha256
import Verif.Gadgets.Blake2s

/-!
# `MultiEq` and the paddings of the hash functions with machine integers

`Verif/Gadgets/MultiEq.lean`, `Sha256.lean` and `Blake2s.lean` count with unbounded numbers.  Here the counters are `usize` and `u64`, as in
the code; an overflow panics in a debug build and wraps around in a release build (see `Verif/Machine.lean`).
-/

namespace Bellman

open PrimeField

variable {F : Type} [PrimeField F] {α : Type}

namespace MEq

/-- src/gadgets/multieq.rs:24-38 `accumulate`: `ops` is a `usize`. -/
def accumulateW (b : Build) (k : MEq F → Circ F α) (s : MEq F) : Circ F α :=
  Circ.enforce s!"multieq {s.ops}" s.lhs ((LC.zero : LC F) + Var.one) s.rhs
    (match b.add 64 s.ops 1 with
     | some ops => k ⟨ops, 0, LC.zero, LC.zero⟩
     | none => .panic "attempt to add with overflow")

/-- src/gadgets/multieq.rs:52-56, what follows the check of the capacity: the assertion, both sums, `self.bits_used += num_bits`. -/
def addW (b : Build) (numBits : ℕ) (l r : LC F) (s : MEq F) : Circ F (Except SynthesisError Unit × MEq F) :=
  match b.add 64 s.bitsUsed numBits with
  | some n =>
    if CAPACITY F > n then
      let coeff : F := 2 ^ s.bitsUsed
      .ret (.ok (), ⟨s.ops, n, s.lhs + (coeff, l), s.rhs + (coeff, r)⟩)
    else .panic "assert!((Scalar::CAPACITY as usize) > (self.bits_used + num_bits))"
  | none => .panic "attempt to add with overflow"

/-- src/gadgets/multieq.rs:40-57 `enforce_equal`: `bits_used` and `num_bits` are `usize`s. -/
def enforceEqualW (b : Build) (numBits : ℕ) (l r : LC F) : MSynth F Unit :=
  ExceptT.mk fun s =>
    match b.add 64 s.bitsUsed numBits with
    | some n => if CAPACITY F ≤ n then accumulateW b (addW b numBits l r) s else addW b numBits l r s
    | none => .panic "attempt to add with overflow"

/-- src/gadgets/multieq.rs:61-65 `Drop for MultiEq`. -/
def dropW (b : Build) (s : MEq F) (r : Except SynthesisError α) : Circ F (Except SynthesisError α) :=
  if s.bitsUsed > 0 then accumulateW b (fun _ => .ret r) s else .ret r

end MEq

/-- `let mut cs = MultiEq::new(cs); <body>` and the end of the scope (see `MSynth.withMultiEq`).
src/gadgets/sha256.rs:100, src/gadgets/blake2s.rs:211. -/
def MSynth.withMultiEqW (b : Build) (body : MSynth F α) : Synth F α :=
  ExceptT.mk ((body.run.run MEq.new).bind fun r => MEq.dropW b r.2 r.1)

namespace Sha256

/-- src/gadgets/sha256.rs:59-61 with the sum in a `usize`; the loop ends by `partial_fixpoint`, `none` is a panic. -/
def padZerosW (b : Build) (padded : List Boolean) : Option (List Boolean) := do
  let n ← b.add 64 padded.length 64
  if n % 512 = 0 then some padded
  else padZerosW b (padded ++ [.constant false])
partial_fixpoint

/-- src/gadgets/sha256.rs:54-65: the padded message (see `pad`). -/
def padW (b : Build) (input : List Boolean) : Option (List Boolean) := do
  let plen : BitVec 64 := BitVec.ofNat 64 input.length
  let p ← padZerosW b (input ++ [.constant true])
  pure (p ++ (List.range 64).reverse.map fun i => Boolean.constant ((plen >>> i) &&& 1#64 == 1#64))

/-- src/gadgets/sha256.rs:47-74 `sha256`. -/
def sha256W (b : Build) (input : List Boolean) : Synth F (List Boolean) :=
  if input.length % 8 = 0 then
    match padW b input with
    | some padded =>
      if padded.length % 512 = 0 then
        match chunks? 512 padded with
        | none => Synth.panic "chunk size must be non-zero"
        | some blocks => do
          let cur ← blockLoop 0 iv blocks
          pure (cur.flatMap UInt32.intoBitsBe)
      else Synth.panic "assert!(padded.len() % 512 == 0)"
    | none => Synth.panic "attempt to add with overflow"
  else Synth.panic "assert!(input.len() % 8 == 0)"

end Sha256

namespace Blake2s

/-- src/gadgets/blake2s.rs:358-374, with the byte counter `((i as u64) + 1) * 64` checked or wrapping. -/
def blockLoopW (b : Build) (len : ℕ) : ℕ → List UInt32 → List (List UInt32) → Synth F (List UInt32)
  | _, _, [] => Synth.panic "attempt to subtract with overflow"
  | _, h, [block] =>
    Synth.inNs "final block" (compression h block (BitVec.ofNat 64 (len / 8)) true)
  | i, h, block :: blocks => do
    let h ← Synth.inNs s!"block {i}" (match (do let x ← b.add 64 i 1; b.mul 64 x 64 : Option ℕ) with
      | some t => compression h block (BitVec.ofNat 64 t) false
      | none => Synth.panic "attempt to compute with overflow")
    blockLoopW b len (i + 1) h blocks

/-- src/gadgets/blake2s.rs:315-377 `blake2s`. -/
def blake2sW (b : Build) (input : List Boolean) (personalization : List (BitVec 8)) : Synth F (List Boolean) :=
  match personalization with
  | [p0, p1, p2, p3, p4, p5, p6, p7] =>
    if input.length % 8 = 0 then
      let h := [UInt32.constant (0x6A09E667 ^^^ 0x01010000 ^^^ 32), UInt32.constant 0xBB67AE85,
        UInt32.constant 0x3C6EF372, UInt32.constant 0xA54FF53A, UInt32.constant 0x510E527F,
        UInt32.constant 0x9B05688C, UInt32.constant (0x1F83D9AB ^^^ readU32Le p0 p1 p2 p3),
        UInt32.constant (0x5BE0CD19 ^^^ readU32Le p4 p5 p6 p7)]
      match mkBlocks input with
      | some blocks => do
        let h ← blockLoopW b input.length 0 h blocks
        pure (h.flatMap UInt32.intoBits)
      | none => Synth.panic "assert_eq!(bits.len(), 32)"
    else Synth.panic "assert!(input.len() % 8 == 0)"
  | _ => Synth.panic "assert_eq!(personalization.len(), 8)"

end Blake2s

end Bellman
