import Verif.Gadgets.Sha256
import Verif.Gadgets.Multipack

/-!
# The example of the crate documentation

src/lib.rs:28-127: a circuit for "I know 80 bytes whose SHA-256d is the given hash", and how it is used.
-/

namespace Bellman.Preimage

variable {F : Type} [PrimeField F]

/-- src/lib.rs:35-41 and 46-52 `.chunks(8).map(|c| c.iter().rev()).flatten().cloned().collect()`.  `chunks?` is `none` for chunk
size zero only. -/
def flipBytes {α : Type} (data : List α) : List α := ((chunks? 8 data).getD []).flatMap List.reverse

/-- src/lib.rs:30-53 `sha256d`. -/
def sha256d (data : List Boolean) : Synth F (List Boolean) := do
  let input := flipBytes data
  let mid ← Synth.inNs "SHA-256(input)" (Sha256.sha256 input)
  let res ← Synth.inNs "SHA-256(mid)" (Sha256.sha256 mid)
  pure (flipBytes res)

/-- src/lib.rs:55-59 `MyCircuit`.  The array `[u8; 80]` is a list; its length is checked where the code asserts it. -/
structure MyCircuit where
  preimage : Option (List (BitVec 8))

/-- src/lib.rs:66-75 `bit_values`. -/
def MyCircuit.bitValues (c : MyCircuit) : List (Option Bool) :=
  match c.preimage with
  | some preimage => (preimage.flatMap fun byte => (List.range 8).map fun i => (byte >>> i) &&& 1#8 == 1#8).map some
  | none => List.replicate (80 * 8) none

/-- src/lib.rs:78-88: the iterator that allocates the bits from index `i` on.  Collecting into a `Result` stops at the first error. -/
def allocPreimage (i : ℕ) : List (Option Bool) → Synth F (List Boolean)
  | [] => pure []
  | b :: bs => do
    let bit ← Synth.inNs s!"preimage bit {i}" (AllocatedBit.alloc b)
    let rest ← allocPreimage (i + 1) bs
    pure (.is bit :: rest)

/-- src/lib.rs:61-95 `<MyCircuit as Circuit>::synthesize`. -/
def MyCircuit.synthesize (c : MyCircuit) : Synth F Unit := do
  let bitValues := c.bitValues
  if bitValues.length = 80 * 8 then do
    let preimageBits ← allocPreimage 0 bitValues
    let hash ← Synth.inNs "SHA-256d(preimage)" (sha256d preimageBits)
    Synth.inNs "pack hash" (packIntoInputs hash)
  else
    Synth.panic "assertion `left == right` failed"

end Bellman.Preimage
