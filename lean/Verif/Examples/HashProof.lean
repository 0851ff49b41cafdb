import Verif.Examples.Preimage
import Verif.Gadgets.Blake2s

/-!
# The documentation example for other hash functions and lengths

A client circuit built as the one of src/lib.rs:28-127, for `sha256` and `blake2s` and messages of any number of bytes.  Only the bits the
gadget hashes, their number and the gadget differ.
-/

namespace Bellman.Preimage

variable {F : Type} [PrimeField F]

/-- src/lib.rs:61-95 with `gadget` in the place of `sha256d` and `8 * len` in the place of `80 * 8`; `message` is what
src/lib.rs:66-75 calls `bit_values`, before `Some` is applied. -/
def hashCircuit (gadget : List Boolean → Synth F (List Boolean)) (len : ℕ) (message : Option (List Bool)) : Synth F Unit := do
  let bitValues := match message with
    | some bits => bits.map some
    | none => List.replicate (8 * len) none
  if bitValues.length = 8 * len then do
    let preimageBits ← allocPreimage 0 bitValues
    let hash ← Synth.inNs "hash" (gadget preimageBits)
    Synth.inNs "pack hash" (packIntoInputs hash)
  else
    Synth.panic "assertion `left == right` failed"

/-- The circuit for "I know `len` bytes whose SHA-256 is the given hash": src/lib.rs:61-95 with the gadget `sha256`
(src/gadgets/sha256.rs:45-79), which takes each byte with its most significant bit first, as `multipack::bytes_to_bits`
(src/gadgets/multipack.rs:39-44) gives them. -/
def sha256Circuit (len : ℕ) (message : Option (List (BitVec 8))) : Synth F Unit :=
  hashCircuit Sha256.sha256 len (message.map bytesToBits)

/-- The circuit for "I know `len` bytes whose BLAKE2s is the given hash": src/lib.rs:61-95 with the gadget `blake2s`
(src/gadgets/blake2s.rs:315-377), which takes each byte with its least significant bit first, as `multipack::bytes_to_bits_le`
(src/gadgets/multipack.rs:46-51) gives them. -/
def blake2sCircuit (personalization : List (BitVec 8)) (len : ℕ) (message : Option (List (BitVec 8))) : Synth F Unit :=
  hashCircuit (fun bits => Blake2s.blake2s bits personalization) len (message.map bytesToBitsLe)

end Bellman.Preimage
