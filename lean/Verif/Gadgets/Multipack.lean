import Verif.Gadgets.Num
import Verif.Chunks

/-!
# Model of src/gadgets/multipack.rs
-/

namespace Bellman

open PrimeField

variable {F : Type} [PrimeField F]

/-- src/gadgets/multipack.rs:19-23, the loop over the bits of one chunk. -/
def packNum (num : Num F) (coeff : F) : List Boolean → Num F
  | [] => num
  | b :: bs => packNum (num.addBoolWithCoeff b coeff) (coeff + coeff) bs

/-- src/gadgets/multipack.rs:16-34, the loop over the chunks; `i` is the chunk index. -/
def packChunks (i : ℕ) : List (List Boolean) → Synth F Unit
  | [] => pure ()
  | bits :: rest => do
    let num := packNum Num.zero 1 bits
    let input ← Synth.allocInput s!"input {i}" (Synth.optGet num.value)
    Synth.enforce s!"packing constraint {i}"
      (fun _ => num.lc (1 : F))
      (fun lc => lc + Var.one)
      (fun lc => lc + input.1)
    packChunks (i + 1) rest

/-- src/gadgets/multipack.rs:11-37 `pack_into_inputs`.  `bits.chunks(0)` panics. -/
def packIntoInputs (bits : List Boolean) : Synth F Unit :=
  match chunks? (CAPACITY F) bits with
  | none => Synth.panic "chunk size must be non-zero"
  | some cs => packChunks 0 cs

/-- src/gadgets/multipack.rs:39-44 `bytes_to_bits`. -/
def bytesToBits (bytes : List (BitVec 8)) : List Bool :=
  bytes.flatMap fun v => (List.range 8).reverse.map fun i => (v >>> i) &&& 1#8 == 1#8

/-- src/gadgets/multipack.rs:46-51 `bytes_to_bits_le`. -/
def bytesToBitsLe (bytes : List (BitVec 8)) : List Bool :=
  bytes.flatMap fun v => (List.range 8).map fun i => (v >>> i) &&& 1#8 == 1#8

/-- src/gadgets/multipack.rs:60-66, the loop over the bits of one chunk. -/
def multipackLoop (cur coeff : F) : List Bool → F
  | [] => cur
  | b :: bs => multipackLoop (if b then cur + coeff else cur) (coeff + coeff) bs

/-- src/gadgets/multipack.rs:53-72 `compute_multipacking`; `none` is the panic of `chunks(0)`. -/
def computeMultipacking (F : Type) [PrimeField F] (bits : List Bool) : Option (List F) :=
  (chunks? (CAPACITY F) bits).map fun cs => cs.map fun c => multipackLoop 0 1 c

end Bellman
