import Verif.Gadgets.UInt32
import Verif.Chunks

/-!
# Model of src/gadgets/sha256.rs
-/

namespace Bellman

open PrimeField

variable {F : Type} [PrimeField F]

/-- Indexing `v[i]` in a program against a `MultiEq`: panics if out of range. E.g. src/gadgets/sha256.rs:94-112, 158-214. -/
def MSynth.index {α : Type} (v : List α) (i : ℕ) : MSynth F α :=
  match v[i]? with
  | some x => pure x
  | none => MSynth.lift (Synth.panic "index out of bounds")

namespace Sha256

/-- src/gadgets/sha256.rs:13-22 `ROUND_CONSTANTS`. -/
def ROUND_CONSTANTS : List (BitVec 32) := [
    0x428a2f98, 0x71374491, 0xb5c0fbcf, 0xe9b5dba5, 0x3956c25b, 0x59f111f1, 0x923f82a4, 0xab1c5ed5,
    0xd807aa98, 0x12835b01, 0x243185be, 0x550c7dc3, 0x72be5d74, 0x80deb1fe, 0x9bdc06a7, 0xc19bf174,
    0xe49b69c1, 0xefbe4786, 0x0fc19dc6, 0x240ca1cc, 0x2de92c6f, 0x4a7484aa, 0x5cb0a9dc, 0x76f988da,
    0x983e5152, 0xa831c66d, 0xb00327c8, 0xbf597fc7, 0xc6e00bf3, 0xd5a79147, 0x06ca6351, 0x14292967,
    0x27b70a85, 0x2e1b2138, 0x4d2c6dfc, 0x53380d13, 0x650a7354, 0x766a0abb, 0x81c2c92e, 0x92722c85,
    0xa2bfe8a1, 0xa81a664b, 0xc24b8b70, 0xc76c51a3, 0xd192e819, 0xd6990624, 0xf40e3585, 0x106aa070,
    0x19a4c116, 0x1e376c08, 0x2748774c, 0x34b0bcb5, 0x391c0cb3, 0x4ed8aa4a, 0x5b9cca4f, 0x682e6ff3,
    0x748f82ee, 0x78a5636f, 0x84c87814, 0x8cc70208, 0x90befffa, 0xa4506ceb, 0xbef9a3f7, 0xc67178f2]

/-- src/gadgets/sha256.rs:25-27 `IV`. -/
def IV : List (BitVec 32) := [
    0x6a09e667, 0xbb67ae85, 0x3c6ef372, 0xa54ff53a, 0x510e527f, 0x9b05688c, 0x1f83d9ab, 0x5be0cd19]

/-- src/gadgets/sha256.rs:76-78 `get_sha256_iv`. -/
def iv : List UInt32 := IV.map UInt32.constant

/-- src/gadgets/sha256.rs:103-121, the body of the message schedule loop. -/
def wStep (i : ℕ) (w : List UInt32) : MSynth F (List UInt32) :=
  MSynth.inNs s!"w extension {i}" do
    let w15 ← MSynth.index w (i - 15)
    let s0 ← MSynth.lift (Synth.inNs "first xor for s0" ((w15.rotr 7).xor (w15.rotr 18)))
    let s0 ← MSynth.lift (Synth.inNs "second xor for s0" (s0.xor (w15.shr 3)))
    let w2 ← MSynth.index w (i - 2)
    let s1 ← MSynth.lift (Synth.inNs "first xor for s1" ((w2.rotr 17).xor (w2.rotr 19)))
    let s1 ← MSynth.lift (Synth.inNs "second xor for s1" (s1.xor (w2.shr 10)))
    let w16 ← MSynth.index w (i - 16)
    let w7 ← MSynth.index w (i - 7)
    let tmp ← MSynth.inNs "computation of w[i]" (UInt32.addmany [w16, s0, w7, s1])
    pure (w ++ [tmp])

/-- src/gadgets/sha256.rs:102-122, `n` iterations of the message schedule loop from `i`. -/
def wLoop : ℕ → ℕ → List UInt32 → MSynth F (List UInt32)
  | 0, _, w => pure w
  | n + 1, i, w => do
    let w ← wStep i w
    wLoop n (i + 1) w

/-- src/gadgets/sha256.rs:126-129 `enum Maybe`. -/
inductive Maybe where
  | deferred (v : List UInt32)
  | concrete (v : UInt32)

/-- src/gadgets/sha256.rs:132-145 `Maybe::compute`. -/
def Maybe.compute (m : Maybe) (others : List UInt32) : MSynth F UInt32 :=
  match m with
  | .concrete v => pure v
  | .deferred v => UInt32.addmany (v ++ others)

/-- The loop variables of src/gadgets/sha256.rs:148-155. -/
structure St where
  a : Maybe
  b : UInt32
  c : UInt32
  d : UInt32
  e : Maybe
  f : UInt32
  g : UInt32
  h : UInt32

/-- src/gadgets/sha256.rs:158-214, the body of the compression loop. -/
def round (w : List UInt32) (i : ℕ) (s : St) : MSynth F St :=
  MSynth.inNs s!"compression round {i}" do
    let newE ← MSynth.inNs "deferred e computation" (s.e.compute [])
    let s1 ← MSynth.lift (Synth.inNs "first xor for s1" ((newE.rotr 6).xor (newE.rotr 11)))
    let s1 ← MSynth.lift (Synth.inNs "second xor for s1" (s1.xor (newE.rotr 25)))
    let ch ← MSynth.lift (Synth.inNs "ch" (UInt32.sha256Ch newE s.f s.g))
    let k ← MSynth.index ROUND_CONSTANTS i
    let wi ← MSynth.index w i
    let temp1 := [s.h, s1, ch, UInt32.constant k, wi]
    let newA ← MSynth.inNs "deferred a computation" (s.a.compute [])
    let s0 ← MSynth.lift (Synth.inNs "first xor for s0" ((newA.rotr 2).xor (newA.rotr 13)))
    let s0 ← MSynth.lift (Synth.inNs "second xor for s0" (s0.xor (newA.rotr 22)))
    let maj ← MSynth.lift (Synth.inNs "maj" (UInt32.sha256Maj newA s.b s.c))
    let temp2 := [s0, maj]
    pure { h := s.g, g := s.f, f := newE, e := .deferred (temp1 ++ [s.d]),
           d := s.c, c := s.b, b := newA, a := .deferred (temp1 ++ temp2) }

/-- src/gadgets/sha256.rs:157-215, `n` iterations of the compression loop from `i`. -/
def rounds (w : List UInt32) : ℕ → ℕ → St → MSynth F St
  | 0, _, s => pure s
  | n + 1, i, s => do
    let s ← round w i s
    rounds w n (i + 1) s

/-- src/gadgets/sha256.rs:100-269, the part of the compression function that runs with the `MultiEq`. -/
def compressionBody (w : List UInt32) (h0 h1 h2 h3 h4 h5 h6 h7 : UInt32) : MSynth F (List UInt32) := do
  let w ← wLoop 48 16 w
  if w.length = 64 then
    let s ← rounds w 64 0 ⟨.concrete h0, h1, h2, h3, .concrete h4, h5, h6, h7⟩
    let n0 ← MSynth.inNs "deferred h0 computation" (s.a.compute [h0])
    let n1 ← MSynth.inNs "new h1" (UInt32.addmany [h1, s.b])
    let n2 ← MSynth.inNs "new h2" (UInt32.addmany [h2, s.c])
    let n3 ← MSynth.inNs "new h3" (UInt32.addmany [h3, s.d])
    let n4 ← MSynth.inNs "deferred h4 computation" (s.e.compute [h4])
    let n5 ← MSynth.inNs "new h5" (UInt32.addmany [h5, s.f])
    let n6 ← MSynth.inNs "new h6" (UInt32.addmany [h6, s.g])
    let n7 ← MSynth.inNs "new h7" (UInt32.addmany [h7, s.h])
    pure [n0, n1, n2, n3, n4, n5, n6, n7]
  else MSynth.lift (Synth.panic "assert_eq!(w.len(), 64)")

/-- src/gadgets/sha256.rs:81-270 `sha256_compression_function`. -/
def compression (input : List Boolean) (cur : List UInt32) : Synth F (List UInt32) :=
  if input.length = 512 then
    match cur with
    | [h0, h1, h2, h3, h4, h5, h6, h7] =>
      match (chunks? 32 input).bind (fun cs => cs.mapM UInt32.fromBitsBe) with
      | some w => MSynth.withMultiEq (compressionBody w h0 h1 h2 h3 h4 h5 h6 h7)
      | none => Synth.panic "assert_eq!(bits.len(), 32)"
    | _ => Synth.panic "assert_eq!(current_hash_value.len(), 8)"
  else Synth.panic "assert_eq!(input.len(), 512)"

/-- src/gadgets/sha256.rs:29-45 `sha256_block_no_padding`. -/
def sha256BlockNoPadding (input : List Boolean) : Synth F (List Boolean) :=
  if input.length = 512 then do
    let r ← compression input iv
    pure (r.flatMap UInt32.intoBitsBe)
  else Synth.panic "assert_eq!(input.len(), 512)"

/-- src/gadgets/sha256.rs:59-61: `while (padded.len() + 64) % 512 != 0 { padded.push(false) }`. -/
def padZeros (padded : List Boolean) : List Boolean :=
  if (padded.length + 64) % 512 = 0 then padded
  else padZeros (padded ++ [.constant false])
termination_by (512 - (padded.length + 64) % 512) % 512
decreasing_by simp only [List.length_append, List.length_singleton]; omega

/-- src/gadgets/sha256.rs:54-65: the padded message.  `plen` is a `u64`. -/
def pad (input : List Boolean) : List Boolean :=
  let plen : BitVec 64 := BitVec.ofNat 64 input.length
  padZeros (input ++ [.constant true]) ++
    (List.range 64).reverse.map fun i => Boolean.constant ((plen >>> i) &&& 1#64 == 1#64)

/-- src/gadgets/sha256.rs:69-71, the loop over the blocks; `i` is the running index. -/
def blockLoop (i : ℕ) (cur : List UInt32) : List (List Boolean) → Synth F (List UInt32)
  | [] => pure cur
  | block :: blocks => do
    let cur ← Synth.inNs s!"block {i}" (compression block cur)
    blockLoop (i + 1) cur blocks

/-- src/gadgets/sha256.rs:47-74 `sha256`. -/
def sha256 (input : List Boolean) : Synth F (List Boolean) :=
  if input.length % 8 = 0 then
    let padded := pad input
    if padded.length % 512 = 0 then
      match chunks? 512 padded with
      | none => Synth.panic "chunk size must be non-zero"
      | some blocks => do
        let cur ← blockLoop 0 iv blocks
        pure (cur.flatMap UInt32.intoBitsBe)
    else Synth.panic "assert!(padded.len() % 512 == 0)"
  else Synth.panic "assert!(input.len() % 8 == 0)"

end Sha256

end Bellman
