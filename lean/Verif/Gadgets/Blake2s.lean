import Verif.Gadgets.Sha256

/-!
# Model of src/gadgets/blake2s.rs
-/

namespace Bellman

open PrimeField

variable {F : Type} [PrimeField F]

namespace Blake2s

/-- src/gadgets/blake2s.rs:26-29. -/
def R1 : ℕ := 16
/-- src/gadgets/blake2s.rs:26-29. -/
def R2 : ℕ := 12
/-- src/gadgets/blake2s.rs:26-29. -/
def R3 : ℕ := 8
/-- src/gadgets/blake2s.rs:26-29. -/
def R4 : ℕ := 7

/-- src/gadgets/blake2s.rs:47-58 `SIGMA`. -/
def SIGMA : List (List ℕ) := [
    [0, 1, 2, 3, 4, 5, 6, 7, 8, 9, 10, 11, 12, 13, 14, 15],
    [14, 10, 4, 8, 9, 15, 13, 6, 1, 12, 0, 2, 11, 7, 5, 3],
    [11, 8, 12, 0, 5, 2, 15, 13, 10, 14, 3, 6, 7, 1, 9, 4],
    [7, 9, 3, 1, 13, 12, 11, 14, 2, 6, 5, 10, 4, 0, 15, 8],
    [9, 0, 5, 7, 2, 4, 10, 15, 14, 1, 11, 12, 6, 8, 3, 13],
    [2, 12, 6, 10, 0, 11, 8, 3, 4, 13, 7, 5, 15, 14, 1, 9],
    [12, 5, 1, 15, 14, 13, 4, 10, 0, 7, 6, 3, 9, 2, 8, 11],
    [13, 11, 7, 14, 12, 1, 3, 9, 5, 0, 15, 4, 8, 6, 2, 10],
    [6, 15, 14, 9, 11, 3, 0, 8, 12, 2, 13, 7, 1, 4, 10, 5],
    [10, 2, 8, 4, 7, 6, 1, 5, 15, 11, 9, 14, 3, 12, 13, 0]]

/-- `v[a] = UInt32::addmany(cs.namespace(|| name), &[v[a].clone(), v[b].clone(), x.clone()])?`
(src/gadgets/blake2s.rs:93-96, 103-106).  `v[i] = x` on an index in range is `List.set`; the reads panic if out of range. -/
def mixAdd3 (name : String) (v : List UInt32) (a b : ℕ) (x : UInt32) : MSynth F (List UInt32) := do
  let va ← MSynth.index v a
  let vb ← MSynth.index v b
  let t ← MSynth.inNs name (UInt32.addmany [va, vb, x])
  pure (v.set a t)

/-- `v[c] = UInt32::addmany(cs.namespace(|| name), &[v[c].clone(), v[d].clone()])?`
(src/gadgets/blake2s.rs:98-101, 108-111). -/
def mixAdd2 (name : String) (v : List UInt32) (c d : ℕ) : MSynth F (List UInt32) := do
  let vc ← MSynth.index v c
  let vd ← MSynth.index v d
  let t ← MSynth.inNs name (UInt32.addmany [vc, vd])
  pure (v.set c t)

/-- `v[d] = v[d].xor(cs.namespace(|| name), &v[a])?.rotr(r)` (src/gadgets/blake2s.rs:97, 102, 107, 112). -/
def mixXor (name : String) (v : List UInt32) (d a r : ℕ) : MSynth F (List UInt32) := do
  let vd ← MSynth.index v d
  let va ← MSynth.index v a
  let t ← MSynth.lift (Synth.inNs name (vd.xor va))
  pure (v.set d (t.rotr r))

/-- src/gadgets/blake2s.rs:82-115 `mixing_g`. -/
def mixingG (v : List UInt32) (a b c d : ℕ) (x y : UInt32) : MSynth F (List UInt32) := do
  let v ← mixAdd3 "mixing step 1" v a b x
  let v ← mixXor "mixing step 2" v d a R1
  let v ← mixAdd2 "mixing step 3" v c d
  let v ← mixXor "mixing step 4" v b c R2
  let v ← mixAdd3 "mixing step 5" v a b y
  let v ← mixXor "mixing step 6" v d a R3
  let v ← mixAdd2 "mixing step 7" v c d
  mixXor "mixing step 8" v b c R4

/-- One call `mixing_g(cs.namespace(|| name), &mut v, (a, b, c, d), &m[s[j]], &m[s[j + 1]])` of
src/gadgets/blake2s.rs:218-274. -/
def mixCall (name : String) (m : List UInt32) (s : List ℕ) (j : ℕ) (a b c d : ℕ) (v : List UInt32) :
    MSynth F (List UInt32) := do
  let ix ← MSynth.index s j
  let x ← MSynth.index m ix
  let iy ← MSynth.index s (j + 1)
  let y ← MSynth.index m iy
  MSynth.inNs name (mixingG v a b c d x y)

/-- src/gadgets/blake2s.rs:214-274, the body of the round loop. -/
def roundBody (m : List UInt32) (i : ℕ) (v : List UInt32) : MSynth F (List UInt32) :=
  MSynth.inNs s!"round {i}" do
    let s ← MSynth.index SIGMA (i % 10)
    let v ← mixCall "mixing invocation 1" m s 0 0 4 8 12 v
    let v ← mixCall "mixing invocation 2" m s 2 1 5 9 13 v
    let v ← mixCall "mixing invocation 3" m s 4 2 6 10 14 v
    let v ← mixCall "mixing invocation 4" m s 6 3 7 11 15 v
    let v ← mixCall "mixing invocation 5" m s 8 0 5 10 15 v
    let v ← mixCall "mixing invocation 6" m s 10 1 6 11 12 v
    let v ← mixCall "mixing invocation 7" m s 12 2 7 8 13 v
    mixCall "mixing invocation 8" m s 14 3 4 9 14 v

/-- src/gadgets/blake2s.rs:213-275, `n` iterations of the round loop from `i`. -/
def roundLoop (m : List UInt32) : ℕ → ℕ → List UInt32 → MSynth F (List UInt32)
  | 0, _, v => pure v
  | n + 1, i, v => do
    let v ← roundBody m i v
    roundLoop m n (i + 1) v

/-- src/gadgets/blake2s.rs:278-283, `n` iterations of the final loop from `i`. -/
def finalLoop (v : List UInt32) : ℕ → ℕ → List UInt32 → Synth F (List UInt32)
  | 0, _, h => pure h
  | n + 1, i, h =>
    match h[i]?, v[i]?, v[i + 8]? with
    | some hi, some vi, some vi8 => do
      let r ← Synth.inNs ("h[" ++ toString i ++ "] ^ v[" ++ toString i ++ "] ^ v[" ++ toString i ++ " + 8]") (do
        let r ← Synth.inNs "first xor" (hi.xor vi)
        Synth.inNs "second xor" (r.xor vi8))
      finalLoop v n (i + 1) (h.set i r)
    | _, _, _ => Synth.panic "index out of bounds"

/-- src/gadgets/blake2s.rs:186-193, the initialization vector pushed to `v`. -/
def ivTail : List UInt32 :=
  [UInt32.constant 0x6A09E667, UInt32.constant 0xBB67AE85, UInt32.constant 0x3C6EF372, UInt32.constant 0xA54FF53A,
   UInt32.constant 0x510E527F, UInt32.constant 0x9B05688C, UInt32.constant 0x1F83D9AB, UInt32.constant 0x5BE0CD19]

/-- src/gadgets/blake2s.rs:166-286 `blake2s_compression`; returns the updated `h`. -/
def compression (h m : List UInt32) (t : BitVec 64) (f : Bool) : Synth F (List UInt32) :=
  if h.length = 8 then
    if m.length = 16 then
      let v := h ++ ivTail
      match v[12]?, v[13]?, v[14]? with
      | some v12, some v13, some v14 => do
        let r ← Synth.inNs "first xor" (v12.xor (UInt32.constant (t.setWidth 32)))
        let v := v.set 12 r
        let r ← Synth.inNs "second xor" (v13.xor (UInt32.constant ((t >>> 32).setWidth 32)))
        let v := v.set 13 r
        let v ← (if f then do
            let r ← Synth.inNs "third xor" (v14.xor (UInt32.constant 0xFFFFFFFF))
            pure (v.set 14 r)
          else pure v : Synth F (List UInt32))
        let v ← MSynth.withMultiEq (roundLoop m 10 0 v)
        finalLoop v 8 0 h
      | _, _, _ => Synth.panic "index out of bounds"
    else Synth.panic "assert_eq!(m.len(), 16)"
  else Synth.panic "assert_eq!(h.len(), 8)"

/-- `LittleEndian::read_u32` (byteorder crate) of four bytes. Used at src/gadgets/blake2s.rs:332-333. -/
def readU32Le (b0 b1 b2 b3 : BitVec 8) : BitVec 32 := b3 ++ b2 ++ b1 ++ b0

/-- src/gadgets/blake2s.rs:342-345: pad a word with constant zeros. -/
def padWord (word : List Boolean) : List Boolean :=
  word ++ List.replicate (32 - word.length) (.constant false)

/-- src/gadgets/blake2s.rs:340-351: one block of the message. -/
def mkBlock (block : List Boolean) : Option (List UInt32) := do
  let words ← chunks? 32 block
  let us ← words.mapM fun w => UInt32.fromBits (padWord w)
  pure (us ++ List.replicate (16 - us.length) (UInt32.constant 0))

/-- src/gadgets/blake2s.rs:337-356: all blocks of the message; `none` is a panic (unreachable). -/
def mkBlocks (input : List Boolean) : Option (List (List UInt32)) := do
  let cs ← chunks? 512 input
  let blocks ← cs.mapM mkBlock
  pure (if blocks.isEmpty then [List.replicate 16 (UInt32.constant 0)] else blocks)

/-- src/gadgets/blake2s.rs:358-374: the loop over all blocks but the last, then the last one. -/
def blockLoop (len : ℕ) : ℕ → List UInt32 → List (List UInt32) → Synth F (List UInt32)
  | _, _, [] => Synth.panic "attempt to subtract with overflow"
  | _, h, [block] =>
    Synth.inNs "final block" (compression h block (BitVec.ofNat 64 (len / 8)) true)
  | i, h, block :: blocks => do
    let h ← Synth.inNs s!"block {i}" (compression h block ((BitVec.ofNat 64 i + 1#64) * 64#64) false)
    blockLoop len (i + 1) h blocks

/-- src/gadgets/blake2s.rs:315-377 `blake2s`. -/
def blake2s (input : List Boolean) (personalization : List (BitVec 8)) : Synth F (List Boolean) :=
  match personalization with
  | [p0, p1, p2, p3, p4, p5, p6, p7] =>
    if input.length % 8 = 0 then
      let h := [UInt32.constant (0x6A09E667 ^^^ 0x01010000 ^^^ 32), UInt32.constant 0xBB67AE85,
        UInt32.constant 0x3C6EF372, UInt32.constant 0xA54FF53A, UInt32.constant 0x510E527F,
        UInt32.constant 0x9B05688C, UInt32.constant (0x1F83D9AB ^^^ readU32Le p0 p1 p2 p3),
        UInt32.constant (0x5BE0CD19 ^^^ readU32Le p4 p5 p6 p7)]
      match mkBlocks input with
      | some blocks => do
        let h ← blockLoop input.length 0 h blocks
        pure (h.flatMap UInt32.intoBits)
      | none => Synth.panic "assert_eq!(bits.len(), 32)"
    else Synth.panic "assert!(input.len() % 8 == 0)"
  | _ => Synth.panic "assert_eq!(personalization.len(), 8)"

end Blake2s

end Bellman
