import Verif.Groth16.Serialize

/-!
# Model of serialization over streams (groth16/src/lib.rs)

`Groth16/Serialize.lean` reads from byte lists and writes to a writer that only knows how much room it has.  Here readers and writers are
those of `std::io`: every call of `read` or `write` may transfer fewer bytes than asked for, be interrupted, or fail, and what happens
after an error is visible.  The decodings of points are counted; they are the expensive part of reading, and every element of a vector
takes one.
-/

namespace Bellman

/-- What a call of `Read::read` (std) meets: bytes that are there, the empty list being `Ok(0)`; `ErrorKind::Interrupted`; another
error. Model device, no counterpart in the code. -/
inductive InEvent where
  | data (bs : List UInt8)
  | interrupted
  | fail (code : ℕ)
deriving DecidableEq

/-- What a call of `Write::write` (std) meets: room for `n` bytes, `take 0` being `Ok(0)`; `ErrorKind::Interrupted`; another error.
Model device, no counterpart in the code. -/
inductive OutEvent where
  | take (n : ℕ)
  | interrupted
  | fail (code : ℕ)

/-- The errors: those of `IoError`, and those of the device. Model device, no counterpart in the code. -/
inductive StreamError where
  | io (e : IoError)
  | device (code : ℕ)
deriving DecidableEq

/-! ## Readers -/

/-- A reader, and the number of decodings so far. Model device, no counterpart in the code. -/
structure InStream where
  events : List InEvent
  decoded : ℕ
deriving DecidableEq

/-- A computation that reads; `none` is a panic. Model device, no counterpart in the code. -/
def StreamM (α : Type) : Type := InStream → Option (Except StreamError α × InStream)

namespace StreamM

/-- Rust's `Ok(x)`. Model device, no counterpart in the code. -/
def ok {α : Type} (x : α) : StreamM α := fun s => some (.ok x, s)

/-- Rust's `Err(e)`. Model device, no counterpart in the code. -/
def err {α : Type} (e : IoError) : StreamM α := fun s => some (.error (.io e), s)

/-- A panic. Model device, no counterpart in the code. -/
def panic {α : Type} : StreamM α := fun _ => none

/-- Rust's `?`. Model device, no counterpart in the code. -/
def bind {α β : Type} (m : StreamM α) (f : α → StreamM β) : StreamM β := fun s =>
  match m s with
  | none => none
  | some (.error e, s) => some (.error e, s)
  | some (.ok x, s) => f x s

instance : Monad StreamM where
  pure := ok
  bind := bind

/-- A call of one of the decoders. groth16/src/lib.rs:52, 75, 163, 175, 294-299, 322-327. -/
def decode {α : Type} (x : α) : StreamM α := fun s => some (.ok x, ⟨s.events, s.decoded + 1⟩)

end StreamM

/-- `Read::read_exact` (std): `while !buf.is_empty() { match this.read(buf) { Ok(0) => break, Ok(n) => buf = &mut buf[n..], Err(ref e) if
e.is_interrupted() => {} Err(e) => return Err(e) } }`, then an error if the buffer is not full.  A call of `read` gets what fits of the
bytes that are there; the rest stays.  A stream without further events is at its end.
Used at groth16/src/lib.rs:50, 73, 161, 173, 292, 320. -/
def readEvents : ℕ → List UInt8 → List InEvent → Except StreamError (List UInt8) × List InEvent
  | 0, acc, evs => (.ok acc, evs)
  | _ + 1, _, [] => (.error (.io .unexpectedEof), [])
  | n + 1, acc, .interrupted :: evs => readEvents (n + 1) acc evs
  | _ + 1, _, .fail c :: evs => (.error (.device c), evs)
  | _ + 1, _, .data [] :: evs => (.error (.io .unexpectedEof), evs)
  | n + 1, acc, .data (b :: bs) :: evs =>
    if n < bs.length then (.ok (acc ++ b :: bs.take n), .data (bs.drop n) :: evs)
    else readEvents (n - bs.length) (acc ++ b :: bs) evs

/-- `read_exact` as a computation. Used at groth16/src/lib.rs:50, 73, 161, 173, 292, 320. -/
def StreamM.readExact (n : ℕ) : StreamM (List UInt8) := fun s =>
  let r := readEvents n [] s.events
  some (r.1, ⟨r.2, s.decoded⟩)

/-- `ReadBytesExt::read_u32::<BigEndian>` (byteorder). Used at groth16/src/lib.rs:190, 355-383. -/
def StreamM.readU32 : StreamM ℕ := do
  let bs ← StreamM.readExact 4
  match ofBE32 bs with
  | some n => StreamM.ok n
  | none => StreamM.panic

/-- groth16/src/lib.rs:53-57,76-80,164-168,176-180,300-304,328-332, as `unwrapOr`. -/
def StreamM.unwrapOr {α : Type} (o : Option α) (msg : String) : StreamM α :=
  if o.isSome then
    match o with
    | some x => StreamM.ok x
    | none => StreamM.panic
  else StreamM.err (.invalidData msg)

/-- groth16/src/lib.rs:59-68,82-91,195-204,306-315,334-343, as `refuseIdentity`. -/
def StreamM.refuseIdentity {G : Type} [Zero G] [DecidableEq G] (e : G) : StreamM G :=
  if e = 0 then StreamM.err (.invalidData "point at infinity") else StreamM.ok e

/-- groth16/src/lib.rs:194-207,356-358,363-365,370-372,377-379,384-386, as `readN`. -/
def StreamM.readN {α : Type} (read : StreamM α) : ℕ → StreamM (List α)
  | 0 => StreamM.ok []
  | n + 1 => do
    let x ← read
    let xs ← StreamM.readN read n
    StreamM.ok (x :: xs)

section

variable {G1 G2 : Type} [Zero G1] [Zero G2] [DecidableEq G1] [DecidableEq G2]

/-- groth16/src/lib.rs:48-69 and 71-92. -/
def Proof.streamPoint {G : Type} [Zero G] [DecidableEq G] (c : PointCodec G) (msg : String) : StreamM G := do
  let repr ← StreamM.readExact c.size
  let affine ← StreamM.decode (c.fromBytes repr)
  let e ← StreamM.unwrapOr affine msg
  StreamM.refuseIdentity e

/-- groth16/src/lib.rs:47-99 `Proof::read`. -/
def Proof.readStream (c1 : PointCodec G1) (c2 : PointCodec G2) : StreamM (Proof G1 G2) := do
  let a ← Proof.streamPoint c1 "invalid G1"
  let b ← Proof.streamPoint c2 "invalid G2"
  let c ← Proof.streamPoint c1 "invalid G1"
  StreamM.ok { a := a, b := b, c := c }

/-- groth16/src/lib.rs:159-169 and 171-181. -/
def VerifyingKey.streamPoint {G : Type} (c : PointCodec G) (msg : String) : StreamM G := do
  let repr ← StreamM.readExact c.usize
  let affine ← StreamM.decode (c.fromUncompressed repr)
  StreamM.unwrapOr affine msg

/-- groth16/src/lib.rs:158-218 `VerifyingKey::read`. -/
def VerifyingKey.readStream (c1 : PointCodec G1) (c2 : PointCodec G2) : StreamM (VerifyingKey G1 G2) := do
  let alphaG1 ← VerifyingKey.streamPoint c1 "invalid G1"
  let betaG1 ← VerifyingKey.streamPoint c1 "invalid G1"
  let betaG2 ← VerifyingKey.streamPoint c2 "invalid G2"
  let gammaG2 ← VerifyingKey.streamPoint c2 "invalid G2"
  let deltaG1 ← VerifyingKey.streamPoint c1 "invalid G1"
  let deltaG2 ← VerifyingKey.streamPoint c2 "invalid G2"
  let icLen ← StreamM.readU32
  let ic ← StreamM.readN (do let e ← VerifyingKey.streamPoint c1 "invalid G1"; StreamM.refuseIdentity e) icLen
  StreamM.ok { alphaG1, betaG1, betaG2, gammaG2, deltaG1, deltaG2, ic }

/-- groth16/src/lib.rs:290-316 and 318-344. -/
def Parameters.streamPoint {G : Type} [Zero G] [DecidableEq G] (c : PointCodec G) (msg : String) (checked : Bool) : StreamM G := do
  let repr ← StreamM.readExact c.usize
  let affine ← StreamM.decode (if checked then c.fromUncompressed repr else c.fromUncompressedUnchecked repr)
  let e ← StreamM.unwrapOr affine msg
  StreamM.refuseIdentity e

/-- groth16/src/lib.rs:354-359,361-366,368-373,375-380,382-387. -/
def StreamM.readVec {G : Type} (read : StreamM G) : StreamM (List G) := do
  let len ← StreamM.readU32
  StreamM.readN read len

/-- groth16/src/lib.rs:289-397 `Parameters::read`. -/
def Parameters.readStream (c1 : PointCodec G1) (c2 : PointCodec G2) (checked : Bool) : StreamM (Parameters G1 G2) := do
  let vk ← VerifyingKey.readStream c1 c2
  let h ← StreamM.readVec (Parameters.streamPoint c1 "invalid G1" checked)
  let l ← StreamM.readVec (Parameters.streamPoint c1 "invalid G1" checked)
  let a ← StreamM.readVec (Parameters.streamPoint c1 "invalid G1" checked)
  let bG1 ← StreamM.readVec (Parameters.streamPoint c1 "invalid G1" checked)
  let bG2 ← StreamM.readVec (Parameters.streamPoint c2 "invalid G2" checked)
  StreamM.ok { vk, h, l, a, bG1, bG2 }

end

/-! ## Writers -/

/-- A writer: what it has been given, and what the next calls of `write` meet.  After the last event it takes everything.
Model device, no counterpart in the code. -/
structure OutStream where
  out : List UInt8
  events : List OutEvent

/-- A computation that writes. Model device, no counterpart in the code. -/
def StreamW : Type := OutStream → Except StreamError Unit × OutStream

/-- Rust's `?` between writes. Model device, no counterpart in the code. -/
def StreamW.andThen (m n : StreamW) : StreamW := fun w =>
  match m w with
  | (.error e, w) => (.error e, w)
  | (.ok (), w) => n w

/-- `Ok(())`. Model device, no counterpart in the code. -/
def StreamW.ok : StreamW := fun w => (.ok (), w)

/-- `Write::write_all` (std): `while !buf.is_empty() { match self.write(buf) { Ok(0) => return Err(WriteZero), Ok(n) => buf = &buf[n..],
Err(ref e) if e.is_interrupted() => {} Err(e) => return Err(e) } }`.  A call of `write` takes what there is room for; the rest of the
room stays. Used at groth16/src/lib.rs:40-42, 144-152, 263-283. -/
def writeEvents : List UInt8 → List UInt8 → List OutEvent → Except StreamError Unit × OutStream
  | [], out, evs => (.ok (), ⟨out, evs⟩)
  | bs, out, [] => (.ok (), ⟨out ++ bs, []⟩)
  | bs, out, .interrupted :: evs => writeEvents bs out evs
  | _, out, .fail c :: evs => (.error (.device c), ⟨out, evs⟩)
  | _, out, .take 0 :: evs => (.error (.io .writeZero), ⟨out, evs⟩)
  | b :: bs, out, .take (n + 1) :: evs =>
    if bs.length < n then (.ok (), ⟨out ++ b :: bs, .take (n - bs.length) :: evs⟩)
    else writeEvents (bs.drop n) (out ++ b :: bs.take n) evs

/-- `write_all` as a computation. Used at groth16/src/lib.rs:40-42, 144-152, 263-283. -/
def StreamW.writeAll (bs : List UInt8) : StreamW := fun w => writeEvents bs w.out w.events

/-- `WriteBytesExt::write_u32::<BigEndian>` (byteorder), as `writeU32`. Used at groth16/src/lib.rs:150, 261-281. -/
def StreamW.writeU32 (x : ℕ) : StreamW :=
  let x := UInt32.ofNat x
  StreamW.writeAll [(x >>> 24).toUInt8, (x >>> 16).toUInt8, (x >>> 8).toUInt8, x.toUInt8]

/-- groth16/src/lib.rs:151-153,262-264,267-269,272-274,277-279,282-284, as `writeEach`. -/
def StreamW.writeEach {α : Type} (f : α → List UInt8) : List α → StreamW
  | [] => StreamW.ok
  | x :: xs => (StreamW.writeAll (f x)).andThen (StreamW.writeEach f xs)

section

variable {G1 G2 : Type}

/-- groth16/src/lib.rs:39-45 `Proof::write`. -/
def Proof.writeStream (c1 : PointCodec G1) (c2 : PointCodec G2) (p : Proof G1 G2) : StreamW :=
  (StreamW.writeAll (c1.toBytes p.a)).andThen <|
  (StreamW.writeAll (c2.toBytes p.b)).andThen <|
  (StreamW.writeAll (c1.toBytes p.c)).andThen
  StreamW.ok

/-- groth16/src/lib.rs:143-156 `VerifyingKey::write`. -/
def VerifyingKey.writeStream (c1 : PointCodec G1) (c2 : PointCodec G2) (vk : VerifyingKey G1 G2) : StreamW :=
  (StreamW.writeAll (c1.toUncompressed vk.alphaG1)).andThen <|
  (StreamW.writeAll (c1.toUncompressed vk.betaG1)).andThen <|
  (StreamW.writeAll (c2.toUncompressed vk.betaG2)).andThen <|
  (StreamW.writeAll (c2.toUncompressed vk.gammaG2)).andThen <|
  (StreamW.writeAll (c1.toUncompressed vk.deltaG1)).andThen <|
  (StreamW.writeAll (c2.toUncompressed vk.deltaG2)).andThen <|
  (StreamW.writeU32 vk.ic.length).andThen <|
  (StreamW.writeEach c1.toUncompressed vk.ic).andThen
  StreamW.ok

/-- groth16/src/lib.rs:261-264,266-269,271-274,276-279,281-284, as `writeVec`. -/
def StreamW.writeVec {G : Type} (c : PointCodec G) (v : List G) : StreamW :=
  (StreamW.writeU32 v.length).andThen (StreamW.writeEach c.toUncompressed v)

/-- groth16/src/lib.rs:258-287 `Parameters::write`. -/
def Parameters.writeStream (c1 : PointCodec G1) (c2 : PointCodec G2) (p : Parameters G1 G2) : StreamW :=
  (p.vk.writeStream c1 c2).andThen <|
  (StreamW.writeVec c1 p.h).andThen <|
  (StreamW.writeVec c1 p.l).andThen <|
  (StreamW.writeVec c1 p.a).andThen <|
  (StreamW.writeVec c1 p.bG1).andThen <|
  (StreamW.writeVec c2 p.bG2).andThen
  StreamW.ok

end

end Bellman
