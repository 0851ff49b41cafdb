import Verif.Groth16.Keys

/-!
# Model of serialization (groth16/src/lib.rs)

Readers are byte lists, writers take bytes until they have no room left.  `none` stands for a panic.
-/

namespace Bellman

/-- The `io::Error`s that occur: the end of the input (`read_exact`), a full writer (`write_all`), and
`io::ErrorKind::InvalidData` with the message used. groth16/src/lib.rs:56, 61-64. -/
inductive IoError where
  | unexpectedEof
  | writeZero
  | invalidData (msg : String)
deriving DecidableEq, Repr

/-- The encodings of a point type (`group::GroupEncoding`, `group::UncompressedEncoding`; external).  `G` is the set of all values
of the Rust type, including any invalid ones `from_uncompressed_unchecked` may produce.  The contract: encodings have a fixed
length, decoding inverts encoding, decoders accept only what the encoder writes, and the unchecked decoder accepts at least what the
checked one does, with the same result.  The decoders are applied to arrays of the fixed length only.
Used at groth16/src/lib.rs:38-95. -/
structure PointCodec (G : Type) where
  /-- length of `GroupEncoding::Repr` -/
  size : ℕ
  toBytes : G → List UInt8
  toBytes_length : ∀ g, (toBytes g).length = size
  fromBytes : List UInt8 → Option G
  /-- the points that pass the checks (on the curve, in the prime-order subgroup) -/
  Valid : G → Prop
  fromBytes_toBytes : ∀ g, Valid g → fromBytes (toBytes g) = some g
  fromBytes_valid : ∀ bs g, fromBytes bs = some g → Valid g
  toBytes_fromBytes : ∀ bs g, bs.length = size → fromBytes bs = some g → toBytes g = bs
  /-- length of `UncompressedEncoding::Uncompressed` -/
  usize : ℕ
  toUncompressed : G → List UInt8
  toUncompressed_length : ∀ g, (toUncompressed g).length = usize
  fromUncompressed : List UInt8 → Option G
  fromUncompressedUnchecked : List UInt8 → Option G
  fromUncompressed_toUncompressed : ∀ g, Valid g → fromUncompressed (toUncompressed g) = some g
  fromUncompressed_valid : ∀ bs g, fromUncompressed bs = some g → Valid g
  unchecked_toUncompressed : ∀ g, fromUncompressedUnchecked (toUncompressed g) = some g
  toUncompressed_unchecked : ∀ bs g, bs.length = usize → fromUncompressedUnchecked bs = some g → toUncompressed g = bs
  unchecked_of_checked : ∀ bs g, fromUncompressed bs = some g → fromUncompressedUnchecked bs = some g

/-! ## Readers -/

/-- A computation that reads from a `Read`er: the rest of the input is the state.
Model device, no counterpart in the code. -/
def ReadM (α : Type) : Type := List UInt8 → Option (Except IoError (α × List UInt8))

namespace ReadM

/-- Rust's `Ok(x)`. Model device, no counterpart in the code. -/
def ok {α : Type} (x : α) : ReadM α := fun bs => some (.ok (x, bs))

/-- Rust's `Err(e)`. Model device, no counterpart in the code. -/
def err {α : Type} (e : IoError) : ReadM α := fun _ => some (.error e)

/-- A panic. Model device, no counterpart in the code. -/
def panic {α : Type} : ReadM α := fun _ => none

/-- Rust's `?`. Model device, no counterpart in the code. -/
def bind {α β : Type} (m : ReadM α) (f : α → ReadM β) : ReadM β := fun bs =>
  match m bs with
  | none => none
  | some (.error e) => some (.error e)
  | some (.ok (x, rest)) => f x rest

instance : Monad ReadM where
  pure := ok
  bind := bind

end ReadM

/-- `Read::read_exact` (std): fills a buffer of `n` bytes, or fails if the input ends before.
Used at groth16/src/lib.rs:50, 73, 161, 173, 292, 320. -/
def readExact (n : ℕ) : ReadM (List UInt8) := fun bs =>
  if n ≤ bs.length then some (.ok (bs.take n, bs.drop n)) else some (.error .unexpectedEof)

/-- The value of four bytes, most significant first. Model device, no counterpart in the code. -/
def ofBE32 : List UInt8 → Option ℕ
  | [a, b, c, d] => some (a.toNat * 2 ^ 24 + b.toNat * 2 ^ 16 + c.toNat * 2 ^ 8 + d.toNat)
  | _ => none

/-- `ReadBytesExt::read_u32::<BigEndian>` (byteorder): four bytes by `read_exact`.
Used at groth16/src/lib.rs:190, 355-383. -/
def readU32 : ReadM ℕ := do
  let bs ← readExact 4
  match ofBE32 bs with
  | some n => ReadM.ok n
  | none => ReadM.panic

/-- groth16/src/lib.rs:53-57,76-80,164-168,176-180,300-304,328-332: `if affine.is_some() { Ok(affine.unwrap()) } else { Err(…) }`. -/
def unwrapOr {α : Type} (o : Option α) (msg : String) : ReadM α :=
  if o.isSome then
    match o with
    | some x => ReadM.ok x
    | none => ReadM.panic
  else ReadM.err (.invalidData msg)

/-- groth16/src/lib.rs:59-68 (and 82-91, 195-204, 306-315, 334-343): refuse the identity. -/
def refuseIdentity {G : Type} [Zero G] [DecidableEq G] (e : G) : ReadM G :=
  if e = 0 then ReadM.err (.invalidData "point at infinity") else ReadM.ok e

/-- groth16/src/lib.rs:194-207,356-358,363-365,370-372,377-379,384-386: `for _ in 0..len { v.push(read(&mut reader)?) }`. -/
def readN {α : Type} (read : ReadM α) : ℕ → ReadM (List α)
  | 0 => ReadM.ok []
  | n + 1 => do
    let x ← read
    let xs ← readN read n
    ReadM.ok (x :: xs)

/-! ## Writers -/

/-- A writer: what it holds, and how many more bytes it takes (`none`: any number).  `Vec<u8>` is a writer of the second kind, a file on
a full disk or a connection that breaks one of the first. Model device, no counterpart in the code. -/
structure Writer where
  out : List UInt8
  room : Option ℕ

/-- A computation that writes. Model device, no counterpart in the code. -/
def WriteM : Type := Writer → Except IoError Unit × Writer

/-- Rust's `?` between writes. Model device, no counterpart in the code. -/
def WriteM.andThen (m n : WriteM) : WriteM := fun w =>
  match m w with
  | (.error e, w) => (.error e, w)
  | (.ok (), w) => n w

/-- `Ok(())`. Model device, no counterpart in the code. -/
def WriteM.ok : WriteM := fun w => (.ok (), w)

/-- `Write::write_all` (std): writes everything, or what fits and fails.
Used at groth16/src/lib.rs:40-42, 144-152, 263-283. -/
def writeAll (bs : List UInt8) : WriteM := fun w =>
  match w.room with
  | none => (.ok (), { w with out := w.out ++ bs })
  | some n =>
    if bs.length ≤ n then (.ok (), { out := w.out ++ bs, room := some (n - bs.length) })
    else (.error .writeZero, { out := w.out ++ bs.take n, room := some 0 })

/-- `x as u32` for a `usize`, then `WriteBytesExt::write_u32::<BigEndian>` (byteorder): the four bytes of `x mod 2^32`, most significant
first, by `write_all`. Used at groth16/src/lib.rs:150, 261-281. -/
def writeU32 (x : ℕ) : WriteM :=
  let x := UInt32.ofNat x
  writeAll [(x >>> 24).toUInt8, (x >>> 16).toUInt8, (x >>> 8).toUInt8, x.toUInt8]

/-- groth16/src/lib.rs:151-153,262-264,267-269,272-274,277-279,282-284: `for g in v { writer.write_all(g.to_uncompressed().as_ref())?; }`. -/
def writeEach {α : Type} (f : α → List UInt8) : List α → WriteM
  | [] => WriteM.ok
  | x :: xs => (writeAll (f x)).andThen (writeEach f xs)

section

variable {G1 G2 : Type} [Zero G1] [Zero G2] [DecidableEq G1] [DecidableEq G2]

/-! ## Proof -/

/-- groth16/src/lib.rs:39-45 `Proof::write`. -/
def Proof.write (c1 : PointCodec G1) (c2 : PointCodec G2) (p : Proof G1 G2) : WriteM :=
  (writeAll (c1.toBytes p.a)).andThen <|
  (writeAll (c2.toBytes p.b)).andThen <|
  (writeAll (c1.toBytes p.c)).andThen
  WriteM.ok

/-- groth16/src/lib.rs:48-69 `read_g1` and 71-92 `read_g2` in `Proof::read`, with their messages. -/
def Proof.readPoint {G : Type} [Zero G] [DecidableEq G] (c : PointCodec G) (msg : String) : ReadM G := do
  let repr ← readExact c.size
  let affine := c.fromBytes repr
  let e ← unwrapOr affine msg
  refuseIdentity e

/-- groth16/src/lib.rs:47-99 `Proof::read`. -/
def Proof.read (c1 : PointCodec G1) (c2 : PointCodec G2) : ReadM (Proof G1 G2) := do
  let a ← Proof.readPoint c1 "invalid G1"
  let b ← Proof.readPoint c2 "invalid G2"
  let c ← Proof.readPoint c1 "invalid G1"
  ReadM.ok { a := a, b := b, c := c }

/-! ## VerifyingKey -/

/-- groth16/src/lib.rs:143-156 `VerifyingKey::write`. -/
def VerifyingKey.write (c1 : PointCodec G1) (c2 : PointCodec G2) (vk : VerifyingKey G1 G2) : WriteM :=
  (writeAll (c1.toUncompressed vk.alphaG1)).andThen <|
  (writeAll (c1.toUncompressed vk.betaG1)).andThen <|
  (writeAll (c2.toUncompressed vk.betaG2)).andThen <|
  (writeAll (c2.toUncompressed vk.gammaG2)).andThen <|
  (writeAll (c1.toUncompressed vk.deltaG1)).andThen <|
  (writeAll (c2.toUncompressed vk.deltaG2)).andThen <|
  (writeU32 vk.ic.length).andThen <|
  (writeEach c1.toUncompressed vk.ic).andThen
  WriteM.ok

/-- groth16/src/lib.rs:159-169 `read_g1` and 171-181 `read_g2` in `VerifyingKey::read`, with their messages. -/
def VerifyingKey.readPoint {G : Type} (c : PointCodec G) (msg : String) : ReadM G := do
  let repr ← readExact c.usize
  let affine := c.fromUncompressed repr
  unwrapOr affine msg

/-- groth16/src/lib.rs:158-218 `VerifyingKey::read`. -/
def VerifyingKey.read (c1 : PointCodec G1) (c2 : PointCodec G2) : ReadM (VerifyingKey G1 G2) := do
  let alphaG1 ← VerifyingKey.readPoint c1 "invalid G1"
  let betaG1 ← VerifyingKey.readPoint c1 "invalid G1"
  let betaG2 ← VerifyingKey.readPoint c2 "invalid G2"
  let gammaG2 ← VerifyingKey.readPoint c2 "invalid G2"
  let deltaG1 ← VerifyingKey.readPoint c1 "invalid G1"
  let deltaG2 ← VerifyingKey.readPoint c2 "invalid G2"
  let icLen ← readU32
  let ic ← readN (do let e ← VerifyingKey.readPoint c1 "invalid G1"; refuseIdentity e) icLen
  ReadM.ok { alphaG1, betaG1, betaG2, gammaG2, deltaG1, deltaG2, ic }

/-! ## Parameters -/

/-- groth16/src/lib.rs:261-264,266-269,271-274,276-279,281-284: the length, then the elements. -/
def writeVec {G : Type} (c : PointCodec G) (v : List G) : WriteM :=
  (writeU32 v.length).andThen (writeEach c.toUncompressed v)

/-- groth16/src/lib.rs:258-287 `Parameters::write`. -/
def Parameters.write (c1 : PointCodec G1) (c2 : PointCodec G2) (p : Parameters G1 G2) : WriteM :=
  (p.vk.write c1 c2).andThen <|
  (writeVec c1 p.h).andThen <|
  (writeVec c1 p.l).andThen <|
  (writeVec c1 p.a).andThen <|
  (writeVec c1 p.bG1).andThen <|
  (writeVec c2 p.bG2).andThen
  WriteM.ok

/-- groth16/src/lib.rs:290-316 `read_g1` and 318-344 `read_g2` in `Parameters::read`, with their messages. -/
def Parameters.readPoint {G : Type} [Zero G] [DecidableEq G] (c : PointCodec G) (msg : String) (checked : Bool) : ReadM G := do
  let repr ← readExact c.usize
  let affine := if checked then c.fromUncompressed repr else c.fromUncompressedUnchecked repr
  let e ← unwrapOr affine msg
  refuseIdentity e

/-- groth16/src/lib.rs:354-359,361-366,368-373,375-380,382-387. -/
def readVec {G : Type} (read : ReadM G) : ReadM (List G) := do
  let len ← readU32
  readN read len

/-- groth16/src/lib.rs:289-397 `Parameters::read`. -/
def Parameters.read (c1 : PointCodec G1) (c2 : PointCodec G2) (checked : Bool) : ReadM (Parameters G1 G2) := do
  let vk ← VerifyingKey.read c1 c2
  let h ← readVec (Parameters.readPoint c1 "invalid G1" checked)
  let l ← readVec (Parameters.readPoint c1 "invalid G1" checked)
  let a ← readVec (Parameters.readPoint c1 "invalid G1" checked)
  let bG1 ← readVec (Parameters.readPoint c1 "invalid G1" checked)
  let bG2 ← readVec (Parameters.readPoint c2 "invalid G2" checked)
  ReadM.ok { vk, h, l, a, bG1, bG2 }

end

end Bellman
