import Mathlib.Data.List.Basic

/-!
# BLAKE2s as in RFC 7693 (specification, independent of the model)

Unkeyed, 32 byte output, with the 8 byte personalization of the BLAKE2 parameter block (bytes 24…31 of the parameter
block, i.e. xored into `h[6]`, `h[7]`; RFC 7693 fixes it to zero, see §2.5 there).  Section numbers refer to RFC 7693.
-/

namespace Bellman.Spec.Blake2s

/-- A 32-bit word; `+` is addition modulo `2^32`. -/
abbrev W32 := BitVec 32

/-- §2.6: the initialization vector. -/
def IV : List W32 :=
  [0x6a09e667, 0xbb67ae85, 0x3c6ef372, 0xa54ff53a, 0x510e527f, 0x9b05688c, 0x1f83d9ab, 0x5be0cd19]

/-- §2.7: the message schedule. -/
def SIGMA : List (List ℕ) := [
  [0, 1, 2, 3, 4, 5, 6, 7, 8, 9, 10, 11, 12, 13, 14, 15],
  [14, 10, 4, 8, 9, 15, 13, 6, 1, 12, 0, 2, 11, 7, 5, 3],
  [11, 8, 12, 0, 5, 2, 15, 13, 10, 14, 3, 6, 7, 1, 9, 4],
  [7, 9, 3, 1, 13, 12, 11, 14, 2, 6, 5, 10, 4, 0, 15, 8],
  [9, 0, 5, 7, 2, 4, 10, 15, 14, 1, 11, 12, 6, 8, 3, 13],
  [2, 12, 6, 10, 0, 11, 8, 3, 4, 13, 7, 5, 15, 14, 1, 9],
  [12, 5, 1, 15, 14, 13, 4, 10, 0, 7, 6, 3, 9, 2, 8, 11],
  [13, 11, 7, 14, 12, 1, 3, 9, 5, 0, 15, 4, 8, 6, 2, 10],
  [6, 15, 14, 9, 11, 3, 0, 8, 12, 2, 13, 7, 1, 4, 10, 5],
  [10, 2, 8, 4, 7, 6, 1, 5, 15, 11, 9, 14, 3, 12, 13, 0]]

/-- `v[a] := v[a] + v[b] + x` -/
def add3 (v : List W32) (a b : ℕ) (x : W32) : List W32 := v.set a (v.getD a 0 + v.getD b 0 + x)
/-- `v[c] := v[c] + v[d]` -/
def add2 (v : List W32) (c d : ℕ) : List W32 := v.set c (v.getD c 0 + v.getD d 0)
/-- `v[d] := (v[d] ^ v[a]) >>> r` -/
def xorRot (v : List W32) (d a r : ℕ) : List W32 := v.set d ((v.getD d 0 ^^^ v.getD a 0).rotateRight r)

/-- §3.1: the mixing function `G`. -/
def G (v : List W32) (a b c d : ℕ) (x y : W32) : List W32 :=
  let v := add3 v a b x
  let v := xorRot v d a 16
  let v := add2 v c d
  let v := xorRot v b c 12
  let v := add3 v a b y
  let v := xorRot v d a 8
  let v := add2 v c d
  xorRot v b c 7

/-- §3.2: round `i` of the compression function. -/
def round (m : List W32) (i : ℕ) (v : List W32) : List W32 :=
  let s := SIGMA.getD (i % 10) []
  let w := fun j => m.getD (s.getD j 0) 0
  let v := G v 0 4 8 12 (w 0) (w 1)
  let v := G v 1 5 9 13 (w 2) (w 3)
  let v := G v 2 6 10 14 (w 4) (w 5)
  let v := G v 3 7 11 15 (w 6) (w 7)
  let v := G v 0 5 10 15 (w 8) (w 9)
  let v := G v 1 6 11 12 (w 10) (w 11)
  let v := G v 2 7 8 13 (w 12) (w 13)
  G v 3 4 9 14 (w 14) (w 15)

/-- §3.2: the first `n` rounds. -/
def rounds (m v : List W32) : ℕ → List W32
  | 0 => v
  | n + 1 => round m n (rounds m v n)

/-- §3.2: the initial work vector. -/
def initial (h : List W32) (t : ℕ) (last : Bool) : List W32 :=
  let v := h ++ IV
  let v := v.set 12 (v.getD 12 0 ^^^ BitVec.ofNat 32 t)
  let v := v.set 13 (v.getD 13 0 ^^^ BitVec.ofNat 32 (t / 2 ^ 32))
  if last then v.set 14 (v.getD 14 0 ^^^ 0xffffffff) else v

/-- §3.2: the compression function `F`. -/
def compress (h m : List W32) (t : ℕ) (last : Bool) : List W32 :=
  let v := rounds m (initial h t last) 10
  (List.range 8).map fun i => h.getD i 0 ^^^ v.getD i 0 ^^^ v.getD (i + 8) 0

/-- §2.4: little-endian word number `k` of the message, zero bytes after its end. -/
def wordAt (msg : List (BitVec 8)) (k : ℕ) : W32 :=
  msg.getD (4 * k + 3) 0 ++ msg.getD (4 * k + 2) 0 ++ msg.getD (4 * k + 1) 0 ++ msg.getD (4 * k) 0

/-- §3.3: data block `d[i]`. -/
def block (msg : List (BitVec 8)) (i : ℕ) : List W32 := (List.range 16).map fun j => wordAt msg (16 * i + j)

/-- §3.3: the state after the first `n` (non-final) blocks. -/
def chain (msg : List (BitVec 8)) (h : List W32) : ℕ → List W32
  | 0 => h
  | n + 1 => compress (chain msg h n) (block msg n) ((n + 1) * 64) false

/-- §2.5, §3.3: `h[0] ^ 0x01010000 ^ (kk << 8) ^ nn` with `kk = 0`, `nn = 32`, and personalization. -/
def start (pers : List (BitVec 8)) : List W32 :=
  [0x6a09e667 ^^^ 0x01010000 ^^^ 32, 0xbb67ae85, 0x3c6ef372, 0xa54ff53a, 0x510e527f, 0x9b05688c,
   0x1f83d9ab ^^^ wordAt pers 0, 0x5be0cd19 ^^^ wordAt pers 1]

/-- §3.3: number of data blocks, at least one. -/
def numBlocks (ll : ℕ) : ℕ := max 1 ((ll + 63) / 64)

/-- §3.3: the final state. -/
def final (pers msg : List (BitVec 8)) : List W32 :=
  let dd := numBlocks msg.length
  compress (chain msg (start pers) (dd - 1)) (block msg (dd - 1)) msg.length true

/-- The bytes of a word, least significant first. -/
def leBytes (w : W32) : List (BitVec 8) := (List.range 4).map fun i => (w >>> (8 * i)).setWidth 8

/-- §3.3: the hash, 32 bytes. -/
def blake2s (pers msg : List (BitVec 8)) : List (BitVec 8) := (final pers msg).flatMap leBytes

/-- The bits of a byte string, least significant bit of each byte first. -/
def bits (l : List (BitVec 8)) : List Bool := l.flatMap fun b => (List.range 8).map fun i => b.getLsbD i

end Bellman.Spec.Blake2s
