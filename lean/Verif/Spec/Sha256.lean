import Mathlib.Data.List.Basic

/-!
# SHA-256 as in FIPS 180-4 (specification, independent of the model)

Written from the standard: section numbers refer to FIPS 180-4.
-/

namespace Bellman.Spec.Sha256

/-- A 32-bit word; `+` is addition modulo `2^32`. -/
abbrev W32 := BitVec 32

/-- §4.1.2 (4.2) -/
def Ch (x y z : W32) : W32 := (x &&& y) ^^^ (~~~x &&& z)
/-- §4.1.2 (4.3) -/
def Maj (x y z : W32) : W32 := (x &&& y) ^^^ (x &&& z) ^^^ (y &&& z)
/-- §4.1.2 (4.4) -/
def S0 (x : W32) : W32 := x.rotateRight 2 ^^^ x.rotateRight 13 ^^^ x.rotateRight 22
/-- §4.1.2 (4.5) -/
def S1 (x : W32) : W32 := x.rotateRight 6 ^^^ x.rotateRight 11 ^^^ x.rotateRight 25
/-- §4.1.2 (4.6) -/
def s0 (x : W32) : W32 := x.rotateRight 7 ^^^ x.rotateRight 18 ^^^ x >>> 3
/-- §4.1.2 (4.7) -/
def s1 (x : W32) : W32 := x.rotateRight 17 ^^^ x.rotateRight 19 ^^^ x >>> 10

/-- §4.2.2: the first 32 bits of the fractional parts of the cube roots of the first 64 primes. -/
def K : List W32 := [
  0x428a2f98, 0x71374491, 0xb5c0fbcf, 0xe9b5dba5, 0x3956c25b, 0x59f111f1, 0x923f82a4, 0xab1c5ed5,
  0xd807aa98, 0x12835b01, 0x243185be, 0x550c7dc3, 0x72be5d74, 0x80deb1fe, 0x9bdc06a7, 0xc19bf174,
  0xe49b69c1, 0xefbe4786, 0x0fc19dc6, 0x240ca1cc, 0x2de92c6f, 0x4a7484aa, 0x5cb0a9dc, 0x76f988da,
  0x983e5152, 0xa831c66d, 0xb00327c8, 0xbf597fc7, 0xc6e00bf3, 0xd5a79147, 0x06ca6351, 0x14292967,
  0x27b70a85, 0x2e1b2138, 0x4d2c6dfc, 0x53380d13, 0x650a7354, 0x766a0abb, 0x81c2c92e, 0x92722c85,
  0xa2bfe8a1, 0xa81a664b, 0xc24b8b70, 0xc76c51a3, 0xd192e819, 0xd6990624, 0xf40e3585, 0x106aa070,
  0x19a4c116, 0x1e376c08, 0x2748774c, 0x34b0bcb5, 0x391c0cb3, 0x4ed8aa4a, 0x5b9cca4f, 0x682e6ff3,
  0x748f82ee, 0x78a5636f, 0x84c87814, 0x8cc70208, 0x90befffa, 0xa4506ceb, 0xbef9a3f7, 0xc67178f2]

/-- The first 64 primes. -/
def primes64 : List ℕ := [
  2, 3, 5, 7, 11, 13, 17, 19, 23, 29, 31, 37, 41, 43, 47, 53, 59, 61, 67, 71, 73, 79, 83, 89, 97, 101, 103, 107, 109,
  113, 127, 131, 137, 139, 149, 151, 157, 163, 167, 173, 179, 181, 191, 193, 197, 199, 211, 223, 227, 229, 233, 239,
  241, 251, 257, 263, 269, 271, 277, 281, 283, 293, 307, 311]

/-- The working variables `a … h`, also used for the hash value `H₀ … H₇`. -/
structure State where
  a : W32
  b : W32
  c : W32
  d : W32
  e : W32
  f : W32
  g : W32
  h : W32
deriving DecidableEq

/-- §5.3.3: the first 32 bits of the fractional parts of the square roots of the first eight primes. -/
def H0 : State :=
  ⟨0x6a09e667, 0xbb67ae85, 0x3c6ef372, 0xa54ff53a, 0x510e527f, 0x9b05688c, 0x1f83d9ab, 0x5be0cd19⟩

/-- §6.2.2 step 1: the message schedule. -/
def W (M : ℕ → W32) (t : ℕ) : W32 :=
  if t < 16 then M t else s1 (W M (t - 2)) + W M (t - 7) + s0 (W M (t - 15)) + W M (t - 16)
termination_by t

/-- §6.2.2 step 3, for one `t`, with `k = K_t`, `w = W_t`. -/
def round (k w : W32) (s : State) : State :=
  let T1 := s.h + S1 s.e + Ch s.e s.f s.g + k + w
  let T2 := S0 s.a + Maj s.a s.b s.c
  { h := s.g, g := s.f, f := s.e, e := s.d + T1, d := s.c, c := s.b, b := s.a, a := T1 + T2 }

/-- §6.2.2 step 3 for `t = 0 … n - 1`. -/
def rounds (M : ℕ → W32) (s : State) : ℕ → State
  | 0 => s
  | n + 1 => round (K.getD n 0) (W M n) (rounds M s n)

/-- §6.2.2 step 4: componentwise addition. -/
def State.add (s t : State) : State :=
  ⟨s.a + t.a, s.b + t.b, s.c + t.c, s.d + t.d, s.e + t.e, s.f + t.f, s.g + t.g, s.h + t.h⟩

/-- §6.2.2: one block. -/
def compress (H : State) (M : ℕ → W32) : State := (rounds M H 64).add H

/-- The number with the given binary digits, most significant first. -/
def beNat (l : List Bool) : ℕ := l.foldl (fun acc b => 2 * acc + b.toNat) 0

/-- §5.2.1: the `t`-th 32-bit word of a bit string, most significant bit first. -/
def wordAt (bits : List Bool) (t : ℕ) : W32 := BitVec.ofNat 32 (beNat ((bits.drop (32 * t)).take 32))

/-- The 64-bit binary representation of the length, most significant bit first. -/
def lenBits (l : ℕ) : List Bool := (List.range 64).map fun i => l.testBit (63 - i)

/-- §5.1.1: padding; the number of zeros is the least solution of `l + 1 + k ≡ 448 mod 512`. -/
def pad (m : List Bool) : List Bool :=
  m ++ [true] ++ List.replicate ((448 + 512 - (m.length + 1) % 512) % 512) false ++ lenBits m.length

/-- §6.2.2 for `n` consecutive blocks. -/
def hashBlocks : ℕ → State → List Bool → State
  | 0, H, _ => H
  | n + 1, H, bits => hashBlocks n (compress H (wordAt bits)) (bits.drop 512)

/-- The bits of a word, most significant first. -/
def beBits (w : W32) : List Bool := (List.range 32).map fun i => w.getMsbD i

/-- The hash value as a bit string. -/
def State.bits (s : State) : List Bool :=
  beBits s.a ++ beBits s.b ++ beBits s.c ++ beBits s.d ++ beBits s.e ++ beBits s.f ++ beBits s.g ++ beBits s.h

/-- SHA-256 of a bit string. -/
def sha256 (m : List Bool) : List Bool :=
  (hashBlocks ((pad m).length / 512) H0 (pad m)).bits

/-- The compression function applied to one 512-bit block without padding. -/
def sha256Block (m : List Bool) : List Bool := (compress H0 (wordAt m)).bits

end Bellman.Spec.Sha256
