import Verif.Groth16.Serialize

/-!
# The byte formats (specification)
-/

namespace Bellman

variable {G1 G2 : Type}

/-- A 32-bit number, most significant byte first. -/
def be32 (n : ℕ) : List UInt8 :=
  [UInt8.ofNat (n / 2 ^ 24), UInt8.ofNat (n / 2 ^ 16), UInt8.ofNat (n / 2 ^ 8), UInt8.ofNat n]

/-- A proof: three compressed points. -/
def Proof.encoding (c1 : PointCodec G1) (c2 : PointCodec G2) (p : Proof G1 G2) : List UInt8 :=
  c1.toBytes p.a ++ c2.toBytes p.b ++ c1.toBytes p.c

/-- A vector: its length, then its elements uncompressed. -/
def vecEncoding {G : Type} (c : PointCodec G) (v : List G) : List UInt8 := be32 v.length ++ v.flatMap c.toUncompressed

/-- A verifying key: six points and a vector. -/
def VerifyingKey.encoding (c1 : PointCodec G1) (c2 : PointCodec G2) (vk : VerifyingKey G1 G2) : List UInt8 :=
  c1.toUncompressed vk.alphaG1 ++ c1.toUncompressed vk.betaG1 ++ c2.toUncompressed vk.betaG2 ++ c2.toUncompressed vk.gammaG2 ++
    c1.toUncompressed vk.deltaG1 ++ c2.toUncompressed vk.deltaG2 ++ vecEncoding c1 vk.ic

/-- Parameters: a verifying key and five vectors. -/
def Parameters.encoding (c1 : PointCodec G1) (c2 : PointCodec G2) (p : Parameters G1 G2) : List UInt8 :=
  p.vk.encoding c1 c2 ++ vecEncoding c1 p.h ++ vecEncoding c1 p.l ++ vecEncoding c1 p.a ++ vecEncoding c1 p.bG1 ++ vecEncoding c2 p.bG2

/-- The points of a proof pass the checks of the decoder. -/
structure Proof.Valid (c1 : PointCodec G1) (c2 : PointCodec G2) (p : Proof G1 G2) : Prop where
  a : c1.Valid p.a
  b : c2.Valid p.b
  c : c1.Valid p.c

/-- The points of a verifying key pass the checks of the decoder. -/
structure VerifyingKey.Valid (c1 : PointCodec G1) (c2 : PointCodec G2) (vk : VerifyingKey G1 G2) : Prop where
  alphaG1 : c1.Valid vk.alphaG1
  betaG1 : c1.Valid vk.betaG1
  betaG2 : c2.Valid vk.betaG2
  gammaG2 : c2.Valid vk.gammaG2
  deltaG1 : c1.Valid vk.deltaG1
  deltaG2 : c2.Valid vk.deltaG2
  ic : ∀ g ∈ vk.ic, c1.Valid g

/-- The points of the query vectors pass the checks of the decoder. -/
structure Parameters.Valid (c1 : PointCodec G1) (c2 : PointCodec G2) (p : Parameters G1 G2) : Prop where
  h : ∀ g ∈ p.h, c1.Valid g
  l : ∀ g ∈ p.l, c1.Valid g
  a : ∀ g ∈ p.a, c1.Valid g
  bG1 : ∀ g ∈ p.bG1, c1.Valid g
  bG2 : ∀ g ∈ p.bG2, c2.Valid g

/-- The vector can be read back: no identity in it, and not too long for its length field. -/
structure Storable {G : Type} [Zero G] (v : List G) : Prop where
  nonzero : ∀ g ∈ v, g ≠ 0
  len : v.length < 2 ^ 32

end Bellman
