import Verif.Spec.Sha256

/-!
# SHA-256 of byte strings (specification)
-/

namespace Bellman.Spec

/-- The bits of a byte string, most significant bit of each byte first (FIPS 180-4 §3.1). -/
def msbBits (m : List (BitVec 8)) : List Bool := m.flatMap fun b => (List.range 8).map fun i => b.getMsbD i

/-- The `t`-th byte of a bit string, most significant bit first. -/
def byteAt (bits : List Bool) (t : ℕ) : BitVec 8 := BitVec.ofNat 8 (Sha256.beNat ((bits.drop (8 * t)).take 8))

/-- SHA-256 of a byte string: 32 bytes. -/
def digest (m : List (BitVec 8)) : List (BitVec 8) := (List.range 32).map (byteAt (Sha256.sha256 (msbBits m)))

/-- SHA-256d: SHA-256 applied twice. -/
def sha256d (m : List (BitVec 8)) : List (BitVec 8) := digest (digest m)

end Bellman.Spec
