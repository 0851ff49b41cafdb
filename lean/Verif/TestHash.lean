import Verif.TestCS
import Verif.Spec.Blake2s

/-!
# Model of `TestConstraintSystem::hash` (src/gadgets/test/mod.rs:229-252)
-/

namespace Bellman

/-- One hexadecimal digit, lower case (std, `{:x}`). Used at src/gadgets/test/mod.rs:248. -/
def hexDigit (n : ℕ) : Char := if n < 10 then Char.ofNat (48 + n) else Char.ofNat (87 + n)

/-- `format!("{:02x}", b)` (src/gadgets/test/mod.rs:248): two digits, filled up with a zero. -/
def hexByte (b : BitVec 8) : List Char := [hexDigit (b.toNat / 16), hexDigit (b.toNat % 16)]

variable {F : Type} [PrimeField F]

/-- src/gadgets/test/mod.rs:229-252 `hash`. `Blake2sParams::new().hash_length(32)` (external crate `blake2s_simd`) is BLAKE2s of RFC 7693
without key and personalization; `update` appends to the input; lines 246-251 render the digest. -/
def TestCS.hash (toRepr : F → List UInt8) (s : TestCS F) : Option String :=
  (s.hashInput toRepr).map fun bytes =>
    String.ofList ((Spec.Blake2s.blake2s [] (bytes.map UInt8.toBitVec)).flatMap hexByte)

end Bellman
