import Mathlib.Algebra.Field.ZMod
import Mathlib.Algebra.CharP.Basic
import Mathlib.Data.Nat.Size
import Mathlib.GroupTheory.OrderOfElement
import Mathlib.RingTheory.RootsOfUnity.PrimitiveRoots

/-!
# The external contract of `ff::PrimeField` / `ff::PrimeFieldBits`

bellman takes its scalar field from the `ff` crate (`use ff::{Field, PrimeField, PrimeFieldBits}`,
e.g. src/lib.rs:144, src/domain.rs:14, src/gadgets/num.rs:3).  The crate is not part of /repo; this
class states the documented contract that the model relies on.
-/

namespace Bellman

/-- Contract of `ff::PrimeField` + `ff::PrimeFieldBits` (external crate, used throughout /repo/src).
"An element of a non-binary prime field" with its associated constants.  `val` is the canonical
integer representative (`to_repr`, read as an integer); `REPR_BITS` is the number of bits of
`to_le_bits()`, a multiple of the machine word size at least `NUM_BITS`. -/
class PrimeField (F : Type) extends Field F where
  decEq : DecidableEq F
  /-- the modulus (`char_le_bits`) -/
  p : ℕ
  prime : p.Prime
  charP : CharP F p
  p_ne_two : p ≠ 2
  val : F → ℕ
  val_lt : ∀ x, val x < p
  cast_val : ∀ x, ((val x : ℕ) : F) = x
  NUM_BITS : ℕ
  NUM_BITS_eq : NUM_BITS = Nat.size p
  CAPACITY : ℕ
  CAPACITY_eq : CAPACITY = NUM_BITS - 1
  REPR_BITS : ℕ
  NUM_BITS_le : NUM_BITS ≤ REPR_BITS
  S : ℕ
  S_dvd : 2 ^ S ∣ p - 1
  S_max : ¬ 2 ^ (S + 1) ∣ p - 1
  ROOT_OF_UNITY : F
  root_primitive : IsPrimitiveRoot ROOT_OF_UNITY (2 ^ S)
  MULTIPLICATIVE_GENERATOR : F
  gen_order : orderOf MULTIPLICATIVE_GENERATOR = p - 1

namespace PrimeField

attribute [instance_reducible] PrimeField.decEq
attribute [instance] PrimeField.decEq PrimeField.charP

variable {F : Type} [PrimeField F]

/-- `ff::PrimeFieldBits::to_le_bits` (external): the bits of the canonical representative, least
significant first. Used at src/gadgets/boolean.rs:330, src/gadgets/num.rs:106-107, src/multiexp.rs:179. -/
def toLeBits (x : F) : List Bool := (List.range (REPR_BITS F)).map fun i => (val x).testBit i

/-- `ff::PrimeFieldBits::char_le_bits` (external): the bits of the modulus, least significant first.
Used at src/gadgets/boolean.rs:324. -/
def charLeBits (F : Type) [PrimeField F] : List Bool :=
  (List.range (REPR_BITS F)).map fun i => (p F).testBit i

instance : Fact (p F).Prime := ⟨prime⟩

theorem p_pos : 0 < p F := prime.pos

theorem two_lt_p : 2 < p F := lt_of_le_of_ne prime.two_le (Ne.symm p_ne_two)

theorem cast_inj_of_lt {a b : ℕ} (ha : a < p F) (hb : b < p F) (h : (a : F) = (b : F)) : a = b := by
  have := (CharP.natCast_eq_natCast F (p F)).1 h
  exact Nat.ModEq.eq_of_lt_of_lt this ha hb

theorem val_cast_of_lt {a : ℕ} (ha : a < p F) : val (a : F) = a :=
  cast_inj_of_lt (F := F) (val_lt _) ha (cast_val _)

theorem val_injective : Function.Injective (val : F → ℕ) := fun x y h => by
  rw [← cast_val x, ← cast_val y, h]

@[simp] theorem val_zero : val (0 : F) = 0 := by
  simpa using val_cast_of_lt (F := F) (a := 0) p_pos

@[simp] theorem val_one : val (1 : F) = 1 := by
  simpa using val_cast_of_lt (F := F) (a := 1) prime.one_lt

theorem two_pow_capacity_lt : 2 ^ CAPACITY F < p F := by
  rw [CAPACITY_eq, NUM_BITS_eq]
  have h0 : 0 < Nat.size (p F) := Nat.size_pos.2 p_pos
  have h : 2 ^ (Nat.size (p F) - 1) ≤ p F := Nat.lt_size.1 (by omega)
  refine lt_of_le_of_ne h fun he => ?_
  have hp := prime (F := F)
  rw [← he] at hp
  rcases Nat.eq_zero_or_pos (Nat.size (p F) - 1) with h1 | h1
  · rw [h1] at hp; exact absurd hp (by simpa using Nat.not_prime_one)
  · have h2 : (2 : ℕ) ∣ 2 ^ (Nat.size (p F) - 1) := dvd_pow_self 2 (by omega)
    rw [he] at h2
    have := (Nat.prime_dvd_prime_iff_eq Nat.prime_two (prime (F := F))).1 h2
    exact p_ne_two this.symm

theorem p_lt_two_pow : p F < 2 ^ NUM_BITS F := by
  rw [NUM_BITS_eq]; exact Nat.lt_size_self _

theorem capacity_lt : CAPACITY F + 1 = NUM_BITS F := by
  have h0 : 0 < Nat.size (p F) := Nat.size_pos.2 p_pos
  rw [CAPACITY_eq, NUM_BITS_eq]; omega

theorem two_ne_zero' : (2 : F) ≠ 0 := by
  intro h
  have h2 : ((2 : ℕ) : F) = ((0 : ℕ) : F) := by push_cast; exact h
  have := cast_inj_of_lt (F := F) two_lt_p p_pos h2
  omega

end PrimeField

end Bellman
