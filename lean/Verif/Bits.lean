import Mathlib.Data.Nat.Bitwise
import Mathlib.Data.Nat.Size
import Mathlib.Data.List.Forall2
import Mathlib.Tactic.Ring

/-!
# Bit strings and numbers (specification vocabulary)
-/

set_option linter.unnecessarySeqFocus false

namespace Bellman

/-- The number with the given bits, least significant first. -/
def bitsVal : List Bool → ℕ
  | [] => 0
  | b :: bs => b.toNat + 2 * bitsVal bs

/-- The `n` low bits of `x`, least significant first. -/
def leBits (n x : ℕ) : List Bool := (List.range n).map x.testBit

@[simp] theorem leBits_length (n x : ℕ) : (leBits n x).length = n := by simp [leBits]

theorem leBits_succ (n x : ℕ) : leBits (n + 1) x = x.testBit 0 :: leBits n (x / 2) := by
  unfold leBits
  rw [List.range_succ_eq_map]
  simp only [List.map_cons, List.map_map, List.cons.injEq, true_and]
  refine List.map_congr_left fun i _ => ?_
  simp [Nat.testBit_succ]

theorem leBits_succ_last (n x : ℕ) : leBits (n + 1) x = leBits n x ++ [x.testBit n] := by
  unfold leBits
  rw [List.range_succ]; simp

theorem bitsVal_leBits (n x : ℕ) : bitsVal (leBits n x) = x % 2 ^ n := by
  induction n generalizing x with
  | zero => simp [leBits, bitsVal, Nat.mod_one]
  | succ n ih =>
    rw [leBits_succ, bitsVal, ih, pow_succ', Nat.mod_mul, Nat.testBit_zero]
    rcases Nat.mod_two_eq_zero_or_one x with h | h <;> simp [h]

theorem leBits_bitsVal (l : List Bool) : leBits l.length (bitsVal l) = l := by
  induction l with
  | nil => rfl
  | cons b bs ih =>
    rw [List.length_cons, leBits_succ, bitsVal]
    have h1 : (b.toNat + 2 * bitsVal bs) / 2 = bitsVal bs := by cases b <;> simp <;> omega
    have h2 : (b.toNat + 2 * bitsVal bs).testBit 0 = b := by
      rw [Nat.testBit_zero]; cases b <;> simp
    rw [h1, h2, ih]

theorem bitsVal_lt (l : List Bool) : bitsVal l < 2 ^ l.length := by
  induction l with
  | nil => simp [bitsVal]
  | cons b bs ih => rw [bitsVal, List.length_cons, pow_succ]; cases b <;> simp <;> omega

theorem bitsVal_inj {l l' : List Bool} (hl : l.length = l'.length) (h : bitsVal l = bitsVal l') : l = l' := by
  rw [← leBits_bitsVal l, ← leBits_bitsVal l', hl, h]

theorem bitsVal_append (l l' : List Bool) : bitsVal (l ++ l') = bitsVal l + 2 ^ l.length * bitsVal l' := by
  induction l with
  | nil => simp [bitsVal]
  | cons b bs ih => rw [List.cons_append, bitsVal, ih, bitsVal, List.length_cons, pow_succ]; ring

theorem bitsVal_testBit (l : List Bool) (i : ℕ) : (bitsVal l).testBit i = l.getD i false := by
  by_cases h : i < l.length
  · have := congrArg (fun m => m.getD i false) (leBits_bitsVal l)
    simp only [leBits] at this
    rw [← this]
    simp [List.getD, h]
  · have h1 : bitsVal l < 2 ^ i := lt_of_lt_of_le (bitsVal_lt l) (Nat.pow_le_pow_right (by norm_num) (by omega))
    rw [Nat.testBit_lt_two_pow h1]
    simp [List.getD, List.getElem?_eq_none (by omega : l.length ≤ i)]

/-- Big-endian accumulation from a prefix with value `acc`. -/
def beAcc (acc : ℕ) : List Bool → ℕ
  | [] => acc
  | b :: bs => beAcc (2 * acc + b.toNat) bs

theorem beAcc_eq (l : List Bool) (acc : ℕ) : beAcc acc l = acc * 2 ^ l.length + bitsVal l.reverse := by
  induction l generalizing acc with
  | nil => simp [beAcc, bitsVal]
  | cons b bs ih =>
    rw [beAcc, ih, List.reverse_cons, bitsVal_append, List.length_reverse, List.length_cons, pow_succ]
    simp only [bitsVal, mul_zero, add_zero]
    ring

theorem beAcc_lt {l l' : List Bool} (hl : l.length = l'.length) {a b : ℕ} (h : a < b) : beAcc a l < beAcc b l' := by
  rw [beAcc_eq, beAcc_eq, ← hl]
  have h1 := bitsVal_lt l.reverse
  rw [List.length_reverse] at h1
  have h2 := Nat.mul_le_mul_right (2 ^ l.length) (show a + 1 ≤ b from h)
  rw [Nat.add_mul] at h2
  omega

theorem beAcc_append (l l' : List Bool) (a : ℕ) : beAcc a (l ++ l') = beAcc (beAcc a l) l' := by
  induction l generalizing a with
  | nil => rfl
  | cons b bs ih => exact ih _

end Bellman
