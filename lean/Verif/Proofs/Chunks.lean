import Verif.Chunks
import Mathlib.Tactic.Ring

/-!
# The chunks of a list, by position
-/

namespace Bellman

variable {α : Type}

theorem chunksAux_eq' (n : ℕ) (hn : 0 < n) (fuel : ℕ) (l : List α) (hf : l.length ≤ fuel) :
    chunksAux n fuel l = (List.range ((l.length + (n - 1)) / n)).map fun t => (l.drop (n * t)).take n := by
  induction fuel generalizing l with
  | zero =>
    have h0 : l = [] := List.length_eq_zero_iff.1 (by omega)
    subst h0
    have : (([] : List α).length + (n - 1)) / n = 0 := Nat.div_eq_of_lt (by simp; omega)
    rw [this]; rfl
  | succ fuel ih =>
    cases l with
    | nil =>
      have : (([] : List α).length + (n - 1)) / n = 0 := Nat.div_eq_of_lt (by simp; omega)
      rw [this]; rfl
    | cons x xs =>
      have hc : ((x :: xs).length + (n - 1)) / n = ((((x :: xs).drop n).length + (n - 1)) / n) + 1 := by
        rw [List.length_drop]
        generalize hL : (x :: xs).length = L
        have hL0 : 0 < L := by rw [← hL]; simp
        rcases Nat.lt_or_ge L n with h | h
        · rw [Nat.sub_eq_zero_of_le h.le, Nat.zero_add, Nat.div_eq_of_lt (by omega : n - 1 < n)]
          rw [Nat.div_eq_iff hn]; omega
        · have : L + (n - 1) = (L - n + (n - 1)) + n := by omega
          rw [this, Nat.add_div_right _ hn]
      rw [chunksAux, ih _ (by rw [List.length_drop]; omega), hc, List.range_succ_eq_map, List.map_cons, List.map_map]
      congr 1
      apply List.map_congr_left
      intro t _
      simp only [Function.comp, List.drop_drop]
      congr 2
      rw [Nat.mul_succ]; ring

end Bellman
