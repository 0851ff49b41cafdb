import Mathlib.Data.List.Basic

/-!
# `[T]::chunks` of the Rust standard library
-/

namespace Bellman

/-- The chunks of a list for a positive chunk size, by recursion on fuel (`l.length` suffices). -/
def chunksAux {α : Type} (n : ℕ) : ℕ → List α → List (List α)
  | 0, _ => []
  | _ + 1, [] => []
  | fuel + 1, x :: xs => (x :: xs).take n :: chunksAux n fuel ((x :: xs).drop n)

/-- `slice::chunks(n)` / `slice::chunks_mut(n)` of std: consecutive pieces of `n` elements, the last one possibly
shorter; panics (`none`) for `n = 0`.  Used at src/gadgets/multipack.rs:16,56, src/gadgets/sha256.rs:69,94,
src/gadgets/blake2s.rs:337-339, src/domain.rs:91,103,… and groth16/src/generator.rs. -/
def chunks? {α : Type} (n : ℕ) (l : List α) : Option (List (List α)) :=
  if n = 0 then none else some (chunksAux n l.length l)

variable {α : Type}

theorem chunksAux_flatten (n : ℕ) (hn : 0 < n) (fuel : ℕ) (l : List α) (h : l.length ≤ fuel) :
    (chunksAux n fuel l).flatten = l := by
  induction fuel generalizing l with
  | zero =>
    have : l = [] := List.length_eq_zero_iff.1 (by omega)
    subst this; rfl
  | succ f ih =>
    cases l with
    | nil => rfl
    | cons x xs =>
      simp only [chunksAux, List.flatten_cons]
      rw [ih _ (by simp at h ⊢; omega), List.take_append_drop]

theorem chunksAux_length_le (n : ℕ) (fuel : ℕ) (l c : List α) (h : c ∈ chunksAux n fuel l) : c.length ≤ n := by
  induction fuel generalizing l with
  | zero => simp [chunksAux] at h
  | succ f ih =>
    cases l with
    | nil => simp [chunksAux] at h
    | cons x xs =>
      simp only [chunksAux, List.mem_cons] at h
      rcases h with rfl | h
      · simp only [List.length_take]; omega
      · exact ih _ h

theorem chunksAux_map {β : Type} (n : ℕ) (f : α → β) (fuel : ℕ) (l : List α) :
    chunksAux n fuel (l.map f) = (chunksAux n fuel l).map (List.map f) := by
  induction fuel generalizing l with
  | zero => rfl
  | succ k ih =>
    cases l with
    | nil => rfl
    | cons x xs =>
      simp only [chunksAux, List.map_cons]
      rw [← List.map_cons, ← List.map_take, ← List.map_drop, ih]

theorem chunks?_map {β : Type} (n : ℕ) (f : α → β) (l : List α) :
    chunks? n (l.map f) = (chunks? n l).map (List.map (List.map f)) := by
  unfold chunks?
  split
  · rfl
  · simp [chunksAux_map]

end Bellman
