import Verif.Spec.Sha256
import Verif.Spec.Blake2s
import Mathlib.Tactic.Ring

/-! Evaluation of the specifications of the hash functions by the kernel: the recursion for `W` is turned into a sliding window, and
`force` makes the kernel evaluate each word once. -/

namespace Bellman.KnownAnswer
open Spec.Sha256

def force {α : Type} (w : W32) (k : W32 → α) : α :=
  Nat.rec (k (BitVec.ofNat 32 0)) (fun n _ => k (BitVec.ofNat 32 (n + 1))) w.toNat

theorem force_eq {α : Type} (w : W32) (k : W32 → α) : force w k = k w := by
  have : ∀ n : ℕ, (Nat.rec (k (BitVec.ofNat 32 0)) (fun n _ => k (BitVec.ofNat 32 (n + 1))) n : α) = k (BitVec.ofNat 32 n) := by
    intro n; cases n <;> rfl
  rw [force, this, BitVec.ofNat_toNat, BitVec.setWidth_eq]

def window (n : ℕ) (t : ℕ) (w : List W32) (s : State) : State :=
  match n with
  | 0 => s
  | n + 1 =>
    force (round (K.getD t 0) (w.getD 0 0) s).a fun a =>
    force (round (K.getD t 0) (w.getD 0 0) s).e fun e =>
    force (s1 (w.getD 14 0) + w.getD 9 0 + s0 (w.getD 1 0) + w.getD 0 0) fun x =>
      window n (t + 1) (w.tail ++ [x]) ⟨a, s.a, s.b, s.c, e, s.e, s.f, s.g⟩

theorem window_eq (M : ℕ → W32) (s : State) (n t : ℕ) :
    window n t ((List.range 16).map fun i => W M (t + i)) (rounds M s t) = rounds M s (t + n) := by
  induction n generalizing t with
  | zero => rfl
  | succ n ih =>
    rw [window, force_eq, force_eq, force_eq]
    have hW : s1 (W M (t + 14)) + W M (t + 9) + s0 (W M (t + 1)) + W M t = W M (t + 16) := by
      rw [W.eq_1 M (t + 16), if_neg (by omega)]; rfl
    have e : ((List.range 16).map fun i => W M (t + i)).tail ++ [s1 (((List.range 16).map fun i => W M (t + i)).getD 14 0)
        + ((List.range 16).map fun i => W M (t + i)).getD 9 0 + s0 (((List.range 16).map fun i => W M (t + i)).getD 1 0)
        + ((List.range 16).map fun i => W M (t + i)).getD 0 0] = (List.range 16).map fun i => W M (t + 1 + i) := by
      show _ ++ [s1 (W M (t + 14)) + W M (t + 9) + s0 (W M (t + 1)) + W M t] = _
      rw [hW]
      simp [List.range_succ, Nat.add_comm, Nat.add_left_comm]
    rw [e]
    have := ih (t + 1)
    rw [show t + 1 + n = t + (n + 1) by omega] at this
    rw [← this]
    rfl

theorem compress_window (H : State) (M : ℕ → W32) :
    compress H M = (window 64 0 ((List.range 16).map M) H).add H := by
  have h := window_eq M H 64 0
  have e : ((List.range 16).map fun i => W M (0 + i)) = (List.range 16).map M := by
    apply List.map_congr_left
    intro i hi
    rw [Nat.zero_add, W.eq_1, if_pos (List.mem_range.1 hi)]
  rw [e] at h
  rw [compress]
  exact congrArg (State.add · H) h.symm

end Bellman.KnownAnswer

namespace Bellman.KnownAnswer
open Spec.Blake2s

/-- Evaluates the words of a list. -/
def forceL {α : Type} : List W32 → (List W32 → α) → α
  | [], k => k []
  | w :: l, k => force w fun w => forceL l fun l => k (w :: l)

theorem forceL_eq {α : Type} (l : List W32) (k : List W32 → α) : forceL l k = k l := by
  induction l generalizing k with
  | nil => rfl
  | cons w l ih => rw [forceL, force_eq, ih]

/-- `G` on four words. -/
def G4 {α : Type} (a b c d x y : W32) (k : W32 → W32 → W32 → W32 → α) : α :=
  force (a + b + x) fun a =>
  force ((d ^^^ a).rotateRight 16) fun d =>
  force (c + d) fun c =>
  force ((b ^^^ c).rotateRight 12) fun b =>
  force (a + b + y) fun a =>
  force ((d ^^^ a).rotateRight 8) fun d =>
  force (c + d) fun c =>
  force ((b ^^^ c).rotateRight 7) fun b => k a b c d

section
variable (v0 v1 v2 v3 v4 v5 v6 v7 v8 v9 v10 v11 v12 v13 v14 v15 x y : W32)

theorem G_0 : G [v0, v1, v2, v3, v4, v5, v6, v7, v8, v9, v10, v11, v12, v13, v14, v15] 0 4 8 12 x y =
    G4 v0 v4 v8 v12 x y fun a b c d => [a, v1, v2, v3, b, v5, v6, v7, c, v9, v10, v11, d, v13, v14, v15] := by
  simp only [G4, force_eq]
  rfl

theorem G_1 : G [v0, v1, v2, v3, v4, v5, v6, v7, v8, v9, v10, v11, v12, v13, v14, v15] 1 5 9 13 x y =
    G4 v1 v5 v9 v13 x y fun a b c d => [v0, a, v2, v3, v4, b, v6, v7, v8, c, v10, v11, v12, d, v14, v15] := by
  simp only [G4, force_eq]
  rfl

theorem G_2 : G [v0, v1, v2, v3, v4, v5, v6, v7, v8, v9, v10, v11, v12, v13, v14, v15] 2 6 10 14 x y =
    G4 v2 v6 v10 v14 x y fun a b c d => [v0, v1, a, v3, v4, v5, b, v7, v8, v9, c, v11, v12, v13, d, v15] := by
  simp only [G4, force_eq]
  rfl

theorem G_3 : G [v0, v1, v2, v3, v4, v5, v6, v7, v8, v9, v10, v11, v12, v13, v14, v15] 3 7 11 15 x y =
    G4 v3 v7 v11 v15 x y fun a b c d => [v0, v1, v2, a, v4, v5, v6, b, v8, v9, v10, c, v12, v13, v14, d] := by
  simp only [G4, force_eq]
  rfl

theorem G_4 : G [v0, v1, v2, v3, v4, v5, v6, v7, v8, v9, v10, v11, v12, v13, v14, v15] 0 5 10 15 x y =
    G4 v0 v5 v10 v15 x y fun a b c d => [a, v1, v2, v3, v4, b, v6, v7, v8, v9, c, v11, v12, v13, v14, d] := by
  simp only [G4, force_eq]
  rfl

theorem G_5 : G [v0, v1, v2, v3, v4, v5, v6, v7, v8, v9, v10, v11, v12, v13, v14, v15] 1 6 11 12 x y =
    G4 v1 v6 v11 v12 x y fun a b c d => [v0, a, v2, v3, v4, v5, b, v7, v8, v9, v10, c, d, v13, v14, v15] := by
  simp only [G4, force_eq]
  rfl

theorem G_6 : G [v0, v1, v2, v3, v4, v5, v6, v7, v8, v9, v10, v11, v12, v13, v14, v15] 2 7 8 13 x y =
    G4 v2 v7 v8 v13 x y fun a b c d => [v0, v1, a, v3, v4, v5, v6, b, c, v9, v10, v11, v12, d, v14, v15] := by
  simp only [G4, force_eq]
  rfl

theorem G_7 : G [v0, v1, v2, v3, v4, v5, v6, v7, v8, v9, v10, v11, v12, v13, v14, v15] 3 4 9 14 x y =
    G4 v3 v4 v9 v14 x y fun a b c d => [v0, v1, v2, a, b, v5, v6, v7, v8, c, v10, v11, v12, v13, d, v15] := by
  simp only [G4, force_eq]
  rfl

end

theorem apply_G4 {α β : Type} (f : α → β) (a b c d x y : W32) (k : W32 → W32 → W32 → W32 → α) :
    f (G4 a b c d x y k) = G4 a b c d x y fun a b c d => f (k a b c d) := by
  simp only [G4, force_eq]

/-- One round on sixteen words. -/
def round16 (m : List W32) (i : ℕ) : List W32 → List W32
  | [v0, v1, v2, v3, v4, v5, v6, v7, v8, v9, v10, v11, v12, v13, v14, v15] =>
    let s := SIGMA.getD (i % 10) []
    let w := fun j => m.getD (s.getD j 0) 0
    G4 v0 v4 v8 v12 (w 0) (w 1) fun v0 v4 v8 v12 =>
    G4 v1 v5 v9 v13 (w 2) (w 3) fun v1 v5 v9 v13 =>
    G4 v2 v6 v10 v14 (w 4) (w 5) fun v2 v6 v10 v14 =>
    G4 v3 v7 v11 v15 (w 6) (w 7) fun v3 v7 v11 v15 =>
    G4 v0 v5 v10 v15 (w 8) (w 9) fun v0 v5 v10 v15 =>
    G4 v1 v6 v11 v12 (w 10) (w 11) fun v1 v6 v11 v12 =>
    G4 v2 v7 v8 v13 (w 12) (w 13) fun v2 v7 v8 v13 =>
    G4 v3 v4 v9 v14 (w 14) (w 15) fun v3 v4 v9 v14 =>
    [v0, v1, v2, v3, v4, v5, v6, v7, v8, v9, v10, v11, v12, v13, v14, v15]
  | v => round m i v

theorem round16_eq (m : List W32) (i : ℕ) (v : List W32) : round16 m i v = round m i v := by
  unfold round16
  split
  · symm
    dsimp only
    rw [round]
    dsimp only
    rw [G_0, apply_G4 (fun v => G (G (G (G (G (G (G v _ _ _ _ _ _) _ _ _ _ _ _) _ _ _ _ _ _) _ _ _ _ _ _) _ _ _ _ _ _) _ _ _ _ _ _) _ _ _ _ _ _)]
    simp only [G4, force_eq, G_1, G_2, G_3, G_4, G_5, G_6, G_7]
  · rfl

/-- `n` rounds from number `i` on. -/
def roundsFrom (m : List W32) (i : ℕ) : ℕ → List W32 → List W32
  | 0, v => v
  | n + 1, v => roundsFrom m (i + 1) n (round16 m i v)

theorem roundsFrom_eq (m v : List W32) (i n : ℕ) : roundsFrom m i n (rounds m v i) = rounds m v (i + n) := by
  induction n generalizing i with
  | zero => rfl
  | succ n ih =>
    rw [roundsFrom, round16_eq]
    have := ih (i + 1)
    rw [show i + (n + 1) = i + 1 + n by omega, ← this]
    rfl

/-- The compression function. -/
def compress' (h m : List W32) (t : ℕ) (last : Bool) : List W32 :=
  forceL m fun m => forceL h fun h => forceL (initial h t last) fun v =>
    let v := roundsFrom m 0 10 v
    forceL ((List.range 8).map fun i => h.getD i 0 ^^^ v.getD i 0 ^^^ v.getD (i + 8) 0) id

theorem compress_eq (h m : List W32) (t : ℕ) (last : Bool) : compress h m t last = compress' h m t last := by
  rw [compress', forceL_eq, forceL_eq, forceL_eq, forceL_eq, compress]
  have := roundsFrom_eq m (initial h t last) 0 10
  rw [Nat.zero_add] at this
  rw [← this]
  rfl

/-- The first `n` words of a message. -/
def words : ℕ → List (BitVec 8) → List W32
  | 0, _ => []
  | n + 1, l => (l.getD 3 0 ++ l.getD 2 0 ++ l.getD 1 0 ++ l.getD 0 0) :: words n (l.drop 4)

theorem words_eq (n k : ℕ) (msg : List (BitVec 8)) : words n (msg.drop (4 * k)) = (List.range n).map fun j => wordAt msg (k + j) := by
  induction n generalizing k with
  | zero => rfl
  | succ n ih =>
    rw [words, List.drop_drop, show 4 * k + 4 = 4 * (k + 1) by ring, ih, List.range_succ_eq_map, List.map_cons, List.map_map]
    congr 1
    · simp [wordAt]
    · refine List.map_congr_left fun j _ => ?_
      simp only [Function.comp_apply]
      rw [show k + 1 + j = k + j.succ by omega]

theorem block_eq (msg : List (BitVec 8)) (i : ℕ) : block msg i = words 16 (msg.drop (64 * i)) := by
  have := words_eq 16 (16 * i) msg
  rw [show 4 * (16 * i) = 64 * i by ring] at this
  rw [this]
  rfl

/-- `n` blocks, the first having number `i`, and the last block. -/
def chainFrom (len i : ℕ) : ℕ → List (BitVec 8) → List W32 → List W32
  | 0, msg, h => compress' h (words 16 msg) len true
  | n + 1, msg, h => chainFrom len (i + 1) n (msg.drop 64) (compress' h (words 16 msg) ((i + 1) * 64) false)

theorem chainFrom_eq (msg : List (BitVec 8)) (h : List W32) (i n : ℕ) :
    chainFrom msg.length i n (msg.drop (64 * i)) (chain msg h i) = compress (chain msg h (i + n)) (block msg (i + n)) msg.length true := by
  induction n generalizing i with
  | zero => rw [chainFrom, compress_eq, block_eq]; rfl
  | succ n ih =>
    rw [chainFrom, ← compress_eq, ← block_eq, List.drop_drop]
    have := ih (i + 1)
    rw [show i + (n + 1) = i + 1 + n by omega, ← this]
    rfl

theorem blake2s_eq (pers msg : List (BitVec 8)) (n : ℕ) (hn : numBlocks msg.length = n + 1) :
    blake2s pers msg = (chainFrom msg.length 0 n msg (start pers)).flatMap leBytes := by
  have := chainFrom_eq msg (start pers) 0 n
  rw [Nat.zero_add] at this
  rw [blake2s, final, hn]
  exact congrArg (List.flatMap leBytes) this.symm

end Bellman.KnownAnswer
