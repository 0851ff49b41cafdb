import Verif.Proofs.Lookup
import Verif.Examples.GadgetTests
import Mathlib.Data.Nat.Bitwise
import Mathlib.Algebra.BigOperators.Group.List.Basic

/-! The Moebius-like inversion that `synth` computes, for windows of any size, and `test_synth`. -/

namespace Bellman
open PrimeField
variable {F : Type} [PrimeField F]

/-- Sum of the first `n` entries whose index has only bits of `b`. -/
def maskSum (a : List F) (b n : ℕ) : F := (((List.range n).filter fun j => j &&& b = j).map fun j => a.getD j 0).sum

theorem maskSum_succ (a : List F) (b n : ℕ) : maskSum a b (n + 1) = maskSum a b n + if n &&& b = n then a.getD n 0 else 0 := by
  unfold maskSum
  rw [List.range_succ, List.filter_append, List.map_append, List.sum_append]
  congr 1
  by_cases h : n &&& b = n <;> simp [h]

theorem maskSum_stop (a : List F) {b n : ℕ} (h : b < n) : maskSum a b n = maskSum a b (b + 1) := by
  induction n with
  | zero => omega
  | succ n ih =>
    rcases Nat.lt_succ_iff_lt_or_eq.1 h with h' | rfl
    · rw [maskSum_succ, if_neg, add_zero, ih h']
      intro e
      have : n &&& b ≤ b := Nat.and_le_right
      omega
    · rfl

theorem maskSum_congr {a a' : List F} {b n : ℕ} (h : ∀ j < n, a.getD j 0 = a'.getD j 0) : maskSum a b n = maskSum a' b n := by
  unfold maskSum
  refine congrArg _ (List.map_congr_left fun j hj => h j ?_)
  simpa using (List.mem_filter.1 hj).1

theorem synthLoop_spec {i : ℕ} (cs : List F) (a : List F) (hl : i + cs.length ≤ a.length)
    (ha : ∀ j, i ≤ j → j < a.length → a.getD j 0 = maskSum a j i) :
    ∃ a', synthLoop i cs a = some a' ∧ a'.length = a.length ∧ (∀ j < i, a'.getD j 0 = a.getD j 0) ∧
      ∀ b c, cs[b]? = some c → maskSum a' (i + b) (i + b + 1) = c := by
  induction cs generalizing i a with
  | nil => exact ⟨a, rfl, rfl, fun _ _ => rfl, by simp⟩
  | cons c cs ih =>
    simp only [List.length_cons] at hl
    have hi : i < a.length := by omega
    set cur := -a[i] + c with hcur
    set a1 := a.mapIdx fun j e => if j = i then cur else if i + 1 ≤ j ∧ j &&& i = i then e + cur else e with ha1
    have hlen : a1.length = a.length := by simp [ha1]
    have hget : ∀ j, a1.getD j 0 = if j < a.length then (if j = i then cur else if i + 1 ≤ j ∧ j &&& i = i then a.getD j 0 + cur else a.getD j 0) else 0 := by
      intro j
      by_cases hj : j < a.length
      · simp only [hj, if_true]
        simp [List.getD_eq_getElem?_getD, ha1, hj]
      · rw [if_neg hj, List.getD_eq_default _ _ (by omega)]
    have hlt : ∀ j < i, a1.getD j 0 = a.getD j 0 := by
      intro j hj
      rw [hget, if_pos (by omega), if_neg (by omega), if_neg (by omega)]
    have hcurD : cur = c - maskSum a i i := by
      rw [← ha i le_rfl hi, hcur, List.getD_eq_getElem _ _ hi]; ring
    have hstep : ∀ b, maskSum a1 b (i + 1) = maskSum a b i + if i &&& b = i then cur else 0 := by
      intro b
      rw [maskSum_succ, maskSum_congr hlt, hget, if_pos hi, if_pos rfl]
    obtain ⟨a', h1, h2, h3, h4⟩ := ih (i := i + 1) a1 (by omega) (by
      intro j hj hj'
      rw [hlen] at hj'
      rw [hstep, hget, if_pos hj', if_neg (by omega), ha j (by omega) hj', Nat.land_comm]
      by_cases hb : i &&& j = i <;> simp [hb, hj])
    refine ⟨a', ?_, h2.trans hlen, fun j hj => (h3 j (by omega)).trans (hlt j hj), fun b d hd => ?_⟩
    · simp only [synthLoop, List.getElem?_eq_getElem hi]
      exact h1
    · cases b with
      | zero =>
        simp only [List.getElem?_cons_zero, Option.some.injEq] at hd
        subst hd
        rw [Nat.add_zero, maskSum_congr (a' := a1) (fun j hj => h3 j hj), hstep, if_pos (by simp), hcurD]
        ring
      | succ b =>
        have := h4 b d (by simpa using hd)
        rwa [show i + 1 + b = i + (b + 1) by omega] at this

theorem synthLoop_none {i : ℕ} (cs : List F) (a : List F) (hi : i ≤ a.length) (hl : a.length < i + cs.length) : synthLoop i cs a = none := by
  induction cs generalizing i a with
  | nil => simp at hl; omega
  | cons c cs ih =>
    simp only [List.length_cons] at hl
    unfold synthLoop
    cases h : a[i]? with
    | none => rfl
    | some x =>
      have : i < a.length := (List.getElem?_eq_some_iff.1 h).1
      exact ih _ (by simp; omega) (by simp; omega)

theorem synth_spec (w : ℕ) (cs : List F) (h : cs.length ≤ 2 ^ w) :
    ∃ a, synth w cs (List.replicate (2 ^ w) 0) = some a ∧ a.length = 2 ^ w ∧ ∀ b c, cs[b]? = some c → maskSum a b (2 ^ w) = c := by
  obtain ⟨a, h1, h2, -, h4⟩ := synthLoop_spec (i := 0) cs (List.replicate (2 ^ w) 0) (by simpa using h) (by
    intro j _ hj
    simp [maskSum])
  refine ⟨a, ?_, by simpa using h2, fun b c hc => ?_⟩
  · rw [synth, if_pos (by simp), h1]
  · have hb := (List.getElem?_eq_some_iff.1 hc).1
    rw [maskSum_stop a (show b < 2 ^ w by omega)]
    simpa using h4 b c hc

theorem synth_none (w : ℕ) (cs : List F) (h : 2 ^ w < cs.length) : synth w cs (List.replicate (2 ^ w) 0) = none := by
  rw [synth, if_pos (by simp), synthLoop_none _ _ (by simp) (by simpa using h)]

theorem GadgetTests.synthAcc_eq (b : ℕ) (acc : F) (j : ℕ) (pre l : List F) (hj : pre.length = j) (hacc : acc = maskSum (pre ++ l) b j) :
    GadgetTests.synthAcc b acc j l = maskSum (pre ++ l) b (pre ++ l).length := by
  induction l generalizing acc j pre with
  | nil => simp [GadgetTests.synthAcc, hacc, hj]
  | cons x l ih =>
    unfold GadgetTests.synthAcc
    rw [ih _ _ (pre ++ [x]) (by simp [hj])]
    · simp
    · rw [List.append_assoc, List.singleton_append, maskSum_succ, ← hacc]
      have : (pre ++ x :: l).getD j 0 = x := by simp [List.getD_eq_getElem?_getD, ← hj]
      rw [this]
      split <;> simp

theorem forM_all {α : Type} (l : List α) (f : α → Option Unit) (h : ∀ a ∈ l, f a = some ()) : l.forM f = some () := by
  induction l with
  | nil => rfl
  | cons a l ih =>
    change (f a >>= fun _ => l.forM f) = _
    rw [h a (by simp)]
    exact ih fun a ha => h a (by simp [ha])

theorem GadgetTests.synthTest_passes (w : ℕ) (cs : List F) : synthTest w cs = some () ↔ cs.length ≤ 2 ^ w := by
  constructor
  · intro h
    by_contra hc
    rw [synthTest, synth_none w cs (by omega)] at h
    exact absurd h (by simp)
  · intro h
    obtain ⟨a, h1, h2, h3⟩ := synth_spec w cs h
    rw [synthTest, h1]
    refine forM_all _ _ fun p hp => if_pos ?_
    rw [synthAcc_eq p.2 0 0 [] a rfl (by simp [maskSum])]
    simp only [List.nil_append, h2]
    refine h3 _ _ ?_
    have := List.mem_zipIdx_iff_getElem?.1 hp
    simpa using this
end Bellman
