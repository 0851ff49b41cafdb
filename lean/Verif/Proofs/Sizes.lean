import Verif.Spec.Size
import Verif.Proofs.Cost
import Verif.Proofs.Num
import Mathlib.Data.Nat.Digits.Defs

/-!
# Exact sizes of the gadgets on bits of numbers, for C82
-/

namespace Bellman.Cost

open PrimeField List AllocatedNum

set_option linter.unusedSectionVars false

variable {F : Type} [PrimeField F] {α : Type}

theorem exactly_le {m : Synth F α} {g e g' e' : ℕ} {Q : α → Prop} (h : Exactly m g e Q) (hg : g = g') (he : e = e') : Exactly m g' e' Q := by
  subst hg he; exact h

theorem exactly_error {e : SynthesisError} {g k : ℕ} {Q : α → Prop} : Exactly (throw e : Synth F α) g k Q := by
  intro t r he
  cases he

theorem exactly_enforce {s : String} {a b c : LC F → LC F} : Exactly (Synth.enforce s a b c) 0 1 fun _ => True := by
  intro t r he
  rcases (show Exec (Circ.enforce _ _ _ _ _) _ _ from he) with _ | _ | _ | _ | _ | he
  cases he
  exact ⟨trivial, rfl, rfl⟩

theorem exactly_allocBits (i : ℕ) (l : List (Option Bool)) :
    Exactly (allocBits i l : Synth F _) l.length 0 fun r => r.length = l.length := by
  induction l generalizing i with
  | nil => exact Exactly.pure rfl
  | cons b bs ih =>
    rw [length_cons, Nat.add_comm]
    exact (Exactly.inNs _ (exactly_alloc b)).bind (e := 0) (e' := 0) fun x _ => (ih (i + 1)).map fun r hr => by simp [hr, Nat.add_comm]

theorem exactly_fieldBits {K : Type} [PrimeField K] (v : Option K) :
    Exactly (fieldIntoAllocatedBitsLe v : Synth F _) (NUM_BITS K) 0 fun r => r.length = NUM_BITS K := by
  unfold fieldIntoAllocatedBitsLe
  split
  · dsimp only
    split
    · rename_i h
      have := exactly_allocBits (F := F) 0 ((skipLeading false ((toLeBits ‹K›).reverse.zip (charLeBits K).reverse)).map some).reverse
      rwa [length_reverse, length_map, h] at this
    · exact Exactly.panic
  · have := exactly_allocBits (F := F) 0 (replicate (NUM_BITS K) (none : Option Bool)).reverse
    rwa [length_reverse, length_replicate] at this

theorem exactly_allocConditionally (v : Option Bool) (c : AllocatedBit) :
    Exactly (AllocatedBit.allocConditionally v c : Synth F _) 1 0 fun _ => True := Exactly.gate fun _ => trivial

theorem exactly_karyAndLoop (cur : AllocatedBit) (i : ℕ) (l : List AllocatedBit) :
    Exactly (karyAndLoop cur i l : Synth F _) l.length 0 fun _ => True := by
  induction l generalizing cur i with
  | nil => exact Exactly.pure trivial
  | cons b bs ih =>
    rw [length_cons, Nat.add_comm]
    exact (Exactly.inNs _ (exactly_and cur b)).bind (e := 0) (e' := 0) fun x _ => ih x (i + 1)

theorem exactly_karyAnd (l : List AllocatedBit) : Exactly (karyAnd l : Synth F _) (l.length - 1) 0 fun _ => True := by
  cases l with
  | nil => exact Exactly.panic
  | cons b bs => exact exactly_karyAndLoop b 1 bs

/-- The gates of one step. -/
def stepCount (last : Bool) (cur : ℕ) (b : Bool) : ℕ :=
  if b then 1 else (if cur = 0 then 0 else cur + last.toNat - 1) + 1

theorem exactly_strictStep (a : Option Bool) (b : Bool) (st : StrictSt) :
    Exactly (strictStep a b st : Synth F _) (stepCount st.lastRun.isSome st.currentRun.length b) 0 fun s =>
      s.currentRun.length = (if b then st.currentRun.length + 1 else 0) ∧ s.lastRun.isSome = (if b then st.lastRun.isSome else true) ∧
      s.result.length = st.result.length + 1 ∧ s.foundOne = st.foundOne := by
  unfold strictStep stepCount
  cases b with
  | true =>
    simp only [if_true]
    exact (Exactly.inNs _ (exactly_alloc a)).map fun x _ => by simp
  | false =>
    simp only [Bool.false_eq_true, if_false]
    refine Exactly.bind (e := 0) (e' := 0) (Q := fun s => s.currentRun = [] ∧ s.result = st.result ∧ s.foundOne = st.foundOne) ?_ fun s hs => ?_
    · by_cases h : st.currentRun.length = 0
      · rw [if_pos h, if_pos (by simpa using h)]
        exact Exactly.pure ⟨List.length_eq_zero_iff.1 h, rfl, rfl⟩
      · rw [if_neg h, if_neg (by simpa using h)]
        refine (Exactly.inNs _ (exactly_le (exactly_karyAnd _) ?_ rfl)).map fun l _ => ⟨rfl, rfl, rfl⟩
        cases st.lastRun <;> simp
    · split
      · exact Exactly.panic
      · rename_i l hl
        exact (Exactly.inNs _ (exactly_allocConditionally a l)).map fun x _ => by simp [hs.1, hs.2.1, hs.2.2, hl]

/-- The gates of the loop once a one has been found. -/
def loopCount : Bool → ℕ → List Bool → ℕ
  | _, _, [] => 0
  | last, cur, b :: bs => stepCount last cur b + loopCount (if b then last else true) (if b then cur + 1 else 0) bs

theorem exactly_strictLoop (l : List (Option Bool × Bool)) (st : StrictSt) (hf : st.foundOne = true) :
    Exactly (strictLoop l st : Synth F _) (loopCount st.lastRun.isSome st.currentRun.length (l.map Prod.snd)) 0 fun s =>
      s.result.length = st.result.length + l.length := by
  induction l generalizing st with
  | nil => exact Exactly.pure rfl
  | cons x l ih =>
    obtain ⟨a, b⟩ := x
    unfold strictLoop
    dsimp only
    rw [hf, Bool.true_or, if_pos rfl]
    refine Exactly.bind (e := 0) (e' := 0) (exactly_strictStep a b _) fun s hs => ?_
    have := ih s hs.2.2.2
    rw [hs.1, hs.2.1] at this
    exact this.mono fun r hr => by rw [hr, hs.2.2.1, length_cons]; exact Nat.add_right_comm _ _ _

/-- The loop of `to_bits_le_strict` skips leading zeros. -/
theorem exactly_strictSkip (l : List (Option Bool × Bool)) :
    Exactly (strictLoop l ⟨[], none, [], false, 0⟩ : Synth F _)
      (loopCount false 0 ((l.dropWhile fun a => !a.2).map Prod.snd)) 0 fun s => s.result.length = (l.dropWhile fun a => !a.2).length := by
  induction l with
  | nil => exact Exactly.pure rfl
  | cons x l ih =>
    obtain ⟨a, b⟩ := x
    cases b
    · rw [strictLoop]
      simp only [Bool.false_or, Bool.false_eq_true, if_false]
      split
      · exact Exactly.panic
      · simpa using ih
    · have := exactly_strictLoop (F := F) ((a, true) :: l) ⟨[], none, [], true, 0⟩ rfl
      simpa [strictLoop] using this

theorem loopCount_eq (last : Bool) (cur : ℕ) (bs : List Bool) (h : bs.getLast? = some false ∨ bs = [] ∧ cur = 0)
    (hc : last = true ∨ 0 < cur ∨ bs.head? = some true) :
    loopCount last cur bs + (if last then 0 else 1) = bs.length + cur + bs.count true := by
  induction bs generalizing last cur with
  | nil =>
    rcases h with h | ⟨-, rfl⟩
    · simp at h
    · rcases hc with rfl | h | h
      · rfl
      · omega
      · simp at h
  | cons b bs ih =>
    have hb : bs.getLast? = some false ∨ b = false ∧ bs = [] := by
      rcases h with h | h
      · rw [getLast?_cons] at h
        cases hx : bs.getLast? with
        | none =>
          rw [hx] at h
          exact .inr ⟨by simpa using h, by simpa using hx⟩
        | some y => rw [hx] at h; exact .inl (by simpa using h)
      · simp at h
    unfold loopCount stepCount
    cases b with
    | true =>
      have := ih last (cur + 1) (hb.imp_right fun h => by cases h.1) (.inr (.inl (Nat.succ_pos _)))
      simp only [if_true, length_cons, count_cons_self]
      omega
    | false =>
      have := ih true 0 (hb.imp_right fun h => ⟨h.2, rfl⟩) (.inl rfl)
      simp only [Bool.false_eq_true, if_false, if_true, length_cons, head?_cons, Option.some.injEq, or_false] at this hc ⊢
      rw [count_cons_of_ne (by simp)]
      cases last <;> simp only [Bool.toNat_true, Bool.toNat_false, Bool.false_eq_true, if_false, if_true, false_or] at hc ⊢
      · rw [if_neg (by omega)]; omega
      · split <;> omega

theorem count_bits (n m : ℕ) (h : m < 2 ^ n) : ((range n).map fun i => m.testBit i).count true = (Nat.digits 2 m).sum := by
  induction n generalizing m with
  | zero =>
    obtain rfl : m = 0 := by simpa using h
    simp
  | succ n ih =>
    rw [range_succ_eq_map, map_cons, map_map, count_cons]
    have := ih (m / 2) (by rw [pow_succ] at h; omega)
    rw [show ((fun i => m.testBit i) ∘ Nat.succ) = fun i => (m / 2).testBit i from funext fun i => by
      simp [Nat.testBit_succ], this]
    rcases Nat.eq_zero_or_pos m with rfl | hm
    · simp
    · rw [Nat.digits_def' (by norm_num) hm, sum_cons, Nat.add_comm]
      congr 1
      rw [Nat.testBit_zero]
      rcases Nat.mod_two_eq_zero_or_one m with h | h <;> simp [h]

theorem exactly_toBitsLe (a : AllocatedNum F) :
    Exactly a.toBitsLe (NUM_BITS F) 1 fun r => NoConstants r ∧ r.length = NUM_BITS F := by
  unfold toBitsLe
  refine exactly_le ((exactly_fieldBits (F := F) a.value).bind (g' := 0) (e' := 1) fun bits hb => ?_) rfl (Nat.zero_add 1)
  refine (exactly_enforce (F := F)).bind (g := 0) (e := 1) (g' := 0) (e' := 0) fun _ _ => Exactly.pure ⟨?_, by simp [hb]⟩
  intro b hb
  obtain ⟨x, -, rfl⟩ := mem_map.1 hb
  rfl

theorem exactly_toBitsLeStrict (a : AllocatedNum F) :
    Exactly a.toBitsLeStrict (NUM_BITS F + (Nat.digits 2 (p F - 1)).sum - 1) 1 fun r => NoConstants r ∧ r.length = NUM_BITS F := by
  have hN : 0 < NUM_BITS F := by have := capacity_lt (F := F); omega
  unfold toBitsLeStrict
  dsimp only
  rw [strict_pairs]
  have h := exactly_strictSkip (F := F) (((List.range (REPR_BITS F)).map fun i => a.value.map fun x => (val x).testBit i).reverse.zip
      ((List.range (REPR_BITS F)).map fun i => (p F - 1).testBit i).reverse)
  rw [dropWhile_range _ _ (NUM_BITS F) _ hN NUM_BITS_le pm1_testBit_top
    (fun i hi => Nat.testBit_lt_two_pow (lt_of_lt_of_le pm1_lt (Nat.pow_le_pow_right (by norm_num) hi))),
    map_snd_zip (by simp)] at h
  have hcount : loopCount false 0 ((range (NUM_BITS F)).map fun i => (p F - 1).testBit i).reverse =
      NUM_BITS F + (Nat.digits 2 (p F - 1)).sum - 1 := by
    obtain ⟨k, hk⟩ : ∃ k, NUM_BITS F = k + 1 := ⟨NUM_BITS F - 1, by omega⟩
    have := loopCount_eq false 0 ((range (NUM_BITS F)).map fun i => (p F - 1).testBit i).reverse
      (.inl (by rw [getLast?_reverse, hk, range_succ_eq_map, map_cons, head?_cons, pm1_even]))
      (.inr (.inr (by rw [head?_reverse, hk, range_succ, map_append, map_singleton, getLast?_concat]; congr 1
                      have := pm1_testBit_top (F := F); rwa [hk] at this)))
    rw [count_reverse, count_bits _ _ pm1_lt, length_reverse, length_map, length_range] at this
    simp only [Bool.false_eq_true, if_false] at this
    omega
  rw [hcount] at h
  refine exactly_le (h.bind (g' := 0) (e' := 1) fun st hst => ?_) rfl (Nat.zero_add 1)
  split
  · refine (exactly_enforce (F := F)).bind (g := 0) (e := 1) (g' := 0) (e' := 0) fun _ _ => Exactly.pure ⟨?_, ?_⟩
    · intro b hb
      obtain ⟨x, -, rfl⟩ := mem_map.1 (mem_reverse.1 hb)
      rfl
    · rw [length_reverse, length_map, hst]
      simp
  · exact Exactly.panic

end Bellman.Cost
