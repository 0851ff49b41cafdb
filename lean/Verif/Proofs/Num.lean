import Verif.Proofs.Boolean
import Verif.Gadgets.Num
import Verif.Bits

/-!
# Lemmas about the number gadgets
-/

set_option linter.unusedSimpArgs false
set_option linter.unusedTactic false
set_option linter.unreachableTactic false
set_option linter.unusedSectionVars false
set_option linter.unusedVariables false
set_option linter.unnecessarySeqFocus false

namespace Bellman

open PrimeField

variable {F : Type} [PrimeField F] {ρ : Var → F}

theorem wpS_allocBits (h1 : ρ .one = 1) (i : ℕ) (vs : List (Option Bool)) :
    Synth.wpS ρ (allocBits i vs) fun o => ∃ xs, List.Forall₂ (AllocatedBit.Bit ρ) o xs ∧ o.length = vs.length := by
  induction vs generalizing i with
  | nil => exact ⟨[], .nil, rfl⟩
  | cons v vs ih =>
    rw [allocBits, Synth.wpS_bind, Synth.wpS_inNs]
    refine Synth.wpS_mono (AllocatedBit.wpS_alloc h1 v) fun o ⟨x, hx⟩ => ?_
    rw [Synth.wpS_bind]
    refine Synth.wpS_mono (ih (i + 1)) fun os ⟨xs, hxs, hl⟩ => ?_
    exact ⟨x :: xs, .cons hx hxs, by simp [hl]⟩

theorem wpC_allocBits (h1 : ρ .one = 1) (i : ℕ) (xs : List Bool) :
    Synth.wpC ρ (allocBits i (xs.map some)) fun o => List.Forall₂ (AllocatedBit.Has ρ) o xs := by
  induction xs generalizing i with
  | nil => exact .nil
  | cons v vs ih =>
    rw [List.map_cons, allocBits, Synth.wpC_bind, Synth.wpC_inNs]
    refine Synth.wpC_mono (AllocatedBit.wpC_alloc h1 v) fun o hx => ?_
    rw [Synth.wpC_bind]
    refine Synth.wpC_mono (ih (i + 1)) fun os hxs => ?_
    exact .cons hx hxs

theorem forall₂_is {o : List AllocatedBit} {xs : List Bool} (h : List.Forall₂ (AllocatedBit.Bit ρ) o xs) :
    List.Forall₂ (Boolean.Bit ρ) (o.map Boolean.is) xs := by
  rw [List.forall₂_map_left_iff]; exact h

theorem forall₂_has_is {o : List AllocatedBit} {xs : List Bool} (h : List.Forall₂ (AllocatedBit.Has ρ) o xs) :
    List.Forall₂ (Boolean.Has ρ) (o.map Boolean.is) xs := by
  rw [List.forall₂_map_left_iff]; exact h

theorem forall₂_bit_of_has {o : List AllocatedBit} {xs : List Bool} (h : List.Forall₂ (AllocatedBit.Has ρ) o xs) :
    List.Forall₂ (AllocatedBit.Bit ρ) o xs := h.imp fun _ _ h => h.2

theorem skipLeading_true (l : List (Bool × Bool)) : skipLeading true l = l.map Prod.fst := by
  induction l with
  | nil => rfl
  | cons a l ih => obtain ⟨b, c⟩ := a; simp [skipLeading, ih]

theorem skipLeading_range (f g : ℕ → Bool) (m n : ℕ) (hm : 0 < m) (hmn : m ≤ n) (h1 : g (m - 1) = true)
    (h0 : ∀ i, m ≤ i → g i = false) :
    skipLeading false (((List.range n).map f).reverse.zip ((List.range n).map g).reverse) =
      ((List.range m).map f).reverse := by
  induction n, hmn using Nat.le_induction with
  | base =>
    obtain ⟨k, rfl⟩ : ∃ k, m = k + 1 := ⟨m - 1, by omega⟩
    rw [List.range_succ]
    simp only [List.map_append, List.map_cons, List.map_nil, List.reverse_append, List.reverse_cons, List.reverse_nil,
      List.nil_append, List.singleton_append, List.zip_cons_cons, skipLeading]
    simp only [Nat.add_sub_cancel] at h1
    simp only [h1, Bool.or_true, if_true, skipLeading_true]
    congr 1
    rw [List.map_fst_zip]
    simp
  | succ n hn ih =>
    rw [List.range_succ]
    simp only [List.map_append, List.map_cons, List.map_nil, List.reverse_append, List.reverse_cons, List.reverse_nil,
      List.nil_append, List.singleton_append, List.zip_cons_cons, skipLeading]
    simp only [h0 n hn, Bool.or_false, Bool.false_eq_true, if_false]
    exact ih

section K
variable {K : Type} [PrimeField K]

theorem p_testBit_top : (p K).testBit (NUM_BITS K - 1) = true := by
  have h1 : 2 ^ CAPACITY K < p K := two_pow_capacity_lt
  have h2 : p K < 2 ^ NUM_BITS K := p_lt_two_pow
  have h3 := capacity_lt (F := K)
  rw [show NUM_BITS K - 1 = CAPACITY K by omega]
  rw [← h3] at h2
  rw [Nat.testBit_eq_decide_div_mod_eq]
  have : p K / 2 ^ CAPACITY K = 1 := by
    apply Nat.div_eq_of_lt_le
    · omega
    · rw [pow_succ] at h2; omega
  simp [this]

theorem skipLeading_field (v : K) :
    skipLeading false ((toLeBits v).reverse.zip (charLeBits K).reverse) = (leBits (NUM_BITS K) (val v)).reverse := by
  unfold toLeBits charLeBits leBits
  apply skipLeading_range
  · have := capacity_lt (F := K); omega
  · exact NUM_BITS_le
  · exact p_testBit_top
  · intro i hi
    exact Nat.testBit_lt_two_pow (lt_of_lt_of_le p_lt_two_pow (Nat.pow_le_pow_right (by norm_num) hi))

theorem wpS_fieldIntoAllocatedBitsLe (h1 : ρ .one = 1) (v : Option K) :
    Synth.wpS ρ (fieldIntoAllocatedBitsLe v) fun o =>
      ∃ xs, List.Forall₂ (AllocatedBit.Bit ρ) o xs ∧ xs.length = NUM_BITS K := by
  unfold fieldIntoAllocatedBitsLe
  cases v with
  | none =>
    refine Synth.wpS_mono (wpS_allocBits h1 _ _) fun o ⟨xs, hxs, hl⟩ => ⟨xs, hxs, ?_⟩
    rw [← hxs.length_eq, hl]; simp
  | some v =>
    dsimp only
    split
    · rename_i h
      refine Synth.wpS_mono (wpS_allocBits h1 _ _) fun o ⟨xs, hxs, hl⟩ => ⟨xs, hxs, ?_⟩
      rw [← hxs.length_eq, hl]; simpa using h
    · trivial

theorem wpC_fieldIntoAllocatedBitsLe (h1 : ρ .one = 1) (v : K) :
    Synth.wpC ρ (fieldIntoAllocatedBitsLe (some v)) fun o =>
      List.Forall₂ (AllocatedBit.Has ρ) o (leBits (NUM_BITS K) (val v)) := by
  unfold fieldIntoAllocatedBitsLe
  dsimp only
  rw [skipLeading_field, if_pos (by simp)]
  rw [← List.map_reverse, List.reverse_reverse]
  exact wpC_allocBits h1 0 _

end K

/-! ### packing -/

theorem eval_packLoop {bs : List AllocatedBit} {xs : List Bool} (h : List.Forall₂ (AllocatedBit.Bit ρ) bs xs)
    (lc : LC F) (c : F) :
    (AllocatedNum.packLoop lc c bs).eval ρ = lc.eval ρ + c * (bitsVal xs : F) := by
  induction h generalizing lc c with
  | nil => simp [AllocatedNum.packLoop, bitsVal]
  | @cons b x bs xs hb _ ih =>
    rw [AllocatedNum.packLoop, ih, bitsVal, LC.eval_addTerm]
    unfold AllocatedBit.Bit at hb
    rw [hb]
    cases x <;> simp <;> ring

namespace AllocatedNum

/-- The number carries the value `x` and the assignment agrees. -/
def Has (ρ : Var → F) (a : AllocatedNum F) (x : F) : Prop := a.value = some x ∧ ρ a.var = x

theorem wpC_alloc (v : F) : Synth.wpC ρ (alloc (.ok v)) fun o => o.Has ρ v := by
  unfold alloc
  simp only [Synth.wpC_bind, Synth.wpC_alloc, Synth.wpC_pure, Has]
  exact ⟨v, rfl, fun x hx => ⟨rfl, hx⟩⟩

theorem wpS_alloc (v : Except SynthesisError F) : Synth.wpS ρ (alloc v) fun _ => True := by
  unfold alloc
  simp only [Synth.wpS_bind, Synth.wpS_alloc, Synth.wpS_pure]
  exact ⟨fun _ => trivial, fun _ _ _ => trivial⟩

theorem wpS_toBitsLe (h1 : ρ .one = 1) (a : AllocatedNum F) :
    Synth.wpS ρ a.toBitsLe fun o =>
      ∃ xs, List.Forall₂ (Boolean.Bit ρ) o xs ∧ xs.length = NUM_BITS F ∧ (bitsVal xs : F) = ρ a.var := by
  unfold toBitsLe
  rw [Synth.wpS_bind]
  refine Synth.wpS_mono (wpS_fieldIntoAllocatedBitsLe h1 _) fun o ⟨xs, hxs, hl⟩ => ?_
  simp only [Synth.wpS_bind, Synth.wpS_enforce, Synth.wpS_pure, LC.eval_zero, LC.eval_subVar, eval_packLoop hxs]
  intro h
  exact ⟨xs, forall₂_is hxs, hl, by linear_combination -h⟩

theorem wpC_toBitsLe (h1 : ρ .one = 1) {a : AllocatedNum F} {x : F} (ha : a.Has ρ x) :
    Synth.wpC ρ a.toBitsLe fun o => List.Forall₂ (Boolean.Has ρ) o (leBits (NUM_BITS F) (val x)) := by
  unfold toBitsLe
  rw [ha.1, Synth.wpC_bind]
  refine Synth.wpC_mono (wpC_fieldIntoAllocatedBitsLe h1 x) fun o hxs => ?_
  simp only [Synth.wpC_bind, Synth.wpC_enforce, Synth.wpC_pure, LC.eval_zero, LC.eval_subVar,
    eval_packLoop (forall₂_bit_of_has hxs)]
  refine ⟨?_, forall₂_has_is hxs⟩
  rw [ha.2, bitsVal_leBits, Nat.mod_eq_of_lt (lt_trans (val_lt x) p_lt_two_pow), cast_val]
  ring

/-! ### strict decomposition -/

theorem wpS_karyAndLoop {cur : AllocatedBit} {c : Bool} (hc : cur.Bit ρ c) (i : ℕ) {vs : List AllocatedBit}
    {xs : List Bool} (h : List.Forall₂ (AllocatedBit.Bit ρ) vs xs) :
    Synth.wpS ρ (karyAndLoop cur i vs) fun o => o.Bit ρ (c && xs.all id) := by
  induction h generalizing cur c i with
  | nil => simpa [karyAndLoop] using hc
  | @cons v x vs xs hv _ ih =>
    rw [karyAndLoop, Synth.wpS_bind, Synth.wpS_inNs]
    refine Synth.wpS_mono (AllocatedBit.wpS_and hc hv) fun o ho => ?_
    refine Synth.wpS_mono (ih ho (i + 1)) fun o ho => ?_
    simpa [Bool.and_assoc] using ho

theorem wpC_karyAndLoop {cur : AllocatedBit} {c : Bool} (hc : cur.Has ρ c) (i : ℕ) {vs : List AllocatedBit}
    {xs : List Bool} (h : List.Forall₂ (AllocatedBit.Has ρ) vs xs) :
    Synth.wpC ρ (karyAndLoop cur i vs) fun o => o.Has ρ (c && xs.all id) := by
  induction h generalizing cur c i with
  | nil => simpa [karyAndLoop] using hc
  | @cons v x vs xs hv _ ih =>
    rw [karyAndLoop, Synth.wpC_bind, Synth.wpC_inNs]
    refine Synth.wpC_mono (AllocatedBit.wpC_and hc hv) fun o ho => ?_
    refine Synth.wpC_mono (ih ho (i + 1)) fun o ho => ?_
    simpa [Bool.and_assoc] using ho

theorem wpS_karyAnd {vs : List AllocatedBit} {xs : List Bool} (h : List.Forall₂ (AllocatedBit.Bit ρ) vs xs) :
    Synth.wpS ρ (karyAnd vs) fun o => o.Bit ρ (xs.all id) := by
  cases h with
  | nil => trivial
  | cons hv h =>
    refine Synth.wpS_mono (wpS_karyAndLoop hv 1 h) fun o ho => ?_
    simpa using ho

theorem wpC_karyAnd {vs : List AllocatedBit} {xs : List Bool} (h : List.Forall₂ (AllocatedBit.Has ρ) vs xs)
    (hne : vs ≠ []) : Synth.wpC ρ (karyAnd vs) fun o => o.Has ρ (xs.all id) := by
  cases h with
  | nil => exact absurd rfl hne
  | cons hv h =>
    refine Synth.wpC_mono (wpC_karyAndLoop hv 1 h) fun o ho => ?_
    simpa using ho

/-- The run of ones ending here, as a bit: conjunction of `last_run` and `current_run`.  `R` is `Bit ρ` or `Has ρ`. -/
def RunIs (R : AllocatedBit → Bool → Prop) (st : StrictSt) (r : Bool) : Prop :=
  ∃ cs l, List.Forall₂ R st.currentRun cs ∧ (∀ b, st.lastRun = some b → R b l) ∧ (st.lastRun = none → l = true) ∧
    r = (l && cs.all id)

/-- Loop invariant of `strictLoop` once the first one bit has been found: `A` is the value of the bits so far, `B` of the
same prefix of `p - 1`. -/
def StrictInv (R : AllocatedBit → Bool → Prop) (st : StrictSt) (xs : List Bool) (B : ℕ) : Prop :=
  List.Forall₂ R st.result xs ∧ beAcc 0 xs ≤ B ∧ ∃ r, RunIs R st r ∧ (r = true ↔ beAcc 0 xs = B)

theorem beAcc_snoc (xs : List Bool) (x : Bool) : beAcc 0 (xs ++ [x]) = 2 * beAcc 0 xs + x.toNat := by
  rw [beAcc_append]; rfl

theorem StrictInv.push_one {R} {st : StrictSt} {xs B x} {b : AllocatedBit} (h : StrictInv R st xs B) (hb : R b x) (j : ℕ) :
    StrictInv R { st with currentRun := st.currentRun ++ [b], result := st.result ++ [b], i := j }
      (xs ++ [x]) (2 * B + 1) := by
  obtain ⟨h1, h2, r, ⟨cs, l, hc, hl, hn, hr⟩, hiff⟩ := h
  refine ⟨List.rel_append h1 (.cons hb .nil), ?_, r && x, ⟨cs ++ [x], l, List.rel_append hc (.cons hb .nil), hl, hn, ?_⟩, ?_⟩
  · rw [beAcc_snoc]; cases x <;> simp <;> omega
  · rw [hr]; simp [Bool.and_assoc]
  · rw [beAcc_snoc]
    cases x <;> simp [hiff] <;> omega

theorem StrictInv.push_zero {R} {st : StrictSt} {xs B x r} {b l : AllocatedBit} (h1 : List.Forall₂ R st.result xs)
    (h2 : beAcc 0 xs ≤ B) (hl : R l r) (hr : r = true ↔ beAcc 0 xs = B) (hb : R b x) (hx : r = true → x = false)
    (hlast : st.lastRun = some l) (hcur : st.currentRun = []) (j : ℕ) :
    StrictInv R { st with result := st.result ++ [b], i := j } (xs ++ [x]) (2 * B) := by
  refine ⟨List.rel_append h1 (.cons hb .nil), ?_, r, ⟨[], r, by simp [hcur], ?_, by simp [hlast], by simp⟩, ?_⟩
  · rw [beAcc_snoc]
    cases r
    · have : beAcc 0 xs ≠ B := fun h => by simp [h] at hr
      cases x <;> simp <;> omega
    · simp [hx rfl]; exact h2
  · intro b' hb'
    simp only [hlast, Option.some.injEq] at hb'
    subst hb'; exact hl
  · rw [beAcc_snoc]
    cases r
    · have : beAcc 0 xs ≠ B := fun h => by simp [h] at hr
      cases x <;> simp <;> omega
    · simp [hx rfl, hr.1 rfl]

theorem wpS_strictStep (h1 : ρ .one = 1) (aBit : Option Bool) (b : Bool) {st : StrictSt} {xs B}
    (h : StrictInv (AllocatedBit.Bit ρ) st xs B) :
    Synth.wpS ρ (strictStep aBit b st) fun st' =>
      ∃ x, StrictInv (AllocatedBit.Bit ρ) st' (xs ++ [x]) (2 * B + b.toNat) ∧ st'.foundOne = st.foundOne := by
  unfold strictStep
  cases b
  · simp only [Bool.false_eq_true, if_false]
    obtain ⟨h2, h3, r, ⟨cs, l, hc, hl, hn, hr⟩, hiff⟩ := h
    rw [Synth.wpS_bind]
    refine Synth.wpS_mono (Q := fun st' => st'.result = st.result ∧ st'.currentRun = [] ∧ st'.foundOne = st.foundOne ∧
      ∀ b, st'.lastRun = some b → b.Bit ρ r) ?_ ?_
    · split
      · rename_i he
        rw [List.isEmpty_iff] at he
        rw [he] at hc
        cases hc
        rw [Synth.wpS_pure]
        refine ⟨rfl, he, rfl, fun b hb => ?_⟩
        have := hl b hb
        simpa [hr] using this
      · rw [Synth.wpS_bind, Synth.wpS_inNs]
        cases hlr : st.lastRun with
        | none =>
          refine Synth.wpS_mono (wpS_karyAnd hc) fun o ho => ?_
          rw [Synth.wpS_pure]
          refine ⟨rfl, rfl, rfl, fun b hb => ?_⟩
          simp only [Option.some.injEq] at hb
          subst hb
          rw [hr, hn hlr]; simpa using ho
        | some lb =>
          refine Synth.wpS_mono (wpS_karyAnd (List.rel_append hc (.cons (hl lb hlr) .nil))) fun o ho => ?_
          rw [Synth.wpS_pure]
          refine ⟨rfl, rfl, rfl, fun b hb => ?_⟩
          simp only [Option.some.injEq] at hb
          subst hb
          rw [hr, Bool.and_comm]; simpa using ho
    · rintro st' ⟨hres, hcur, hfo, hlast⟩
      cases hlr : st'.lastRun with
      | none => trivial
      | some lb =>
        simp only [Synth.wpS_bind, Synth.wpS_inNs]
        refine Synth.wpS_mono (AllocatedBit.wpS_allocConditionally h1 aBit (hlast lb hlr)) fun o ⟨x, hx, hx'⟩ => ?_
        refine ⟨x, ?_, hfo⟩
        rw [← hres] at h2
        have := StrictInv.push_zero h2 h3 (hlast lb hlr) hiff hx hx' hlr hcur (st'.i + 1)
        rw [Bool.toNat_false, Nat.add_zero]
        rw [hlr] at this
        exact this
  · simp only [if_true, Synth.wpS_bind, Synth.wpS_inNs]
    refine Synth.wpS_mono (AllocatedBit.wpS_alloc h1 aBit) fun o ⟨x, hx⟩ => ?_
    exact ⟨x, h.push_one hx _, rfl⟩

theorem wpS_strictLoop (h1 : ρ .one = 1) (l : List (Option Bool × Bool)) {st : StrictSt} {xs B}
    (h : StrictInv (AllocatedBit.Bit ρ) st xs B) (hf : st.foundOne = true) :
    Synth.wpS ρ (strictLoop l st) fun st' =>
      ∃ ys, ys.length = l.length ∧ StrictInv (AllocatedBit.Bit ρ) st' (xs ++ ys) (beAcc B (l.map Prod.snd)) := by
  induction l generalizing st xs B with
  | nil => exact ⟨[], rfl, by simpa [beAcc] using h⟩
  | cons a l ih =>
    obtain ⟨aBit, b⟩ := a
    rw [strictLoop]
    simp only [hf, Bool.true_or, if_true]
    rw [Synth.wpS_bind]
    have h' : StrictInv (AllocatedBit.Bit ρ) { st with foundOne := true } xs B := h
    refine Synth.wpS_mono (wpS_strictStep h1 aBit b h') fun st' ⟨x, hx, hfo⟩ => ?_
    refine Synth.wpS_mono (ih hx hfo) fun st'' ⟨ys, hl, hinv⟩ => ?_
    exact ⟨x :: ys, by simp [hl], by simpa [beAcc] using hinv⟩

theorem strictInv_init (R : AllocatedBit → Bool → Prop) (fo : Bool) : StrictInv R ⟨[], none, [], fo, 0⟩ [] 0 :=
  ⟨.nil, le_refl _, true, ⟨[], true, .nil, by simp, by simp, by simp⟩, by simp [beAcc]⟩

theorem wpS_strictLoop_skip (h1 : ρ .one = 1) (l : List (Option Bool × Bool)) :
    Synth.wpS ρ (strictLoop l ⟨[], none, [], false, 0⟩) fun st' =>
      ∃ ys, ys.length = (l.dropWhile fun a => !a.2).length ∧
        StrictInv (AllocatedBit.Bit ρ) st' ys (beAcc 0 (l.map Prod.snd)) := by
  induction l with
  | nil => exact ⟨[], rfl, strictInv_init _ _⟩
  | cons a l ih =>
    obtain ⟨aBit, b⟩ := a
    cases b
    · rw [strictLoop]
      simp only [Bool.false_or, Bool.false_eq_true, if_false]
      split
      · trivial
      · simpa [beAcc] using ih
    · have := wpS_strictLoop h1 ((aBit, true) :: l) (st := ⟨[], none, [], true, 0⟩) (strictInv_init _ _) rfl
      simp only [List.nil_append] at this
      simpa [strictLoop] using this

/-! #### the bits of `p - 1` -/

theorem val_neg_one : val (-1 : F) = p F - 1 := by
  have h : ((p F - 1 : ℕ) : F) = -1 := by
    rw [Nat.cast_sub p_pos, CharP.cast_eq_zero]; simp
  rw [← h, val_cast_of_lt (by have := p_pos (F := F); omega)]

theorem pm1_testBit_top : (p F - 1).testBit (NUM_BITS F - 1) = true := by
  have h1 : 2 ^ CAPACITY F < p F := two_pow_capacity_lt
  have h2 : p F < 2 ^ NUM_BITS F := p_lt_two_pow
  have h3 := capacity_lt (F := F)
  rw [show NUM_BITS F - 1 = CAPACITY F by omega]
  rw [← h3] at h2
  rw [Nat.testBit_eq_decide_div_mod_eq]
  have : (p F - 1) / 2 ^ CAPACITY F = 1 := by
    apply Nat.div_eq_of_lt_le
    · omega
    · rw [pow_succ] at h2; omega
  simp [this]

theorem pm1_even : (p F - 1).testBit 0 = false := by
  have := (prime (F := F)).eq_two_or_odd
  have h2 := p_ne_two (F := F)
  rw [Nat.testBit_zero]
  simp; omega

theorem pm1_lt : p F - 1 < 2 ^ NUM_BITS F := by have := p_lt_two_pow (F := F); omega

theorem beAcc_reverse (l : List Bool) : beAcc 0 l.reverse = bitsVal l := by
  rw [beAcc_eq]; simp

theorem beAcc_neg_one : beAcc 0 (toLeBits (-1 : F)).reverse = p F - 1 := by
  rw [beAcc_reverse]
  show bitsVal (leBits (REPR_BITS F) (val (-1 : F))) = _
  rw [bitsVal_leBits, val_neg_one, Nat.mod_eq_of_lt]
  exact lt_of_lt_of_le pm1_lt (Nat.pow_le_pow_right (by norm_num) NUM_BITS_le)

theorem dropWhile_range {α : Type} (f : ℕ → α) (g : ℕ → Bool) (m n : ℕ) (hm : 0 < m) (hmn : m ≤ n)
    (h1 : g (m - 1) = true) (h0 : ∀ i, m ≤ i → g i = false) :
    (((List.range n).map f).reverse.zip ((List.range n).map g).reverse).dropWhile (fun a => !a.2) =
      ((List.range m).map f).reverse.zip ((List.range m).map g).reverse := by
  induction n, hmn using Nat.le_induction with
  | base =>
    obtain ⟨k, rfl⟩ : ∃ k, m = k + 1 := ⟨m - 1, by omega⟩
    rw [List.range_succ]
    simp only [Nat.add_sub_cancel] at h1
    simp [h1]
  | succ n hn ih =>
    rw [List.range_succ]
    simp only [List.map_append, List.map_cons, List.map_nil, List.reverse_append, List.reverse_cons, List.reverse_nil,
      List.nil_append, List.singleton_append, List.zip_cons_cons]
    rw [List.dropWhile_cons_of_pos (by simp [h0 n hn])]
    exact ih

theorem toLeBits_eq (x : F) : toLeBits x = leBits (REPR_BITS F) (val x) := rfl

/-- the list of pairs the loop runs over -/
theorem strict_pairs (v : Option F) :
    ((strictABits v).zip (toLeBits (-1 : F)).reverse) =
    ((List.range (REPR_BITS F)).map fun i => v.map fun x => (val x).testBit i).reverse.zip
      ((List.range (REPR_BITS F)).map fun i => (p F - 1).testBit i).reverse := by
  cases v with
  | none =>
    simp only [strictABits, toLeBits, val_neg_one]
    congr 1
    rw [← List.map_reverse, ← List.map_reverse, List.map_map]; rfl
  | some v =>
    simp only [strictABits, toLeBits, val_neg_one]
    congr 1
    rw [← List.map_reverse, ← List.map_reverse, List.map_map]; rfl

theorem wpS_toBitsLeStrict (h1 : ρ .one = 1) (a : AllocatedNum F) :
    Synth.wpS ρ a.toBitsLeStrict fun o =>
      List.Forall₂ (Boolean.Bit ρ) o (leBits (NUM_BITS F) (val (ρ a.var))) := by
  unfold toBitsLeStrict
  dsimp only
  rw [Synth.wpS_bind]
  rw [strict_pairs]
  refine Synth.wpS_mono (wpS_strictLoop_skip h1 _) fun st ⟨ys, hl, hres, hle, _⟩ => ?_
  rw [dropWhile_range _ _ (NUM_BITS F) _ (by have := capacity_lt (F := F); omega) NUM_BITS_le pm1_testBit_top
    (fun i hi => Nat.testBit_lt_two_pow (lt_of_lt_of_le pm1_lt (Nat.pow_le_pow_right (by norm_num) hi)))] at hl
  have hB : beAcc 0 ((((List.range (REPR_BITS F)).map fun i => a.value.map fun x => (val x).testBit i).reverse.zip
      ((List.range (REPR_BITS F)).map fun i => (p F - 1).testBit i).reverse).map Prod.snd) = p F - 1 := by
    rw [List.map_snd_zip (by simp)]
    have := beAcc_neg_one (F := F)
    simpa only [toLeBits, val_neg_one] using this
  rw [hB] at hle
  split
  · have hrev : List.Forall₂ (AllocatedBit.Bit ρ) st.result.reverse ys.reverse := List.forall₂_reverse_iff.2 hres
    simp only [Synth.wpS_bind, Synth.wpS_enforce, Synth.wpS_pure, LC.eval_zero, LC.eval_subVar, eval_packLoop hrev]
    intro h
    have h2 : ((bitsVal ys.reverse : ℕ) : F) = ρ a.var := by linear_combination -h
    have h3 : bitsVal ys.reverse = beAcc 0 ys := by rw [← beAcc_reverse, List.reverse_reverse]
    have h4 : val (ρ a.var) = bitsVal ys.reverse := by
      rw [← h2, val_cast_of_lt]
      rw [h3]; have := p_pos (F := F); omega
    have h5 : ys.reverse.length = NUM_BITS F := by simpa using hl
    rw [h4, ← h5, leBits_bitsVal, ← List.map_reverse]
    exact forall₂_is hrev
  · trivial

theorem wpC_strictStep (h1 : ρ .one = 1) (a b : Bool) {st : StrictSt} {xs B}
    (h : StrictInv (AllocatedBit.Has ρ) st xs B) (hok : b = false → beAcc 0 xs = B → a = false)
    (hne : b = false → st.lastRun = none → st.currentRun ≠ []) :
    Synth.wpC ρ (strictStep (some a) b st) fun st' =>
      StrictInv (AllocatedBit.Has ρ) st' (xs ++ [a]) (2 * B + b.toNat) ∧ st'.foundOne = st.foundOne ∧
        (st'.lastRun = none → st'.currentRun ≠ []) ∧ (b = false → st'.currentRun = []) := by
  unfold strictStep
  cases b
  · simp only [Bool.false_eq_true, if_false]
    obtain ⟨h2, h3, r, ⟨cs, l, hc, hl, hn, hr⟩, hiff⟩ := h
    rw [Synth.wpC_bind]
    refine Synth.wpC_mono (Q := fun st' => st'.result = st.result ∧ st'.currentRun = [] ∧ st'.foundOne = st.foundOne ∧
      ∃ b, st'.lastRun = some b ∧ b.Has ρ r) ?_ ?_
    · split
      · rename_i he
        rw [List.isEmpty_iff] at he
        rw [he] at hc
        cases hc
        rw [Synth.wpC_pure]
        refine ⟨rfl, he, rfl, ?_⟩
        cases hlr : st.lastRun with
        | none => exact absurd he (hne rfl hlr)
        | some lb =>
          have := hl lb hlr
          exact ⟨lb, rfl, by simpa [hr] using this⟩
      · rename_i he
        rw [Bool.not_eq_true, List.isEmpty_eq_false_iff] at he
        rw [Synth.wpC_bind, Synth.wpC_inNs]
        cases hlr : st.lastRun with
        | none =>
          refine Synth.wpC_mono (wpC_karyAnd hc he) fun o ho => ?_
          rw [Synth.wpC_pure]
          refine ⟨rfl, rfl, rfl, o, rfl, ?_⟩
          rw [hr, hn hlr]; simpa using ho
        | some lb =>
          refine Synth.wpC_mono (wpC_karyAnd (List.rel_append hc (.cons (hl lb hlr) .nil)) (by simp)) fun o ho => ?_
          rw [Synth.wpC_pure]
          refine ⟨rfl, rfl, rfl, o, rfl, ?_⟩
          rw [hr, Bool.and_comm]; simpa using ho
    · rintro st' ⟨hres, hcur, hfo, lb, hlr, hlast⟩
      simp only [hlr, Synth.wpC_bind, Synth.wpC_inNs]
      have hx : r = true → a = false := fun h => hok rfl (hiff.1 h)
      refine Synth.wpC_mono (AllocatedBit.wpC_allocConditionally h1 a r hlast.2 hx) fun o ho => ?_
      rw [← hres] at h2
      have := StrictInv.push_zero h2 h3 hlast hiff ho hx hlr hcur (st'.i + 1)
      rw [Bool.toNat_false, Nat.add_zero]
      rw [hlr] at this
      exact ⟨this, hfo, by simp, fun _ => hcur⟩
  · simp only [if_true, Synth.wpC_bind, Synth.wpC_inNs]
    refine Synth.wpC_mono (AllocatedBit.wpC_alloc h1 a) fun o ho => ?_
    exact ⟨h.push_one ho _, rfl, by simp, by simp⟩

theorem wpC_strictLoop (h1 : ρ .one = 1) (l : List (Bool × Bool)) {st : StrictSt} {xs B}
    (h : StrictInv (AllocatedBit.Has ρ) st xs B) (hf : st.foundOne = true)
    (hne : (∀ x ∈ l.head?, x.2 = false) → st.lastRun = none → st.currentRun ≠ [])
    (hle : beAcc (beAcc 0 xs) (l.map Prod.fst) ≤ beAcc B (l.map Prod.snd)) :
    Synth.wpC ρ (strictLoop (l.map fun a => (some a.1, a.2)) st) fun st' =>
      StrictInv (AllocatedBit.Has ρ) st' (xs ++ l.map Prod.fst) (beAcc B (l.map Prod.snd)) ∧
      (∀ x ∈ l.getLast?, x.2 = false → st'.currentRun = []) ∧ (l = [] → st' = st) := by
  induction l generalizing st xs B with
  | nil => exact ⟨by simpa [beAcc] using h, by simp, by simp⟩
  | cons ab l ih =>
    obtain ⟨a, b⟩ := ab
    rw [List.map_cons, strictLoop]
    simp only [hf, Bool.true_or, if_true]
    rw [Synth.wpC_bind]
    have h' : StrictInv (AllocatedBit.Has ρ) { st with foundOne := true } xs B := h
    have hok : b = false → beAcc 0 xs = B → a = false := by
      rintro rfl hB
      cases a
      · rfl
      · exfalso
        simp only [List.map_cons, beAcc, hB, Bool.toNat_true, Bool.toNat_false] at hle
        have := beAcc_lt (l := l.map Prod.snd) (l' := l.map Prod.fst) (by simp) (show 2 * B + 0 < 2 * B + 1 by omega)
        omega
    refine Synth.wpC_mono (wpC_strictStep h1 a b h' hok (fun hb => hne (by simpa using hb))) fun st' ⟨hx, hfo, hne', hcur⟩ => ?_
    have hle' : beAcc (beAcc 0 (xs ++ [a])) (l.map Prod.fst) ≤ beAcc (2 * B + b.toNat) (l.map Prod.snd) := by
      rw [beAcc_snoc]; simpa [beAcc] using hle
    refine Synth.wpC_mono (ih hx hfo (fun _ => hne') hle') fun st'' ⟨hinv, hlast, hst⟩ => ?_
    refine ⟨by simpa [beAcc] using hinv, ?_, by simp⟩
    intro x hx hb
    cases l with
    | nil =>
      rw [hst rfl]
      apply hcur
      simp only [List.getLast?_singleton, Option.mem_def, Option.some.injEq] at hx
      rw [← hx] at hb; exact hb
    | cons c l => exact hlast x (by simpa using hx) hb

theorem wpC_strictLoop_skip (h1 : ρ .one = 1) (l : List (Bool × Bool))
    (hle : beAcc 0 (l.map Prod.fst) ≤ beAcc 0 (l.map Prod.snd)) (hone : ∃ x ∈ l, x.2 = true) :
    Synth.wpC ρ (strictLoop (l.map fun a => (some a.1, a.2)) ⟨[], none, [], false, 0⟩) fun st' =>
      List.Forall₂ (AllocatedBit.Has ρ) st'.result ((l.dropWhile fun a => !a.2).map Prod.fst) ∧
      (∀ x ∈ l.getLast?, x.2 = false → st'.currentRun = []) := by
  induction l with
  | nil => simp at hone
  | cons ab l ih =>
    obtain ⟨a, b⟩ := ab
    cases b
    · rw [List.map_cons, strictLoop]
      simp only [Bool.false_or, Bool.false_eq_true, if_false]
      have ha : a = false := by
        cases a
        · rfl
        · exfalso
          simp only [List.map_cons, beAcc, Bool.toNat_true, Bool.toNat_false] at hle
          have := beAcc_lt (l := l.map Prod.snd) (l' := l.map Prod.fst) (by simp) (show 2 * 0 + 0 < 2 * 0 + 1 by omega)
          omega
      subst ha
      simp only [Option.some.injEq, Bool.false_eq_true, if_false]
      have hone' : ∃ x ∈ l, x.2 = true := by
        obtain ⟨x, hx, hx2⟩ := hone
        rcases List.mem_cons.1 hx with rfl | hx
        · simp at hx2
        · exact ⟨x, hx, hx2⟩
      refine Synth.wpC_mono (ih (by simpa [beAcc] using hle) hone') fun st' ⟨h2, h3⟩ => ⟨by simpa using h2, ?_⟩
      intro x hx
      cases l with
      | nil => simp at hone'
      | cons c l => exact h3 x (by simpa using hx)
    · have := wpC_strictLoop h1 ((a, true) :: l) (st := ⟨[], none, [], true, 0⟩) (strictInv_init _ _) rfl
        (by simp) hle
      simp only [List.nil_append] at this
      have h := Synth.wpC_mono this fun st' h => (⟨by simpa using h.1.1, h.2.1⟩ :
        List.Forall₂ (AllocatedBit.Has ρ) st'.result ((((a, true) :: l).dropWhile fun a => !a.2).map Prod.fst) ∧
        (∀ x ∈ ((a, true) :: l).getLast?, x.2 = false → st'.currentRun = []))
      simpa only [List.map_cons, strictLoop, Bool.true_or, Bool.or_true, if_true] using h

theorem wpC_toBitsLeStrict (h1 : ρ .one = 1) {a : AllocatedNum F} {x : F} (ha : a.Has ρ x) :
    Synth.wpC ρ a.toBitsLeStrict fun o =>
      List.Forall₂ (Boolean.Has ρ) o (leBits (NUM_BITS F) (val x)) := by
  unfold toBitsLeStrict
  dsimp only
  rw [Synth.wpC_bind]
  rw [strict_pairs, ha.1]
  have hpos : 0 < NUM_BITS F := by have := capacity_lt (F := F); omega
  have hlist : (((List.range (REPR_BITS F)).map fun i => (some x).map fun x => (val x).testBit i).reverse.zip
      ((List.range (REPR_BITS F)).map fun i => (p F - 1).testBit i).reverse) =
      (((List.range (REPR_BITS F)).map fun i => (val x).testBit i).reverse.zip
        ((List.range (REPR_BITS F)).map fun i => (p F - 1).testBit i).reverse).map fun a => (some a.1, a.2) := by
    simp only [Option.map_some]
    rw [show (fun i => some ((val x).testBit i)) = some ∘ (fun i => (val x).testBit i) from rfl, ← List.map_map,
      ← List.map_reverse, List.zip_map_left]
    rfl
  rw [hlist]
  refine Synth.wpC_mono (wpC_strictLoop_skip h1 _ ?_ ?_) fun st ⟨hres, hcur⟩ => ?_
  · rw [List.map_fst_zip (by simp), List.map_snd_zip (by simp), beAcc_reverse, beAcc_reverse]
    show bitsVal (leBits (REPR_BITS F) (val x)) ≤ bitsVal (leBits (REPR_BITS F) (p F - 1))
    have hm : 2 ^ NUM_BITS F ≤ 2 ^ REPR_BITS F := Nat.pow_le_pow_right (by norm_num) NUM_BITS_le
    rw [bitsVal_leBits, bitsVal_leBits, Nat.mod_eq_of_lt, Nat.mod_eq_of_lt]
    · have := val_lt x; omega
    · exact lt_of_lt_of_le pm1_lt hm
    · exact lt_of_lt_of_le (lt_trans (val_lt x) p_lt_two_pow) hm
  · have hmem : ((val x).testBit (NUM_BITS F - 1), (p F - 1).testBit (NUM_BITS F - 1)) ∈
        (((List.range (REPR_BITS F)).map fun i => (val x).testBit i).reverse.zip
        ((List.range (REPR_BITS F)).map fun i => (p F - 1).testBit i).reverse) := by
      rw [← List.map_reverse, ← List.map_reverse, List.zip_map', List.mem_map]
      refine ⟨NUM_BITS F - 1, ?_, rfl⟩
      have := NUM_BITS_le (F := F)
      simp; omega
    exact ⟨_, hmem, pm1_testBit_top⟩
  · rw [dropWhile_range _ _ (NUM_BITS F) _ hpos NUM_BITS_le pm1_testBit_top
      (fun i hi => Nat.testBit_lt_two_pow (lt_of_lt_of_le pm1_lt (Nat.pow_le_pow_right (by norm_num) hi))),
      List.map_fst_zip (by simp)] at hres
    have hc : st.currentRun = [] := by
      obtain ⟨k, hk⟩ : ∃ k, REPR_BITS F = k + 1 := ⟨REPR_BITS F - 1, by have := NUM_BITS_le (F := F); omega⟩
      refine hcur ((val x).testBit 0, (p F - 1).testBit 0) ?_ pm1_even
      rw [hk, ← List.map_reverse, ← List.map_reverse, List.zip_map', List.range_succ_eq_map]
      simp
    rw [if_pos (by simp [hc])]
    have hrev : List.Forall₂ (AllocatedBit.Has ρ) st.result.reverse (leBits (NUM_BITS F) (val x)) := by
      rw [← List.forall₂_reverse_iff, List.reverse_reverse]; exact hres
    simp only [Synth.wpC_bind, Synth.wpC_enforce, Synth.wpC_pure, LC.eval_zero, LC.eval_subVar,
      eval_packLoop (forall₂_bit_of_has hrev)]
    refine ⟨?_, ?_⟩
    · rw [ha.2, bitsVal_leBits, Nat.mod_eq_of_lt (lt_trans (val_lt x) p_lt_two_pow), cast_val]
      ring
    · rw [← List.map_reverse]
      exact forall₂_has_is hrev

/-! ### arithmetic -/

theorem wpC_inputize (h1 : ρ .one = 1) {a : AllocatedNum F} {x : F} (ha : a.Has ρ x) :
    Synth.wpC ρ a.inputize fun _ => True := by
  unfold inputize
  simp only [Synth.wpC_bind, Synth.wpC_allocInput, Synth.wpC_enforce, LC.eval_addVar, LC.eval_zero, h1, ha.1, ha.2]
  exact ⟨x, rfl, fun y hy => ⟨by rw [hy]; ring, trivial⟩⟩

theorem wpS_mul (a b : AllocatedNum F) : Synth.wpS ρ (a.mul b) fun o => ρ o.var = ρ a.var * ρ b.var := by
  unfold mul
  simp only [Synth.wpS_bind, Synth.wpS_alloc, Synth.wpS_enforce, Synth.wpS_pure, LC.eval_addVar, LC.eval_zero, zero_add]
  exact ⟨fun x h => h.symm, fun x _ _ h => h.symm⟩

theorem wpC_mul {a b : AllocatedNum F} {x y : F} (ha : a.Has ρ x) (hb : b.Has ρ y) :
    Synth.wpC ρ (a.mul b) fun o => o.Has ρ (x * y) := by
  unfold mul
  simp only [Synth.wpC_bind, Synth.wpC_alloc, Synth.wpC_enforce, Synth.wpC_pure, LC.eval_addVar, LC.eval_zero, zero_add,
    ha.1, ha.2, hb.1, hb.2]
  exact ⟨x * y, rfl, fun z hz => ⟨hz.symm, rfl, hz⟩⟩

theorem wpS_square (a : AllocatedNum F) : Synth.wpS ρ a.square fun o => ρ o.var = ρ a.var * ρ a.var := by
  unfold square
  simp only [Synth.wpS_bind, Synth.wpS_alloc, Synth.wpS_enforce, Synth.wpS_pure, LC.eval_addVar, LC.eval_zero, zero_add]
  exact ⟨fun x h => h.symm, fun x _ _ h => h.symm⟩

theorem wpC_square {a : AllocatedNum F} {x : F} (ha : a.Has ρ x) :
    Synth.wpC ρ a.square fun o => o.Has ρ (x * x) := by
  unfold square
  simp only [Synth.wpC_bind, Synth.wpC_alloc, Synth.wpC_enforce, Synth.wpC_pure, LC.eval_addVar, LC.eval_zero, zero_add,
    ha.1, ha.2]
  exact ⟨x * x, rfl, fun z hz => ⟨hz.symm, rfl, hz⟩⟩

theorem wpS_assertNonzero (h1 : ρ .one = 1) (a : AllocatedNum F) : Synth.wpS ρ a.assertNonzero fun _ => ρ a.var ≠ 0 := by
  unfold assertNonzero
  simp only [Synth.wpS_bind, Synth.wpS_alloc, Synth.wpS_enforce, Synth.wpS_pure, LC.eval_addVar, LC.eval_zero, zero_add, h1]
  have key : ∀ x, ρ a.var * ρ x = 1 → ρ a.var ≠ 0 := fun x h => left_ne_zero_of_mul (h ▸ one_ne_zero)
  exact ⟨key, fun x _ _ => key x⟩

theorem wpC_assertNonzero (h1 : ρ .one = 1) {a : AllocatedNum F} {x : F} (ha : a.Has ρ x) (hx : x ≠ 0) :
    Synth.wpC ρ a.assertNonzero fun _ => True := by
  unfold assertNonzero
  simp only [Synth.wpC_bind, Synth.wpC_alloc, Synth.wpC_enforce, LC.eval_addVar, LC.eval_zero, zero_add, h1, ha.1, ha.2]
  refine ⟨x⁻¹, ?_, fun z hz => ⟨by rw [hz]; exact mul_inv_cancel₀ hx, trivial⟩⟩
  simp only [Synth.optGet_some]
  show (if x = 0 then _ else _) = _
  rw [if_neg hx]; rfl

theorem wpS_conditionallyReverse (h1 : ρ .one = 1) (a b : AllocatedNum F) {c : Boolean} {s : Bool} (hc : c.Bit ρ s) :
    Synth.wpS ρ (conditionallyReverse a b c) fun o =>
      ρ o.1.var = (if s then ρ b.var else ρ a.var) ∧ ρ o.2.var = (if s then ρ a.var else ρ b.var) := by
  unfold conditionallyReverse
  simp only [Synth.wpS_bind, Synth.wpS_inNs]
  refine Synth.wpS_mono (wpS_alloc _) fun o _ => ?_
  simp only [Synth.wpS_enforce]
  intro he
  refine Synth.wpS_mono (wpS_alloc _) fun o' _ => ?_
  intro he'
  rw [Synth.wpS_pure]
  simp only [LC.eval_subVar, LC.eval_addVar, LC.eval_zero, Boolean.eval_lc h1 hc] at he he'
  cases s
  · simp at he he' ⊢
    exact ⟨by linear_combination he, by linear_combination he'⟩
  · simp at he he' ⊢
    exact ⟨he.symm, he'.symm⟩

theorem wpC_conditionallyReverse (h1 : ρ .one = 1) {a b : AllocatedNum F} {x y : F} (ha : a.Has ρ x) (hb : b.Has ρ y)
    {c : Boolean} {s : Bool} (hc : c.Has ρ s) :
    Synth.wpC ρ (conditionallyReverse a b c) fun o =>
      o.1.Has ρ (if s then y else x) ∧ o.2.Has ρ (if s then x else y) := by
  unfold conditionallyReverse
  have e1 : (do let x ← Synth.optGet c.getValue; if x = true then Synth.optGet b.value else Synth.optGet a.value) =
      (.ok (if s then y else x) : Except SynthesisError F) := by
    rw [hc.1, ha.1, hb.1]; cases s <;> rfl
  have e2 : (do let x ← Synth.optGet c.getValue; if x = true then Synth.optGet a.value else Synth.optGet b.value) =
      (.ok (if s then x else y) : Except SynthesisError F) := by
    rw [hc.1, ha.1, hb.1]; cases s <;> rfl
  simp only [Synth.wpC_bind, Synth.wpC_inNs]
  rw [e1, e2]
  refine Synth.wpC_mono (wpC_alloc _) fun o ho => ?_
  simp only [Synth.wpC_enforce, LC.eval_subVar, LC.eval_addVar, LC.eval_zero, Boolean.eval_lc h1 hc.2, ha.2, hb.2, ho.2]
  refine ⟨by cases s <;> simp, ?_⟩
  refine Synth.wpC_mono (wpC_alloc _) fun o' ho' => ?_
  rw [ho'.2]
  exact ⟨by cases s <;> simp, ho, ho'⟩

end AllocatedNum

/-! ### Num -/

namespace Num

/-- Value of a `Num` under the assignment. -/
def Is (ρ : Var → F) (n : Num F) (x : F) : Prop := n.lcomb.eval ρ = x

/-- ... and the value it carries is that value. -/
def Has (ρ : Var → F) (n : Num F) (x : F) : Prop := n.value = some x ∧ n.lcomb.eval ρ = x

theorem is_zero : (zero : Num F).Is ρ 0 := rfl
theorem has_zero : (zero : Num F).Has ρ 0 := ⟨rfl, rfl⟩

theorem is_addBool (h1 : ρ .one = 1) {n : Num F} {x : F} {b : Boolean} {s : Bool} (hn : n.Is ρ x) (hb : b.Bit ρ s) (c : F) :
    (n.addBoolWithCoeff b c).Is ρ (x + if s then c else 0) := by
  unfold Is addBoolWithCoeff at *
  simp only [LC.eval_addLC, hn, Boolean.eval_lc h1 hb]

theorem has_addBool (h1 : ρ .one = 1) {n : Num F} {x : F} {b : Boolean} {s : Bool} (hn : n.Has ρ x) (hb : b.Has ρ s) (c : F) :
    (n.addBoolWithCoeff b c).Has ρ (x + if s then c else 0) := by
  refine ⟨?_, is_addBool h1 hn.2 hb.2 c⟩
  unfold addBoolWithCoeff
  simp only [hn.1, hb.1]
  cases s <;> simp

end Num


end Bellman
