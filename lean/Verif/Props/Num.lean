import Verif.Proofs.Num
import Verif.Proofs.Lookup
import Verif.Proofs.Multipack
import Verif.Proofs.ShapeNum
import Verif.Proofs.Realize
import Verif.FieldInstances

/-!
# C09 to C13: numbers, bit decompositions, lookups, multipacking

See Props/Boolean.lean for `Sound` and `Complete`.
-/

set_option linter.unusedSectionVars false

namespace Bellman

open PrimeField

variable {F : Type} [PrimeField F] {ρ : Var → F}

/-! ### C09 -/

/-- C09: `mul` forces the product. -/
theorem C09_mul_sound (a b : AllocatedNum F) : Sound ρ (a.mul b) fun o => ρ o.var = ρ a.var * ρ b.var :=
  (Synth.wpS_iff ..).1 (AllocatedNum.wpS_mul a b)

/-- C09: `mul`, honest prover. -/
theorem C09_mul_complete {a b : AllocatedNum F} {x y : F} (ha : a.Has ρ x) (hb : b.Has ρ y) :
    Complete ρ (a.mul b) fun o => o.Has ρ (x * y) := Synth.wpC_sound (AllocatedNum.wpC_mul ha hb)

/-- C09: `square` forces the square. -/
theorem C09_square_sound (a : AllocatedNum F) : Sound ρ a.square fun o => ρ o.var = ρ a.var ^ 2 := by
  simpa only [pow_two] using (Synth.wpS_iff ..).1 (AllocatedNum.wpS_square a)

/-- C09: `square`, honest prover. -/
theorem C09_square_complete {a : AllocatedNum F} {x : F} (ha : a.Has ρ x) :
    Complete ρ a.square fun o => o.Has ρ (x ^ 2) := by
  simpa only [pow_two] using Synth.wpC_sound (AllocatedNum.wpC_square ha)

/-- C09: `assert_nonzero` forces the number to be non-zero. -/
theorem C09_assertNonzero_sound (h1 : ρ .one = 1) (a : AllocatedNum F) :
    Sound ρ a.assertNonzero fun _ => ρ a.var ≠ 0 := (Synth.wpS_iff ..).1 (AllocatedNum.wpS_assertNonzero h1 a)

/-- C09: `assert_nonzero`, honest prover. -/
theorem C09_assertNonzero_complete (h1 : ρ .one = 1) {a : AllocatedNum F} {x : F} (ha : a.Has ρ x) (hx : x ≠ 0) :
    Complete ρ a.assertNonzero fun _ => True := Synth.wpC_sound (AllocatedNum.wpC_assertNonzero h1 ha hx)

/-- C09: `assert_nonzero` on zero reports `DivisionByZero`, with nothing emitted. -/
theorem C09_assertNonzero_zero {a : AllocatedNum F} (ha : a.value = some 0) {t : List (Ev F)} {r}
    (h : Honest a.assertNonzero.run t r) : t = [] ∧ r = some (.error .divisionByZero) := by
  have e : (do
      let x ← Synth.optGet a.value
      if x = 0 then throw .divisionByZero else pure x⁻¹ : Except SynthesisError F) = .error .divisionByZero := by
    rw [ha]
    simp only [Synth.optGet_some]
    change (if (0 : F) = 0 then _ else _) = _
    rw [if_pos rfl]
    rfl
  unfold AllocatedNum.assertNonzero at h
  rw [e] at h
  cases h with
  | allocRun x v hf h => cases hf
  | allocErr e hf h => cases hf; cases h; exact ⟨rfl, rfl⟩

/-- C09: `conditionally_reverse` swaps exactly when the condition is set. -/
theorem C09_conditionallyReverse_sound (h1 : ρ .one = 1) (a b : AllocatedNum F) {c : Boolean} {s : Bool}
    (hc : c.Bit ρ s) :
    Sound ρ (AllocatedNum.conditionallyReverse a b c) fun o =>
      (ρ o.1.var, ρ o.2.var) = if s then (ρ b.var, ρ a.var) else (ρ a.var, ρ b.var) := by
  refine (Synth.wpS_iff ..).1 (Synth.wpS_mono (AllocatedNum.wpS_conditionallyReverse h1 a b hc) ?_)
  rintro o ⟨h, h'⟩
  rw [h, h']
  cases s <;> rfl

/-- C09: `conditionally_reverse`, honest prover. -/
theorem C09_conditionallyReverse_complete (h1 : ρ .one = 1) {a b : AllocatedNum F} {x y : F} (ha : a.Has ρ x)
    (hb : b.Has ρ y) {c : Boolean} {s : Bool} (hc : c.Has ρ s) :
    Complete ρ (AllocatedNum.conditionallyReverse a b c) fun o =>
      o.1.Has ρ (if s then y else x) ∧ o.2.Has ρ (if s then x else y) :=
  Synth.wpC_sound (AllocatedNum.wpC_conditionallyReverse h1 ha hb hc)

/-- C09: `inputize` allocates exactly one public input and forces it to equal the number. -/
theorem C09_inputize_sound (h1 : ρ .one = 1) (a : AllocatedNum F) {t : List (Ev F)}
    (he : Exec a.inputize.run t (some (.ok ()))) (hs : Sat ρ t) : ∃ v, inputsOf t = [v] ∧ ρ v = ρ a.var := by
  obtain ⟨t1, t2, r, rfl, he1, he2⟩ := Synth.exec_bind_inv he
  have e1 := Synth.exec_allocInput_inv he1
  have e2 := Synth.exec_enforce_inv he2
  subst e1 e2
  refine ⟨r.1, rfl, ?_⟩
  rw [Sat_append] at hs
  have := hs.2 _ _ _ _ (List.mem_singleton_self _)
  change (LC.addVar LC.zero _).eval ρ * (LC.addVar LC.zero _).eval ρ = (LC.addVar LC.zero _).eval ρ at this
  have key : ∀ v, (LC.addVar LC.zero v).eval ρ = ρ v := fun v => by
    have := LC.eval_addVar ρ (LC.zero : LC F) v
    change (LC.addVar LC.zero _).eval ρ = _ at this
    simpa using this
  rw [key, key, key, h1, mul_one] at this
  exact this

/-- C09: `inputize`, honest prover. -/
theorem C09_inputize_complete (h1 : ρ .one = 1) {a : AllocatedNum F} {x : F} (ha : a.Has ρ x) :
    Complete ρ a.inputize fun _ => True := Synth.wpC_sound (AllocatedNum.wpC_inputize h1 ha)

/-- Adding Booleans with coefficients one after the other (src/gadgets/num.rs:398-415), as a specification device. -/
def addBools (n : Num F) : List (Boolean × F) → Num F
  | [] => n
  | x :: xs => addBools (n.addBoolWithCoeff x.1 x.2) xs

/-- C09: `Num` accumulates the weighted sum of Booleans, in its combination and in its value. -/
theorem C09_num_sum (h1 : ρ .one = 1) {n : Num F} {z : F} {l : List (Boolean × F)} {xs : List Bool}
    (h : List.Forall₂ (fun b x => b.1.Bit ρ x) l xs) (k : F) (hn : n.Is ρ z) :
    ((addBools n l).lc k).eval ρ = k * (z + (List.zipWith (fun b x => if x then b.2 else 0) l xs).sum) := by
  have key : (addBools n l).Is ρ (z + (List.zipWith (fun b x => if x then b.2 else 0) l xs).sum) := by
    induction h generalizing n z with
    | nil => simpa [addBools] using hn
    | cons hb _ ih =>
      rw [addBools, List.zipWith_cons_cons, List.sum_cons, ← add_assoc]
      exact ih (Num.is_addBool h1 hn hb _)
  rw [Num.lc, LC.eval_addScaled, LC.eval_zero, zero_add, show LC.eval ρ _ = _ from key]

/-- C09: the value a `Num` carries is the weighted sum too. -/
theorem C09_num_value (h1 : ρ .one = 1) {n : Num F} {z : F} {l : List (Boolean × F)} {xs : List Bool}
    (h : List.Forall₂ (fun b x => b.1.Has ρ x) l xs) (hn : n.Has ρ z) :
    (addBools n l).value = some (z + (List.zipWith (fun b x => if x then b.2 else 0) l xs).sum) := by
  induction h generalizing n z with
  | nil => simpa [addBools] using hn.1
  | cons hb _ ih =>
    rw [addBools, List.zipWith_cons_cons, List.sum_cons, ← add_assoc]
    exact ih (Num.has_addBool h1 hn hb _)

/-- C09: a `Num` made from an allocated number has its value. -/
theorem C09_num_ofAllocated (a : AllocatedNum F) (k : F) :
    (Num.ofAllocated a).value = a.value ∧ ((Num.ofAllocated a).lc k).eval ρ = k * ρ a.var := by
  refine ⟨rfl, ?_⟩
  rw [Num.lc, LC.eval_addScaled, LC.eval_zero, zero_add, Num.ofAllocated, LC.eval_addVar, LC.eval_zero, zero_add]

section NonVacuous
/-- Auxiliary 0 holding 7, auxiliary 1 holding 5, auxiliary 2 holding 1. -/
private abbrev n7 : AllocatedNum DummyFr := ⟨some 7, .aux 0⟩
private abbrev n5 : AllocatedNum DummyFr := ⟨some 5, .aux 1⟩
private abbrev b1 : Boolean := .is ⟨.aux 2, some true⟩

private theorem has7 {ρ : Var → DummyFr} (hx : Extends [1] [7, 5, 1] ρ) : n7.Has ρ 7 :=
  ⟨rfl, hx (.aux 0) (by simp [Var.InRange])⟩
private theorem has5 {ρ : Var → DummyFr} (hx : Extends [1] [7, 5, 1] ρ) : n5.Has ρ 5 :=
  ⟨rfl, hx (.aux 1) (by simp [Var.InRange])⟩
private theorem has1 {ρ : Var → DummyFr} (hx : Extends [1] [7, 5, 1] ρ) : b1.Has ρ true :=
  ⟨rfl, hx (.aux 2) (by simp [Var.InRange])⟩
private theorem seven_ne : (7 : DummyFr) ≠ 0 := by decide +kernel

example : ∃ (ρ : Var → DummyFr) (t : _) (o : _), Exec (n7.mul n5).run t (some (.ok o)) ∧ Sat ρ t ∧ ρ o.var = 35 := by
  obtain ⟨ρ, t, a, hx, he, -, -, hs, hq⟩ := Complete.realized (F := DummyFr) [1] [7, 5, 1] fun ρ hx =>
    C09_mul_complete (has7 hx) (has5 hx)
  exact ⟨ρ, t, a, he.exec, hs, hq.2.trans (by decide +kernel)⟩

example : ∃ (ρ : Var → DummyFr) (t : _), ρ .one = 1 ∧ Exec n7.assertNonzero.run t (some (.ok ())) ∧ Sat ρ t := by
  obtain ⟨ρ, t, a, hx, he, -, -, hs, -⟩ := Complete.realized (F := DummyFr) (Q := fun _ _ => True) [1] [7, 5, 1] fun ρ hx =>
    C09_assertNonzero_complete hx.one (has7 hx) seven_ne
  exact ⟨ρ, t, hx.one, he.exec, hs⟩

example : ∃ t, Honest (⟨some 0, .aux 0⟩ : AllocatedNum DummyFr).assertNonzero.run t (some (.error .divisionByZero)) := by
  obtain ⟨t, r, h, -⟩ := (⟨some 0, .aux 0⟩ : AllocatedNum DummyFr).assertNonzero.run.exists_honest 1 1
  obtain ⟨rfl, rfl⟩ := C09_assertNonzero_zero rfl h
  exact ⟨_, h⟩

example : ∃ (ρ : Var → DummyFr) (t : _) (o : _), ρ .one = 1 ∧ b1.Bit ρ true ∧
    Exec (AllocatedNum.conditionallyReverse n7 n5 b1).run t (some (.ok o)) ∧ Sat ρ t ∧ ρ o.1.var = 5 := by
  obtain ⟨ρ, t, a, hx, he, -, -, hs, hq⟩ := Complete.realized (F := DummyFr) [1] [7, 5, 1] fun ρ hx =>
    C09_conditionallyReverse_complete hx.one (has7 hx) (has5 hx) (has1 hx)
  exact ⟨ρ, t, a, hx.one, (has1 hx).2, he.exec, hs, hq.1.2⟩

example : ∃ (ρ : Var → DummyFr) (t : _), ρ .one = 1 ∧ Exec n7.inputize.run t (some (.ok ())) ∧ Sat ρ t ∧
    ρ (.input 1) = 7 ∧ inputsOf t = [.input 1] := by
  obtain ⟨ρ, t, a, hx, he, hn, -, hs, -⟩ := Complete.realized (F := DummyFr) (Q := fun _ _ => True) [1] [7, 5, 1] fun ρ hx =>
    C09_inputize_complete hx.one (has7 hx)
  refine ⟨ρ, t, hx.one, he.exec, hs, ?_⟩
  obtain ⟨v, hv, hv'⟩ := C09_inputize_sound hx.one n7 he.exec hs
  have : v = .input 1 := by
    obtain ⟨t1, t2, r, rfl, he1, he2⟩ := Synth.exec_bind_inv he.exec
    have e1 := Synth.exec_allocInput_inv he1
    have e2 := Synth.exec_enforce_inv he2
    subst e1 e2
    have := hn.1
    simp only [inputsOf_append, inputsOf_allocInput, inputsOf_enforce, inputsOf_nil, List.append_nil, List.cons.injEq] at hv
    rw [← hv.1, this]; rfl
  subst this
  exact ⟨hv'.trans (has7 hx).2, hv⟩

example : ∃ ρ : Var → DummyFr, ρ .one = 1 ∧ List.Forall₂ (fun b x => b.1.Has ρ x) [(b1, (3 : DummyFr)), (.constant false, 9)]
    [true, false] ∧ Num.zero.Has ρ 0 := by
  refine ⟨assign [1] [7, 5, 1], rfl, .cons ⟨rfl, rfl⟩ (.cons ⟨rfl, rfl⟩ .nil), Num.has_zero⟩

end NonVacuous

/-! ### C10 -/

/-- C10: in every satisfying assignment the result of `to_bits_le_strict` is exactly the list of the `NUM_BITS` canonical
bits, least significant first, of the integer representative `< p` of the number. -/
theorem C10_strict_sound (h1 : ρ .one = 1) (a : AllocatedNum F) :
    Sound ρ a.toBitsLeStrict fun o =>
      List.Forall₂ (Boolean.Bit ρ) o ((List.range (NUM_BITS F)).map fun i => (val (ρ a.var)).testBit i) :=
  (Synth.wpS_iff ..).1 (AllocatedNum.wpS_toBitsLeStrict h1 a)

private theorem _root_.Bellman.Boolean.bits_unique (h1 : ρ .one = 1) {o : List Boolean} {xs ys : List Bool}
    (h : List.Forall₂ (Boolean.Bit ρ) o xs) (h' : List.Forall₂ (Boolean.Bit ρ) o ys) : xs = ys := by
  induction h generalizing ys with
  | nil => cases h'; rfl
  | cons hb _ ih =>
    cases h' with
    | cons hb' h' => rw [Boolean.bit_unique h1 hb hb', ih h']

theorem _root_.Bellman.Boolean.Same.bits {l o : List Boolean} {xs : List Bool}
    (hs : List.Forall₂ Boolean.Same l o) (h : List.Forall₂ (Boolean.Bit ρ) l xs) : List.Forall₂ (Boolean.Bit ρ) o xs := by
  induction hs generalizing xs with
  | nil => cases h; exact .nil
  | @cons a₁ b₁ _ _ hr _ ih =>
    cases h with
    | cons hb h =>
      refine .cons ?_ (ih h)
      cases a₁ <;> cases b₁ <;> simp only [Boolean.Same, AllocatedBit.Same] at hr <;>
        simpa [Boolean.Bit, AllocatedBit.Bit, hr] using hb

/-- C10: uniqueness, spelled out: two satisfying assignments that agree on the number agree on every returned bit. -/
theorem C10_strict_unique {ρ ρ' : Var → F} (h1 : ρ .one = 1) (h1' : ρ' .one = 1) (a : AllocatedNum F)
    (hn : ρ a.var = ρ' a.var) {t : List (Ev F)} {o : List Boolean} (he : Exec a.toBitsLeStrict.run t (some (.ok o)))
    (hs : Sat ρ t) (hs' : Sat ρ' t) : ∀ b ∈ o, ∀ x, b.Bit ρ x ↔ b.Bit ρ' x := by
  have s := C10_strict_sound h1 a t o he hs
  have s' := C10_strict_sound h1' a t o he hs'
  rw [hn] at s
  generalize (List.range (NUM_BITS F)).map _ = l at s s'
  clear he
  induction s with
  | nil => simp
  | cons hb _ ih =>
    cases s' with
    | cons hb' s' =>
      intro b hm x
      rcases List.mem_cons.1 hm with rfl | hm
      · constructor
        · intro h; rwa [Boolean.bit_unique h1 h hb]
        · intro h; rwa [Boolean.bit_unique h1' h hb']
      · exact ih s' b hm x

/-- C10: honest prover, every field element. -/
theorem C10_strict_complete (h1 : ρ .one = 1) {a : AllocatedNum F} {x : F} (ha : a.Has ρ x) :
    Complete ρ a.toBitsLeStrict fun o =>
      List.Forall₂ (Boolean.Has ρ) o ((List.range (NUM_BITS F)).map fun i => (val x).testBit i) :=
  Synth.wpC_sound (AllocatedNum.wpC_toBitsLeStrict h1 ha)

example : ∃ (ρ : Var → BlsScalar) (t : _) (o : _), ρ .one = 1 ∧
    Exec (⟨some (-1), .aux 0⟩ : AllocatedNum BlsScalar).toBitsLeStrict.run t (some (.ok o)) ∧ Sat ρ t ∧ o.length = 255 := by
  obtain ⟨ρ, t, a, hx, he, -, -, hs, hq⟩ := Complete.realized (F := BlsScalar) [1] [-1] fun ρ hx =>
    C10_strict_complete (a := ⟨some (-1), .aux 0⟩) (x := -1) hx.one ⟨rfl, hx (.aux 0) (by simp [Var.InRange])⟩
  exact ⟨ρ, t, a, hx.one, he.exec, hs, by rw [hq.length_eq, List.length_map, List.length_range]; rfl⟩

/-! ### C11 -/

/-- C11: in every satisfying assignment `to_bits_le` returns `NUM_BITS` bits whose weighted sum is congruent to the
number. -/
theorem C11_toBitsLe_sound (h1 : ρ .one = 1) (a : AllocatedNum F) :
    Sound ρ a.toBitsLe fun o =>
      ∃ xs, List.Forall₂ (Boolean.Bit ρ) o xs ∧ xs.length = NUM_BITS F ∧ (bitsVal xs : F) = ρ a.var :=
  (Synth.wpS_iff ..).1 (AllocatedNum.wpS_toBitsLe h1 a)

/-- C11: honest prover; the bits are the canonical ones. -/
theorem C11_toBitsLe_complete (h1 : ρ .one = 1) {a : AllocatedNum F} {x : F} (ha : a.Has ρ x) :
    Complete ρ a.toBitsLe fun o =>
      List.Forall₂ (Boolean.Has ρ) o ((List.range (NUM_BITS F)).map fun i => (val x).testBit i) :=
  Synth.wpC_sound (AllocatedNum.wpC_toBitsLe h1 ha)

/-- A dishonest version of `to_bits_le`: the bits are chosen freely (proof device of `C11_toBitsLe_not_unique`). -/
private def fakeBits (a : AllocatedNum F) (xs : List Bool) : Synth F (List Boolean) := do
  let bits ← allocBits 0 (xs.map some)
  let lc := AllocatedNum.packLoop (LC.zero : LC F) 1 bits
  let lc := lc - a.var
  Synth.enforce "unpacking constraint" (fun lc => lc) (fun lc => lc) (fun _ => lc)
  pure (bits.map Boolean.is)

private theorem shape_fakeBits (a : AllocatedNum F) {xs : List Bool} (h : xs.length = NUM_BITS F) :
    SShape (List.Forall₂ Boolean.Same) (fakeBits a xs) a.toBitsLe := by
  have key : SShape (F := F) (List.Forall₂ AllocatedBit.Same) (allocBits 0 (xs.map some))
      (fieldIntoAllocatedBitsLe (K := F) a.value) := by
    cases a.value with
    | none =>
      unfold fieldIntoAllocatedBitsLe
      exact shape_allocBits 0 (by simp [h])
    | some v =>
      unfold fieldIntoAllocatedBitsLe
      dsimp only
      rw [skipLeading_field, if_pos (by simp)]
      exact shape_allocBits 0 (by simp [h])
  refine SShape.bind key fun bs bs' hb => ?_
  refine SShape.bind (SShape.enforce _ rfl rfl ?_) fun _ _ _ => SShape.pure (shape_map_is hb)
  rw [AllocatedNum.packLoop_same hb]

/-- C11: `to_bits_le` is *not* unique.  For any multiple of `p` that still fits, in particular for every number whose
representative is below `2^NUM_BITS - p`, there is a run of the gadget (with the usual variable numbers) and an assignment
that satisfies all its constraints, agrees with the existing assignment, and gives non-canonical bits. -/
theorem C11_toBitsLe_not_unique (is as : List F) (a : AllocatedNum F)
    (ha : a.var.InRange (1 :: is).length as.length) (hx : val (assign (1 :: is) as a.var) + p F < 2 ^ NUM_BITS F) :
    ∃ ρ t o, Extends (1 :: is) as ρ ∧ ρ .one = 1 ∧ Exec a.toBitsLe.run t (some (.ok o)) ∧
      Numbered (1 :: is).length as.length t ∧ Sat ρ t ∧
      ¬ List.Forall₂ (Boolean.Bit ρ) o ((List.range (NUM_BITS F)).map fun i => (val (ρ a.var)).testBit i) := by
  set x := assign (1 :: is) as a.var with hxd
  set xs := leBits (NUM_BITS F) (val x + p F) with hxs
  have hlen : xs.length = NUM_BITS F := by simp [hxs]
  have hval : (bitsVal xs : F) = x := by
    rw [hxs, bitsVal_leBits, Nat.mod_eq_of_lt hx, Nat.cast_add, cast_val]
    have : ((p F : ℕ) : F) = 0 := (CharP.cast_eq_zero_iff F (p F) (p F)).2 dvd_rfl
    rw [this, add_zero]
  have hne : xs ≠ leBits (NUM_BITS F) (val x) := by
    intro h
    have := congrArg bitsVal h
    rw [hxs, bitsVal_leBits, bitsVal_leBits, Nat.mod_eq_of_lt hx, Nat.mod_eq_of_lt (by omega)] at this
    have hp := (PrimeField.prime (F := F)).pos
    omega
  have hc : ∀ ρ, Extends (1 :: is) as ρ → Complete ρ (fakeBits a xs) fun o => List.Forall₂ (Boolean.Has ρ) o xs := by
    intro ρ he
    refine Synth.wpC_sound ?_
    unfold fakeBits
    rw [Synth.wpC_bind]
    refine Synth.wpC_mono (wpC_allocBits he.one 0 xs) fun bs hb => ?_
    rw [Synth.wpC_bind, Synth.wpC_enforce, Synth.wpC_pure]
    refine ⟨?_, forall₂_has_is hb⟩
    have := eval_packLoop (forall₂_bit_of_has hb) (LC.zero : LC F) 1
    simp only [LC.eval_subVar, this, hval, he a.var ha, LC.eval_zero]
    change (LC.zero : LC F).eval ρ * _ = _
    simp [LC.eval_zero, hxd]
  obtain ⟨ρ, t, bs, hex, he, hn, hag, hs, hq⟩ := Complete.realized (1 :: is) as hc
  obtain ⟨t₂, o, he₂, hsame, hR⟩ := (shape_fakeBits a hlen).transfer he.exec
  refine ⟨ρ, t₂, o, hex, hex.one, he₂, Ev.Same.numbered hsame hn, Ev.Same.sat hsame hs, ?_⟩
  intro hcan
  rw [hex a.var ha, ← hxd] at hcan
  apply hne
  exact Boolean.bits_unique hex.one (Boolean.Same.bits hR (hq.imp fun _ _ h => h.2)) hcan

/-- The BLS12-381 scalar 5: `5 + r < 2^255`, so a non-canonical decomposition exists. -/
example : ∃ (ρ : Var → BlsScalar) (t : _) (o : _), Extends [1] [5] ρ ∧ ρ .one = 1 ∧
    Exec (⟨some 5, .aux 0⟩ : AllocatedNum BlsScalar).toBitsLe.run t (some (.ok o)) ∧ Numbered 1 1 t ∧ Sat ρ t ∧
    ¬ List.Forall₂ (Boolean.Bit ρ) o
      ((List.range (NUM_BITS BlsScalar)).map fun i => (val (ρ (.aux 0))).testBit i) :=
  C11_toBitsLe_not_unique (F := BlsScalar) [] [5] ⟨some 5, .aux 0⟩ (by simp [Var.InRange]) (by decide +kernel)

example : ∃ (ρ : Var → DummyFr) (t : _) (o : _), ρ .one = 1 ∧
    Exec (⟨some 5, .aux 0⟩ : AllocatedNum DummyFr).toBitsLe.run t (some (.ok o)) ∧ Sat ρ t ∧ o.length = 16 := by
  obtain ⟨ρ, t, a, hx, he, -, -, hs, hq⟩ := Complete.realized (F := DummyFr) [1] [5] fun ρ hx =>
    C11_toBitsLe_complete (a := ⟨some 5, .aux 0⟩) (x := 5) hx.one ⟨rfl, hx (.aux 0) (by simp [Var.InRange])⟩
  exact ⟨ρ, t, a, hx.one, he.exec, hs, by rw [hq.length_eq, List.length_map, List.length_range]; rfl⟩

/-! ### C12 -/

/-- C12: `lookup3_xy` returns the row addressed by the three bits, least significant first. -/
theorem C12_lookup3_sound (h1 : ρ .one = 1) {b0 b1 b2 : Boolean} {x y z : Bool} (hx : b0.Bit ρ x) (hy : b1.Bit ρ y)
    (hz : b2.Bit ρ z) (coords : List (F × F)) :
    Sound ρ (lookup3xy [b0, b1, b2] coords) fun o =>
      coords[x.toNat + 2 * y.toNat + 4 * z.toNat]? = some (ρ o.1.var, ρ o.2.var) := by
  have := (Synth.wpS_iff ..).1 (wpS_lookup3xy h1 hx hy hz coords)
  simpa only [idx3] using this

/-- C12: `lookup3_xy`, honest prover, every table of eight rows. -/
theorem C12_lookup3_complete (h1 : ρ .one = 1) {b0 b1 b2 : Boolean} {x y z : Bool} (hx : b0.Has ρ x) (hy : b1.Has ρ y)
    (hz : b2.Has ρ z) {coords : List (F × F)} (hlen : coords.length = 8) :
    Complete ρ (lookup3xy [b0, b1, b2] coords) fun o =>
      ∃ c, coords[x.toNat + 2 * y.toNat + 4 * z.toNat]? = some c ∧ o.1.Has ρ c.1 ∧ o.2.Has ρ c.2 := by
  have := Synth.wpC_sound (wpC_lookup3xy h1 hx hy hz hlen)
  simpa only [idx3] using this

/-- C12: `lookup3_xy_with_conditional_negation`: the x of the row addressed by the first two bits, and its y, negated
exactly when the third bit is set. -/
theorem C12_lookupNeg_sound (h1 : ρ .one = 1) {b0 b1 b2 : Boolean} {x y z : Bool} (hx : b0.Bit ρ x) (hy : b1.Bit ρ y)
    (hz : b2.Bit ρ z) (coords : List (F × F)) :
    Sound ρ (lookup3xyWithConditionalNegation [b0, b1, b2] coords) fun o =>
      ∃ c, coords[x.toNat + 2 * y.toNat]? = some c ∧ o.1.Is ρ c.1 ∧ o.2.Is ρ (if z then -c.2 else c.2) := by
  have := (Synth.wpS_iff ..).1 (wpS_lookup3xyWithConditionalNegation h1 hx hy hz coords)
  simpa only [idx2] using this

/-- C12: the same, honest prover, every table of four rows. -/
theorem C12_lookupNeg_complete (h1 : ρ .one = 1) {b0 b1 b2 : Boolean} {x y z : Bool} (hx : b0.Has ρ x) (hy : b1.Has ρ y)
    (hz : b2.Has ρ z) {coords : List (F × F)} (hlen : coords.length = 4) :
    Complete ρ (lookup3xyWithConditionalNegation [b0, b1, b2] coords) fun o =>
      ∃ c, coords[x.toNat + 2 * y.toNat]? = some c ∧ o.1.Has ρ c.1 ∧ o.2.Has ρ (if z then -c.2 else c.2) := by
  have := Synth.wpC_sound (wpC_lookup3xyWithConditionalNegation h1 hx hy hz hlen)
  simpa only [idx2] using this

section NonVacuous
private abbrev l0 : Boolean := .is ⟨.aux 0, some true⟩
private abbrev l1 : Boolean := .not ⟨.aux 0, some true⟩
private abbrev l2 : Boolean := .constant true

private theorem hl0 {ρ : Var → DummyFr} (hx : Extends [1] [1] ρ) : l0.Has ρ true :=
  ⟨rfl, hx (.aux 0) (by simp [Var.InRange])⟩
private theorem hl1 {ρ : Var → DummyFr} (hx : Extends [1] [1] ρ) : l1.Has ρ false :=
  Boolean.has_neg (hl0 hx)
private theorem hl2 {ρ : Var → DummyFr} : l2.Has ρ true := ⟨rfl, rfl⟩

/-- A lookup of row 5 with a variable, a negated variable and a constant. -/
example : ∃ (ρ : Var → DummyFr) (t : _) (o : _), ρ .one = 1 ∧ l0.Bit ρ true ∧ l1.Bit ρ false ∧ l2.Bit ρ true ∧
    Exec (lookup3xy [l0, l1, l2] [((0 : DummyFr), 0), (1, 10), (2, 20), (3, 30), (4, 40), (5, 50), (6, 60), (7, 70)]).run t
      (some (.ok o)) ∧ Sat ρ t ∧ ρ o.1.var = 5 ∧ ρ o.2.var = 50 := by
  obtain ⟨ρ, t, a, hx, he, -, -, hs, hq⟩ := Complete.realized (F := DummyFr) [1] [1] fun ρ hx =>
    C12_lookup3_complete hx.one (hl0 hx) (hl1 hx) hl2
      (coords := [((0 : DummyFr), 0), (1, 10), (2, 20), (3, 30), (4, 40), (5, 50), (6, 60), (7, 70)]) rfl
  obtain ⟨c, hc, hc1, hc2⟩ := hq
  simp at hc
  subst hc
  exact ⟨ρ, t, a, hx.one, (hl0 hx).2, (hl1 hx).2, hl2.2, he.exec, hs, hc1.2, hc2.2⟩

example : ∃ (ρ : Var → DummyFr) (t : _) (o : _), ρ .one = 1 ∧
    Exec (lookup3xyWithConditionalNegation [l0, l1, l2] [((0 : DummyFr), 0), (1, 10), (2, 20), (3, 30)]).run t
      (some (.ok o)) ∧ Sat ρ t ∧ o.1.Is ρ 1 ∧ o.2.Is ρ (-10) := by
  obtain ⟨ρ, t, a, hx, he, -, -, hs, hq⟩ := Complete.realized (F := DummyFr) [1] [1] fun ρ hx =>
    C12_lookupNeg_complete hx.one (hl0 hx) (hl1 hx) hl2
      (coords := [((0 : DummyFr), 0), (1, 10), (2, 20), (3, 30)]) rfl
  obtain ⟨c, hc, hc1, hc2⟩ := hq
  simp at hc
  subst hc
  exact ⟨ρ, t, a, hx.one, he.exec, hs, hc1.2, hc2.2⟩

end NonVacuous

/-! ### C13 -/

/-- C13: in every satisfying assignment the public inputs `pack_into_inputs` allocates are, in order, exactly the elements
`compute_multipacking` produces from the bits. -/
theorem C13_pack_sound (h1 : ρ .one = 1) {bits : List Boolean} {xs : List Bool}
    (h : List.Forall₂ (Boolean.Bit ρ) bits xs) {t : List (Ev F)}
    (he : Exec (packIntoInputs (F := F) bits).run t (some (.ok ()))) (hs : Sat ρ t) :
    computeMultipacking F xs = some ((inputsOf t).map ρ) := exec_packIntoInputs h1 h he hs

/-- C13: honest prover. -/
theorem C13_pack_complete (h1 : ρ .one = 1) {bits : List Boolean} {xs : List Bool}
    (h : List.Forall₂ (Boolean.Has ρ) bits xs) : Complete ρ (packIntoInputs (F := F) bits) fun _ => True :=
  Synth.wpC_sound (wpC_packIntoInputs h1 h)

/-- C13: the number of public inputs is that of elements, whether or not the constraints hold. -/
theorem C13_pack_count {bits : List Boolean} {xs : List Bool} (hl : bits.length = xs.length) {t : List (Ev F)}
    (he : Exec (packIntoInputs (F := F) bits).run t (some (.ok ()))) :
    (computeMultipacking F xs).map List.length = some (inputsOf t).length := by
  have key : ∀ (cs : List (List Boolean)) (i : ℕ) (t : List (Ev F)), Exec (packChunks (F := F) i cs).run t (some (.ok ())) →
      (inputsOf t).length = cs.length := by
    intro cs
    induction cs with
    | nil => intro i t he; obtain ⟨rfl, _⟩ := Synth.exec_pure_inv he; rfl
    | cons c cs ih =>
      intro i t he
      rw [packChunks] at he
      obtain ⟨t1, t2, inp, rfl, he1, he3⟩ := Synth.exec_bind_inv he
      obtain ⟨t2, t3, u, rfl, he2, he4⟩ := Synth.exec_bind_inv he3
      have e1 := Synth.exec_allocInput_inv he1
      have e2 := Synth.exec_enforce_inv he2
      subst e1 e2
      simp [ih _ _ he4]
  unfold packIntoInputs chunks? at he
  rw [if_neg (by have := capacity_pos (F := F); omega)] at he
  rw [computeMultipacking_eq, key _ _ _ he, Option.map_some, List.length_map]
  have := congrArg List.length (chunksAux_shape (CAPACITY F) bits.length bits xs hl)
  simp only [List.length_map] at this
  rw [this, hl]

/-- C13: the elements are the weighted sums of consecutive pieces of `CAPACITY` bits, least significant bit first. -/
theorem C13_multipacking_spec (xs : List Bool) :
    ∃ cs : List (List Bool), cs.flatten = xs ∧ (∀ c ∈ cs, c.length ≤ CAPACITY F) ∧
      computeMultipacking F xs = some (cs.map fun c => (bitsVal c : F)) :=
  ⟨_, chunksAux_flatten _ capacity_pos _ _ le_rfl, fun c hc => chunksAux_length_le _ _ _ c hc, computeMultipacking_eq xs⟩

/-- C13: packing is injective on bit strings of the same length. -/
theorem C13_multipacking_inj {xs ys : List Bool} (hl : xs.length = ys.length)
    (h : computeMultipacking F xs = computeMultipacking F ys) : xs = ys := computeMultipacking_inj hl h

private theorem bit_shift (v : BitVec 8) (i : ℕ) : ((v >>> i) &&& 1#8 == 1#8) = v.getLsbD i := by
  rw [Bool.eq_iff_iff, beq_iff_eq]
  constructor
  · intro h
    have := congrArg (fun w => w.getLsbD 0) h
    simpa using this
  · intro h
    ext j hj
    by_cases h0 : j = 0
    · subst h0; simpa using h
    · simp [h0]

private theorem flatMap8 (g : BitVec 8 → List Bool) (hg : ∀ v, (g v).length = 8) (bytes : List (BitVec 8)) (k i : ℕ)
    (hi : i < 8) : (bytes.flatMap g)[8 * k + i]? = bytes[k]?.bind fun v => (g v)[i]? := by
  induction bytes generalizing k with
  | nil => simp
  | cons v bytes ih =>
    rw [List.flatMap_cons]
    cases k with
    | zero => rw [List.getElem?_append_left (by rw [hg]; omega)]; simp
    | succ k =>
      rw [List.getElem?_append_right (by rw [hg]; omega), hg, show 8 * (k + 1) + i - 8 = 8 * k + i by omega, ih]
      simp

/-- C13: `bytes_to_bits_le`: bit `i` of byte `k` is at position `8k + i`. -/
theorem C13_bytesToBitsLe (bytes : List (BitVec 8)) :
    (bytesToBitsLe bytes).length = 8 * bytes.length ∧
    ∀ k i, i < 8 → (bytesToBitsLe bytes)[8 * k + i]? = bytes[k]?.map fun v => v.getLsbD i := by
  constructor
  · simp [bytesToBitsLe, List.length_flatMap, Nat.mul_comm]
  · intro k i hi
    rw [bytesToBitsLe, flatMap8 _ (by simp) bytes k i hi]
    cases bytes[k]? with
    | none => rfl
    | some v => simp [hi, bit_shift]

/-- C13: `bytes_to_bits`: bit `7 - i` of byte `k` is at position `8k + i`. -/
theorem C13_bytesToBits (bytes : List (BitVec 8)) :
    (bytesToBits bytes).length = 8 * bytes.length ∧
    ∀ k i, i < 8 → (bytesToBits bytes)[8 * k + i]? = bytes[k]?.map fun v => v.getLsbD (7 - i) := by
  constructor
  · simp [bytesToBits, List.length_flatMap, Nat.mul_comm]
  · intro k i hi
    rw [bytesToBits, flatMap8 _ (by simp) bytes k i hi]
    cases bytes[k]? with
    | none => rfl
    | some v =>
      rw [Option.bind_some, Option.map_some, List.getElem?_map, List.getElem?_reverse (by simpa using hi)]
      rw [List.length_range, List.getElem?_range (by omega)]
      simp only [Option.map_some]
      rw [bit_shift, show 8 - 1 - i = 7 - i by omega]

private theorem bytes_inj {f : List (BitVec 8) → List Bool} {σ : ℕ → ℕ} (hσ : ∀ i, i < 8 → ∃ j, j < 8 ∧ σ j = i)
    (h : ∀ bytes, (f bytes).length = 8 * bytes.length ∧
      ∀ k i, i < 8 → (f bytes)[8 * k + i]? = bytes[k]?.map fun v => v.getLsbD (σ i)) : Function.Injective f := by
  intro b b' hb
  have hl : b.length = b'.length := by
    have := congrArg List.length hb
    rw [(h b).1, (h b').1] at this
    omega
  apply List.ext_getElem hl
  intro k hk hk'
  apply BitVec.eq_of_getLsbD_eq
  intro i hi
  obtain ⟨j, hj, rfl⟩ := hσ i hi
  have := congrArg (fun l => l[8 * k + j]?) hb
  simp only [(h b).2 k j hj, (h b').2 k j hj] at this
  simpa [hk, hk'] using this

/-- C13: both are injective. -/
theorem C13_bytes_injective : Function.Injective bytesToBits ∧ Function.Injective bytesToBitsLe :=
  ⟨bytes_inj (σ := fun i => 7 - i) (fun i hi => ⟨7 - i, by omega, by omega⟩) C13_bytesToBits,
   bytes_inj (σ := id) (fun i hi => ⟨i, hi, rfl⟩) C13_bytesToBitsLe⟩

/-- Twenty bits over the 16-bit dummy field (capacity 15): two public inputs. -/
example : ∃ (ρ : Var → DummyFr) (t : _), ρ .one = 1 ∧
    List.Forall₂ (Boolean.Bit ρ) (List.replicate 20 (.is ⟨.aux 0, some true⟩)) (List.replicate 20 true) ∧
    Exec (packIntoInputs (F := DummyFr) (List.replicate 20 (.is ⟨.aux 0, some true⟩))).run t (some (.ok ())) ∧ Sat ρ t := by
  have hb : ∀ ρ : Var → DummyFr, Extends [1] [1] ρ →
      List.Forall₂ (Boolean.Has ρ) (List.replicate 20 (.is ⟨.aux 0, some true⟩)) (List.replicate 20 true) := by
    intro ρ hx
    have : (Boolean.is ⟨.aux 0, some true⟩).Has ρ true := ⟨rfl, hx (.aux 0) (by simp [Var.InRange])⟩
    generalize 20 = n
    induction n with
    | zero => exact .nil
    | succ n ih => exact .cons this ih
  obtain ⟨ρ, t, a, hx, he, -, -, hs, -⟩ := Complete.realized (F := DummyFr) (Q := fun _ _ => True) [1] [1] fun ρ hx =>
    C13_pack_complete hx.one (hb ρ hx)
  exact ⟨ρ, t, hx.one, (hb ρ hx).imp fun _ _ h => h.2, he.exec, hs⟩

end Bellman
