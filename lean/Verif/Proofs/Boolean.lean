import Verif.Gadgets.Boolean
import Mathlib.Tactic.LinearCombination

/-!
# Lemmas about the Boolean gadgets
-/

set_option linter.unusedSimpArgs false
set_option linter.unusedTactic false
set_option linter.unreachableTactic false
set_option linter.unusedSectionVars false
set_option linter.unusedVariables false

namespace Bellman

open PrimeField

variable {F : Type} [PrimeField F] {ρ : Var → F}

/-- Under `ρ`, the variable of `a` holds the bit `x` (specification). -/
def AllocatedBit.Bit (ρ : Var → F) (a : AllocatedBit) (x : Bool) : Prop := ρ a.var = if x then 1 else 0

/-- Under `ρ`, `a` denotes the bit `x` (specification): `Is`/`Not`/`Constant` read as documented at
src/gadgets/boolean.rs:358-368. -/
def Boolean.Bit (ρ : Var → F) : Boolean → Bool → Prop
  | .is a, x => a.Bit ρ x
  | .not a, x => a.Bit ρ (!x)
  | .constant c, x => c = x

/-- `a` carries the value `x` and the assignment agrees. -/
def AllocatedBit.Has (ρ : Var → F) (a : AllocatedBit) (x : Bool) : Prop := a.value = some x ∧ a.Bit ρ x

/-- `a.get_value()` is `x` and the assignment agrees. -/
def Boolean.Has (ρ : Var → F) (a : Boolean) (x : Bool) : Prop := a.getValue = some x ∧ a.Bit ρ x

@[simp] theorem boolF_true : (boolF true : F) = 1 := rfl
@[simp] theorem boolF_false : (boolF false : F) = 0 := rfl

@[simp] theorem Synth.optGet_some {α : Type} (x : α) : Synth.optGet (some x) = .ok x := rfl
@[simp] theorem Synth.optGet_none {α : Type} : Synth.optGet (none : Option α) = .error .assignmentMissing := rfl

theorem wpS_allocCapture (n : String) (fb) (Q : Var × Option Bool → Prop) :
    Synth.wpS ρ (allocCapture n fb) Q ↔
      (∀ x, Q (x, none)) ∧ (∀ x v, fb = .ok v → Q (x, some v)) := by
  unfold allocCapture
  simp only [Synth.wpS_bind, Synth.wpS_alloc, Synth.wpS_pure]
  refine and_congr (by simp) ?_
  cases fb with
  | error e => simp [Except.map]
  | ok b => simp [Except.map, Except.toOption]

theorem wpC_allocCapture (n : String) (fb) (Q : Var × Option Bool → Prop) :
    Synth.wpC ρ (allocCapture n fb) Q ↔ ∃ b, fb = .ok b ∧ ∀ x, ρ x = boolF b → Q (x, some b) := by
  unfold allocCapture
  simp only [Synth.wpC_bind, Synth.wpC_alloc, Synth.wpC_pure]
  cases fb with
  | error e => simp [Except.map]
  | ok b => simp [Except.map, Except.toOption]

/-! ### AllocatedBit -/

namespace AllocatedBit

theorem wpS_alloc (h1 : ρ .one = 1) (v : Option Bool) :
    Synth.wpS ρ (alloc v) fun o => ∃ x, o.Bit ρ x := by
  unfold alloc
  simp only [Synth.wpS_bind, Synth.wpS_alloc, Synth.wpS_enforce, Synth.wpS_pure, LC.eval_addVar, LC.eval_subVar,
    LC.eval_zero, h1, Bit]
  have key : ∀ x : Var, (0 + 1 - ρ x) * (0 + ρ x) = 0 → ∃ b : Bool, ρ x = if b then 1 else 0 := by
    intro x h
    rcases mul_eq_zero.1 h with h | h
    · exact ⟨true, by simp; linear_combination -h⟩
    · exact ⟨false, by simpa using h⟩
  exact ⟨key, fun x _ _ => key x⟩

theorem wpC_alloc (h1 : ρ .one = 1) (x : Bool) :
    Synth.wpC ρ (alloc (some x)) fun o => o.Has ρ x := by
  unfold alloc
  simp only [Synth.wpC_bind, Synth.wpC_alloc, Synth.wpC_enforce, Synth.wpC_pure, LC.eval_addVar, LC.eval_subVar,
    LC.eval_zero, h1, Has, Bit, Synth.optGet_some, Except.map]
  refine ⟨_, rfl, fun v hv => ?_⟩
  cases x <;> simp_all

theorem wpS_allocConditionally (h1 : ρ .one = 1) (v : Option Bool) {m : AllocatedBit} {y : Bool}
    (hm : m.Bit ρ y) :
    Synth.wpS ρ (allocConditionally v m) fun o => ∃ x, o.Bit ρ x ∧ (y = true → x = false) := by
  unfold allocConditionally
  simp only [Synth.wpS_bind, Synth.wpS_alloc, Synth.wpS_enforce, Synth.wpS_pure, LC.eval_addVar, LC.eval_subVar,
    LC.eval_zero, h1, Bit]
  have key : ∀ x : Var, (0 + 1 - ρ m.var - ρ x) * (0 + ρ x) = 0 →
      ∃ b : Bool, (ρ x = if b then 1 else 0) ∧ (y = true → b = false) := by
    intro x h
    unfold Bit at hm
    cases y
    · rcases mul_eq_zero.1 h with h | h
      · refine ⟨true, by simp at hm ⊢; linear_combination -h - hm, by simp⟩
      · exact ⟨false, by simpa using h, by simp⟩
    · refine ⟨false, ?_, by simp⟩
      simp at hm
      rw [hm] at h
      simpa using h
  exact ⟨key, fun x _ _ => key x⟩

theorem wpC_allocConditionally (h1 : ρ .one = 1) (x y : Bool) {m : AllocatedBit} (hm : m.Bit ρ y)
    (hxy : y = true → x = false) :
    Synth.wpC ρ (allocConditionally (some x) m) fun o => o.Has ρ x := by
  unfold allocConditionally
  simp only [Synth.wpC_bind, Synth.wpC_alloc, Synth.wpC_enforce, Synth.wpC_pure, LC.eval_addVar, LC.eval_subVar,
    LC.eval_zero, h1, Has, Bit, Synth.optGet_some, Except.map]
  refine ⟨_, rfl, fun v hv => ?_⟩
  unfold Bit at hm
  cases x <;> cases y <;> simp_all

theorem wpS_xor {a b : AllocatedBit} {x y : Bool} (ha : a.Bit ρ x) (hb : b.Bit ρ y) :
    Synth.wpS ρ (xor a b) fun o => o.Bit ρ (x ^^ y) := by
  unfold xor
  simp only [Synth.wpS_bind, wpS_allocCapture, Synth.wpS_enforce, Synth.wpS_pure, LC.eval_addVar, LC.eval_subVar,
    LC.eval_zero, Bit] at ha hb ⊢
  have key : ∀ v : Var, (0 + ρ a.var + ρ a.var) * (0 + ρ b.var) = 0 + ρ a.var + ρ b.var - ρ v →
      ρ v = if (x ^^ y) then 1 else 0 := by
    intro v h
    rw [ha, hb] at h
    cases x <;> cases y <;> simp at h ⊢ <;> first | exact h | linear_combination h | linear_combination -h
  exact ⟨key, fun v _ _ => key v⟩

theorem wpC_xor {a b : AllocatedBit} {x y : Bool} (ha : a.Has ρ x) (hb : b.Has ρ y) :
    Synth.wpC ρ (xor a b) fun o => o.Has ρ (x ^^ y) := by
  unfold xor
  simp only [Synth.wpC_bind, wpC_allocCapture, Synth.wpC_enforce, Synth.wpC_pure, LC.eval_addVar, LC.eval_subVar,
    LC.eval_zero, Has, Bit] at ha hb ⊢
  rw [ha.1, hb.1]
  refine ⟨_, rfl, fun v hv => ?_⟩
  rw [ha.2, hb.2, hv]
  cases x <;> cases y <;> simp [pure, Except.pure, boolF] <;> ring

theorem wpS_and {a b : AllocatedBit} {x y : Bool} (ha : a.Bit ρ x) (hb : b.Bit ρ y) :
    Synth.wpS ρ (and a b) fun o => o.Bit ρ (x && y) := by
  unfold and
  simp only [Synth.wpS_bind, wpS_allocCapture, Synth.wpS_enforce, Synth.wpS_pure, LC.eval_addVar, LC.eval_subVar,
    LC.eval_zero, Bit] at ha hb ⊢
  have key : ∀ v : Var, (0 + ρ a.var) * (0 + ρ b.var) = 0 + ρ v →
      ρ v = if (x && y) then 1 else 0 := by
    intro v h
    rw [ha, hb] at h
    cases x <;> cases y <;> simp at h ⊢ <;> first | exact h | linear_combination h | linear_combination -h
  exact ⟨key, fun v _ _ => key v⟩

theorem wpC_and {a b : AllocatedBit} {x y : Bool} (ha : a.Has ρ x) (hb : b.Has ρ y) :
    Synth.wpC ρ (and a b) fun o => o.Has ρ (x && y) := by
  unfold and
  simp only [Synth.wpC_bind, wpC_allocCapture, Synth.wpC_enforce, Synth.wpC_pure, LC.eval_addVar, LC.eval_subVar,
    LC.eval_zero, Has, Bit] at ha hb ⊢
  rw [ha.1, hb.1]
  refine ⟨_, rfl, fun v hv => ?_⟩
  rw [ha.2, hb.2, hv]
  cases x <;> cases y <;> simp [pure, Except.pure, boolF]

theorem wpS_andNot (h1 : ρ .one = 1) {a b : AllocatedBit} {x y : Bool} (ha : a.Bit ρ x) (hb : b.Bit ρ y) :
    Synth.wpS ρ (andNot a b) fun o => o.Bit ρ (x && !y) := by
  unfold andNot
  simp only [Synth.wpS_bind, wpS_allocCapture, Synth.wpS_enforce, Synth.wpS_pure, LC.eval_addVar, LC.eval_subVar,
    LC.eval_zero, Bit, h1] at ha hb ⊢
  have key : ∀ v : Var, (0 + ρ a.var) * (0 + 1 - ρ b.var) = 0 + ρ v →
      ρ v = if (x && !y) then 1 else 0 := by
    intro v h
    rw [ha, hb] at h
    cases x <;> cases y <;> simp at h ⊢ <;> first | exact h | linear_combination h | linear_combination -h
  exact ⟨key, fun v _ _ => key v⟩

theorem wpC_andNot (h1 : ρ .one = 1) {a b : AllocatedBit} {x y : Bool} (ha : a.Has ρ x) (hb : b.Has ρ y) :
    Synth.wpC ρ (andNot a b) fun o => o.Has ρ (x && !y) := by
  unfold andNot
  simp only [Synth.wpC_bind, wpC_allocCapture, Synth.wpC_enforce, Synth.wpC_pure, LC.eval_addVar, LC.eval_subVar,
    LC.eval_zero, Has, Bit, h1] at ha hb ⊢
  rw [ha.1, hb.1]
  refine ⟨_, rfl, fun v hv => ?_⟩
  rw [ha.2, hb.2, hv]
  cases x <;> cases y <;> simp [pure, Except.pure, boolF]

theorem wpS_nor (h1 : ρ .one = 1) {a b : AllocatedBit} {x y : Bool} (ha : a.Bit ρ x) (hb : b.Bit ρ y) :
    Synth.wpS ρ (nor a b) fun o => o.Bit ρ (!x && !y) := by
  unfold nor
  simp only [Synth.wpS_bind, wpS_allocCapture, Synth.wpS_enforce, Synth.wpS_pure, LC.eval_addVar, LC.eval_subVar,
    LC.eval_zero, Bit, h1] at ha hb ⊢
  have key : ∀ v : Var, (0 + 1 - ρ a.var) * (0 + 1 - ρ b.var) = 0 + ρ v →
      ρ v = if (!x && !y) then 1 else 0 := by
    intro v h
    rw [ha, hb] at h
    cases x <;> cases y <;> simp at h ⊢ <;> first | exact h | linear_combination h | linear_combination -h
  exact ⟨key, fun v _ _ => key v⟩

theorem wpC_nor (h1 : ρ .one = 1) {a b : AllocatedBit} {x y : Bool} (ha : a.Has ρ x) (hb : b.Has ρ y) :
    Synth.wpC ρ (nor a b) fun o => o.Has ρ (!x && !y) := by
  unfold nor
  simp only [Synth.wpC_bind, wpC_allocCapture, Synth.wpC_enforce, Synth.wpC_pure, LC.eval_addVar, LC.eval_subVar,
    LC.eval_zero, Has, Bit, h1] at ha hb ⊢
  rw [ha.1, hb.1]
  refine ⟨_, rfl, fun v hv => ?_⟩
  rw [ha.2, hb.2, hv]
  cases x <;> cases y <;> simp [pure, Except.pure, boolF]

end AllocatedBit

/-! ### Boolean -/

namespace Boolean

theorem eval_lc (h1 : ρ .one = 1) {b : Boolean} {x : Bool} (hb : b.Bit ρ x) (c : F) :
    (b.lc c).eval ρ = if x then c else 0 := by
  cases b with
  | is v => unfold Bit AllocatedBit.Bit at hb; cases x <;> simp_all [lc]
  | not v => unfold Bit AllocatedBit.Bit at hb; cases x <;> simp_all [lc]
  | constant d => unfold Bit at hb; subst hb; cases d <;> simp [lc, h1]

theorem bit_unique (h1 : ρ .one = 1) {b : Boolean} {x y : Bool} (hx : b.Bit ρ x) (hy : b.Bit ρ y) : x = y := by
  have h := eval_lc h1 hx 1
  rw [eval_lc h1 hy 1] at h
  cases x <;> cases y <;> simp_all

theorem bit_neg {b : Boolean} {x : Bool} (h : b.Bit ρ x) : b.neg.Bit ρ (!x) := by
  cases b <;> simp_all [Bit, neg]

theorem has_neg {b : Boolean} {x : Bool} (h : b.Has ρ x) : b.neg.Has ρ (!x) := by
  refine ⟨?_, bit_neg h.2⟩
  have := h.1
  cases b <;> simp_all [getValue, neg]

@[simp] theorem bit_is {a : AllocatedBit} {x : Bool} : (Boolean.is a).Bit ρ x ↔ a.Bit ρ x := Iff.rfl
@[simp] theorem bit_not {a : AllocatedBit} {x : Bool} : (Boolean.not a).Bit ρ x ↔ a.Bit ρ (!x) := Iff.rfl
@[simp] theorem bit_constant {c x : Bool} : (Boolean.constant c).Bit ρ x ↔ c = x := Iff.rfl

theorem has_is {a : AllocatedBit} {x : Bool} : (Boolean.is a).Has ρ x ↔ a.Has ρ x := Iff.rfl
theorem has_not {a : AllocatedBit} {x : Bool} : (Boolean.not a).Has ρ x ↔ a.Has ρ (!x) := by
  unfold Has AllocatedBit.Has
  refine and_congr ?_ Iff.rfl
  simp only [getValue, Option.map_eq_some_iff]
  constructor
  · rintro ⟨a, h1, h2⟩; rw [h1, ← h2]; simp
  · intro h; exact ⟨_, h, by simp⟩
theorem has_constant {c x : Bool} : (Boolean.constant c).Has ρ x ↔ c = x := by
  simp [Has, getValue]

theorem wpS_xor {a b : Boolean} {x y : Bool} (ha : a.Bit ρ x) (hb : b.Bit ρ y) :
    Synth.wpS ρ (xor a b) fun o => o.Bit ρ (x ^^ y) := by
  unfold xor
  split
  · simp only [bit_constant] at ha; subst ha; simpa using hb
  · simp only [bit_constant] at hb; subst hb; simpa using ha
  · simp only [bit_constant] at ha; subst ha; simpa using bit_neg hb
  · simp only [bit_constant] at hb; subst hb; simpa using bit_neg ha
  · rw [Synth.wpS_bind]
    refine Synth.wpS_mono (AllocatedBit.wpS_xor ha (bit_not.1 hb)) fun o ho => ?_
    simp only [Synth.wpS_pure]
    have := bit_neg (b := .is o) (bit_is.2 ho)
    cases x <;> cases y <;> exact this
  · rw [Synth.wpS_bind]
    refine Synth.wpS_mono (AllocatedBit.wpS_xor hb (bit_not.1 ha)) fun o ho => ?_
    simp only [Synth.wpS_pure]
    have := bit_neg (b := .is o) (bit_is.2 ho)
    cases x <;> cases y <;> exact this
  · rw [Synth.wpS_bind]
    exact Synth.wpS_mono (AllocatedBit.wpS_xor ha hb) fun o ho => ho
  · rw [Synth.wpS_bind]
    refine Synth.wpS_mono (AllocatedBit.wpS_xor (bit_not.1 ha) (bit_not.1 hb)) fun o ho => ?_
    simp only [Synth.wpS_pure]
    cases x <;> cases y <;> exact ho

theorem wpC_xor {a b : Boolean} {x y : Bool} (ha : a.Has ρ x) (hb : b.Has ρ y) :
    Synth.wpC ρ (xor a b) fun o => o.Has ρ (x ^^ y) := by
  unfold xor
  split
  · rw [has_constant] at ha; subst ha; simpa using hb
  · rw [has_constant] at hb; subst hb; simpa using ha
  · rw [has_constant] at ha; subst ha; simpa using has_neg hb
  · rw [has_constant] at hb; subst hb; simpa using has_neg ha
  · rw [Synth.wpC_bind]
    refine Synth.wpC_mono (AllocatedBit.wpC_xor (has_is.1 ha) (has_not.1 hb)) fun o ho => ?_
    simp only [Synth.wpC_pure]
    have := has_neg (b := .is o) (has_is.2 ho)
    cases x <;> cases y <;> exact this
  · rw [Synth.wpC_bind]
    refine Synth.wpC_mono (AllocatedBit.wpC_xor (has_is.1 hb) (has_not.1 ha)) fun o ho => ?_
    simp only [Synth.wpC_pure]
    have := has_neg (b := .is o) (has_is.2 ho)
    cases x <;> cases y <;> exact this
  · rw [Synth.wpC_bind]
    exact Synth.wpC_mono (AllocatedBit.wpC_xor ha hb) fun o ho => ho
  · rw [Synth.wpC_bind]
    refine Synth.wpC_mono (AllocatedBit.wpC_xor (has_not.1 ha) (has_not.1 hb)) fun o ho => ?_
    simp only [Synth.wpC_pure]
    cases x <;> cases y <;> exact ho

theorem wpS_and (h1 : ρ .one = 1) {a b : Boolean} {x y : Bool} (ha : a.Bit ρ x) (hb : b.Bit ρ y) :
    Synth.wpS ρ (and a b) fun o => o.Bit ρ (x && y) := by
  unfold and
  split
  · simp only [bit_constant] at ha; subst ha; simp
  · simp only [bit_constant] at hb; subst hb; simp
  · simp only [bit_constant] at ha; subst ha; simpa using hb
  · simp only [bit_constant] at hb; subst hb; simpa using ha
  · rw [Synth.wpS_bind]
    refine Synth.wpS_mono (AllocatedBit.wpS_andNot h1 ha (bit_not.1 hb)) fun o ho => ?_
    cases x <;> cases y <;> exact ho
  · rw [Synth.wpS_bind]
    refine Synth.wpS_mono (AllocatedBit.wpS_andNot h1 hb (bit_not.1 ha)) fun o ho => ?_
    cases x <;> cases y <;> exact ho
  · rw [Synth.wpS_bind]
    refine Synth.wpS_mono (AllocatedBit.wpS_nor h1 (bit_not.1 ha) (bit_not.1 hb)) fun o ho => ?_
    cases x <;> cases y <;> exact ho
  · rw [Synth.wpS_bind]
    exact Synth.wpS_mono (AllocatedBit.wpS_and ha hb) fun o ho => ho

theorem wpC_and (h1 : ρ .one = 1) {a b : Boolean} {x y : Bool} (ha : a.Has ρ x) (hb : b.Has ρ y) :
    Synth.wpC ρ (and a b) fun o => o.Has ρ (x && y) := by
  unfold and
  split
  · rw [has_constant] at ha; subst ha; simp [has_constant]
  · rw [has_constant] at hb; subst hb; simp [has_constant]
  · rw [has_constant] at ha; subst ha; simpa using hb
  · rw [has_constant] at hb; subst hb; simpa using ha
  · rw [Synth.wpC_bind]
    refine Synth.wpC_mono (AllocatedBit.wpC_andNot h1 ha (has_not.1 hb)) fun o ho => ?_
    cases x <;> cases y <;> exact ho
  · rw [Synth.wpC_bind]
    refine Synth.wpC_mono (AllocatedBit.wpC_andNot h1 hb (has_not.1 ha)) fun o ho => ?_
    cases x <;> cases y <;> exact ho
  · rw [Synth.wpC_bind]
    refine Synth.wpC_mono (AllocatedBit.wpC_nor h1 (has_not.1 ha) (has_not.1 hb)) fun o ho => ?_
    cases x <;> cases y <;> exact ho
  · rw [Synth.wpC_bind]
    exact Synth.wpC_mono (AllocatedBit.wpC_and ha hb) fun o ho => ho

theorem wpS_enforceEqual (h1 : ρ .one = 1) {a b : Boolean} {x y : Bool} (ha : a.Bit ρ x) (hb : b.Bit ρ y) :
    Synth.wpS ρ (enforceEqual a b) fun _ => x = y := by
  unfold enforceEqual
  split
  · simp only [bit_constant] at ha hb; subst ha hb
    split <;> simp_all
  all_goals
    (try simp only [bit_constant] at ha)
    (try simp only [bit_constant] at hb)
    simp only [Synth.wpS_enforce, LC.eval_zero, LC.eval_addVar, LC.eval_subLC, h1]
    (try rw [eval_lc h1 ha])
    (try rw [eval_lc h1 hb])
    intro h
    cases x <;> cases y <;> simp_all

theorem wpC_enforceEqual (h1 : ρ .one = 1) {a b : Boolean} {x : Bool} (ha : a.Bit ρ x) (hb : b.Bit ρ x) :
    Synth.wpC ρ (enforceEqual a b) fun _ => True := by
  unfold enforceEqual
  split
  · simp only [bit_constant] at ha hb; subst ha hb
    simp
  all_goals
    (try simp only [bit_constant] at ha)
    (try simp only [bit_constant] at hb)
    simp only [Synth.wpC_enforce, LC.eval_zero, LC.eval_addVar, LC.eval_subLC, h1]
    (try rw [eval_lc h1 ha])
    (try rw [eval_lc h1 hb])
    cases x <;> simp_all

theorem wpS_chAlloc (h1 : ρ .one = 1) {a b c : Boolean} {x y z : Bool} (ha : a.Bit ρ x) (hb : b.Bit ρ y)
    (hc : c.Bit ρ z) : Synth.wpS ρ (chAlloc a b c) fun o => o.Bit ρ (if x then y else z) := by
  unfold chAlloc
  simp only [Synth.wpS_bind, Synth.wpS_alloc, Synth.wpS_enforce, Synth.wpS_pure, LC.eval_addVar, LC.eval_subLC,
    LC.eval_zero, eval_lc h1 ha, eval_lc h1 hb, eval_lc h1 hc, bit_is, AllocatedBit.Bit]
  have key : ∀ v : Var, ((if y then 1 else 0) - if z then 1 else 0) * (if x then (1 : F) else 0) =
      0 + ρ v - (if z then 1 else 0) → ρ v = if (if x then y else z) then 1 else 0 := by
    intro v h
    cases x <;> cases y <;> cases z <;> simp at h ⊢ <;> first | exact h | linear_combination h | linear_combination -h
  exact ⟨key, fun v _ _ => key v⟩

theorem wpC_chAlloc (h1 : ρ .one = 1) {a b c : Boolean} {x y z : Bool} (ha : a.Has ρ x) (hb : b.Has ρ y)
    (hc : c.Has ρ z) : Synth.wpC ρ (chAlloc a b c) fun o => o.Has ρ (if x then y else z) := by
  unfold chAlloc
  simp only [Synth.wpC_bind, Synth.wpC_alloc, Synth.wpC_enforce, Synth.wpC_pure, LC.eval_addVar, LC.eval_subLC,
    LC.eval_zero, eval_lc h1 ha.2, eval_lc h1 hb.2, eval_lc h1 hc.2, Has, getValue, bit_is, AllocatedBit.Bit]
  have : chValue a b c = some (if x then y else z) := by
    simp only [chValue, ha.1, hb.1, hc.1]
    cases x <;> cases y <;> cases z <;> rfl
  rw [this]
  refine ⟨_, rfl, fun v hv => ?_⟩
  rw [hv]
  cases x <;> cases y <;> cases z <;> simp [boolF]

theorem wpS_sha256Ch (h1 : ρ .one = 1) {a b c : Boolean} {x y z : Bool} (ha : a.Bit ρ x) (hb : b.Bit ρ y)
    (hc : c.Bit ρ z) : Synth.wpS ρ (sha256Ch a b c) fun o => o.Bit ρ (if x then y else z) := by
  unfold sha256Ch
  split
  · rename_i a b c
    simp only [bit_constant] at ha hb hc; subst ha hb hc
    simp only [chValue, getValue, Synth.wpS_pure, bit_constant]
    cases a <;> cases b <;> cases c <;> rfl
  · simp only [bit_constant] at ha; subst ha
    simpa using hc
  · simp only [bit_constant] at hb; subst hb
    refine Synth.wpS_mono (wpS_and h1 (bit_neg ha) hc) fun o ho => ?_
    cases x <;> cases z <;> exact ho
  · simp only [bit_constant] at hc; subst hc
    refine Synth.wpS_mono (wpS_and h1 ha hb) fun o ho => ?_
    cases x <;> cases y <;> exact ho
  · simp only [bit_constant] at hc; subst hc
    rw [Synth.wpS_bind]
    refine Synth.wpS_mono (wpS_and h1 ha (bit_neg hb)) fun o ho => ?_
    have := bit_neg ho
    cases x <;> cases y <;> exact this
  · simp only [bit_constant] at hb; subst hb
    rw [Synth.wpS_bind]
    refine Synth.wpS_mono (wpS_and h1 (bit_neg ha) (bit_neg hc)) fun o ho => ?_
    have := bit_neg ho
    cases x <;> cases z <;> exact this
  · exact wpS_chAlloc h1 ha hb hc
  · exact wpS_chAlloc h1 ha hb hc

theorem wpC_sha256Ch (h1 : ρ .one = 1) {a b c : Boolean} {x y z : Bool} (ha : a.Has ρ x) (hb : b.Has ρ y)
    (hc : c.Has ρ z) : Synth.wpC ρ (sha256Ch a b c) fun o => o.Has ρ (if x then y else z) := by
  unfold sha256Ch
  split
  · rename_i a b c
    simp only [has_constant] at ha hb hc; subst ha hb hc
    simp only [chValue, getValue, Synth.wpC_pure, has_constant]
    cases a <;> cases b <;> cases c <;> rfl
  · simp only [has_constant] at ha; subst ha
    simpa using hc
  · simp only [has_constant] at hb; subst hb
    refine Synth.wpC_mono (wpC_and h1 (has_neg ha) hc) fun o ho => ?_
    cases x <;> cases z <;> exact ho
  · simp only [has_constant] at hc; subst hc
    refine Synth.wpC_mono (wpC_and h1 ha hb) fun o ho => ?_
    cases x <;> cases y <;> exact ho
  · simp only [has_constant] at hc; subst hc
    rw [Synth.wpC_bind]
    refine Synth.wpC_mono (wpC_and h1 ha (has_neg hb)) fun o ho => ?_
    have := has_neg ho
    cases x <;> cases y <;> exact this
  · simp only [has_constant] at hb; subst hb
    rw [Synth.wpC_bind]
    refine Synth.wpC_mono (wpC_and h1 (has_neg ha) (has_neg hc)) fun o ho => ?_
    have := has_neg ho
    cases x <;> cases z <;> exact this
  · exact wpC_chAlloc h1 ha hb hc
  · exact wpC_chAlloc h1 ha hb hc

theorem wpS_majAlloc (h1 : ρ .one = 1) {a b c : Boolean} {x y z : Bool} (ha : a.Bit ρ x) (hb : b.Bit ρ y)
    (hc : c.Bit ρ z) : Synth.wpS ρ (majAlloc a b c) fun o => o.Bit ρ ((x && y) || (x && z) || (y && z)) := by
  unfold majAlloc
  simp only [Synth.wpS_bind, Synth.wpS_alloc, Synth.wpS_inNs]
  have key : ∀ v : Var, Synth.wpS ρ (and b c : Synth F Boolean) fun bc =>
      Synth.wpS ρ (Synth.enforce "maj computation" (fun _ => bc.lc (1 : F) + bc.lc (1 : F) - b.lc (1 : F) - c.lc (1 : F))
        (fun _ => a.lc (1 : F)) fun _ => bc.lc (1 : F) - v) fun _ =>
      Synth.wpS ρ (pure (Boolean.is ⟨v, majValue a b c⟩) : Synth F Boolean)
        fun o => o.Bit ρ ((x && y) || (x && z) || (y && z)) := by
    intro v
    refine Synth.wpS_mono (wpS_and h1 hb hc) fun bc hbc => ?_
    simp only [Synth.wpS_enforce, Synth.wpS_pure, LC.eval_addLC, LC.eval_subLC, LC.eval_subVar,
      eval_lc h1 ha, eval_lc h1 hb, eval_lc h1 hc, eval_lc h1 hbc, bit_is, AllocatedBit.Bit]
    intro h
    cases x <;> cases y <;> cases z <;> simp at h ⊢ <;> first | exact h | linear_combination h | linear_combination -h
  exact ⟨key, fun v _ _ => key v⟩

theorem wpC_majAlloc (h1 : ρ .one = 1) {a b c : Boolean} {x y z : Bool} (ha : a.Has ρ x) (hb : b.Has ρ y)
    (hc : c.Has ρ z) : Synth.wpC ρ (majAlloc a b c) fun o => o.Has ρ ((x && y) || (x && z) || (y && z)) := by
  unfold majAlloc
  simp only [Synth.wpC_bind, Synth.wpC_alloc, Synth.wpC_inNs]
  have : majValue a b c = some ((x && y) || (x && z) || (y && z)) := by
    simp only [majValue, ha.1, hb.1, hc.1]
    cases x <;> cases y <;> cases z <;> rfl
  rw [this]
  refine ⟨_, rfl, fun v hv => ?_⟩
  refine Synth.wpC_mono (wpC_and h1 hb hc) fun bc hbc => ?_
  simp only [Synth.wpC_enforce, Synth.wpC_pure, LC.eval_addLC, LC.eval_subLC, LC.eval_subVar,
      eval_lc h1 ha.2, eval_lc h1 hb.2, eval_lc h1 hc.2, eval_lc h1 hbc.2, Has, getValue, bit_is, AllocatedBit.Bit]
  rw [hv]
  cases x <;> cases y <;> cases z <;> simp [boolF]

theorem wpS_sha256Maj (h1 : ρ .one = 1) {a b c : Boolean} {x y z : Bool} (ha : a.Bit ρ x) (hb : b.Bit ρ y)
    (hc : c.Bit ρ z) : Synth.wpS ρ (sha256Maj a b c) fun o => o.Bit ρ ((x && y) || (x && z) || (y && z)) := by
  unfold sha256Maj
  split
  · rename_i a b c
    simp only [bit_constant] at ha hb hc; subst ha hb hc
    simp only [majValue, getValue, Synth.wpS_pure, bit_constant]
    cases a <;> cases b <;> cases c <;> rfl
  · simp only [bit_constant] at ha; subst ha
    refine Synth.wpS_mono (wpS_and h1 hb hc) fun o ho => ?_
    cases y <;> cases z <;> exact ho
  · simp only [bit_constant] at hb; subst hb
    refine Synth.wpS_mono (wpS_and h1 ha hc) fun o ho => ?_
    cases x <;> cases z <;> exact ho
  · simp only [bit_constant] at hc; subst hc
    refine Synth.wpS_mono (wpS_and h1 ha hb) fun o ho => ?_
    cases x <;> cases y <;> exact ho
  · simp only [bit_constant] at hc; subst hc
    rw [Synth.wpS_bind]
    refine Synth.wpS_mono (wpS_and h1 (bit_neg ha) (bit_neg hb)) fun o ho => ?_
    have := bit_neg ho
    cases x <;> cases y <;> exact this
  · simp only [bit_constant] at hb; subst hb
    rw [Synth.wpS_bind]
    refine Synth.wpS_mono (wpS_and h1 (bit_neg ha) (bit_neg hc)) fun o ho => ?_
    have := bit_neg ho
    cases x <;> cases z <;> exact this
  · simp only [bit_constant] at ha; subst ha
    rw [Synth.wpS_bind]
    refine Synth.wpS_mono (wpS_and h1 (bit_neg hb) (bit_neg hc)) fun o ho => ?_
    have := bit_neg ho
    cases y <;> cases z <;> exact this
  · exact wpS_majAlloc h1 ha hb hc

theorem wpC_sha256Maj (h1 : ρ .one = 1) {a b c : Boolean} {x y z : Bool} (ha : a.Has ρ x) (hb : b.Has ρ y)
    (hc : c.Has ρ z) : Synth.wpC ρ (sha256Maj a b c) fun o => o.Has ρ ((x && y) || (x && z) || (y && z)) := by
  unfold sha256Maj
  split
  · rename_i a b c
    simp only [has_constant] at ha hb hc; subst ha hb hc
    simp only [majValue, getValue, Synth.wpC_pure, has_constant]
    cases a <;> cases b <;> cases c <;> rfl
  · simp only [has_constant] at ha; subst ha
    refine Synth.wpC_mono (wpC_and h1 hb hc) fun o ho => ?_
    cases y <;> cases z <;> exact ho
  · simp only [has_constant] at hb; subst hb
    refine Synth.wpC_mono (wpC_and h1 ha hc) fun o ho => ?_
    cases x <;> cases z <;> exact ho
  · simp only [has_constant] at hc; subst hc
    refine Synth.wpC_mono (wpC_and h1 ha hb) fun o ho => ?_
    cases x <;> cases y <;> exact ho
  · simp only [has_constant] at hc; subst hc
    rw [Synth.wpC_bind]
    refine Synth.wpC_mono (wpC_and h1 (has_neg ha) (has_neg hb)) fun o ho => ?_
    have := has_neg ho
    cases x <;> cases y <;> exact this
  · simp only [has_constant] at hb; subst hb
    rw [Synth.wpC_bind]
    refine Synth.wpC_mono (wpC_and h1 (has_neg ha) (has_neg hc)) fun o ho => ?_
    have := has_neg ho
    cases x <;> cases z <;> exact this
  · simp only [has_constant] at ha; subst ha
    rw [Synth.wpC_bind]
    refine Synth.wpC_mono (wpC_and h1 (has_neg hb) (has_neg hc)) fun o ho => ?_
    have := has_neg ho
    cases y <;> cases z <;> exact this
  · exact wpC_majAlloc h1 ha hb hc

end Boolean

end Bellman
