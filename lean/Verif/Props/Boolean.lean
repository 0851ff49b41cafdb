import Verif.Proofs.Boolean
import Verif.Proofs.Num
import Verif.Proofs.Realize
import Verif.FieldInstances

/-!
# C06, C07, C08: Boolean gadgets

`Sound ρ m Q`: whatever the constraint system, if `m` returns `Ok a` and `ρ` satisfies all emitted constraints then `Q a`;
nothing is assumed about where `ρ` comes from (malicious prover).  `Complete ρ m Q`: with all witness closures invoked `m`
neither panics nor fails, and its constraints hold whenever `ρ` agrees with the closures' values.
`a.Bit ρ x` reads the handle `a` under `ρ`; `a.Has ρ x` says in addition that `get_value()` is `Some(x)`.
-/

set_option linter.unusedSectionVars false

namespace Bellman

open PrimeField

variable {F : Type} [PrimeField F] {ρ : Var → F}

/-! ### C06 -/

/-- C06: the constraints of `AllocatedBit::alloc` force a bit. -/
theorem C06_alloc_sound (h1 : ρ .one = 1) (v : Option Bool) :
    Sound ρ (AllocatedBit.alloc v) fun o => ρ o.var = 0 ∨ ρ o.var = 1 := by
  refine (Synth.wpS_iff ..).1 (Synth.wpS_mono (AllocatedBit.wpS_alloc h1 v) ?_)
  rintro o ⟨x, hx⟩
  cases x
  · exact .inl hx
  · exact .inr hx

/-- C06: an honest prover satisfies them, for both bits. -/
theorem C06_alloc_complete (h1 : ρ .one = 1) (x : Bool) :
    Complete ρ (AllocatedBit.alloc (some x)) fun o => o.value = some x ∧ ρ o.var = if x then 1 else 0 :=
  Synth.wpC_sound (AllocatedBit.wpC_alloc h1 x)

/-- C06: `alloc_conditionally` forces a bit, and 0 if the condition bit is 1. -/
theorem C06_allocConditionally_sound (h1 : ρ .one = 1) (v : Option Bool) {m : AllocatedBit} {y : Bool} (hm : m.Bit ρ y) :
    Sound ρ (AllocatedBit.allocConditionally v m) fun o =>
      (ρ o.var = 0 ∨ ρ o.var = 1) ∧ (ρ m.var = 1 → ρ o.var = 0) := by
  refine (Synth.wpS_iff ..).1 (Synth.wpS_mono (AllocatedBit.wpS_allocConditionally h1 v hm) ?_)
  rintro o ⟨x, hx, hxy⟩
  have hm : ρ m.var = if y then 1 else 0 := hm
  have hx : ρ o.var = if x then 1 else 0 := hx
  rw [hm, hx]
  cases y <;> cases x <;> simp_all

/-- C06: an honest prover satisfies `alloc_conditionally` for every legal bit. -/
theorem C06_allocConditionally_complete (h1 : ρ .one = 1) (x y : Bool) {m : AllocatedBit} (hm : m.Bit ρ y)
    (hxy : y = true → x = false) :
    Complete ρ (AllocatedBit.allocConditionally (some x) m) fun o =>
      o.value = some x ∧ ρ o.var = if x then 1 else 0 :=
  Synth.wpC_sound (AllocatedBit.wpC_allocConditionally h1 x y hm hxy)

/-- C06: a missing value is reported, and nothing has been emitted. -/
theorem C06_alloc_missing {t : List (Ev F)} {r} (h : Honest (AllocatedBit.alloc none : Synth F _).run t r) :
    t = [] ∧ r = some (.error .assignmentMissing) := by
  cases h with
  | allocRun x v hf h => cases hf
  | allocErr e hf h => cases hf; cases h; exact ⟨rfl, rfl⟩

/-- C06: the same for `alloc_conditionally`. -/
theorem C06_allocConditionally_missing {m : AllocatedBit} {t : List (Ev F)} {r}
    (h : Honest (AllocatedBit.allocConditionally none m : Synth F _).run t r) :
    t = [] ∧ r = some (.error .assignmentMissing) := by
  cases h with
  | allocRun x v hf h => cases hf
  | allocErr e hf h => cases hf; cases h; exact ⟨rfl, rfl⟩

/-- An accepting execution of `alloc` exists. -/
example : ∃ (ρ : Var → DummyFr) (t : _) (o : _), ρ .one = 1 ∧
    Exec (AllocatedBit.alloc (F := DummyFr) (some true)).run t (some (.ok o)) ∧ Sat ρ t ∧ ρ o.var = 1 := by
  obtain ⟨ρ, t, a, hx, he, -, -, hs, hq⟩ := Complete.realized (F := DummyFr) [1] [] fun ρ hx => C06_alloc_complete hx.one true
  exact ⟨ρ, t, a, hx.one, he.exec, hs, hq.2⟩

/-- An accepting execution of `alloc_conditionally` with condition 0 and bit 1 exists. -/
example : ∃ (ρ : Var → DummyFr) (t : _) (o : _), ρ .one = 1 ∧ (⟨.aux 0, some false⟩ : AllocatedBit).Bit ρ false ∧
    Exec (AllocatedBit.allocConditionally (F := DummyFr) (some true) ⟨.aux 0, some false⟩).run t (some (.ok o)) ∧ Sat ρ t ∧
      ρ o.var = 1 := by
  have hb : ∀ ρ : Var → DummyFr, Extends [1] [0] ρ → (⟨.aux 0, some false⟩ : AllocatedBit).Bit ρ false :=
    fun ρ hx => hx (.aux 0) (by simp [Var.InRange])
  obtain ⟨ρ, t, a, hx, he, -, -, hs, hq⟩ := Complete.realized (F := DummyFr) [1] [0] fun ρ hx =>
    C06_allocConditionally_complete hx.one true false (hb ρ hx) (by simp)
  exact ⟨ρ, t, a, hx.one, hb ρ hx, he.exec, hs, hq.2⟩

/-- Missing values do occur. -/
example : Honest (AllocatedBit.alloc none : Synth DummyFr _).run [] (some (.error .assignmentMissing)) :=
  .allocErr _ rfl (.ret _)

/-! ### C07 -/

/-- C07: `AllocatedBit::xor`. -/
theorem C07_bit_xor_sound {a b : AllocatedBit} {x y : Bool} (ha : a.Bit ρ x) (hb : b.Bit ρ y) :
    Sound ρ (AllocatedBit.xor a b) fun o => o.Bit ρ (x ^^ y) := (Synth.wpS_iff ..).1 (AllocatedBit.wpS_xor ha hb)

/-- C07: `AllocatedBit::xor`, honest prover. -/
theorem C07_bit_xor_complete {a b : AllocatedBit} {x y : Bool} (ha : a.Has ρ x) (hb : b.Has ρ y) :
    Complete ρ (AllocatedBit.xor a b) fun o => o.Has ρ (x ^^ y) := Synth.wpC_sound (AllocatedBit.wpC_xor ha hb)

/-- C07: `AllocatedBit::and`. -/
theorem C07_bit_and_sound {a b : AllocatedBit} {x y : Bool} (ha : a.Bit ρ x) (hb : b.Bit ρ y) :
    Sound ρ (AllocatedBit.and a b) fun o => o.Bit ρ (x && y) := (Synth.wpS_iff ..).1 (AllocatedBit.wpS_and ha hb)

/-- C07: `AllocatedBit::and`, honest prover. -/
theorem C07_bit_and_complete {a b : AllocatedBit} {x y : Bool} (ha : a.Has ρ x) (hb : b.Has ρ y) :
    Complete ρ (AllocatedBit.and a b) fun o => o.Has ρ (x && y) := Synth.wpC_sound (AllocatedBit.wpC_and ha hb)

/-- C07: `AllocatedBit::and_not`. -/
theorem C07_bit_andNot_sound (h1 : ρ .one = 1) {a b : AllocatedBit} {x y : Bool} (ha : a.Bit ρ x) (hb : b.Bit ρ y) :
    Sound ρ (AllocatedBit.andNot a b) fun o => o.Bit ρ (x && !y) :=
  (Synth.wpS_iff ..).1 (AllocatedBit.wpS_andNot h1 ha hb)

/-- C07: `AllocatedBit::and_not`, honest prover. -/
theorem C07_bit_andNot_complete (h1 : ρ .one = 1) {a b : AllocatedBit} {x y : Bool} (ha : a.Has ρ x) (hb : b.Has ρ y) :
    Complete ρ (AllocatedBit.andNot a b) fun o => o.Has ρ (x && !y) :=
  Synth.wpC_sound (AllocatedBit.wpC_andNot h1 ha hb)

/-- C07: `AllocatedBit::nor`. -/
theorem C07_bit_nor_sound (h1 : ρ .one = 1) {a b : AllocatedBit} {x y : Bool} (ha : a.Bit ρ x) (hb : b.Bit ρ y) :
    Sound ρ (AllocatedBit.nor a b) fun o => o.Bit ρ (!(x || y)) := by
  have := (Synth.wpS_iff ..).1 (AllocatedBit.wpS_nor h1 ha hb)
  simpa using this

/-- C07: `AllocatedBit::nor`, honest prover. -/
theorem C07_bit_nor_complete (h1 : ρ .one = 1) {a b : AllocatedBit} {x y : Bool} (ha : a.Has ρ x) (hb : b.Has ρ y) :
    Complete ρ (AllocatedBit.nor a b) fun o => o.Has ρ (!(x || y)) := by
  have := Synth.wpC_sound (AllocatedBit.wpC_nor h1 ha hb)
  simpa using this

/-- C07: `Boolean::xor`, all operand kinds. -/
theorem C07_xor_sound {a b : Boolean} {x y : Bool} (ha : a.Bit ρ x) (hb : b.Bit ρ y) :
    Sound ρ (Boolean.xor a b) fun o => o.Bit ρ (x ^^ y) := (Synth.wpS_iff ..).1 (Boolean.wpS_xor ha hb)

/-- C07: `Boolean::xor`, honest prover. -/
theorem C07_xor_complete {a b : Boolean} {x y : Bool} (ha : a.Has ρ x) (hb : b.Has ρ y) :
    Complete ρ (Boolean.xor a b) fun o => o.Has ρ (x ^^ y) := Synth.wpC_sound (Boolean.wpC_xor ha hb)

/-- C07: `Boolean::and`, all operand kinds (and-not and nor through negated operands). -/
theorem C07_and_sound (h1 : ρ .one = 1) {a b : Boolean} {x y : Bool} (ha : a.Bit ρ x) (hb : b.Bit ρ y) :
    Sound ρ (Boolean.and a b) fun o => o.Bit ρ (x && y) := (Synth.wpS_iff ..).1 (Boolean.wpS_and h1 ha hb)

/-- C07: `Boolean::and`, honest prover. -/
theorem C07_and_complete (h1 : ρ .one = 1) {a b : Boolean} {x y : Bool} (ha : a.Has ρ x) (hb : b.Has ρ y) :
    Complete ρ (Boolean.and a b) fun o => o.Has ρ (x && y) := Synth.wpC_sound (Boolean.wpC_and h1 ha hb)

/-- C07: `Boolean::not` (no constraints): exact in both readings. -/
theorem C07_not (b : Boolean) (x : Bool) :
    (b.neg.Bit ρ (!x) ↔ b.Bit ρ x) ∧ (b.neg.Has ρ (!x) ↔ b.Has ρ x) := by
  have e : b.neg.neg = b := by cases b <;> simp [Boolean.neg]
  constructor
  · exact ⟨fun h => by simpa [e] using Boolean.bit_neg h, Boolean.bit_neg⟩
  · exact ⟨fun h => by simpa [e] using Boolean.has_neg h, Boolean.has_neg⟩

/-- C07: `Boolean::enforce_equal`. -/
theorem C07_enforceEqual_sound (h1 : ρ .one = 1) {a b : Boolean} {x y : Bool} (ha : a.Bit ρ x) (hb : b.Bit ρ y) :
    Sound ρ (Boolean.enforceEqual a b) fun _ => x = y := (Synth.wpS_iff ..).1 (Boolean.wpS_enforceEqual h1 ha hb)

/-- C07: `Boolean::enforce_equal`, honest prover with equal values. -/
theorem C07_enforceEqual_complete (h1 : ρ .one = 1) {a b : Boolean} {x : Bool} (ha : a.Bit ρ x) (hb : b.Bit ρ x) :
    Complete ρ (Boolean.enforceEqual a b) fun _ => True := Synth.wpC_sound (Boolean.wpC_enforceEqual h1 ha hb)

/-- C07: two different constants are reported as unsatisfiable, in every constraint system, with nothing emitted; two
equal constants are accepted with nothing emitted. -/
theorem C07_enforceEqual_constants (c d : Bool) {t : List (Ev F)} {r}
    (h : Exec (Boolean.enforceEqual (.constant c) (.constant d) : Synth F _).run t r) :
    t = [] ∧ r = some (if c = d then .ok () else .error .unsatisfiable) := by
  cases c <;> cases d <;> cases h <;> exact ⟨rfl, rfl⟩

/-- C07: connectives report a missing operand value as `AssignmentMissing` (here `and`, whose closure reads both). -/
theorem C07_bit_and_missing {a b : AllocatedBit} (hab : a.value = none ∨ b.value = none) {t : List (Ev F)} {r}
    (h : Honest (AllocatedBit.and a b : Synth F _).run t r) : t = [] ∧ r = some (.error .assignmentMissing) := by
  have e : (do
      let x ← Synth.optGet a.value
      let y ← Synth.optGet b.value
      pure (x && y) : Except SynthesisError Bool) = .error .assignmentMissing := by
    rcases hab with h | h
    · rw [h]; rfl
    · rw [h]
      cases a.value <;> rfl
  unfold AllocatedBit.and allocCapture at h
  rw [e] at h
  cases h with
  | allocRun x v hf h => cases hf
  | allocErr e hf h => cases hf; cases h; exact ⟨rfl, rfl⟩

section NonVacuous

/-- Two auxiliaries holding 1 and 0. -/
private abbrev tt : AllocatedBit := ⟨.aux 0, some true⟩
private abbrev ff : AllocatedBit := ⟨.aux 1, some false⟩

private theorem has_tt {ρ : Var → DummyFr} (hx : Extends [1] [1, 0] ρ) : tt.Has ρ true :=
  ⟨rfl, hx (.aux 0) (by simp [Var.InRange])⟩
private theorem has_ff {ρ : Var → DummyFr} (hx : Extends [1] [1, 0] ρ) : ff.Has ρ false :=
  ⟨rfl, hx (.aux 1) (by simp [Var.InRange])⟩
private theorem has_nt {ρ : Var → DummyFr} (hx : Extends [1] [1, 0] ρ) : (Boolean.not tt).Has ρ false :=
  Boolean.has_neg (b := .is tt) (x := true) (Boolean.has_is.2 (has_tt hx))
private theorem has_if {ρ : Var → DummyFr} (hx : Extends [1] [1, 0] ρ) : (Boolean.is ff).Has ρ false :=
  Boolean.has_is.2 (has_ff hx)

/-- The hypotheses of the `AllocatedBit` theorems are met by an accepting execution. -/
example : ∃ (ρ : Var → DummyFr) (t : _) (o : _), ρ .one = 1 ∧ tt.Has ρ true ∧ ff.Has ρ false ∧
    Exec (AllocatedBit.xor (F := DummyFr) tt ff).run t (some (.ok o)) ∧ Sat ρ t ∧ o.Bit ρ true := by
  obtain ⟨ρ, t, a, hx, he, -, -, hs, hq⟩ := Complete.realized (F := DummyFr) [1] [1, 0] fun ρ hx =>
    C07_bit_xor_complete (has_tt hx) (has_ff hx)
  exact ⟨ρ, t, a, hx.one, has_tt hx, has_ff hx, he.exec, hs, hq.2⟩

/-- Likewise with a negated operand (`and` of two negations is the `nor` gadget). -/
example : ∃ (ρ : Var → DummyFr) (t : _) (o : _), ρ .one = 1 ∧ (Boolean.not tt).Bit ρ false ∧
    (Boolean.is ff).Bit ρ false ∧ Exec (Boolean.and (F := DummyFr) (.not tt) (.is ff)).run t (some (.ok o)) ∧ Sat ρ t ∧
    o.Bit ρ false := by
  obtain ⟨ρ, t, a, hx, he, -, -, hs, hq⟩ := Complete.realized (F := DummyFr) [1] [1, 0] fun ρ hx =>
    C07_and_complete hx.one (has_nt hx) (has_if hx)
  exact ⟨ρ, t, a, hx.one, (has_nt hx).2, (has_if hx).2, he.exec, hs, hq.2⟩

/-- `enforce_equal` of two different handles with the same value. -/
example : ∃ (ρ : Var → DummyFr) (t : _), ρ .one = 1 ∧ (Boolean.not tt).Bit ρ false ∧
    (Boolean.is ff).Bit ρ false ∧ Exec (Boolean.enforceEqual (F := DummyFr) (.not tt) (.is ff)).run t (some (.ok ())) ∧
    Sat ρ t := by
  obtain ⟨ρ, t, a, hx, he, -, -, hs, -⟩ := Complete.realized (F := DummyFr) (Q := fun _ _ => True) [1] [1, 0] fun ρ hx =>
    C07_enforceEqual_complete hx.one (has_nt hx).2 (has_if hx).2
  exact ⟨ρ, t, hx.one, (has_nt hx).2, (has_if hx).2, he.exec, hs⟩

/-! ### C08 -/

/-- C08: `sha256_ch` is `(a and b) xor ((not a) and c)`, all operand kinds. -/
theorem C08_ch_sound (h1 : ρ .one = 1) {a b c : Boolean} {x y z : Bool} (ha : a.Bit ρ x) (hb : b.Bit ρ y)
    (hc : c.Bit ρ z) : Sound ρ (Boolean.sha256Ch a b c) fun o => o.Bit ρ ((x && y) ^^ (!x && z)) := by
  have := (Synth.wpS_iff ..).1 (Boolean.wpS_sha256Ch h1 ha hb hc)
  cases x <;> simpa using this

/-- C08: `sha256_ch`, honest prover. -/
theorem C08_ch_complete (h1 : ρ .one = 1) {a b c : Boolean} {x y z : Bool} (ha : a.Has ρ x) (hb : b.Has ρ y)
    (hc : c.Has ρ z) : Complete ρ (Boolean.sha256Ch a b c) fun o => o.Has ρ ((x && y) ^^ (!x && z)) := by
  have := Synth.wpC_sound (Boolean.wpC_sha256Ch h1 ha hb hc)
  cases x <;> simpa using this

/-- C08: `sha256_maj` is the majority, all operand kinds. -/
theorem C08_maj_sound (h1 : ρ .one = 1) {a b c : Boolean} {x y z : Bool} (ha : a.Bit ρ x) (hb : b.Bit ρ y)
    (hc : c.Bit ρ z) :
    Sound ρ (Boolean.sha256Maj a b c) fun o => o.Bit ρ (decide (2 ≤ x.toNat + y.toNat + z.toNat)) := by
  have := (Synth.wpS_iff ..).1 (Boolean.wpS_sha256Maj h1 ha hb hc)
  cases x <;> cases y <;> cases z <;> simpa using this

/-- C08: `sha256_maj`, honest prover. -/
theorem C08_maj_complete (h1 : ρ .one = 1) {a b c : Boolean} {x y z : Bool} (ha : a.Has ρ x) (hb : b.Has ρ y)
    (hc : c.Has ρ z) :
    Complete ρ (Boolean.sha256Maj a b c) fun o => o.Has ρ (decide (2 ≤ x.toNat + y.toNat + z.toNat)) := by
  have := Synth.wpC_sound (Boolean.wpC_sha256Maj h1 ha hb hc)
  cases x <;> cases y <;> cases z <;> simpa using this

/-- An accepting execution of `sha256_maj` with a variable, a negated variable and a constant. -/
example : ∃ (ρ : Var → DummyFr) (t : _) (o : _), ρ .one = 1 ∧ (Boolean.is ff).Bit ρ false ∧
    (Boolean.not tt).Bit ρ false ∧ Exec (Boolean.sha256Maj (F := DummyFr) (.is ff) (.not tt) (.is tt)).run t (some (.ok o)) ∧
    Sat ρ t ∧ o.Bit ρ false := by
  obtain ⟨ρ, t, a, hx, he, -, -, hs, hq⟩ := Complete.realized (F := DummyFr) [1] [1, 0] fun ρ hx =>
    C08_maj_complete hx.one (has_if hx) (has_nt hx) (Boolean.has_is.2 (has_tt hx))
  exact ⟨ρ, t, a, hx.one, (has_if hx).2, (has_nt hx).2, he.exec, hs, hq.2⟩

/-- An accepting execution of `sha256_ch`, choosing the third operand. -/
example : ∃ (ρ : Var → DummyFr) (t : _) (o : _), ρ .one = 1 ∧ (Boolean.not tt).Bit ρ false ∧
    Exec (Boolean.sha256Ch (F := DummyFr) (.not tt) (.is ff) (.is tt)).run t (some (.ok o)) ∧ Sat ρ t ∧ o.Bit ρ true := by
  obtain ⟨ρ, t, a, hx, he, -, -, hs, hq⟩ := Complete.realized (F := DummyFr) [1] [1, 0] fun ρ hx =>
    C08_ch_complete hx.one (has_nt hx) (has_if hx) (Boolean.has_is.2 (has_tt hx))
  exact ⟨ρ, t, a, hx.one, (has_nt hx).2, he.exec, hs, hq.2⟩

end NonVacuous

end Bellman
