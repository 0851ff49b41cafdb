import Verif.Proofs.ShapeNum
import Verif.Gadgets.Blake2s
import Mathlib.Data.Nat.Size
import Mathlib.Tactic.Linarith

/-!
# Witness independence of `MultiEq`, `UInt32`, SHA-256 and BLAKE2s
-/

namespace Bellman

open PrimeField

set_option linter.unusedSectionVars false

variable {F : Type} [PrimeField F] {α β γ δ : Type}

/-- Related results of programs with a `MultiEq`: related values or two errors, and the same `MultiEq`. -/
def MR (R : α → β → Prop) (x : Except SynthesisError α × MEq F) (y : Except SynthesisError β × MEq F) : Prop :=
  ROk R x.1 y.1 ∧ x.2 = y.2

/-- `SShape` for programs with a `MultiEq`. -/
def MShape (R : α → β → Prop) (m₁ : MSynth F α) (m₂ : MSynth F β) : Prop :=
  ∀ s, Shape (MR R) (fun x => IsErr x.1) (fun x => IsErr x.1) (m₁.run.run s) (m₂.run.run s)

namespace MShape

variable {R R' : α → β → Prop} {S : γ → δ → Prop}

theorem pure {a : α} {b : β} (h : R a b) : MShape R (pure a : MSynth F α) (pure b : MSynth F β) :=
  fun _ => Shape.ret ⟨h, rfl⟩

theorem bind {m₁ : MSynth F α} {m₂ : MSynth F β} {g₁ : α → MSynth F γ} {g₂ : β → MSynth F δ} (h : MShape R m₁ m₂)
    (hg : ∀ a b, R a b → MShape S (g₁ a) (g₂ b)) : MShape S (m₁ >>= g₁) (m₂ >>= g₂) := by
  intro s
  refine Shape.bind (S := MR S) (C₁ := fun x => IsErr x.1) (C₂ := fun x => IsErr x.1) (h s) ?_ ?_ ?_
  · rintro ⟨a, s₁⟩ ⟨b, s₂⟩ ⟨hab, hs⟩
    simp only at hs
    subst hs
    cases a <;> cases b <;> simp only [ROk] at hab
    · exact Shape.ret ⟨trivial, rfl⟩
    · exact hg _ _ hab s₁
  · rintro ⟨a, s⟩ ha
    cases a with
    | ok a => exact ha.elim
    | error e => exact Fails.ret trivial
  · rintro ⟨a, s⟩ ha
    cases a with
    | ok a => exact ha.elim
    | error e => exact Fails.ret trivial

theorem mono {m₁ : MSynth F α} {m₂ : MSynth F β} (h : MShape R m₁ m₂) (hR : ∀ a b, R a b → R' a b) : MShape R' m₁ m₂ := by
  intro s
  refine Shape.mono (h s) fun a b hab => ⟨?_, hab.2⟩
  obtain ⟨a, sa⟩ := a
  obtain ⟨b, sb⟩ := b
  have hab := hab.1
  cases a <;> cases b <;> simp only [ROk] at hab ⊢
  exact hR _ _ hab

theorem lift {m₁ : Synth F α} {m₂ : Synth F β} (h : SShape R m₁ m₂) : MShape R (MSynth.lift m₁) (MSynth.lift m₂) := by
  intro s
  refine Shape.bind h ?_ ?_ ?_
  · intro a b hab; exact .ret ⟨hab, rfl⟩
  · intro a ha; exact .ret ha
  · intro a ha; exact .ret ha

theorem inNs {m₁ : MSynth F α} {m₂ : MSynth F β} (n : String) (h : MShape R m₁ m₂) :
    MShape R (MSynth.inNs n m₁) (MSynth.inNs n m₂) := by
  intro s
  refine Shape.push (Shape.bind (h s) ?_ ?_ ?_)
  · intro a b hab; exact .pop (.ret hab)
  · intro a ha; exact .pop (.ret ha)
  · intro a ha; exact .pop (.ret ha)

theorem withMultiEq {m₁ : MSynth F α} {m₂ : MSynth F β} (h : MShape R m₁ m₂) :
    SShape R (MSynth.withMultiEq m₁) (MSynth.withMultiEq m₂) := by
  refine Shape.bind (h MEq.new) ?_ ?_ ?_
  · rintro ⟨a, s₁⟩ ⟨b, s₂⟩ ⟨hab, hs⟩
    simp only at hs hab
    subst hs
    dsimp only [MEq.drop]
    split
    · exact .enforce (.ret hab)
    · exact .ret hab
  · rintro ⟨a, s⟩ ha
    dsimp only [MEq.drop]
    split
    · exact .enforce (.ret ha)
    · exact .ret ha
  · rintro ⟨a, s⟩ ha
    dsimp only [MEq.drop]
    split
    · exact .enforce (.ret ha)
    · exact .ret ha

theorem enforceEqual (n : ℕ) (l r : LC F) :
    MShape (fun _ _ => True) (MEq.enforceEqual n l r) (MEq.enforceEqual n l r) := by
  have add : ∀ s : MEq F, Shape (MR (fun _ _ => True)) (fun x => IsErr x.1) (fun x => IsErr x.1)
      (if CAPACITY F > s.bitsUsed + n then
        (.ret (.ok (), ⟨s.ops, s.bitsUsed + n, s.lhs + ((2 ^ s.bitsUsed : F), l), s.rhs + ((2 ^ s.bitsUsed : F), r)⟩) :
          Circ F (Except SynthesisError Unit × MEq F))
      else .panic "assert!((Scalar::CAPACITY as usize) > (self.bits_used + num_bits))")
      (if CAPACITY F > s.bitsUsed + n then
        (.ret (.ok (), ⟨s.ops, s.bitsUsed + n, s.lhs + ((2 ^ s.bitsUsed : F), l), s.rhs + ((2 ^ s.bitsUsed : F), r)⟩) :
          Circ F (Except SynthesisError Unit × MEq F))
      else .panic "assert!((Scalar::CAPACITY as usize) > (self.bits_used + num_bits))") := by
    intro s
    split
    · exact .ret ⟨trivial, rfl⟩
    · exact .panic _ _
  intro s
  show Shape _ _ _ (if CAPACITY F ≤ s.bitsUsed + n then _ else _) (if CAPACITY F ≤ s.bitsUsed + n then _ else _)
  split
  · exact .enforce (add _)
  · exact add s

theorem index {l : List α} {l' : List β} (h : List.Forall₂ R l l') (i : ℕ) :
    MShape (F := F) R (MSynth.index l i) (MSynth.index l' i) := by
  have : Option.Rel R l[i]? l'[i]? := by
    induction h generalizing i with
    | nil => exact .none
    | cons hx _ ih =>
      cases i with
      | zero => exact .some hx
      | succ i => simpa using ih i
  unfold MSynth.index
  revert this
  generalize l[i]? = o
  generalize l'[i]? = o'
  intro h
  cases h with
  | none => exact lift SShape.panic
  | some h => exact pure h

theorem panic {e e'} : MShape R (MSynth.lift (Synth.panic e) : MSynth F α) (MSynth.lift (Synth.panic e') : MSynth F β) :=
  lift SShape.panic

end MShape

/-- All bits are constants. -/
def AllC (l : List Boolean) : Prop := ∀ b ∈ l, b.isConstant = true

theorem AllC.of_same {l l' : List Boolean} (h : List.Forall₂ Boolean.Same l l') (ha : AllC l) : AllC l' := by
  induction h with
  | nil => exact ha
  | cons hb _ ih =>
    intro x hx
    rcases List.mem_cons.1 hx with rfl | hx
    · rw [← hb.isConstant]; exact ha _ (by simp)
    · exact ih (fun b hb => ha b (by simp [hb])) x hx

theorem forall₂_same_refl (l : List Boolean) : List.Forall₂ Boolean.Same l l := by
  induction l with
  | nil => exact .nil
  | cons b l ih => exact .cons (Boolean.Same.refl b) ih

namespace UInt32

/-- Words of 32 bits with the same literals. -/
structure Sim (a b : UInt32) : Prop where
  bits : List.Forall₂ Boolean.Same a.bits b.bits
  len : a.bits.length = 32

/-- Both values are known, and equal. -/
def Known (a b : UInt32) : Prop := ∃ v, a.value = some v ∧ b.value = some v

/-- Words with the same literals whose values are known and equal if all bits are constants. -/
structure WK (a b : UInt32) : Prop extends Sim a b where
  known : AllC a.bits → Known a b

theorem length_shiftBits (n : ℕ) (v : BitVec 32) : (shiftBits n v).length = n := by
  induction n generalizing v with
  | zero => rfl
  | succ n ih => simp [shiftBits, ih]

theorem allC_constant (v : BitVec 32) : AllC (constant v).bits := by
  intro b hb
  simp only [constant, List.mem_map] at hb
  obtain ⟨x, _, rfl⟩ := hb
  rfl

theorem wk_constant (v : BitVec 32) : WK (constant v) (constant v) :=
  ⟨⟨forall₂_same_refl _, by simp [constant, length_shiftBits]⟩, fun _ => ⟨v, rfl, rfl⟩⟩

variable {a a' b b' c c' : UInt32}

theorem Sim.rotr (h : Sim a a') (k : ℕ) : Sim (a.rotr k) (a'.rotr k) := by
  constructor
  · exact List.forall₂_take _ (List.rel_append (List.forall₂_drop _ h.bits) h.bits)
  · simp only [UInt32.rotr, List.length_take, List.length_append, List.length_drop, h.len]; omega

theorem Sim.shr (h : Sim a a') (k : ℕ) : Sim (a.shr k) (a'.shr k) := by
  constructor
  · exact List.forall₂_take _ (List.rel_append (List.forall₂_drop _ h.bits) (forall₂_same_refl _))
  · simp only [UInt32.shr, List.length_take, List.length_append, List.length_drop, h.len, List.length_replicate]; omega

theorem Known.rotr (h : Known a a') (k : ℕ) : Known (a.rotr k) (a'.rotr k) := by
  obtain ⟨v, h1, h2⟩ := h
  exact ⟨v.rotateRight (k % 32), by simp [UInt32.rotr, h1], by simp [UInt32.rotr, h2]⟩

theorem Known.shr (h : Known a a') (k : ℕ) : Known (a.shr k) (a'.shr k) := by
  obtain ⟨v, h1, h2⟩ := h
  exact ⟨v >>> (k % 32), by simp [UInt32.shr, h1], by simp [UInt32.shr, h2]⟩

theorem allC_rotr (h : a.bits.length = 32) (k : ℕ) (hc : AllC (a.rotr k).bits) : AllC a.bits := by
  intro b hb
  apply hc
  simp only [UInt32.rotr]
  rw [List.take_append, List.mem_append, List.length_drop, h]
  rw [← List.take_append_drop (k % 32) a.bits, List.mem_append] at hb
  have hk : k % 32 < 32 := Nat.mod_lt _ (by norm_num)
  rcases hb with hb | hb
  · right
    rwa [show 32 - (32 - k % 32) = k % 32 by omega]
  · left
    rwa [List.take_of_length_le (by simp [h])]

theorem WK.rotr (h : WK a a') (k : ℕ) : WK (a.rotr k) (a'.rotr k) :=
  ⟨h.toSim.rotr k, fun hc => (h.known (allC_rotr h.len k hc)).rotr k⟩

theorem shape_allocLoop (i : ℕ) {vs ws : List (Option Bool)} (h : vs.length = ws.length) :
    SShape (F := F) (fun r r' => List.Forall₂ Boolean.Same r r' ∧ r.length = vs.length ∧ ∀ b ∈ r, b.isConstant = false)
      (allocLoop i vs) (allocLoop i ws) := by
  induction vs generalizing ws i with
  | nil =>
    cases ws with
    | nil => exact SShape.pure ⟨.nil, rfl, by simp⟩
    | cons w ws => simp at h
  | cons v vs ih =>
    cases ws with
    | nil => simp at h
    | cons w ws =>
      refine SShape.bind (SShape.inNs _ (AllocatedBit.shape_alloc v w)) fun x y hxy => ?_
      refine SShape.bind (ih (i + 1) (by simpa using h)) fun xs ys hs => SShape.pure ⟨.cons hxy hs.1, ?_, ?_⟩
      · simp [hs.2.1]
      · intro b hb
        rcases List.mem_cons.1 hb with rfl | hb
        · rfl
        · exact hs.2.2 b hb

theorem not_allC {l : List Boolean} (hl : l.length ≠ 0) (h : ∀ b ∈ l, b.isConstant = false) : ¬ AllC l := by
  intro hc
  cases l with
  | nil => simp at hl
  | cons b l =>
    have h1 := h b (by simp)
    have h2 := hc b (by simp)
    rw [h1] at h2
    exact Bool.false_ne_true h2

theorem shape_alloc (v w : Option (BitVec 32)) : SShape (F := F) WK (alloc v) (alloc w) := by
  have key : ∀ v : Option (BitVec 32), ∃ vs : List (Option Bool), vs.length = 32 ∧
      (alloc v : Synth F UInt32) = allocLoop 0 vs >>= fun bits => pure ⟨bits, v⟩ := by
    intro v
    cases v with
    | none => exact ⟨List.replicate 32 none, by simp, rfl⟩
    | some v => exact ⟨(shiftBits 32 v).map some, by simp [length_shiftBits], rfl⟩
  obtain ⟨vs, hv, e⟩ := key v
  obtain ⟨ws, hw, e'⟩ := key w
  rw [e, e']
  refine SShape.bind (shape_allocLoop 0 (hv.trans hw.symm)) fun r r' h => SShape.pure ⟨⟨h.1, by rw [h.2.1, hv]⟩, ?_⟩
  intro hc
  exact absurd hc (not_allC (by rw [h.2.1, hv]; norm_num) h.2.2)

theorem valueLoop_known {l l' : List Boolean} (h : List.Forall₂ Boolean.Same l l') (hc : AllC l) (v : BitVec 32) :
    ∃ w, valueLoop (some v) l = some w ∧ valueLoop (some v) l' = some w := by
  induction h generalizing v with
  | nil => exact ⟨v, rfl, rfl⟩
  | @cons x y l₁ l₂ hxy _ ih =>
    have hx := hc x (by simp)
    have hc' : AllC l₁ := fun b hb => hc b (by simp [hb])
    cases x <;> simp only [Boolean.isConstant, Bool.false_eq_true] at hx
    cases y <;> simp only [Boolean.Same] at hxy
    subst hxy
    rename_i c
    cases c
    · exact ih hc' _
    · exact ih hc' _

theorem rel_fromBitsBe {l l' : List Boolean} (h : List.Forall₂ Boolean.Same l l') :
    Option.Rel WK (fromBitsBe l) (fromBitsBe l') := by
  unfold fromBitsBe
  rw [h.length_eq]
  split
  · rename_i hl
    refine .some ⟨⟨List.forall₂_reverse_iff.2 h, by simp [h.length_eq, hl]⟩, fun hc => ?_⟩
    obtain ⟨w, h1, h2⟩ := valueLoop_known h (fun b hb => hc b (by simpa using hb)) 0#32
    exact ⟨w, h1, h2⟩
  · exact .none

theorem rel_fromBits {l l' : List Boolean} (h : List.Forall₂ Boolean.Same l l') :
    Option.Rel WK (fromBits l) (fromBits l') := by
  unfold fromBits
  rw [h.length_eq]
  split
  · rename_i hl
    refine .some ⟨⟨h, by rw [h.length_eq, hl]⟩, fun hc => ?_⟩
    obtain ⟨w, h1, h2⟩ := valueLoop_known (List.forall₂_reverse_iff.2 h) (fun b hb => hc b (by simpa using hb)) 0#32
    exact ⟨w, h1, h2⟩
  · exact .none

theorem shape_triopLoop {f : ℕ → Boolean → Boolean → Boolean → Synth F Boolean}
    (hf : ∀ i {x x' y y' z z' : Boolean}, x.Same x' → y.Same y' → z.Same z' → SShape Boolean.Same (f i x y z) (f i x' y' z'))
    (i : ℕ) {l l' m m' n n' : List Boolean} (hl : List.Forall₂ Boolean.Same l l') (hm : List.Forall₂ Boolean.Same m m')
    (hn : List.Forall₂ Boolean.Same n n') (h1 : l.length = m.length) (h2 : l.length = n.length) :
    SShape (fun r r' => List.Forall₂ Boolean.Same r r' ∧ r.length = l.length) (triopLoop f i l m n) (triopLoop f i l' m' n') := by
  induction hl generalizing m m' n n' i with
  | nil =>
    cases hm with
    | nil =>
      cases hn with
      | nil => exact SShape.pure ⟨.nil, rfl⟩
      | cons => simp at h2
    | cons => simp at h1
  | cons hx _ ih =>
    cases hm with
    | nil => simp at h1
    | cons hy hm =>
      cases hn with
      | nil => simp at h2
      | cons hz hn =>
        refine SShape.bind (hf i hx hy hz) fun r r' hr => ?_
        refine SShape.bind (ih (i + 1) hm hn (by simpa using h1) (by simpa using h2)) fun rs rs' hrs => SShape.pure ?_
        exact ⟨.cons hr hrs.1, by simp [hrs.2]⟩

/-- The relation of results of `triop`. -/
def TriR (a a' b b' c c' r r' : UInt32) : Prop :=
  Sim r r' ∧ (Known a a' → Known b b' → Known c c' → Known r r')

theorem shape_triop {f : ℕ → Boolean → Boolean → Boolean → Synth F Boolean}
    (hf : ∀ i {x x' y y' z z' : Boolean}, x.Same x' → y.Same y' → z.Same z' → SShape Boolean.Same (f i x y z) (f i x' y' z'))
    (t : BitVec 32 → BitVec 32 → BitVec 32 → BitVec 32) (ha : Sim a a') (hb : Sim b b') (hc : Sim c c') :
    SShape (TriR a a' b b' c c') (triop a b c t f) (triop a' b' c' t f) := by
  refine SShape.bind (shape_triopLoop hf 0 ha.bits hb.bits hc.bits (by rw [ha.len, hb.len]) (by rw [ha.len, hc.len]))
    fun r r' h => SShape.pure ⟨⟨h.1, by rw [h.2, ha.len]⟩, ?_⟩
  rintro ⟨x, h1, h1'⟩ ⟨y, h2, h2'⟩ ⟨z, h3, h3'⟩
  exact ⟨t x y z, by simp [h1, h2, h3], by simp [h1', h2', h3']⟩

theorem shape_sha256Maj (ha : Sim a a') (hb : Sim b b') (hc : Sim c c') :
    SShape (F := F) (TriR a a' b b' c c') (sha256Maj a b c) (sha256Maj a' b' c') :=
  shape_triop (f := fun i a b c => Synth.inNs s!"maj {i}" (Boolean.sha256Maj a b c))
    (fun _ _ _ _ _ _ _ hx hy hz => SShape.inNs _ (Boolean.shape_sha256Maj hx hy hz)) _ ha hb hc

theorem shape_sha256Ch (ha : Sim a a') (hb : Sim b b') (hc : Sim c c') :
    SShape (F := F) (TriR a a' b b' c c') (sha256Ch a b c) (sha256Ch a' b' c') :=
  shape_triop (f := fun i a b c => Synth.inNs s!"ch {i}" (Boolean.sha256Ch a b c))
    (fun _ _ _ _ _ _ _ hx hy hz => SShape.inNs _ (Boolean.shape_sha256Ch hx hy hz)) _ ha hb hc

theorem shape_xorLoop (i : ℕ) {l l' m m' : List Boolean} (hl : List.Forall₂ Boolean.Same l l')
    (hm : List.Forall₂ Boolean.Same m m') (h1 : l.length = m.length) :
    SShape (F := F) (fun r r' => List.Forall₂ Boolean.Same r r' ∧ r.length = l.length ∧ (AllC r → AllC l ∧ AllC m))
      (xorLoop i l m) (xorLoop i l' m') := by
  induction hl generalizing m m' i with
  | nil =>
    cases hm with
    | nil => exact SShape.pure ⟨.nil, rfl, fun h => ⟨h, h⟩⟩
    | cons => simp at h1
  | cons hx _ ih =>
    cases hm with
    | nil => simp at h1
    | cons hy hm =>
      refine SShape.bind (SShape.inNs _ (Boolean.shape_xor hx hy)) fun r r' hr => ?_
      refine SShape.bind (ih (i + 1) hm (by simpa using h1)) fun rs rs' hrs => SShape.pure ⟨.cons hr.1 hrs.1, by simp [hrs.2.1], ?_⟩
      intro hc
      obtain ⟨c1, c2⟩ := hr.2 (hc r (by simp))
      obtain ⟨c3, c4⟩ := hrs.2.2 fun b hb => hc b (by simp [hb])
      exact ⟨List.forall_mem_cons.2 ⟨c1, c3⟩, List.forall_mem_cons.2 ⟨c2, c4⟩⟩

/-- The relation of results of `xor`. -/
def XorR (a a' b b' r r' : UInt32) : Prop :=
  Sim r r' ∧ (Known a a' → Known b b' → Known r r') ∧ (AllC r.bits → AllC a.bits ∧ AllC b.bits)

theorem shape_xor (ha : Sim a a') (hb : Sim b b') : SShape (F := F) (XorR a a' b b') (a.xor b) (a'.xor b') := by
  refine SShape.bind (shape_xorLoop 0 ha.bits hb.bits (by rw [ha.len, hb.len])) fun r r' h =>
    SShape.pure ⟨⟨h.1, by rw [h.2.1, ha.len]⟩, ?_, h.2.2⟩
  rintro ⟨x, h1, h1'⟩ ⟨y, h2, h2'⟩
  exact ⟨x ^^^ y, by simp [h1, h2], by simp [h1', h2']⟩

theorem shape_xor_wk (ha : WK a a') (hb : WK b b') : SShape (F := F) WK (a.xor b) (a'.xor b') :=
  (shape_xor ha.toSim hb.toSim).mono fun _ _ h =>
    ⟨h.1, fun hc => h.2.1 (ha.known (h.2.2 hc).1) (hb.known (h.2.2 hc).2)⟩

/-! ### Addition -/

/-- Operand lists with the same literals, whose values are known if all bits of all operands are constants. -/
def OpsOK (l l' : List UInt32) : Prop :=
  List.Forall₂ Sim l l' ∧ ((∀ op ∈ l, AllC op.bits) → List.Forall₂ Known l l')

theorem addBits_same {l l' : List Boolean} (h : List.Forall₂ Boolean.Same l l') (lc : LC F) (ac : Bool) (k : F) :
    addBits lc ac k l = addBits lc ac k l' ∧ ((addBits lc ac k l).2 = true ↔ ac = true ∧ AllC l) := by
  induction h generalizing lc ac k with
  | nil => exact ⟨rfl, by simp [addBits, AllC]⟩
  | @cons x y _ _ hxy _ ih =>
    simp only [addBits, hxy.lc k, ← hxy.isConstant]
    refine ⟨(ih _ _ _).1, ?_⟩
    rw [(ih _ _ _).2, Bool.and_eq_true, and_assoc, AllC, AllC, List.forall_mem_cons]

theorem addOperands_same {l l' : List UInt32} (h : List.Forall₂ Sim l l') (v w : Option ℕ) (lc : LC F) (ac : Bool) :
    (addOperands v lc ac l).2 = (addOperands w lc ac l').2 ∧
      ((addOperands v lc ac l).2.2 = true ↔ ac = true ∧ ∀ op ∈ l, AllC op.bits) := by
  induction h generalizing v w lc ac with
  | nil => exact ⟨rfl, by simp [addOperands]⟩
  | @cons x y _ _ hxy _ ih =>
    simp only [addOperands]
    rw [← (addBits_same hxy.bits lc ac 1).1]
    refine ⟨(ih _ _ _ _).1, ?_⟩
    rw [(ih _ none _ _).2, (addBits_same hxy.bits lc ac 1).2, List.forall_mem_cons, and_assoc]

theorem addOperands_known {l l' : List UInt32} (h : List.Forall₂ Known l l') (v : ℕ) (lc lc' : LC F) (ac ac' : Bool) :
    ∃ w, (addOperands (some v) lc ac l).1 = some w ∧ (addOperands (some v) lc' ac' l').1 = some w := by
  induction h generalizing v lc lc' ac ac' with
  | nil => exact ⟨v, rfl, rfl⟩
  | @cons x y _ _ hxy _ ih =>
    obtain ⟨u, h1, h2⟩ := hxy
    simp only [addOperands, h1, h2, Option.map_some]
    exact ih _ _ _ _ _

theorem size_shiftRight_one (m : ℕ) (h : m ≠ 0) : Nat.size m = Nat.size (m >>> 1) + 1 := by
  have hb : Nat.bit (m.testBit 0) (m >>> 1) = m := Nat.bit_testBit_zero_shiftRight_one m
  conv_lhs => rw [← hb]
  exact Nat.size_bit (by rwa [hb])

theorem shape_resultLoop (v w : Option ℕ) (m i : ℕ) (k : F) {bs bs' : List Boolean}
    (h : List.Forall₂ Boolean.Same bs bs') (hn : ∀ b ∈ bs, b.isConstant = false) (lc : LC F) :
    SShape (fun r r' => List.Forall₂ Boolean.Same r.1 r'.1 ∧ r.2 = r'.2 ∧ r.1.length = bs.length + Nat.size m ∧
        ∀ b ∈ r.1, b.isConstant = false)
      (resultLoop v m i k bs lc) (resultLoop w m i k bs' lc) := by
  induction m using Nat.strong_induction_on generalizing i k bs bs' lc with
  | _ m ih =>
    rw [resultLoop.eq_1 v m, resultLoop.eq_1 w m]
    split
    · rename_i hm
      subst hm
      exact SShape.pure ⟨h, rfl, by simp, hn⟩
    · rename_i hm
      refine SShape.bind (SShape.inNs _ (AllocatedBit.shape_alloc _ _)) fun b b' hb => ?_
      have hb' : b.var = b'.var := hb
      rw [hb']
      have hlt : m >>> 1 < m := by simp only [Nat.shiftRight_one]; omega
      refine (ih _ hlt (i + 1) (k + k) (bs := bs ++ [.is b]) (bs' := bs' ++ [.is b'])
        (List.rel_append h (.cons (show Boolean.Same (.is b) (.is b') from hb) .nil)) ?_ _).mono ?_
      · intro x hx
        rcases List.mem_append.1 hx with hx | hx
        · exact hn x hx
        · simp only [List.mem_singleton] at hx; subst hx; rfl
      · rintro r r' ⟨h1, h2, h3, h4⟩
        refine ⟨h1, h2, ?_, h4⟩
        rw [h3, size_shiftRight_one m hm, List.length_append, List.length_singleton]; omega

/-- The relation of results of `addmany`: a word that is constant iff all operands are. -/
def AddR (l : List UInt32) (r r' : UInt32) : Prop := WK r r' ∧ (AllC r.bits ↔ ∀ op ∈ l, AllC op.bits)

theorem shape_addmany {l l' : List UInt32} (h : OpsOK l l') : MShape (F := F) (AddR l) (addmany l) (addmany l') := by
  unfold addmany
  rw [← h.1.length_eq]
  by_cases hnb : NUM_BITS F ≥ 64
  · by_cases h2 : l.length ≥ 2
    · by_cases h10 : l.length ≤ 10
      · simp only [hnb, h2, h10, if_true]
        have e := addOperands_same (F := F) h.1 (some 0) (some 0) LC.zero true
        have e1 := e.1
        have e2 := e.2
        simp only [true_and] at e2
        by_cases hc : ∀ op ∈ l, AllC op.bits
        · have hk := addOperands_known (F := F) (h.2 hc) 0 LC.zero LC.zero true true
          obtain ⟨w, k1, k2⟩ := hk
          rw [← e1, e2.2 hc, k1, k2]
          exact MShape.pure ⟨wk_constant _, ⟨fun _ => hc, fun _ => allC_constant _⟩⟩
        · have hf : (addOperands (F := F) (some 0) LC.zero true l).2.2 = false := by
            rw [← Bool.not_eq_true]; exact fun h => hc (e2.1 h)
          rw [← e1, hf]
          dsimp only
          refine MShape.bind (MShape.lift (shape_resultLoop _ _ _ 0 1 .nil (by simp) _)) fun q q' ⟨q1, q2, q3, q4⟩ => ?_
          rw [q2]
          refine MShape.bind (MShape.enforceEqual _ _ _) fun _ _ _ => MShape.pure ?_
          have hl : (q.1.take 32).length = 32 := by
            rw [List.length_take, q3]
            have : 33 ≤ Nat.size (l.length * (2 ^ 32 - 1)) := by
              rw [Nat.succ_le_iff, Nat.lt_size]; omega
            simp only [List.length_nil]; omega
          have hna : ¬ AllC (q.1.take 32) :=
            not_allC (by rw [hl]; norm_num) fun b hb => q4 b (List.mem_of_mem_take hb)
          exact ⟨⟨⟨List.forall₂_take _ q1, hl⟩, fun h => absurd h hna⟩, ⟨fun h => absurd h hna, fun h => absurd h hc⟩⟩
      · simp only [hnb, h2, h10, if_true, if_false]; exact MShape.panic
    · simp only [hnb, h2, if_true, if_false]; exact MShape.panic
  · simp only [hnb, if_false]; exact MShape.panic

theorem opsOK_of_wk {l l' : List UInt32} (h : List.Forall₂ WK l l') : OpsOK l l' := by
  refine ⟨h.imp fun _ _ h => h.toSim, fun hc => ?_⟩
  induction h with
  | nil => exact .nil
  | cons hx _ ih =>
    rw [List.forall_mem_cons] at hc
    exact .cons (hx.known hc.1) (ih hc.2)

theorem shape_addmany_wk {l l' : List UInt32} (h : List.Forall₂ WK l l') : MShape (F := F) WK (addmany l) (addmany l') :=
  (shape_addmany (opsOK_of_wk h)).mono fun _ _ h => h.1

end UInt32

open Bellman.UInt32

theorem rel_mapM {α β γ δ : Type} {R : α → β → Prop} {S : γ → δ → Prop} {f : α → Option γ} {g : β → Option δ}
    (hfg : ∀ a b, R a b → Option.Rel S (f a) (g b)) {l : List α} {l' : List β} (h : List.Forall₂ R l l') :
    Option.Rel (List.Forall₂ S) (l.mapM f) (l'.mapM g) := by
  induction h with
  | nil => exact .some .nil
  | @cons x y _ _ hxy _ ih =>
    rw [List.mapM_cons, List.mapM_cons]
    have h1 := hfg x y hxy
    revert h1
    generalize f x = o
    generalize g y = o'
    intro h1
    cases h1 with
    | none => exact .none
    | some h1 =>
      revert ih
      generalize List.mapM f _ = p
      generalize List.mapM g _ = p'
      intro ih
      cases ih with
      | none => exact .none
      | some ih => exact .some (.cons h1 ih)

theorem forall₂_eq_refl {α : Type} (l : List α) : List.Forall₂ Eq l l := by
  induction l with
  | nil => exact .nil
  | cons b l ih => exact .cons rfl ih

theorem forall₂_intoBits {l l' : List UInt32} (h : List.Forall₂ WK l l') :
    List.Forall₂ Boolean.Same (l.flatMap UInt32.intoBits) (l'.flatMap UInt32.intoBits) := by
  induction h with
  | nil => exact .nil
  | cons hx _ ih => exact List.rel_append hx.bits ih

theorem forall₂_intoBitsBe {l l' : List UInt32} (h : List.Forall₂ WK l l') :
    List.Forall₂ Boolean.Same (l.flatMap UInt32.intoBitsBe) (l'.flatMap UInt32.intoBitsBe) := by
  induction h with
  | nil => exact .nil
  | cons hx _ ih => exact List.rel_append (List.forall₂_reverse_iff.2 hx.bits) ih

namespace Sha256

theorem shape_sigma {a a' s s' c c' : UInt32} {i j : ℕ} (ha : WK a a')
    (hs : XorR (a.rotr i) (a'.rotr i) (a.rotr j) (a'.rotr j) s s') (hc : Sim c c') (hk : Known a a' → Known c c') :
    SShape (F := F) (fun r r' => WK r r' ∧ (AllC r.bits → AllC a.bits)) (s.xor c) (s'.xor c') := by
  refine (shape_xor hs.1 hc).mono fun r r' h => ?_
  have h1 : AllC r.bits → AllC a.bits := fun hr => allC_rotr ha.len i (hs.2.2 (h.2.2 hr).1).1
  refine ⟨⟨h.1, fun hr => ?_⟩, h1⟩
  have hk' := ha.known (h1 hr)
  exact h.2.1 (hs.2.1 (hk'.rotr i) (hk'.rotr j)) (hk hk')

theorem shape_wStep (i : ℕ) {w w' : List UInt32} (h : List.Forall₂ WK w w') :
    MShape (F := F) (List.Forall₂ WK) (wStep i w) (wStep i w') := by
  refine MShape.inNs _ ?_
  refine MShape.bind (MShape.index h _) fun w15 w15' h15 => ?_
  refine MShape.bind (MShape.lift (SShape.inNs _ (shape_xor (h15.toSim.rotr 7) (h15.toSim.rotr 18)))) fun s0 s0' hs0 => ?_
  refine MShape.bind (MShape.lift (SShape.inNs _ (shape_sigma h15 hs0 (h15.toSim.shr 3) fun hk => hk.shr 3)))
    fun t0 t0' ht0 => ?_
  refine MShape.bind (MShape.index h _) fun w2 w2' h2 => ?_
  refine MShape.bind (MShape.lift (SShape.inNs _ (shape_xor (h2.toSim.rotr 17) (h2.toSim.rotr 19)))) fun s1 s1' hs1 => ?_
  refine MShape.bind (MShape.lift (SShape.inNs _ (shape_sigma h2 hs1 (h2.toSim.shr 10) fun hk => hk.shr 10)))
    fun t1 t1' ht1 => ?_
  refine MShape.bind (MShape.index h _) fun w16 w16' h16 => ?_
  refine MShape.bind (MShape.index h _) fun w7 w7' h7 => ?_
  refine MShape.bind (MShape.inNs _ (shape_addmany_wk (.cons h16 (.cons ht0.1 (.cons h7 (.cons ht1.1 .nil))))))
    fun r r' hr => MShape.pure ?_
  exact List.rel_append h (.cons hr .nil)

theorem shape_wLoop (n i : ℕ) {w w' : List UInt32} (h : List.Forall₂ WK w w') :
    MShape (F := F) (List.Forall₂ WK) (wLoop n i w) (wLoop n i w') := by
  induction n generalizing i w w' with
  | zero => exact MShape.pure h
  | succ n ih => exact MShape.bind (shape_wStep i h) fun _ _ h => ih (i + 1) h

/-- Related deferred sums. -/
def Maybe.Rel : Maybe → Maybe → Prop
  | .concrete v, .concrete v' => WK v v'
  | .deferred l, .deferred l' => OpsOK l l'
  | _, _ => False

/-- All bits of all operands are constants. -/
def Maybe.AllC : Maybe → Prop
  | .concrete v => Bellman.AllC v.bits
  | .deferred l => ∀ op ∈ l, Bellman.AllC op.bits

/-- The sum is deferred. -/
def Maybe.Def : Maybe → Prop
  | .concrete _ => False
  | .deferred _ => True

/-- Related loop states.  Within `e, f, g, h` and within `a, b, c, d`, a constant word is followed by constant words: the
argument why `sha256_ch` and `sha256_maj` of words with unknown value do not lead to an unknown constant sum. -/
structure St.Rel (s s' : St) : Prop where
  a : s.a.Rel s'.a
  b : WK s.b s'.b
  c : WK s.c s'.c
  d : WK s.d s'.d
  e : s.e.Rel s'.e
  f : WK s.f s'.f
  g : WK s.g s'.g
  h : WK s.h s'.h
  ab : s.a.AllC → AllC s.b.bits
  bc : AllC s.b.bits → AllC s.c.bits
  cd : AllC s.c.bits → AllC s.d.bits
  ef : s.e.AllC → AllC s.f.bits
  fg : AllC s.f.bits → AllC s.g.bits
  gh : AllC s.g.bits → AllC s.h.bits

theorem shape_compute_nil {m m' : Maybe} (h : m.Rel m') :
    MShape (F := F) (fun r r' => WK r r' ∧ (AllC r.bits ↔ m.AllC)) (m.compute []) (m'.compute []) := by
  cases m <;> cases m' <;> simp only [Maybe.Rel] at h
  · rename_i l l'
    simp only [Maybe.compute, List.append_nil]
    exact shape_addmany h
  · exact MShape.pure ⟨h, Iff.rfl⟩

theorem opsOK_append {l l' k k' : List UInt32} (h : OpsOK l l') (h' : OpsOK k k') : OpsOK (l ++ k) (l' ++ k') :=
  ⟨List.rel_append h.1 h'.1, fun hc => List.rel_append (h.2 fun op ho => hc op (by simp [ho]))
    (h'.2 fun op ho => hc op (by simp [ho]))⟩

theorem shape_compute_one {m m' : Maybe} (h : m.Rel m') (hd : m.Def) {x x' : UInt32} (hx : WK x x') :
    MShape (F := F) (fun r r' => WK r r' ∧ (AllC r.bits ↔ m.AllC ∧ AllC x.bits)) (m.compute [x]) (m'.compute [x']) := by
  cases m <;> cases m' <;> simp only [Maybe.Rel] at h
  · rename_i l l'
    refine (shape_addmany (opsOK_append h (opsOK_of_wk (.cons hx .nil)))).mono fun r r' hr => ⟨hr.1, ?_⟩
    rw [hr.2, List.forall_mem_append]
    simp [Maybe.AllC]
  · exact hd.elim

theorem shape_round {w w' : List UInt32} (hw : List.Forall₂ WK w w') (i : ℕ) {s s' : St} (h : s.Rel s') :
    MShape (F := F) (fun r r' => r.Rel r' ∧ r.a.Def ∧ r.e.Def) (round w i s) (round w' i s') := by
  refine MShape.inNs _ ?_
  refine MShape.bind (MShape.inNs _ (shape_compute_nil h.e)) fun e e' he => ?_
  refine MShape.bind (MShape.lift (SShape.inNs _ (shape_xor (he.1.toSim.rotr 6) (he.1.toSim.rotr 11)))) fun s1 s1' hs1 => ?_
  refine MShape.bind (MShape.lift (SShape.inNs _ (shape_sigma he.1 hs1 (he.1.toSim.rotr 25) fun hk => hk.rotr 25)))
    fun t1 t1' ht1 => ?_
  refine MShape.bind (MShape.lift (SShape.inNs _ (shape_sha256Ch he.1.toSim h.f.toSim h.g.toSim))) fun ch ch' hch => ?_
  refine MShape.bind (MShape.index (forall₂_eq_refl ROUND_CONSTANTS) i) fun k k' hk => ?_
  subst hk
  refine MShape.bind (MShape.index hw i) fun wi wi' hwi => ?_
  refine MShape.bind (MShape.inNs _ (shape_compute_nil h.a)) fun a a' ha => ?_
  refine MShape.bind (MShape.lift (SShape.inNs _ (shape_xor (ha.1.toSim.rotr 2) (ha.1.toSim.rotr 13)))) fun s0 s0' hs0 => ?_
  refine MShape.bind (MShape.lift (SShape.inNs _ (shape_sigma ha.1 hs0 (ha.1.toSim.rotr 22) fun hk => hk.rotr 22)))
    fun t0 t0' ht0 => ?_
  refine MShape.bind (MShape.lift (SShape.inNs _ (shape_sha256Maj ha.1.toSim h.b.toSim h.c.toSim))) fun maj maj' hmaj => ?_
  have hef : AllC e.bits → AllC s.f.bits := fun hc => h.ef (he.2.1 hc)
  have hab : AllC a.bits → AllC s.b.bits := fun hc => h.ab (ha.2.1 hc)
  have kch : AllC t1.bits → Known ch ch' := fun hc =>
    have h1 := ht1.2 hc
    hch.2 (he.1.known h1) (h.f.known (hef h1)) (h.g.known (h.fg (hef h1)))
  have kmaj : AllC t0.bits → Known maj maj' := fun hc =>
    have h1 := ht0.2 hc
    hmaj.2 (ha.1.known h1) (h.b.known (hab h1)) (h.c.known (h.bc (hab h1)))
  have ops1 : OpsOK [s.h, t1, ch, UInt32.constant k, wi] [s'.h, t1', ch', UInt32.constant k, wi'] := by
    refine ⟨.cons h.h.toSim (.cons ht1.1.toSim (.cons hch.1 (.cons (wk_constant k).toSim (.cons hwi.toSim .nil)))), ?_⟩
    intro hc
    simp only [List.mem_cons, List.not_mem_nil, or_false, forall_eq_or_imp, forall_eq] at hc
    obtain ⟨c1, c2, c3, c4, c5⟩ := hc
    exact .cons (h.h.known c1) (.cons (ht1.1.known c2) (.cons (kch c2) (.cons ((wk_constant k).known c4)
      (.cons (hwi.known c5) .nil))))
  have ops2 : OpsOK [t0, maj] [t0', maj'] := by
    refine ⟨.cons ht0.1.toSim (.cons hmaj.1 .nil), ?_⟩
    intro hc
    simp only [List.mem_cons, List.not_mem_nil, or_false, forall_eq_or_imp, forall_eq] at hc
    exact .cons (ht0.1.known hc.1) (.cons (kmaj hc.1) .nil)
  refine MShape.pure ⟨⟨opsOK_append ops1 ops2, ha.1, h.b, h.c, opsOK_append ops1 (opsOK_of_wk (.cons h.d .nil)), he.1, h.f,
    h.g, ?_, hab, h.bc, ?_, hef, h.fg⟩, trivial, trivial⟩
  · intro hc
    exact ht0.2 (hc t0 (by simp))
  · intro hc
    exact ht1.2 (hc t1 (by simp))

theorem shape_rounds {w w' : List UInt32} (hw : List.Forall₂ WK w w') (n i : ℕ) {s s' : St} (h : s.Rel s')
    (hd : (s.a.Def ∧ s.e.Def) ∨ 0 < n) :
    MShape (F := F) (fun r r' => r.Rel r' ∧ r.a.Def ∧ r.e.Def) (rounds w n i s) (rounds w' n i s') := by
  induction n generalizing i s s' with
  | zero =>
    rcases hd with hd | hd
    · exact MShape.pure ⟨h, hd⟩
    · omega
  | succ n ih => exact MShape.bind (shape_round hw i h) fun _ _ h => ih (i + 1) h.1 (.inl h.2)

/-- Related hash values: as in `St.Rel`, constant words are followed by constant words. -/
def HRel (l l' : List UInt32) : Prop :=
  ∃ a b c d e f g h a' b' c' d' e' f' g' h', l = [a, b, c, d, e, f, g, h] ∧ l' = [a', b', c', d', e', f', g', h'] ∧
    WK a a' ∧ WK b b' ∧ WK c c' ∧ WK d d' ∧ WK e e' ∧ WK f f' ∧ WK g g' ∧ WK h h' ∧
    (AllC a.bits → AllC b.bits) ∧ (AllC b.bits → AllC c.bits) ∧ (AllC c.bits → AllC d.bits) ∧
    (AllC e.bits → AllC f.bits) ∧ (AllC f.bits → AllC g.bits) ∧ (AllC g.bits → AllC h.bits)

theorem HRel.forall₂ {l l' : List UInt32} (h : HRel l l') : List.Forall₂ WK l l' := by
  obtain ⟨a, b, c, d, e, f, g, h, a', b', c', d', e', f', g', h', rfl, rfl, r1, r2, r3, r4, r5, r6, r7, r8, _⟩ := h
  exact .cons r1 (.cons r2 (.cons r3 (.cons r4 (.cons r5 (.cons r6 (.cons r7 (.cons r8 .nil)))))))

theorem shape_compressionBody {w w' : List UInt32} (hw : List.Forall₂ WK w w')
    {h0 h1 h2 h3 h4 h5 h6 h7 g0 g1 g2 g3 g4 g5 g6 g7 : UInt32}
    (hh : HRel [h0, h1, h2, h3, h4, h5, h6, h7] [g0, g1, g2, g3, g4, g5, g6, g7]) :
    MShape (F := F) HRel (compressionBody w h0 h1 h2 h3 h4 h5 h6 h7) (compressionBody w' g0 g1 g2 g3 g4 g5 g6 g7) := by
  obtain ⟨_, _, _, _, _, _, _, _, _, _, _, _, _, _, _, _, e1, e2, r0, r1, r2, r3, r4, r5, r6, r7, c1, c2, c3, c4, c5, c6⟩ := hh
  simp only [List.cons.injEq, and_true] at e1 e2
  obtain ⟨rfl, rfl, rfl, rfl, rfl, rfl, rfl, rfl⟩ := e1
  obtain ⟨rfl, rfl, rfl, rfl, rfl, rfl, rfl, rfl⟩ := e2
  refine MShape.bind (shape_wLoop 48 16 hw) fun w w' hw => ?_
  rw [hw.length_eq]
  split
  · have hst : St.Rel ⟨.concrete h0, h1, h2, h3, .concrete h4, h5, h6, h7⟩ ⟨.concrete g0, g1, g2, g3, .concrete g4, g5, g6, g7⟩ :=
      ⟨r0, r1, r2, r3, r4, r5, r6, r7, c1, c2, c3, c4, c5, c6⟩
    refine MShape.bind (shape_rounds hw 64 0 hst (.inr (by norm_num))) fun s s' hs => ?_
    obtain ⟨hs, da, de⟩ := hs
    refine MShape.bind (MShape.inNs _ (shape_compute_one hs.a da r0)) fun n0 m0 p0 => ?_
    refine MShape.bind (MShape.inNs _ (shape_addmany (opsOK_of_wk (.cons r1 (.cons hs.b .nil))))) fun n1 m1 p1 => ?_
    refine MShape.bind (MShape.inNs _ (shape_addmany (opsOK_of_wk (.cons r2 (.cons hs.c .nil))))) fun n2 m2 p2 => ?_
    refine MShape.bind (MShape.inNs _ (shape_addmany (opsOK_of_wk (.cons r3 (.cons hs.d .nil))))) fun n3 m3 p3 => ?_
    refine MShape.bind (MShape.inNs _ (shape_compute_one hs.e de r4)) fun n4 m4 p4 => ?_
    refine MShape.bind (MShape.inNs _ (shape_addmany (opsOK_of_wk (.cons r5 (.cons hs.f .nil))))) fun n5 m5 p5 => ?_
    refine MShape.bind (MShape.inNs _ (shape_addmany (opsOK_of_wk (.cons r6 (.cons hs.g .nil))))) fun n6 m6 p6 => ?_
    refine MShape.bind (MShape.inNs _ (shape_addmany (opsOK_of_wk (.cons r7 (.cons hs.h .nil))))) fun n7 m7 p7 => ?_
    simp only [AddR, List.mem_cons, List.not_mem_nil, or_false, forall_eq_or_imp, forall_eq] at p1 p2 p3 p5 p6 p7
    refine MShape.pure ⟨_, _, _, _, _, _, _, _, _, _, _, _, _, _, _, _, rfl, rfl, p0.1, p1.1, p2.1, p3.1, p4.1, p5.1, p6.1,
      p7.1, ?_, ?_, ?_, ?_, ?_, ?_⟩
    · intro hc
      have := p0.2.1 hc
      exact p1.2.2 ⟨c1 this.2, hs.ab this.1⟩
    · intro hc
      have := p1.2.1 hc
      exact p2.2.2 ⟨c2 this.1, hs.bc this.2⟩
    · intro hc
      have := p2.2.1 hc
      exact p3.2.2 ⟨c3 this.1, hs.cd this.2⟩
    · intro hc
      have := p4.2.1 hc
      exact p5.2.2 ⟨c4 this.2, hs.ef this.1⟩
    · intro hc
      have := p5.2.1 hc
      exact p6.2.2 ⟨c5 this.1, hs.fg this.2⟩
    · intro hc
      have := p6.2.1 hc
      exact p7.2.2 ⟨c6 this.1, hs.gh this.2⟩
  · exact MShape.panic

theorem shape_compression {input input' : List Boolean} (h : List.Forall₂ Boolean.Same input input') {cur cur' : List UInt32}
    (hc : HRel cur cur') : SShape (F := F) HRel (compression input cur) (compression input' cur') := by
  have hc' := hc
  obtain ⟨_, _, _, _, _, _, _, _, _, _, _, _, _, _, _, _, rfl, rfl, _⟩ := hc'
  unfold compression
  rw [h.length_eq]
  split
  · dsimp only
    have hw : Option.Rel (List.Forall₂ WK) ((chunks? 32 input).bind (fun cs => cs.mapM UInt32.fromBitsBe))
        ((chunks? 32 input').bind (fun cs => cs.mapM UInt32.fromBitsBe)) := by
      have h1 := forall₂_chunks? 32 h
      revert h1
      generalize chunks? 32 input = o
      generalize chunks? 32 input' = o'
      intro h1
      cases h1 with
      | none => exact .none
      | some h1 => exact rel_mapM (fun _ _ h => rel_fromBitsBe h) h1
    revert hw
    generalize (chunks? 32 input).bind _ = o
    generalize (chunks? 32 input').bind _ = o'
    intro hw
    cases hw with
    | none => exact SShape.panic
    | some hw => exact MShape.withMultiEq (shape_compressionBody hw hc)
  · exact SShape.panic

theorem hrel_iv : HRel iv iv :=
  ⟨_, _, _, _, _, _, _, _, _, _, _, _, _, _, _, _, rfl, rfl, wk_constant _, wk_constant _, wk_constant _, wk_constant _,
    wk_constant _, wk_constant _, wk_constant _, wk_constant _, fun _ => allC_constant _, fun _ => allC_constant _,
    fun _ => allC_constant _, fun _ => allC_constant _, fun _ => allC_constant _, fun _ => allC_constant _⟩

theorem shape_sha256BlockNoPadding {input input' : List Boolean} (h : List.Forall₂ Boolean.Same input input') :
    SShape (F := F) (List.Forall₂ Boolean.Same) (sha256BlockNoPadding input) (sha256BlockNoPadding input') := by
  unfold sha256BlockNoPadding
  rw [h.length_eq]
  split
  · exact SShape.bind (shape_compression h hrel_iv) fun r r' hr => SShape.pure (forall₂_intoBitsBe hr.forall₂)
  · exact SShape.panic

theorem padZeros_same {l l' : List Boolean} (h : List.Forall₂ Boolean.Same l l') :
    List.Forall₂ Boolean.Same (padZeros l) (padZeros l') := by
  fun_induction padZeros l generalizing l' with
  | case1 l hl =>
    rw [padZeros.eq_1 l', if_pos (by rw [← h.length_eq]; exact hl)]
    exact h
  | case2 l hl ih =>
    rw [padZeros.eq_1 l', if_neg (by rw [← h.length_eq]; exact hl)]
    exact ih (List.rel_append h (.cons (show Boolean.Same (.constant false) (.constant false) from rfl) .nil))

theorem pad_same {l l' : List Boolean} (h : List.Forall₂ Boolean.Same l l') :
    List.Forall₂ Boolean.Same (pad l) (pad l') := by
  unfold pad
  rw [h.length_eq]
  exact List.rel_append (padZeros_same (List.rel_append h (.cons (show Boolean.Same (.constant true) (.constant true) from rfl)
    .nil))) (forall₂_same_refl _)

theorem shape_blockLoop (i : ℕ) {cur cur' : List UInt32} (hc : HRel cur cur') {bs bs' : List (List Boolean)}
    (h : List.Forall₂ (List.Forall₂ Boolean.Same) bs bs') :
    SShape (F := F) HRel (blockLoop i cur bs) (blockLoop i cur' bs') := by
  induction h generalizing i cur cur' with
  | nil => exact SShape.pure hc
  | cons hb _ ih => exact SShape.bind (SShape.inNs _ (shape_compression hb hc)) fun _ _ h => ih (i + 1) h

theorem shape_sha256 {input input' : List Boolean} (h : List.Forall₂ Boolean.Same input input') :
    SShape (F := F) (List.Forall₂ Boolean.Same) (sha256 input) (sha256 input') := by
  have hp := pad_same h
  unfold sha256
  rw [h.length_eq]
  split
  · dsimp only
    rw [hp.length_eq]
    split
    · have h1 := forall₂_chunks? 512 hp
      revert h1
      generalize chunks? 512 (pad input) = o
      generalize chunks? 512 (pad input') = o'
      intro h1
      cases h1 with
      | none => exact SShape.panic
      | some h1 =>
        exact SShape.bind (shape_blockLoop 0 hrel_iv h1) fun r r' hr => SShape.pure (forall₂_intoBitsBe hr.forall₂)
    · exact SShape.panic
  · exact SShape.panic

end Sha256

namespace Blake2s

abbrev WKs : List UInt32 → List UInt32 → Prop := List.Forall₂ WK

theorem forall₂_set {α β : Type} {R : α → β → Prop} {l : List α} {l' : List β} (h : List.Forall₂ R l l') (i : ℕ) {x y}
    (hxy : R x y) : List.Forall₂ R (l.set i x) (l'.set i y) := by
  induction h generalizing i with
  | nil => exact .nil
  | cons hx ht ih =>
    cases i with
    | zero => exact .cons hxy ht
    | succ i => exact .cons hx (ih i)

theorem rel_getElem? {α β : Type} {R : α → β → Prop} {l : List α} {l' : List β} (h : List.Forall₂ R l l') (i : ℕ) :
    Option.Rel R l[i]? l'[i]? := by
  induction h generalizing i with
  | nil => exact .none
  | cons hx _ ih =>
    cases i with
    | zero => exact .some hx
    | succ i => simpa using ih i

variable {v v' m m' : List UInt32}

theorem shape_mixAdd3 (n : String) (h : WKs v v') (a b : ℕ) {x x' : UInt32} (hx : WK x x') :
    MShape (F := F) WKs (mixAdd3 n v a b x) (mixAdd3 n v' a b x') := by
  refine MShape.bind (MShape.index h _) fun va va' ha => ?_
  refine MShape.bind (MShape.index h _) fun vb vb' hb => ?_
  exact MShape.bind (MShape.inNs _ (shape_addmany_wk (.cons ha (.cons hb (.cons hx .nil))))) fun t t' ht =>
    MShape.pure (forall₂_set h a ht)

theorem shape_mixAdd2 (n : String) (h : WKs v v') (a b : ℕ) :
    MShape (F := F) WKs (mixAdd2 n v a b) (mixAdd2 n v' a b) := by
  refine MShape.bind (MShape.index h _) fun va va' ha => ?_
  refine MShape.bind (MShape.index h _) fun vb vb' hb => ?_
  exact MShape.bind (MShape.inNs _ (shape_addmany_wk (.cons ha (.cons hb .nil)))) fun t t' ht =>
    MShape.pure (forall₂_set h a ht)

theorem shape_mixXor (n : String) (h : WKs v v') (d a r : ℕ) :
    MShape (F := F) WKs (mixXor n v d a r) (mixXor n v' d a r) := by
  refine MShape.bind (MShape.index h _) fun va va' ha => ?_
  refine MShape.bind (MShape.index h _) fun vb vb' hb => ?_
  exact MShape.bind (MShape.lift (SShape.inNs _ (shape_xor_wk ha hb))) fun t t' ht =>
    MShape.pure (forall₂_set h d (ht.rotr r))

theorem shape_mixingG (h : WKs v v') (a b c d : ℕ) {x x' y y' : UInt32} (hx : WK x x') (hy : WK y y') :
    MShape (F := F) WKs (mixingG v a b c d x y) (mixingG v' a b c d x' y') := by
  refine MShape.bind (shape_mixAdd3 _ h _ _ hx) fun v v' h => ?_
  refine MShape.bind (shape_mixXor _ h _ _ _) fun v v' h => ?_
  refine MShape.bind (shape_mixAdd2 _ h _ _) fun v v' h => ?_
  refine MShape.bind (shape_mixXor _ h _ _ _) fun v v' h => ?_
  refine MShape.bind (shape_mixAdd3 _ h _ _ hy) fun v v' h => ?_
  refine MShape.bind (shape_mixXor _ h _ _ _) fun v v' h => ?_
  refine MShape.bind (shape_mixAdd2 _ h _ _) fun v v' h => ?_
  exact shape_mixXor _ h _ _ _

theorem shape_mixCall (n : String) (hm : WKs m m') (s : List ℕ) (j a b c d : ℕ) (h : WKs v v') :
    MShape (F := F) WKs (mixCall n m s j a b c d v) (mixCall n m' s j a b c d v') := by
  refine MShape.bind (MShape.index (forall₂_eq_refl s) _) fun i i' hi => ?_
  subst hi
  refine MShape.bind (MShape.index hm _) fun x x' hx => ?_
  refine MShape.bind (MShape.index (forall₂_eq_refl s) _) fun j j' hj => ?_
  subst hj
  refine MShape.bind (MShape.index hm _) fun y y' hy => ?_
  exact MShape.inNs _ (shape_mixingG h a b c d hx hy)

theorem shape_roundBody (hm : WKs m m') (i : ℕ) (h : WKs v v') :
    MShape (F := F) WKs (roundBody m i v) (roundBody m' i v') := by
  refine MShape.inNs _ ?_
  refine MShape.bind (MShape.index (forall₂_eq_refl SIGMA) _) fun s s' hs => ?_
  subst hs
  refine MShape.bind (shape_mixCall _ hm s _ _ _ _ _ h) fun v v' h => ?_
  refine MShape.bind (shape_mixCall _ hm s _ _ _ _ _ h) fun v v' h => ?_
  refine MShape.bind (shape_mixCall _ hm s _ _ _ _ _ h) fun v v' h => ?_
  refine MShape.bind (shape_mixCall _ hm s _ _ _ _ _ h) fun v v' h => ?_
  refine MShape.bind (shape_mixCall _ hm s _ _ _ _ _ h) fun v v' h => ?_
  refine MShape.bind (shape_mixCall _ hm s _ _ _ _ _ h) fun v v' h => ?_
  refine MShape.bind (shape_mixCall _ hm s _ _ _ _ _ h) fun v v' h => ?_
  exact shape_mixCall _ hm s _ _ _ _ _ h

theorem shape_roundLoop (hm : WKs m m') (n i : ℕ) (h : WKs v v') :
    MShape (F := F) WKs (roundLoop m n i v) (roundLoop m' n i v') := by
  induction n generalizing i v v' with
  | zero => exact MShape.pure h
  | succ n ih => exact MShape.bind (shape_roundBody hm i h) fun _ _ h => ih (i + 1) h

theorem shape_finalLoop (hv : WKs v v') (n i : ℕ) {h h' : List UInt32} (hh : WKs h h') :
    SShape (F := F) WKs (finalLoop v n i h) (finalLoop v' n i h') := by
  induction n generalizing i h h' with
  | zero => exact SShape.pure hh
  | succ n ih =>
    have r1 := rel_getElem? hh i
    have r2 := rel_getElem? hv i
    have r3 := rel_getElem? hv (i + 8)
    simp only [finalLoop]
    revert r1 r2 r3
    generalize h[i]? = o1
    generalize h'[i]? = o1'
    generalize v[i]? = o2
    generalize v'[i]? = o2'
    generalize v[i + 8]? = o3
    generalize v'[i + 8]? = o3'
    intro r1 r2 r3
    cases r1 with
    | none => exact SShape.panic
    | some r1 =>
      cases r2 with
      | none => exact SShape.panic
      | some r2 =>
        cases r3 with
        | none => exact SShape.panic
        | some r3 =>
          refine SShape.bind (SShape.inNs _ (SShape.bind (SShape.inNs _ (shape_xor_wk r1 r2)) fun r r' hr =>
            SShape.inNs _ (shape_xor_wk hr r3))) fun r r' hr => ?_
          exact ih (i + 1) (forall₂_set hh i hr)

theorem wks_refl_constants (l : List (BitVec 32)) : WKs (l.map UInt32.constant) (l.map UInt32.constant) := by
  induction l with
  | nil => exact .nil
  | cons x l ih => exact .cons (wk_constant x) ih

theorem shape_compression {h h' : List UInt32} (hh : WKs h h') (hm : WKs m m') (t : BitVec 64) (f : Bool) :
    SShape (F := F) WKs (compression h m t f) (compression h' m' t f) := by
  unfold compression
  rw [hh.length_eq, hm.length_eq]
  split
  · split
    · dsimp only
      have hv : WKs (h ++ ivTail) (h' ++ ivTail) := List.rel_append hh
        (wks_refl_constants [0x6A09E667, 0xBB67AE85, 0x3C6EF372, 0xA54FF53A, 0x510E527F, 0x9B05688C, 0x1F83D9AB, 0x5BE0CD19])
      have r1 := rel_getElem? hv 12
      have r2 := rel_getElem? hv 13
      have r3 := rel_getElem? hv 14
      revert r1 r2 r3
      generalize (h ++ ivTail)[12]? = o1
      generalize (h' ++ ivTail)[12]? = o1'
      generalize (h ++ ivTail)[13]? = o2
      generalize (h' ++ ivTail)[13]? = o2'
      generalize (h ++ ivTail)[14]? = o3
      generalize (h' ++ ivTail)[14]? = o3'
      intro r1 r2 r3
      cases r1 with
      | none => exact SShape.panic
      | some r1 =>
        cases r2 with
        | none => exact SShape.panic
        | some r2 =>
          cases r3 with
          | none => exact SShape.panic
          | some r3 =>
            refine SShape.bind (SShape.inNs _ (shape_xor_wk r1 (wk_constant _))) fun r r' hr => ?_
            refine SShape.bind (SShape.inNs _ (shape_xor_wk r2 (wk_constant _))) fun q q' hq => ?_
            have hv2 := forall₂_set (forall₂_set hv 12 hr) 13 hq
            refine SShape.bind (R := WKs) ?_ fun w w' hw => ?_
            · split
              · exact SShape.bind (SShape.inNs _ (shape_xor_wk r3 (wk_constant _))) fun u u' hu =>
                  SShape.pure (forall₂_set hv2 14 hu)
              · exact SShape.pure hv2
            · exact SShape.bind (MShape.withMultiEq (shape_roundLoop hm 10 0 hw)) fun w w' hw => shape_finalLoop hw 8 0 hh
    · exact SShape.panic
  · exact SShape.panic

theorem padWord_same {l l' : List Boolean} (h : List.Forall₂ Boolean.Same l l') :
    List.Forall₂ Boolean.Same (padWord l) (padWord l') := by
  unfold padWord
  rw [h.length_eq]
  exact List.rel_append h (forall₂_same_refl _)

theorem wks_replicate (n : ℕ) : WKs (List.replicate n (UInt32.constant 0)) (List.replicate n (UInt32.constant 0)) := by
  induction n with
  | zero => exact .nil
  | succ n ih => exact .cons (wk_constant 0) ih

theorem rel_mkBlock {l l' : List Boolean} (h : List.Forall₂ Boolean.Same l l') :
    Option.Rel WKs (mkBlock l) (mkBlock l') := by
  unfold mkBlock
  have h1 := forall₂_chunks? 32 h
  revert h1
  generalize chunks? 32 l = o
  generalize chunks? 32 l' = o'
  intro h1
  cases h1 with
  | none => exact .none
  | @some cs cs' h1 =>
    have h2 : Option.Rel WKs (cs.mapM fun w => UInt32.fromBits (padWord w)) (cs'.mapM fun w => UInt32.fromBits (padWord w)) :=
      rel_mapM (fun _ _ h => rel_fromBits (padWord_same h)) h1
    show Option.Rel WKs (Option.bind (cs.mapM fun w => UInt32.fromBits (padWord w)) _)
      (Option.bind (cs'.mapM fun w => UInt32.fromBits (padWord w)) _)
    revert h2
    generalize (cs.mapM fun w => UInt32.fromBits (padWord w)) = p
    generalize (cs'.mapM fun w => UInt32.fromBits (padWord w)) = p'
    intro h2
    cases h2 with
    | none => exact .none
    | some h2 =>
      refine .some ?_
      rw [h2.length_eq]
      exact List.rel_append h2 (wks_replicate _)

theorem rel_mkBlocks {l l' : List Boolean} (h : List.Forall₂ Boolean.Same l l') :
    Option.Rel (List.Forall₂ WKs) (mkBlocks l) (mkBlocks l') := by
  unfold mkBlocks
  have h1 := forall₂_chunks? 512 h
  revert h1
  generalize chunks? 512 l = o
  generalize chunks? 512 l' = o'
  intro h1
  cases h1 with
  | none => exact .none
  | @some cs cs' h1 =>
    have h2 : Option.Rel (List.Forall₂ WKs) (cs.mapM mkBlock) (cs'.mapM mkBlock) := rel_mapM (fun _ _ h => rel_mkBlock h) h1
    show Option.Rel (List.Forall₂ WKs) (Option.bind (cs.mapM mkBlock) _) (Option.bind (cs'.mapM mkBlock) _)
    revert h2
    generalize cs.mapM mkBlock = p
    generalize cs'.mapM mkBlock = p'
    intro h2
    cases h2 with
    | none => exact .none
    | some h2 =>
      refine .some ?_
      cases h2 with
      | nil => exact .cons (wks_replicate 16) .nil
      | cons hx ht => exact .cons hx ht

theorem shape_blockLoop (len i : ℕ) {h h' : List UInt32} (hh : WKs h h') {bs bs' : List (List UInt32)}
    (hb : List.Forall₂ WKs bs bs') : SShape (F := F) WKs (blockLoop len i h bs) (blockLoop len i h' bs') := by
  induction hb generalizing i h h' with
  | nil => exact SShape.panic
  | cons hx ht ih =>
    cases ht with
    | nil => exact SShape.inNs _ (shape_compression hh hx _ _)
    | cons hy ht => exact SShape.bind (SShape.inNs _ (shape_compression hh hx _ _)) fun _ _ h => ih (i + 1) h

theorem shape_blake2s {input input' : List Boolean} (h : List.Forall₂ Boolean.Same input input') (pers : List (BitVec 8)) :
    SShape (F := F) (List.Forall₂ Boolean.Same) (blake2s input pers) (blake2s input' pers) := by
  unfold blake2s
  rw [h.length_eq]
  split
  · split
    · dsimp only
      have hb := rel_mkBlocks h
      revert hb
      generalize mkBlocks input = o
      generalize mkBlocks input' = o'
      intro hb
      cases hb with
      | none => exact SShape.panic
      | some hb =>
        refine SShape.bind (shape_blockLoop _ 0 ?_ hb) fun r r' hr => SShape.pure (forall₂_intoBits hr)
        exact .cons (wk_constant _) (.cons (wk_constant _) (.cons (wk_constant _) (.cons (wk_constant _) (.cons (wk_constant _)
          (.cons (wk_constant _) (.cons (wk_constant _) (.cons (wk_constant _) .nil)))))))
    · exact SShape.panic
  · exact SShape.panic

end Blake2s

end Bellman
