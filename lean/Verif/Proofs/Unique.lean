import Verif.Spec.Unique
import Verif.Gadgets.Lookup
import Verif.Gadgets.Multipack
import Verif.Proofs.Num

/-!
# Uniqueness of witnesses: rules, boolean and number gadgets
-/

namespace Bellman

open PrimeField

set_option linter.unusedSectionVars false
set_option linter.unusedVariables false

variable {F : Type} [PrimeField F] {α β : Type} {ρ ρ' : Var → F}

@[simp] theorem allocated_nil : allocated ([] : List (Ev F)) = [] := rfl
@[simp] theorem allocated_alloc (i : Bool) (n : String) (x : Var) (v : Option F) (t : List (Ev F)) :
    allocated (.alloc i n x v :: t) = x :: allocated t := rfl
@[simp] theorem allocated_enforce (n : String) (a b c : LC F) (t : List (Ev F)) : allocated (.enforce n a b c :: t) = allocated t := rfl
@[simp] theorem allocated_push (n : String) (t : List (Ev F)) : allocated (.push n :: t) = allocated t := rfl
@[simp] theorem allocated_pop (t : List (Ev F)) : allocated (.pop :: t) = allocated t := rfl
theorem allocated_append (s t : List (Ev F)) : allocated (s ++ t) = allocated s ++ allocated t := List.filterMap_append

theorem sat_append {s t : List (Ev F)} : Sat ρ (s ++ t) ↔ Sat ρ s ∧ Sat ρ t := by
  induction s with
  | nil => simp
  | cons e s ih => cases e <;> simp [ih, and_assoc]

/-- Two assignments that both satisfy a successful run agree on what it allocates; moreover `D` (what is still to be shown about earlier
variables) and `Q` of the result. -/
def SDet (ρ ρ' : Var → F) (D : Prop) (m : Synth F α) (Q : α → Prop) : Prop :=
  ∀ t a, Exec m.run t (some (.ok a)) → Sat ρ t → Sat ρ' t → D ∧ (∀ x ∈ allocated t, ρ x = ρ' x) ∧ Q a

namespace SDet

variable {D : Prop} {Q R : α → Prop}

theorem pure {a : α} (hd : D) (hq : Q a) : SDet ρ ρ' D (pure a : Synth F α) Q := by
  intro t b he _ _
  cases he
  exact ⟨hd, by simp, hq⟩

theorem throw {e : SynthesisError} : SDet ρ ρ' D (throw e : Synth F α) Q := by
  intro t b he _ _
  cases he

theorem panic {s : String} : SDet ρ ρ' D (Synth.panic s : Synth F α) Q := by
  intro t b he _ _
  cases he

theorem mono {m : Synth F α} (h : SDet ρ ρ' D m Q) (hq : ∀ a, Q a → R a) : SDet ρ ρ' D m R :=
  fun t a he s s' => ⟨(h t a he s s').1, (h t a he s s').2.1, hq a (h t a he s s').2.2⟩

theorem inNs (s : String) {m : Synth F α} (h : SDet ρ ρ' D m Q) : SDet ρ ρ' D (Synth.inNs s m) Q := by
  intro t a he hs hs'
  cases he with
  | push he =>
    rcases Exec.bind_inv he with ⟨_, h2⟩ | ⟨t1, t2, a, rfl, h1, h2⟩
    · cases h2
    · cases h2 with
      | pop h2 =>
        cases h2
        rw [Sat_push, sat_append] at hs hs'
        rw [allocated_push, allocated_append]
        simpa using h _ _ h1 hs.1 hs'.1

theorem bind {P : β → Prop} {m : Synth F β} {g : β → Synth F α} (h : SDet ρ ρ' True m P) (hg : ∀ b, P b → SDet ρ ρ' D (g b) Q) :
    SDet ρ ρ' D (m >>= g) Q := by
  intro t a he hs hs'
  rcases Exec.bind_inv he with ⟨_, h2⟩ | ⟨t1, t2, b, rfl, h1, h2⟩
  · cases h2
  · rw [sat_append] at hs hs'
    cases b with
    | error e => cases h2
    | ok b =>
      obtain ⟨-, a1, q1⟩ := h _ _ h1 hs.1 hs'.1
      obtain ⟨d, a2, q2⟩ := hg b q1 _ _ h2 hs.2 hs'.2
      refine ⟨d, fun x hx => ?_, q2⟩
      rw [allocated_append, List.mem_append] at hx
      exact hx.elim (a1 x) (a2 x)

theorem allocBind {s : String} {f : Except SynthesisError F} {g : Var × Option F → Synth F α}
    (hg : ∀ x v, SDet ρ ρ' (D ∧ ρ x = ρ' x) (g (x, v)) Q) : SDet ρ ρ' D (Synth.alloc s f >>= g) Q := by
  intro t a he hs hs'
  rcases (show Exec (Circ.alloc false s f fun a => _) t _ from he) with _ | _ | ⟨x, he⟩ | ⟨x, v, hf, he⟩ | ⟨e, he⟩
  · obtain ⟨⟨d, e⟩, a1, q⟩ := hg x none _ _ he (by simpa using hs) (by simpa using hs')
    exact ⟨d, by simpa using ⟨e, a1⟩, q⟩
  · obtain ⟨⟨d, e⟩, a1, q⟩ := hg x (some v) _ _ he (by simpa using hs) (by simpa using hs')
    exact ⟨d, by simpa using ⟨e, a1⟩, q⟩
  · cases he

theorem inputBind {s : String} {f : Except SynthesisError F} {g : Var × Option F → Synth F α}
    (hg : ∀ x v, SDet ρ ρ' (D ∧ ρ x = ρ' x) (g (x, v)) Q) : SDet ρ ρ' D (Synth.allocInput s f >>= g) Q := by
  intro t a he hs hs'
  rcases (show Exec (Circ.alloc true s f fun a => _) t _ from he) with _ | _ | ⟨x, he⟩ | ⟨x, v, hf, he⟩ | ⟨e, he⟩
  · obtain ⟨⟨d, e⟩, a1, q⟩ := hg x none _ _ he (by simpa using hs) (by simpa using hs')
    exact ⟨d, by simpa using ⟨e, a1⟩, q⟩
  · obtain ⟨⟨d, e⟩, a1, q⟩ := hg x (some v) _ _ he (by simpa using hs) (by simpa using hs')
    exact ⟨d, by simpa using ⟨e, a1⟩, q⟩
  · cases he

theorem enforceBind {s : String} {a b c : LC F → LC F} {g : Unit → Synth F α}
    (hg : (a ⟨[]⟩).eval ρ * (b ⟨[]⟩).eval ρ = (c ⟨[]⟩).eval ρ → (a ⟨[]⟩).eval ρ' * (b ⟨[]⟩).eval ρ' = (c ⟨[]⟩).eval ρ' →
      SDet ρ ρ' D (g ()) Q) : SDet ρ ρ' D (Synth.enforce s a b c >>= g) Q := by
  intro t r he hs hs'
  rcases (show Exec (Circ.enforce s _ _ _ _) t _ from he) with _ | _ | _ | _ | _ | he
  rw [Sat_enforce] at hs hs'
  have := hg hs.1 hs'.1 _ _ he hs.2 hs'.2
  exact this

theorem enforce {s : String} {a b c : LC F → LC F} {Q : Unit → Prop}
    (hg : (a ⟨[]⟩).eval ρ * (b ⟨[]⟩).eval ρ = (c ⟨[]⟩).eval ρ → (a ⟨[]⟩).eval ρ' * (b ⟨[]⟩).eval ρ' = (c ⟨[]⟩).eval ρ' →
      D ∧ Q ()) : SDet ρ ρ' D (Synth.enforce s a b c) Q := by
  have := enforceBind (ρ := ρ) (ρ' := ρ') (D := D) (Q := Q) (s := s) (a := a) (b := b) (c := c)
    (g := fun _ => (Pure.pure () : Synth F Unit)) fun h h' => pure (hg h h').1 (hg h h').2
  exact this

/-- Facts that hold of every satisfying assignment. -/
theorem sound {m : Synth F α} {U U' : α → Prop} (h : SDet ρ ρ' D m Q) (hu : Synth.wpS ρ m U) (hu' : Synth.wpS ρ' m U') :
    SDet ρ ρ' D m fun a => Q a ∧ U a ∧ U' a :=
  fun t a he s s' => ⟨(h t a he s s').1, (h t a he s s').2.1, (h t a he s s').2.2, (Synth.wpS_iff ..).1 hu t a he s,
    (Synth.wpS_iff ..).1 hu' t a he s'⟩

end SDet

/-- The assignments agree about a literal. -/
def Boolean.Agree (ρ ρ' : Var → F) (b : Boolean) : Prop := ∀ x ∈ b.vars, ρ x = ρ' x

/-- The assignments agree about a list of literals. -/
def AgreeAll (ρ ρ' : Var → F) (l : List Boolean) : Prop := ∀ b ∈ l, b.Agree ρ ρ'

theorem Boolean.Agree.neg {b : Boolean} (h : b.Agree ρ ρ') : b.neg.Agree ρ ρ' := by cases b <;> exact h

theorem Boolean.agree_is {b : AllocatedBit} : (Boolean.is b).Agree ρ ρ' ↔ ρ b.var = ρ' b.var := by simp [Boolean.Agree, Boolean.vars]
theorem Boolean.agree_not {b : AllocatedBit} : (Boolean.not b).Agree ρ ρ' ↔ ρ b.var = ρ' b.var := by simp [Boolean.Agree, Boolean.vars]
theorem Boolean.agree_constant {c : Bool} : (Boolean.constant c).Agree ρ ρ' := by simp [Boolean.Agree, Boolean.vars]

theorem Boolean.Agree.lc (h1 : ρ .one = 1) (h1' : ρ' .one = 1) {b : Boolean} (h : b.Agree ρ ρ') (c : F) :
    (b.lc c).eval ρ = (b.lc c).eval ρ' := by
  rcases b with b | b | v
  · rw [agree_is] at h
    simp [Boolean.lc, h]
  · rw [agree_not] at h
    simp [Boolean.lc, h, h1, h1']
  · cases v <;> simp [Boolean.lc, h1, h1']

theorem Boolean.Agree.bit (h1 : ρ .one = 1) (h1' : ρ' .one = 1) {b : Boolean} (h : b.Agree ρ ρ') {x : Bool} (hb : b.Bit ρ x) : b.Bit ρ' x := by
  rcases b with b | b | v
  · rw [agree_is] at h
    exact h.symm.trans hb
  · rw [agree_not] at h
    exact h.symm.trans hb
  · exact hb

theorem AgreeAll.bits (h1 : ρ .one = 1) (h1' : ρ' .one = 1) {l : List Boolean} (h : AgreeAll ρ ρ' l) (hb : AreBits l ρ) : AreBits l ρ' :=
  fun b hm => (hb b hm).imp fun _ hx => (h b hm).bit h1 h1' hx

/-- From the derived judgement to the specification. -/
theorem Unique.of {P : (Var → F) → Prop} {inputs : List Var} {m : Synth F α}
    (h : ∀ ρ ρ' : Var → F, ρ .one = 1 → ρ' .one = 1 → P ρ → (∀ x ∈ inputs, ρ x = ρ' x) → ∃ Q, SDet ρ ρ' True m Q) : Unique P inputs m := by
  intro t a he ρ ρ' h1 h1' hp ha hs hs'
  obtain ⟨Q, hq⟩ := h ρ ρ' h1 h1' hp ha
  exact (hq t a he hs hs').2.1

theorem SDet.captureBind {D : Prop} {Q : β → Prop} {s : String} {f : Except SynthesisError Bool} {g : Var × Option Bool → Synth F β}
    (hg : ∀ x v, SDet ρ ρ' (D ∧ ρ x = ρ' x) (g (x, v)) Q) : SDet ρ ρ' D (allocCapture s f >>= g) Q := by
  unfold allocCapture
  rw [bind_assoc]
  refine SDet.allocBind fun x v => ?_
  rw [pure_bind]
  exact hg _ _

theorem LC.eval_nil {ρ : Var → F} : LC.eval ρ (⟨[]⟩ : LC F) = 0 := rfl

namespace AllocatedBit

variable {a b : AllocatedBit}

/-- The assignments agree about a bit. -/
def Agree (ρ ρ' : Var → F) (a : AllocatedBit) : Prop := ρ a.var = ρ' a.var

theorem sdet_xor (ha : a.Agree ρ ρ') (hb : b.Agree ρ ρ') : SDet ρ ρ' True (xor a b) (Agree ρ ρ') := by
  refine SDet.captureBind fun x v => SDet.enforceBind fun e e' => ?_
  have key : ρ x = ρ' x := by
    unfold Agree at ha hb
    simp only [LC.eval_addVar, LC.eval_subVar, LC.eval_nil] at e e'
    rw [ha, hb] at e
    linear_combination e - e'
  exact SDet.pure ⟨trivial, key⟩ key

theorem sdet_and (ha : a.Agree ρ ρ') (hb : b.Agree ρ ρ') : SDet ρ ρ' True (and a b) (Agree ρ ρ') := by
  refine SDet.captureBind fun x v => SDet.enforceBind fun e e' => ?_
  have key : ρ x = ρ' x := by
    unfold Agree at ha hb
    simp only [LC.eval_addVar, LC.eval_subVar, LC.eval_nil] at e e'
    rw [ha, hb] at e
    linear_combination e' - e
  exact SDet.pure ⟨trivial, key⟩ key

variable (h1 : ρ .one = 1) (h1' : ρ' .one = 1)
include h1 h1'

theorem sdet_andNot (ha : a.Agree ρ ρ') (hb : b.Agree ρ ρ') : SDet ρ ρ' True (andNot a b) (Agree ρ ρ') := by
  refine SDet.captureBind fun x v => SDet.enforceBind fun e e' => ?_
  have key : ρ x = ρ' x := by
    unfold Agree at ha hb
    simp only [LC.eval_addVar, LC.eval_subVar, LC.eval_nil, h1, h1'] at e e'
    rw [ha, hb] at e
    linear_combination e' - e
  exact SDet.pure ⟨trivial, key⟩ key

theorem sdet_nor (ha : a.Agree ρ ρ') (hb : b.Agree ρ ρ') : SDet ρ ρ' True (nor a b) (Agree ρ ρ') := by
  refine SDet.captureBind fun x v => SDet.enforceBind fun e e' => ?_
  have key : ρ x = ρ' x := by
    unfold Agree at ha hb
    simp only [LC.eval_addVar, LC.eval_subVar, LC.eval_nil, h1, h1'] at e e'
    rw [ha, hb] at e
    linear_combination e' - e
  exact SDet.pure ⟨trivial, key⟩ key

end AllocatedBit

namespace Boolean

variable {a b c : Boolean}

theorem sdet_xor (ha : a.Agree ρ ρ') (hb : b.Agree ρ ρ') : SDet ρ ρ' True (xor a b) (Agree ρ ρ') := by
  unfold xor
  split <;> first
    | exact SDet.pure trivial (by first | exact ha | exact hb | exact ha.neg | exact hb.neg)
    | (refine SDet.bind (AllocatedBit.sdet_xor ?_ ?_) fun r hr => SDet.pure trivial ?_ <;>
        first
          | exact agree_is.1 ha | exact agree_is.1 hb | exact agree_not.1 ha | exact agree_not.1 hb
          | exact agree_is.2 hr | exact agree_not.2 hr)

variable (h1 : ρ .one = 1) (h1' : ρ' .one = 1)
include h1 h1'

theorem sdet_and (ha : a.Agree ρ ρ') (hb : b.Agree ρ ρ') : SDet ρ ρ' True (and a b) (Agree ρ ρ') := by
  unfold and
  split <;> first
    | exact SDet.pure trivial (by first | exact ha | exact hb | exact agree_constant)
    | (refine SDet.bind (AllocatedBit.sdet_andNot h1 h1' ?_ ?_) fun r hr => SDet.pure trivial ?_ <;>
        first
          | exact agree_is.1 ha | exact agree_is.1 hb | exact agree_not.1 ha | exact agree_not.1 hb
          | exact agree_is.2 hr | exact agree_not.2 hr)
    | (refine SDet.bind (AllocatedBit.sdet_nor h1 h1' ?_ ?_) fun r hr => SDet.pure trivial ?_ <;>
        first
          | exact agree_is.1 ha | exact agree_is.1 hb | exact agree_not.1 ha | exact agree_not.1 hb
          | exact agree_is.2 hr | exact agree_not.2 hr)
    | (refine SDet.bind (AllocatedBit.sdet_and ?_ ?_) fun r hr => SDet.pure trivial ?_ <;>
        first
          | exact agree_is.1 ha | exact agree_is.1 hb | exact agree_not.1 ha | exact agree_not.1 hb
          | exact agree_is.2 hr | exact agree_not.2 hr)

theorem sdet_chAlloc (ha : a.Agree ρ ρ') (hb : b.Agree ρ ρ') (hc : c.Agree ρ ρ') : SDet ρ ρ' True (chAlloc a b c) (Agree ρ ρ') := by
  refine SDet.allocBind fun x v => SDet.enforceBind fun e e' => ?_
  have key : ρ x = ρ' x := by
    simp only [LC.eval_addVar, LC.eval_subLC, LC.eval_nil, ha.lc h1 h1', hb.lc h1 h1', hc.lc h1 h1'] at e e'
    linear_combination e' - e
  exact SDet.pure ⟨trivial, key⟩ (agree_is.2 key)

theorem sdet_sha256Ch (ha : a.Agree ρ ρ') (hb : b.Agree ρ ρ') (hc : c.Agree ρ ρ') : SDet ρ ρ' True (sha256Ch a b c) (Agree ρ ρ') := by
  have key : ∀ {x y : Boolean}, x.Agree ρ ρ' → y.Agree ρ ρ' →
      SDet ρ ρ' True (do let r ← Boolean.and x y; pure r.neg : Synth F _) (Agree ρ ρ') := fun hx hy =>
    SDet.bind (sdet_and h1 h1' hx hy) fun r hr => SDet.pure trivial hr.neg
  unfold sha256Ch
  split
  · exact SDet.pure trivial agree_constant
  · exact SDet.pure trivial hc
  · exact sdet_and h1 h1' ha.neg hc
  · exact sdet_and h1 h1' ha hb
  · exact key ha hb.neg
  · exact key ha.neg hc.neg
  · exact sdet_chAlloc h1 h1' ha hb hc
  · exact sdet_chAlloc h1 h1' ha hb hc

theorem sdet_majAlloc (ha : a.Agree ρ ρ') (hb : b.Agree ρ ρ') (hc : c.Agree ρ ρ') : SDet ρ ρ' True (majAlloc a b c) (Agree ρ ρ') := by
  refine SDet.allocBind fun x v => SDet.bind (SDet.inNs _ (sdet_and h1 h1' hb hc)) fun bc hbc => SDet.enforceBind fun e e' => ?_
  have key : ρ x = ρ' x := by
    simp only [LC.eval_addLC, LC.eval_subVar, LC.eval_subLC, ha.lc h1 h1', hb.lc h1 h1', hc.lc h1 h1', hbc.lc h1 h1'] at e e'
    linear_combination e - e'
  exact SDet.pure ⟨trivial, key⟩ (agree_is.2 key)

theorem sdet_sha256Maj (ha : a.Agree ρ ρ') (hb : b.Agree ρ ρ') (hc : c.Agree ρ ρ') : SDet ρ ρ' True (sha256Maj a b c) (Agree ρ ρ') := by
  have key : ∀ {x y : Boolean}, x.Agree ρ ρ' → y.Agree ρ ρ' →
      SDet ρ ρ' True (do let r ← Boolean.and x y; pure r.neg : Synth F _) (Agree ρ ρ') := fun hx hy =>
    SDet.bind (sdet_and h1 h1' hx hy) fun r hr => SDet.pure trivial hr.neg
  unfold sha256Maj
  split
  · exact SDet.pure trivial agree_constant
  · exact sdet_and h1 h1' hb hc
  · exact sdet_and h1 h1' ha hc
  · exact sdet_and h1 h1' ha hb
  · exact key ha.neg hb.neg
  · exact key ha.neg hc.neg
  · exact key hb.neg hc.neg
  · exact sdet_majAlloc h1 h1' ha hb hc

end Boolean

namespace AllocatedNum

variable {a b : AllocatedNum F}

/-- The assignments agree about a number. -/
def Agree (ρ ρ' : Var → F) (a : AllocatedNum F) : Prop := ρ a.var = ρ' a.var

theorem sdet_mul (ha : a.Agree ρ ρ') (hb : b.Agree ρ ρ') : SDet ρ ρ' True (mul a b) (Agree ρ ρ') := by
  refine SDet.allocBind fun x v => SDet.enforceBind fun e e' => ?_
  have key : ρ x = ρ' x := by
    unfold Agree at ha hb
    simp only [LC.eval_addVar, LC.eval_nil] at e e'
    rw [ha, hb] at e
    linear_combination e' - e
  exact SDet.pure ⟨trivial, key⟩ key

theorem sdet_square (ha : a.Agree ρ ρ') : SDet ρ ρ' True (square a) (Agree ρ ρ') := by
  refine SDet.allocBind fun x v => SDet.enforceBind fun e e' => ?_
  have key : ρ x = ρ' x := by
    unfold Agree at ha
    simp only [LC.eval_addVar, LC.eval_nil] at e e'
    rw [ha] at e
    linear_combination e' - e
  exact SDet.pure ⟨trivial, key⟩ key

variable (h1 : ρ .one = 1) (h1' : ρ' .one = 1)
include h1 h1'

theorem sdet_inputize (ha : a.Agree ρ ρ') : SDet ρ ρ' True (inputize a) fun _ => True := by
  refine SDet.inputBind fun x v => SDet.enforce fun e e' => ?_
  unfold Agree at ha
  simp only [LC.eval_addVar, LC.eval_nil, h1, h1'] at e e'
  rw [ha] at e
  exact ⟨⟨trivial, by linear_combination e - e'⟩, trivial⟩

theorem sdet_assertNonzero (ha : a.Agree ρ ρ') : SDet ρ ρ' True (assertNonzero a) fun _ => True := by
  refine SDet.allocBind fun x v => SDet.enforce fun e e' => ?_
  unfold Agree at ha
  simp only [LC.eval_addVar, LC.eval_nil, h1, h1', zero_add] at e e'
  rw [ha] at e
  have h0 : ρ' a.var ≠ 0 := fun h0 => by rw [h0, zero_mul] at e; exact zero_ne_one e
  exact ⟨⟨trivial, mul_left_cancel₀ h0 (e.trans e'.symm)⟩, trivial⟩

theorem numBind {D : Prop} {Q : β → Prop} {s : String} {f : Except SynthesisError F} {g : AllocatedNum F → Synth F β}
    (hg : ∀ x, SDet ρ ρ' (D ∧ x.Agree ρ ρ') (g x) Q) : SDet ρ ρ' D (Synth.inNs s (alloc f) >>= g) Q := by
  intro t a he hs hs'
  rcases (show Exec (Circ.push s (Circ.alloc false "num" f fun a => _)) t _ from he) with _ | _ | _ | _ | _ | _ | he
  rcases he with _ | _ | ⟨x, he⟩ | ⟨x, v, hf, he⟩ | ⟨e, he⟩
  · rcases he with _ | _ | _ | _ | _ | _ | _ | he
    obtain ⟨⟨d, e⟩, a1, q⟩ := hg ⟨none, x⟩ _ _ he (by simpa using hs) (by simpa using hs')
    exact ⟨d, by simpa using ⟨e, a1⟩, q⟩
  · rcases he with _ | _ | _ | _ | _ | _ | _ | he
    obtain ⟨⟨d, e⟩, a1, q⟩ := hg ⟨some v, x⟩ _ _ he (by simpa using hs) (by simpa using hs')
    exact ⟨d, by simpa using ⟨e, a1⟩, q⟩
  · rcases he with _ | _ | _ | _ | _ | _ | _ | he
    cases he

theorem sdet_conditionallyReverse {c : Boolean} (ha : a.Agree ρ ρ') (hb : b.Agree ρ ρ') (hc : c.Agree ρ ρ') :
    SDet ρ ρ' True (conditionallyReverse a b c) fun o => o.1.Agree ρ ρ' ∧ o.2.Agree ρ ρ' := by
  refine numBind h1 h1' fun x => SDet.enforceBind fun e e' => numBind h1 h1' fun y => SDet.enforceBind fun f f' => ?_
  unfold Agree at ha hb
  simp only [LC.eval_addVar, LC.eval_subVar, LC.eval_nil, hc.lc h1 h1', ha, hb] at e e' f f'
  have k1 : ρ x.var = ρ' x.var := by linear_combination e - e'
  have k2 : ρ y.var = ρ' y.var := by linear_combination f - f'
  exact SDet.pure ⟨⟨trivial, k1⟩, k2⟩ ⟨k1, k2⟩

end AllocatedNum

theorem mem_of_chunks {c : ℕ} {l : List α} {ll : List (List α)} (h : chunks? c l = some ll) {x : List α} (hx : x ∈ ll) {a : α} (ha : a ∈ x) :
    a ∈ l := by
  unfold chunks? at h
  split at h
  · cases h
  · cases h
    rw [← chunksAux_flatten c (by omega) l.length l le_rfl]
    exact List.mem_flatten.2 ⟨x, hx, ha⟩

section lookup

variable (h1 : ρ .one = 1) (h1' : ρ' .one = 1)
include h1 h1'

theorem sdet_lookup3xy {bits : List Boolean} {coords : List (F × F)} (hb : AgreeAll ρ ρ' bits) :
    SDet ρ ρ' True (lookup3xy bits coords) fun o => o.1.Agree ρ ρ' ∧ o.2.Agree ρ ρ' := by
  unfold lookup3xy
  split
  · rename_i b0 b1 b2
    have a0 := hb b0 (by simp)
    have a1 := hb b1 (by simp)
    have a2 := hb b2 (by simp)
    split
    · refine AllocatedNum.numBind h1 h1' fun x => AllocatedNum.numBind h1 h1' fun y => ?_
      split
      · refine SDet.bind (SDet.inNs _ (Boolean.sdet_and h1 h1' a1 a2)) fun pc hpc => SDet.enforceBind fun e e' =>
          SDet.enforceBind fun f f' => ?_
        simp only [LC.eval_addVar, LC.eval_addLC, LC.eval_subLC, LC.eval_addTerm, LC.eval_subTerm, LC.eval_nil, a0.lc h1 h1', a1.lc h1 h1',
          a2.lc h1 h1', hpc.lc h1 h1', h1, h1'] at e e' f f'
        have k1 : ρ x.var = ρ' x.var := by linear_combination e' - e
        have k2 : ρ y.var = ρ' y.var := by linear_combination f' - f
        exact SDet.pure ⟨⟨trivial, k1⟩, k2⟩ ⟨k1, k2⟩
      · exact SDet.panic
    · exact SDet.panic
  · exact SDet.panic

theorem sdet_lookup3xyWithConditionalNegation {bits : List Boolean} {coords : List (F × F)} (hb : AgreeAll ρ ρ' bits) :
    SDet ρ ρ' True (lookup3xyWithConditionalNegation bits coords) fun _ => True := by
  unfold lookup3xyWithConditionalNegation
  split
  · rename_i b0 b1 b2
    have a0 := hb b0 (by simp)
    have a1 := hb b1 (by simp)
    have a2 := hb b2 (by simp)
    split
    · refine AllocatedNum.numBind h1 h1' fun y => ?_
      split
      · refine SDet.bind (SDet.inNs _ (Boolean.sdet_and h1 h1' a0 a1)) fun pc hpc => SDet.enforceBind fun e e' => ?_
        simp only [LC.eval_addVar, LC.eval_subVar, LC.eval_addLC, LC.eval_subLC, LC.eval_addTerm, LC.eval_subTerm, LC.eval_nil,
          a0.lc h1 h1', a1.lc h1 h1', a2.lc h1 h1', hpc.lc h1 h1', h1, h1'] at e e'
        have k1 : ρ y.var = ρ' y.var := by linear_combination e - e'
        exact SDet.pure ⟨trivial, k1⟩ trivial
      · exact SDet.panic
    · exact SDet.panic
  · exact SDet.panic

theorem packNum_agree {l : List Boolean} (hl : AgreeAll ρ ρ' l) (n : Num F) (c : F) (hn : n.lcomb.eval ρ = n.lcomb.eval ρ') :
    (packNum n c l).lcomb.eval ρ = (packNum n c l).lcomb.eval ρ' := by
  induction l generalizing n c with
  | nil => exact hn
  | cons b l ih =>
    refine ih (fun x hx => hl x (by simp [hx])) _ _ ?_
    simp only [Num.addBoolWithCoeff, LC.eval_addLC, hn, (hl b (by simp)).lc h1 h1']

theorem sdet_packChunks {l : List (List Boolean)} (hl : ∀ c ∈ l, AgreeAll ρ ρ' c) (i : ℕ) :
    SDet ρ ρ' True (packChunks i l : Synth F Unit) fun _ => True := by
  induction l generalizing i with
  | nil => exact SDet.pure trivial trivial
  | cons c l ih =>
    unfold packChunks
    refine SDet.inputBind fun x v => SDet.enforceBind fun e e' => ?_
    have hc := packNum_agree h1 h1' (hl c (by simp)) Num.zero 1 rfl
    simp only [Num.lc, LC.eval_addScaled, LC.eval_zero, LC.eval_addVar, LC.eval_nil, h1, h1', hc] at e e'
    have k : ρ x = ρ' x := by linear_combination e' - e
    refine fun t a he hs hs' => ?_
    obtain ⟨-, h⟩ := ih (fun c hc => hl c (by simp [hc])) (i + 1) t a he hs hs'
    exact ⟨⟨trivial, k⟩, h⟩

theorem sdet_packIntoInputs {l : List Boolean} (hl : AgreeAll ρ ρ' l) : SDet ρ ρ' True (packIntoInputs l : Synth F Unit) fun _ => True := by
  unfold packIntoInputs
  split
  · exact SDet.panic
  · rename_i cs hcs
    exact sdet_packChunks h1 h1' (fun c hc b hb => hl b (mem_of_chunks hcs hc hb)) 0

end lookup

end Bellman
