import Verif.Cost
import Verif.Constrain
import Verif.Proofs.Sha256

/-!
# The counting interpreter is right: bits, words and additions
-/

namespace Bellman.Cost

open PrimeField List

set_option linter.unusedSectionVars false

variable {F : Type} [PrimeField F] {α β γ δ : Type}

/-! ### Counting -/

/-- Every successful execution allocates `g` variables, makes `g + e` constraints and gives a result in `Q`. -/
def Exactly (m : Synth F α) (g e : ℕ) (Q : α → Prop) : Prop :=
  ∀ t r, Exec m.run t (some (.ok r)) → Q r ∧ numAux t = g ∧ (consOf t).length = g + e

namespace Exactly

variable {g e g' e' : ℕ} {Q : α → Prop} {P : β → Prop}

theorem pure {a : α} (h : Q a) : Exactly (Pure.pure a : Synth F α) 0 0 Q := by
  intro t r he
  cases he
  exact ⟨h, rfl, rfl⟩

theorem panic {s : String} : Exactly (Synth.panic s : Synth F α) g e Q := by
  intro t r he
  cases he

theorem bind {m : Synth F α} {f : α → Synth F β} (h : Exactly m g e Q) (hf : ∀ a, Q a → Exactly (f a) g' e' P) :
    Exactly (m >>= f) (g + g') (e + e') P := by
  intro t r he
  rcases Exec.bind_inv he with ⟨_, h2⟩ | ⟨t1, t2, b, rfl, h1, h2⟩
  · cases h2
  · cases b with
    | error e => cases h2
    | ok b =>
      obtain ⟨q1, n1, c1⟩ := h _ _ h1
      obtain ⟨q2, n2, c2⟩ := hf b q1 _ _ h2
      rw [numAux_append, consOf_append, length_append]
      exact ⟨q2, by omega, by omega⟩

theorem map {m : Synth F α} {f : α → β} (h : Exactly m g e Q) (hf : ∀ a, Q a → P (f a)) :
    Exactly (m >>= fun a => Pure.pure (f a)) g e P := h.bind (g' := 0) (e' := 0) fun a ha => pure (hf a ha)

theorem mono {Q' : α → Prop} {m : Synth F α} (h : Exactly m g e Q) (hq : ∀ a, Q a → Q' a) : Exactly m g e Q' :=
  fun t r he => ⟨hq _ (h t r he).1, (h t r he).2⟩

theorem inNs (s : String) {m : Synth F α} (h : Exactly m g e Q) : Exactly (Synth.inNs s m) g e Q := by
  intro t r he
  cases he with
  | push he =>
    rcases Exec.bind_inv he with ⟨_, h2⟩ | ⟨t1, t2, a, rfl, h1, h2⟩
    · cases h2
    · cases h2 with
      | pop h2 =>
        cases h2
        obtain ⟨q, n, c⟩ := h _ _ h1
        rw [numAux_push, numAux_append, consOf_push, consOf_append]
        simp only [numAux_pop, numAux_nil, consOf_pop, consOf_nil, append_nil]
        exact ⟨q, by omega, c⟩

theorem gate {s s' : String} {f : Except SynthesisError F} {a b c : Var × Option F → LC F → LC F} {h : Var × Option F → α}
    (hq : ∀ r, Q (h r)) :
    Exactly (Synth.alloc s f >>= fun r => Synth.enforce s' (a r) (b r) (c r) >>= fun _ => Pure.pure (h r)) 1 0 Q := by
  intro t r he
  rcases (show Exec (Circ.alloc false s f fun a => _) t _ from he) with _ | _ | ⟨x, he⟩ | ⟨x, v, hf, he⟩ | ⟨e, he⟩
  · rcases (show Exec (Circ.enforce s' _ _ _ _) _ _ from he) with _ | _ | _ | _ | _ | he
    cases he
    exact ⟨hq _, rfl, rfl⟩
  · rcases (show Exec (Circ.enforce s' _ _ _ _) _ _ from he) with _ | _ | _ | _ | _ | he
    cases he
    exact ⟨hq _, rfl, rfl⟩
  · cases he

end Exactly

/-- The counting program tells the truth about the program. -/
def SS (m : Synth F α) (a : AM β) (R : α → β → Prop) : Prop :=
  ∀ σ y σ', a σ = some (y, σ') → ∀ t r, Exec m.run t (some (.ok r)) →
    R r y ∧ σ'.u = σ.u ∧ σ'.g = σ.g + numAux t ∧ σ'.g + σ'.m = σ.g + σ.m + (consOf t).length

/-- The same for programs with a `MultiEq`. -/
def MS (m : MSynth F α) (a : AM β) (R : α → β → Prop) : Prop :=
  ∀ σ y σ', a σ = some (y, σ') → ∀ st : MEq F, st.bitsUsed = σ.u → ∀ t r st', Exec (m.run.run st) t (some (.ok r, st')) →
    R r y ∧ st'.bitsUsed = σ'.u ∧ σ'.g = σ.g + numAux t ∧ σ'.g + σ'.m = σ.g + σ.m + (consOf t).length

theorem bind_some {a : AM β} {f : β → AM γ} {σ z σ''} (h : (a >>= f) σ = some (z, σ'')) :
    ∃ y σ', a σ = some (y, σ') ∧ f y σ' = some (z, σ'') := by
  change (a σ).bind (fun x => f x.1 x.2) = _ at h
  obtain ⟨⟨y, σ'⟩, h1, h2⟩ := Option.bind_eq_some_iff.1 h
  exact ⟨y, σ', h1, h2⟩

namespace SS

variable {R R' : α → β → Prop} {S : γ → δ → Prop}

theorem pure {a : α} {b : β} (h : R a b) : SS (Pure.pure a : Synth F α) (Pure.pure b) R := by
  intro σ y σ' e t r he
  cases e
  cases he
  exact ⟨h, rfl, rfl, rfl⟩

theorem fail {m : Synth F α} : SS m (Cost.fail : AM β) R := by
  intro σ y σ' e
  cases e

theorem panic {s : String} {a : AM β} : SS (Synth.panic s : Synth F α) a R := by
  intro σ y σ' e t r he
  cases he

theorem tick {m : Synth F α} {b : β} {n : ℕ} (h : Exactly m n 0 (R · b)) : SS m (Cost.tick n >>= fun _ => Pure.pure b) R := by
  intro σ y σ' e t r he
  cases e
  obtain ⟨q, h1, h2⟩ := h t r he
  exact ⟨q, rfl, by rw [h1], by show σ.g + n + σ.m = _; omega⟩

theorem free {m : Synth F α} {b : β} (h : Exactly m 0 0 (R · b)) : SS m (Pure.pure b) R := by
  intro σ y σ' e t r he
  cases e
  obtain ⟨q, h1, h2⟩ := h t r he
  exact ⟨q, rfl, by rw [h1]; rfl, by omega⟩

theorem mono {m : Synth F α} {a : AM β} (h : SS m a R) (hr : ∀ x y, R x y → R' x y) : SS m a R' :=
  fun σ y σ' e t r he => ⟨hr _ _ (h σ y σ' e t r he).1, (h σ y σ' e t r he).2⟩

theorem bind {m : Synth F α} {a : AM β} {f : α → Synth F γ} {f' : β → AM δ} (h : SS m a R) (hf : ∀ x y, R x y → SS (f x) (f' y) S) :
    SS (m >>= f) (a >>= f') S := by
  intro σ z σ'' e t r he
  obtain ⟨y, σ', h1, h2⟩ := bind_some e
  rcases Exec.bind_inv he with ⟨_, h4⟩ | ⟨t1, t2, b, rfl, h3, h4⟩
  · cases h4
  · cases b with
    | error e => cases h4
    | ok b =>
      obtain ⟨q1, u1, n1, c1⟩ := h _ _ _ h1 _ _ h3
      obtain ⟨q2, u2, n2, c2⟩ := hf b y q1 _ _ _ h2 _ _ h4
      rw [numAux_append, consOf_append, length_append]
      exact ⟨q2, u2.trans u1, by omega, by omega⟩

theorem inNs (s : String) {m : Synth F α} {a : AM β} (h : SS m a R) : SS (Synth.inNs s m) a R := by
  intro σ z σ'' e t r he
  cases he with
  | push he =>
    rcases Exec.bind_inv he with ⟨_, h2⟩ | ⟨t1, t2, a, rfl, h1, h2⟩
    · cases h2
    · cases h2 with
      | pop h2 =>
        cases h2
        obtain ⟨q, u, n, c⟩ := h _ _ _ e _ _ h1
        rw [numAux_push, numAux_append, consOf_push, consOf_append]
        simp only [numAux_pop, numAux_nil, consOf_pop, consOf_nil, append_nil]
        exact ⟨q, u, by omega, c⟩

end SS

namespace MS

variable {R R' : α → β → Prop} {S : γ → δ → Prop}

theorem pure {a : α} {b : β} (h : R a b) : MS (Pure.pure a : MSynth F α) (Pure.pure b) R := by
  intro σ y σ' e st hs t r st' he
  cases e
  cases he
  exact ⟨h, hs, rfl, rfl⟩

theorem fail {m : MSynth F α} : MS m (Cost.fail : AM β) R := by
  intro σ y σ' e
  cases e

theorem lift {m : Synth F α} {a : AM β} (h : SS m a R) : MS (MSynth.lift m) a R := by
  intro σ y σ' e st hs t r st' he
  rcases Exec.bind_inv (show Exec (m.run.bind fun r => .ret (r, st)) _ _ from he) with ⟨_, h4⟩ | ⟨t1, t2, b, rfl, h3, h4⟩
  · cases h4
  · cases h4
    obtain ⟨q, u, n, c⟩ := h _ _ _ e _ _ h3
    rw [append_nil]
    exact ⟨q, hs.trans u.symm, n, c⟩

theorem panic {s : String} {a : AM β} : MS (MSynth.lift (Synth.panic s) : MSynth F α) a R := lift SS.panic

theorem mono {m : MSynth F α} {a : AM β} (h : MS m a R) (hr : ∀ x y, R x y → R' x y) : MS m a R' :=
  fun σ y σ' e st hs t r st' he => ⟨hr _ _ (h σ y σ' e st hs t r st' he).1, (h σ y σ' e st hs t r st' he).2⟩

theorem bind {m : MSynth F α} {a : AM β} {f : α → MSynth F γ} {f' : β → AM δ} (h : MS m a R) (hf : ∀ x y, R x y → MS (f x) (f' y) S) :
    MS (m >>= f) (a >>= f') S := by
  intro σ z σ'' e st hs t r st' he
  obtain ⟨y, σ', h1, h2⟩ := bind_some e
  rcases Exec.bind_inv (show Exec ((m.run.run st).bind _) _ _ from he) with ⟨_, h4⟩ | ⟨t1, t2, ⟨b, s1⟩, rfl, h3, h4⟩
  · cases h4
  · cases b with
    | error e => cases h4
    | ok b =>
      obtain ⟨q1, u1, n1, c1⟩ := h _ _ _ h1 _ hs _ _ _ h3
      obtain ⟨q2, u2, n2, c2⟩ := hf b y q1 _ _ _ h2 _ u1 _ _ _ h4
      rw [numAux_append, consOf_append, length_append]
      exact ⟨q2, u2, by omega, by omega⟩

theorem inNs (s : String) {m : MSynth F α} {a : AM β} (h : MS m a R) : MS (MSynth.inNs s m) a R := by
  intro σ z σ'' e st hs t r st' he
  rcases (show Exec (Circ.push s _) _ _ from he) with _ | _ | _ | _ | _ | _ | he
  rcases Exec.bind_inv he with ⟨_, h2⟩ | ⟨t1, t2, a, rfl, h1, h2⟩
  · cases h2
  · cases h2 with
    | pop h2 =>
      cases h2
      obtain ⟨q, u, n, c⟩ := h _ _ _ e _ hs _ _ _ h1
      rw [numAux_push, numAux_append, consOf_push, consOf_append]
      simp only [numAux_pop, numAux_nil, consOf_pop, consOf_nil, append_nil]
      exact ⟨q, u, by omega, c⟩

theorem withMultiEq {m : MSynth F α} {a : AM β} (h : MS m a R) : SS (MSynth.withMultiEq m) (Cost.withMultiEq a) R := by
  intro σ z σ'' e t r he
  unfold Cost.withMultiEq at e
  split at e
  · rename_i x s' ha
    cases e
    rcases Exec.bind_inv (show Exec ((m.run.run MEq.new).bind _) _ _ from he) with ⟨_, h4⟩ | ⟨t1, t2, ⟨b, s1⟩, rfl, h3, h4⟩
    · cases h4
    · unfold MEq.drop at h4
      cases b with
      | error e =>
        split at h4
        · rcases (show Exec (Circ.enforce _ _ _ _ _) _ _ from h4) with _ | _ | _ | _ | _ | h4
          cases h4
        · cases h4
      | ok b =>
        obtain ⟨q, u, n, c⟩ := h _ _ _ ha MEq.new rfl _ _ _ h3
        dsimp only at u n c
        rw [numAux_append, consOf_append, length_append]
        split at h4
        · rename_i hu
          rcases (show Exec (Circ.enforce _ _ _ _ _) _ _ from h4) with _ | _ | _ | _ | _ | h4
          cases h4
          rw [if_pos (by rw [← u]; exact hu)]
          simp only [numAux_enforce, numAux_nil, consOf_enforce, consOf_nil, length_cons, length_nil]
          exact ⟨q, trivial, by omega, by omega⟩
        · rename_i hu
          cases h4
          rw [if_neg (by rw [← u]; exact hu)]
          simp only [numAux_nil, consOf_nil, length_nil]
          exact ⟨q, trivial, by omega, by omega⟩
  · cases e

theorem index {l : List α} {l' : List β} (h : Forall₂ R l l') (i : ℕ) : MS (F := F) (MSynth.index l i) (Cost.index l' i) R := by
  unfold MSynth.index Cost.index
  cases hx : l[i]? with
  | none => exact panic
  | some x =>
    cases hy : l'[i]? with
    | none => exact fail
    | some y =>
      refine pure ?_
      obtain ⟨h1, rfl⟩ := List.getElem?_eq_some_iff.1 hx
      obtain ⟨h2, rfl⟩ := List.getElem?_eq_some_iff.1 hy
      exact h.get h1 h2

theorem enforceEqual {cap : ℕ} (hc : CAPACITY F = cap) (n : ℕ) (l r : LC F) :
    MS (MEq.enforceEqual n l r) (Cost.enforceEqual cap n) fun _ _ => True := by
  subst hc
  intro σ z σ'' e st hs t x st' he
  have add : ∀ (s : MEq F) t x st', Exec (if CAPACITY F > s.bitsUsed + n then
        (.ret (.ok (), ⟨s.ops, s.bitsUsed + n, s.lhs + ((2 ^ s.bitsUsed : F), l), s.rhs + ((2 ^ s.bitsUsed : F), r)⟩) :
          Circ F (Except SynthesisError Unit × MEq F))
      else .panic "assert!((Scalar::CAPACITY as usize) > (self.bits_used + num_bits))") t (some (.ok x, st')) →
      t = [] ∧ st'.bitsUsed = s.bitsUsed + n := by
    intro s t x st' he
    split at he
    · cases he; exact ⟨rfl, rfl⟩
    · cases he
  unfold Cost.enforceEqual at e
  have hif : CAPACITY F ≤ st.bitsUsed + n ↔ CAPACITY F ≤ σ.u + n := by rw [hs]
  replace he : Exec (if CAPACITY F ≤ st.bitsUsed + n then _ else _) t (some (Except.ok x, st')) := he
  split at e
  · rename_i hb
    cases e
    rw [if_pos (hif.2 hb)] at he
    rcases (show Exec (Circ.enforce _ _ _ _ _) _ _ from he) with _ | _ | _ | _ | _ | he
    obtain ⟨rfl, h2⟩ := add _ _ _ _ he
    refine ⟨trivial, by rw [h2]; exact Nat.zero_add _, rfl, rfl⟩
  · rename_i hb
    cases e
    rw [if_neg (mt hif.1 hb)] at he
    obtain ⟨rfl, h2⟩ := add _ _ _ _ he
    exact ⟨trivial, by rw [h2, hs], rfl, rfl⟩

end MS

/-! ### Bits -/

/-- What is said of a bit is true. -/
def AB.Fits : Boolean → AB → Prop
  | .is _, .var => True
  | .not _, .var => True
  | .constant x, .c b => x = b
  | .constant _, .any => True
  | _, _ => False

theorem AB.Fits.neg {a : Boolean} {x : AB} (h : AB.Fits a x) : AB.Fits a.neg x.neg := by
  cases a <;> cases x <;> simp_all [AB.Fits, Boolean.neg, AB.neg]

theorem capture {s s' : String} {f : Except SynthesisError Bool} {a b c : Var × Option Bool → LC F → LC F}
    {h : Var × Option Bool → α} {Q : α → Prop} (hq : ∀ r, Q (h r)) :
    Exactly (allocCapture s f >>= fun r => Synth.enforce s' (a r) (b r) (c r) >>= fun _ => Pure.pure (h r)) 1 0 Q := by
  unfold allocCapture
  rw [bind_assoc]
  simp only [pure_bind]
  exact Exactly.gate fun r => hq _

theorem exactly_xor (a b : AllocatedBit) : Exactly (AllocatedBit.xor a b : Synth F _) 1 0 fun _ => True := capture fun _ => trivial
theorem exactly_and (a b : AllocatedBit) : Exactly (AllocatedBit.and a b : Synth F _) 1 0 fun _ => True := capture fun _ => trivial
theorem exactly_andNot (a b : AllocatedBit) : Exactly (AllocatedBit.andNot a b : Synth F _) 1 0 fun _ => True :=
  capture fun _ => trivial
theorem exactly_nor (a b : AllocatedBit) : Exactly (AllocatedBit.nor a b : Synth F _) 1 0 fun _ => True := capture fun _ => trivial
theorem exactly_alloc (v : Option Bool) : Exactly (AllocatedBit.alloc v : Synth F _) 1 0 fun _ => True := Exactly.gate fun _ => trivial

theorem ss_xor {a b : Boolean} {x y : AB} (ha : AB.Fits a x) (hb : AB.Fits b y) :
    SS (Boolean.xor a b : Synth F _) (xorB x y) AB.Fits := by
  rcases a with a | a | (_ | _) <;> rcases b with b | b | (_ | _) <;> rcases x with _ | (_ | _) | _ <;> rcases y with _ | (_ | _) | _ <;>
    simp only [AB.Fits, reduceCtorEq] at ha hb <;>
    first
    | exact SS.pure (by simp [AB.Fits, Boolean.neg])
    | exact SS.tick ((exactly_xor _ _).map fun _ _ => by simp [AB.Fits, Boolean.neg])

theorem ss_and {a b : Boolean} {x y : AB} (ha : AB.Fits a x) (hb : AB.Fits b y) :
    SS (Boolean.and a b : Synth F _) (andB x y) AB.Fits := by
  rcases a with a | a | (_ | _) <;> rcases b with b | b | (_ | _) <;> rcases x with _ | (_ | _) | _ <;> rcases y with _ | (_ | _) | _ <;>
    simp only [AB.Fits, reduceCtorEq] at ha hb <;>
    first
    | exact SS.fail
    | exact SS.pure (by simp [AB.Fits])
    | exact SS.tick ((exactly_andNot _ _).map fun _ _ => by simp [AB.Fits])
    | exact SS.tick ((exactly_and _ _).map fun _ _ => by simp [AB.Fits])
    | exact SS.tick ((exactly_nor _ _).map fun _ _ => by simp [AB.Fits])

theorem exactly_chAlloc (a b c : Boolean) : Exactly (Boolean.chAlloc a b c : Synth F _) 1 0 (AB.Fits · .var) :=
  Exactly.gate fun _ => trivial

theorem chB_any_right (x y : AB) : chB x y .any = fail := by rcases x with _ | (_ | _) | _ <;> rcases y with _ | (_ | _) | _ <;> rfl
theorem chB_any_mid (x z : AB) : chB x .any z = fail := by rcases x with _ | (_ | _) | _ <;> rcases z with _ | (_ | _) | _ <;> rfl
theorem chB_any_left (y z : AB) : chB .any y z = fail := by rcases y with _ | (_ | _) | _ <;> rcases z with _ | (_ | _) | _ <;> rfl
theorem majB_any_right (x y : AB) : majB x y .any = fail := by rcases x with _ | (_ | _) | _ <;> rcases y with _ | (_ | _) | _ <;> rfl
theorem majB_any_mid (x z : AB) : majB x .any z = fail := by rcases x with _ | (_ | _) | _ <;> rcases z with _ | (_ | _) | _ <;> rfl
theorem majB_any_left (y z : AB) : majB .any y z = fail := by rcases y with _ | (_ | _) | _ <;> rcases z with _ | (_ | _) | _ <;> rfl

/-- The cases of a bit about which something is known. -/
theorem AB.Fits.cases {a : Boolean} {x : AB} (h : AB.Fits a x) :
    x = .any ∨ (∃ b, a = .is b ∧ x = .var) ∨ (∃ b, a = .not b ∧ x = .var) ∨ (a = .constant true ∧ x = .c true) ∨
      (a = .constant false ∧ x = .c false) := by
  rcases a with a | a | (_ | _) <;> rcases x with _ | (_ | _) | _ <;> simp [AB.Fits] at h ⊢

theorem ss_ch {a b c : Boolean} {x y z : AB} (ha : AB.Fits a x) (hb : AB.Fits b y) (hc : AB.Fits c z) :
    SS (Boolean.sha256Ch a b c : Synth F _) (chB x y z) AB.Fits := by
  rcases ha.cases with rfl | h1
  · rw [chB_any_left]; exact SS.fail
  rcases hb.cases with rfl | h2
  · rw [chB_any_mid]; exact SS.fail
  rcases hc.cases with rfl | h3
  · rw [chB_any_right]; exact SS.fail
  rcases h1 with ⟨a, rfl, rfl⟩ | ⟨a, rfl, rfl⟩ | ⟨rfl, rfl⟩ | ⟨rfl, rfl⟩ <;>
  rcases h2 with ⟨b, rfl, rfl⟩ | ⟨b, rfl, rfl⟩ | ⟨rfl, rfl⟩ | ⟨rfl, rfl⟩ <;>
  rcases h3 with ⟨c, rfl, rfl⟩ | ⟨c, rfl, rfl⟩ | ⟨rfl, rfl⟩ | ⟨rfl, rfl⟩ <;>
    first
    | exact SS.pure trivial
    | exact SS.pure rfl
    | exact SS.tick (exactly_chAlloc _ _ _)
    | exact ss_and ha.neg hc
    | exact ss_and ha hb
    | exact (ss_and ha hb.neg).bind fun r s h => SS.pure h.neg
    | exact (ss_and ha.neg hc.neg).bind fun r s h => SS.pure h.neg

theorem exactly_majAlloc {a b c : Boolean} (hb : AB.Fits b .var) (hc : AB.Fits c .var) :
    Exactly (Boolean.majAlloc a b c : Synth F _) 2 0 (AB.Fits · .var) := by
  have hand : Exactly (Synth.inNs "b and c" (Boolean.and b c) : Synth F _) 1 0 fun _ => True := by
    refine Exactly.inNs _ ?_
    rcases b with b | b | b <;> rcases c with c | c | c <;> simp only [AB.Fits] at hb hc
    · exact (exactly_and _ _).map fun _ _ => trivial
    · exact (exactly_andNot _ _).map fun _ _ => trivial
    · exact (exactly_andNot _ _).map fun _ _ => trivial
    · exact (exactly_nor _ _).map fun _ _ => trivial
  have key : ∀ (x : Var) v t r, Exec ((Synth.inNs "b and c" (Boolean.and b c) >>= fun bc =>
      Synth.enforce "maj computation"
        (fun _ => bc.lc (1 : F) + bc.lc (1 : F) - b.lc (1 : F) - c.lc (1 : F))
        (fun _ => a.lc (1 : F))
        (fun _ => bc.lc (1 : F) - x) >>= fun _ => pure (.is ⟨x, v⟩)) : Synth F Boolean).run t (some (.ok r)) →
      AB.Fits r .var ∧ numAux t = 1 ∧ (consOf t).length = 2 := by
    intro x v t r he
    rcases Exec.bind_inv he with ⟨_, h2⟩ | ⟨t1, t2, bc, rfl, h1, h2⟩
    · cases h2
    · cases bc with
      | error e => cases h2
      | ok bc =>
        obtain ⟨-, n1, c1⟩ := hand _ _ h1
        rcases (show Exec (Circ.enforce _ _ _ _ _) _ _ from h2) with _ | _ | _ | _ | _ | h2
        cases h2
        rw [numAux_append, consOf_append, length_append, n1, c1]
        exact ⟨trivial, rfl, rfl⟩
  intro t r he
  rcases (show Exec (Circ.alloc false "maj" _ fun a => _) t _ from he) with _ | _ | ⟨x, he⟩ | ⟨x, v, hf, he⟩ | ⟨e, he⟩
  · obtain ⟨h1, h2, h3⟩ := key x _ _ _ he
    rw [numAux_aux, consOf_alloc, h2, h3]
    exact ⟨h1, rfl, rfl⟩
  · obtain ⟨h1, h2, h3⟩ := key x _ _ _ he
    rw [numAux_aux, consOf_alloc, h2, h3]
    exact ⟨h1, rfl, rfl⟩
  · cases he

theorem ss_maj {a b c : Boolean} {x y z : AB} (ha : AB.Fits a x) (hb : AB.Fits b y) (hc : AB.Fits c z) :
    SS (Boolean.sha256Maj a b c : Synth F _) (majB x y z) AB.Fits := by
  rcases ha.cases with rfl | h1
  · rw [majB_any_left]; exact SS.fail
  rcases hb.cases with rfl | h2
  · rw [majB_any_mid]; exact SS.fail
  rcases hc.cases with rfl | h3
  · rw [majB_any_right]; exact SS.fail
  rcases h1 with ⟨a, rfl, rfl⟩ | ⟨a, rfl, rfl⟩ | ⟨rfl, rfl⟩ | ⟨rfl, rfl⟩ <;>
  rcases h2 with ⟨b, rfl, rfl⟩ | ⟨b, rfl, rfl⟩ | ⟨rfl, rfl⟩ | ⟨rfl, rfl⟩ <;>
  rcases h3 with ⟨c, rfl, rfl⟩ | ⟨c, rfl, rfl⟩ | ⟨rfl, rfl⟩ | ⟨rfl, rfl⟩ <;>
    first
    | exact SS.pure trivial
    | exact SS.pure rfl
    | exact SS.tick (exactly_majAlloc trivial trivial)
    | exact ss_and hb hc
    | exact ss_and ha hc
    | exact ss_and ha hb
    | exact (ss_and ha.neg hb.neg).bind fun r s h => SS.pure h.neg
    | exact (ss_and ha.neg hc.neg).bind fun r s h => SS.pure h.neg
    | exact (ss_and hb.neg hc.neg).bind fun r s h => SS.pure h.neg

/-! ### Words -/

/-- What is said of a word is true. -/
def AW.Fits (u : UInt32) : AW → Prop
  | .lit v => u = UInt32.constant v
  | .con => ∃ v, u = UInt32.constant v
  | .mix l => Forall₂ AB.Fits u.bits l

theorem constant_bits (v : BitVec 32) : (UInt32.constant v).bits = (wbits v).map Boolean.constant := by
  rw [wbits_eq, ← shiftBits_eq]; rfl

theorem constant_eq {u : UInt32} {v : BitVec 32} (hv : u.value = some v) (hb : u.bits = (wbits v).map Boolean.constant) :
    u = UInt32.constant v := by
  rw [← constant_bits] at hb
  cases u
  simp only at hv hb
  rw [hv, hb]
  rfl

theorem fits_consts (l : List Bool) : Forall₂ AB.Fits (l.map Boolean.constant) (l.map AB.c) := by
  induction l with
  | nil => exact .nil
  | cons x l ih => exact .cons rfl ih

theorem AW.Fits.bits {u : UInt32} {w : AW} (h : AW.Fits u w) : Forall₂ AB.Fits u.bits w.bits := by
  cases w with
  | lit v =>
    cases h
    exact fits_consts _
  | con =>
    obtain ⟨v, rfl⟩ := h
    rw [constant_bits, AW.bits, show (32 : ℕ) = (wbits v).length from (wbits_length v).symm, ← List.map_const']
    induction wbits v with
    | nil => exact .nil
    | cons x l ih => exact .cons trivial ih
  | mix l => exact h

theorem consts_of_fits {bs : List Boolean} {l : List Bool} (h : Forall₂ AB.Fits bs (l.map AB.c)) : bs = l.map Boolean.constant := by
  induction l generalizing bs with
  | nil => cases h; rfl
  | cons x l ih =>
    cases h with
    | @cons b _ bs _ hb ht =>
      rw [ih ht, List.map_cons]
      cases b with
      | is _ => exact hb.elim
      | not _ => exact hb.elim
      | constant c => rw [show c = x from hb]

theorem rotr_constant (v : BitVec 32) (k : ℕ) : (UInt32.constant v).rotr k = UInt32.constant (v.rotateRight (k % 32)) := by
  refine constant_eq rfl ?_
  rw [wbits_rotr _ _ (Nat.mod_lt _ (by norm_num)), map_take, map_append, map_drop, ← constant_bits]
  rfl

theorem shr_constant (v : BitVec 32) (k : ℕ) : (UInt32.constant v).shr k = UInt32.constant (v >>> (k % 32)) := by
  refine constant_eq rfl ?_
  rw [wbits_shr, map_take, map_append, map_drop, ← constant_bits, map_replicate]
  rfl

theorem AW.Fits.rotr {u : UInt32} {w : AW} (h : AW.Fits u w) (k : ℕ) : AW.Fits (u.rotr k) (w.rotr k) := by
  cases w with
  | lit v => cases h; exact rotr_constant v k
  | con => obtain ⟨v, rfl⟩ := h; exact ⟨_, rotr_constant v k⟩
  | mix l => exact forall₂_take _ (rel_append (forall₂_drop _ h) h)

theorem fits_replicate (n : ℕ) : Forall₂ AB.Fits (replicate n (Boolean.constant false)) (replicate n (AB.c false)) := by
  induction n with
  | zero => exact .nil
  | succ n ih => exact .cons rfl ih

theorem AW.Fits.shr {u : UInt32} {w : AW} (h : AW.Fits u w) (k : ℕ) : AW.Fits (u.shr k) (w.shr k) := by
  cases w with
  | lit v => cases h; exact shr_constant v k
  | con => obtain ⟨v, rfl⟩ := h; exact ⟨_, shr_constant v k⟩
  | mix l => exact forall₂_take _ (rel_append (forall₂_drop _ h) (fits_replicate 32))

theorem ss_xorLoop (i : ℕ) {as bs : List Boolean} {xs ys : List AB} (ha : Forall₂ AB.Fits as xs) (hb : Forall₂ AB.Fits bs ys) :
    SS (UInt32.xorLoop i as bs : Synth F _) (xorL xs ys) (Forall₂ AB.Fits) := by
  induction ha generalizing i bs ys with
  | nil => exact SS.pure .nil
  | cons h1 _ ih =>
    cases hb with
    | nil => exact SS.pure .nil
    | cons h2 hb =>
      exact (SS.inNs _ (ss_xor h1 h2)).bind fun r s hr => (ih (i + 1) hb).bind fun rs ss hrs => SS.pure (.cons hr hrs)

theorem xorL_consts (as bs : List Bool) : xorL (as.map AB.c) (bs.map AB.c) = pure ((zipWith (· ^^ ·) as bs).map AB.c) := by
  induction as generalizing bs with
  | nil => cases bs <;> rfl
  | cons a as ih =>
    cases bs with
    | nil => rfl
    | cons b bs =>
      show (xorB (.c a) (.c b) >>= fun r => xorL (as.map AB.c) (bs.map AB.c) >>= fun rs => pure (r :: rs)) = _
      rw [ih]
      rfl

theorem exactly_of_pure {m : Synth F α} {b : β} {R : α → β → Prop} (h : SS m (pure b) R) : Exactly m 0 0 (R · b) := by
  intro t r he
  obtain ⟨q, -, n, c⟩ := h ⟨0, 0, 0⟩ _ _ rfl t r he
  simp only [Nat.zero_add, Nat.add_zero] at n c
  exact ⟨q, n.symm, c.symm⟩

theorem exactly_xor_constant (a b : BitVec 32) :
    Exactly (UInt32.xor (.constant a) (.constant b) : Synth F _) 0 0 (· = UInt32.constant (a ^^^ b)) := by
  have h := ss_xorLoop (F := F) 0 (fits_consts (wbits a)) (fits_consts (wbits b))
  rw [xorL_consts, ← constant_bits, ← constant_bits] at h
  exact (exactly_of_pure h).map fun bs hbs => constant_eq rfl (by rw [wbits_xor]; exact consts_of_fits hbs)

theorem ss_xorW {u v : UInt32} {x y : AW} (hu : AW.Fits u x) (hv : AW.Fits v y) :
    SS (u.xor v : Synth F _) (xorW x y) AW.Fits := by
  have gen : SS (u.xor v : Synth F _) (do pure (.mix (← xorL x.bits y.bits))) AW.Fits :=
    (ss_xorLoop 0 hu.bits hv.bits).bind fun r s h => SS.pure h
  cases x with
  | mix l => exact gen
  | lit a =>
    cases y with
    | mix l => exact gen
    | lit b => cases hu; cases hv; exact SS.free (exactly_xor_constant a b)
    | con =>
      cases hu; obtain ⟨b, rfl⟩ := hv
      exact SS.free ((exactly_xor_constant a b).mono fun _ h => ⟨_, h⟩)
  | con =>
    obtain ⟨a, rfl⟩ := hu
    cases y with
    | mix l => exact gen
    | lit b => cases hv; exact SS.free ((exactly_xor_constant a b).mono fun _ h => ⟨_, h⟩)
    | con =>
      obtain ⟨b, rfl⟩ := hv
      exact SS.free ((exactly_xor_constant a b).mono fun _ h => ⟨_, h⟩)

theorem ss_triopLoop {f : ℕ → Boolean → Boolean → Boolean → Synth F Boolean} {f' : AB → AB → AB → AM AB}
    (hf : ∀ i a b c x y z, AB.Fits a x → AB.Fits b y → AB.Fits c z → SS (f i a b c) (f' x y z) AB.Fits)
    (i : ℕ) {as bs cs : List Boolean} {xs ys zs : List AB} (ha : Forall₂ AB.Fits as xs) (hb : Forall₂ AB.Fits bs ys)
    (hc : Forall₂ AB.Fits cs zs) : SS (UInt32.triopLoop f i as bs cs) (triL f' xs ys zs) (Forall₂ AB.Fits) := by
  induction ha generalizing i bs ys cs zs with
  | nil => exact SS.pure .nil
  | cons h1 _ ih =>
    cases hb with
    | nil => exact SS.pure .nil
    | cons h2 hb =>
      cases hc with
      | nil => exact SS.pure .nil
      | cons h3 hc =>
        exact (hf _ _ _ _ _ _ _ h1 h2 h3).bind fun r s hr => (ih (i + 1) hb hc).bind fun rs ss hrs => SS.pure (.cons hr hrs)

theorem triL_consts {f' : AB → AB → AB → AM AB} {g : Bool → Bool → Bool → Bool} (hf : ∀ a b c, f' (.c a) (.c b) (.c c) = pure (.c (g a b c)))
    (as bs cs : List Bool) :
    triL f' (as.map AB.c) (bs.map AB.c) (cs.map AB.c) = pure ((UInt32.zip3 g as bs cs).map AB.c) := by
  induction as generalizing bs cs with
  | nil => cases bs <;> cases cs <;> rfl
  | cons a as ih =>
    cases bs with
    | nil => cases cs <;> rfl
    | cons b bs =>
      cases cs with
      | nil => rfl
      | cons c cs =>
        show (f' (.c a) (.c b) (.c c) >>= fun r => triL f' (as.map AB.c) (bs.map AB.c) (cs.map AB.c) >>= fun rs => pure (r :: rs)) = _
        rw [ih, hf]
        rfl

theorem ss_triW {f : ℕ → Boolean → Boolean → Boolean → Synth F Boolean} {f' : AB → AB → AB → AM AB} {g : Bool → Bool → Bool → Bool}
    {tri : BitVec 32 → BitVec 32 → BitVec 32 → BitVec 32}
    (hf : ∀ i a b c x y z, AB.Fits a x → AB.Fits b y → AB.Fits c z → SS (f i a b c) (f' x y z) AB.Fits)
    (hc : ∀ a b c, f' (.c a) (.c b) (.c c) = pure (.c (g a b c)))
    (ht : ∀ a b c, wbits (tri a b c) = UInt32.zip3 g (wbits a) (wbits b) (wbits c))
    {u v w : UInt32} {x y z : AW} (hu : AW.Fits u x) (hv : AW.Fits v y) (hw : AW.Fits w z) :
    SS (UInt32.triop u v w tri f) (triW f' tri x y z) AW.Fits := by
  have gen : SS (UInt32.triop u v w tri f) (do pure (.mix (← triL f' x.bits y.bits z.bits))) AW.Fits :=
    (ss_triopLoop hf 0 hu.bits hv.bits hw.bits).bind fun r s h => SS.pure h
  have lits : ∀ a b c, Exactly (UInt32.triop (.constant a) (.constant b) (.constant c) tri f) 0 0 (· = UInt32.constant (tri a b c)) := by
    intro a b c
    have h := ss_triopLoop hf 0 (fits_consts (wbits a)) (fits_consts (wbits b)) (fits_consts (wbits c))
    rw [triL_consts hc, ← constant_bits, ← constant_bits, ← constant_bits] at h
    exact (exactly_of_pure h).map fun bs hbs => constant_eq rfl (by rw [ht]; exact consts_of_fits hbs)
  cases x with
  | mix l => exact gen
  | lit a =>
    cases hu
    cases y with
    | mix l => exact gen
    | lit b =>
      cases hv
      cases z with
      | mix l => exact gen
      | lit c => cases hw; exact SS.free (lits a b c)
      | con => obtain ⟨c, rfl⟩ := hw; exact SS.free ((lits a b c).mono fun _ h => ⟨_, h⟩)
    | con =>
      obtain ⟨b, rfl⟩ := hv
      cases z with
      | mix l => exact gen
      | lit c => cases hw; exact SS.free ((lits a b c).mono fun _ h => ⟨_, h⟩)
      | con => obtain ⟨c, rfl⟩ := hw; exact SS.free ((lits a b c).mono fun _ h => ⟨_, h⟩)
  | con =>
    obtain ⟨a, rfl⟩ := hu
    cases y with
    | mix l => exact gen
    | lit b =>
      cases hv
      cases z with
      | mix l => exact gen
      | lit c => cases hw; exact SS.free ((lits a b c).mono fun _ h => ⟨_, h⟩)
      | con => obtain ⟨c, rfl⟩ := hw; exact SS.free ((lits a b c).mono fun _ h => ⟨_, h⟩)
    | con =>
      obtain ⟨b, rfl⟩ := hv
      cases z with
      | mix l => exact gen
      | lit c => cases hw; exact SS.free ((lits a b c).mono fun _ h => ⟨_, h⟩)
      | con => obtain ⟨c, rfl⟩ := hw; exact SS.free ((lits a b c).mono fun _ h => ⟨_, h⟩)

theorem ss_chW {u v w : UInt32} {x y z : AW} (hu : AW.Fits u x) (hv : AW.Fits v y) (hw : AW.Fits w z) :
    SS (UInt32.sha256Ch u v w : Synth F _) (chW x y z) AW.Fits :=
  ss_triW (g := fun x y z => if x then y else z) (fun _ _ _ _ _ _ _ h1 h2 h3 => SS.inNs _ (ss_ch h1 h2 h3))
    (by rintro (_ | _) (_ | _) (_ | _) <;> rfl) (fun a b c => UInt32.wbits_ch a b c) hu hv hw

theorem ss_majW {u v w : UInt32} {x y z : AW} (hu : AW.Fits u x) (hv : AW.Fits v y) (hw : AW.Fits w z) :
    SS (UInt32.sha256Maj u v w : Synth F _) (majW x y z) AW.Fits :=
  ss_triW (g := fun x y z => (x && y) || (x && z) || (y && z)) (fun _ _ _ _ _ _ _ h1 h2 h3 => SS.inNs _ (ss_maj h1 h2 h3))
    (by rintro (_ | _) (_ | _) (_ | _) <;> rfl) (fun a b c => UInt32.wbits_maj a b c) hu hv hw

/-! ### Additions -/

theorem ss_tick {m : Synth F α} {n : ℕ} {Q : α → Prop} (h : Exactly m n 0 Q) : SS m (tick n) fun x _ => Q x := by
  intro σ y σ' e t r he
  cases e
  obtain ⟨q, h1, h2⟩ := h t r he
  exact ⟨q, rfl, by rw [h1], by show σ.g + n + σ.m = _; omega⟩

theorem exactly_resultLoop (value : Option ℕ) (maxValue i : ℕ) (coeff : F) (bits : List Boolean) (lc : LC F) :
    Exactly (UInt32.resultLoop value maxValue i coeff bits lc) (Nat.size maxValue) 0 fun q =>
      ∃ bs, q.1 = bits ++ bs ∧ Forall₂ AB.Fits bs (replicate (Nat.size maxValue) .var) ∧ q.2.2 = i + Nat.size maxValue := by
  induction hn : Nat.size maxValue generalizing maxValue i coeff bits lc with
  | zero =>
    rw [Nat.size_eq_zero.1 hn, UInt32.resultLoop, if_pos rfl]
    exact Exactly.pure ⟨[], (append_nil _).symm, .nil, rfl⟩
  | succ n ih =>
    have h0 : maxValue ≠ 0 := by rintro rfl; simp at hn
    rw [UInt32.resultLoop, if_neg h0, Nat.add_comm n 1]
    refine (Exactly.inNs _ (exactly_alloc _)).bind (Q := fun _ => True) (g := 1) (e := 0) (e' := 0) fun b _ => ?_
    have hs : Nat.size (maxValue >>> 1) = n := by rw [UInt32.size_shiftRight_one h0] at hn; omega
    refine (ih _ _ _ _ _ hs).mono ?_
    rintro q ⟨bs, h1, h2, h3⟩
    exact ⟨.is b :: bs, by rw [h1]; simp, by rw [Nat.add_comm, replicate_succ]; exact .cons trivial h2, by rw [h3]; omega⟩

theorem addOperands_allConst (value : Option ℕ) (lc : LC F) (ac : Bool) (us : List UInt32) :
    (UInt32.addOperands value lc ac us).2.2 = (ac && us.all fun u => u.bits.all Boolean.isConstant) := by
  induction us generalizing value lc ac with
  | nil => simp [UInt32.addOperands]
  | cons u us ih => rw [UInt32.addOperands, ih, UInt32.addBits_const, all_cons, Bool.and_assoc]

theorem constant_isConstant (v : BitVec 32) : (UInt32.constant v).bits.all Boolean.isConstant = true := by
  rw [constant_bits, all_map, all_eq_true]
  intro x _
  rfl

theorem ms_addmany_consts (vs : List (BitVec 32)) :
    MS (F := F) (UInt32.addmany (vs.map UInt32.constant)) (pure ()) fun u _ => u = UInt32.constant vs.sum := by
  unfold UInt32.addmany
  split
  · split
    · split
      · dsimp only
        have hv : (UInt32.addOperands (some 0) (LC.zero : LC F) true (vs.map UInt32.constant)).1 = some (UInt32.wsum vs) := by
          rw [UInt32.addOperands_value (ρ := fun _ => (1 : F)) (ws := vs) _ 0, Nat.zero_add]
          rw [forall₂_map_left_iff]
          exact forall₂_same.2 fun _ _ => UInt32.hasWord_constant _
        have hc : (UInt32.addOperands (some 0) (LC.zero : LC F) true (vs.map UInt32.constant)).2.2 = true := by
          rw [addOperands_allConst, Bool.true_and, all_map, all_eq_true]
          exact fun v _ => constant_isConstant v
        rw [hv, hc]
        exact MS.pure (congrArg _ (UInt32.ofNat_wsum vs))
      · exact MS.panic
    · exact MS.panic
  · exact MS.panic

theorem all_isCon {us : List UInt32} {l : List AW} (h : Forall₂ AW.Fits us l) (hc : l.all isCon = true) :
    ∃ vs : List (BitVec 32), us = vs.map UInt32.constant := by
  induction h with
  | nil => exact ⟨[], rfl⟩
  | @cons u w us l hu _ ih =>
    rw [all_cons, Bool.and_eq_true] at hc
    obtain ⟨vs, rfl⟩ := ih hc.2
    cases w with
    | lit v => exact ⟨v :: vs, by rw [show u = _ from hu]; rfl⟩
    | con => obtain ⟨v, rfl⟩ := hu; exact ⟨v :: vs, rfl⟩
    | mix l => cases hc.1

theorem litSum_some {us : List UInt32} {l : List AW} {v : BitVec 32} (h : Forall₂ AW.Fits us l) (hc : litSum l = some v) :
    ∃ vs : List (BitVec 32), us = vs.map UInt32.constant ∧ vs.sum = v := by
  induction h generalizing v with
  | nil => cases hc; exact ⟨[], rfl, rfl⟩
  | @cons u w us l hu _ ih =>
    cases w with
    | lit x =>
      obtain ⟨y, hy, rfl⟩ := Option.map_eq_some_iff.1 hc
      obtain ⟨vs, rfl, rfl⟩ := ih hy
      exact ⟨x :: vs, by rw [show u = _ from hu]; rfl, rfl⟩
    | con => cases hc
    | mix l => cases hc

theorem bits_hasVar {bs : List Boolean} {l : List AB} (h : Forall₂ AB.Fits bs l) (hv : l.any (· == .var) = true) :
    bs.all Boolean.isConstant = false := by
  induction h with
  | nil => cases hv
  | @cons b a bs l hb _ ih =>
    rw [any_cons, Bool.or_eq_true] at hv
    rw [all_cons]
    rcases hv with hv | hv
    · rw [beq_iff_eq] at hv
      subst hv
      cases b with
      | is _ => rfl
      | not _ => rfl
      | constant _ => exact (show False from hb).elim
    · rw [ih hv, Bool.and_false]

theorem any_hasVar {us : List UInt32} {l : List AW} (h : Forall₂ AW.Fits us l) (hv : l.any hasVar = true) :
    (us.all fun u => u.bits.all Boolean.isConstant) = false := by
  induction h with
  | nil => cases hv
  | @cons u w us l hu _ ih =>
    rw [any_cons, Bool.or_eq_true] at hv
    rw [all_cons]
    rcases hv with hv | hv
    · cases w with
      | lit _ => cases hv
      | con => cases hv
      | mix l => rw [bits_hasVar hu hv, Bool.false_and]
    · rw [ih hv, Bool.and_false]

theorem ms_addmany {cap : ℕ} (hcap : CAPACITY F = cap) {us : List UInt32} {l : List AW} (h : Forall₂ AW.Fits us l) :
    MS (F := F) (UInt32.addmany us) (addmany cap l) AW.Fits := by
  unfold addmany
  split
  · rename_i v hv
    obtain ⟨vs, rfl, rfl⟩ := litSum_some h hv
    intro σ y σ' e
    cases e
    exact ms_addmany_consts vs σ () σ rfl
  · split
    · rename_i hc
      obtain ⟨vs, rfl⟩ := all_isCon h hc
      intro σ y σ' e st hs t r st' he
      cases e
      obtain ⟨h1, h2⟩ := ms_addmany_consts vs σ () σ rfl st hs t r st' he
      exact ⟨⟨_, h1⟩, h2⟩
    · split
      · rename_i hv
        unfold UInt32.addmany
        split
        · split
          · split
            · rename_i h2 h10
              dsimp only
              have hc : (UInt32.addOperands (some 0) (LC.zero : LC F) true us).2.2 = false := by
                rw [addOperands_allConst, any_hasVar h hv, Bool.and_false]
              rw [hc, ← h.length_eq]
              obtain ⟨hlo, -⟩ := UInt32.size_bounds h2 h10
              refine (MS.lift (ss_tick (exactly_resultLoop _ _ _ _ _ _))).bind ?_
              rintro ⟨q1, q2, q3⟩ - ⟨bs, e1, e2, e3⟩
              dsimp only at e1 e3 ⊢
              rw [Nat.zero_add] at e3
              subst e3 e1
              refine (MS.enforceEqual hcap _ _ _).bind fun _ _ _ => MS.pure ?_
              show Forall₂ AB.Fits (take 32 q1) (replicate 32 .var)
              have := forall₂_take 32 e2
              rwa [take_replicate, Nat.min_eq_left hlo] at this
            · exact MS.panic
          · exact MS.panic
        · exact MS.panic
      · exact MS.fail

/-! ### Words from bits -/

theorem not_var_const {bs : List Boolean} {l : List AB} (h : Forall₂ AB.Fits bs l) (hv : l.all (· != .var) = true) :
    ∃ xs : List Bool, bs = xs.map Boolean.constant := by
  induction h with
  | nil => exact ⟨[], rfl⟩
  | @cons b a bs l hb _ ih =>
    rw [all_cons, Bool.and_eq_true] at hv
    obtain ⟨xs, rfl⟩ := ih hv.2
    cases b with
    | constant x => exact ⟨x :: xs, rfl⟩
    | is x => cases a with
      | var => cases hv.1
      | c _ => exact (show False from hb).elim
      | any => exact (show False from hb).elim
    | not x => cases a with
      | var => cases hv.1
      | c _ => exact (show False from hb).elim
      | any => exact (show False from hb).elim

theorem fits_wordOf {bs : List Boolean} {l : List AB} (h : Forall₂ AB.Fits bs l) {u : UInt32} (hu : UInt32.fromBits bs = some u) :
    AW.Fits u (wordOf l) := by
  unfold UInt32.fromBits at hu
  split at hu
  · rename_i hl
    cases hu
    unfold wordOf
    split
    · rename_i hv
      obtain ⟨xs, rfl⟩ := not_var_const h hv
      rw [length_map] at hl
      have hh : Forall₂ (fun (b : Boolean) x => b.getValue = some x) (xs.map Boolean.constant).reverse xs.reverse := by
        rw [← map_reverse, forall₂_map_left_iff]
        exact forall₂_same.2 fun _ _ => rfl
      rw [UInt32.valueLoop_of hh 0#32]
      refine ⟨_, constant_eq rfl ?_⟩
      rw [beAcc_eq, BitVec.toNat_zero, Nat.zero_mul, Nat.zero_add, reverse_reverse]
      show _ = (wbits (ofWbits xs)).map Boolean.constant
      rw [wbits_ofWbits hl]
    · exact h
  · cases hu

theorem AW.Fits.weaken {u : UInt32} {v : BitVec 32} (h : AW.Fits u (.lit v)) : AW.Fits u .con := ⟨v, h⟩

theorem rel_set {R : α → β → Prop} {l : List α} {l' : List β} (h : Forall₂ R l l') (i : ℕ) {x : α} {y : β} (hxy : R x y) :
    Forall₂ R (l.set i x) (l'.set i y) := by
  induction h generalizing i with
  | nil => exact .nil
  | cons h1 h2 ih =>
    cases i with
    | zero => exact .cons hxy h2
    | succ i => exact .cons h1 (ih i)

/-- What an evaluation of the counting program says. -/
theorem SS.eval {R : α → β → Prop} {m : Synth F α} {a : AM β} (h : SS m a R) {y : β} {g e : ℕ} (he : a ⟨0, 0, 0⟩ = some (y, ⟨g, e, 0⟩)) :
    Exactly m g e (R · y) := by
  intro t r hx
  obtain ⟨q, -, n, c⟩ := h _ _ _ he t r hx
  simp only [Nat.zero_add] at n c
  exact ⟨q, n.symm, c.symm⟩

end Bellman.Cost
