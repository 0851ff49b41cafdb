import Verif.CS

/-!
# Witness independence: programs that make the same calls

`Shape R B₁ B₂ c₁ c₂`: whatever the witness closures of the two programs give, and whether or not they are invoked, as
long as none of them fails, `c₁` and `c₂` make the same calls with the same names and combinations and return results
related by `R`.  `B₁`, `B₂` single out error results: after a failing allocation a program may only leave
namespaces, enforce what is pending (`Drop` of `MultiEq`) and return an error.
-/

namespace Bellman

variable {F α β γ δ : Type}

/-- The program allocates nothing more and ends with an error result (specification). -/
inductive Fails (B : α → Prop) : Circ F α → Prop where
  | ret {a} : B a → Fails B (.ret a)
  | panic (m) : Fails B (.panic m)
  | enforce {n a b c k} : Fails B k → Fails B (.enforce n a b c k)
  | push {n k} : Fails B k → Fails B (.push n k)
  | pop {k} : Fails B k → Fails B (.pop k)

/-- The two programs have the same shape (specification). -/
inductive Shape (R : α → β → Prop) (B₁ : α → Prop) (B₂ : β → Prop) : Circ F α → Circ F β → Prop where
  | ret {a b} : R a b → Shape R B₁ B₂ (.ret a) (.ret b)
  | panic (m m') : Shape R B₁ B₂ (.panic m) (.panic m')
  | alloc {i n f₁ f₂ k₁ k₂} :
      (∀ x o₁ o₂, (∀ v, o₁ = some v → f₁ = .ok v) → (∀ v, o₂ = some v → f₂ = .ok v) →
        Shape R B₁ B₂ (k₁ (.ok (x, o₁))) (k₂ (.ok (x, o₂)))) →
      (∀ e, Fails B₁ (k₁ (.error e))) → (∀ e, Fails B₂ (k₂ (.error e))) →
      Shape R B₁ B₂ (.alloc i n f₁ k₁) (.alloc i n f₂ k₂)
  | enforce {n a b c k₁ k₂} : Shape R B₁ B₂ k₁ k₂ → Shape R B₁ B₂ (.enforce n a b c k₁) (.enforce n a b c k₂)
  | push {n k₁ k₂} : Shape R B₁ B₂ k₁ k₂ → Shape R B₁ B₂ (.push n k₁) (.push n k₂)
  | pop {k₁ k₂} : Shape R B₁ B₂ k₁ k₂ → Shape R B₁ B₂ (.pop k₁) (.pop k₂)

/-- Two events are equal up to the witness values. Specification. -/
def Ev.Same : Ev F → Ev F → Prop
  | .alloc i n x _, .alloc i' n' x' _ => i = i' ∧ n = n' ∧ x = x'
  | .enforce n a b c, .enforce n' a' b' c' => n = n' ∧ a = a' ∧ b = b' ∧ c = c'
  | .push n, .push n' => n = n'
  | .pop, .pop => True
  | _, _ => False

theorem Fails.bind {B : α → Prop} {C : β → Prop} {c : Circ F α} {g : α → Circ F β} (h : Fails B c)
    (hg : ∀ a, B a → Fails C (g a)) : Fails C (c.bind g) := by
  induction h with
  | ret hb => exact hg _ hb
  | panic m => exact .panic m
  | enforce _ ih => exact .enforce ih
  | push _ ih => exact .push ih
  | pop _ ih => exact .pop ih

theorem Shape.bind {R : α → β → Prop} {B₁ : α → Prop} {B₂ : β → Prop} {S : γ → δ → Prop} {C₁ : γ → Prop} {C₂ : δ → Prop}
    {c₁ : Circ F α} {c₂ : Circ F β} {g₁ : α → Circ F γ} {g₂ : β → Circ F δ} (h : Shape R B₁ B₂ c₁ c₂)
    (hg : ∀ a b, R a b → Shape S C₁ C₂ (g₁ a) (g₂ b)) (h₁ : ∀ a, B₁ a → Fails C₁ (g₁ a))
    (h₂ : ∀ b, B₂ b → Fails C₂ (g₂ b)) : Shape S C₁ C₂ (c₁.bind g₁) (c₂.bind g₂) := by
  induction h with
  | ret hr => exact hg _ _ hr
  | panic m m' => exact .panic m m'
  | alloc hk e₁ e₂ ih =>
    exact .alloc (fun x o₁ o₂ ho₁ ho₂ => ih x o₁ o₂ ho₁ ho₂) (fun e => (e₁ e).bind h₁) (fun e => (e₂ e).bind h₂)
  | enforce _ ih => exact .enforce ih
  | push _ ih => exact .push ih
  | pop _ ih => exact .pop ih

theorem Fails.mono {B C : α → Prop} {c : Circ F α} (h : Fails B c) (hBC : ∀ a, B a → C a) : Fails C c := by
  induction h with
  | ret hb => exact .ret (hBC _ hb)
  | panic m => exact .panic m
  | enforce _ ih => exact .enforce ih
  | push _ ih => exact .push ih
  | pop _ ih => exact .pop ih

theorem Shape.mono {R R' : α → β → Prop} {B₁ : α → Prop} {B₂ : β → Prop} {c₁ : Circ F α} {c₂ : Circ F β}
    (h : Shape R B₁ B₂ c₁ c₂) (hR : ∀ a b, R a b → R' a b) : Shape R' B₁ B₂ c₁ c₂ := by
  induction h with
  | ret hr => exact .ret (hR _ _ hr)
  | panic m m' => exact .panic m m'
  | alloc _ e₁ e₂ ih => exact .alloc ih e₁ e₂
  | enforce _ ih => exact .enforce ih
  | push _ ih => exact .push ih
  | pop _ ih => exact .pop ih

theorem Fails.exec_bad {B : α → Prop} {c : Circ F α} (h : Fails B c) {t a} (he : Exec c t (some a)) : B a := by
  induction h generalizing t with
  | ret hb => cases he; exact hb
  | panic m => cases he
  | enforce _ ih => cases he with | enforce he => exact ih he
  | push _ ih => cases he with | push he => exact ih he
  | pop _ ih => cases he with | pop he => exact ih he

/-- **Same shape means same calls**: two successful executions, each by an implementation that numbers its variables
consecutively from the same start (all implementations in the repository do), produce the same events up to witness
values, and related results. -/
theorem Shape.same_trace {R : α → β → Prop} {B₁ : α → Prop} {B₂ : β → Prop} {c₁ : Circ F α} {c₂ : Circ F β}
    (h : Shape R B₁ B₂ c₁ c₂) {t₁ t₂ : List (Ev F)} {a : α} {b : β} {n m : ℕ} (he₁ : Exec c₁ t₁ (some a))
    (he₂ : Exec c₂ t₂ (some b)) (ha : ¬ B₁ a) (hb : ¬ B₂ b) (hn₁ : Numbered n m t₁) (hn₂ : Numbered n m t₂) :
    List.Forall₂ Ev.Same t₁ t₂ ∧ R a b := by
  induction h generalizing t₁ t₂ n m with
  | ret hr => cases he₁; cases he₂; exact ⟨.nil, hr⟩
  | panic m m' => cases he₁
  | alloc hk e₁ e₂ ih =>
    rename_i i nm f₁ f₂ k₁ k₂
    have key : ∀ (x₁ x₂ : Var) (o₁ o₂ : Option F) (t₁ t₂ : List (Ev F)), (∀ v, o₁ = some v → f₁ = .ok v) →
        (∀ v, o₂ = some v → f₂ = .ok v) → Exec (k₁ (.ok (x₁, o₁))) t₁ (some a) → Exec (k₂ (.ok (x₂, o₂))) t₂ (some b) →
        Numbered n m (.alloc i nm x₁ o₁ :: t₁) → Numbered n m (.alloc i nm x₂ o₂ :: t₂) →
        List.Forall₂ Ev.Same (.alloc i nm x₁ o₁ :: t₁) (.alloc i nm x₂ o₂ :: t₂) ∧ R a b := by
      intro x₁ x₂ o₁ o₂ t₁ t₂ ho₁ ho₂ he₁ he₂ hn₁ hn₂
      cases i with
      | true =>
        obtain ⟨rfl, hn₁⟩ := hn₁
        obtain ⟨rfl, hn₂⟩ := hn₂
        obtain ⟨h1, h2⟩ := ih _ o₁ o₂ ho₁ ho₂ he₁ he₂ hn₁ hn₂
        exact ⟨.cons ⟨rfl, rfl, rfl⟩ h1, h2⟩
      | false =>
        obtain ⟨rfl, hn₁⟩ := hn₁
        obtain ⟨rfl, hn₂⟩ := hn₂
        obtain ⟨h1, h2⟩ := ih _ o₁ o₂ ho₁ ho₂ he₁ he₂ hn₁ hn₂
        exact ⟨.cons ⟨rfl, rfl, rfl⟩ h1, h2⟩
    cases he₁ with
    | allocErr e he₁ => exact absurd ((e₁ e).exec_bad he₁) ha
    | allocSkip x₁ he₁ =>
      cases he₂ with
      | allocErr e he₂ => exact absurd ((e₂ e).exec_bad he₂) hb
      | allocSkip x₂ he₂ => exact key _ _ none none _ _ (by simp) (by simp) he₁ he₂ hn₁ hn₂
      | allocRun x₂ v₂ hv₂ he₂ => exact key _ _ none (some v₂) _ _ (by simp) (by simp [hv₂]) he₁ he₂ hn₁ hn₂
    | allocRun x₁ v₁ hv₁ he₁ =>
      cases he₂ with
      | allocErr e he₂ => exact absurd ((e₂ e).exec_bad he₂) hb
      | allocSkip x₂ he₂ => exact key _ _ (some v₁) none _ _ (by simp [hv₁]) (by simp) he₁ he₂ hn₁ hn₂
      | allocRun x₂ v₂ hv₂ he₂ => exact key _ _ (some v₁) (some v₂) _ _ (by simp [hv₁]) (by simp [hv₂]) he₁ he₂ hn₁ hn₂
  | enforce _ ih =>
    cases he₁ with | enforce he₁ =>
    cases he₂ with | enforce he₂ =>
    obtain ⟨h1, h2⟩ := ih he₁ he₂ hn₁ hn₂
    exact ⟨.cons ⟨rfl, rfl, rfl, rfl⟩ h1, h2⟩
  | push _ ih =>
    cases he₁ with | push he₁ =>
    cases he₂ with | push he₂ =>
    obtain ⟨h1, h2⟩ := ih he₁ he₂ hn₁ hn₂
    exact ⟨.cons rfl h1, h2⟩
  | pop _ ih =>
    cases he₁ with | pop he₁ =>
    cases he₂ with | pop he₂ =>
    obtain ⟨h1, h2⟩ := ih he₁ he₂ hn₁ hn₂
    exact ⟨.cons trivial h1, h2⟩

/-! ## For programs with `Result` -/

/-- The result is an error. Specification. -/
def IsErr : Except SynthesisError α → Prop
  | .ok _ => False
  | .error _ => True

/-- Related results: both successful with related values, or both errors. Specification. -/
def ROk (R : α → β → Prop) : Except SynthesisError α → Except SynthesisError β → Prop
  | .ok a, .ok b => R a b
  | .error _, .error _ => True
  | _, _ => False

/-- `Shape` for programs returning `Result`. Specification. -/
def SShape (R : α → β → Prop) (m₁ : Synth F α) (m₂ : Synth F β) : Prop := Shape (ROk R) IsErr IsErr m₁.run m₂.run

namespace SShape

variable {R R' : α → β → Prop} {S : γ → δ → Prop}

theorem pure {a : α} {b : β} (h : R a b) : SShape R (pure a : Synth F α) (pure b : Synth F β) := Shape.ret h

theorem throw {e e'} : SShape R (throw e : Synth F α) (throw e' : Synth F β) := Shape.ret trivial

theorem panic {e e'} : SShape R (Synth.panic e : Synth F α) (Synth.panic e' : Synth F β) := Shape.panic _ _

theorem bind {m₁ : Synth F α} {m₂ : Synth F β} {g₁ : α → Synth F γ} {g₂ : β → Synth F δ} (h : SShape R m₁ m₂)
    (hg : ∀ a b, R a b → SShape S (g₁ a) (g₂ b)) : SShape S (m₁ >>= g₁) (m₂ >>= g₂) := by
  refine Shape.bind (S := ROk S) (C₁ := IsErr) (C₂ := IsErr) h ?_ ?_ ?_
  · intro a b hab
    cases a <;> cases b <;> simp only [ROk] at hab
    · exact Shape.ret trivial
    · exact hg _ _ hab
  · intro a ha
    cases a with
    | ok a => exact ha.elim
    | error e => exact Fails.ret trivial
  · intro a ha
    cases a with
    | ok a => exact ha.elim
    | error e => exact Fails.ret trivial

theorem mono {m₁ : Synth F α} {m₂ : Synth F β} (h : SShape R m₁ m₂) (hR : ∀ a b, R a b → R' a b) : SShape R' m₁ m₂ := by
  refine Shape.mono h fun a b hab => ?_
  cases a <;> cases b <;> simp only [ROk] at hab ⊢
  exact hR _ _ hab

theorem inNs {m₁ : Synth F α} {m₂ : Synth F β} (n : String) (h : SShape R m₁ m₂) :
    SShape R (Synth.inNs n m₁) (Synth.inNs n m₂) := by
  refine Shape.push (Shape.bind h ?_ ?_ ?_)
  · intro a b hab; exact .pop (.ret hab)
  · intro a ha; exact .pop (.ret ha)
  · intro a ha; exact .pop (.ret ha)

theorem alloc {f₁ f₂ : Except SynthesisError F} (n : String) :
    SShape (fun r₁ r₂ : Var × Option F => r₁.1 = r₂.1) (Synth.alloc n f₁) (Synth.alloc n f₂) :=
  Shape.alloc (fun _ _ _ _ _ => .ret rfl) (fun _ => .ret trivial) (fun _ => .ret trivial)

theorem allocInput {f₁ f₂ : Except SynthesisError F} (n : String) :
    SShape (fun r₁ r₂ : Var × Option F => r₁.1 = r₂.1) (Synth.allocInput n f₁) (Synth.allocInput n f₂) :=
  Shape.alloc (fun _ _ _ _ _ => .ret rfl) (fun _ => .ret trivial) (fun _ => .ret trivial)

theorem enforce {a₁ b₁ c₁ a₂ b₂ c₂ : LC F → LC F} (n : String) (ha : a₁ ⟨[]⟩ = a₂ ⟨[]⟩) (hb : b₁ ⟨[]⟩ = b₂ ⟨[]⟩)
    (hc : c₁ ⟨[]⟩ = c₂ ⟨[]⟩) :
    SShape (fun _ _ : Unit => True) (Synth.enforce n a₁ b₁ c₁) (Synth.enforce n a₂ b₂ c₂) := by
  unfold SShape Synth.enforce
  rw [ha, hb, hc]
  exact Shape.enforce (.ret trivial)

/-- **Same shape means same circuit** for programs with `Result`. -/
theorem same_trace {m₁ : Synth F α} {m₂ : Synth F β} (h : SShape R m₁ m₂) {t₁ t₂ : List (Ev F)} {a : α} {b : β} {n m : ℕ}
    (he₁ : Exec m₁.run t₁ (some (.ok a))) (he₂ : Exec m₂.run t₂ (some (.ok b))) (hn₁ : Numbered n m t₁)
    (hn₂ : Numbered n m t₂) : List.Forall₂ Ev.Same t₁ t₂ ∧ R a b :=
  Shape.same_trace h he₁ he₂ id id hn₁ hn₂

end SShape

end Bellman
