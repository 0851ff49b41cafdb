import Verif.Circ

/-!
# Inversion lemmas for traces of `Synth` programs
-/

namespace Bellman

variable {F α β : Type}

theorem Synth.exec_bind_inv {m : Synth F α} {g : α → Synth F β} {t b} (h : Exec (m >>= g).run t (some (.ok b))) :
    ∃ t1 t2 a, t = t1 ++ t2 ∧ Exec m.run t1 (some (.ok a)) ∧ Exec (g a).run t2 (some (.ok b)) := by
  rcases Exec.bind_inv h with ⟨_, h⟩ | ⟨t1, t2, a, ht, h1, h2⟩
  · cases h
  · cases a with
    | ok a => exact ⟨t1, t2, a, ht, h1, h2⟩
    | error e => cases h2

theorem Synth.exec_pure_inv {a b : α} {t} (h : Exec (pure a : Synth F α).run t (some (.ok b))) : t = [] ∧ a = b := by
  cases h; exact ⟨rfl, rfl⟩

theorem Synth.exec_allocInput_inv {n : String} {f : Except SynthesisError F} {t a}
    (h : Exec (Synth.allocInput n f).run t (some (.ok a))) : t = [.alloc true n a.1 a.2] := by
  cases h with
  | allocSkip x h => cases h; rfl
  | allocRun x v hf h => cases h; rfl
  | allocErr e h => cases h

theorem Synth.exec_alloc_inv {n : String} {f : Except SynthesisError F} {t a}
    (h : Exec (Synth.alloc n f).run t (some (.ok a))) : t = [.alloc false n a.1 a.2] := by
  cases h with
  | allocSkip x h => cases h; rfl
  | allocRun x v hf h => cases h; rfl
  | allocErr e h => cases h

theorem Synth.exec_enforce_inv {n : String} {a b c : LC F → LC F} {t r}
    (h : Exec (Synth.enforce n a b c).run t (some (.ok r))) : t = [.enforce n (a ⟨[]⟩) (b ⟨[]⟩) (c ⟨[]⟩)] := by
  cases h with
  | enforce h => cases h; rfl

/-- The public inputs allocated in a trace, in order (specification). -/
def inputsOf (t : List (Ev F)) : List Var :=
  t.filterMap fun e => match e with
    | .alloc true _ x _ => some x
    | _ => none

@[simp] theorem inputsOf_nil : inputsOf ([] : List (Ev F)) = [] := rfl
@[simp] theorem inputsOf_append (t t' : List (Ev F)) : inputsOf (t ++ t') = inputsOf t ++ inputsOf t' := by
  simp [inputsOf]
@[simp] theorem inputsOf_allocInput (n : String) (x : Var) (v : Option F) (t : List (Ev F)) :
    inputsOf (.alloc true n x v :: t) = x :: inputsOf t := rfl
@[simp] theorem inputsOf_alloc (n : String) (x : Var) (v : Option F) (t : List (Ev F)) :
    inputsOf (.alloc false n x v :: t) = inputsOf t := rfl
@[simp] theorem inputsOf_enforce (n : String) (a b c : LC F) (t : List (Ev F)) :
    inputsOf (.enforce n a b c :: t) = inputsOf t := rfl

/-- The constraints emitted in a trace, in order (specification). -/
def constraintsOf (t : List (Ev F)) : List (LC F × LC F × LC F) :=
  t.filterMap fun e => match e with
    | .enforce _ a b c => some (a, b, c)
    | _ => none

theorem Sat_append [PrimeField F] {ρ : Var → F} {t t' : List (Ev F)} : Sat ρ (t ++ t') ↔ Sat ρ t ∧ Sat ρ t' := by
  unfold Sat
  constructor
  · intro h
    exact ⟨fun n a b c hm => h n a b c (by simp [hm]), fun n a b c hm => h n a b c (by simp [hm])⟩
  · rintro ⟨h1, h2⟩ n a b c hm
    rcases List.mem_append.1 hm with h | h
    · exact h1 _ _ _ _ h
    · exact h2 _ _ _ _ h

end Bellman
