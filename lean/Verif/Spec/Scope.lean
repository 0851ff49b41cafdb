import Verif.CS
import Verif.Gadgets.Num
import Verif.Gadgets.UInt32

/-!
# Which variables a handle mentions (specification)

A gadget receives and returns handles (`AllocatedBit`, `Boolean`, `AllocatedNum`, `Num`, `UInt32`, …).  `Known n k h` says that
every variable the handle `h` mentions is among the first `n` inputs and the first `k` auxiliary variables.
-/

namespace Bellman

/-- Types of handles: what it means that all variables of a handle exist. -/
class Handle (α : Type) where
  /-- All variables of the handle are among the first `n` inputs and the first `k` auxiliary variables. -/
  Known : ℕ → ℕ → α → Prop
  mono : ∀ {n n' k k' : ℕ} {a : α}, n ≤ n' → k ≤ k' → Known n k a → Known n' k' a

export Handle (Known)

section
variable {F : Type} [PrimeField F]

theorem Var.InRange.mono {n n' k k' : ℕ} {x : Var} (hn : n ≤ n') (hk : k ≤ k') (h : x.InRange n k) : x.InRange n' k' := by
  cases x with
  | input i => exact lt_of_lt_of_le (show i < n from h) hn
  | aux i => exact lt_of_lt_of_le (show i < k from h) hk

instance : Handle Var := ⟨Var.InRange, Var.InRange.mono⟩
/-- A linear combination mentions the variables of its terms. -/
instance : Handle (LC F) := ⟨fun n k l => ∀ x ∈ l.terms, x.1.InRange n k, fun hn hk h x hx => (h x hx).mono hn hk⟩
instance : Handle AllocatedBit := ⟨fun n k a => Known n k a.var, Handle.mono⟩
instance : Handle (AllocatedNum F) := ⟨fun n k a => Known n k a.var, Handle.mono⟩
instance : Handle (Num F) := ⟨fun n k a => Known n k a.lcomb, Handle.mono⟩
instance : Handle Unit := ⟨fun _ _ _ => True, fun _ _ h => h⟩
/-- Numbers are no handles; they mention no variable. -/
instance : Handle ℕ := ⟨fun _ _ _ => True, fun _ _ h => h⟩
instance : Handle (Option F) := ⟨fun _ _ _ => True, fun _ _ h => h⟩
instance : Handle (Option Bool) := ⟨fun _ _ _ => True, fun _ _ h => h⟩

/-- The variables of a `Boolean`: a constant mentions none. -/
instance : Handle Boolean where
  Known n k a := match a with
    | .is b => Known n k b
    | .not b => Known n k b
    | .constant _ => True
  mono {_ _ _ _ a} hn hk h := by
    cases a with
    | is b => exact Handle.mono (α := AllocatedBit) hn hk h
    | not b => exact Handle.mono (α := AllocatedBit) hn hk h
    | constant c => trivial

instance {α : Type} [Handle α] : Handle (List α) := ⟨fun n k l => ∀ a ∈ l, Known n k a, fun hn hk h a ha => Handle.mono hn hk (h a ha)⟩
instance {α β : Type} [Handle α] [Handle β] : Handle (α × β) :=
  ⟨fun n k p => Known n k p.1 ∧ Known n k p.2, fun hn hk h => ⟨Handle.mono hn hk h.1, Handle.mono hn hk h.2⟩⟩
instance : Handle UInt32 := ⟨fun n k u => Known n k u.bits, Handle.mono⟩

/-- Every execution of the program that starts with `n` inputs and `k` auxiliary variables allocated, against any implementation
that numbers variables consecutively,
* mentions in its constraints only variables allocated before,
* if it does not panic, has allocated no public input, and
* if it succeeds, returns a handle of allocated variables. -/
def Closed {α : Type} [Handle α] (n k : ℕ) (m : Synth F α) : Prop :=
  ∀ t r, Exec m.run t r → Numbered n k t →
    Scoped n k t ∧ ∀ res, r = some res → numIn t = 0 ∧ ∀ a, res = .ok a → Known n (k + numAux t) a

end

end Bellman
