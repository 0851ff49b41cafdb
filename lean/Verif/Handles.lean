import Verif.CS
import Verif.Gadgets.MultiEq

/-!
# Handles to a constraint system: references, namespaces, `MultiEq`

A gadget is generic in `CS: ConstraintSystem`. What it is given at run time is rarely the prover or the key generator itself: it is a
mutable reference to it, a `Namespace` of it, a `MultiEq` around it, or any nesting of these. The rest of the model runs programs
directly against the innermost constraint system. This file models the wrappers and the trait method `namespace`, and a language of
programs in which the nesting is still visible.
-/

namespace Bellman

open PrimeField

variable {F : Type}

/-- A mutable borrow of a part: what a Rust `&mut` projection allows (`get_root` returns `&mut Self::Root`, src/lib.rs:423-425). -/
structure Lens (σ τ : Type) where
  get : σ → τ
  set : τ → σ → σ
  get_set : ∀ t s, get (set t s) = t
  set_get : ∀ s, set (get s) s = s
  set_set : ∀ t t' s, set t (set t' s) = set t s

/-- The borrow of the whole. Model device, no counterpart in the code. -/
def Lens.id (σ : Type) : Lens σ σ := ⟨fun s => s, fun t _ => t, fun _ _ => rfl, fun _ => rfl, fun _ _ _ => rfl⟩

/-- Running a function on the borrowed part. Model device, no counterpart in the code. -/
def Lens.run {σ τ α : Type} (L : Lens σ τ) (f : τ → Option (α × τ)) (s : σ) : Option (α × σ) :=
  (f (L.get s)).map fun r => (r.1, L.set r.2 s)

/-- As `run`, for functions without a result. Model device, no counterpart in the code. -/
def Lens.run_ {σ τ : Type} (L : Lens σ τ) (f : τ → Option τ) (s : σ) : Option σ :=
  (f (L.get s)).map fun t => L.set t s

/-- A type that is its own `Root` (src/lib.rs:375-377): the methods of the trait (src/lib.rs:374-437), `one` included, and the inherent
method `enforce_equal` if the type is `MultiEq`. (`none` is a panic; for other types `enforce_equal` does not exist, and no program below
can ask for it.) -/
structure CSRoot (F ρ : Type) extends CSImpl F ρ where
  one : Var
  enforceEqual : ℕ → LC F → LC F → ρ → Option ρ

/-- An implementation of `ConstraintSystem` with state `σ` and root state `ρ` (src/lib.rs:374-437). -/
structure CSHandle (F σ ρ : Type) extends CSImpl F σ where
  one : Var
  root : CSRoot F ρ
  /-- `get_root` -/
  getRoot : Lens σ ρ

namespace CSHandle

variable {σ ρ : Type}

/-- A constraint system that is its own root: `get_root` returns `self` (groth16/src/generator.rs, groth16/src/prover.rs,
src/gadgets/test/mod.rs), seen as a handle. -/
def ofRoot (R : CSRoot F ρ) : CSHandle F ρ ρ := { R.toCSImpl with one := R.one, root := R, getRoot := Lens.id ρ }

/-- A root that is not a `MultiEq`; `one` is the trait's provided method (src/lib.rs:379-382), which no implementation overrides. -/
def base (I : CSImpl F ρ) : CSRoot F ρ := { I with one := .one, enforceEqual := fun _ _ _ _ => none }

/-- src/lib.rs:511-566: `ConstraintSystem` for `&mut CS`. -/
def byRef (h : CSHandle F σ ρ) : CSHandle F σ ρ where
  one := h.one
  alloc i n f s := if i then h.alloc true n f s else h.alloc false n f s
  enforce n a b c s := h.enforce n a b c s
  push n s := h.push n s
  pop s := h.pop s
  root := h.root
  getRoot := h.getRoot

/-- src/lib.rs:446-503: `ConstraintSystem` for `Namespace<CS>`; pushing or popping on the namespace itself panics. -/
def namespaced (h : CSHandle F σ ρ) : CSHandle F σ ρ where
  one := h.one
  alloc i n f s := if i then h.alloc true n f s else h.alloc false n f s
  enforce n a b c s := h.enforce n a b c s
  push _ _ := none
  pop _ := none
  root := h.root
  getRoot := h.getRoot

variable [PrimeField F]

/-- src/gadgets/multieq.rs:24-38 `accumulate`, on a `MultiEq` around `h`. -/
def accumulate (h : CSHandle F σ ρ) (s : σ × MEq F) : Option (σ × MEq F) :=
  (h.enforce s!"multieq {s.2.ops}" s.2.lhs ((LC.zero : LC F) + h.one) s.2.rhs s.1).map fun s' =>
    (s', ⟨s.2.ops + 1, 0, LC.zero, LC.zero⟩)

/-- src/gadgets/multieq.rs:40-57 `enforce_equal`, on a `MultiEq` around `h`. -/
def multiEqEnforceEqual (h : CSHandle F σ ρ) (numBits : ℕ) (l r : LC F) (s : σ × MEq F) : Option (σ × MEq F) := do
  let s ← if CAPACITY F ≤ s.2.bitsUsed + numBits then h.accumulate s else some s
  guard (CAPACITY F > s.2.bitsUsed + numBits)
  let coeff : F := 2 ^ s.2.bitsUsed
  some (s.1, ⟨s.2.ops, s.2.bitsUsed + numBits, s.2.lhs + (coeff, l), s.2.rhs + (coeff, r)⟩)

/-- src/gadgets/multieq.rs:60-66 `Drop for MultiEq`: what is left of the wrapped handle. -/
def multiEqDrop (h : CSHandle F σ ρ) (s : σ × MEq F) : Option σ :=
  if s.2.bitsUsed > 0 then (h.accumulate s).map Prod.fst else some s.1

/-- The borrow of the wrapped constraint system of a `MultiEq` (field `cs`, src/gadgets/multieq.rs:6). -/
def csField (σ : Type) : Lens (σ × MEq F) σ :=
  ⟨Prod.fst, fun t s => (t, s.2), fun _ _ => rfl, fun _ => rfl, fun _ _ _ => rfl⟩

/-- src/gadgets/multieq.rs:68-121: `ConstraintSystem` for `MultiEq<CS>`, which is its own root. Pushing and popping go to the root of
the wrapped constraint system. -/
def multiEq (h : CSHandle F σ ρ) : CSRoot F (σ × MEq F) where
  one := h.one
  alloc i n f := (csField σ).run fun s => if i then h.alloc true n f s else h.alloc false n f s
  enforce n a b c := (csField σ).run_ (h.enforce n a b c)
  push n := (csField σ).run_ (h.getRoot.run_ (h.root.push n))
  pop := (csField σ).run_ (h.getRoot.run_ h.root.pop)
  enforceEqual := h.multiEqEnforceEqual

end CSHandle

/-! ## Programs that mention their handle -/

/-- Programs generic in the constraint system, with the ways in which they pass it on. The index tells whether the root is a `MultiEq`,
as the signatures of src/gadgets/uint32.rs ask (`CS: ConstraintSystem<Scalar, Root = MultiEq<..>>`). -/
inductive Prog (F : Type) : Bool → Type → Type 1 where
  | ret {m α} (a : α) : Prog F m α
  | panic {m α} (msg : String) : Prog F m α
  /-- `CS::one()` -/
  | one {m α} (k : Var → Prog F m α) : Prog F m α
  /-- `cs.alloc(..)` and `cs.alloc_input(..)` -/
  | alloc {m α} (isInput : Bool) (name : String) (f : Except SynthesisError F)
      (k : Except SynthesisError (Var × Option F) → Prog F m α) : Prog F m α
  /-- `cs.enforce(..)` -/
  | enforce {m α} (name : String) (a b c : LC F) (k : Prog F m α) : Prog F m α
  /-- `body(cs.namespace(|| name))`, where the callee owns the namespace and drops it when it returns -/
  | ns {m α β} (name : String) (body : Prog F m β) (k : β → Prog F m α) : Prog F m α
  /-- `body(&mut cs)` -/
  | byRef {m α β} (body : Prog F m β) (k : β → Prog F m α) : Prog F m α
  /-- `cs.get_root().enforce_equal(..)` -/
  | enforceEqual {α} (numBits : ℕ) (l r : LC F) (k : Prog F true α) : Prog F true α
  /-- `{ let mut cs = MultiEq::new(cs); body(&mut cs) }`, with the `Drop` at the end of the block -/
  | withMultiEq {m α β} (body : Prog F true β) (k : β → Prog F m α) : Prog F m α

variable [PrimeField F]

/-- Running a program on a handle, method by method. `namespace` (src/lib.rs:427-437) pushes on the root and hands out a `Namespace`
of the root; dropping it (src/lib.rs:505-509) pops on its root. -/
def Prog.run {m : Bool} {α : Type} : Prog F m α → {σ ρ : Type} → CSHandle F σ ρ → σ → Option (α × σ)
  | .ret a, _, _, _, s => some (a, s)
  | .panic _, _, _, _, _ => none
  | .one k, _, _, h, s => (k h.one).run h s
  | .alloc i n f k, _, _, h, s => (h.alloc i n f s).bind fun r => (k r.1).run h r.2
  | .enforce n a b c k, _, _, h, s => (h.enforce n a b c s).bind fun s => k.run h s
  | .ns n body k, _, _, h, s => do
    let r ← h.root.push n (h.getRoot.get s)
    let nsp := (CSHandle.ofRoot h.root).namespaced
    let (b, r) ← body.run nsp r
    let r ← nsp.getRoot.run_ nsp.root.pop r
    (k b).run h (h.getRoot.set r s)
  | .byRef body k, _, _, h, s => (body.run h.byRef s).bind fun r => (k r.1).run h r.2
  | .enforceEqual n l r k, _, _, h, s => (h.getRoot.run_ (h.root.enforceEqual n l r) s).bind fun s => k.run h s
  | .withMultiEq body k, _, _, h, s => do
    let (b, sm) ← body.run (CSHandle.ofRoot h.multiEq).byRef (s, MEq.new)
    let s ← h.multiEqDrop sm
    (k b).run h s

/-- The state that a program with a `MultiEq` root carries besides the constraint system. src/gadgets/multieq.rs:5-11. -/
abbrev MState (F : Type) : Bool → Type
  | true => MEq F
  | false => Unit

/-- The program as the rest of the model writes it: trait calls on the innermost constraint system, with the state of the `MultiEq`
alongside (`Verif/Circ.lean`, `Verif/Gadgets/MultiEq.lean`). Specification. -/
def Prog.flatten {m : Bool} {α : Type} : Prog F m α → MState F m → Circ F (α × MState F m)
  | .ret a, x => .ret (a, x)
  | .panic msg, _ => .panic msg
  | .one k, x => (k .one).flatten x
  | .alloc i n f k, x => .alloc i n f fun r => (k r).flatten x
  | .enforce n a b c k, x => .enforce n a b c (k.flatten x)
  | .ns n body k, x => .push n ((body.flatten x).bind fun r => .pop ((k r.1).flatten r.2))
  | .byRef body k, x => (body.flatten x).bind fun r => (k r.1).flatten r.2
  | .enforceEqual n l r k, x => ((MEq.enforceEqual n l r).run.run x).bind fun y => k.flatten y.2
  | .withMultiEq body k, x =>
    (body.flatten (MEq.new : MEq F)).bind fun r =>
      if r.2.bitsUsed > 0 then MEq.accumulate (fun _ => (k r.1).flatten x) r.2 else (k r.1).flatten x

end Bellman
