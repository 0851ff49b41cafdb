import Verif.Gadgets.Boolean

/-!
# Model of src/gadgets/multieq.rs

`MultiEq<Scalar, CS>` wraps a constraint system; all trait calls are passed through
(src/gadgets/multieq.rs:68-121).  It is modelled as additional state on top of programs.
-/

namespace Bellman

open PrimeField

variable {F : Type} [PrimeField F] {α β : Type}

/-- src/gadgets/multieq.rs:5-11 `struct MultiEq`, without the wrapped constraint system. -/
structure MEq (F : Type) where
  ops : ℕ
  bitsUsed : ℕ
  lhs : LC F
  rhs : LC F

/-- Programs against a constraint system whose root is a `MultiEq`.  The state survives errors, since `Drop` runs on
every exit. `M: ConstraintSystem<Scalar, Root = MultiEq<Scalar, CS>>`, src/gadgets/uint32.rs:308-313. -/
abbrev MSynth (F : Type) := ExceptT SynthesisError (StateT (MEq F) (Circ F))

namespace MEq

/-- src/gadgets/multieq.rs:14-22 `MultiEq::new`. -/
def new : MEq F := ⟨0, 0, LC.zero, LC.zero⟩

/-- src/gadgets/multieq.rs:24-38 `accumulate`: the constraint it enforces and the reset state. -/
def accumulate (k : MEq F → Circ F α) (s : MEq F) : Circ F α :=
  Circ.enforce s!"multieq {s.ops}" s.lhs ((LC.zero : LC F) + Var.one) s.rhs
    (k ⟨s.ops + 1, 0, LC.zero, LC.zero⟩)

/-- src/gadgets/multieq.rs:40-57 `enforce_equal`. -/
def enforceEqual (numBits : ℕ) (l r : LC F) : MSynth F Unit :=
  ExceptT.mk fun s =>
    let add (s : MEq F) : Circ F (Except SynthesisError Unit × MEq F) :=
      if CAPACITY F > s.bitsUsed + numBits then
        let coeff : F := 2 ^ s.bitsUsed
        .ret (.ok (), ⟨s.ops, s.bitsUsed + numBits, s.lhs + (coeff, l), s.rhs + (coeff, r)⟩)
      else .panic "assert!((Scalar::CAPACITY as usize) > (self.bits_used + num_bits))"
    if CAPACITY F ≤ s.bitsUsed + numBits then accumulate add s else add s

/-- src/gadgets/multieq.rs:61-65 `Drop for MultiEq`. -/
def drop (s : MEq F) (r : Except SynthesisError α) : Circ F (Except SynthesisError α) :=
  if s.bitsUsed > 0 then accumulate (fun _ => .ret r) s else .ret r

end MEq

namespace MSynth

/-- Trait calls on a `MultiEq` (or a namespace of it) go to the wrapped constraint system unchanged
(src/gadgets/multieq.rs:77-104). -/
def lift (m : Synth F α) : MSynth F α := ExceptT.mk fun s => m.run.bind fun r => .ret (r, s)

/-- Calling a gadget with `cs.namespace(|| name)` on a `MultiEq` (src/gadgets/multieq.rs:106-116 pass the
push and pop to the wrapped root; see `Synth.inNs`). -/
def inNs (name : String) (body : MSynth F α) : MSynth F α :=
  ExceptT.mk fun s => Circ.push name ((body.run.run s).bind fun r => Circ.pop (.ret r))

/-- `let mut cs = MultiEq::new(cs); <body>` followed by the end of the scope, where `Drop` runs (on success and
error alike). src/gadgets/sha256.rs:100, src/gadgets/blake2s.rs:211. -/
def withMultiEq (body : MSynth F α) : Synth F α :=
  ExceptT.mk ((body.run.run MEq.new).bind fun r => MEq.drop r.2 r.1)

end MSynth

end Bellman
