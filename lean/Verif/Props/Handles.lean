import Verif.Proofs.Handles
import Verif.TestCS
import Verif.Gadgets.Num
import Verif.FieldInstances

/-!
# C57: passing a constraint system on does not change what a program does

Gadgets receive the constraint system by mutable reference, inside namespaces, or inside a `MultiEq`, nested at will. Whatever the
nesting, every call arrives at the innermost constraint system unchanged and in order.
-/

namespace Bellman

open PrimeField

variable {F : Type} [PrimeField F] {τ : Type}

/-- A way of nesting wrappers around a constraint system with state `τ` (specification). The flag tells whether the root is a
`MultiEq`; the types are the states of the outermost value and of its root. -/
inductive Nesting (F τ : Type) : Bool → Type → Type → Type 1 where
  | innermost : Nesting F τ false τ τ
  | byRef {m σ ρ} (n : Nesting F τ m σ ρ) : Nesting F τ m σ ρ
  | namespaced {m σ ρ} (n : Nesting F τ m σ ρ) : Nesting F τ m σ ρ
  | multiEq {m σ ρ} (n : Nesting F τ m σ ρ) : Nesting F τ true (σ × MEq F) (σ × MEq F)

namespace Nesting

/-- The methods of the outermost value, given those of the innermost constraint system. -/
def handle (I : CSImpl F τ) {m : Bool} {σ ρ : Type} : Nesting F τ m σ ρ → CSHandle F σ ρ
  | .innermost => .ofRoot (CSHandle.base I)
  | .byRef n => (n.handle I).byRef
  | .namespaced n => (n.handle I).namespaced
  | .multiEq n => .ofRoot (n.handle I).multiEq

/-- The state of the innermost constraint system. -/
def inner {m : Bool} {σ ρ : Type} : Nesting F τ m σ ρ → σ → τ
  | .innermost, t => t
  | .byRef n, s => n.inner s
  | .namespaced n, s => n.inner s
  | .multiEq n, s => n.inner s.1

/-- The state of the outermost `MultiEq`, if there is one. -/
def meq {m : Bool} {σ ρ : Type} : Nesting F τ m σ ρ → σ → MState F m
  | .innermost, _ => ()
  | .byRef n, s => n.meq s
  | .namespaced n, s => n.meq s
  | .multiEq _, s => s.2

theorem faithful (I : CSImpl F τ) {m : Bool} {σ ρ : Type} (n : Nesting F τ m σ ρ) :
    ∃ M : Lens ρ (τ × MState F m), Faithful I (n.handle I) M ∧ ∀ s, ((n.handle I).getRoot.comp M).get s = (n.inner s, n.meq s) := by
  induction n with
  | innermost => exact ⟨baseLens F τ, Faithful.base I, fun _ => rfl⟩
  | byRef n ih =>
    obtain ⟨M, hM, hs⟩ := ih
    exact ⟨M, hM.byRef, hs⟩
  | namespaced n ih =>
    obtain ⟨M, hM, hs⟩ := ih
    exact ⟨M, hM.namespaced, hs⟩
  | multiEq n ih =>
    obtain ⟨M, hM, hs⟩ := ih
    refine ⟨_, hM.multiEq, fun s => ?_⟩
    show ((((n.handle I).getRoot.comp M).get s.1).1, s.2) = _
    rw [hs]; rfl

end Nesting

/-- C57. Run a program on any nesting of references, namespaces and `MultiEq`s around a constraint system: its result (or panic), the
final state of the innermost constraint system and that of the outermost `MultiEq` are those of the same calls made directly on the
innermost constraint system. Allocations stay of the kind asked for, names are pushed and popped in balance, nothing is lost or
reordered, and the panics of `Namespace::push_namespace` and `Namespace::pop_namespace` are never reached. -/
theorem C57_transparent (I : CSImpl F τ) {m : Bool} {σ ρ α : Type} (n : Nesting F τ m σ ρ) (p : Prog F m α) (s : σ) :
    (p.run (n.handle I) s).map (fun r => ((r.1, n.meq r.2), n.inner r.2)) = (p.flatten (n.meq s)).run I (n.inner s) := by
  obtain ⟨M, hM, hs⟩ := n.faithful I
  rw [hM.run p s]
  unfold Lens.run Prog.model
  rw [hs s]
  simp only [Option.map_map]
  generalize Circ.run I (p.flatten (n.meq s)) (n.inner s) = o
  cases o with
  | none => rfl
  | some r =>
    obtain ⟨⟨a, x⟩, t⟩ := r
    have h := hs (((n.handle I).getRoot.comp M).set (t, x) s)
    rw [Lens.get_set] at h
    obtain ⟨h1, h2⟩ := Prod.mk.injEq .. ▸ h
    simp only [Option.map_some, Function.comp]
    rw [← h1, ← h2]

/-- C57. In particular `MultiEq`s further in than the outermost one, which the program cannot reach, keep their state. -/
theorem C57_frame (I : CSImpl F τ) {m' : Bool} {σ ρ α : Type} (n : Nesting F τ m' σ ρ) (p : Prog F true α) (s s' : σ)
    (x x' : MEq F) (a : α) (h : p.run (n.multiEq.handle I) (s, x) = some (a, (s', x'))) : n.meq s' = n.meq s := by
  obtain ⟨M, hM, hs⟩ := n.faithful I
  have hr := hM.multiEq.run p (s, x)
  rw [show p.run (CSHandle.ofRoot (n.handle I).multiEq) (s, x) = some (a, (s', x')) from h] at hr
  unfold Lens.run at hr
  obtain ⟨r, -, h2⟩ := Option.map_eq_some_iff.1 hr.symm
  have h3 : ((n.handle I).getRoot.comp M).set (r.2.1, (((n.handle I).getRoot.comp M).get s).2) s = s' :=
    congrArg (fun y => y.2.1) h2
  have h4 := hs s'
  rw [← h3, Lens.get_set] at h4
  obtain ⟨-, h5⟩ := Prod.mk.injEq .. ▸ h4
  rw [h3, hs s] at h5
  exact h5.symm

/-- Whether `push_namespace` and `pop_namespace` may be called on the outermost value itself (specification): no `Namespace` stands
between it and the next constraint system that is its own root. -/
def Nesting.pushable {m : Bool} {σ ρ : Type} : Nesting F τ m σ ρ → Bool
  | .innermost => true
  | .byRef n => n.pushable
  | .namespaced _ => false
  | .multiEq _ => true

/-- C57. `push_namespace` and `pop_namespace`, called on the outermost value itself, arrive at the innermost constraint system and change
nothing else, through references and `MultiEq`s; on a `Namespace` they panic. -/
theorem C57_push (I : CSImpl F τ) {m : Bool} {σ ρ : Type} (n : Nesting F τ m σ ρ) (name : String) (s : σ) :
    (n.pushable = true →
      ((n.handle I).push name s).map (fun s' => (n.inner s', n.meq s')) = (I.push name (n.inner s)).map (fun t => (t, n.meq s)) ∧
      ((n.handle I).pop s).map (fun s' => (n.inner s', n.meq s')) = (I.pop (n.inner s)).map (fun t => (t, n.meq s))) ∧
    (n.pushable = false → (n.handle I).push name s = none ∧ (n.handle I).pop s = none) := by
  have key : n.pushable = true → ∃ M : Lens ρ (τ × MState F m),
      (∀ s, ((n.handle I).getRoot.comp M).get s = (n.inner s, n.meq s)) ∧
      (∀ s, (n.handle I).push name s = ((n.handle I).getRoot.comp M).run_ (onFst_ (I.push name)) s) ∧
      ∀ s, (n.handle I).pop s = ((n.handle I).getRoot.comp M).run_ (onFst_ I.pop) s := by
    intro hp
    clear s
    induction n with
    | innermost => exact ⟨baseLens F τ, fun _ => rfl, (Faithful.base I).rpush name, (Faithful.base I).rpop⟩
    | byRef n ih => exact ih hp
    | namespaced n ih => cases hp
    | multiEq n ih =>
      obtain ⟨M, hM, hs⟩ := n.faithful I
      refine ⟨meqLens ((n.handle I).getRoot.comp M), fun s => ?_, hM.multiEq.rpush name, hM.multiEq.rpop⟩
      show ((((n.handle I).getRoot.comp M).get s.1).1, s.2) = _
      rw [hs]; rfl
  constructor
  · intro hp
    obtain ⟨M, hs, h1, h2⟩ := key hp
    have fin : ∀ g : τ → Option τ, (((n.handle I).getRoot.comp M).run_ (onFst_ g) s).map (fun s' => (n.inner s', n.meq s')) =
        (g (n.inner s)).map fun t => (t, n.meq s) := by
      intro g
      unfold Lens.run_ onFst_
      rw [hs s]
      simp only
      cases g (n.inner s) with
      | none => rfl
      | some t =>
        simp only [Option.map_some]
        rw [← hs, Lens.get_set]
    rw [h1 s, h2 s]
    exact ⟨fin _, fin _⟩
  · intro hp
    clear key
    induction n with
    | innermost => cases hp
    | byRef n ih => exact ih s hp
    | namespaced n ih => exact ⟨rfl, rfl⟩
    | multiEq n ih => cases hp

/-- A reference to the `MultiEq` around a `Namespace` passes `push_namespace` on; the `Namespace` itself panics. -/
example (I : CSImpl F τ) (name : String) (s : τ) (e : MEq F) :
    (((Nesting.innermost (F := F) (τ := τ)).namespaced.multiEq.byRef.handle I).push name (s, e)).map (fun s' => s'.1) = I.push name s ∧
    ((Nesting.innermost (F := F) (τ := τ)).namespaced.handle I).push name s = none := by
  refine ⟨?_, ((C57_push I (Nesting.innermost (F := F) (τ := τ)).namespaced name s).2 rfl).1⟩
  have h := ((C57_push I (Nesting.innermost (F := F) (τ := τ)).namespaced.multiEq.byRef name (s, e)).1 rfl).1
  have h' := congrArg (Option.map Prod.fst) h
  rw [Option.map_map, Option.map_map] at h'
  refine h'.trans ?_
  show Option.map (Prod.fst ∘ fun t => (t, e)) (I.push name s) = _
  cases I.push name s <;> rfl

/-! ## The programs of the model are of this kind -/

/-- Sequencing. -/
def Prog.bind {m : Bool} {α β : Type} : Prog F m α → (α → Prog F m β) → Prog F m β
  | .ret a, g => g a
  | .panic msg, _ => .panic msg
  | .one k, g => .one fun v => (k v).bind g
  | .alloc i n f k, g => .alloc i n f fun r => (k r).bind g
  | .enforce n a b c k, g => .enforce n a b c (k.bind g)
  | .ns n body k, g => .ns n body fun b => (k b).bind g
  | .byRef body k, g => .byRef body fun b => (k b).bind g
  | .enforceEqual n l r k, g => .enforceEqual n l r (k.bind g)
  | .withMultiEq body k, g => .withMultiEq body fun b => (k b).bind g

theorem Prog.flatten_bind {m : Bool} {α β : Type} (p : Prog F m α) (g : α → Prog F m β) (x : MState F m) :
    (p.bind g).flatten x = (p.flatten x).bind fun r => (g r.1).flatten r.2 := by
  induction p with
  | ret a => rfl
  | panic msg => rfl
  | one k ih => exact ih .one g x
  | alloc i n f k ih =>
    show Circ.alloc i n f _ = Circ.alloc i n f _
    congr 1
    funext r
    exact ih r g x
  | enforce n a b c k ih =>
    show Circ.enforce n a b c _ = Circ.enforce n a b c _
    rw [ih g x]
  | ns n body k _ ih =>
    show Circ.push n _ = Circ.push n _
    rw [Circ.bind_assoc]
    congr 1
    congr 1
    funext r
    show Circ.pop _ = Circ.pop _
    rw [ih r.1 g r.2]
  | byRef body k _ ih =>
    show Circ.bind _ _ = Circ.bind (Circ.bind _ _) _
    rw [Circ.bind_assoc]
    congr 1
    funext r
    exact ih r.1 g r.2
  | enforceEqual n l r k ih =>
    show Circ.bind _ _ = Circ.bind (Circ.bind _ _) _
    rw [Circ.bind_assoc]
    congr 1
    funext r
    exact ih g r.2
  | withMultiEq body k _ ih =>
    show Circ.bind _ _ = Circ.bind (Circ.bind _ _) _
    rw [Circ.bind_assoc]
    congr 1
    funext r
    split
    · show Circ.enforce _ _ _ _ _ = Circ.enforce _ _ _ _ _
      rw [ih r.1 g x]
    · exact ih r.1 g x

/-- The program with visible handles stands for the program `c` of the model. -/
def Represents {α : Type} (p : Prog F false (Except SynthesisError α)) (c : Synth F α) : Prop :=
  p.flatten () = c.run.bind fun r => .ret (r, ())

/-- As `Represents`, for programs whose root is a `MultiEq`. -/
def MRepresents {α : Type} (p : Prog F true (Except SynthesisError α)) (c : MSynth F α) : Prop :=
  ∀ x, p.flatten x = c.run.run x

/-- Going on after `?`: an error is returned. -/
def Prog.orErr {m : Bool} {α β : Type} (g : α → Prog F m (Except SynthesisError β)) :
    Except SynthesisError α → Prog F m (Except SynthesisError β)
  | .ok a => g a
  | .error e => .ret (.error e)

/-- C57. The operations from which the model's circuits and gadgets are put together are what the operations on handles flatten to:
trait calls, `?`, namespaces, references, `MultiEq::enforce_equal`, and the scope of a `MultiEq`. So `C57_transparent` speaks about
them. -/
theorem C57_combinators {α β : Type} :
    (∀ a : α, Represents (F := F) (.ret (.ok a)) (pure a)) ∧
    (∀ i name f, Represents (F := F) (.alloc i name f .ret) (if i then Synth.allocInput name f else Synth.alloc name f)) ∧
    (∀ name a b c, Represents (F := F) (.enforce name (a ⟨[]⟩) (b ⟨[]⟩) (c ⟨[]⟩) (.ret (.ok ()))) (Synth.enforce name a b c)) ∧
    (∀ (p : Prog F false (Except SynthesisError α)) (c : Synth F α) (q : α → Prog F false (Except SynthesisError β))
      (d : α → Synth F β), Represents p c → (∀ a, Represents (q a) (d a)) → Represents (p.bind (Prog.orErr q)) (c >>= d)) ∧
    (∀ name (p : Prog F false (Except SynthesisError α)) (c : Synth F α), Represents p c →
      Represents (.ns name p .ret) (Synth.inNs name c) ∧ Represents (.byRef p .ret) c) ∧
    (∀ (p : Prog F true (Except SynthesisError α)) (c : MSynth F α), MRepresents p c →
      Represents (.withMultiEq p .ret) (MSynth.withMultiEq c)) ∧
    (∀ name (p : Prog F true (Except SynthesisError α)) (c : MSynth F α), MRepresents p c →
      MRepresents (.ns name p .ret) (MSynth.inNs name c) ∧ MRepresents (.byRef p .ret) c) ∧
    (∀ (p : Prog F true (Except SynthesisError α)) (c : MSynth F α) (q : α → Prog F true (Except SynthesisError β))
      (d : α → MSynth F β), MRepresents p c → (∀ a, MRepresents (q a) (d a)) → MRepresents (p.bind (Prog.orErr q)) (c >>= d)) ∧
    (∀ n l r, MRepresents (F := F) (.enforceEqual n l r (.ret (.ok ()))) (MEq.enforceEqual n l r)) ∧
    (∀ i name f, MRepresents (F := F) (.alloc i name f .ret)
      (MSynth.lift (if i then Synth.allocInput name f else Synth.alloc name f))) ∧
    (∀ name a b c, MRepresents (F := F) (.enforce name (a ⟨[]⟩) (b ⟨[]⟩) (c ⟨[]⟩) (.ret (.ok ())))
      (MSynth.lift (Synth.enforce name a b c))) := by
  refine ⟨fun a => rfl, fun i name f => ?_, fun name a b c => rfl, fun p c q d hp hq => ?_, fun name p c hp => ⟨?_, ?_⟩,
    fun p c hp => ?_, fun name p c hp => ⟨fun x => ?_, fun x => ?_⟩, fun p c q d hp hq x => ?_, fun n l r x => ?_,
    fun i name f x => ?_, fun name a b c x => rfl⟩
  · cases i <;> rfl
  · unfold Represents at *
    rw [Prog.flatten_bind, hp, Circ.bind_assoc]
    show _ = Circ.bind (Circ.bind c.run _) _
    rw [Circ.bind_assoc]
    congr 1
    funext r
    cases r with
    | ok a => exact hq a
    | error e => rfl
  · unfold Represents at *
    show Circ.push name ((p.flatten ()).bind _) = Circ.push name ((c.run.bind _).bind _)
    rw [hp, Circ.bind_assoc, Circ.bind_assoc]
    rfl
  · unfold Represents at *
    show (p.flatten ()).bind _ = _
    rw [hp, Circ.bind_assoc]
    rfl
  · unfold Represents
    show (p.flatten (MEq.new : MEq F)).bind _ = ((c.run.run MEq.new).bind _).bind _
    rw [hp, Circ.bind_assoc]
    congr 1
    funext r
    unfold MEq.drop
    split <;> rfl
  · show Circ.push name ((p.flatten x).bind _) = Circ.push name ((c.run.run x).bind _)
    rw [hp]
    rfl
  · show (p.flatten x).bind _ = _
    rw [hp]
    exact Circ.bind_ret _
  · rw [Prog.flatten_bind, hp]
    show _ = Circ.bind (c.run.run x) _
    congr 1
    funext r
    obtain ⟨r, y⟩ := r
    cases r with
    | ok a => exact hq a y
    | error e => rfl
  · show Circ.bind ((MEq.enforceEqual n l r).run.run x) _ = _
    have hadd : ∀ y : MEq F, (((if CAPACITY F > y.bitsUsed + n then
          .ret (Except.ok (), ⟨y.ops, y.bitsUsed + n, y.lhs + ((2 : F) ^ y.bitsUsed, l), y.rhs + ((2 : F) ^ y.bitsUsed, r)⟩)
        else .panic "assert!((Scalar::CAPACITY as usize) > (self.bits_used + num_bits))" :
          Circ F (Except SynthesisError Unit × MEq F))).bind fun y => .ret (.ok (), y.2)) =
        (if CAPACITY F > y.bitsUsed + n then
          .ret (Except.ok (), ⟨y.ops, y.bitsUsed + n, y.lhs + ((2 : F) ^ y.bitsUsed, l), y.rhs + ((2 : F) ^ y.bitsUsed, r)⟩)
        else .panic "assert!((Scalar::CAPACITY as usize) > (self.bits_used + num_bits))" :
          Circ F (Except SynthesisError Unit × MEq F)) := by
      intro y
      split <;> rfl
    show (if CAPACITY F ≤ x.bitsUsed + n then _ else _ : Circ F _).bind _ = if CAPACITY F ≤ x.bitsUsed + n then _ else _
    by_cases hc : CAPACITY F ≤ x.bitsUsed + n
    · rw [if_pos hc]
      exact congrArg (Circ.enforce _ _ _ _) (hadd _)
    · rw [if_neg hc]
      exact hadd _
  · cases i <;> rfl

/-! ## A concrete nesting -/

/-- A constraint system that records the calls it receives. -/
private def logger : CSImpl DummyFr (List String) where
  alloc i n _ s := some (.ok (if i then .input 1 else .aux 0, none), s ++ [(if i then "input " else "aux ") ++ n])
  enforce n _ _ _ s := some (s ++ ["enforce " ++ n])
  push n s := some (s ++ ["push " ++ n])
  pop s := some (s ++ ["pop"])

/-- Allocate an input in a namespace, and enforce an equality through the root from inside it. -/
private def sample : Prog DummyFr true Unit :=
  .ns "outer" (.byRef (.alloc true "x" (.ok 5) fun _ => .enforceEqual 3 LC.zero LC.zero (.ret ())) .ret) .ret

/-- On a namespace of a reference to a `MultiEq` around a namespace of the recorder, with 13 of the 15 bits used up: the calls arrive,
and the `MultiEq` flushes. -/
example : let n : Nesting DummyFr (List String) true _ _ := .namespaced (.byRef (.multiEq (.namespaced .innermost)))
    ((sample.run (n.handle logger) ([], ⟨7, 13, LC.zero, LC.zero⟩)).map fun r => r.2.1) =
      some ["push outer", "input x", "enforce multieq 7", "pop"] := rfl

/-- The gadget that allocates a list of bits is made of operations on handles. -/
example (i : ℕ) (bs : List (Option Bool)) : ∃ p : Prog F false _, Represents p (allocBits (F := F) i bs) := by
  induction bs generalizing i with
  | nil => exact ⟨_, (C57_combinators (β := Unit)).1 _⟩
  | cons b bs ih =>
    obtain ⟨q, hq⟩ := ih (i + 1)
    have hpure : ∀ {α : Type} (a : α), Represents (F := F) (.ret (.ok a)) (pure a) := fun a => (C57_combinators (β := Unit)).1 a
    have hbind : ∀ {α β : Type} (p : Prog F false (Except SynthesisError α)) (c : Synth F α)
        (q : α → Prog F false (Except SynthesisError β)) (d : α → Synth F β), Represents p c → (∀ a, Represents (q a) (d a)) →
        Represents (p.bind (Prog.orErr q)) (c >>= d) := fun {α β} => (C57_combinators (F := F) (α := α) (β := β)).2.2.2.1
    obtain ⟨p, hp⟩ : ∃ p : Prog F false _, Represents p (AllocatedBit.alloc (F := F) b) :=
      ⟨_, hbind _ _ _ _ ((C57_combinators (α := Unit) (β := Unit)).2.1 false "boolean" ((Synth.optGet b).map boolF)) fun r =>
        hbind _ _ _ _ ((C57_combinators (α := Unit) (β := Unit)).2.2.1 "boolean constraint" (fun lc => lc + Var.one - r.1)
          (fun lc => lc + r.1) (fun lc => lc)) fun _ => hpure (⟨r.1, b⟩ : AllocatedBit)⟩
    exact ⟨_, hbind _ _ _ _ ((C57_combinators (β := Unit)).2.2.2.2.1 s!"bit {i}" p _ hp).1 fun x =>
      hbind _ _ _ _ hq fun xs => hpure (x :: xs)⟩

end Bellman
