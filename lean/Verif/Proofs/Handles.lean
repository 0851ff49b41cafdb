import Verif.Handles

/-!
# Every nesting of handles acts as the innermost constraint system
-/

namespace Bellman

open PrimeField

variable {F : Type} [PrimeField F] {σ ρ τ : Type}

/-- Borrowing a part of a part. -/
def Lens.comp {σ ρ τ : Type} (L : Lens σ ρ) (M : Lens ρ τ) : Lens σ τ where
  get s := M.get (L.get s)
  set t s := L.set (M.set t (L.get s)) s
  get_set t s := by rw [L.get_set, M.get_set]
  set_get s := by rw [M.set_get, L.set_get]
  set_set t t' s := by rw [L.get_set, L.set_set, M.set_set]

/-- Acting on the constraint system and leaving the state of the `MultiEq` alone. -/
def onFst {S α : Type} (f : τ → Option (α × τ)) (x : τ × S) : Option (α × (τ × S)) := (f x.1).map fun r => (r.1, (r.2, x.2))

/-- As `onFst`, without a result. -/
def onFst_ {S : Type} (f : τ → Option τ) (x : τ × S) : Option (τ × S) := (f x.1).map fun t => (t, x.2)

/-- `enforce_equal` of the model, as a function on states. -/
def modelEq (I : CSImpl F τ) (n : ℕ) (l r : LC F) (x : τ × MEq F) : Option (τ × MEq F) :=
  (((MEq.enforceEqual n l r).run.run x.2).run I x.1).map fun y => (y.2, y.1.2)

/-- The root's `enforce_equal`, if it has one, is that of the model. -/
def EqOk (I : CSImpl F τ) (R : CSRoot F ρ) : (m : Bool) → Lens ρ (τ × MState F m) → Prop
  | true, M => ∀ n l r s, R.enforceEqual n l r s = M.run_ (modelEq I n l r) s
  | false, _ => True

/-- The handle acts on the innermost constraint system `I`, found through the lenses. -/
structure Faithful (I : CSImpl F τ) {m : Bool} (h : CSHandle F σ ρ) (M : Lens ρ (τ × MState F m)) : Prop where
  one : h.one = .one
  rone : h.root.one = .one
  alloc : ∀ i n f s, h.alloc i n f s = (h.getRoot.comp M).run (onFst (I.alloc i n f)) s
  enforce : ∀ n a b c s, h.enforce n a b c s = (h.getRoot.comp M).run_ (onFst_ (I.enforce n a b c)) s
  ralloc : ∀ i n f s, h.root.alloc i n f s = M.run (onFst (I.alloc i n f)) s
  renforce : ∀ n a b c s, h.root.enforce n a b c s = M.run_ (onFst_ (I.enforce n a b c)) s
  rpush : ∀ n s, h.root.push n s = M.run_ (onFst_ (I.push n)) s
  rpop : ∀ s, h.root.pop s = M.run_ (onFst_ I.pop) s
  req : EqOk I h.root m M

section
variable {I : CSImpl F τ} {m : Bool}

theorem Faithful.byRef {h : CSHandle F σ ρ} {M : Lens ρ (τ × MState F m)} (H : Faithful I h M) :
    Faithful I h.byRef M where
  one := H.one
  rone := H.rone
  alloc i n f s := by cases i <;> exact H.alloc _ n f s
  enforce := H.enforce
  ralloc := H.ralloc
  renforce := H.renforce
  rpush := H.rpush
  rpop := H.rpop
  req := H.req

theorem Faithful.namespaced {h : CSHandle F σ ρ} {M : Lens ρ (τ × MState F m)} (H : Faithful I h M) :
    Faithful I h.namespaced M where
  one := H.one
  rone := H.rone
  alloc i n f s := by cases i <;> exact H.alloc _ n f s
  enforce := H.enforce
  ralloc := H.ralloc
  renforce := H.renforce
  rpush := H.rpush
  rpop := H.rpop
  req := H.req

theorem Faithful.root {h : CSHandle F σ ρ} {M : Lens ρ (τ × MState F m)} (H : Faithful I h M) :
    Faithful I (CSHandle.ofRoot h.root) M where
  one := H.rone
  rone := H.rone
  alloc i n f s := H.ralloc i n f s
  enforce n a b c s := H.renforce n a b c s
  ralloc := H.ralloc
  renforce := H.renforce
  rpush := H.rpush
  rpop := H.rpop
  req := H.req

/-- The lens of a constraint system that is not a `MultiEq`. -/
def baseLens (F τ : Type) : Lens τ (τ × MState F false) :=
  ⟨fun t => (t, ()), fun x _ => x.1, fun _ _ => rfl, fun _ => rfl, fun _ _ _ => rfl⟩

theorem Faithful.base (I : CSImpl F τ) : Faithful I (CSHandle.ofRoot (CSHandle.base I)) (baseLens F τ) where
  one := rfl
  rone := rfl
  alloc i n f s := by
    show I.alloc i n f s = _
    unfold Lens.run onFst
    show _ = ((I.alloc i n f s).map _).map _
    cases I.alloc i n f s <;> rfl
  enforce n a b c s := by
    show I.enforce n a b c s = _
    unfold Lens.run_ onFst_
    show _ = ((I.enforce n a b c s).map _).map _
    cases I.enforce n a b c s <;> rfl
  ralloc i n f s := by
    show I.alloc i n f s = _
    unfold Lens.run onFst
    show _ = ((I.alloc i n f s).map _).map _
    cases I.alloc i n f s <;> rfl
  renforce n a b c s := by
    show I.enforce n a b c s = _
    unfold Lens.run_ onFst_
    show _ = ((I.enforce n a b c s).map _).map _
    cases I.enforce n a b c s <;> rfl
  rpush n s := by
    show I.push n s = _
    unfold Lens.run_ onFst_
    show _ = ((I.push n s).map _).map _
    cases I.push n s <;> rfl
  rpop s := by
    show I.pop s = _
    unfold Lens.run_ onFst_
    show _ = ((I.pop s).map _).map _
    cases I.pop s <;> rfl
  req := trivial

/-- The lens of a `MultiEq`: the innermost constraint system of the wrapped handle, and its own state. -/
def meqLens {m : Bool} (L : Lens σ (τ × MState F m)) : Lens (σ × MEq F) (τ × MState F true) where
  get s := ((L.get s.1).1, s.2)
  set x s := (L.set (x.1, (L.get s.1).2) s.1, x.2)
  get_set x s := by rw [L.get_set]
  set_get s := by rw [show ((L.get s.1).1, (L.get s.1).2) = L.get s.1 from rfl, L.set_get]
  set_set x x' s := by rw [L.get_set, L.set_set]

/-- The last step of `enforce_equal`. -/
def addEq (n : ℕ) (l r : LC F) (y : σ × MEq F) : Option (σ × MEq F) :=
  if CAPACITY F > y.2.bitsUsed + n then
    some (y.1, ⟨y.2.ops, y.2.bitsUsed + n, y.2.lhs + ((2 : F) ^ y.2.bitsUsed, l), y.2.rhs + ((2 : F) ^ y.2.bitsUsed, r)⟩)
  else none

theorem modelEq_eq (I : CSImpl F τ) (n : ℕ) (l r : LC F) (x : τ × MEq F) :
    modelEq I n l r x =
      (if CAPACITY F ≤ x.2.bitsUsed + n then
        (I.enforce s!"multieq {x.2.ops}" x.2.lhs ((LC.zero : LC F) + Var.one) x.2.rhs x.1).map fun t =>
          (t, (⟨x.2.ops + 1, 0, LC.zero, LC.zero⟩ : MEq F))
      else some x).bind (addEq n l r) := by
  obtain ⟨t, x⟩ := x
  have hadd : ∀ (t : τ) (x : MEq F), (((if CAPACITY F > x.bitsUsed + n then
        .ret (.ok (), ⟨x.ops, x.bitsUsed + n, x.lhs + ((2 : F) ^ x.bitsUsed, l), x.rhs + ((2 : F) ^ x.bitsUsed, r)⟩)
      else .panic "assert!((Scalar::CAPACITY as usize) > (self.bits_used + num_bits))" :
        Circ F (Except SynthesisError Unit × MEq F))).run I t).map (fun y => (y.2, y.1.2)) = addEq n l r (t, x) := by
    intro t x
    unfold addEq
    simp only
    split <;> rfl
  show Option.map _ (Circ.run I (if CAPACITY F ≤ x.bitsUsed + n then _ else _) t) = _
  simp only
  split
  · show Option.map _ ((I.enforce _ _ _ _ t).bind _) = _
    generalize I.enforce _ _ _ _ t = o
    cases o with
    | none => rfl
    | some t' => exact hadd t' _
  · exact hadd t x

theorem multiEqEnforceEqual_eq (h : CSHandle F σ ρ) (n : ℕ) (l r : LC F) (s : σ × MEq F) :
    h.multiEqEnforceEqual n l r s =
      (if CAPACITY F ≤ s.2.bitsUsed + n then h.accumulate s else some s).bind (addEq n l r) := by
  unfold CSHandle.multiEqEnforceEqual
  have hadd : ∀ y : σ × MEq F, (do
      guard (CAPACITY F > y.2.bitsUsed + n)
      have coeff : F := 2 ^ y.2.bitsUsed
      some (y.1, (⟨y.2.ops, y.2.bitsUsed + n, y.2.lhs + (coeff, l), y.2.rhs + (coeff, r)⟩ : MEq F))) = addEq n l r y := by
    intro y
    unfold addEq
    by_cases hb : CAPACITY F > y.2.bitsUsed + n
    · rw [if_pos hb]; simp [guard, hb]
    · rw [if_neg hb]; simp [guard, hb]
  simp only [hadd]
  split <;> rfl

theorem Faithful.multiEq {h : CSHandle F σ ρ} {M : Lens ρ (τ × MState F m)} (H : Faithful I h M) :
    Faithful I (CSHandle.ofRoot h.multiEq) (meqLens (h.getRoot.comp M)) := by
  have hal : ∀ i n f s, h.multiEq.alloc i n f s = (meqLens (h.getRoot.comp M)).run (onFst (I.alloc i n f)) s := by
    intro i n f s
    have : h.multiEq.alloc i n f s = (CSHandle.csField σ).run (h.alloc i n f) s := by cases i <;> rfl
    rw [this]
    unfold Lens.run CSHandle.csField
    simp only
    rw [H.alloc]
    unfold Lens.run onFst
    simp only [Option.map_map]
    rfl
  have hen : ∀ n a b c s, h.multiEq.enforce n a b c s = (meqLens (h.getRoot.comp M)).run_ (onFst_ (I.enforce n a b c)) s := by
    intro n a b c s
    show (CSHandle.csField σ).run_ (h.enforce n a b c) s = _
    unfold Lens.run_ CSHandle.csField
    simp only
    rw [H.enforce]
    unfold Lens.run_ onFst_
    simp only [Option.map_map]
    rfl
  refine ⟨H.one, H.one, hal, hen, hal, hen, ?_, ?_, ?_⟩
  · intro n s
    show (CSHandle.csField σ).run_ (h.getRoot.run_ (h.root.push n)) s = _
    unfold Lens.run_ CSHandle.csField
    simp only
    rw [H.rpush]
    unfold Lens.run_ onFst_
    simp only [Option.map_map]
    rfl
  · intro s
    show (CSHandle.csField σ).run_ (h.getRoot.run_ h.root.pop) s = _
    unfold Lens.run_ CSHandle.csField
    simp only
    rw [H.rpop]
    unfold Lens.run_ onFst_
    simp only [Option.map_map]
    rfl
  · intro n l r s
    show h.multiEqEnforceEqual n l r s = _
    rw [multiEqEnforceEqual_eq]
    unfold Lens.run_
    rw [modelEq_eq]
    obtain ⟨s, x⟩ := s
    show _ = Option.map _ (((if CAPACITY F ≤ x.bitsUsed + n then _ else _) : Option _).bind _)
    by_cases hc : CAPACITY F ≤ x.bitsUsed + n
    · rw [if_pos hc, if_pos hc]
      unfold CSHandle.accumulate
      rw [H.enforce, H.one]
      unfold Lens.run_ onFst_
      have key : ∀ o : Option τ,
          ((o.map fun t => (t, ((h.getRoot.comp M).get s).2)).map (fun t => (h.getRoot.comp M).set t s) |>.map
            fun s' => (s', (⟨x.ops + 1, 0, LC.zero, LC.zero⟩ : MEq F))).bind (addEq n l r) =
          ((o.map fun t => (t, (⟨x.ops + 1, 0, LC.zero, LC.zero⟩ : MEq F))).bind (addEq n l r)).map
            fun t => (meqLens (h.getRoot.comp M)).set t (s, x) := by
        intro o
        cases o with
        | none => rfl
        | some t =>
          show addEq n l r (_, _) = Option.map _ (addEq n l r (_, _))
          unfold addEq
          simp only
          split <;> rfl
      exact key _
    · rw [if_neg hc, if_neg hc]
      show addEq n l r (_, _) = Option.map _ (addEq n l r (_, _))
      unfold addEq
      simp only
      split
      · refine congrArg some (Prod.ext ?_ rfl)
        exact ((h.getRoot.comp M).set_get s).symm
      · rfl

end

theorem Lens.run_bind_aux {σ τ α β : Type} (L : Lens σ τ) (f : τ → Option (α × τ)) (g : α → τ → Option (β × τ)) (s : σ) :
    ((L.run f s).bind fun r => L.run (g r.1) r.2) = L.run (fun t => (f t).bind fun r => g r.1 r.2) s := by
  unfold Lens.run
  simp only
  generalize f (L.get s) = o
  cases o with
  | none => rfl
  | some r =>
    simp only [Option.map_some, Option.bind_some, L.get_set]
    generalize g r.1 r.2 = o'
    cases o' with
    | none => rfl
    | some r' => simp only [Option.map_some, L.set_set]

theorem Lens.runUnit_bind_aux {σ τ β : Type} (L : Lens σ τ) (f : τ → Option τ) (g : τ → Option (β × τ)) (s : σ) :
    ((L.run_ f s).bind fun r => L.run g r) = L.run (fun t => (f t).bind g) s := by
  unfold Lens.run Lens.run_
  simp only
  generalize f (L.get s) = o
  cases o with
  | none => rfl
  | some r =>
    simp only [Option.map_some, Option.bind_some, L.get_set]
    generalize g r = o'
    cases o' with
    | none => rfl
    | some r' => simp only [Option.map_some, L.set_set]

/-- The model's run of a program: the flattened program against the innermost constraint system. -/
def Prog.model {m : Bool} {α : Type} (p : Prog F m α) (I : CSImpl F τ) (x : τ × MState F m) : Option (α × (τ × MState F m)) :=
  ((p.flatten x.2).run I x.1).map fun r => (r.1.1, (r.2, r.1.2))

theorem Prog.model_bind {m : Bool} {α β : Type} (c : Circ F (β × MState F m)) (k : β → Prog F m α) (I : CSImpl F τ) (t : τ) :
    ((c.bind fun r => (k r.1).flatten r.2).run I t).map (fun r => (r.1.1, (r.2, r.1.2))) =
      ((c.run I t).map fun r => (r.1.1, (r.2, r.1.2))).bind fun r => (k r.1).model I r.2 := by
  rw [Circ.run_bind]
  generalize c.run I t = o
  cases o <;> rfl

theorem Faithful.run {I : CSImpl F τ} {m : Bool} {α : Type} (p : Prog F m α) {σ ρ : Type} {h : CSHandle F σ ρ}
    {M : Lens ρ (τ × MState F m)} (H : Faithful I h M) (s : σ) : p.run h s = (h.getRoot.comp M).run (p.model I) s := by
  induction p generalizing σ ρ with
  | ret a =>
    show some (a, s) = some (a, (h.getRoot.comp M).set ((h.getRoot.comp M).get s) s)
    rw [Lens.set_get]
  | panic msg => rfl
  | one k ih =>
    show (k h.one).run h s = _
    rw [H.one, ih .one H]; rfl
  | alloc i n f k ih =>
    show (h.alloc i n f s).bind _ = _
    rw [H.alloc]
    have : (fun r : Except SynthesisError (Var × Option F) × σ => (k r.1).run h r.2) =
        fun r => (h.getRoot.comp M).run ((k r.1).model I) r.2 := funext fun r => ih r.1 H r.2
    rw [this, Lens.run_bind_aux _ _ fun r => (k r).model I]
    congr 1
    funext x
    show Option.bind (Option.map _ (I.alloc i n f x.1)) _ = Option.map _ ((I.alloc i n f x.1).bind _)
    generalize I.alloc i n f x.1 = o
    cases o <;> rfl
  | enforce n a b c k ih =>
    show (h.enforce n a b c s).bind _ = _
    rw [H.enforce]
    have : (fun r : σ => k.run h r) = fun r => (h.getRoot.comp M).run (k.model I) r := funext fun r => ih H r
    rw [this, Lens.runUnit_bind_aux]
    congr 1
    funext x
    show Option.bind (Option.map _ (I.enforce n a b c x.1)) _ = Option.map _ ((I.enforce n a b c x.1).bind _)
    generalize I.enforce n a b c x.1 = o
    cases o <;> rfl
  | byRef body k ihb ihk =>
    show (body.run h.byRef s).bind _ = _
    rw [ihb H.byRef]
    have : (fun r : _ × σ => (k r.1).run h r.2) = fun r => (h.getRoot.comp M).run ((k r.1).model I) r.2 :=
      funext fun r => ihk r.1 H r.2
    rw [this, show h.byRef.getRoot = h.getRoot from rfl, Lens.run_bind_aux _ _ fun r => (k r).model I]
    congr 1
    funext x
    exact (Prog.model_bind _ k I x.1).symm
  | ns n body k ihb ihk =>
    show ((h.root.push n (h.getRoot.get s)).bind fun r =>
      (body.run (CSHandle.ofRoot h.root).namespaced r).bind fun br =>
        (((CSHandle.ofRoot h.root).namespaced.getRoot.run_ (CSHandle.ofRoot h.root).namespaced.root.pop br.2).bind fun r =>
          (k br.1).run h (h.getRoot.set r s))) = _
    rw [H.rpush]
    have hb : ∀ r, body.run (CSHandle.ofRoot h.root).namespaced r = M.run (body.model I) r := fun r => ihb H.root.namespaced r
    have hp : ∀ r, (CSHandle.ofRoot h.root).namespaced.getRoot.run_ (CSHandle.ofRoot h.root).namespaced.root.pop r =
        M.run_ (onFst_ I.pop) r := by
      intro r
      show Option.map _ (h.root.pop r) = _
      rw [H.rpop]
      cases M.run_ (onFst_ I.pop) r <;> rfl
    have hk : ∀ b s, (k b).run h s = (h.getRoot.comp M).run ((k b).model I) s := fun b s => ihk b H s
    simp only [hb, hp, hk]
    have key3 : ∀ (b : _) (xm : MState F _) (o : Option τ),
        ((o.map fun t => (t, xm)).map fun x => M.set x (h.getRoot.get s)).bind
          (fun r => (h.getRoot.comp M).run ((k b).model I) (h.getRoot.set r s)) =
        ((o.bind fun t => ((k b).flatten xm).run I t).map fun r => (r.1.1, (r.2, r.1.2))).map
          fun r => (r.1, (h.getRoot.comp M).set r.2 s) := by
      intro b xm o
      cases o with
      | none => rfl
      | some t =>
        show (h.getRoot.comp M).run ((k b).model I) ((h.getRoot.comp M).set (t, xm) s) = _
        unfold Lens.run
        rw [Lens.get_set]
        show Option.map _ (Option.map _ _) = Option.map _ (Option.map _ _)
        simp only [Lens.set_set]
        rfl
    have key2 : ∀ o : Option ((_ × MState F _) × τ),
        ((o.map fun r => (r.1.1, (r.2, r.1.2))).map fun r => (r.1, M.set r.2 (h.getRoot.get s))).bind
          (fun br => (M.run_ (onFst_ I.pop) br.2).bind fun r =>
            (h.getRoot.comp M).run ((k br.1).model I) (h.getRoot.set r s)) =
        ((o.bind fun r => (Circ.pop ((k r.1.1).flatten r.1.2)).run I r.2).map fun r => (r.1.1, (r.2, r.1.2))).map
          fun r => (r.1, (h.getRoot.comp M).set r.2 s) := by
      intro o
      cases o with
      | none => rfl
      | some r =>
        obtain ⟨⟨b, xm⟩, t⟩ := r
        show (M.run_ (onFst_ I.pop) (M.set (t, xm) (h.getRoot.get s))).bind _ = _
        refine Eq.trans ?_ (key3 b xm (I.pop t))
        unfold Lens.run_ onFst_
        simp only [Lens.get_set, Lens.set_set]
    have key1 : ∀ (xm : MState F _) (o : Option τ),
        ((o.map fun t => (t, xm)).map fun x => M.set x (h.getRoot.get s)).bind
          (fun r => (M.run (body.model I) r).bind fun br => (M.run_ (onFst_ I.pop) br.2).bind fun r =>
            (h.getRoot.comp M).run ((k br.1).model I) (h.getRoot.set r s)) =
        ((o.bind fun t => ((body.flatten xm).bind fun r => .pop ((k r.1).flatten r.2)).run I t).map
          fun r => (r.1.1, (r.2, r.1.2))).map fun r => (r.1, (h.getRoot.comp M).set r.2 s) := by
      intro xm o
      cases o with
      | none => rfl
      | some t =>
        show (M.run (body.model I) (M.set (t, xm) (h.getRoot.get s))).bind _ = Option.map _ (Option.map _ (Circ.run I (Circ.bind _ _) t))
        rw [Circ.run_bind, ← key2]
        unfold Lens.run Prog.model
        simp only [Lens.get_set, Lens.set_set]
    exact key1 (M.get (h.getRoot.get s)).2 (I.push n (M.get (h.getRoot.get s)).1)
  | enforceEqual n l r k ih =>
    show (h.getRoot.run_ (h.root.enforceEqual n l r) s).bind _ = _
    have hk : (fun r : σ => k.run h r) = fun r => (h.getRoot.comp M).run (k.model I) r := funext fun r => ih H r
    rw [hk]
    have he : h.getRoot.run_ (h.root.enforceEqual n l r) s = (h.getRoot.comp M).run_ (modelEq I n l r) s := by
      unfold Lens.run_
      rw [H.req n l r]
      unfold Lens.run_
      rw [Option.map_map]
      rfl
    rw [he, Lens.runUnit_bind_aux]
    congr 1
    funext x
    show Option.bind (Option.map _ _) _ = Option.map _ (Circ.run I (Circ.bind _ _) _)
    rw [Circ.run_bind]
    generalize Circ.run I _ x.1 = o
    cases o <;> rfl
  | withMultiEq body k ihb ihk =>
    show ((body.run (CSHandle.ofRoot h.multiEq).byRef (s, MEq.new)).bind fun br =>
      (h.multiEqDrop br.2).bind fun s => (k br.1).run h s) = _
    rw [ihb H.multiEq.byRef]
    have hk : ∀ b s, (k b).run h s = (h.getRoot.comp M).run ((k b).model I) s := fun b s => ihk b H s
    simp only [hk]
    have key2 : ∀ (b : _) (x : MEq F) (t : τ),
        (h.multiEqDrop ((h.getRoot.comp M).set (t, ((h.getRoot.comp M).get s).2) s, x)).bind
          (fun s => (h.getRoot.comp M).run ((k b).model I) s) =
        ((Circ.run I (if x.bitsUsed > 0 then MEq.accumulate (fun _ => (k b).flatten ((h.getRoot.comp M).get s).2) x
          else (k b).flatten ((h.getRoot.comp M).get s).2) t).map fun r => (r.1.1, (r.2, r.1.2))).map
          fun r => (r.1, (h.getRoot.comp M).set r.2 s) := by
      intro b x t
      unfold CSHandle.multiEqDrop
      have key3 : ∀ o : Option τ,
          (((o.map fun t => (t, ((h.getRoot.comp M).get s).2)).map fun y => (h.getRoot.comp M).set y s).bind
            fun s => (h.getRoot.comp M).run ((k b).model I) s) =
          ((o.bind fun t => ((k b).flatten ((h.getRoot.comp M).get s).2).run I t).map fun r => (r.1.1, (r.2, r.1.2))).map
            fun r => (r.1, (h.getRoot.comp M).set r.2 s) := by
        intro o
        cases o with
        | none => rfl
        | some t =>
          show (h.getRoot.comp M).run ((k b).model I) ((h.getRoot.comp M).set (t, _) s) = _
          unfold Lens.run Prog.model
          simp only [Lens.get_set, Lens.set_set]
          rfl
      by_cases hx : x.bitsUsed > 0
      · rw [if_pos hx, if_pos hx]
        unfold CSHandle.accumulate MEq.accumulate
        rw [H.enforce, H.one]
        refine Eq.trans ?_ (key3 (I.enforce s!"multieq {x.ops}" x.lhs ((LC.zero : LC F) + Var.one) x.rhs t))
        unfold Lens.run_ onFst_
        simp only [Lens.get_set, Lens.set_set, Option.map_map]
        rfl
      · rw [if_neg hx, if_neg hx]
        exact key3 (some t)
    have key1 : ∀ o : Option ((_ × MEq F) × τ),
        ((o.map fun r => (r.1.1, ((r.2, r.1.2) : τ × MState F true))).map
            fun r => (r.1, (meqLens (h.getRoot.comp M)).set r.2 (s, MEq.new))).bind
          (fun br => (h.multiEqDrop br.2).bind fun s => (h.getRoot.comp M).run ((k br.1).model I) s) =
        ((o.bind fun r => Circ.run I (if r.1.2.bitsUsed > 0 then
          MEq.accumulate (fun _ => (k r.1.1).flatten ((h.getRoot.comp M).get s).2) r.1.2
          else (k r.1.1).flatten ((h.getRoot.comp M).get s).2) r.2).map fun r => (r.1.1, (r.2, r.1.2))).map
          fun r => (r.1, (h.getRoot.comp M).set r.2 s) := by
      intro o
      cases o with
      | none => rfl
      | some r => exact key2 r.1.1 r.1.2 r.2
    refine Eq.trans (key1 ((body.flatten (MEq.new : MEq F)).run I ((h.getRoot.comp M).get s).1)) ?_
    show _ = Option.map _ (Option.map _ (Circ.run I (Circ.bind _ _) _))
    rw [Circ.run_bind]

end Bellman
