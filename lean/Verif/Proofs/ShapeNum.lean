import Verif.Shape
import Verif.Gadgets.Multipack
import Verif.Gadgets.Lookup
import Verif.Proofs.Num
import Verif.Proofs.Multipack

/-!
# Witness independence of the boolean, number, lookup and packing gadgets
-/

namespace Bellman

open PrimeField

variable {F : Type} [PrimeField F]

/-- The handles denote the same variable (specification). -/
def AllocatedBit.Same (a b : AllocatedBit) : Prop := a.var = b.var

/-- The handles denote the same literal (specification). -/
def Boolean.Same : Boolean → Boolean → Prop
  | .is a, .is b => a.Same b
  | .not a, .not b => a.Same b
  | .constant a, .constant b => a = b
  | _, _ => False

/-- The handles denote the same variable (specification). -/
def AllocatedNum.Same (a b : AllocatedNum F) : Prop := a.var = b.var

/-- The handles denote the same combination (specification). -/
def Num.Same (a b : Num F) : Prop := a.lcomb = b.lcomb

namespace SShape

theorem allocCapture {fb₁ fb₂ : Except SynthesisError Bool} (n : String) :
    SShape (F := F) (fun r₁ r₂ : Var × Option Bool => r₁.1 = r₂.1) (allocCapture n fb₁) (allocCapture n fb₂) :=
  bind (alloc n) fun _ _ h => pure h

end SShape

namespace AllocatedBit

theorem shape_alloc (v w : Option Bool) : SShape (F := F) Same (alloc v) (alloc w) := by
  refine SShape.bind (SShape.alloc _) fun r₁ r₂ h => ?_
  refine SShape.bind (SShape.enforce _ ?_ ?_ rfl) fun _ _ _ => SShape.pure h
  · rw [h]
  · rw [h]

theorem shape_allocConditionally (v w : Option Bool) {m m' : AllocatedBit} (hm : m.Same m') :
    SShape (F := F) Same (allocConditionally v m) (allocConditionally w m') := by
  refine SShape.bind (SShape.alloc _) fun r₁ r₂ h => ?_
  have hm : m.var = m'.var := hm
  refine SShape.bind (SShape.enforce _ ?_ ?_ rfl) fun _ _ _ => SShape.pure h
  · rw [h, hm]
  · rw [h]

variable {a a' b b' : AllocatedBit}

theorem shape_xor (ha : a.Same a') (hb : b.Same b') : SShape (F := F) Same (xor a b) (xor a' b') := by
  have ha : a.var = a'.var := ha
  have hb : b.var = b'.var := hb
  refine SShape.bind (SShape.allocCapture _) fun r₁ r₂ h => ?_
  refine SShape.bind (SShape.enforce _ ?_ ?_ ?_) fun _ _ _ => SShape.pure h <;> simp only [h, ha, hb]

theorem shape_and (ha : a.Same a') (hb : b.Same b') : SShape (F := F) Same (and a b) (and a' b') := by
  have ha : a.var = a'.var := ha
  have hb : b.var = b'.var := hb
  refine SShape.bind (SShape.allocCapture _) fun r₁ r₂ h => ?_
  refine SShape.bind (SShape.enforce _ ?_ ?_ ?_) fun _ _ _ => SShape.pure h <;> simp only [h, ha, hb]

theorem shape_andNot (ha : a.Same a') (hb : b.Same b') : SShape (F := F) Same (andNot a b) (andNot a' b') := by
  have ha : a.var = a'.var := ha
  have hb : b.var = b'.var := hb
  refine SShape.bind (SShape.allocCapture _) fun r₁ r₂ h => ?_
  refine SShape.bind (SShape.enforce _ ?_ ?_ ?_) fun _ _ _ => SShape.pure h <;> simp only [h, ha, hb]

theorem shape_nor (ha : a.Same a') (hb : b.Same b') : SShape (F := F) Same (nor a b) (nor a' b') := by
  have ha : a.var = a'.var := ha
  have hb : b.var = b'.var := hb
  refine SShape.bind (SShape.allocCapture _) fun r₁ r₂ h => ?_
  refine SShape.bind (SShape.enforce _ ?_ ?_ ?_) fun _ _ _ => SShape.pure h <;> simp only [h, ha, hb]

end AllocatedBit

theorem shape_allocBits (i : ℕ) {vs ws : List (Option Bool)} (h : vs.length = ws.length) :
    SShape (F := F) (List.Forall₂ AllocatedBit.Same) (allocBits i vs) (allocBits i ws) := by
  induction vs generalizing ws i with
  | nil =>
    cases ws with
    | nil => exact SShape.pure .nil
    | cons w ws => simp at h
  | cons v vs ih =>
    cases ws with
    | nil => simp at h
    | cons w ws =>
      refine SShape.bind (SShape.inNs _ (AllocatedBit.shape_alloc v w)) fun x y hxy => ?_
      exact SShape.bind (ih (i + 1) (by simpa using h)) fun xs ys hs => SShape.pure (.cons hxy hs)

theorem shape_map_is {o o' : List AllocatedBit} (h : List.Forall₂ AllocatedBit.Same o o') :
    List.Forall₂ Boolean.Same (o.map Boolean.is) (o'.map Boolean.is) := by
  rw [List.forall₂_map_left_iff, List.forall₂_map_right_iff]; exact h

theorem shape_u64IntoBooleanVecLe (v w : Option (BitVec 64)) :
    SShape (F := F) (List.Forall₂ Boolean.Same) (u64IntoBooleanVecLe v) (u64IntoBooleanVecLe w) := by
  refine SShape.bind (shape_allocBits 0 ?_) fun xs ys h => SShape.pure (shape_map_is h)
  cases v <;> cases w <;> simp

section K
variable {K : Type} [PrimeField K]

theorem shape_fieldIntoAllocatedBitsLe (v w : Option K) :
    SShape (F := F) (List.Forall₂ AllocatedBit.Same) (fieldIntoAllocatedBitsLe v) (fieldIntoAllocatedBitsLe w) := by
  have key : ∀ v : Option K, ∃ vs : List (Option Bool), vs.length = NUM_BITS K ∧
      (fieldIntoAllocatedBitsLe v : Synth F (List AllocatedBit)) = allocBits 0 vs := by
    intro v
    cases v with
    | none => exact ⟨_, by simp, rfl⟩
    | some v =>
      refine ⟨((leBits (NUM_BITS K) (val v)).map some), by simp, ?_⟩
      unfold fieldIntoAllocatedBitsLe
      dsimp only
      rw [skipLeading_field, if_pos (by simp), ← List.map_reverse, List.reverse_reverse]
  obtain ⟨vs, hv, e⟩ := key v
  obtain ⟨ws, hw, e'⟩ := key w
  rw [e, e']
  exact shape_allocBits 0 (hv.trans hw.symm)

theorem shape_fieldIntoBooleanVecLe (v w : Option K) :
    SShape (F := F) (List.Forall₂ Boolean.Same) (fieldIntoBooleanVecLe v) (fieldIntoBooleanVecLe w) :=
  SShape.bind (shape_fieldIntoAllocatedBitsLe v w) fun _ _ h => SShape.pure (shape_map_is h)

end K

namespace Boolean

variable {a a' b b' c c' : Boolean}

theorem Same.refl (a : Boolean) : a.Same a := by cases a <;> rfl

theorem Same.neg (h : a.Same a') : a.neg.Same a'.neg := by
  cases a <;> cases a' <;> simp_all [Same, Boolean.neg]

theorem Same.lc (h : a.Same a') (k : F) : a.lc k = a'.lc k := by
  cases a <;> cases a' <;> simp_all [Same, Boolean.lc, AllocatedBit.Same]

theorem Same.isConstant (h : a.Same a') : a.isConstant = a'.isConstant := by
  cases a <;> cases a' <;> simp_all [Same, Boolean.isConstant]

/-- The result of an exclusive or is a constant only if both operands are. -/
def XorR (a b r r' : Boolean) : Prop := r.Same r' ∧ (r.isConstant = true → a.isConstant = true ∧ b.isConstant = true)

theorem isConstant_neg (a : Boolean) : a.neg.isConstant = a.isConstant := by cases a <;> rfl

theorem shape_xor (ha : a.Same a') (hb : b.Same b') : SShape (F := F) (XorR a b) (xor a b) (xor a' b') := by
  rcases a with a | a | a <;> rcases a' with a' | a' | a' <;> simp only [Same] at ha <;>
    rcases b with b | b | b <;> rcases b' with b' | b' | b' <;> simp only [Same] at hb
  · exact SShape.bind (AllocatedBit.shape_xor ha hb) fun r r' h => SShape.pure ⟨h, by simp [isConstant]⟩
  · exact SShape.bind (AllocatedBit.shape_xor ha hb) fun r r' h => SShape.pure ⟨h, by simp [isConstant, neg]⟩
  · subst hb; cases b <;> exact SShape.pure ⟨ha, by simp [isConstant, neg]⟩
  · exact SShape.bind (AllocatedBit.shape_xor hb ha) fun r r' h => SShape.pure ⟨h, by simp [isConstant, neg]⟩
  · exact SShape.bind (AllocatedBit.shape_xor ha hb) fun r r' h => SShape.pure ⟨h, by simp [isConstant]⟩
  · subst hb; cases b <;> exact SShape.pure ⟨ha, by simp [isConstant, neg]⟩
  · subst ha; cases a <;> exact SShape.pure ⟨hb, by simp [isConstant, neg]⟩
  · subst ha; cases a <;> exact SShape.pure ⟨hb, by simp [isConstant, neg]⟩
  · subst ha hb; cases a <;> cases b <;> exact SShape.pure ⟨rfl, by simp [isConstant]⟩

theorem shape_and (ha : a.Same a') (hb : b.Same b') : SShape (F := F) Same (and a b) (and a' b') := by
  rcases a with a | a | a <;> rcases a' with a' | a' | a' <;> simp only [Same] at ha <;>
    rcases b with b | b | b <;> rcases b' with b' | b' | b' <;> simp only [Same] at hb
  · exact SShape.bind (AllocatedBit.shape_and ha hb) fun r r' h => SShape.pure h
  · exact SShape.bind (AllocatedBit.shape_andNot ha hb) fun r r' h => SShape.pure h
  · subst hb; cases b
    · exact SShape.pure rfl
    · exact SShape.pure ha
  · exact SShape.bind (AllocatedBit.shape_andNot hb ha) fun r r' h => SShape.pure h
  · exact SShape.bind (AllocatedBit.shape_nor ha hb) fun r r' h => SShape.pure h
  · subst hb; cases b
    · exact SShape.pure rfl
    · exact SShape.pure ha
  · subst ha; cases a
    · exact SShape.pure rfl
    · exact SShape.pure hb
  · subst ha; cases a
    · exact SShape.pure rfl
    · exact SShape.pure hb
  · subst ha hb; cases a <;> cases b <;> exact SShape.pure rfl

theorem shape_enforceEqual (ha : a.Same a') (hb : b.Same b') :
    SShape (F := F) (fun _ _ => True) (enforceEqual a b) (enforceEqual a' b') := by
  have s1 : SShape (F := F) (fun _ _ => True)
      (Synth.enforce "enforce equal" (fun lc => lc) (fun lc => lc) (fun _ => a.lc (1 : F) - b.lc (1 : F)))
      (Synth.enforce "enforce equal" (fun lc => lc) (fun lc => lc) (fun _ => a'.lc (1 : F) - b'.lc (1 : F))) :=
    SShape.enforce _ rfl rfl (by rw [ha.lc, hb.lc])
  have s2 : ∀ {x x' : Boolean}, x.Same x' → SShape (F := F) (fun _ _ => True)
      (Synth.enforce "enforce equal to zero" (fun lc => lc) (fun lc => lc) (fun _ => x.lc (1 : F)))
      (Synth.enforce "enforce equal to zero" (fun lc => lc) (fun lc => lc) (fun _ => x'.lc (1 : F))) :=
    fun h => SShape.enforce _ rfl rfl (h.lc 1)
  have s3 : ∀ {x x' : Boolean}, x.Same x' → SShape (F := F) (fun _ _ => True)
      (Synth.enforce "enforce equal to one" (fun lc => lc) (fun lc => lc) (fun lc => lc + Var.one - x.lc (1 : F)))
      (Synth.enforce "enforce equal to one" (fun lc => lc) (fun lc => lc) (fun lc => lc + Var.one - x'.lc (1 : F))) :=
    fun h => SShape.enforce _ rfl rfl (by rw [h.lc])
  have a2 := s2 ha
  have a3 := s3 ha
  have b2 := s2 hb
  have b3 := s3 hb
  clear s2 s3
  rcases a with a | a | (_ | _) <;> rcases a' with a' | a' | (_ | _) <;> simp only [Same, reduceCtorEq] at ha <;>
    rcases b with b | b | (_ | _) <;> rcases b' with b' | b' | (_ | _) <;> simp only [Same, reduceCtorEq] at hb <;>
    first
    | exact s1 | exact a2 | exact a3 | exact b2 | exact b3
    | exact SShape.pure trivial
    | exact SShape.throw

theorem shape_chAlloc (ha : a.Same a') (hb : b.Same b') (hc : c.Same c') :
    SShape (F := F) Same (chAlloc a b c) (chAlloc a' b' c') := by
  refine SShape.bind (SShape.alloc _) fun r₁ r₂ h => ?_
  refine SShape.bind (SShape.enforce _ ?_ ?_ ?_) fun _ _ _ => SShape.pure h <;>
    simp only [h, ha.lc (1 : F), hb.lc (1 : F), hc.lc (1 : F)]

theorem shape_majAlloc (ha : a.Same a') (hb : b.Same b') (hc : c.Same c') :
    SShape (F := F) Same (majAlloc a b c) (majAlloc a' b' c') := by
  refine SShape.bind (SShape.alloc _) fun r₁ r₂ h => ?_
  refine SShape.bind (SShape.inNs _ (shape_and hb hc)) fun r r' hr => ?_
  refine SShape.bind (SShape.enforce _ ?_ ?_ ?_) fun _ _ _ => SShape.pure h <;>
    simp only [h, ha.lc (1 : F), hb.lc (1 : F), hc.lc (1 : F), hr.lc (1 : F)]

omit [PrimeField F] in
private theorem pure_neg {m m' : Synth F Boolean} (h : SShape Same m m') :
    SShape Same (m >>= fun r => pure r.neg) (m' >>= fun r => pure r.neg) :=
  SShape.bind h fun _ _ h => SShape.pure h.neg

theorem shape_sha256Ch (ha : a.Same a') (hb : b.Same b') (hc : c.Same c') :
    SShape (F := F) Same (sha256Ch a b c) (sha256Ch a' b' c') := by
  have s1 := shape_chAlloc (F := F) ha hb hc
  have s2 := shape_and (F := F) ha.neg hc
  have s3 := shape_and (F := F) ha hb
  have s4 := pure_neg (shape_and (F := F) ha hb.neg)
  have s5 := pure_neg (shape_and (F := F) ha.neg hc.neg)
  rcases a with a | a | (_ | _) <;> rcases a' with a' | a' | (_ | _) <;> simp only [Same, reduceCtorEq] at ha <;>
    rcases b with b | b | (_ | _) <;> rcases b' with b' | b' | (_ | _) <;> simp only [Same, reduceCtorEq] at hb <;>
    rcases c with c | c | (_ | _) <;> rcases c' with c' | c' | (_ | _) <;> simp only [Same, reduceCtorEq] at hc <;>
    first
    | exact SShape.pure rfl
    | exact s1 | exact s2 | exact s3 | exact s4 | exact s5

theorem shape_sha256Maj (ha : a.Same a') (hb : b.Same b') (hc : c.Same c') :
    SShape (F := F) Same (sha256Maj a b c) (sha256Maj a' b' c') := by
  have s1 := shape_majAlloc (F := F) ha hb hc
  have s2 := shape_and (F := F) hb hc
  have s3 := shape_and (F := F) ha hc
  have s4 := shape_and (F := F) ha hb
  have s5 := pure_neg (shape_and (F := F) ha.neg hb.neg)
  have s6 := pure_neg (shape_and (F := F) ha.neg hc.neg)
  have s7 := pure_neg (shape_and (F := F) hb.neg hc.neg)
  rcases a with a | a | (_ | _) <;> rcases a' with a' | a' | (_ | _) <;> simp only [Same, reduceCtorEq] at ha <;>
    rcases b with b | b | (_ | _) <;> rcases b' with b' | b' | (_ | _) <;> simp only [Same, reduceCtorEq] at hb <;>
    rcases c with c | c | (_ | _) <;> rcases c' with c' | c' | (_ | _) <;> simp only [Same, reduceCtorEq] at hc <;>
    first
    | exact SShape.pure rfl
    | exact s1 | exact s2 | exact s3 | exact s4 | exact s5 | exact s6 | exact s7

end Boolean

namespace AllocatedNum

omit [PrimeField F] in
theorem shape_alloc (v w : Except SynthesisError F) : SShape Same (alloc v) (alloc w) :=
  SShape.bind (SShape.alloc _) fun _ _ h => SShape.pure h

variable {a a' b b' : AllocatedNum F}

theorem shape_inputize (ha : a.Same a') : SShape (fun _ _ => True) a.inputize a'.inputize := by
  have ha : a.var = a'.var := ha
  refine SShape.bind (SShape.allocInput _) fun r₁ r₂ h => SShape.enforce _ ?_ ?_ ?_ <;> simp only [h, ha]

theorem shape_karyAndLoop {cur cur' : AllocatedBit} (hc : cur.Same cur') (i : ℕ) {vs vs' : List AllocatedBit}
    (h : List.Forall₂ AllocatedBit.Same vs vs') :
    SShape (F := F) AllocatedBit.Same (karyAndLoop cur i vs) (karyAndLoop cur' i vs') := by
  induction h generalizing cur cur' i with
  | nil => exact SShape.pure hc
  | cons hv _ ih => exact SShape.bind (SShape.inNs _ (AllocatedBit.shape_and hc hv)) fun _ _ h => ih h _

theorem shape_karyAnd {vs vs' : List AllocatedBit} (h : List.Forall₂ AllocatedBit.Same vs vs') :
    SShape (F := F) AllocatedBit.Same (karyAnd vs) (karyAnd vs') := by
  cases h with
  | nil => exact SShape.panic
  | cons hv h => exact shape_karyAndLoop hv 1 h

/-- Related loop states. -/
structure StrictSt.Same (s t : StrictSt) : Prop where
  result : List.Forall₂ AllocatedBit.Same s.result t.result
  lastRun : Option.Rel AllocatedBit.Same s.lastRun t.lastRun
  currentRun : List.Forall₂ AllocatedBit.Same s.currentRun t.currentRun
  foundOne : s.foundOne = t.foundOne
  i : s.i = t.i

private theorem snoc {α β : Type} {R : α → β → Prop} {l l' x x'} (h : List.Forall₂ R l l') (hx : R x x') :
    List.Forall₂ R (l ++ [x]) (l' ++ [x']) := List.rel_append h (.cons hx .nil)

private theorem zeroTail (v w : Option Bool) {s t : StrictSt} (h : s.Same t) :
    SShape (F := F) (fun s' t' => s'.Same t' ∧ s'.foundOne = s.foundOne)
      (match s.lastRun with
        | none => Synth.panic "char always starts with a one"
        | some l => do
          let x ← Synth.inNs s!"bit {s.i}" (AllocatedBit.allocConditionally v l)
          pure { s with result := s.result ++ [x], i := s.i + 1 })
      (match t.lastRun with
        | none => Synth.panic "char always starts with a one"
        | some l => do
          let x ← Synth.inNs s!"bit {t.i}" (AllocatedBit.allocConditionally w l)
          pure { t with result := t.result ++ [x], i := t.i + 1 }) := by
  obtain ⟨h1, h2, h3, h4, h5⟩ := h
  obtain ⟨sr, sl, sc, sf, si⟩ := s
  obtain ⟨tr, tl, tc, tf, ti⟩ := t
  simp only at h1 h2 h3 h4 h5
  subst h5
  cases h2 with
  | none => exact SShape.panic
  | some h2 =>
    exact SShape.bind (SShape.inNs _ (AllocatedBit.shape_allocConditionally v w h2)) fun x y hxy =>
      SShape.pure ⟨⟨snoc h1 hxy, .some h2, h3, h4, rfl⟩, rfl⟩

theorem shape_strictStep (v w : Option Bool) (b : Bool) {s t : StrictSt} (h : s.Same t) :
    SShape (F := F) (fun s' t' => s'.Same t' ∧ s'.foundOne = s.foundOne) (strictStep v b s) (strictStep w b t) := by
  cases b with
  | true =>
    obtain ⟨h1, h2, h3, h4, h5⟩ := h
    simp only [strictStep, if_true, h5]
    exact SShape.bind (SShape.inNs _ (AllocatedBit.shape_alloc v w)) fun x y hxy =>
      SShape.pure ⟨⟨snoc h1 hxy, h2, snoc h3 hxy, h4, rfl⟩, rfl⟩
  | false =>
    simp only [strictStep, Bool.false_eq_true, if_false]
    refine SShape.bind (R := fun s' t' => s'.Same t' ∧ s'.foundOne = s.foundOne) ?_ fun s' t' h =>
      (zeroTail v w h.1).mono fun _ _ h2 => ⟨h2.1, h2.2.trans h.2⟩
    have he : s.currentRun.isEmpty = t.currentRun.isEmpty := by
      have := h.currentRun
      revert this
      generalize s.currentRun = l
      generalize t.currentRun = l'
      intro this
      cases this <;> rfl
    rw [he]
    split
    · exact SShape.pure ⟨h, rfl⟩
    · obtain ⟨h1, h2, h3, h4, h5⟩ := h
      obtain ⟨sr, sl, sc, sf, si⟩ := s
      obtain ⟨tr, tl, tc, tf, ti⟩ := t
      simp only at h1 h2 h3 h4 h5
      subst h5
      refine SShape.bind (SShape.inNs _ (shape_karyAnd ?_)) fun x y hxy => SShape.pure ⟨⟨h1, .some hxy, .nil, h4, rfl⟩, rfl⟩
      cases h2 with
      | none => exact h3
      | some h2 => exact snoc h3 h2

/-- No bit of the value before the first one bit of the characteristic is set. -/
def LeadOK : Bool → List (Option Bool × Bool) → Prop
  | _, [] => True
  | found, (a, b) :: rest => ((found || b) = true ∨ a ≠ some true) ∧ LeadOK (found || b) rest

theorem leadOK_true (l : List (Option Bool × Bool)) : LeadOK true l := by
  induction l with
  | nil => trivial
  | cons x l ih => exact ⟨.inl rfl, ih⟩

theorem leadOK_range (f : ℕ → Option Bool) (g : ℕ → Bool) (m n : ℕ) (hm : 0 < m) (hmn : m ≤ n) (h1 : g (m - 1) = true)
    (h0 : ∀ i, m ≤ i → f i ≠ some true) (fo : Bool) :
    LeadOK fo (((List.range n).map f).reverse.zip ((List.range n).map g).reverse) := by
  induction n generalizing fo with
  | zero => trivial
  | succ n ih =>
    simp only [List.range_succ, List.map_append, List.map_cons, List.map_nil, List.reverse_append, List.reverse_cons,
      List.reverse_nil, List.nil_append, List.singleton_append, List.zip_cons_cons]
    rcases Nat.lt_or_ge n m with h | h
    · have : n = m - 1 := by omega
      rw [← this] at h1
      rw [LeadOK, h1, Bool.or_true]
      exact ⟨.inl rfl, leadOK_true _⟩
    · exact ⟨.inr (h0 n h), ih h _⟩

theorem shape_strictLoop {l l' : List (Option Bool × Bool)} (hl : List.Forall₂ (fun x y => x.2 = y.2) l l')
    {s t : StrictSt} (h : s.Same t) (h1 : LeadOK s.foundOne l) (h2 : LeadOK t.foundOne l') :
    SShape (F := F) (fun s t => s.Same t) (strictLoop l s) (strictLoop l' t) := by
  induction hl generalizing s t with
  | nil => exact SShape.pure h
  | @cons x y l l' hxy _ ih =>
    obtain ⟨v, b⟩ := x
    obtain ⟨w, b'⟩ := y
    simp only at hxy
    subst hxy
    have hf := h.foundOne
    simp only [strictLoop]
    rw [← hf]
    cases hfo : (s.foundOne || b)
    · simp only [LeadOK, ← hf, hfo] at h1 h2
      simp only [Bool.false_eq_true, false_or] at h1 h2
      simp only [Bool.false_eq_true, if_false, h1.1, h2.1]
      exact ih ⟨h.result, h.lastRun, h.currentRun, rfl, h.i⟩ h1.2 h2.2
    · simp only [if_true]
      refine SShape.bind (shape_strictStep v w b ⟨h.result, h.lastRun, h.currentRun, rfl, h.i⟩) fun s t hst => ?_
      have hs : s.foundOne = true := hst.2
      refine ih hst.1 ?_ ?_
      · rw [hs]; exact leadOK_true _
      · rw [← hst.1.foundOne, hs]; exact leadOK_true _

theorem packLoop_same {bs bs' : List AllocatedBit} (h : List.Forall₂ AllocatedBit.Same bs bs') (lc : LC F) (k : F) :
    packLoop lc k bs = packLoop lc k bs' := by
  induction h generalizing lc k with
  | nil => rfl
  | @cons x y _ _ hxy _ ih =>
    have hxy : x.var = y.var := hxy
    simp only [packLoop, hxy, ih]

theorem leadOK_value (v : Option F) (fo : Bool) : LeadOK fo ((strictABits v).zip (toLeBits (-1 : F)).reverse) := by
  rw [strict_pairs]
  refine leadOK_range _ _ (NUM_BITS F) _ (by have := capacity_lt (F := F); omega) NUM_BITS_le pm1_testBit_top ?_ fo
  intro i hi
  cases v with
  | none => simp
  | some v =>
    have : (val v).testBit i = false := Nat.testBit_lt_two_pow
      (lt_of_lt_of_le (lt_trans (val_lt v) p_lt_two_pow) (Nat.pow_le_pow_right (by norm_num) hi))
    simp [this]

theorem pairs_same (v w : Option F) : List.Forall₂ (fun x y : Option Bool × Bool => x.2 = y.2)
    ((strictABits v).zip (toLeBits (-1 : F)).reverse) ((strictABits w).zip (toLeBits (-1 : F)).reverse) := by
  have hl : ∀ v : Option F, (strictABits v).length = (toLeBits (-1 : F)).reverse.length := by
    intro v; cases v <;> simp [strictABits, toLeBits]
  have key : ∀ (l l' : List (Option Bool)) (m : List Bool), l.length = m.length → l'.length = m.length →
      List.Forall₂ (fun x y : Option Bool × Bool => x.2 = y.2) (l.zip m) (l'.zip m) := by
    intro l l' m
    induction m generalizing l l' with
    | nil => intro h1 h2; simp
    | cons x m ih =>
      intro h1 h2
      cases l with
      | nil => simp at h1
      | cons a l =>
        cases l' with
        | nil => simp at h2
        | cons b l' => exact .cons rfl (ih l l' (by simpa using h1) (by simpa using h2))
  exact key _ _ _ (hl v) (hl w)

theorem shape_toBitsLeStrict (ha : a.Same a') :
    SShape (List.Forall₂ Boolean.Same) a.toBitsLeStrict a'.toBitsLeStrict := by
  refine SShape.bind (shape_strictLoop (pairs_same a.value a'.value) ⟨.nil, .none, .nil, rfl, rfl⟩ (leadOK_value _ _)
    (leadOK_value _ _)) fun s t h => ?_
  rw [h.currentRun.length_eq]
  have ha : a.var = a'.var := ha
  have hr : List.Forall₂ AllocatedBit.Same s.result.reverse t.result.reverse := List.forall₂_reverse_iff.2 h.result
  split
  · refine SShape.bind (SShape.enforce _ rfl rfl ?_) fun _ _ _ => SShape.pure ?_
    · rw [packLoop_same hr, ha]
    · rw [← List.map_reverse, ← List.map_reverse]
      exact shape_map_is hr
  · exact SShape.panic

theorem shape_toBitsLe (ha : a.Same a') : SShape (List.Forall₂ Boolean.Same) a.toBitsLe a'.toBitsLe := by
  have ha : a.var = a'.var := ha
  refine SShape.bind (shape_fieldIntoAllocatedBitsLe _ _) fun xs ys h => ?_
  refine SShape.bind (SShape.enforce _ rfl rfl ?_) fun _ _ _ => SShape.pure (shape_map_is h)
  rw [packLoop_same h, ha]

theorem shape_mul (ha : a.Same a') (hb : b.Same b') : SShape Same (a.mul b) (a'.mul b') := by
  have ha : a.var = a'.var := ha
  have hb : b.var = b'.var := hb
  refine SShape.bind (SShape.alloc _) fun r₁ r₂ h => ?_
  refine SShape.bind (SShape.enforce _ ?_ ?_ ?_) fun _ _ _ => SShape.pure h <;> simp only [h, ha, hb]

theorem shape_square (ha : a.Same a') : SShape Same a.square a'.square := by
  have ha : a.var = a'.var := ha
  refine SShape.bind (SShape.alloc _) fun r₁ r₂ h => ?_
  refine SShape.bind (SShape.enforce _ ?_ ?_ ?_) fun _ _ _ => SShape.pure h <;> simp only [h, ha]

theorem shape_assertNonzero (ha : a.Same a') : SShape (fun _ _ => True) a.assertNonzero a'.assertNonzero := by
  have ha : a.var = a'.var := ha
  refine SShape.bind (SShape.alloc _) fun r₁ r₂ h => SShape.enforce _ ?_ ?_ ?_ <;> simp only [h, ha]

theorem shape_conditionallyReverse (ha : a.Same a') (hb : b.Same b') {c c' : Boolean} (hc : c.Same c') :
    SShape (fun r r' => r.1.Same r'.1 ∧ r.2.Same r'.2) (conditionallyReverse a b c) (conditionallyReverse a' b' c') := by
  have ha : a.var = a'.var := ha
  have hb : b.var = b'.var := hb
  refine SShape.bind (SShape.inNs _ (shape_alloc _ _)) fun r₁ r₂ (h : r₁.var = r₂.var) => ?_
  refine SShape.bind (SShape.enforce _ ?_ ?_ ?_) fun _ _ _ => ?_
  · simp only [ha, hb]
  · exact hc.lc (1 : F)
  · simp only [ha, h]
  refine SShape.bind (SShape.inNs _ (shape_alloc _ _)) fun s₁ s₂ (h' : s₁.var = s₂.var) => ?_
  refine SShape.bind (SShape.enforce _ ?_ ?_ ?_) fun _ _ _ => SShape.pure ⟨h, h'⟩
  · simp only [ha, hb]
  · exact hc.lc (1 : F)
  · simp only [hb, h']

end AllocatedNum

theorem Num.same_addBool {n n' : Num F} {b b' : Boolean} (hn : n.Same n') (hb : b.Same b') (k : F) :
    (n.addBoolWithCoeff b k).Same (n'.addBoolWithCoeff b' k) := by
  have hn : n.lcomb = n'.lcomb := hn
  show n.lcomb + b.lc k = n'.lcomb + b'.lc k
  rw [hn, hb.lc k]

theorem shape_lookup3xy {bits bits' : List Boolean} (h : List.Forall₂ Boolean.Same bits bits') (coords : List (F × F)) :
    SShape (fun r r' => r.1.Same r'.1 ∧ r.2.Same r'.2) (lookup3xy bits coords) (lookup3xy bits' coords) := by
  rcases h with _ | ⟨h0, _ | ⟨h1, _ | ⟨h2, _ | ⟨h3, h⟩⟩⟩⟩ <;> try exact SShape.panic
  unfold lookup3xy
  dsimp only
  split
  · refine SShape.bind (SShape.inNs _ (AllocatedNum.shape_alloc _ _)) fun r₁ r₂ h => ?_
    refine SShape.bind (SShape.inNs _ (AllocatedNum.shape_alloc _ _)) fun s₁ s₂ h' => ?_
    have e1 : r₁.var = r₂.var := h
    have e2 : s₁.var = s₂.var := h'
    split
    · refine SShape.bind (SShape.inNs _ (Boolean.shape_and h1 h2)) fun q q' hq => ?_
      refine SShape.bind (SShape.enforce _ ?_ ?_ ?_) fun _ _ _ => ?_
      · simp only [h1.lc, h2.lc, hq.lc]
      · simp only [h0.lc]
      · simp only [h1.lc, h2.lc, hq.lc, e1]
      refine SShape.bind (SShape.enforce _ ?_ ?_ ?_) fun _ _ _ => SShape.pure ⟨h, h'⟩
      · simp only [h1.lc, h2.lc, hq.lc]
      · simp only [h0.lc]
      · simp only [h1.lc, h2.lc, hq.lc, e2]
    · exact SShape.panic
  · exact SShape.panic

theorem shape_lookup3xyWithConditionalNegation {bits bits' : List Boolean} (h : List.Forall₂ Boolean.Same bits bits')
    (coords : List (F × F)) :
    SShape (fun r r' => r.1.Same r'.1 ∧ r.2.Same r'.2) (lookup3xyWithConditionalNegation bits coords)
      (lookup3xyWithConditionalNegation bits' coords) := by
  rcases h with _ | ⟨h0, _ | ⟨h1, _ | ⟨h2, _ | ⟨h3, h⟩⟩⟩⟩ <;> try exact SShape.panic
  unfold lookup3xyWithConditionalNegation
  dsimp only
  split
  · refine SShape.bind (SShape.inNs _ (AllocatedNum.shape_alloc _ _)) fun s₁ s₂ h' => ?_
    have e2 : s₁.var = s₂.var := h'
    split
    · refine SShape.bind (SShape.inNs _ (Boolean.shape_and h0 h1)) fun q q' hq => ?_
      refine SShape.bind (SShape.enforce _ ?_ ?_ ?_) fun _ _ _ => SShape.pure ⟨?_, ?_⟩
      · simp only [h0.lc, h1.lc, hq.lc]
      · simp only [h2.lc]
      · simp only [h0.lc, h1.lc, hq.lc, e2]
      · exact Num.same_addBool (Num.same_addBool (Num.same_addBool (Num.same_addBool rfl (Boolean.Same.refl _) _) h0 _) h1 _) hq _
      · show (LC.zero : LC F) + s₁.var = LC.zero + s₂.var
        rw [e2]
    · exact SShape.panic
  · exact SShape.panic

theorem packNum_same {bs bs' : List Boolean} (h : List.Forall₂ Boolean.Same bs bs') {n n' : Num F} (hn : n.Same n') (k : F) :
    (packNum n k bs).Same (packNum n' k bs') := by
  induction h generalizing n n' k with
  | nil => exact hn
  | cons hb _ ih => exact ih (Num.same_addBool hn hb k) _

theorem shape_packChunks {cs cs' : List (List Boolean)} (h : List.Forall₂ (List.Forall₂ Boolean.Same) cs cs') (i : ℕ) :
    SShape (F := F) (fun _ _ => True) (packChunks i cs) (packChunks i cs') := by
  induction h generalizing i with
  | nil => exact SShape.pure trivial
  | @cons b b' _ _ hb _ ih =>
    have e : (packNum (Num.zero : Num F) 1 b).lcomb = (packNum (Num.zero : Num F) 1 b').lcomb := packNum_same hb rfl 1
    refine SShape.bind (SShape.allocInput _) fun r₁ r₂ h => ?_
    refine SShape.bind (SShape.enforce _ ?_ rfl ?_) fun _ _ _ => ih (i + 1)
    · show Num.lc _ _ = Num.lc _ _
      rw [Num.lc, Num.lc, e]
    · rw [h]

theorem forall₂_chunks? {α β : Type} {R : α → β → Prop} (n : ℕ) {l : List α} {l' : List β} (h : List.Forall₂ R l l') :
    Option.Rel (List.Forall₂ (List.Forall₂ R)) (chunks? n l) (chunks? n l') := by
  unfold chunks?
  split
  · exact .none
  · rw [h.length_eq]
    exact .some (chunksAux_forall₂ _ _ h)

theorem shape_packIntoInputs {bs bs' : List Boolean} (h : List.Forall₂ Boolean.Same bs bs') :
    SShape (F := F) (fun _ _ => True) (packIntoInputs bs) (packIntoInputs bs') := by
  have hc := forall₂_chunks? (CAPACITY F) h
  unfold packIntoInputs
  revert hc
  generalize chunks? (CAPACITY F) bs = o
  generalize chunks? (CAPACITY F) bs' = o'
  intro hc
  cases hc with
  | none => exact SShape.panic
  | some hc => exact shape_packChunks hc 0

end Bellman
