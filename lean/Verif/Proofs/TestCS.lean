import Verif.TestCS
import Verif.Proofs.Assignment

/-!
# What a run against `TestConstraintSystem` records, and what its queries answer
-/

namespace Bellman

/-! ## Paths -/

/-- The components separated by slashes (specification). -/
def pathChars : List String → List Char
  | [] => []
  | [a] => a.toList
  | a :: b :: l => a.toList ++ '/' :: pathChars (b :: l)

/-- The path of an object created under the namespaces and with the name given by the components (specification). -/
def pathStr (l : List String) : String := String.ofList (pathChars l)

/-- No slash in the name (specification). -/
def Clean (n : String) : Prop := '/' ∉ n.toList

theorem pathFold_toList (l : List String) (acc : String) :
    (l.foldl (fun (st : String × Bool) n => ((if st.2 then st.1 ++ "/" else st.1) ++ n, true)) (acc, true)).1.toList
      = acc.toList ++ l.flatMap fun n => '/' :: n.toList := by
  induction l generalizing acc with
  | nil => simp
  | cons n l ih =>
    simp only [List.foldl_cons, if_true, List.flatMap_cons]
    rw [ih]
    simp [String.toList_append]

theorem pathChars_cons (a : String) (l : List String) :
    pathChars (a :: l) = a.toList ++ l.flatMap fun n => '/' :: n.toList := by
  induction l generalizing a with
  | nil => simp [pathChars]
  | cons b l ih => rw [pathChars, ih b]; simp

theorem computePath_eq (ns : List String) (n : String) :
    computePath ns n = if '/' ∈ n.toList then none else some (pathStr (ns ++ [n])) := by
  unfold computePath
  have h : n.toList.any (· == '/') = true ↔ '/' ∈ n.toList := by simp
  by_cases hs : '/' ∈ n.toList
  · rw [if_pos hs, if_pos (h.2 hs)]
  · rw [if_neg hs, if_neg (fun hh => hs (h.1 hh))]
    congr 1
    apply String.ext
    unfold pathStr
    rw [String.toList_ofList]
    generalize hl : ns ++ [n] = l
    cases l with
    | nil => simp at hl
    | cons a l =>
      simp only [List.foldl_cons, Bool.false_eq_true, if_false]
      rw [pathFold_toList, pathChars_cons]
      simp

theorem computePath_some {ns : List String} {n p : String} (h : computePath ns n = some p) :
    Clean n ∧ p = pathStr (ns ++ [n]) := by
  rw [computePath_eq] at h
  split at h
  · cases h
  · rename_i hc; simp only [Option.some.injEq] at h; exact ⟨hc, h.symm⟩

theorem split_slash {a b x y : List Char} (ha : '/' ∉ a) (hb : '/' ∉ b) (hx : x = [] ∨ ∃ x', x = '/' :: x')
    (hy : y = [] ∨ ∃ y', y = '/' :: y') (h : a ++ x = b ++ y) : a = b ∧ x = y := by
  induction a generalizing b with
  | nil =>
    cases b with
    | nil => exact ⟨rfl, h⟩
    | cons c b =>
      rcases hx with rfl | ⟨x', rfl⟩
      · simp at h
      · simp only [List.nil_append, List.cons_append, List.cons.injEq] at h
        exact absurd (by rw [h.1]; exact List.mem_cons_self) hb
  | cons c a ih =>
    cases b with
    | nil =>
      rcases hy with rfl | ⟨y', rfl⟩
      · simp at h
      · simp only [List.nil_append, List.cons_append, List.cons.injEq] at h
        exact absurd (by rw [h.1]; exact List.mem_cons_self) ha
    | cons d b =>
      simp only [List.cons_append, List.cons.injEq] at h
      obtain ⟨h1, h2⟩ := ih (fun hm => ha (List.mem_cons_of_mem _ hm)) (fun hm => hb (List.mem_cons_of_mem _ hm)) h.2
      exact ⟨by rw [h.1, h1], h2⟩

theorem flatMap_slash (l : List String) :
    (l.flatMap fun n => '/' :: n.toList) = [] ∨ ∃ x', (l.flatMap fun n => '/' :: n.toList) = '/' :: x' := by
  cases l with
  | nil => exact .inl rfl
  | cons a l => exact .inr ⟨_, rfl⟩

theorem flatMap_slash_inj {l l' : List String} (hl : ∀ n ∈ l, Clean n) (hl' : ∀ n ∈ l', Clean n)
    (h : (l.flatMap fun n => '/' :: n.toList) = l'.flatMap fun n => '/' :: n.toList) : l = l' := by
  induction l generalizing l' with
  | nil =>
    cases l' with
    | nil => rfl
    | cons b l' => simp at h
  | cons a l ih =>
    cases l' with
    | nil => simp at h
    | cons b l' =>
      simp only [List.flatMap_cons, List.cons_append, List.cons.injEq, true_and] at h
      obtain ⟨h1, h2⟩ := split_slash (hl a (by simp)) (hl' b (by simp)) (flatMap_slash l) (flatMap_slash l') h
      rw [String.toList_inj.1 h1, ih (fun n hn => hl n (by simp [hn])) (fun n hn => hl' n (by simp [hn])) h2]

/-- **Different components give different paths.** -/
theorem pathStr_inj {l l' : List String} (h0 : l ≠ []) (h0' : l' ≠ []) (hl : ∀ n ∈ l, Clean n) (hl' : ∀ n ∈ l', Clean n)
    (h : pathStr l = pathStr l') : l = l' := by
  have h := congrArg String.toList h
  unfold pathStr at h
  rw [String.toList_ofList, String.toList_ofList] at h
  cases l with
  | nil => exact absurd rfl h0
  | cons a l =>
    cases l' with
    | nil => exact absurd rfl h0'
    | cons b l' =>
      rw [pathChars_cons, pathChars_cons] at h
      obtain ⟨h1, h2⟩ := split_slash (hl a (by simp)) (hl' b (by simp)) (flatMap_slash l) (flatMap_slash l') h
      rw [String.toList_inj.1 h1,
        flatMap_slash_inj (fun n hn => hl n (by simp [hn])) (fun n hn => hl' n (by simp [hn])) h2]

/-! ## Objects created by a trace -/

section
variable {F : Type}

/-- The named objects created along a trace, with their full component lists; `ns` is the namespace stack and `k` the
number of constraints at the start (specification). -/
def objsOf : List String → ℕ → List (Ev F) → List (List String × NamedObject)
  | _, _, [] => []
  | ns, k, .alloc _ n x _ :: t => (ns ++ [n], .var x) :: objsOf ns k t
  | ns, k, .enforce n _ _ _ :: t => (ns ++ [n], .constraint k) :: objsOf ns (k + 1) t
  | ns, k, .push n :: t => (ns ++ [n], .namespace) :: objsOf (ns ++ [n]) k t
  | ns, k, .pop :: t => objsOf ns.dropLast k t

/-- The namespace stack after a trace (specification). -/
def nsAfter : List String → List (Ev F) → List String
  | ns, [] => ns
  | ns, .alloc _ _ _ _ :: t => nsAfter ns t
  | ns, .enforce _ _ _ _ :: t => nsAfter ns t
  | ns, .push n :: t => nsAfter (ns ++ [n]) t
  | ns, .pop :: t => nsAfter ns.dropLast t

/-- The names in the trace have no slashes (specification). -/
def CleanNames (t : List (Ev F)) : Prop := ∀ e ∈ t, match e with
  | .alloc _ n _ _ => Clean n
  | .enforce n _ _ _ => Clean n
  | .push n => Clean n
  | .pop => True

theorem objsOf_clean {ns : List String} {k : ℕ} {t : List (Ev F)} (h : ∀ n ∈ ns, Clean n) (ht : CleanNames t) :
    ∀ e ∈ objsOf ns k t, e.1 ≠ [] ∧ ∀ n ∈ e.1, Clean n := by
  induction t generalizing ns k with
  | nil => simp [objsOf]
  | cons ev t ih =>
    have ht' : CleanNames t := fun e he => ht e (List.mem_cons_of_mem _ he)
    have h0 := ht ev List.mem_cons_self
    cases ev with
    | alloc i n x v =>
      intro e he
      rcases List.mem_cons.1 he with rfl | he
      · exact ⟨by simp, by simpa [or_imp, forall_and] using ⟨h, h0⟩⟩
      · exact ih h ht' e he
    | enforce n a b c =>
      intro e he
      rcases List.mem_cons.1 he with rfl | he
      · exact ⟨by simp, by simpa [or_imp, forall_and] using ⟨h, h0⟩⟩
      · exact ih h ht' e he
    | push n =>
      have h1 : ∀ m ∈ ns ++ [n], Clean m := by simpa [or_imp, forall_and] using ⟨h, h0⟩
      intro e he
      rcases List.mem_cons.1 he with rfl | he
      · exact ⟨by simp, h1⟩
      · exact ih h1 ht' e he
    | pop =>
      intro e he
      exact ih (fun m hm => h m (List.mem_of_mem_dropLast hm)) ht' e he

end

set_option linter.unusedSectionVars false

namespace TestCS

variable {F α : Type} [PrimeField F]

/-- The stored assignment (specification). -/
def rho (s : TestCS F) : Var → F := assign (s.inputs.map (·.1)) (s.aux.map (·.1))

/-- Invariant: names and indices correspond. -/
structure WF (s : TestCS F) : Prop where
  clean : ∀ n ∈ s.ns, Clean n
  nodup : (s.named.map (·.1)).Nodup
  inp : ∀ i p, s.named.lookup p = some (.var (.input i)) ↔ ∃ v, s.inputs[i]? = some (v, p)
  aux : ∀ i p, s.named.lookup p = some (.var (.aux i)) ↔ ∃ v, s.aux[i]? = some (v, p)
  con : ∀ i p, s.named.lookup p = some (.constraint i) ↔ ∃ a b c, s.constraints[i]? = some (a, b, c, p)

theorem WF_new : (new : TestCS F).WF where
  clean := by simp [new]
  nodup := by simp [new]
  inp := by
    intro i p
    simp only [new, List.lookup_cons, List.lookup_nil]
    rcases i with _ | i
    · by_cases h : p = "ONE"
      · subst h; simp [Var.one]
      · have h2 : (p == "ONE") = false := by simpa using h
        rw [h2]; simp [Ne.symm h]
    · by_cases h : p = "ONE"
      · subst h; simp [Var.one]
      · have h2 : (p == "ONE") = false := by simpa using h
        rw [h2]; simp
  aux := by
    intro i p
    simp only [new, List.lookup_cons, List.lookup_nil]
    cases h : (p == "ONE") <;> simp [Var.one]
  con := by
    intro i p
    simp only [new, List.lookup_cons, List.lookup_nil]
    cases h : (p == "ONE") <;> simp [Var.one]

theorem lookup_none_iff {l : List (String × NamedObject)} {p : String} : l.lookup p = none ↔ p ∉ l.map (·.1) := by
  induction l with
  | nil => simp
  | cons e l ih =>
    obtain ⟨q, o⟩ := e
    rw [List.lookup_cons]
    by_cases h : p = q
    · subst h; simp
    · have : (p == q) = false := by simpa using h
      rw [this]
      simp only [ih, List.map_cons, List.mem_cons, h, false_or]

theorem setNamedObj_some {s s' : TestCS F} {p : String} {o : NamedObject} (h : s.setNamedObj p o = some s') :
    s.named.lookup p = none ∧ s' = { s with named := (p, o) :: s.named } := by
  unfold setNamedObj at h
  split at h
  · cases h
  · rename_i hn; simp only [Option.some.injEq] at h; exact ⟨hn, h.symm⟩

theorem lookup_push (l : List (String × NamedObject)) (p q : String) (o o' : NamedObject) (h : l.lookup q = none) :
    ((q, o) :: l).lookup p = some o' ↔ (p = q ∧ o' = o) ∨ l.lookup p = some o' := by
  rw [List.lookup_cons]
  by_cases hp : p = q
  · subst hp
    simp only [BEq.rfl, true_and, h, Option.some.injEq]
    constructor
    · intro h; exact .inl h.symm
    · rintro (h | h)
      · exact h.symm
      · cases h
  · have : (p == q) = false := by simpa using hp
    rw [this]; simp [hp]

theorem getElem?_push {β : Type} (l : List β) (x : β) (i : ℕ) (y : β) :
    (l ++ [x])[i]? = some y ↔ (i = l.length ∧ y = x) ∨ l[i]? = some y := by
  rw [List.getElem?_append]
  split
  · rename_i h
    constructor
    · exact .inr
    · rintro (⟨rfl, _⟩ | h')
      · omega
      · exact h'
  · rename_i h
    rw [List.getElem?_eq_none (l := l) (by omega)]
    rcases Nat.lt_or_ge l.length i with h1 | h1
    · rw [List.getElem?_eq_none (by simp; omega)]; simp; omega
    · have : i = l.length := by omega
      subst this; simp [eq_comm]

/-- `s'` is `s` after recording the trace `t` (specification). -/
structure Recorded (s : TestCS F) (t : List (Ev F)) (s' : TestCS F) : Prop where
  numbered : Numbered s.inputs.length s.aux.length t
  wf : s'.WF
  clean : CleanNames t
  inputs : s'.inputs.map (·.1) = s.inputs.map (·.1) ++ inVals t
  aux : s'.aux.map (·.1) = s.aux.map (·.1) ++ auxVals t
  nIn : (inVals t).length = numIn t
  nAux : (auxVals t).length = numAux t
  constraints : (s'.constraints.map fun k => (k.1, k.2.1, k.2.2.1)) =
    (s.constraints.map fun k => (k.1, k.2.1, k.2.2.1)) ++ consOf t
  named : s'.named = ((objsOf s.ns s.constraints.length t).map fun e => (pathStr e.1, e.2)).reverse ++ s.named
  ns : s'.ns = nsAfter s.ns t

theorem allocInput_spec {s s' : TestCS F} {n : String} {f r} (hw : s.WF) (h : allocInput n f s = some (r, s')) :
    Clean n ∧ ((∃ e, f = .error e ∧ r = .error e ∧ s' = s) ∨
      ∃ v, f = .ok v ∧ r = .ok (.input s.inputs.length, some v) ∧ s'.WF ∧ s' = { s with
        inputs := s.inputs ++ [(v, pathStr (s.ns ++ [n]))]
        named := (pathStr (s.ns ++ [n]), .var (.input s.inputs.length)) :: s.named }) := by
  unfold allocInput at h
  simp only [Option.bind_eq_some_iff] at h
  obtain ⟨p, hp, h⟩ := h
  obtain ⟨hc, rfl⟩ := computePath_some hp
  refine ⟨hc, ?_⟩
  cases f with
  | error e =>
    simp only [Option.some.injEq, Prod.mk.injEq] at h
    exact .inl ⟨e, rfl, h.1.symm, h.2.symm⟩
  | ok v =>
    simp only [Option.map_eq_some_iff, Prod.mk.injEq] at h
    obtain ⟨s1, h1, rfl, rfl⟩ := h
    obtain ⟨hn, rfl⟩ := setNamedObj_some h1
    dsimp only at hn
    refine .inr ⟨v, rfl, rfl, ?_, rfl⟩
    obtain ⟨w1, w2, w3, w4, w5⟩ := hw
    refine ⟨w1, ?_, ?_, ?_, ?_⟩
    · exact List.nodup_cons.2 ⟨lookup_none_iff.1 hn, w2⟩
    · intro i q
      dsimp only
      rw [lookup_push _ _ _ _ _ hn, w3]
      simp only [getElem?_push, NamedObject.var.injEq, Var.input.injEq, Prod.mk.injEq]
      constructor
      · rintro (⟨rfl, rfl⟩ | ⟨w, h⟩)
        · exact ⟨v, .inl ⟨rfl, rfl, rfl⟩⟩
        · exact ⟨w, .inr h⟩
      · rintro ⟨w, (⟨rfl, rfl, rfl⟩ | h)⟩
        · exact .inl ⟨rfl, rfl⟩
        · exact .inr ⟨w, h⟩
    · intro i q
      dsimp only
      rw [lookup_push _ _ _ _ _ hn, w4]; simp
    · intro i q
      dsimp only
      rw [lookup_push _ _ _ _ _ hn, w5]; simp

theorem allocAux_spec {s s' : TestCS F} {n : String} {f r} (hw : s.WF) (h : allocAux n f s = some (r, s')) :
    Clean n ∧ ((∃ e, f = .error e ∧ r = .error e ∧ s' = s) ∨
      ∃ v, f = .ok v ∧ r = .ok (.aux s.aux.length, some v) ∧ s'.WF ∧ s' = { s with
        aux := s.aux ++ [(v, pathStr (s.ns ++ [n]))]
        named := (pathStr (s.ns ++ [n]), .var (.aux s.aux.length)) :: s.named }) := by
  unfold allocAux at h
  simp only [Option.bind_eq_some_iff] at h
  obtain ⟨p, hp, h⟩ := h
  obtain ⟨hc, rfl⟩ := computePath_some hp
  refine ⟨hc, ?_⟩
  cases f with
  | error e =>
    simp only [Option.some.injEq, Prod.mk.injEq] at h
    exact .inl ⟨e, rfl, h.1.symm, h.2.symm⟩
  | ok v =>
    simp only [Option.map_eq_some_iff, Prod.mk.injEq] at h
    obtain ⟨s1, h1, rfl, rfl⟩ := h
    obtain ⟨hn, rfl⟩ := setNamedObj_some h1
    dsimp only at hn
    refine .inr ⟨v, rfl, rfl, ?_, rfl⟩
    obtain ⟨w1, w2, w3, w4, w5⟩ := hw
    refine ⟨w1, ?_, ?_, ?_, ?_⟩
    · exact List.nodup_cons.2 ⟨lookup_none_iff.1 hn, w2⟩
    · intro i q
      dsimp only
      rw [lookup_push _ _ _ _ _ hn, w3]; simp
    · intro i q
      dsimp only
      rw [lookup_push _ _ _ _ _ hn, w4]
      simp only [getElem?_push, NamedObject.var.injEq, Var.aux.injEq, Prod.mk.injEq]
      constructor
      · rintro (⟨rfl, rfl⟩ | ⟨w, h⟩)
        · exact ⟨v, .inl ⟨rfl, rfl, rfl⟩⟩
        · exact ⟨w, .inr h⟩
      · rintro ⟨w, (⟨rfl, rfl, rfl⟩ | h)⟩
        · exact .inl ⟨rfl, rfl⟩
        · exact .inr ⟨w, h⟩
    · intro i q
      dsimp only
      rw [lookup_push _ _ _ _ _ hn, w5]; simp

theorem enforce_spec {s s' : TestCS F} {n : String} {a b c : LC F} (hw : s.WF) (h : enforce n a b c s = some s') :
    Clean n ∧ s'.WF ∧ s' = { s with
      constraints := s.constraints ++ [(a, b, c, pathStr (s.ns ++ [n]))]
      named := (pathStr (s.ns ++ [n]), .constraint s.constraints.length) :: s.named } := by
  unfold enforce at h
  simp only [Option.bind_eq_some_iff, Option.map_eq_some_iff] at h
  obtain ⟨p, hp, s1, h1, rfl⟩ := h
  obtain ⟨hc, rfl⟩ := computePath_some hp
  obtain ⟨hn, rfl⟩ := setNamedObj_some h1
  refine ⟨hc, ?_, rfl⟩
  obtain ⟨w1, w2, w3, w4, w5⟩ := hw
  refine ⟨w1, ?_, ?_, ?_, ?_⟩
  · exact List.nodup_cons.2 ⟨lookup_none_iff.1 hn, w2⟩
  · intro i q
    dsimp only
    rw [lookup_push _ _ _ _ _ hn, w3]; simp
  · intro i q
    dsimp only
    rw [lookup_push _ _ _ _ _ hn, w4]; simp
  · intro i q
    dsimp only
    rw [lookup_push _ _ _ _ _ hn, w5]
    simp only [getElem?_push, NamedObject.constraint.injEq, Prod.mk.injEq]
    constructor
    · rintro (⟨rfl, rfl⟩ | ⟨x, y, z, h⟩)
      · exact ⟨a, b, c, .inl ⟨rfl, rfl, rfl, rfl, rfl⟩⟩
      · exact ⟨x, y, z, .inr h⟩
    · rintro ⟨x, y, z, (⟨rfl, rfl, rfl, rfl, rfl⟩ | h)⟩
      · exact .inl ⟨rfl, rfl⟩
      · exact .inr ⟨x, y, z, h⟩

theorem pushNs_spec {s s' : TestCS F} {n : String} (hw : s.WF) (h : pushNs n s = some s') :
    Clean n ∧ s'.WF ∧ s' = { s with
      ns := s.ns ++ [n]
      named := (pathStr (s.ns ++ [n]), .namespace) :: s.named } := by
  unfold pushNs at h
  simp only [Option.bind_eq_some_iff, Option.map_eq_some_iff] at h
  obtain ⟨p, hp, s1, h1, rfl⟩ := h
  obtain ⟨hc, rfl⟩ := computePath_some hp
  obtain ⟨hn, rfl⟩ := setNamedObj_some h1
  refine ⟨hc, ?_, rfl⟩
  obtain ⟨w1, w2, w3, w4, w5⟩ := hw
  refine ⟨by simpa [or_imp, forall_and] using ⟨w1, hc⟩, ?_, ?_, ?_, ?_⟩
  · exact List.nodup_cons.2 ⟨lookup_none_iff.1 hn, w2⟩
  · intro i q
    dsimp only
    rw [lookup_push _ _ _ _ _ hn, w3]; simp
  · intro i q
    dsimp only
    rw [lookup_push _ _ _ _ _ hn, w4]; simp
  · intro i q
    dsimp only
    rw [lookup_push _ _ _ _ _ hn, w5]; simp

theorem popNs_spec {s s' : TestCS F} (hw : s.WF) (h : popNs s = some s') :
    s.ns ≠ [] ∧ s'.WF ∧ s' = { s with ns := s.ns.dropLast } := by
  unfold popNs at h
  split at h
  · cases h
  · rename_i x hx
    simp only [Option.some.injEq] at h
    subst h
    refine ⟨?_, ⟨fun n hn => hw.clean n (List.mem_of_mem_dropLast hn), hw.nodup, hw.inp, hw.aux, hw.con⟩, rfl⟩
    rintro h; rw [h] at hx; cases hx

/-- **The test constraint system records the calls made**: names, values and constraints. -/
theorem run_recorded (c : Circ F α) {s s' : TestCS F} {a : α} (hw : s.WF)
    (h : c.run impl s = some (a, s')) : ∃ t, Honest c t (some a) ∧ Recorded s t s' := by
  induction c generalizing s with
  | ret b =>
    simp only [Circ.run, Option.some.injEq, Prod.mk.injEq] at h
    obtain ⟨rfl, rfl⟩ := h
    exact ⟨[], .ret _, trivial, hw, by simp [CleanNames], by simp, by simp, rfl, rfl, by simp, by simp [objsOf],
      by simp [nsAfter]⟩
  | panic m => cases h
  | alloc i n f k ih =>
    simp only [Circ.run, Option.bind_eq_some_iff] at h
    obtain ⟨⟨r, s1⟩, h1, h⟩ := h
    cases i with
    | true =>
      obtain ⟨hc, ⟨e, rfl, rfl, rfl⟩ | ⟨v, rfl, rfl, hw1, rfl⟩⟩ := allocInput_spec hw h1
      · obtain ⟨t, he, hr⟩ := ih _ hw h
        exact ⟨t, .allocErr e rfl he, hr⟩
      · obtain ⟨t, he, hr⟩ := ih _ hw1 h
        obtain ⟨h1, h2, h3, h4, h5, h6, h7, h8, h9, h10⟩ := hr
        refine ⟨_ :: t, .allocRun _ v rfl he, ⟨rfl, by simpa using h1⟩, h2, ?_, ?_, ?_, ?_, ?_, h8, ?_, h10⟩
        · intro e he
          rcases List.mem_cons.1 he with rfl | he
          · exact hc
          · exact h3 e he
        · rw [h4]; simp
        · rw [h5]; simp
        · simp [h6]
        · simp [h7]
        · rw [h9]; simp [objsOf]
    | false =>
      obtain ⟨hc, ⟨e, rfl, rfl, rfl⟩ | ⟨v, rfl, rfl, hw1, rfl⟩⟩ := allocAux_spec hw h1
      · obtain ⟨t, he, hr⟩ := ih _ hw h
        exact ⟨t, .allocErr e rfl he, hr⟩
      · obtain ⟨t, he, hr⟩ := ih _ hw1 h
        obtain ⟨h1, h2, h3, h4, h5, h6, h7, h8, h9, h10⟩ := hr
        refine ⟨_ :: t, .allocRun _ v rfl he, ⟨rfl, by simpa using h1⟩, h2, ?_, ?_, ?_, ?_, ?_, h8, ?_, h10⟩
        · intro e he
          rcases List.mem_cons.1 he with rfl | he
          · exact hc
          · exact h3 e he
        · rw [h4]; simp
        · rw [h5]; simp
        · simp [h6]
        · simp [h7]
        · rw [h9]; simp [objsOf]
  | enforce n a b c k ih =>
    simp only [Circ.run, Option.bind_eq_some_iff] at h
    obtain ⟨s1, h1, h⟩ := h
    obtain ⟨hc, hw1, rfl⟩ := enforce_spec hw h1
    obtain ⟨t, he, hr⟩ := ih hw1 h
    obtain ⟨h1, h2, h3, h4, h5, h6, h7, h8, h9, h10⟩ := hr
    refine ⟨_ :: t, .enforce he, h1, h2, ?_, h4, h5, by simpa using h6, by simpa using h7, ?_, ?_, h10⟩
    · intro e he
      rcases List.mem_cons.1 he with rfl | he
      · exact hc
      · exact h3 e he
    · rw [h8]; simp
    · rw [h9]; simp [objsOf]
  | push n k ih =>
    simp only [Circ.run, Option.bind_eq_some_iff] at h
    obtain ⟨s1, h1, h⟩ := h
    obtain ⟨hc, hw1, rfl⟩ := pushNs_spec hw h1
    obtain ⟨t, he, hr⟩ := ih hw1 h
    obtain ⟨h1, h2, h3, h4, h5, h6, h7, h8, h9, h10⟩ := hr
    refine ⟨_ :: t, .push he, h1, h2, ?_, h4, h5, by simpa using h6, by simpa using h7, h8, ?_, h10⟩
    · intro e he
      rcases List.mem_cons.1 he with rfl | he
      · exact hc
      · exact h3 e he
    · rw [h9]; simp [objsOf]
  | pop k ih =>
    simp only [Circ.run, Option.bind_eq_some_iff] at h
    obtain ⟨s1, h1, h⟩ := h
    obtain ⟨hc, hw1, rfl⟩ := popNs_spec hw h1
    obtain ⟨t, he, hr⟩ := ih hw1 h
    obtain ⟨h1, h2, h3, h4, h5, h6, h7, h8, h9, h10⟩ := hr
    refine ⟨_ :: t, .pop he, h1, h2, ?_, h4, h5, by simpa using h6, by simpa using h7, h8, ?_, h10⟩
    · intro e he
      rcases List.mem_cons.1 he with rfl | he
      · exact trivial
      · exact h3 e he
    · rw [h9]; simp [objsOf]

/-- All objects created by one run have different namespace/name components. -/
theorem Recorded.nodup_objs {s s' : TestCS F} {t : List (Ev F)} (h : Recorded s t s') :
    ((objsOf s.ns s.constraints.length t).map (·.1)).Nodup := by
  have h1 := h.wf.nodup
  rw [h.named, List.map_append, List.nodup_append] at h1
  have h2 := h1.1
  rw [List.map_reverse, List.nodup_reverse, List.map_map] at h2
  have h3 : (((objsOf s.ns s.constraints.length t).map (·.1)).map pathStr).Nodup := by
    rw [List.map_map]; exact h2
  exact List.Nodup.of_map _ h3

/-! ## Queries -/

theorem rho_input (s : TestCS F) {i : ℕ} {x : F × String} (h : s.inputs[i]? = some x) : s.rho (.input i) = x.1 := by
  simp [rho, assign, h]

theorem rho_aux (s : TestCS F) {i : ℕ} {x : F × String} (h : s.aux[i]? = some x) : s.rho (.aux i) = x.1 := by
  simp [rho, assign, h]

/-- The constraint mentions only allocated variables (specification). -/
def _root_.Bellman.LC.InRange (n m : ℕ) (l : LC F) : Prop := ∀ x ∈ l.terms, x.1.InRange n m

theorem evalLc_eq (s : TestCS F) (ts : List (Var × F)) (acc : F) :
    (LC.InRange s.inputs.length s.aux.length ⟨ts⟩ → evalLc s.inputs s.aux ts acc = some (acc + LC.eval s.rho ⟨ts⟩)) ∧
    (¬ LC.InRange s.inputs.length s.aux.length ⟨ts⟩ → evalLc s.inputs s.aux ts acc = none) := by
  induction ts generalizing acc with
  | nil => exact ⟨fun _ => by simp [evalLc, LC.eval], fun h => absurd (by simp [LC.InRange]) h⟩
  | cons t ts ih =>
    obtain ⟨v, c⟩ := t
    have hcons : LC.InRange s.inputs.length s.aux.length ⟨(v, c) :: ts⟩ ↔
        v.InRange s.inputs.length s.aux.length ∧ LC.InRange s.inputs.length s.aux.length ⟨ts⟩ := by
      simp [LC.InRange]
    rw [hcons]
    by_cases hv : v.InRange s.inputs.length s.aux.length
    · have : ∃ x, (match v with | .input i => s.inputs[i]? | .aux i => s.aux[i]?) = some x ∧ s.rho v = x.1 := by
        cases v with
        | input i => exact ⟨_, List.getElem?_eq_getElem hv, rho_input s (List.getElem?_eq_getElem hv)⟩
        | aux i => exact ⟨_, List.getElem?_eq_getElem hv, rho_aux s (List.getElem?_eq_getElem hv)⟩
      obtain ⟨x, hx, hr⟩ := this
      have e : evalLc s.inputs s.aux ((v, c) :: ts) acc = evalLc s.inputs s.aux ts (acc + x.1 * c) := by
        cases v <;> rw [evalLc] <;> dsimp only at hx <;> rw [hx] <;> rfl
      rw [e]
      refine ⟨fun h => ?_, fun h => (ih _).2 fun h' => h ⟨hv, h'⟩⟩
      rw [(ih _).1 h.2]
      simp only [LC.eval, List.map_cons, List.sum_cons, hr]
      congr 1; ring
    · refine ⟨fun h => absurd h.1 hv, fun _ => ?_⟩
      cases v with
      | input i => rw [evalLc, List.getElem?_eq_none (by simpa [Var.InRange] using hv)]; rfl
      | aux i => rw [evalLc, List.getElem?_eq_none (by simpa [Var.InRange] using hv)]; rfl

/-- The constraint can be evaluated: it mentions only allocated variables (specification). -/
def Evaluable (s : TestCS F) (k : LC F × LC F × LC F × String) : Prop :=
  k.1.InRange s.inputs.length s.aux.length ∧ k.2.1.InRange s.inputs.length s.aux.length ∧
    k.2.2.1.InRange s.inputs.length s.aux.length

/-- The constraint holds under the stored assignment (specification). -/
def Holds (s : TestCS F) (k : LC F × LC F × LC F × String) : Prop :=
  k.1.eval s.rho * k.2.1.eval s.rho = k.2.2.1.eval s.rho

theorem whichLoop_cons (s : TestCS F) (k : LC F × LC F × LC F × String) (ks) :
    (s.Evaluable k → s.Holds k → s.whichLoop (k :: ks) = s.whichLoop ks) ∧
    (s.Evaluable k → ¬ s.Holds k → s.whichLoop (k :: ks) = some (some k.2.2.2)) ∧
    (¬ s.Evaluable k → s.whichLoop (k :: ks) = none) := by
  obtain ⟨⟨a⟩, ⟨b⟩, ⟨c⟩, p⟩ := k
  unfold Evaluable Holds
  refine ⟨fun ⟨h1, h2, h3⟩ h => ?_, fun ⟨h1, h2, h3⟩ h => ?_, fun h => ?_⟩
  · rw [whichLoop, (evalLc_eq s a 0).1 h1, (evalLc_eq s b 0).1 h2, (evalLc_eq s c 0).1 h3]
    simp only [Option.bind_some, zero_add]
    rw [if_neg (by simpa using h)]
  · rw [whichLoop, (evalLc_eq s a 0).1 h1, (evalLc_eq s b 0).1 h2, (evalLc_eq s c 0).1 h3]
    simp only [Option.bind_some, zero_add]
    rw [if_pos (by simpa using h)]
  · rw [whichLoop]
    by_cases h1 : LC.InRange s.inputs.length s.aux.length ⟨a⟩
    · rw [(evalLc_eq s a 0).1 h1]
      by_cases h2 : LC.InRange s.inputs.length s.aux.length ⟨b⟩
      · rw [(evalLc_eq s b 0).1 h2, (evalLc_eq s c 0).2 fun h3 => h ⟨h1, h2, h3⟩]; rfl
      · rw [(evalLc_eq s b 0).2 h2]; rfl
    · rw [(evalLc_eq s a 0).2 h1]; rfl

theorem whichLoop_none (s : TestCS F) (ks) :
    s.whichLoop ks = some none ↔ ∀ k ∈ ks, s.Evaluable k ∧ s.Holds k := by
  induction ks with
  | nil => simp [whichLoop]
  | cons k ks ih =>
    obtain ⟨h1, h2, h3⟩ := whichLoop_cons s k ks
    by_cases he : s.Evaluable k
    · by_cases hh : s.Holds k
      · rw [h1 he hh, ih]; simp [he, hh]
      · rw [h2 he hh]; simp [hh]
    · rw [h3 he]; simp [he]

theorem whichLoop_some (s : TestCS F) (ks) (p : String) :
    s.whichLoop ks = some (some p) ↔ ∃ pre k post, ks = pre ++ k :: post ∧ (∀ k' ∈ pre, s.Evaluable k' ∧ s.Holds k') ∧
      s.Evaluable k ∧ ¬ s.Holds k ∧ p = k.2.2.2 := by
  induction ks with
  | nil => simp [whichLoop]
  | cons k ks ih =>
    obtain ⟨h1, h2, h3⟩ := whichLoop_cons s k ks
    by_cases he : s.Evaluable k
    · by_cases hh : s.Holds k
      · rw [h1 he hh, ih]
        constructor
        · rintro ⟨pre, k', post, rfl, h4, h5⟩
          refine ⟨k :: pre, k', post, rfl, ?_, h5⟩
          intro k'' hk
          rcases List.mem_cons.1 hk with rfl | hk
          · exact ⟨he, hh⟩
          · exact h4 _ hk
        · rintro ⟨pre, k', post, e, h4, h5, h6, h7⟩
          cases pre with
          | nil => simp only [List.nil_append, List.cons.injEq] at e; exact absurd (e.1 ▸ hh) h6
          | cons q pre =>
            simp only [List.cons_append, List.cons.injEq] at e
            exact ⟨pre, k', post, e.2, fun x hx => h4 x (List.mem_cons_of_mem _ hx), h5, h6, h7⟩
      · rw [h2 he hh]
        simp only [Option.some.injEq]
        constructor
        · rintro rfl; exact ⟨[], k, ks, rfl, by simp, he, hh, rfl⟩
        · rintro ⟨pre, k', post, e, h4, h5, h6, h7⟩
          cases pre with
          | nil => simp only [List.nil_append, List.cons.injEq] at e; rw [h7, e.1]
          | cons q pre =>
            simp only [List.cons_append, List.cons.injEq] at e
            exact absurd (e.1 ▸ (h4 q List.mem_cons_self).2) hh
    · rw [h3 he]
      simp only [reduceCtorEq, false_iff]
      rintro ⟨pre, k', post, e, h4, h5, h6, h7⟩
      cases pre with
      | nil => simp only [List.nil_append, List.cons.injEq] at e; exact he (e.1 ▸ h5)
      | cons q pre =>
        simp only [List.cons_append, List.cons.injEq] at e
        exact he (e.1 ▸ (h4 q List.mem_cons_self).1)

theorem assign_set_input (l l' : List F) (i : ℕ) (x : F) (hi : i < l.length) :
    assign (l.set i x) l' = Function.update (assign l l') (.input i) x := by
  funext v
  cases v with
  | input j =>
    simp only [assign, List.getD_eq_getElem?_getD, List.getElem?_set, Function.update_apply, Var.input.injEq]
    by_cases h : i = j
    · subst h; simp [hi]
    · have h' : ¬ j = i := fun e => h e.symm
      simp [h, h']
  | aux j => simp [assign]

theorem assign_set_aux (l l' : List F) (i : ℕ) (x : F) (hi : i < l'.length) :
    assign l (l'.set i x) = Function.update (assign l l') (.aux i) x := by
  funext v
  cases v with
  | aux j =>
    simp only [assign, List.getD_eq_getElem?_getD, List.getElem?_set, Function.update_apply, Var.aux.injEq]
    by_cases h : i = j
    · subst h; simp [hi]
    · have h' : ¬ j = i := fun e => h e.symm
      simp [h, h']
  | input j => simp [assign]

theorem getElem?_set_fst (l : List (F × String)) (i j : ℕ) (x v : F) (q p : String) (h : l[i]? = some (v, q)) :
    (∃ w, (l.set i (x, q))[j]? = some (w, p)) ↔ ∃ w, l[j]? = some (w, p) := by
  have hi : i < l.length := by
    by_contra hc
    rw [List.getElem?_eq_none (by omega)] at h; cases h
  rw [List.getElem?_set]
  by_cases hij : i = j
  · subst hij
    rw [if_pos rfl, if_pos hi, h]
    simp
  · rw [if_neg hij]

/-- **`set` updates exactly the variable at the path.** -/
theorem set_spec {s : TestCS F} (hw : s.WF) (p : String) (x : F) :
    (∀ v, s.named.lookup p = some (.var v) → ∃ s', s.set p x = some s' ∧ s'.WF ∧ s'.rho = Function.update s.rho v x ∧
      s'.constraints = s.constraints ∧ s'.named = s.named ∧ s'.ns = s.ns ∧ s'.inputs.length = s.inputs.length ∧
      s'.aux.length = s.aux.length) ∧
    ((∀ v, s.named.lookup p ≠ some (.var v)) → s.set p x = none) := by
  refine ⟨fun v hv => ?_, fun h => ?_⟩
  · cases v with
    | input i =>
      obtain ⟨w, hi⟩ := (hw.inp i p).1 hv
      have hlt : i < s.inputs.length := by
        by_contra hc
        rw [List.getElem?_eq_none (by omega)] at hi; cases hi
      refine ⟨{ s with inputs := s.inputs.set i (x, p) }, by simp [set, hv, setVal, hi], ?_, ?_, rfl, rfl, rfl,
        by simp, rfl⟩
      · exact ⟨hw.clean, hw.nodup, fun j q => (hw.inp j q).trans (getElem?_set_fst _ i j x w p q hi).symm, hw.aux, hw.con⟩
      · unfold rho
        dsimp only
        rw [List.map_set, assign_set_input _ _ _ _ (by simpa using hlt)]
    | aux i =>
      obtain ⟨w, hi⟩ := (hw.aux i p).1 hv
      have hlt : i < s.aux.length := by
        by_contra hc
        rw [List.getElem?_eq_none (by omega)] at hi; cases hi
      refine ⟨{ s with aux := s.aux.set i (x, p) }, by simp [set, hv, setVal, hi], ?_, ?_, rfl, rfl, rfl,
        rfl, by simp⟩
      · exact ⟨hw.clean, hw.nodup, hw.inp, fun j q => (hw.aux j q).trans (getElem?_set_fst _ i j x w p q hi).symm, hw.con⟩
      · unfold rho
        dsimp only
        rw [List.map_set, assign_set_aux _ _ _ _ (by simpa using hlt)]
  · unfold set
    split
    · rename_i i hi; exact absurd hi (h _)
    · rename_i i hi; exact absurd hi (h _)
    · rfl
    · rfl

theorem get_spec {s : TestCS F} (hw : s.WF) (p : String) :
    (∀ v, s.named.lookup p = some (.var v) → s.get p = some (s.rho v)) ∧
    ((∀ v, s.named.lookup p ≠ some (.var v)) → s.get p = none) := by
  refine ⟨fun v hv => ?_, fun h => ?_⟩
  · cases v with
    | input i =>
      obtain ⟨w, hi⟩ := (hw.inp i p).1 hv
      simp [get, hv, hi, rho_input s hi]
    | aux i =>
      obtain ⟨w, hi⟩ := (hw.aux i p).1 hv
      simp [get, hv, hi, rho_aux s hi]
  · unfold get
    split
    · rename_i i hi; exact absurd hi (h _)
    · rename_i i hi; exact absurd hi (h _)
    · rfl
    · rfl

theorem all_zip_eq (l : List (F × String)) (xs : List F) (h : l.length = xs.length) :
    ((l.zip xs).all fun ab => decide (ab.1.1 = ab.2)) = true ↔ l.map (·.1) = xs := by
  induction l generalizing xs with
  | nil => cases xs <;> simp_all
  | cons a l ih =>
    cases xs with
    | nil => simp at h
    | cons x xs =>
      simp only [List.zip_cons_cons, List.all_cons, Bool.and_eq_true, decide_eq_true_eq, List.map_cons, List.cons.injEq]
      rw [ih xs (by simpa using h)]

theorem verify_spec (s : TestCS F) (xs : List F) :
    (s.verify xs = none ↔ xs.length + 1 ≠ s.inputs.length) ∧
    (s.verify xs = some true ↔ ∃ one, s.inputs.map (·.1) = one :: xs) := by
  unfold verify
  by_cases h : xs.length + 1 = s.inputs.length
  · rw [if_pos h]
    refine ⟨by simp [h], ?_⟩
    rw [Option.some.injEq, all_zip_eq _ _ (by simp; omega)]
    cases hi : s.inputs with
    | nil => rw [hi] at h; simp at h
    | cons a l => simp
  · rw [if_neg h]
    refine ⟨by simp [h], ?_⟩
    simp only [reduceCtorEq, false_iff]
    rintro ⟨one, h1⟩
    have := congrArg List.length h1
    simp at this
    omega

end TestCS

end Bellman
