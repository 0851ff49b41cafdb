import Verif.PrettyPrint
import Verif.Proofs.ProcLc

/-!
# Reading back what `pretty_print` printed
-/

set_option linter.unusedSectionVars false

namespace Bellman

open List

/-! ## Splitting strings -/

theorem split_at_char {x : Char} {a a' r r' : List Char} (ha : x ∉ a) (ha' : x ∉ a') (h : a ++ x :: r = a' ++ x :: r') :
    a = a' ∧ r = r' := by
  induction a generalizing a' with
  | nil =>
    cases a' with
    | nil => exact ⟨rfl, by simpa using h⟩
    | cons y a' => simp at h; simp [h.1] at ha'
  | cons z a ih =>
    cases a' with
    | nil => simp at h; simp [h.1] at ha
    | cons y a' =>
      simp only [cons_append, cons.injEq] at h
      simp only [mem_cons, not_or] at ha ha'
      obtain ⟨h1, h2⟩ := ih ha.2 ha'.2 h.2
      exact ⟨by rw [h.1, h1], h2⟩

theorem last_token {A A' d d' : List Char} (hA : A = [] ∨ ∃ B, A = B ++ [' ']) (hA' : A' = [] ∨ ∃ B, A' = B ++ [' '])
    (hd : ' ' ∉ d) (hd' : ' ' ∉ d') (h : A ++ d = A' ++ d') : d = d' := by
  rcases hA with rfl | ⟨B, rfl⟩ <;> rcases hA' with rfl | ⟨B', rfl⟩
  · simpa using h
  · exfalso; apply hd
    rw [nil_append] at h; rw [h]; simp
  · exfalso; apply hd'
    rw [nil_append] at h; rw [← h]; simp
  · have := congrArg List.reverse h
    simp only [reverse_append, reverse_cons, nil_append, cons_append, append_assoc] at this
    have := (split_at_char (by simpa using hd) (by simpa using hd') this).1
    simpa using this

variable {F : Type} [PrimeField F]

/-- What the printed form of a field element must not contain for the printout to be readable (specification). -/
def CleanDebug (dbg : F → List Char) : Prop :=
  Function.Injective dbg ∧ ∀ c, ' ' ∉ dbg c ∧ '`' ∉ dbg c ∧ '\n' ∉ dbg c

theorem noTick_nat (i : ℕ) : '`' ∉ (toString i).toList := by
  intro h
  have : '`' ∈ Nat.toDigits 10 i := by
    simpa [toString, Nat.repr] using h
  have := Nat.isDigit_of_mem_toDigits (by decide) (by decide) this
  revert this; decide

theorem ppPower_form (c : F) : ppPower c = [] ∨ ∃ B, ppPower c = '2' :: (B ++ [' ']) := by
  unfold ppPower
  split
  · rename_i i _
    right
    exact ⟨'^' :: (toString i).toList ++ [' ', '.'], by simp⟩
  · exact .inl rfl

theorem ppPower_noTick (c : F) : '`' ∉ ppPower c := by
  unfold ppPower
  split
  · rename_i i _
    have := noTick_nat i
    simp only [mem_append, not_or]
    exact ⟨⟨by decide, this⟩, by decide⟩
  · simp

variable {dbg : F → List Char}

theorem ppCoeff_noTick (hd : CleanDebug dbg) (f : Bool) (c : F) : '`' ∉ ppCoeff dbg f c := by
  unfold ppCoeff
  have h1 := ppPower_noTick c
  have h2 := (hd.2 c).2.1
  simp only [mem_append, not_or]
  constructor
  · split_ifs <;> decide
  · split_ifs
    · simp only [mem_append, not_or]
      exact ⟨⟨h1, h2⟩, by decide⟩
    · simp

theorem one_ne_neg_one : (1 : F) ≠ -1 := by
  intro h
  have : (2 : F) = 0 := by
    have := congrArg (1 + ·) h
    simpa [one_add_one_eq_two] using this
  exact PrimeField.two_ne_zero' this

theorem ppCoeff_neg (f : Bool) : ppCoeff dbg f (-1 : F) = [' ', '-', ' '] := by simp [ppCoeff]

theorem ppCoeff_one (f : Bool) : ppCoeff dbg f (1 : F) = if f then [] else [' ', '+', ' '] := by
  cases f <;> simp [ppCoeff, one_ne_neg_one]

theorem ppCoeff_other (f : Bool) {c : F} (h1 : c ≠ 1) (h2 : c ≠ -1) :
    ppCoeff dbg f c = (if f then [] else [' ', '+', ' ']) ++ (ppPower c ++ dbg c ++ [' ', '.', ' ']) := by
  cases f <;> simp [ppCoeff, h1, h2]

theorem ppCoeff_inj (hd : CleanDebug dbg) (f : Bool) {c c' : F} (h : ppCoeff dbg f c = ppCoeff dbg f c') : c = c' := by
  have key : ∀ c : F, c ≠ 1 → c ≠ -1 → ppCoeff dbg f c ≠ [' ', '-', ' '] ∧ ppCoeff dbg f c ≠ if f then [] else [' ', '+', ' '] := by
    intro c h1 h2
    rw [ppCoeff_other f h1 h2]
    constructor
    · intro e
      have := congrArg List.reverse e
      simp at this
    · intro e
      have := congrArg List.length e
      cases f <;> simp at this
  have k1 : (if f then [] else [' ', '+', ' '] : List Char) ≠ [' ', '-', ' '] := by cases f <;> decide
  by_cases h1 : c = 1 <;> by_cases h1' : c' = 1
  · rw [h1, h1']
  · by_cases h2' : c' = -1
    · rw [h1, h2', ppCoeff_one, ppCoeff_neg] at h; exact absurd h k1
    · rw [h1, ppCoeff_one] at h; exact absurd h.symm (key c' h1' h2').2
  · by_cases h2 : c = -1
    · rw [h1', h2, ppCoeff_one, ppCoeff_neg] at h; exact absurd h.symm k1
    · rw [h1', ppCoeff_one] at h; exact absurd h (key c h1 h2).2
  · by_cases h2 : c = -1 <;> by_cases h2' : c' = -1
    · rw [h2, h2']
    · rw [h2, ppCoeff_neg] at h; exact absurd h.symm (key c' h1' h2').1
    · rw [h2', ppCoeff_neg] at h; exact absurd h (key c h1 h2).1
    · rw [ppCoeff_other f h1 h2, ppCoeff_other f h1' h2'] at h
      have h := List.append_cancel_right (List.append_cancel_left h)
      refine hd.1 (last_token ?_ ?_ (hd.2 c).1 (hd.2 c').1 h)
      · rcases ppPower_form c with e | ⟨B, e⟩
        · exact .inl e
        · exact .inr ⟨'2' :: B, by rw [e]; rfl⟩
      · rcases ppPower_form c' with e | ⟨B, e⟩
        · exact .inl e
        · exact .inr ⟨'2' :: B, by rw [e]; rfl⟩

namespace TestCS

/-- The terms with the names of their variables. -/
def namedTerms (s : TestCS F) (m : List (Var × F)) : List (Option String × F) := m.map fun e => (s.varName e.1, e.2)

/-- No variable is called anything with a backtick (specification). -/
def CleanVars (s : TestCS F) : Prop := ∀ v n, s.varName v = some n → '`' ∉ n.toList

theorem ppTerms_isSome (dbg : F → List Char) (s : TestCS F) (f : Bool) (m : List (Var × F)) :
    (ppTerms dbg s f m).isSome ↔ ∀ e ∈ m, (s.varName e.1).isSome := by
  induction m generalizing f with
  | nil => simp [ppTerms]
  | cons e m ih =>
    obtain ⟨v, c⟩ := e
    unfold ppTerms
    cases h : s.varName v with
    | none => simp [h]
    | some n => simp [h, ih false]

theorem ppTerms_first {s : TestCS F} {f : Bool} {m : List (Var × F)} {x : List Char × Bool} (h : ppTerms dbg s f m = some x) :
    x.2 = (f && m.isEmpty) := by
  induction m generalizing f x with
  | nil => simp only [ppTerms, Option.some.injEq] at h; rw [← h]; simp
  | cons e m ih =>
    obtain ⟨v, c⟩ := e
    simp only [ppTerms, Option.bind_eq_some_iff, Option.map_eq_some_iff] at h
    obtain ⟨n, -, r, hr, rfl⟩ := h
    simpa using ih hr

/-- The terms after the first. -/
theorem ppTerms_inj (hd : CleanDebug dbg) {s s' : TestCS F} (hs : s.CleanVars) (hs' : s'.CleanVars) {m m' : List (Var × F)}
    {x x' : List Char × Bool} (h : ppTerms dbg s false m = some x) (h' : ppTerms dbg s' false m' = some x') {r r' : List Char}
    (he : x.1 ++ ')' :: r = x'.1 ++ ')' :: r') : s.namedTerms m = s'.namedTerms m' ∧ r = r' := by
  have hfirst : ∀ c : F, ∃ y, ppCoeff dbg false c = ' ' :: y := by
    intro c
    by_cases h2 : c = -1
    · exact ⟨_, by rw [h2, ppCoeff_neg]⟩
    · by_cases h1 : c = 1
      · exact ⟨_, by rw [h1, ppCoeff_one]; rfl⟩
      · exact ⟨_, by rw [ppCoeff_other _ h1 h2]; rfl⟩
  induction m generalizing m' x x' with
  | nil =>
    simp only [ppTerms, Option.some.injEq] at h
    subst h
    cases m' with
    | nil =>
      simp only [ppTerms, Option.some.injEq] at h'
      subst h'
      exact ⟨rfl, by simpa using he⟩
    | cons e' m' =>
      obtain ⟨v, c⟩ := e'
      simp only [ppTerms, Option.bind_eq_some_iff, Option.map_eq_some_iff] at h'
      obtain ⟨n, -, q, -, rfl⟩ := h'
      obtain ⟨y, hy⟩ := hfirst c
      simp [hy] at he
  | cons e m ih =>
    obtain ⟨v, c⟩ := e
    simp only [ppTerms, Option.bind_eq_some_iff, Option.map_eq_some_iff] at h
    obtain ⟨n, hn, q, hq, rfl⟩ := h
    cases m' with
    | nil =>
      simp only [ppTerms, Option.some.injEq] at h'
      subst h'
      obtain ⟨y, hy⟩ := hfirst c
      simp [hy] at he
    | cons e' m' =>
      obtain ⟨v', c'⟩ := e'
      simp only [ppTerms, Option.bind_eq_some_iff, Option.map_eq_some_iff] at h'
      obtain ⟨n', hn', q', hq', rfl⟩ := h'
      have he : ppCoeff dbg false c ++ '`' :: (n.toList ++ '`' :: (q.1 ++ ')' :: r)) =
          ppCoeff dbg false c' ++ '`' :: (n'.toList ++ '`' :: (q'.1 ++ ')' :: r')) := by simpa using he
      obtain ⟨e1, he⟩ := split_at_char (ppCoeff_noTick hd _ _) (ppCoeff_noTick hd _ _) he
      obtain ⟨e2, he⟩ := split_at_char (hs _ _ hn) (hs' _ _ hn') he
      obtain ⟨e3, e4⟩ := ih hq hq' he
      refine ⟨?_, e4⟩
      have := String.toList_inj.1 e2
      simp only [namedTerms, map_cons, hn, hn', this, ppCoeff_inj hd _ e1] at e3 ⊢
      rw [e3]

/-- What can follow a linear combination. -/
def Follows (r : List Char) : Prop := (∃ y, r = '\n' :: y) ∨ ∃ a y, a ≠ '.' ∧ r = ' ' :: a :: y

theorem zero_ne_term (hd : CleanDebug dbg) {c : F} {r y : List Char} (hr : Follows r) (h : '0' :: ')' :: r = ppCoeff dbg true c ++ '`' :: y) :
    False := by
  by_cases h2 : c = -1
  · rw [h2, ppCoeff_neg] at h; simp at h
  · by_cases h1 : c = 1
    · rw [h1, ppCoeff_one] at h; simp at h
    · rw [ppCoeff_other _ h1 h2] at h
      rcases ppPower_form c with e | ⟨B, e⟩
      · rw [e] at h
        obtain ⟨s1, -, s3⟩ := hd.2 c
        cases hdc : dbg c with
        | nil => rw [hdc] at h; simp at h
        | cons d0 d =>
          cases d with
          | nil => rw [hdc] at h; simp at h
          | cons d1 d =>
            cases d with
            | nil =>
              rw [hdc] at h
              simp only [if_true, nil_append, cons_append, cons.injEq] at h
              rcases hr with ⟨z, rfl⟩ | ⟨a, z, ha, rfl⟩
              · simp at h
              · simp at h; exact ha h.2.2.1
            | cons d2 d =>
              rw [hdc] at h s1 s3
              simp only [if_true, nil_append, cons_append, cons.injEq] at h
              rcases hr with ⟨z, rfl⟩ | ⟨a, z, ha, rfl⟩
              · simp at h; apply s3; simp [← h.2.2.1]
              · simp at h; apply s1; simp [← h.2.2.1]
      · rw [e] at h; simp at h

theorem ppLc_inj (hd : CleanDebug dbg) {s s' : TestCS F} (hs : s.CleanVars) (hs' : s'.CleanVars) {l l' : LC F} {x x' : List Char}
    (h : s.ppLc dbg l = some x) (h' : s'.ppLc dbg l' = some x') {r r' : List Char} (hr : Follows r) (hr' : Follows r')
    (he : x ++ r = x' ++ r') : s.namedTerms (procLc l.terms) = s'.namedTerms (procLc l'.terms) ∧ r = r' := by
  simp only [ppLc, Option.map_eq_some_iff] at h h'
  obtain ⟨q, hq, rfl⟩ := h
  obtain ⟨q', hq', rfl⟩ := h'
  have f1 := ppTerms_first hq
  have f2 := ppTerms_first hq'
  generalize procLc l.terms = m at *
  generalize procLc l'.terms = m' at *
  cases m with
  | nil =>
    simp only [ppTerms, Option.some.injEq] at hq
    subst hq
    cases m' with
    | nil =>
      simp only [ppTerms, Option.some.injEq] at hq'
      subst hq'
      exact ⟨rfl, by simpa using he⟩
    | cons e' m' =>
      obtain ⟨v, c⟩ := e'
      simp only [ppTerms, Option.bind_eq_some_iff, Option.map_eq_some_iff] at hq'
      obtain ⟨n, -, t, -, rfl⟩ := hq'
      exact (zero_ne_term hd (c := c) hr (y := _) (by simpa using he)).elim
  | cons e m =>
    obtain ⟨v, c⟩ := e
    simp only [ppTerms, Option.bind_eq_some_iff, Option.map_eq_some_iff] at hq
    obtain ⟨n, hn, t, ht, rfl⟩ := hq
    cases m' with
    | nil =>
      simp only [ppTerms, Option.some.injEq] at hq'
      subst hq'
      exact (zero_ne_term hd (c := c) hr' (y := _) (by simpa using he.symm)).elim
    | cons e' m' =>
      obtain ⟨v', c'⟩ := e'
      simp only [ppTerms, Option.bind_eq_some_iff, Option.map_eq_some_iff] at hq'
      obtain ⟨n', hn', t', ht', rfl⟩ := hq'
      have g1 : t.2 = false := by simpa using f1
      have g2 : t'.2 = false := by simpa using f2
      have he : ppCoeff dbg true c ++ '`' :: (n.toList ++ '`' :: (t.1 ++ ')' :: r)) =
          ppCoeff dbg true c' ++ '`' :: (n'.toList ++ '`' :: (t'.1 ++ ')' :: r')) := by simpa [g1, g2] using he
      obtain ⟨e1, he⟩ := split_at_char (ppCoeff_noTick hd _ _) (ppCoeff_noTick hd _ _) he
      obtain ⟨e2, he⟩ := split_at_char (hs _ _ hn) (hs' _ _ hn') he
      obtain ⟨e3, e4⟩ := ppTerms_inj hd hs hs' ht ht' he
      refine ⟨?_, e4⟩
      have := String.toList_inj.1 e2
      simp only [namedTerms, map_cons, hn, hn', this, ppCoeff_inj hd _ e1] at e3 ⊢
      rw [e3]

/-- Two constraints that say the same about variables with the same names. -/
def SameNamed (s s' : TestCS F) (k k' : LC F × LC F × LC F × String) : Prop :=
  k.2.2.2 = k'.2.2.2 ∧ s.namedTerms (procLc k.1.terms) = s'.namedTerms (procLc k'.1.terms) ∧
  s.namedTerms (procLc k.2.1.terms) = s'.namedTerms (procLc k'.2.1.terms) ∧
  s.namedTerms (procLc k.2.2.1.terms) = s'.namedTerms (procLc k'.2.2.1.terms)

theorem ppLc_paren {s : TestCS F} {l : LC F} {x : List Char} (h : s.ppLc dbg l = some x) : ∃ y, x = '(' :: y := by
  simp only [ppLc, Option.map_eq_some_iff] at h
  obtain ⟨q, -, rfl⟩ := h
  exact ⟨_, rfl⟩

theorem ppConstraint_inj (hd : CleanDebug dbg) {s s' : TestCS F} (hs : s.CleanVars) (hs' : s'.CleanVars)
    {k k' : LC F × LC F × LC F × String} (hk : '(' ∉ k.2.2.2.toList) (hk' : '(' ∉ k'.2.2.2.toList) {x x' : List Char}
    (h : s.ppConstraint dbg k = some x) (h' : s'.ppConstraint dbg k' = some x') {r r' : List Char} (hr : ∃ y, r = '\n' :: y)
    (hr' : ∃ y, r' = '\n' :: y) (he : x ++ r = x' ++ r') : SameNamed s s' k k' ∧ r = r' := by
  simp only [ppConstraint, Option.bind_eq_some_iff, Option.map_eq_some_iff] at h h'
  obtain ⟨a, ha, b, hb, c, hc, rfl⟩ := h
  obtain ⟨a', ha', b', hb', c', hc', rfl⟩ := h'
  obtain ⟨ya, hya⟩ := ppLc_paren ha
  obtain ⟨ya', hya'⟩ := ppLc_paren ha'
  have he : (k.2.2.2.toList ++ [':', ' ']) ++ (a ++ (' ' :: '*' :: ' ' :: (b ++ (' ' :: '=' :: ' ' :: (c ++ r))))) =
      (k'.2.2.2.toList ++ [':', ' ']) ++ (a' ++ (' ' :: '*' :: ' ' :: (b' ++ (' ' :: '=' :: ' ' :: (c' ++ r'))))) := by
    simpa using he
  have he2 := he
  rw [hya, hya'] at he2
  obtain ⟨e1, -⟩ := split_at_char (x := '(') (by simp [hk]) (by simp [hk']) he2
  rw [e1] at he
  have he := List.append_cancel_left he
  have en := String.toList_inj.1 (List.append_cancel_right e1)
  obtain ⟨e2, he⟩ := ppLc_inj hd hs hs' ha ha' (.inr ⟨_, _, by decide, rfl⟩) (.inr ⟨_, _, by decide, rfl⟩) he
  simp only [cons.injEq, true_and] at he
  obtain ⟨e3, he⟩ := ppLc_inj hd hs hs' hb hb' (.inr ⟨_, _, by decide, rfl⟩) (.inr ⟨_, _, by decide, rfl⟩) he
  simp only [cons.injEq, true_and] at he
  obtain ⟨e4, he⟩ := ppLc_inj hd hs hs' hc hc' (.inl hr) (.inl hr') he
  exact ⟨⟨en, e2, e3, e4⟩, he⟩

theorem ppConstraint_newline {s : TestCS F} {k : LC F × LC F × LC F × String} {x : List Char} (h : s.ppConstraint dbg k = some x) :
    ∃ a y, x = '\n' :: a :: y := by
  simp only [ppConstraint, Option.bind_eq_some_iff, Option.map_eq_some_iff] at h
  obtain ⟨a, ha, b, hb, c, hc, rfl⟩ := h
  cases hn : k.2.2.2.toList with
  | nil => exact ⟨':', _, rfl⟩
  | cons z zs => exact ⟨z, _, rfl⟩

theorem mapM_some_iff {α β : Type} {f : α → Option β} {l : List α} {l' : List β} :
    l.mapM f = some l' ↔ Forall₂ (fun a b => f a = some b) l l' := by
  induction l generalizing l' with
  | nil => simp [eq_comm]
  | cons a l ih =>
    rw [mapM_cons, forall₂_cons_left_iff]
    simp only [Option.bind_eq_bind, Option.bind_eq_some_iff, Option.pure_def, Option.some.injEq, ih]
    constructor
    · rintro ⟨b, hb, bs, hbs, rfl⟩; exact ⟨b, bs, hb, hbs, rfl⟩
    · rintro ⟨b, bs, hb, hbs, rfl⟩; exact ⟨b, hb, bs, hbs, rfl⟩

theorem prettyPrint_inj (hd : CleanDebug dbg) {s s' : TestCS F} (hs : s.CleanVars) (hs' : s'.CleanVars)
    (hc : ∀ k ∈ s.constraints, '(' ∉ k.2.2.2.toList) (hc' : ∀ k ∈ s'.constraints, '(' ∉ k.2.2.2.toList) {x : String}
    (h : s.prettyPrint dbg = some x) (h' : s'.prettyPrint dbg = some x) : Forall₂ (SameNamed s s') s.constraints s'.constraints := by
  simp only [prettyPrint, Option.map_eq_some_iff] at h h'
  obtain ⟨ks, hk, rfl⟩ := h
  obtain ⟨ks', hk', he⟩ := h'
  replace he : ks.flatten ++ ['\n'] = ks'.flatten ++ ['\n'] := (String.ofList_injective he).symm
  rw [mapM_some_iff] at hk hk'
  have hnl : ∀ {s : TestCS F} {l : List (LC F × LC F × LC F × String)} {ks : List (List Char)}, Forall₂ (fun a b => s.ppConstraint dbg a = some b) l ks →
      ∃ y, ks.flatten ++ ['\n'] = '\n' :: y := by
    intro s l ks h
    cases h with
    | nil => exact ⟨_, rfl⟩
    | cons h _ => obtain ⟨a, y, rfl⟩ := ppConstraint_newline h; exact ⟨_, rfl⟩
  generalize s.constraints = l at hk hc
  generalize s'.constraints = l' at hk' hc'
  induction hk generalizing l' ks' with
  | nil =>
    cases hk' with
    | nil => exact .nil
    | cons h _ => obtain ⟨a, y, rfl⟩ := ppConstraint_newline h; simp at he
  | @cons k x l ks h hk ih =>
    cases hk' with
    | nil => obtain ⟨a, y, rfl⟩ := ppConstraint_newline h; simp at he
    | @cons k' x' l' ks' h' hk' =>
      obtain ⟨e1, e2⟩ := ppConstraint_inj hd hs hs' (hc _ mem_cons_self) (hc' _ mem_cons_self) h h' (hnl hk) (hnl hk')
        (by simpa using he)
      exact .cons e1 (ih ks' e2 (fun k h => hc k (mem_cons_of_mem _ h)) _ hk' fun k h => hc' k (mem_cons_of_mem _ h))

end TestCS

end Bellman
