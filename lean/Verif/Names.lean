import Verif.Spec.Names
import Verif.Gadgets.MultiEq

/-!
# Reasoning about names

`Fresh`: a weakest precondition for the sets of names used in the open namespaces.
-/

namespace Bellman

open PrimeField

set_option linter.unusedSectionVars false

variable {F : Type} [PrimeField F] {α β : Type}

/-- Every execution of the program, started when the names used in the open namespaces (innermost first) are the sets
given, uses new names without slashes only, and ends with sets and result satisfying `Q`. Specification. -/
def Circ.Fresh (Q : List (Set String) → α → Prop) : Circ F α → List (Set String) → Prop
  | .ret a, st => Q st a
  | .panic _, _ => True
  | .alloc _ n _ c, used :: st => Clean n ∧ n ∉ used ∧ (∀ x, (c (.ok x)).Fresh Q (insert n used :: st)) ∧
      ∀ e, (c (.error e)).Fresh Q (used :: st)
  | .enforce n _ _ _ d, used :: st => Clean n ∧ n ∉ used ∧ d.Fresh Q (insert n used :: st)
  | .push n d, used :: st => Clean n ∧ n ∉ used ∧ d.Fresh Q (∅ :: insert n used :: st)
  | .pop d, _ :: used :: st => d.Fresh Q (used :: st)
  | _, _ => False

theorem Circ.Fresh.bind {Q : List (Set String) → α → Prop} {R : List (Set String) → β → Prop} {c : Circ F α}
    {g : α → Circ F β} {st : List (Set String)} (h : c.Fresh Q st) (hg : ∀ st' a, Q st' a → (g a).Fresh R st') :
    (c.bind g).Fresh R st := by
  induction c generalizing st with
  | ret a => exact hg _ _ (by cases st <;> exact h)
  | panic m => cases st <;> trivial
  | alloc i n f k ih =>
    cases st with
    | nil => exact h.elim
    | cons u st => exact ⟨h.1, h.2.1, fun x => ih _ (h.2.2.1 x), fun e => ih _ (h.2.2.2 e)⟩
  | enforce n a b c k ih =>
    cases st with
    | nil => exact h.elim
    | cons u st => exact ⟨h.1, h.2.1, ih h.2.2⟩
  | push n k ih =>
    cases st with
    | nil => exact h.elim
    | cons u st => exact ⟨h.1, h.2.1, ih h.2.2⟩
  | pop k ih =>
    cases st with
    | nil => exact h.elim
    | cons u st =>
      cases st with
      | nil => exact h.elim
      | cons v st => exact ih (st := v :: st) h

theorem Circ.Fresh.mono {Q R : List (Set String) → α → Prop} {c : Circ F α} {st : List (Set String)} (h : c.Fresh Q st)
    (hQ : ∀ st' a, Q st' a → R st' a) : c.Fresh R st := by
  have := Circ.Fresh.bind (g := .ret) h (R := R) fun st' a hq => by cases st' <;> exact hQ _ _ hq
  rwa [Circ.bind_ret] at this

/-! ## The meaning of `Fresh` on traces -/

/-- A path not used yet: some open namespace, a name not used in it, and anything below.  `ns` is innermost first.
Specification. -/
def NewPath (ns : List String) (st : List (Set String)) (p : List String) : Prop :=
  ∃ k u n rest, st[k]? = some u ∧ n ∉ u ∧ p = (ns.drop k).reverse ++ n :: rest

/-- The names of the open namespaces are among the names used. Specification. -/
def Opened (ns : List String) (st : List (Set String)) : Prop :=
  st.length = ns.length + 1 ∧ ∀ k n u, ns[k]? = some n → st[k + 1]? = some u → n ∈ u

theorem Opened.change {ns : List String} {u v : Set String} {st : List (Set String)} (h : Opened ns (u :: st)) :
    Opened ns (v :: st) := ⟨by simpa using h.1, fun k n w hn hw => h.2 k n w hn (by simpa using hw)⟩

theorem Opened.push {ns : List String} {n : String} {u : Set String} {st : List (Set String)} (h : Opened ns (u :: st)) :
    Opened (n :: ns) (∅ :: insert n u :: st) := by
  refine ⟨by simpa using h.1, ?_⟩
  intro k m w hm hw
  cases k with
  | zero => simp at hm hw; subst hm hw; simp
  | succ k => exact h.2 k m w (by simpa using hm) (by simpa using hw)

theorem Opened.pop {ns : List String} {u v : Set String} {st : List (Set String)} (h : Opened ns (u :: v :: st)) :
    ∃ n ns', ns = n :: ns' ∧ Opened ns' (v :: st) := by
  cases ns with
  | nil => simp [Opened] at h
  | cons n ns => exact ⟨n, ns, rfl, by simpa using h.1, fun k m w hm hw => h.2 (k + 1) m w (by simpa using hm) (by simpa using hw)⟩

/-- The path of a name used in the innermost namespace is not new. -/
theorem Opened.not_new {ns : List String} {n : String} {u : Set String} {st : List (Set String)} (h : Opened ns (u :: st))
    (hn : n ∈ u) : ¬ NewPath ns (u :: st) (ns.reverse ++ [n]) := by
  rintro ⟨k, v, m, rest, hv, hm, e⟩
  cases k with
  | zero =>
    simp only [List.getElem?_cons_zero, Option.some.injEq] at hv
    subst hv
    simp only [List.drop_zero] at e
    have := List.append_cancel_left e
    simp only [List.cons.injEq] at this
    exact hm (this.1 ▸ hn)
  | succ k =>
    have hk : k < ns.length := by
      have := (List.getElem?_eq_some_iff.1 hv).1
      have := h.1
      simp at *
      omega
    have e2 : ns.reverse = (ns.drop (k + 1)).reverse ++ ns[k] :: (ns.take k).reverse := by
      conv_lhs => rw [← List.take_append_drop k ns, List.drop_eq_getElem_cons hk]
      simp
    rw [e2, List.append_assoc] at e
    have := List.append_cancel_left e
    simp only [List.cons_append, List.cons.injEq] at this
    exact hm (this.1 ▸ h.2 k _ _ (List.getElem?_eq_getElem hk) hv)

theorem NewPath.shrink {ns : List String} {n : String} {u : Set String} {st : List (Set String)} {p : List String}
    (h : NewPath ns (insert n u :: st) p) : NewPath ns (u :: st) p := by
  obtain ⟨k, v, m, rest, hv, hm, e⟩ := h
  cases k with
  | zero =>
    simp only [List.getElem?_cons_zero, Option.some.injEq] at hv
    subst hv
    exact ⟨0, u, m, rest, rfl, fun h => hm (Or.inr h), e⟩
  | succ k => exact ⟨k + 1, v, m, rest, by simpa using hv, hm, e⟩

theorem NewPath.push {ns : List String} {n : String} {u : Set String} {st : List (Set String)} {p : List String}
    (hn : n ∉ u) (h : NewPath (n :: ns) (∅ :: insert n u :: st) p) : NewPath ns (u :: st) p := by
  obtain ⟨k, v, m, rest, hv, hm, e⟩ := h
  cases k with
  | zero => exact ⟨0, u, n, m :: rest, rfl, hn, by simpa using e⟩
  | succ k => exact NewPath.shrink (n := n) ⟨k, v, m, rest, by simpa using hv, hm, by simpa using e⟩

theorem not_new_push {ns : List String} {n : String} {u : Set String} {st : List (Set String)} (h : Opened ns (u :: st)) :
    ¬ NewPath (n :: ns) (∅ :: insert n u :: st) (ns.reverse ++ [n]) := by
  rintro ⟨k, v, m, rest, hv, hm, e⟩
  cases k with
  | zero =>
    have := congrArg List.length e
    simp at this
  | succ k =>
    refine h.change.not_new (u := insert n u) (n := n) (by simp) ?_
    exact ⟨k, v, m, rest, by simpa using hv, hm, by simpa using e⟩

theorem Circ.Fresh.exec {Q : List (Set String) → α → Prop} {c : Circ F α} {t : List (Ev F)} {r : Option α}
    (he : Exec c t r) {ns : List String} {st : List (Set String)} (h : c.Fresh Q st) (ho : Opened ns st)
    (hc : ∀ n ∈ ns, Clean n) :
    (pathsOf ns.reverse t).Nodup ∧ (∀ p ∈ pathsOf ns.reverse t, NewPath ns st p ∧ ∀ n ∈ p, Clean n) ∧
      (∃ d, depthAfter ns.length t = some d ∧ ∀ a, r = some a → ∃ st', st'.length = d + 1 ∧ Q st' a) := by
  induction he generalizing ns st with
  | ret a => exact ⟨by simp [pathsOf], by simp [pathsOf], ns.length, rfl, by
      rintro _ ⟨⟩; exact ⟨st, ho.1, by cases st <;> exact h⟩⟩
  | panic m => exact ⟨by simp [pathsOf], by simp [pathsOf], ns.length, rfl, by rintro _ ⟨⟩⟩
  | @allocSkip i n f k t r x he ih =>
    cases st with
    | nil => exact h.elim
    | cons u st =>
      obtain ⟨h1, h2, h3⟩ := ih (h.2.2.1 _) ho.change hc
      have hn := ho.change.not_new (u := insert n u) (n := n) (by simp)
      refine ⟨List.nodup_cons.2 ⟨fun hm => hn (h2 _ hm).1, h1⟩, ?_, h3⟩
      intro p hp
      rcases List.mem_cons.1 hp with rfl | hp
      · refine ⟨⟨0, u, n, [], rfl, h.2.1, by simp⟩, ?_⟩
        intro m hm
        rcases List.mem_append.1 hm with hm | hm
        · exact hc m (by simpa using hm)
        · rw [List.mem_singleton.1 hm]; exact h.1
      · exact ⟨(h2 p hp).1.shrink, (h2 p hp).2⟩
  | @allocRun i n f k t r x v hf he ih =>
    cases st with
    | nil => exact h.elim
    | cons u st =>
      obtain ⟨h1, h2, h3⟩ := ih (h.2.2.1 _) ho.change hc
      have hn := ho.change.not_new (u := insert n u) (n := n) (by simp)
      refine ⟨List.nodup_cons.2 ⟨fun hm => hn (h2 _ hm).1, h1⟩, ?_, h3⟩
      intro p hp
      rcases List.mem_cons.1 hp with rfl | hp
      · refine ⟨⟨0, u, n, [], rfl, h.2.1, by simp⟩, ?_⟩
        intro m hm
        rcases List.mem_append.1 hm with hm | hm
        · exact hc m (by simpa using hm)
        · rw [List.mem_singleton.1 hm]; exact h.1
      · exact ⟨(h2 p hp).1.shrink, (h2 p hp).2⟩
  | allocErr e he ih =>
    cases st with
    | nil => exact h.elim
    | cons u st => exact ih (h.2.2.2 _) ho hc
  | @enforce n a b c k t r he ih =>
    cases st with
    | nil => exact h.elim
    | cons u st =>
      obtain ⟨h1, h2, h3⟩ := ih h.2.2 ho.change hc
      have hn := ho.change.not_new (u := insert n u) (n := n) (by simp)
      refine ⟨List.nodup_cons.2 ⟨fun hm => hn (h2 _ hm).1, h1⟩, ?_, h3⟩
      intro p hp
      rcases List.mem_cons.1 hp with rfl | hp
      · refine ⟨⟨0, u, n, [], rfl, h.2.1, by simp⟩, ?_⟩
        intro m hm
        rcases List.mem_append.1 hm with hm | hm
        · exact hc m (by simpa using hm)
        · rw [List.mem_singleton.1 hm]; exact h.1
      · exact ⟨(h2 p hp).1.shrink, (h2 p hp).2⟩
  | @push n k t r he ih =>
    cases st with
    | nil => exact h.elim
    | cons u st =>
      obtain ⟨h1, h2, h3⟩ := ih (ns := n :: ns) h.2.2 (ho.push (n := n)) (by
        intro m hm
        rcases List.mem_cons.1 hm with rfl | hm
        exacts [h.1, hc m hm])
      rw [List.reverse_cons] at h1 h2
      refine ⟨List.nodup_cons.2 ⟨fun hm => not_new_push ho (h2 _ hm).1, h1⟩, ?_, h3⟩
      intro p hp
      rcases List.mem_cons.1 hp with rfl | hp
      · refine ⟨⟨0, u, n, [], rfl, h.2.1, by simp⟩, ?_⟩
        intro m hm
        rcases List.mem_append.1 hm with hm | hm
        · exact hc m (by simpa using hm)
        · rw [List.mem_singleton.1 hm]; exact h.1
      · exact ⟨(h2 p hp).1.push h.2.1, (h2 p hp).2⟩
  | @pop k t r he ih =>
    cases st with
    | nil => exact h.elim
    | cons u st =>
      cases st with
      | nil => exact h.elim
      | cons v st =>
        obtain ⟨n, ns, rfl, ho'⟩ := ho.pop
        obtain ⟨h1, h2, h3⟩ := ih h ho' fun m hm => hc m (by simp [hm])
        have e : pathsOf (n :: ns).reverse (.pop :: t) = pathsOf ns.reverse t := by
          show pathsOf (n :: ns).reverse.dropLast t = _
          simp
        rw [e]
        refine ⟨h1, fun p hp => ⟨?_, (h2 p hp).2⟩, h3⟩
        obtain ⟨k, w, m, rest, hw, hm, e⟩ := (h2 p hp).1
        exact ⟨k + 1, w, m, rest, by simpa using hw, hm, by simpa using e⟩

/-! ## Programs without `MultiEq` -/

/-- The program uses names among `N`, and if it returns a value, the value satisfies `P`. Specification. -/
def SNamesP (N : Set String) (P : α → Prop) (m : Synth F α) : Prop := ∀ used st, Disjoint used N →
  m.run.Fresh (fun st' r => (∃ used', st' = used' :: st ∧ used' ⊆ used ∪ N) ∧ ∀ a, r = .ok a → P a) (used :: st)

/-- The program uses names among `N`. Specification. -/
abbrev SNames (N : Set String) (m : Synth F α) : Prop := SNamesP N (fun _ => True) m

theorem SNamesP.uses {N : Set String} {P : α → Prop} {m : Synth F α} (h : SNamesP N P m) : UsesNames N m.run := by
  intro t r he
  obtain ⟨h1, h2, d, h3, h4⟩ := Circ.Fresh.exec he (ns := []) (h Nᶜ [] disjoint_compl_left) ⟨rfl, by simp⟩ (by simp)
  refine ⟨h1, ?_, ⟨d, h3⟩, ?_⟩
  · intro p hp
    obtain ⟨⟨k, u, n, rest, hk, hn, e⟩, hcl⟩ := h2 p hp
    refine ⟨⟨n, rest, by simpa using e, ?_⟩, hcl⟩
    cases k with
    | zero => simp only [List.getElem?_cons_zero, Option.some.injEq] at hk; subst hk; simpa using hn
    | succ k => simp at hk
  · intro hr
    obtain ⟨a, rfl⟩ := Option.ne_none_iff_exists'.1 hr
    obtain ⟨st', hl, ⟨u, rfl, -⟩, -⟩ := h4 a rfl
    have : d = 0 := by simpa using hl.symm
    rw [this] at h3
    exact h3

namespace SNamesP

variable {N N' : Set String} {P : α → Prop} {Q : β → Prop}

theorem mono {P' : α → Prop} {m : Synth F α} (h : SNamesP N P m) (hN : N ⊆ N') (hP : ∀ a, P a → P' a) : SNamesP N' P' m := by
  intro used st hd
  refine (h used st (hd.mono_right hN)).mono ?_
  rintro _ _ ⟨⟨u, rfl, hu⟩, hp⟩
  exact ⟨⟨u, rfl, hu.trans (Set.union_subset_union_right _ hN)⟩, fun a ha => hP a (hp a ha)⟩

theorem weaken {m : Synth F α} (h : SNames N m) (hN : N ⊆ N') : SNames N' m := h.mono hN fun _ h => h

theorem pure {a : α} (h : P a) : SNamesP N P (pure a : Synth F α) :=
  fun used _ _ => ⟨⟨used, rfl, Set.subset_union_left⟩, by rintro _ ⟨⟩; exact h⟩
theorem throw {e : SynthesisError} : SNamesP N P (throw e : Synth F α) :=
  fun used _ _ => ⟨⟨used, rfl, Set.subset_union_left⟩, by rintro _ ⟨⟩⟩
theorem panic {s : String} : SNamesP N P (Synth.panic s : Synth F α) := fun _ _ _ => trivial

theorem bind {m : Synth F α} {g : α → Synth F β} (h : SNamesP N P m) (hd : Disjoint N N')
    (hg : ∀ a, P a → SNamesP N' Q (g a)) : SNamesP (N ∪ N') Q (m >>= g) := by
  intro used st hu
  rw [Set.disjoint_union_right] at hu
  refine (h used st hu.1).bind ?_
  rintro _ r ⟨⟨u, rfl, hs⟩, hp⟩
  cases r with
  | ok a =>
    refine (hg a (hp a rfl) u st ((Set.disjoint_union_left.2 ⟨hu.2, hd⟩).mono_left hs)).mono ?_
    rintro _ _ ⟨⟨v, rfl, hv⟩, hq⟩
    refine ⟨⟨v, rfl, fun x hx => ?_⟩, hq⟩
    rcases hv hx with h | h
    · rcases hs h with h | h
      · exact .inl h
      · exact .inr (.inl h)
    · exact .inr (.inr h)
  | error e =>
    exact ⟨⟨u, rfl, hs.trans (Set.union_subset_union_right _ Set.subset_union_left)⟩, by rintro _ ⟨⟩⟩

/-- What follows uses no names. -/
theorem map {m : Synth F α} {g : α → Synth F β} (h : SNamesP N P m) (hg : ∀ a, P a → SNamesP ∅ Q (g a)) : SNamesP N Q (m >>= g) := by
  have := h.bind (by simp) hg
  rwa [Set.union_empty] at this

/-- What comes first uses a single name. -/
theorem seq {n : String} {m : Synth F α} {g : α → Synth F β} (h : SNamesP {n} P m) (hd : n ∉ N)
    (hg : ∀ a, P a → SNamesP N Q (g a)) : SNamesP (insert n N) Q (m >>= g) := by
  rw [Set.insert_eq]
  exact h.bind (by simpa using hd) hg

theorem alloc {n : String} (hn : Clean n) (f : Except SynthesisError F) : SNames {n} (Synth.alloc n f) := by
  intro used st hd
  have hd : n ∉ used := by simpa using hd
  exact ⟨hn, hd, fun x => ⟨⟨_, rfl, by rw [Set.insert_eq, Set.union_comm]⟩, fun _ _ => trivial⟩,
    fun e => ⟨⟨_, rfl, Set.subset_union_left⟩, fun _ _ => trivial⟩⟩

theorem allocInput {n : String} (hn : Clean n) (f : Except SynthesisError F) : SNames {n} (Synth.allocInput n f) := by
  intro used st hd
  have hd : n ∉ used := by simpa using hd
  exact ⟨hn, hd, fun x => ⟨⟨_, rfl, by rw [Set.insert_eq, Set.union_comm]⟩, fun _ _ => trivial⟩,
    fun e => ⟨⟨_, rfl, Set.subset_union_left⟩, fun _ _ => trivial⟩⟩

theorem enforce {n : String} (hn : Clean n) {a b c : LC F → LC F} : SNames {n} (Synth.enforce n a b c) := by
  intro used st hd
  have hd : n ∉ used := by simpa using hd
  exact ⟨hn, hd, ⟨_, rfl, by rw [Set.insert_eq, Set.union_comm]⟩, fun _ _ => trivial⟩

theorem inNs {n : String} (hn : Clean n) {m : Synth F α} (h : SNamesP N P m) : SNamesP {n} P (Synth.inNs n m) := by
  intro used st hd
  have hd : n ∉ used := by simpa using hd
  refine ⟨hn, hd, ?_⟩
  refine (h ∅ (insert n used :: st) (by simp)).bind ?_
  rintro _ r ⟨⟨u, rfl, hs⟩, hp⟩
  exact ⟨⟨_, rfl, by rw [Set.insert_eq, Set.union_comm]⟩, hp⟩

end SNamesP

/-! ## Names with numbers -/

/-- The names made of a fixed part and a number. Specification. -/
def idx (p : String) (S : Set ℕ) : Set String := {n | ∃ j ∈ S, n = p ++ toString j}

theorem mem_idx {p : String} {S : Set ℕ} {j : ℕ} (h : j ∈ S) : p ++ toString j ∈ idx p S := ⟨j, h, rfl⟩

/-- The characters that are not digits. Specification. -/
def base (s : String) : List Char := s.toList.filter fun c => !c.isDigit

theorem base_append (s t : String) : base (s ++ t) = base s ++ base t := by simp [base]

theorem digits_isDigit (j : ℕ) : ∀ c ∈ (toString j).toList, c.isDigit = true := by
  intro c hc
  rw [show (toString j).toList = Nat.toDigits 10 j by simp] at hc
  exact Nat.isDigit_of_mem_toDigits (by omega) (by omega) hc

theorem base_toString (j : ℕ) : base (toString j) = [] := by
  unfold base
  rw [List.filter_eq_nil_iff]
  intro c hc
  simp [digits_isDigit j c hc]

theorem toString_inj {i j : ℕ} (h : toString i = toString j) : i = j := by
  have h : Nat.toDigits 10 i = Nat.toDigits 10 j := by
    have := congrArg String.toList h
    simpa using this
  have := congrArg (fun l => Nat.ofDigitChars 10 l 0) h
  simpa only [Nat.ofDigitChars_ten_toDigits] using this

theorem prefix_inj {p : String} {i j : ℕ} (h : p ++ toString i = p ++ toString j) : i = j := by
  refine toString_inj (String.toList_inj.1 ?_)
  have := congrArg String.toList h
  simp only [String.toList_append] at this
  exact List.append_cancel_left this

theorem not_mem_idx_base {n p : String} {S : Set ℕ} (h : base n ≠ base p) : n ∉ idx p S := by
  rintro ⟨j, -, rfl⟩
  exact h (by rw [base_append, base_toString, List.append_nil])

theorem not_mem_idx {p : String} {S : Set ℕ} {j : ℕ} (h : j ∉ S) : p ++ toString j ∉ idx p S := by
  rintro ⟨k, hk, e⟩
  exact h (prefix_inj e ▸ hk)

theorem idx_disjoint_base {p q : String} {S T : Set ℕ} (h : base p ≠ base q) : Disjoint (idx p S) (idx q T) := by
  rw [Set.disjoint_left]
  rintro _ ⟨j, -, rfl⟩
  exact not_mem_idx_base (by rwa [base_append, base_toString, List.append_nil])

theorem idx_disjoint {p : String} {S T : Set ℕ} (h : Disjoint S T) : Disjoint (idx p S) (idx p T) := by
  rw [Set.disjoint_left]
  rintro _ ⟨j, hj, rfl⟩
  exact not_mem_idx (Set.disjoint_left.1 h hj)

theorem idx_mono {p : String} {S T : Set ℕ} (h : S ⊆ T) : idx p S ⊆ idx p T := by
  rintro _ ⟨j, hj, rfl⟩
  exact ⟨j, h hj, rfl⟩

theorem clean_append {s t : String} (h : Clean s) (h' : Clean t) : Clean (s ++ t) := by
  unfold Clean at *
  rw [String.toList_append, List.mem_append]
  tauto

theorem clean_toString (j : ℕ) : Clean (toString j) := by
  intro h
  have := digits_isDigit j _ h
  exact absurd this (by decide)

theorem clean_idx {p : String} (h : Clean p) (j : ℕ) : Clean (p ++ toString j) := clean_append h (clean_toString j)

/-! ## Programs with a `MultiEq` -/

/-- The names of the constraints of `MultiEq` from the given number on. Specification. -/
def mq (lo : ℕ) : Set String := idx "multieq " {j | lo ≤ j}

/-- The program uses names among `N`, and the names of constraints of `MultiEq` not used before. Specification. -/
def MNames (N : Set String) (m : MSynth F α) : Prop := ∀ (s : MEq F) used st, Disjoint used N → Disjoint used (mq s.ops) →
  (m.run.run s).Fresh (fun st' r => (∃ used', st' = used' :: st ∧ used' ⊆ used ∪ N ∪ mq s.ops ∧ Disjoint used' (mq r.2.ops)) ∧
    s.ops ≤ r.2.ops) (used :: st)

theorem mq_mono {i j : ℕ} (h : i ≤ j) : mq j ⊆ mq i := idx_mono fun _ hk => h.trans hk

namespace MNames

variable {N N' : Set String}

theorem weaken {m : MSynth F α} (h : MNames N m) (hN : N ⊆ N') : MNames N' m := by
  intro s used st hd hq
  refine (h s used st (hd.mono_right hN) hq).mono ?_
  rintro _ r ⟨⟨u, rfl, hu, hm⟩, ho⟩
  exact ⟨⟨u, rfl, hu.trans (Set.union_subset_union_left _ (Set.union_subset_union_right _ hN)), hm⟩, ho⟩

theorem pure {a : α} : MNames N (pure a : MSynth F α) :=
  fun _ used _ _ hq => ⟨⟨used, rfl, fun _ h => .inl (.inl h), hq⟩, le_rfl⟩

theorem bind {m : MSynth F α} {g : α → MSynth F β} (h : MNames N m) (hd : Disjoint N N') (hq : Disjoint N' (mq 0))
    (hg : ∀ a, MNames N' (g a)) : MNames (N ∪ N') (m >>= g) := by
  intro s used st hu hs
  rw [Set.disjoint_union_right] at hu
  refine (h s used st hu.1 hs).bind ?_
  rintro _ ⟨r, s'⟩ ⟨⟨u, rfl, hs', hm⟩, ho⟩
  cases r with
  | ok a =>
    have hd' : Disjoint u N' := by
      refine Disjoint.mono_left hs' (Set.disjoint_union_left.2 ⟨Set.disjoint_union_left.2 ⟨hu.2, hd⟩, ?_⟩)
      exact (hq.mono_right (mq_mono (Nat.zero_le _))).symm
    refine (hg a s' u st hd' hm).mono ?_
    rintro _ _ ⟨⟨v, rfl, hv, hm'⟩, ho'⟩
    refine ⟨⟨v, rfl, fun x hx => ?_, hm'⟩, ho.trans ho'⟩
    rcases hv hx with (h | h) | h
    · rcases hs' h with (h | h) | h
      · exact .inl (.inl h)
      · exact .inl (.inr (.inl h))
      · exact .inr h
    · exact .inl (.inr (.inr h))
    · exact .inr (mq_mono ho h)
  | error e => exact ⟨⟨u, rfl, hs'.trans (Set.union_subset_union_left _ (Set.union_subset_union_right _ Set.subset_union_left)), hm⟩, ho⟩

theorem map {m : MSynth F α} {g : α → MSynth F β} (h : MNames N m) (hg : ∀ a, MNames ∅ (g a)) : MNames N (m >>= g) := by
  have := h.bind (by simp) (by simp) hg
  rwa [Set.union_empty] at this

/-- What comes first uses no names. -/
theorem skip {m : MSynth F α} {g : α → MSynth F β} (h : MNames ∅ m) (hq : Disjoint N (mq 0)) (hg : ∀ a, MNames N (g a)) :
    MNames N (m >>= g) := by
  have := h.bind (by simp) hq hg
  rwa [Set.empty_union] at this

theorem seq {n : String} {m : MSynth F α} {g : α → MSynth F β} (h : MNames {n} m) (hd : n ∉ N) (hq : Disjoint N (mq 0))
    (hg : ∀ a, MNames N (g a)) : MNames (insert n N) (m >>= g) := by
  rw [Set.insert_eq]
  exact h.bind (by simpa using hd) hq hg

theorem lift {P : α → Prop} {m : Synth F α} (h : SNamesP N P m) (hq : Disjoint N (mq 0)) : MNames N (MSynth.lift m) := by
  intro s used st hu hs
  refine (h used st hu).bind ?_
  rintro _ r ⟨⟨u, rfl, hs'⟩, -⟩
  refine ⟨⟨u, rfl, hs'.trans Set.subset_union_left, ?_⟩, le_rfl⟩
  exact (Set.disjoint_union_left.2 ⟨hs, hq.mono_right (mq_mono (Nat.zero_le _))⟩).mono_left hs'

theorem panic {s : String} : MNames N (MSynth.lift (Synth.panic s) : MSynth F α) := fun _ _ _ _ _ => trivial

theorem inNs {n : String} (hn : Clean n) (hq : n ∉ mq 0) {m : MSynth F α} (h : MNames N m) : MNames {n} (MSynth.inNs n m) := by
  intro s used st hd hs
  have hd : n ∉ used := by simpa using hd
  refine ⟨hn, hd, ?_⟩
  refine (h s ∅ (insert n used :: st) (by simp) (by simp)).bind ?_
  rintro _ r ⟨⟨u, rfl, -, -⟩, ho⟩
  refine ⟨⟨_, rfl, ?_, ?_⟩, ho⟩
  · rw [Set.insert_eq, Set.union_comm {n}]; exact Set.subset_union_left
  · rw [Set.insert_eq, Set.disjoint_union_left]
    exact ⟨by simpa using fun h => hq (mq_mono (Nat.zero_le _) h), hs.mono_right (mq_mono ho)⟩

theorem name_mem (s : MEq F) : s!"multieq {s.ops}" ∈ mq s.ops := ⟨s.ops, le_refl s.ops, rfl⟩

theorem insert_disjoint {used : Set String} {k : ℕ} (h : Disjoint used (mq k)) :
    Disjoint (insert s!"multieq {k}" used) (mq (k + 1)) := by
  rw [Set.insert_eq, Set.disjoint_union_left]
  refine ⟨?_, h.mono_right (mq_mono (Nat.le_succ k))⟩
  rw [Set.disjoint_singleton_left]
  exact not_mem_idx (p := "multieq ") (by simp)

theorem enforceEqual (b : ℕ) (l r : LC F) : MNames ∅ (MEq.enforceEqual b l r) := by
  intro s used st _ hs
  show Circ.Fresh _ (if CAPACITY F ≤ s.bitsUsed + b then _ else _) _
  split
  · refine ⟨clean_idx (by unfold Clean; decide) s.ops, Set.disjoint_right.1 hs (name_mem s), ?_⟩
    dsimp only
    split
    · refine ⟨⟨_, rfl, ?_, insert_disjoint hs⟩, Nat.le_succ _⟩
      rintro x (rfl | hx)
      · exact .inr (name_mem s)
      · exact .inl (.inl hx)
    · trivial
  · dsimp only
    split
    · exact ⟨⟨used, rfl, fun _ h => .inl (.inl h), hs⟩, le_rfl⟩
    · trivial

theorem withMultiEq {m : MSynth F α} (h : MNames N m) : SNames (N ∪ mq 0) (MSynth.withMultiEq m) := by
  intro used st hu
  rw [Set.disjoint_union_right] at hu
  refine (h MEq.new used st hu.1 hu.2).bind ?_
  rintro _ ⟨r, s⟩ ⟨⟨u, rfl, hs, hm⟩, ho⟩
  have e : u ⊆ used ∪ (N ∪ mq 0) := by rw [← Set.union_assoc]; exact hs
  unfold MEq.drop
  split
  · refine ⟨clean_idx (by unfold Clean; decide) s.ops, Set.disjoint_right.1 hm (name_mem s), ⟨_, rfl, ?_⟩, fun _ _ => trivial⟩
    rintro x (rfl | hx)
    · exact .inr (.inr (mq_mono (Nat.zero_le _) (name_mem s)))
    · exact e hx
  · exact ⟨⟨u, rfl, e⟩, fun _ _ => trivial⟩

end MNames

/-- Closes goals `Clean n`. -/
macro "clean" : tactic => `(tactic| first
  | (unfold Clean; decide)
  | (refine clean_idx ?_ _; unfold Clean; decide)
  | exact clean_toString _)

/-- Closes goals `n ∉ N` and `Disjoint N N'` for sets of names given by constructors. -/
macro "fresh" : tactic => `(tactic| (
  try simp only [Set.disjoint_insert_left, Set.disjoint_singleton_left, Set.mem_insert_iff, Set.mem_singleton_iff,
    Set.mem_union, not_or, Set.disjoint_union_left, Set.mem_empty_iff_false, not_false_iff, Set.disjoint_empty,
    Set.empty_disjoint]
  and_intros <;> first
    | trivial
    | assumption
    | decide
    | exact not_mem_idx_base (by decide)
    | exact not_mem_idx_base (by simp only [base_append, base_toString]; decide)
    | exact idx_disjoint_base (by decide)
    | exact fun h => absurd (congrArg base h) (by simp only [base_append, base_toString]; decide)))

end Bellman
