import Verif.Names
import Verif.Proofs.Realize

/-!
# Programs with distinct names, run against `TestConstraintSystem`
-/

namespace Bellman

set_option linter.unusedSectionVars false

variable {F : Type} [PrimeField F] {α : Type}

theorem pathsOf_append {t : List (Ev F)} {d : ℕ} {ns l : List String} (h : depthAfter l.length t = some d) :
    pathsOf (ns ++ l) t = (pathsOf l t).map (ns ++ ·) := by
  induction t generalizing l with
  | nil => rfl
  | cons e t ih =>
    cases e with
    | alloc i n x v => simp only [pathsOf, List.map_cons, List.append_assoc]; rw [ih h]
    | enforce n a b c => simp only [pathsOf, List.map_cons, List.append_assoc]; rw [ih h]
    | push n =>
      simp only [pathsOf, List.map_cons, List.append_assoc]
      rw [ih (l := l ++ [n]) (by rw [List.length_append]; exact h)]
    | pop =>
      cases l with
      | nil => cases h
      | cons a l =>
        simp only [pathsOf]
        rw [List.dropLast_append_of_ne_nil (by simp)]
        exact ih (l := (a :: l).dropLast) (by rw [List.length_dropLast]; exact h)

theorem depthAfter_add {t : List (Ev F)} {d e : ℕ} (k : ℕ) (h : depthAfter d t = some e) : depthAfter (k + d) t = some (k + e) := by
  induction t generalizing d with
  | nil => cases h; rfl
  | cons ev t ih =>
    cases ev with
    | alloc i n x v => exact ih h
    | enforce n a b c => exact ih h
    | push n => exact ih (d := d + 1) h
    | pop =>
      cases d with
      | zero => cases h
      | succ d => exact ih (d := d) h

theorem pathsOf_ne_nil {t : List (Ev F)} {ns p : List String} (h : p ∈ pathsOf ns t) : p ≠ [] := by
  induction t generalizing ns with
  | nil => cases h
  | cons e t ih =>
    cases e with
    | alloc i n x v => rcases List.mem_cons.1 h with rfl | h; exacts [by simp, ih h]
    | enforce n a b c => rcases List.mem_cons.1 h with rfl | h; exacts [by simp, ih h]
    | push n => rcases List.mem_cons.1 h with rfl | h; exacts [by simp, ih h]
    | pop => exact ih (ns := ns.dropLast) h

namespace TestCS

/-- The trace `t` uses paths that are new in `s` (a proof device). -/
def Fits (s : TestCS F) (t : List (Ev F)) : Prop :=
  (pathsOf s.ns t).Nodup ∧ (∀ p ∈ pathsOf s.ns t, (∀ n ∈ p, Clean n) ∧ pathStr p ∉ s.named.map (·.1)) ∧
    ∃ d, depthAfter s.ns.length t = some d

theorem Fits.next {s s' : TestCS F} {t : List (Ev F)} {n : String} {o : NamedObject}
    (h1 : ((s.ns ++ [n]) :: pathsOf s'.ns t).Nodup)
    (h2 : ∀ p ∈ (s.ns ++ [n]) :: pathsOf s'.ns t, (∀ n ∈ p, Clean n) ∧ pathStr p ∉ s.named.map (·.1))
    (h3 : ∃ d, depthAfter s'.ns.length t = some d) (h4 : s'.named = (pathStr (s.ns ++ [n]), o) :: s.named) : s'.Fits t := by
  obtain ⟨h5, h1⟩ := List.nodup_cons.1 h1
  refine ⟨h1, fun p hp => ?_, h3⟩
  have h6 := h2 p (List.mem_cons_of_mem _ hp)
  refine ⟨h6.1, ?_⟩
  rw [h4, List.map_cons, List.mem_cons, not_or]
  refine ⟨fun e => h5 ?_, h6.2⟩
  rw [← pathStr_inj (pathsOf_ne_nil hp) (by simp) h6.1 (h2 _ List.mem_cons_self).1 e]
  exact hp

theorem setNamedObj_fresh {s : TestCS F} {p : String} (o : NamedObject) (h : p ∉ s.named.map (·.1)) :
    s.setNamedObj p o = some { s with named := (p, o) :: s.named } := by
  unfold setNamedObj
  rw [lookup_none_iff.2 h]

theorem computePath_clean {ns : List String} {n : String} (h : Clean n) : computePath ns n = some (pathStr (ns ++ [n])) := by
  rw [computePath_eq, if_neg h]

theorem allocInput_wf {s s' : TestCS F} {n : String} {f r} (hw : s.WF) (h : allocInput n f s = some (r, s')) : s'.WF := by
  obtain ⟨-, ⟨e, -, -, rfl⟩ | ⟨w, -, -, hw1, -⟩⟩ := allocInput_spec hw h
  exacts [hw, hw1]

theorem allocAux_wf {s s' : TestCS F} {n : String} {f r} (hw : s.WF) (h : allocAux n f s = some (r, s')) : s'.WF := by
  obtain ⟨-, ⟨e, -, -, rfl⟩ | ⟨w, -, -, hw1, -⟩⟩ := allocAux_spec hw h
  exacts [hw, hw1]

/-- **Only the program itself can panic**, if its paths are new. -/
theorem run_none (c : Circ F α) {s : TestCS F} (hw : s.WF) (h : ∀ t r, Exec c t r → s.Fits t)
    (hr : c.run impl s = none) : ∃ t, Honest c t none ∧ Numbered s.inputs.length s.aux.length t := by
  induction c generalizing s with
  | ret a => cases hr
  | panic m => exact ⟨[], .panic m, trivial⟩
  | alloc i n f k ih =>
    have hfresh : Clean n ∧ pathStr (s.ns ++ [n]) ∉ s.named.map (·.1) := by
      obtain ⟨t, r, he, -⟩ := (k (.ok (.one, none))).exists_honest 0 0
      have := (h _ _ (.allocSkip .one he.exec)).2.1 (s.ns ++ [n]) List.mem_cons_self
      exact ⟨this.1 n (by simp), this.2⟩
    have hp := computePath_clean (ns := s.ns) hfresh.1
    rw [Circ.run] at hr
    cases f with
    | error e =>
      have hi : impl.alloc i n (.error e) s = some (.error e, s) := by
        cases i <;> simp [impl, allocInput, allocAux, hp]
      rw [hi] at hr
      obtain ⟨t, h1, h2⟩ := ih (.error e) hw (fun t r he => h t r (.allocErr e he)) hr
      exact ⟨t, .allocErr e rfl h1, h2⟩
    | ok v =>
      cases i with
      | true =>
        have hi : impl.alloc true n (.ok v) s = some (.ok (.input s.inputs.length, some v), { s with
            inputs := s.inputs ++ [(v, pathStr (s.ns ++ [n]))]
            named := (pathStr (s.ns ++ [n]), .var (.input s.inputs.length)) :: s.named }) := by
          simp only [impl, allocInput, hp, if_true, Option.bind_some]
          rw [setNamedObj_fresh]
          exacts [rfl, hfresh.2]
        have hw1 := allocInput_wf hw (show allocInput n (.ok v) s = _ from hi)
        rw [hi] at hr
        obtain ⟨t, h1, h2⟩ := ih _ hw1 (fun t r he => by
          obtain ⟨g1, g2, g3⟩ := h _ _ (.allocRun _ v rfl he)
          exact Fits.next g1 g2 g3 rfl) hr
        exact ⟨_, .allocRun _ v rfl h1, rfl, by simpa using h2⟩
      | false =>
        have hi : impl.alloc false n (.ok v) s = some (.ok (.aux s.aux.length, some v), { s with
            aux := s.aux ++ [(v, pathStr (s.ns ++ [n]))]
            named := (pathStr (s.ns ++ [n]), .var (.aux s.aux.length)) :: s.named }) := by
          simp only [impl, allocAux, hp, Bool.false_eq_true, if_false, Option.bind_some]
          rw [setNamedObj_fresh]
          exacts [rfl, hfresh.2]
        have hw1 := allocAux_wf hw (show allocAux n (.ok v) s = _ from hi)
        rw [hi] at hr
        obtain ⟨t, h1, h2⟩ := ih _ hw1 (fun t r he => by
          obtain ⟨g1, g2, g3⟩ := h _ _ (.allocRun _ v rfl he)
          exact Fits.next g1 g2 g3 rfl) hr
        exact ⟨_, .allocRun _ v rfl h1, rfl, by simpa using h2⟩
  | enforce n a b c k ih =>
    have hfresh : Clean n ∧ pathStr (s.ns ++ [n]) ∉ s.named.map (·.1) := by
      obtain ⟨t, r, he, -⟩ := k.exists_honest 0 0
      have := (h _ _ (.enforce he.exec)).2.1 (s.ns ++ [n]) List.mem_cons_self
      exact ⟨this.1 n (by simp), this.2⟩
    have hi : enforce n a b c s = some { s with
        constraints := s.constraints ++ [(a, b, c, pathStr (s.ns ++ [n]))]
        named := (pathStr (s.ns ++ [n]), .constraint s.constraints.length) :: s.named } := by
      simp only [enforce, computePath_clean (ns := s.ns) hfresh.1, Option.bind_some]
      rw [setNamedObj_fresh _ hfresh.2]; rfl
    have hw1 := (enforce_spec hw hi).2.1
    rw [Circ.run, show impl.enforce n a b c s = _ from hi] at hr
    obtain ⟨t, h1, h2⟩ := ih hw1 (fun t r he => by
      obtain ⟨g1, g2, g3⟩ := h _ _ (.enforce he)
      exact Fits.next g1 g2 g3 rfl) hr
    exact ⟨_, .enforce h1, h2⟩
  | push n k ih =>
    have hfresh : Clean n ∧ pathStr (s.ns ++ [n]) ∉ s.named.map (·.1) := by
      obtain ⟨t, r, he, -⟩ := k.exists_honest 0 0
      have := (h _ _ (.push he.exec)).2.1 (s.ns ++ [n]) List.mem_cons_self
      exact ⟨this.1 n (by simp), this.2⟩
    have hi : pushNs n s = some { s with
        ns := s.ns ++ [n]
        named := (pathStr (s.ns ++ [n]), .namespace) :: s.named } := by
      simp only [pushNs, computePath_clean (ns := s.ns) hfresh.1, Option.bind_some]
      rw [setNamedObj_fresh _ hfresh.2]; rfl
    have hw1 := (pushNs_spec hw hi).2.1
    rw [Circ.run, show impl.push n s = _ from hi] at hr
    obtain ⟨t, h1, h2⟩ := ih hw1 (fun t r he => by
      obtain ⟨g1, g2, g3⟩ := h _ _ (.push he)
      exact Fits.next g1 g2 (by simpa [depthAfter] using g3) rfl) hr
    exact ⟨_, .push h1, h2⟩
  | pop k ih =>
    have hne : s.ns ≠ [] := by
      intro e
      obtain ⟨t, r, he, -⟩ := k.exists_honest 0 0
      obtain ⟨d, hd⟩ := (h _ _ (.pop he.exec)).2.2
      rw [e] at hd; cases hd
    have hi : popNs s = some { s with ns := s.ns.dropLast } := by
      unfold popNs
      rw [List.getLast?_eq_getLast_of_ne_nil hne]
    have hw1 := (popNs_spec hw hi).2.1
    rw [Circ.run, show impl.pop s = _ from hi] at hr
    obtain ⟨t, h1, h2⟩ := ih hw1 (fun t r he => by
      obtain ⟨g1, g2, d, g3⟩ := h _ _ (.pop he)
      refine ⟨g1, g2, d, ?_⟩
      obtain ⟨b, l, hl⟩ := List.exists_cons_of_ne_nil hne
      dsimp only
      rw [List.length_dropLast]
      rw [hl] at g3 ⊢
      exact g3) hr
    exact ⟨_, .pop h1, h2⟩

theorem fits_of_uses {s : TestCS F} {N : Set String} {c : Circ F α} (hw : s.WF) (hu : UsesNames N c)
    (h : ∀ n ∈ N, ∀ rest, (∀ m ∈ n :: rest, Clean m) → pathStr (s.ns ++ n :: rest) ∉ s.named.map (·.1)) {t r} (he : Exec c t r) : s.Fits t := by
  obtain ⟨h1, h2, ⟨d, h3⟩, -⟩ := hu t r he
  have e : pathsOf s.ns t = (pathsOf [] t).map (s.ns ++ ·) := by
    have := pathsOf_append (ns := s.ns) (l := []) h3
    rwa [List.append_nil] at this
  refine ⟨?_, ?_, s.ns.length + d, depthAfter_add _ h3⟩
  · rw [e]
    exact h1.map fun _ _ h => List.append_cancel_left h
  · rw [e]
    intro p hp
    obtain ⟨q, hq, rfl⟩ := List.mem_map.1 hp
    obtain ⟨⟨n, rest, rfl, hn⟩, hc⟩ := h2 q hq
    refine ⟨fun m hm => ?_, h n hn rest hc⟩
    rcases List.mem_append.1 hm with hm | hm
    exacts [hw.clean m hm, hc m hm]

/-! ### Which paths are in use -/

/-- The paths in use, as lists of names: every path has its parent, and the open namespaces are in use. -/
structure Tree (s : TestCS F) (K : Set (List String)) : Prop where
  clean : ∀ l ∈ K, ∀ n ∈ l, Clean n
  ne : [] ∉ K
  named : ∀ p, p ∈ s.named.map (·.1) ↔ ∃ l ∈ K, pathStr l = p
  parent : ∀ l n, l ++ [n] ∈ K → l ≠ [] → l ∈ K
  ns : s.ns ≠ [] → s.ns ∈ K

theorem Tree.add {s s' : TestCS F} {K : Set (List String)} {n : String} {o : NamedObject} (h : s.Tree K) (hw : s.WF) (hn : Clean n)
    (h4 : s'.named = (pathStr (s.ns ++ [n]), o) :: s.named) (hns : s'.ns = s.ns ∨ s'.ns = s.ns ++ [n]) :
    s'.Tree (insert (s.ns ++ [n]) K) where
  clean := by
    rintro l (rfl | hl) m hm
    · rcases List.mem_append.1 hm with hm | hm
      · exact hw.clean m hm
      · rw [List.mem_singleton.1 hm]; exact hn
    · exact h.clean l hl m hm
  ne := by
    rintro (h1 | h1)
    · simp at h1
    · exact h.ne h1
  named p := by
    rw [h4, List.map_cons, List.mem_cons, h.named]
    constructor
    · rintro (rfl | ⟨l, hl, rfl⟩)
      exacts [⟨_, .inl rfl, rfl⟩, ⟨l, .inr hl, rfl⟩]
    · rintro ⟨l, rfl | hl, rfl⟩
      exacts [.inl rfl, .inr ⟨l, hl, rfl⟩]
  parent l m hl hne := by
    rcases hl with hl | hl
    · obtain ⟨rfl, -⟩ := List.append_inj' hl rfl
      exact .inr (h.ns hne)
    · exact .inr (h.parent l m hl hne)
  ns hne := by
    rcases hns with hns | hns
    · rw [hns] at hne ⊢; exact .inr (h.ns hne)
    · rw [hns]; exact .inl rfl

theorem Tree.run (c : Circ F α) {s s' : TestCS F} {a : α} {K : Set (List String)} (hw : s.WF) (hk : s.Tree K)
    (h : c.run impl s = some (a, s')) : ∃ K', s'.Tree K' := by
  induction c generalizing s K with
  | ret b => simp only [Circ.run, Option.some.injEq, Prod.mk.injEq] at h; exact ⟨K, h.2 ▸ hk⟩
  | panic m => cases h
  | alloc i n f k ih =>
    simp only [Circ.run, Option.bind_eq_some_iff] at h
    obtain ⟨⟨r, s1⟩, h1, h2⟩ := h
    cases i with
    | true =>
      obtain ⟨hc, ⟨e, rfl, rfl, rfl⟩ | ⟨v, rfl, rfl, hw1, rfl⟩⟩ := allocInput_spec hw h1
      · exact ih _ hw hk h2
      · exact ih _ hw1 (hk.add hw hc rfl (.inl rfl)) h2
    | false =>
      obtain ⟨hc, ⟨e, rfl, rfl, rfl⟩ | ⟨v, rfl, rfl, hw1, rfl⟩⟩ := allocAux_spec hw h1
      · exact ih _ hw hk h2
      · exact ih _ hw1 (hk.add hw hc rfl (.inl rfl)) h2
  | enforce n a b c k ih =>
    simp only [Circ.run, Option.bind_eq_some_iff] at h
    obtain ⟨s1, h1, h2⟩ := h
    obtain ⟨hc, hw1, rfl⟩ := enforce_spec hw h1
    exact ih hw1 (hk.add hw hc rfl (.inl rfl)) h2
  | push n k ih =>
    simp only [Circ.run, Option.bind_eq_some_iff] at h
    obtain ⟨s1, h1, h2⟩ := h
    obtain ⟨hc, hw1, rfl⟩ := pushNs_spec hw h1
    exact ih hw1 (hk.add hw hc rfl (.inr rfl)) h2
  | pop k ih =>
    simp only [Circ.run, Option.bind_eq_some_iff] at h
    obtain ⟨s1, h1, h2⟩ := h
    obtain ⟨hne, hw1, rfl⟩ := popNs_spec hw h1
    refine ih hw1 (K := K) ⟨hk.clean, hk.ne, hk.named, hk.parent, fun h0 => ?_⟩ h2
    have h3 := hk.ns hne
    rw [← List.dropLast_concat_getLast hne] at h3
    exact hk.parent _ _ h3 h0

theorem Tree.new : (new : TestCS F).Tree {["ONE"]} where
  clean := by
    rintro l rfl n hn
    rw [List.mem_singleton.1 hn]
    unfold Clean
    decide
  ne := by simp
  named p := by
    constructor
    · intro h
      refine ⟨_, rfl, ?_⟩
      simp only [TestCS.new, List.map_cons, List.map_nil, List.mem_singleton] at h
      rw [h]; decide
    · rintro ⟨l, rfl, rfl⟩
      simp only [TestCS.new, List.map_cons, List.map_nil, List.mem_singleton]
      decide
  parent l n h hne := by
    have := congrArg List.length (Set.mem_singleton_iff.1 h)
    simp at this
    exact absurd this hne
  ns h := absurd rfl h

/-- A name that is not in use is the start of no path in use. -/
theorem Tree.fresh {s : TestCS F} {K : Set (List String)} (hw : s.WF) (hk : s.Tree K) {n : String}
    (h : pathStr (s.ns ++ [n]) ∉ s.named.map (·.1)) (rest : List String) (hc : ∀ m ∈ n :: rest, Clean m) :
    pathStr (s.ns ++ n :: rest) ∉ s.named.map (·.1) := by
  rw [hk.named] at h ⊢
  rintro ⟨l, hl, e⟩
  refine h ⟨s.ns ++ [n], ?_, rfl⟩
  have e1 : l = s.ns ++ n :: rest := by
    refine pathStr_inj (fun h0 => hk.ne (h0 ▸ hl)) (by simp) (hk.clean l hl) (fun m hm => ?_) e
    rcases List.mem_append.1 hm with hm | hm
    exacts [hw.clean m hm, hc m hm]
  rw [e1] at hl
  clear e e1 hc h
  induction rest using List.reverseRecOn with
  | nil => exact hl
  | append_singleton rest m ih =>
    refine ih (hk.parent _ m ?_ (by simp))
    simpa using hl

end TestCS

end Bellman
