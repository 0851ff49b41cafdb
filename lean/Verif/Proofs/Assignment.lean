import Verif.Groth16.Assignment

/-!
# What a run against `ProvingAssignment` records
-/

namespace Bellman

variable {F α : Type} [PrimeField F]

/-- Index `i` is set in the tracker (specification). -/
def DensityTracker.Has (d : DensityTracker) (i : ℕ) : Prop := d.bv[i]? = some true

/-- `d'` is `d` with exactly the indices in `P` added (specification). -/
def DensityTracker.Marks (d d' : DensityTracker) (P : ℕ → Prop) : Prop :=
  d'.bv.length = d.bv.length ∧ ∀ i, d'.Has i ↔ d.Has i ∨ P i

theorem DensityTracker.inc_some {d d' : DensityTracker} {i : ℕ} (h : d.inc i = some d') :
    i < d.bv.length ∧ d.Marks d' (· = i) := by
  unfold inc at h
  split at h
  · cases h
  · rename_i b hb
    simp only [Option.some.injEq] at h
    have hi : i < d.bv.length := by
      by_contra hc
      rw [List.getElem?_eq_none (by omega)] at hb
      cases hb
    refine ⟨hi, ?_⟩
    cases b with
    | true =>
      simp only [Bool.not_true, Bool.false_eq_true, if_false] at h
      subst h
      refine ⟨rfl, fun j => ⟨Or.inl, ?_⟩⟩
      rintro (h | rfl)
      · exact h
      · exact hb
    | false =>
      simp only [Bool.not_false, if_true] at h
      subst h
      refine ⟨by simp, fun j => ?_⟩
      unfold Has
      simp only [List.getElem?_set]
      by_cases hij : i = j
      · subst hij; simp [hi]
      · have : ¬ j = i := fun h => hij h.symm
        simp [hij, this]

theorem DensityTracker.inc_isSome {d : DensityTracker} {i : ℕ} (h : i < d.bv.length) : ∃ d', d.inc i = some d' := by
  unfold inc
  rw [List.getElem?_eq_getElem h]
  exact ⟨_, rfl⟩

theorem DensityTracker.inc_none {d : DensityTracker} {i : ℕ} : d.inc i = none ↔ d.bv.length ≤ i := by
  unfold inc
  split
  · simp_all
  · rename_i b hb
    have : i < d.bv.length := by
      by_contra hc
      rw [List.getElem?_eq_none (by omega)] at hb
      cases hb
    simp [this]

theorem DensityTracker.Marks.refl (d : DensityTracker) {P : ℕ → Prop} (h : ∀ i, ¬ P i) : d.Marks d P :=
  ⟨rfl, fun i => ⟨Or.inl, fun h' => h'.resolve_right (h i)⟩⟩

theorem DensityTracker.Marks.trans {d d' d'' : DensityTracker} {P Q R : ℕ → Prop} (h : d.Marks d' P) (h' : d'.Marks d'' Q)
    (hR : ∀ i, R i ↔ P i ∨ Q i) : d.Marks d'' R :=
  ⟨h'.1.trans h.1, fun i => by rw [h'.2, h.2, hR, or_assoc]⟩

theorem DensityTracker.has_lt {d : DensityTracker} {i : ℕ} (h : d.Has i) : i < d.bv.length := by
  by_contra hc
  unfold Has at h
  rw [List.getElem?_eq_none (by omega)] at h
  cases h

theorem DensityTracker.addElement_has (d : DensityTracker) (i : ℕ) : d.addElement.Has i ↔ d.Has i := by
  unfold addElement Has
  simp only [List.getElem?_append]
  split
  · rfl
  · rename_i h
    rw [List.getElem?_eq_none (l := d.bv) (by omega)]
    cases h : i - d.bv.length <;> simp

/-- As `Marks`, for optional trackers: absent stays absent. -/
def OptMarks (P : ℕ → Prop) : Option DensityTracker → Option DensityTracker → Prop
  | none, none => True
  | some d, some d' => d.Marks d' P
  | _, _ => False

theorem incOpt_some {d d' : Option DensityTracker} {i : ℕ} (h : incOpt d i = some d') : OptMarks (· = i) d d' := by
  cases d with
  | none => simp only [incOpt, Option.some.injEq] at h; subst h; trivial
  | some d =>
    simp only [incOpt, Option.map_eq_some_iff] at h
    obtain ⟨e, he, rfl⟩ := h
    exact (DensityTracker.inc_some he).2

theorem OptMarks.refl (d : Option DensityTracker) {P : ℕ → Prop} (h : ∀ i, ¬ P i) : OptMarks P d d := by
  cases d with
  | none => trivial
  | some d => exact DensityTracker.Marks.refl d h

theorem OptMarks.trans {d d' d'' : Option DensityTracker} {P Q R : ℕ → Prop} (h : OptMarks P d d')
    (h' : OptMarks Q d' d'') (hR : ∀ i, R i ↔ P i ∨ Q i) : OptMarks R d d'' := by
  cases d <;> cases d' <;> cases d'' <;> simp only [OptMarks] at h h' ⊢
  exact h.trans h' hR

/-- Variable `v` occurs with a non-zero coefficient (specification). -/
def Occurs (ts : List (Var × F)) (v : Var) : Prop := ∃ c, c ≠ 0 ∧ (v, c) ∈ ts

theorem occurs_cons_zero {ts : List (Var × F)} {x v : Var} : Occurs ((x, 0) :: ts) v ↔ Occurs ts v := by
  unfold Occurs
  constructor
  · rintro ⟨c, hc, hm⟩
    rcases List.mem_cons.1 hm with h | h
    · simp only [Prod.mk.injEq] at h; exact absurd h.2 hc
    · exact ⟨c, hc, h⟩
  · rintro ⟨c, hc, hm⟩; exact ⟨c, hc, List.mem_cons_of_mem _ hm⟩

theorem occurs_cons {ts : List (Var × F)} {x v : Var} {c : F} (hc : c ≠ 0) :
    Occurs ((x, c) :: ts) v ↔ v = x ∨ Occurs ts v := by
  unfold Occurs
  constructor
  · rintro ⟨d, hd, hm⟩
    rcases List.mem_cons.1 hm with h | h
    · simp only [Prod.mk.injEq] at h; exact .inl h.1
    · exact .inr ⟨d, hd, h⟩
  · rintro (rfl | ⟨d, hd, hm⟩)
    · exact ⟨c, hc, List.mem_cons_self⟩
    · exact ⟨d, hd, List.mem_cons_of_mem _ hm⟩

theorem proverEval_cons (inputs aux : List F) (x : Var) (c : F) (ts : List (Var × F)) (acc : F)
    (di da : Option DensityTracker) : proverEval inputs aux ((x, c) :: ts) acc di da =
      if c = 0 then proverEval inputs aux ts acc di da
      else match x with
      | .input i =>
        (inputs[i]?).bind fun tmp => (incOpt di i).bind fun di =>
          proverEval inputs aux ts (acc + if c = 1 then tmp else tmp * c) di da
      | .aux i =>
        (aux[i]?).bind fun tmp => (incOpt da i).bind fun da =>
          proverEval inputs aux ts (acc + if c = 1 then tmp else tmp * c) di da := by
  cases x <;> rfl

theorem proverEval_some {inputs aux : List F} {ts : List (Var × F)} {acc : F} {di da : Option DensityTracker} {r}
    (h : proverEval inputs aux ts acc di da = some r) :
    r.1 = acc + LC.eval (assign inputs aux) ⟨ts⟩ ∧
    (∀ v, Occurs ts v → v.InRange inputs.length aux.length) ∧
    OptMarks (fun i => Occurs ts (.input i)) di r.2.1 ∧ OptMarks (fun i => Occurs ts (.aux i)) da r.2.2 := by
  induction ts generalizing acc di da with
  | nil =>
    simp only [proverEval, Option.some.injEq] at h
    subst h
    refine ⟨by simp [LC.eval], ?_, .refl _ ?_, .refl _ ?_⟩ <;> simp [Occurs]
  | cons t ts ih =>
    obtain ⟨x, c⟩ := t
    rw [proverEval_cons] at h
    by_cases hc : c = 0
    · rw [if_pos hc] at h
      subst hc
      obtain ⟨h1, h2, h3, h4⟩ := ih h
      refine ⟨?_, fun v hv => h2 v (occurs_cons_zero.1 hv), ?_, ?_⟩
      · rw [h1]; simp [LC.eval]
      · simpa only [occurs_cons_zero] using h3
      · simpa only [occurs_cons_zero] using h4
    · rw [if_neg hc] at h
      cases x with
      | input i =>
        simp only [Option.bind_eq_some_iff] at h
        obtain ⟨tmp, ht, di', hd, h⟩ := h
        obtain ⟨h1, h2, h3, h4⟩ := ih h
        have hi : i < inputs.length := by
          by_contra hn
          rw [List.getElem?_eq_none (by omega)] at ht
          cases ht
        refine ⟨?_, ?_, (incOpt_some hd).trans h3 ?_, ?_⟩
        · rw [h1]
          have : assign inputs aux (.input i) = tmp := by simp [assign, ht]
          simp only [LC.eval, List.map_cons, List.sum_cons, this]
          split
          · rename_i hc1; rw [hc1]; ring
          · ring
        · intro v hv
          rw [occurs_cons hc] at hv
          rcases hv with rfl | hv
          · exact hi
          · exact h2 v hv
        · intro j; rw [occurs_cons hc]; simp
        · simpa only [occurs_cons hc, reduceCtorEq, false_or] using h4
      | aux i =>
        simp only [Option.bind_eq_some_iff] at h
        obtain ⟨tmp, ht, da', hd, h⟩ := h
        obtain ⟨h1, h2, h3, h4⟩ := ih h
        have hi : i < aux.length := by
          by_contra hn
          rw [List.getElem?_eq_none (by omega)] at ht
          cases ht
        refine ⟨?_, ?_, ?_, (incOpt_some hd).trans h4 ?_⟩
        · rw [h1]
          have : assign inputs aux (.aux i) = tmp := by simp [assign, ht]
          simp only [LC.eval, List.map_cons, List.sum_cons, this]
          split
          · rename_i hc1; rw [hc1]; ring
          · ring
        · intro v hv
          rw [occurs_cons hc] at hv
          rcases hv with rfl | hv
          · exact hi
          · exact h2 v hv
        · simpa only [occurs_cons hc, reduceCtorEq, false_or] using h3
        · intro j; rw [occurs_cons hc]; simp

/-- the tracker, if present, has `n` elements -/
def OptLen (n : ℕ) : Option DensityTracker → Prop
  | none => True
  | some d => d.bv.length = n

theorem incOpt_isSome {d : Option DensityTracker} {n i : ℕ} (hd : OptLen n d) (hi : i < n) :
    ∃ d', incOpt d i = some d' ∧ OptLen n d' := by
  cases d with
  | none => exact ⟨none, rfl, trivial⟩
  | some d =>
    simp only [OptLen] at hd
    obtain ⟨d', h⟩ := DensityTracker.inc_isSome (d := d) (i := i) (by omega)
    exact ⟨some d', by simp [incOpt, h], (DensityTracker.inc_some h).2.1.trans hd⟩

theorem proverEval_isSome {inputs aux : List F} {ts : List (Var × F)} {acc : F} {di da : Option DensityTracker}
    (hdi : OptLen inputs.length di) (hda : OptLen aux.length da)
    (h : ∀ v, Occurs ts v → v.InRange inputs.length aux.length) :
    ∃ r, proverEval inputs aux ts acc di da = some r := by
  induction ts generalizing acc di da with
  | nil => exact ⟨_, rfl⟩
  | cons t ts ih =>
    obtain ⟨x, c⟩ := t
    rw [proverEval_cons]
    by_cases hc : c = 0
    · rw [if_pos hc]
      subst hc
      exact ih hdi hda fun v hv => h v (occurs_cons_zero.2 hv)
    · rw [if_neg hc]
      have h0 := h x ((occurs_cons hc).2 (.inl rfl))
      have h' := fun v hv => h v ((occurs_cons hc).2 (.inr hv))
      cases x with
      | input i =>
        obtain ⟨d, hd, hl⟩ := incOpt_isSome hdi h0
        simp only [List.getElem?_eq_getElem (show i < inputs.length from h0), hd, Option.bind_some]
        exact ih hl hda h'
      | aux i =>
        obtain ⟨d, hd, hl⟩ := incOpt_isSome hda h0
        simp only [List.getElem?_eq_getElem (show i < aux.length from h0), hd, Option.bind_some]
        exact ih hdi hl h'

theorem LC.eval_congr' {l : LC F} {ρ ρ' : Var → F} (h : ∀ v, Occurs l.terms v → ρ v = ρ' v) :
    l.eval ρ = l.eval ρ' := by
  unfold LC.eval
  congr 1
  refine List.map_congr_left fun x hx => ?_
  by_cases hc : x.2 = 0
  · rw [hc]; simp
  · rw [h x.1 ⟨x.2, hc, hx⟩]

theorem assign_append (i a i' a' : List F) (v : Var) (hv : v.InRange i.length a.length) :
    assign (i ++ i') (a ++ a') v = assign i a v := by
  cases v with
  | input k => simp only [assign, List.getD_eq_getElem?_getD]; rw [List.getElem?_append_left hv]
  | aux k => simp only [assign, List.getD_eq_getElem?_getD]; rw [List.getElem?_append_left hv]

namespace ProvingAssignment

/-- Trackers are as long as the value vectors. -/
structure WF (s : ProvingAssignment F) : Prop where
  aa : s.aAuxDensity.bv.length = s.auxAssignment.length
  bi : s.bInputDensity.bv.length = s.inputAssignment.length
  ba : s.bAuxDensity.bv.length = s.auxAssignment.length

omit [PrimeField F] in
theorem WF_new : (new : ProvingAssignment F).WF := ⟨rfl, rfl, rfl⟩

/-- `s'` is `s` after recording the trace `t` (specification).  The recorded evaluations are under the *final*
assignment: later allocations do not disturb them. -/
structure Recorded (s : ProvingAssignment F) (t : List (Ev F)) (s' : ProvingAssignment F) : Prop where
  numbered : Numbered s.inputAssignment.length s.auxAssignment.length t
  wf : s'.WF
  inputs : s'.inputAssignment = s.inputAssignment ++ inVals t
  aux : s'.auxAssignment = s.auxAssignment ++ auxVals t
  nIn : (inVals t).length = numIn t
  nAux : (auxVals t).length = numAux t
  a : s'.a = s.a ++ (consOf t).map fun k => k.1.eval (assign s'.inputAssignment s'.auxAssignment)
  b : s'.b = s.b ++ (consOf t).map fun k => k.2.1.eval (assign s'.inputAssignment s'.auxAssignment)
  c : s'.c = s.c ++ (consOf t).map fun k => k.2.2.eval (assign s'.inputAssignment s'.auxAssignment)
  aAux : ∀ i, s'.aAuxDensity.Has i ↔ s.aAuxDensity.Has i ∨ ∃ k ∈ consOf t, Occurs k.1.terms (.aux i)
  bInput : ∀ i, s'.bInputDensity.Has i ↔ s.bInputDensity.Has i ∨ ∃ k ∈ consOf t, Occurs k.2.1.terms (.input i)
  bAux : ∀ i, s'.bAuxDensity.Has i ↔ s.bAuxDensity.Has i ∨ ∃ k ∈ consOf t, Occurs k.2.1.terms (.aux i)

theorem Recorded.refl {s : ProvingAssignment F} (h : s.WF) : Recorded s [] s where
  numbered := trivial
  wf := h
  inputs := by simp
  aux := by simp
  nIn := rfl
  nAux := rfl
  a := by simp
  b := by simp
  c := by simp
  aAux := by simp
  bInput := by simp
  bAux := by simp

theorem enforce_spec {s s' : ProvingAssignment F} {a b c : LC F} (hw : s.WF) (h : enforce a b c s = some s') :
    s'.WF ∧ (∀ v, (Occurs a.terms v ∨ Occurs b.terms v ∨ Occurs c.terms v) →
        v.InRange s.inputAssignment.length s.auxAssignment.length) ∧
    s'.inputAssignment = s.inputAssignment ∧ s'.auxAssignment = s.auxAssignment ∧
    s'.a = s.a ++ [a.eval (assign s.inputAssignment s.auxAssignment)] ∧
    s'.b = s.b ++ [b.eval (assign s.inputAssignment s.auxAssignment)] ∧
    s'.c = s.c ++ [c.eval (assign s.inputAssignment s.auxAssignment)] ∧
    (∀ i, s'.aAuxDensity.Has i ↔ s.aAuxDensity.Has i ∨ Occurs a.terms (.aux i)) ∧
    (∀ i, s'.bInputDensity.Has i ↔ s.bInputDensity.Has i ∨ Occurs b.terms (.input i)) ∧
    (∀ i, s'.bAuxDensity.Has i ↔ s.bAuxDensity.Has i ∨ Occurs b.terms (.aux i)) := by
  unfold enforce at h
  simp only [Option.bind_eq_some_iff, Option.some.injEq] at h
  obtain ⟨ra, ha, rb, hb, rc, hc, rfl⟩ := h
  obtain ⟨a1, a2, a3, a4⟩ := proverEval_some ha
  obtain ⟨b1, b2, b3, b4⟩ := proverEval_some hb
  obtain ⟨c1, c2, c3, c4⟩ := proverEval_some hc
  obtain ⟨ra1, ra2, ra3⟩ := ra
  obtain ⟨rb1, rb2, rb3⟩ := rb
  obtain ⟨rc1, rc2, rc3⟩ := rc
  dsimp only at *
  cases ra3 with
  | none => exact a4.elim
  | some da =>
  cases rb2 with
  | none => exact b3.elim
  | some db =>
  cases rb3 with
  | none => exact b4.elim
  | some dc =>
  simp only [OptMarks] at a4 b3 b4
  obtain ⟨h1, h2, h3⟩ := hw
  refine ⟨⟨a4.1.trans h1, b3.1.trans h2, b4.1.trans h3⟩, ?_, rfl, rfl, ?_, ?_, ?_, a4.2, b3.2, b4.2⟩
  · rintro v (h | h | h)
    · exact a2 v h
    · exact b2 v h
    · exact c2 v h
  · rw [a1]; simp
  · rw [b1]; simp
  · rw [c1]; simp

/-- **The prover records values and densities exactly.** -/
theorem run_recorded (c : Circ F α) {s s' : ProvingAssignment F} {a : α} (hw : s.WF)
    (h : c.run impl s = some (a, s')) : ∃ t, Honest c t (some a) ∧ Recorded s t s' := by
  induction c generalizing s with
  | ret b =>
    simp only [Circ.run, Option.some.injEq, Prod.mk.injEq] at h
    obtain ⟨rfl, rfl⟩ := h
    exact ⟨[], .ret _, .refl hw⟩
  | panic m => cases h
  | alloc i n f k ih =>
    simp only [Circ.run, impl, Option.bind_some] at h
    cases f with
    | error e =>
      have h' : (k (.error e)).run impl s = some (a, s') := by
        cases i <;> exact h
      obtain ⟨t, he, hr⟩ := ih _ hw h'
      exact ⟨t, .allocErr e rfl he, hr⟩
    | ok v =>
      cases i with
      | true =>
        simp only [if_true, allocInput] at h
        obtain ⟨t, he, hr⟩ := ih _ (by obtain ⟨h1, h2, h3⟩ := hw; constructor <;> simp_all [DensityTracker.addElement]) h
        refine ⟨_ :: t, .allocRun _ v rfl he, ?_⟩
        obtain ⟨h1, h2, h3, h4, h5, h6, h7, h8, h9, h10, h11, h12⟩ := hr
        refine ⟨⟨by simp, by simpa using h1⟩, h2, ?_, ?_, ?_, ?_, h7, h8, h9, h10, ?_, h12⟩
        · rw [h3]; simp
        · rw [h4]; simp
        · simp [h5]
        · simp [h6]
        · intro i; rw [h11 i, DensityTracker.addElement_has]; rfl
      | false =>
        simp only [Bool.false_eq_true, if_false, allocAux] at h
        obtain ⟨t, he, hr⟩ := ih _ (by obtain ⟨h1, h2, h3⟩ := hw; constructor <;> simp_all [DensityTracker.addElement]) h
        refine ⟨_ :: t, .allocRun _ v rfl he, ?_⟩
        obtain ⟨h1, h2, h3, h4, h5, h6, h7, h8, h9, h10, h11, h12⟩ := hr
        refine ⟨⟨by simp, by simpa using h1⟩, h2, ?_, ?_, ?_, ?_, h7, h8, h9, ?_, h11, ?_⟩
        · rw [h3]; simp
        · rw [h4]; simp
        · simp [h5]
        · simp [h6]
        · intro i; rw [h10 i, DensityTracker.addElement_has]; rfl
        · intro i; rw [h12 i, DensityTracker.addElement_has]; rfl
  | enforce n a b c k ih =>
    simp only [Circ.run, impl, Option.bind_eq_some_iff] at h
    obtain ⟨s1, h1, h⟩ := h
    obtain ⟨w, sc, e1, e2, ea, eb, ec, d1, d2, d3⟩ := enforce_spec hw h1
    obtain ⟨t, he, hr⟩ := ih w h
    refine ⟨_ :: t, .enforce he, ?_⟩
    obtain ⟨h1, h2, h3, h4, h5, h6, h7, h8, h9, h10, h11, h12⟩ := hr
    rw [e1, e2] at h1
    rw [e1] at h3
    rw [e2] at h4
    have key : ∀ l : LC F, (∀ v, Occurs l.terms v → v.InRange s.inputAssignment.length s.auxAssignment.length) →
        l.eval (assign s.inputAssignment s.auxAssignment) = l.eval (assign s'.inputAssignment s'.auxAssignment) := by
      intro l hl
      refine LC.eval_congr' fun v hv => ?_
      rw [h3, h4, assign_append _ _ _ _ v (hl v hv)]
    refine ⟨h1, h2, h3, h4, by simpa using h5, by simpa using h6, ?_, ?_, ?_, ?_, ?_, ?_⟩
    · rw [h7, ea, key a fun v hv => sc v (.inl hv)]; simp
    · rw [h8, eb, key b fun v hv => sc v (.inr (.inl hv))]; simp
    · rw [h9, ec, key c fun v hv => sc v (.inr (.inr hv))]; simp
    · intro i; rw [h10 i, d1 i]; simp [or_assoc]
    · intro i; rw [h11 i, d2 i]; simp [or_assoc]
    · intro i; rw [h12 i, d3 i]; simp [or_assoc]
  | push n k ih =>
    obtain ⟨t, he, hr⟩ := ih hw h
    refine ⟨_ :: t, .push he, ?_⟩
    obtain ⟨h1, h2, h3, h4, h5, h6, h7, h8, h9, h10, h11, h12⟩ := hr
    exact ⟨h1, h2, h3, h4, by simpa using h5, by simpa using h6, h7, h8, h9, h10, h11, h12⟩
  | pop k ih =>
    obtain ⟨t, he, hr⟩ := ih hw h
    refine ⟨_ :: t, .pop he, ?_⟩
    obtain ⟨h1, h2, h3, h4, h5, h6, h7, h8, h9, h10, h11, h12⟩ := hr
    exact ⟨h1, h2, h3, h4, by simpa using h5, by simpa using h6, h7, h8, h9, h10, h11, h12⟩

end ProvingAssignment

end Bellman
