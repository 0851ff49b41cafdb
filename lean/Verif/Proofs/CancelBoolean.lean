import Verif.Cancel

/-!
# Boolean gadgets and cancelling coefficients
-/

namespace Bellman

open PrimeField

set_option linter.unusedSectionVars false

variable {F : Type} [PrimeField F] {n k : ℕ} {g g' : ℕ → Kind}

/-- The sign with which the literal writes its variable agrees with the kind of the variable. -/
def OkB (g : ℕ → Kind) : Boolean → Prop
  | .constant _ => True
  | .is b => ∃ j, b.var = .aux j ∧ (g j = .safe ∨ g j = .pos)
  | .not b => ∃ j, b.var = .aux j ∧ (g j = .safe ∨ g j = .neg)

/-- The literal is a constant or its variable is safe. -/
def SafeB (g : ℕ → Kind) : Boolean → Prop
  | .constant _ => True
  | .is b | .not b => ∃ j, b.var = .aux j ∧ g j = .safe

/-- Negation on demand. -/
def flipIf (f : Bool) (b : Boolean) : Boolean := if f then b.neg else b

/-- The kind of a variable that is to be written with the given sign. -/
def kappa (f : Bool) : Kind := if f then .neg else .pos

theorem kappa_ne (f : Bool) : kappa f ≠ .safe := by cases f <;> simp [kappa]

theorem Boolean.neg_neg (b : Boolean) : b.neg.neg = b := by cases b <;> simp [Boolean.neg]

theorem flipIf_neg (f : Bool) (b : Boolean) : flipIf f b.neg = flipIf (f ^^ true) b := by
  cases f <;> simp [flipIf, Boolean.neg_neg]

theorem SafeB.neg {b : Boolean} (h : SafeB g b) : SafeB g b.neg := by cases b <;> exact h

theorem SafeB.ok {b : Boolean} (h : SafeB g b) : OkB g b := by
  rcases b with b | b | c
  · obtain ⟨j, h1, h2⟩ := h; exact ⟨j, h1, .inl h2⟩
  · obtain ⟨j, h1, h2⟩ := h; exact ⟨j, h1, .inl h2⟩
  · trivial

theorem SafeB.flip {b : Boolean} (h : SafeB g b) (f : Bool) : OkB g (flipIf f b) := by
  unfold flipIf
  split
  · exact h.neg.ok
  · exact h.ok

theorem okB_is {f : Bool} {r : AllocatedBit} {j : ℕ} (h1 : r.var = .aux j) (h2 : g j = .safe ∨ g j = kappa f) : OkB g (flipIf f (.is r)) := by
  cases f
  · exact ⟨j, h1, h2⟩
  · exact ⟨j, h1, h2⟩

theorem okB_not {f : Bool} {r : AllocatedBit} {j : ℕ} (h1 : r.var = .aux j) (h2 : g j = .safe ∨ g j = kappa (f ^^ true)) :
    OkB g (flipIf f (.not r)) := by
  cases f
  · exact ⟨j, h1, h2⟩
  · exact ⟨j, h1, h2⟩

theorem OkB.ext {b : Boolean} (h : OkB g b) (hk : Known n k b) (e : Ext k g g') : OkB g' b := by
  rcases b with b | b | c
  · obtain ⟨j, h1, h2⟩ := h
    have hj : b.var.InRange n k := hk
    rw [h1] at hj
    rcases e j hj with h3 | h3
    · exact ⟨j, h1, by rw [h3]; exact h2⟩
    · exact ⟨j, h1, .inl h3⟩
  · obtain ⟨j, h1, h2⟩ := h
    have hj : b.var.InRange n k := hk
    rw [h1] at hj
    rcases e j hj with h3 | h3
    · exact ⟨j, h1, by rw [h3]; exact h2⟩
    · exact ⟨j, h1, .inl h3⟩
  · trivial

theorem SafeB.ext {b : Boolean} (h : SafeB g b) (hk : Known n k b) (e : Ext k g g') : SafeB g' b := by
  rcases b with b | b | c
  · obtain ⟨j, h1, h2⟩ := h
    have hj : b.var.InRange n k := hk
    rw [h1] at hj
    exact ⟨j, h1, (e j hj).elim (fun h3 => h3.trans h2) id⟩
  · obtain ⟨j, h1, h2⟩ := h
    have hj : b.var.InRange n k := hk
    rw [h1] at hj
    exact ⟨j, h1, (e j hj).elim (fun h3 => h3.trans h2) id⟩
  · trivial

/-- The variable of a literal. -/
theorem writes_lc {b : Boolean} {c : F} {j : ℕ} (h : (b.lc c).Writes (.aux j)) :
    (∃ v, b = .is ⟨.aux j, v⟩) ∨ ∃ v, b = .not ⟨.aux j, v⟩ := by
  rcases b with ⟨x, v⟩ | ⟨x, v⟩ | d
  · rcases writes_addTerm (show ((LC.zero : LC F) + (c, x)).Writes _ from h) with h | rfl
    · exact (not_writes_zero h).elim
    · exact .inl ⟨v, rfl⟩
  · rcases writes_subTerm (show ((LC.zero : LC F) + (c, Var.one) - (c, x)).Writes _ from h) with h | rfl
    · rcases writes_addTerm h with h | h
      · exact (not_writes_zero h).elim
      · cases h
    · exact .inr ⟨v, rfl⟩
  · cases d
    · exact (not_writes_zero h).elim
    · rcases writes_addTerm (show ((LC.zero : LC F) + (c, Var.one)).Writes _ from h) with h | h
      · exact (not_writes_zero h).elim
      · cases h

theorem SafeB.writes {b : Boolean} {c : F} {j : ℕ} (hb : SafeB g b) (h : (b.lc c).Writes (.aux j)) : g j = .safe := by
  rcases writes_lc h with ⟨v, rfl⟩ | ⟨v, rfl⟩
  · obtain ⟨i, h1, h2⟩ := hb
    cases h1
    exact h2
  · obtain ⟨i, h1, h2⟩ := hb
    cases h1
    exact h2

theorem lc_coeff {b : Boolean} (hb : OkB g b) {x : Var} (h : (b.lc (1 : F)).Writes x) : (b.lc (1 : F)).coeffOf x ≠ 0 := by
  rcases b with b | b | d
  · have h : ((LC.zero : LC F) + ((1 : F), b.var)).Writes x := h
    show ((LC.zero : LC F) + ((1 : F), b.var)).coeffOf x ≠ 0
    rcases writes_addTerm h with h | rfl
    · exact (not_writes_zero h).elim
    · coeffs; simp
  · have h : ((LC.zero : LC F) + ((1 : F), Var.one) - ((1 : F), b.var)).Writes x := h
    show ((LC.zero : LC F) + ((1 : F), Var.one) - ((1 : F), b.var)).coeffOf x ≠ 0
    obtain ⟨j, h1, -⟩ := hb
    rw [h1] at h ⊢
    rcases writes_subTerm h with h | rfl
    · rcases writes_addTerm h with h | rfl
      · exact (not_writes_zero h).elim
      · coeffs; simp [Var.one]
    · coeffs; simp [Var.one]
  · cases d
    · exact (not_writes_zero h).elim
    · have h : ((LC.zero : LC F) + ((1 : F), Var.one)).Writes x := h
      show ((LC.zero : LC F) + ((1 : F), Var.one)).coeffOf x ≠ 0
      rcases writes_addTerm h with h | rfl
      · exact (not_writes_zero h).elim
      · coeffs; simp

theorem SNC.map {α β : Type} {Q : (ℕ → Kind) → β → Prop} {m : Synth F α} {f : α → β} (h : SNC n k g (fun g' a => Q g' (f a)) m) :
    SNC n k g Q (m >>= fun a => Pure.pure (f a)) := by
  intro t r he ht
  rcases Exec.bind_inv he with ⟨_, h2⟩ | ⟨t1, t2, b, rfl, h1, h2⟩
  · cases h2
  · obtain ⟨ht1, ht2⟩ := numbered_append.1 ht
    cases b with
    | ok b =>
      cases h2
      rw [List.append_nil]
      exact h _ _ h1 ht1
    | error e => cases h2

/-- Row of single variables: what is written has a coefficient. -/
theorem rowFine {a b : LC F} (ha : ∀ j, a.Writes (.aux j) → a.coeffOf (.aux j) ≠ 0) (hb : ∀ x, b.Writes x → b.coeffOf x ≠ 0) :
    RowFine g a b := ⟨fun j h => .inr (ha j h), hb⟩

theorem coeff_var {x y : Var} (h : ((⟨[]⟩ : LC F) + y).Writes x) : ((⟨[]⟩ : LC F) + y).coeffOf x ≠ 0 := by
  rcases writes_addVar h with h | rfl
  · exact (not_writes_nil h).elim
  · coeffs; simp

theorem coeff_not {x : Var} {i : ℕ} (h : ((⟨[]⟩ : LC F) + Var.one - Var.aux i).Writes x) :
    ((⟨[]⟩ : LC F) + Var.one - Var.aux i).coeffOf x ≠ 0 := by
  rcases writes_subVar h with h | rfl
  · rcases writes_addVar h with h | rfl
    · exact (not_writes_nil h).elim
    · coeffs; simp [Var.one]
  · coeffs; simp [Var.one]

theorem coeff_two (h2 : (2 : F) ≠ 0) {x y : Var} (h : ((⟨[]⟩ : LC F) + y + y).Writes x) : ((⟨[]⟩ : LC F) + y + y).coeffOf x ≠ 0 := by
  have : x = y := by
    rcases writes_addVar h with h | h
    · rcases writes_addVar h with h | h
      · exact (not_writes_nil h).elim
      · exact h
    · exact h
  subst this
  coeffs
  simp only [if_true, zero_add]
  rwa [one_add_one_eq_two]

namespace AllocatedBit

theorem snc_alloc (v : Option Bool) : SNC n k g (fun g' r => ∃ j, r.var = .aux j ∧ g' j = .safe) (alloc v : Synth F _) := by
  refine SNC.allocBind (κ := .pos) (by simp) fun g' e h v => SNC.enforceBind (rowFine (fun j hj => coeff_not hj) fun x hx => coeff_var hx)
    (SNC.pure ⟨k, rfl, hit_of ?_⟩)
  coeffs
  simp [Var.one]

/-- The kind of the result after a row. -/
theorem hit_kind {a : LC F} {j : ℕ} {κ : Kind} (h : g j = κ) : hit a g j = .safe ∨ hit a g j = κ := by
  unfold hit
  split
  · exact .inl rfl
  · exact .inr h

variable (f : Bool) (a b : AllocatedBit)

theorem snc_xor (h2 : (2 : F) ≠ 0) :
    SNC n k g (fun g' r => r.var = .aux k ∧ (g' k = .safe ∨ g' k = kappa f)) (xor a b : Synth F _) :=
  SNC.captureBind (kappa_ne f) fun _ _ h _ => SNC.enforceBind (rowFine (fun _ hj => coeff_two h2 hj) fun _ hx => coeff_var hx)
    (SNC.pure ⟨rfl, hit_kind h⟩)

theorem snc_and :
    SNC n k g (fun g' r => r.var = .aux k ∧ (g' k = .safe ∨ g' k = kappa f)) (and a b : Synth F _) :=
  SNC.captureBind (kappa_ne f) fun _ _ h _ => SNC.enforceBind (rowFine (fun _ hj => coeff_var hj) fun _ hx => coeff_var hx)
    (SNC.pure ⟨rfl, hit_kind h⟩)

variable {a b}

theorem snc_andNot {i : ℕ} (hb : b.var = .aux i) :
    SNC n k g (fun g' r => r.var = .aux k ∧ (g' k = .safe ∨ g' k = kappa f)) (andNot a b : Synth F _) :=
  SNC.captureBind (kappa_ne f) fun _ _ h _ => SNC.enforceBind (rowFine (fun _ hj => coeff_var hj) fun x hx => by
    rw [hb] at hx ⊢; exact coeff_not hx) (SNC.pure ⟨rfl, hit_kind h⟩)

theorem snc_nor {i j : ℕ} (ha : a.var = .aux i) (hb : b.var = .aux j) :
    SNC n k g (fun g' r => r.var = .aux k ∧ (g' k = .safe ∨ g' k = kappa f)) (nor a b : Synth F _) :=
  SNC.captureBind (kappa_ne f) fun _ _ h _ => SNC.enforceBind (rowFine (fun _ hj => by rw [ha] at hj ⊢; exact coeff_not hj) fun x hx => by
    rw [hb] at hx ⊢; exact coeff_not hx) (SNC.pure ⟨rfl, hit_kind h⟩)

end AllocatedBit

namespace Boolean

variable {a b c : Boolean}

theorem snc_xor (f : Bool) (h2 : (2 : F) ≠ 0) (ha : ∀ c, b = .constant c → OkB g (flipIf (f ^^ c) a))
    (hb : ∀ c, a = .constant c → OkB g (flipIf (f ^^ c) b)) :
    SNC n k g (fun g' r => OkB g' (flipIf f r)) (xor a b : Synth F _) := by
  unfold xor
  split
  · exact SNC.pure (by simpa using hb false rfl)
  · exact SNC.pure (by simpa using ha false rfl)
  · exact SNC.pure (by rw [flipIf_neg]; exact hb true rfl)
  · exact SNC.pure (by rw [flipIf_neg]; exact ha true rfl)
  · refine SNC.map (f := fun r => (Boolean.is r).neg) ((AllocatedBit.snc_xor (f ^^ true) _ _ h2).mono ?_)
    rintro g' r - ⟨h1, h2⟩
    exact okB_not h1 h2
  · refine SNC.map (f := fun r => (Boolean.is r).neg) ((AllocatedBit.snc_xor (f ^^ true) _ _ h2).mono ?_)
    rintro g' r - ⟨h1, h2⟩
    exact okB_not h1 h2
  · refine SNC.map (f := fun r => Boolean.is r) ((AllocatedBit.snc_xor f _ _ h2).mono ?_)
    rintro g' r - ⟨h1, h2⟩
    exact okB_is h1 h2
  · refine SNC.map (f := fun r => Boolean.is r) ((AllocatedBit.snc_xor f _ _ h2).mono ?_)
    rintro g' r - ⟨h1, h2⟩
    exact okB_is h1 h2

theorem snc_and (f : Bool) (ha : SafeB g a) (hb : SafeB g b) : SNC n k g (fun g' r => OkB g' (flipIf f r)) (and a b : Synth F _) := by
  have key : ∀ g' (r : AllocatedBit), Ext k g g' → (r.var = .aux k ∧ (g' k = .safe ∨ g' k = kappa f)) → OkB g' (flipIf f (.is r)) := by
    rintro g' r - ⟨h1, h2⟩
    exact okB_is h1 h2
  have hconst : ∀ d, OkB g (flipIf f (.constant d)) := fun d => by cases f <;> trivial
  unfold and
  split
  · exact SNC.pure (hconst _)
  · exact SNC.pure (hconst _)
  · exact SNC.pure (hb.flip f)
  · exact SNC.pure (ha.flip f)
  · obtain ⟨j, hj, -⟩ := hb
    exact SNC.map (f := Boolean.is) ((AllocatedBit.snc_andNot f hj).mono key)
  · obtain ⟨j, hj, -⟩ := ha
    exact SNC.map (f := Boolean.is) ((AllocatedBit.snc_andNot f hj).mono key)
  · obtain ⟨i, hi, -⟩ := ha
    obtain ⟨j, hj, -⟩ := hb
    exact SNC.map (f := Boolean.is) ((AllocatedBit.snc_nor f hi hj).mono key)
  · exact SNC.map (f := Boolean.is) ((AllocatedBit.snc_and f _ _).mono key)

theorem snc_chAlloc (ha : SafeB g a) (hb : SafeB g b) (hc : SafeB g c) (hka : Known n k a) (hkb : Known n k b) (hkc : Known n k c) :
    SNC n k g OkB (chAlloc a b c : Synth F _) := by
  refine SNC.allocBind (κ := .pos) (by simp) fun g' e h v => SNC.enforceBind ⟨fun j hj => .inl ?_, fun x hx => ?_⟩
    (SNC.pure ⟨k, rfl, AllocatedBit.hit_kind h⟩)
  · rcases writes_subLC hj with hj | hj
    · exact (hb.ext hkb e).writes hj
    · exact (hc.ext hkc e).writes hj
  · exact lc_coeff (ha.ext hka e).ok hx

theorem snc_sha256Ch (ha : SafeB g a) (hb : SafeB g b) (hc : SafeB g c) (hka : Known n k a) (hkb : Known n k b) (hkc : Known n k c) :
    SNC n k g OkB (sha256Ch a b c : Synth F _) := by
  unfold sha256Ch
  split
  · split
    · exact SNC.pure trivial
    · exact SNC.panic
  · exact SNC.pure hc.ok
  · exact snc_and false ha.neg hc
  · exact snc_and false ha hb
  · exact SNC.map (f := Boolean.neg) (snc_and true ha hb.neg)
  · exact SNC.map (f := Boolean.neg) (snc_and true ha.neg hc.neg)
  · exact snc_chAlloc ha hb hc hka hkb hkc
  · exact snc_chAlloc ha hb hc hka hkb hkc

/-- The conjunction of two variables is a fresh variable. -/
theorem snc_and_fresh (ha : SafeB g a) (hb : SafeB g b) (hca : ∀ d, a ≠ .constant d) (hcb : ∀ d, b ≠ .constant d) :
    SNC n k g (fun _ r => ∃ v, r = .is ⟨.aux k, v⟩) (and a b : Synth F _) := by
  have key : ∀ g' (r : AllocatedBit), Ext k g g' → (r.var = .aux k ∧ (g' k = .safe ∨ g' k = kappa false)) →
      ∃ v, Boolean.is r = .is ⟨.aux k, v⟩ := by
    rintro g' ⟨x, v⟩ - ⟨h1, h2⟩
    cases h1
    exact ⟨v, rfl⟩
  unfold and
  split
  · exact (hca _ rfl).elim
  · exact (hcb _ rfl).elim
  · exact (hca _ rfl).elim
  · exact (hcb _ rfl).elim
  · obtain ⟨j, hj, -⟩ := hb
    exact SNC.map (f := Boolean.is) ((AllocatedBit.snc_andNot false hj).mono key)
  · obtain ⟨j, hj, -⟩ := ha
    exact SNC.map (f := Boolean.is) ((AllocatedBit.snc_andNot false hj).mono key)
  · obtain ⟨i, hi, -⟩ := ha
    obtain ⟨j, hj, -⟩ := hb
    exact SNC.map (f := Boolean.is) ((AllocatedBit.snc_nor false hi hj).mono key)
  · exact SNC.map (f := Boolean.is) ((AllocatedBit.snc_and false _ _).mono key)

theorem lc_known {b : Boolean} (hb : Known n k b) {i : ℕ} (hi : k ≤ i) : (b.lc (1 : F)).coeffOf (.aux i) = 0 := by
  refine coeffOf_not_writes fun h => ?_
  rcases writes_lc h with ⟨v, rfl⟩ | ⟨v, rfl⟩
  · exact absurd (show i < k from hb) (by omega)
  · exact absurd (show i < k from hb) (by omega)

theorem snc_majAlloc (hn : 0 < n) (h2 : (2 : F) ≠ 0) (ha : SafeB g a) (hb : SafeB g b) (hc : SafeB g c) (hka : Known n k a) (hkb : Known n k b)
    (hkc : Known n k c) (hcb : ∀ d, b ≠ .constant d) (hcc : ∀ d, c ≠ .constant d) :
    SNC n k g OkB (majAlloc a b c : Synth F _) := by
  refine SNC.allocBind (κ := .pos) (by simp) fun g1 e1 h1 v => ?_
  have hkb' : Known n (k + 1) b := by known
  have hkc' : Known n (k + 1) c := by known
  have hka' : Known n (k + 1) a := by known
  refine SNC.bind (SNC.inNs _ (snc_and_fresh (hb.ext hkb e1) (hc.ext hkc e1) hcb hcc)) (SLocal.inNs _ (slocal_and hn hkb' hkc')) fun k2 g2 bc hk2 e2 _ hbc => ?_
  obtain ⟨w, rfl⟩ := hbc
  have hb2 := (hb.ext hkb e1).ext hkb' e2
  have hc2 := (hc.ext hkc e1).ext hkc' e2
  have ha2 := (ha.ext hka e1).ext hka' e2
  have hr2 : g2 k = .safe ∨ g2 k = .pos := by
    rcases e2 k (by omega) with h | h
    · exact .inr (h.trans h1)
    · exact .inl h
  refine SNC.enforceBind ⟨fun j hj => ?_, fun x hx => lc_coeff ha2.ok hx⟩ (SNC.pure ⟨k, rfl, ?_⟩)
  · rcases writes_subLC hj with hj | hj
    · rcases writes_subLC hj with hj | hj
      · have : j = k + 1 := by
          rcases writes_addLC hj with hj | hj
          · rcases writes_lc hj with ⟨v, hv⟩ | ⟨v, hv⟩ <;> cases hv
            rfl
          · rcases writes_lc hj with ⟨v, hv⟩ | ⟨v, hv⟩ <;> cases hv
            rfl
        subst this
        refine .inr ?_
        have hB : (b.lc (1 : F)).coeffOf (.aux (k + 1)) = 0 := lc_known hkb (by omega)
        have hC : (c.lc (1 : F)).coeffOf (.aux (k + 1)) = 0 := lc_known hkc (by omega)
        have hI : ((Boolean.is ⟨.aux (k + 1), w⟩).lc (1 : F)).coeffOf (.aux (k + 1)) = 1 := by
          show ((LC.zero : LC F) + ((1 : F), Var.aux (k + 1))).coeffOf _ = 1
          coeffs
          simp
        simp only [coeffOf_subLC, coeffOf_addLC, hB, hC, hI, sub_zero]
        rwa [one_add_one_eq_two]
      · exact .inl (hb2.writes hj)
    · exact .inl (hc2.writes hj)
  · unfold hit
    split
    · exact .inl rfl
    · exact hr2

theorem snc_sha256Maj (hn : 0 < n) (h2 : (2 : F) ≠ 0) (ha : SafeB g a) (hb : SafeB g b) (hc : SafeB g c) (hka : Known n k a) (hkb : Known n k b)
    (hkc : Known n k c) : SNC n k g OkB (sha256Maj a b c : Synth F _) := by
  unfold sha256Maj
  split
  · split
    · exact SNC.pure trivial
    · exact SNC.panic
  · exact snc_and false hb hc
  · exact snc_and false ha hc
  · exact snc_and false ha hb
  · exact SNC.map (f := Boolean.neg) (snc_and true ha.neg hb.neg)
  · exact SNC.map (f := Boolean.neg) (snc_and true ha.neg hc.neg)
  · exact SNC.map (f := Boolean.neg) (snc_and true hb.neg hc.neg)
  · refine snc_majAlloc hn h2 ha hb hc hka hkb hkc ?_ ?_
    · rintro (_ | _) rfl <;> simp_all
    · rintro (_ | _) rfl <;> simp_all

end Boolean

end Bellman
