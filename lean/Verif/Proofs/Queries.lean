import Verif.Props.Multiexp

/-!
# Multi-exponentiation over filtered queries

The key generator removes identities from the A and B queries; the prover walks the queries with density trackers. When the two
agree on the number of elements they agree on the elements.
-/

namespace Bellman

open PrimeField

set_option linter.unusedSectionVars false

variable {F G : Type} [PrimeField F] [AddCommGroup G] [Module F G] [DecidableEq G]

/-- The elements whose bit is set. -/
def sel {α : Type} (bits : List Bool) (xs : List α) : List α := (xs.zip bits).filterMap fun x => if x.2 then some x.1 else none

@[simp] theorem sel_nil {α : Type} (bits : List Bool) : sel bits ([] : List α) = [] := by simp [sel]
@[simp] theorem sel_cons_true {α : Type} (bits : List Bool) (x : α) (xs : List α) : sel (true :: bits) (x :: xs) = x :: sel bits xs := by
  simp [sel]
@[simp] theorem sel_cons_false {α : Type} (bits : List Bool) (x : α) (xs : List α) : sel (false :: bits) (x :: xs) = sel bits xs := by
  simp [sel]

theorem sel_length {α : Type} (bits : List Bool) (xs : List α) (h : xs.length = bits.length) : (sel bits xs).length = bits.count true := by
  induction xs generalizing bits with
  | nil =>
    have : bits = [] := List.length_eq_zero_iff.1 (by simpa using h.symm)
    subst this; rfl
  | cons x xs ih =>
    cases bits with
    | nil => simp at h
    | cons b bits => cases b <;> simp [ih bits (by simpa using h)]

theorem sel_true {α : Type} (xs : List α) : sel (List.replicate xs.length true) xs = xs := by
  induction xs with
  | nil => rfl
  | cons x xs ih => rw [List.length_cons, List.replicate_succ, sel_cons_true, ih]

/-- The bits of a density for `n` exponents. -/
def bitsOf : QueryDensity → ℕ → List Bool
  | .full, n => List.replicate n true
  | .tracker d, _ => d.bv

theorem queried_eq_sel (q : QueryDensity) (es : List F) : queried q es = sel (bitsOf q es.length) es := by
  cases q with
  | full => exact (sel_true es).symm
  | tracker d => rfl

theorem bitsOf_length (q : QueryDensity) (n : ℕ) (h : Fits q n) : (bitsOf q n).length = n := by
  cases q with
  | full => simp [bitsOf]
  | tracker d => exact h

/-- Bits are set wherever the value is not the identity. -/
def Covers (vals : List G) (bits : List Bool) : Prop := List.Forall₂ (fun v b => v ≠ 0 → b = true) vals bits

/-- Bits are set exactly where the value is not the identity. -/
def Exactly (vals : List G) (bits : List Bool) : Prop := List.Forall₂ (fun v b => v ≠ 0 ↔ b = true) vals bits

theorem Exactly.covers {vals : List G} {bits : List Bool} (h : Exactly vals bits) : Covers vals bits :=
  List.Forall₂.imp (fun _ _ h => h.1) h

theorem Covers.length_le {vals : List G} {bits : List Bool} (h : Covers vals bits) : (vals.filter (· ≠ 0)).length ≤ bits.count true := by
  induction h with
  | nil => simp
  | @cons v b vals bits hv _ ih =>
    by_cases h0 : v = 0
    · subst h0
      cases b <;> simp at ih ⊢ <;> omega
    · obtain rfl := hv h0
      simp [h0] at ih ⊢
      omega

theorem Covers.exactly {vals : List G} {bits : List Bool} (h : Covers vals bits)
    (hc : bits.count true ≤ (vals.filter (· ≠ 0)).length) : Exactly vals bits := by
  induction h with
  | nil => exact .nil
  | @cons v b vals bits hv hr ih =>
    have hle := Covers.length_le hr
    by_cases h0 : v = 0
    · subst h0
      cases b with
      | false => exact .cons (by simp) (ih (by simpa using hc))
      | true =>
        simp at hc hle
        omega
    · obtain rfl := hv h0
      refine .cons (by simp [h0]) (ih ?_)
      simp [h0] at hc ⊢
      omega

theorem Exactly.filter_eq {vals : List G} {bits : List Bool} (h : Exactly vals bits) : vals.filter (· ≠ 0) = sel bits vals := by
  induction h with
  | nil => rfl
  | @cons v b vals bits hv _ ih =>
    cases b with
    | false =>
      have : v = 0 := by simpa using hv
      subst this
      simpa using ih
    | true =>
      have : v ≠ 0 := by simpa using hv
      simp only [sel_cons_true]
      rw [← ih, List.filter_cons_of_pos (by simpa using this)]

theorem Covers.sum_eq {vals : List G} {bits : List Bool} (h : Covers vals bits) (es : List F) (hl : es.length = bits.length) :
    (List.zipWith (fun e b => e • b) (sel bits es) (sel bits vals)).sum = (List.zipWith (fun e b => e • b) es vals).sum := by
  induction h generalizing es with
  | nil =>
    have : es = [] := List.length_eq_zero_iff.1 (by simpa using hl)
    subst this; rfl
  | @cons v b vals bits hv _ ih =>
    cases es with
    | nil => simp at hl
    | cons e es =>
      have ih := ih es (by simpa using hl)
      cases b with
      | false =>
        have : v = 0 := by
          by_contra h0
          exact absurd (hv h0) (by simp)
        subst this
        simpa using ih
      | true => simp [ih]

theorem zipWith_append_right (f : F → G → G) (es : List F) (bs rest : List G) (h : es.length = bs.length) :
    List.zipWith f es (bs ++ rest) = List.zipWith f es bs := by
  induction es generalizing bs with
  | nil => simp
  | cons e es ih =>
    cases bs with
    | nil => simp at h
    | cons b bs => simp [ih bs (by simpa using h)]

/-- The sum computed by `multiexp` when the source holds the selected values. -/
theorem query_sum (bases : List G) (pos : ℕ) (q : QueryDensity) (es : List F) (vals rest : List G) (hq : Fits q es.length)
    (hc : Covers vals (bitsOf q es.length)) (hb : bases.drop pos = sel (bitsOf q es.length) vals ++ rest) :
    ∑ i ∈ Finset.range (queried q es).length, (queried q es).getD i 0 • bases.getD (pos + i) 0 =
      (List.zipWith (fun e b => e • b) es vals).sum := by
  have hlen := bitsOf_length q es.length hq
  have hvl : vals.length = (bitsOf q es.length).length := List.Forall₂.length_eq hc
  have h1 : ∀ i, bases.getD (pos + i) 0 = (bases.drop pos).getD i 0 := by intro i; simp [List.getD]
  simp only [h1]
  rw [queried_eq_sel, ← zipWith_sum_range, hb, zipWith_append_right, hc.sum_eq es hlen.symm]
  · rw [sel_length _ _ hlen.symm, sel_length _ _ hvl]
  · rw [hb, List.length_append, sel_length _ _ hlen.symm, sel_length _ _ hvl]
    omega

/-- Two consecutive queries in one filtered list: if both multi-exponentiations succeed, the trackers mark exactly the elements
that are there, and the results are the sums over all variables. -/
theorem query_pair_ok (w w' : Worker) (valsI valsA : List G) (dI dA : QueryDensity) (esI esA : List F)
    (hI : Covers valsI (bitsOf dI esI.length)) (hA : Covers valsA (bitsOf dA esA.length)) (pos : ℕ)
    (hpos : pos = (bitsOf dI esI.length).count true) (r1 r2 : G)
    (h1 : multiexp F w ⟨(valsI ++ valsA).filter (· ≠ 0), 0⟩ dI (esI.map Exponent.ofField) = some (.ok r1))
    (h2 : multiexp F w' ⟨(valsI ++ valsA).filter (· ≠ 0), pos⟩ dA (esA.map Exponent.ofField) = some (.ok r2)) :
    Exactly valsI (bitsOf dI esI.length) ∧ Exactly valsA (bitsOf dA esA.length) ∧
    r1 = (List.zipWith (fun e b => e • b) esI valsI).sum ∧ r2 = (List.zipWith (fun e b => e • b) esA valsA).sum := by
  obtain ⟨f1, s1, _, e1⟩ := C24_ok w _ dI esI r1 h1
  obtain ⟨f2, s2, _, e2⟩ := C24_ok w' _ dA esA r2 h2
  have l1 := bitsOf_length dI _ f1
  have l2 := bitsOf_length dA _ f2
  unfold Short at s1 s2
  rw [queried_eq_sel, sel_length _ _ l1.symm] at s1
  rw [queried_eq_sel, sel_length _ _ l2.symm] at s2
  simp only [List.filter_append, List.length_append] at s1 s2
  have c1 := hI.length_le
  have c2 := hA.length_le
  have x1 := hI.exactly (by omega)
  have x2 := hA.exactly (by omega)
  refine ⟨x1, x2, ?_, ?_⟩
  · rw [e1]
    refine query_sum _ 0 dI esI valsI (valsA.filter (· ≠ 0)) f1 hI ?_
    rw [List.drop_zero, List.filter_append, x1.filter_eq]
  · rw [e2]
    refine query_sum _ pos dA esA valsA [] f2 hA ?_
    rw [List.filter_append, List.append_nil, x1.filter_eq, x2.filter_eq]
    exact List.drop_left' (by rw [sel_length _ _ (List.Forall₂.length_eq hI), hpos])

/-- Conversely, if the trackers mark exactly the elements that are there, both succeed. -/
theorem query_pair_regular (w w' : Worker) (valsI valsA : List G) (dI dA : QueryDensity) (esI esA : List F)
    (hI : Exactly valsI (bitsOf dI esI.length)) (hA : Exactly valsA (bitsOf dA esA.length)) (pos : ℕ)
    (hpos : pos = (bitsOf dI esI.length).count true) (l1 : esI.length < 2 ^ 32) (l2 : esA.length < 2 ^ 32)
    (f1 : Fits dI esI.length) (f2 : Fits dA esA.length) :
    multiexp F w ⟨(valsI ++ valsA).filter (· ≠ 0), 0⟩ dI (esI.map Exponent.ofField) =
        some (.ok (List.zipWith (fun e b => e • b) esI valsI).sum) ∧
    multiexp F w' ⟨(valsI ++ valsA).filter (· ≠ 0), pos⟩ dA (esA.map Exponent.ofField) =
        some (.ok (List.zipWith (fun e b => e • b) esA valsA).sum) := by
  have b1 := bitsOf_length dI _ f1
  have b2 := bitsOf_length dA _ f2
  have hv1 : valsI.length = (bitsOf dI esI.length).length := List.Forall₂.length_eq hI
  have hv2 : valsA.length = (bitsOf dA esA.length).length := List.Forall₂.length_eq hA
  have hid : ∀ (q : QueryDensity) (es : List F) (pos i : ℕ) (e : F),
      IdentityAt ⟨(valsI ++ valsA).filter (· ≠ 0), pos⟩ q es i e → e = 0 := by
    rintro q es pos i e ⟨_, h⟩
    have := List.mem_of_getElem? h
    simp at this
  refine ⟨?_, ?_⟩
  · rw [C24_multiexp w _ dI esI l1 f1 ?_ (hid _ _ _)]
    · rw [query_sum _ 0 dI esI valsI (valsA.filter (· ≠ 0)) f1 hI.covers]
      rw [List.drop_zero, List.filter_append, hI.filter_eq]
    · unfold Short
      rw [queried_eq_sel, sel_length _ _ b1.symm]
      simp only [List.filter_append, List.length_append, hI.filter_eq]
      rw [sel_length _ _ hv1]
      omega
  · have hd : ((valsI ++ valsA).filter (· ≠ 0)).drop pos = sel (bitsOf dA esA.length) valsA ++ [] := by
      rw [List.filter_append, List.append_nil, hI.filter_eq, hA.filter_eq]
      exact List.drop_left' (by rw [sel_length _ _ hv1, hpos])
    rw [C24_multiexp w' _ dA esA l2 f2 ?_ (hid _ _ _)]
    · rw [query_sum _ pos dA esA valsA [] f2 hA.covers hd]
    · unfold Short
      rw [queried_eq_sel, sel_length _ _ b2.symm]
      simp only [← List.length_drop, hd]
      rw [List.append_nil, sel_length _ _ hv2]
      omega

end Bellman
