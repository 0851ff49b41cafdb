import Verif.TestCS
import Verif.Proofs.TestCS

/-!
# The normal form `proc_lc` and the bytes hashed (src/gadgets/test/mod.rs:71-121, 229-252)
-/

set_option linter.unusedSectionVars false

namespace Bellman

open List

/-! ## The order on variables -/

theorem Var.before_irrefl (v : Var) : v.before v = false := by cases v <;> simp [Var.before]

theorem Var.before_trans {u v w : Var} (h : u.before v = true) (h' : v.before w = true) : u.before w = true := by
  cases u <;> cases v <;> cases w <;> simp_all [Var.before] <;> omega

theorem Var.before_total (u v : Var) : u.before v = true ∨ u = v ∨ v.before u = true := by
  cases u <;> cases v <;> simp [Var.before] <;> omega

/-- Strictly increasing keys (specification). -/
def SortedKeys {F : Type} (m : List (Var × F)) : Prop := m.Pairwise fun a b => a.1.before b.1 = true

theorem SortedKeys.nodup {F : Type} {m : List (Var × F)} (h : SortedKeys m) : (m.map (·.1)).Nodup := by
  rw [List.Nodup, List.pairwise_map]
  refine h.imp fun {a b} hab e => ?_
  rw [e, Var.before_irrefl] at hab
  cases hab

variable {F : Type} [PrimeField F]

/-- The sum of the coefficients of a variable (specification). -/
def coeffSum (v : Var) (ts : List (Var × F)) : F := (ts.map fun t => if t.1 = v then t.2 else 0).sum

theorem coeffSum_cons (v : Var) (t : Var × F) (ts : List (Var × F)) :
    coeffSum v (t :: ts) = (if t.1 = v then t.2 else 0) + coeffSum v ts := rfl

theorem coeffSum_notMem {v : Var} {ts : List (Var × F)} (h : v ∉ ts.map (·.1)) : coeffSum v ts = 0 := by
  induction ts with
  | nil => rfl
  | cons t ts ih =>
    simp only [map_cons, mem_cons, not_or] at h
    rw [coeffSum_cons, if_neg (fun e => h.1 e.symm), zero_add, ih h.2]

theorem coeffSum_mem {v : Var} {c : F} {ts : List (Var × F)} (hn : (ts.map (·.1)).Nodup) (h : (v, c) ∈ ts) :
    coeffSum v ts = c := by
  induction ts with
  | nil => cases h
  | cons t ts ih =>
    simp only [map_cons, nodup_cons] at hn
    rw [coeffSum_cons]
    rcases mem_cons.1 h with rfl | h
    · rw [if_pos rfl, coeffSum_notMem hn.1, add_zero]
    · rw [ih hn.2 h, if_neg, zero_add]
      rintro e
      exact hn.1 (e ▸ mem_map_of_mem (f := (·.1)) h)

theorem entryAdd_keys {v w : Var} {c : F} {m : List (Var × F)} (h : w ∈ (entryAdd v c m).map (·.1)) :
    w = v ∨ w ∈ m.map (·.1) := by
  induction m with
  | nil => simp_all [entryAdd]
  | cons e m ih =>
    obtain ⟨x, d⟩ := e
    unfold entryAdd at h
    split at h
    · right; exact h
    · split at h
      · simpa using h
      · simp only [map_cons, mem_cons] at h ⊢
        rcases h with rfl | h
        · exact .inr (.inl rfl)
        · rcases ih h with h | h
          · exact .inl h
          · exact .inr (.inr h)

theorem entryAdd_sorted {v : Var} {c : F} {m : List (Var × F)} (h : SortedKeys m) : SortedKeys (entryAdd v c m) := by
  induction m with
  | nil => exact List.pairwise_singleton _ _
  | cons e m ih =>
    obtain ⟨x, d⟩ := e
    obtain ⟨h1, h2⟩ := List.pairwise_cons.1 h
    unfold entryAdd
    split
    · exact List.pairwise_cons.2 ⟨h1, h2⟩
    · rename_i hne
      split
      · rename_i hb
        refine List.pairwise_cons.2 ⟨?_, h⟩
        intro b hb'
        rcases mem_cons.1 hb' with rfl | hb'
        · exact hb
        · exact Var.before_trans hb (h1 b hb')
      · rename_i hb
        refine List.pairwise_cons.2 ⟨?_, ih h2⟩
        intro b hb'
        have hxv : x.before v = true := by
          rcases Var.before_total v x with h | h | h
          · exact absurd h hb
          · exact absurd h hne
          · exact h
        rcases entryAdd_keys (mem_map_of_mem (f := (·.1)) hb') with e | hm
        · rw [e]; exact hxv
        · obtain ⟨b', hb2, e⟩ := mem_map.1 hm
          rw [← e]; exact h1 b' hb2

theorem entryAdd_coeffSum (v w : Var) (c : F) (m : List (Var × F)) :
    coeffSum w (entryAdd v c m) = coeffSum w m + if v = w then c else 0 := by
  induction m with
  | nil => simp [entryAdd, coeffSum]
  | cons e m ih =>
    obtain ⟨x, d⟩ := e
    unfold entryAdd
    split
    · rename_i h
      subst h
      simp only [coeffSum_cons]
      split <;> ring
    · split
      · simp only [coeffSum_cons]; ring
      · rw [coeffSum_cons, coeffSum_cons, ih]; ring

/-- The `BTreeMap` before the removal of zeros. -/
private def bmap (ts : List (Var × F)) : List (Var × F) := ts.foldl (fun m t => entryAdd t.1 t.2 m) []

private theorem foldl_entry (ts m : List (Var × F)) (h : SortedKeys m) :
    SortedKeys (ts.foldl (fun m t => entryAdd t.1 t.2 m) m) ∧
    ∀ v, coeffSum v (ts.foldl (fun m t => entryAdd t.1 t.2 m) m) = coeffSum v m + coeffSum v ts := by
  induction ts generalizing m with
  | nil => exact ⟨h, fun v => by simp [coeffSum]⟩
  | cons t ts ih =>
    obtain ⟨h1, h2⟩ := ih (entryAdd t.1 t.2 m) (entryAdd_sorted h)
    refine ⟨h1, fun v => ?_⟩
    rw [foldl_cons, h2, entryAdd_coeffSum, coeffSum_cons, add_assoc]

private theorem bmap_sorted (ts : List (Var × F)) : SortedKeys (bmap ts) := (foldl_entry ts [] List.Pairwise.nil).1
private theorem bmap_coeffSum (ts : List (Var × F)) (v : Var) : coeffSum v (bmap ts) = coeffSum v ts := by
  rw [bmap, (foldl_entry ts [] List.Pairwise.nil).2]; simp [coeffSum]

private theorem foldl_remove (vs : List Var) (m : List (Var × F)) :
    vs.foldl (fun m v => m.filter fun e => e.1 ≠ v) m = m.filter fun e => decide (e.1 ∉ vs) := by
  induction vs generalizing m with
  | nil => simp
  | cons v vs ih =>
    rw [foldl_cons, ih, filter_filter]
    apply filter_congr
    intro e _
    simp [not_or, Bool.and_comm]

theorem procLc_eq (ts : List (Var × F)) : procLc ts = (bmap ts).filter fun e => e.2 ≠ 0 := by
  show ((((bmap ts).filter fun e => e.2 = 0).map (·.1)).foldl (fun m v => m.filter fun e => e.1 ≠ v) (bmap ts)) = _
  rw [foldl_remove]
  apply filter_congr
  intro e he
  have : e.1 ∈ ((bmap ts).filter fun e => e.2 = 0).map (·.1) ↔ e.2 = 0 := by
    constructor
    · intro h
      obtain ⟨e', he', h1⟩ := mem_map.1 h
      obtain ⟨hm, hz⟩ := mem_filter.1 he'
      have hn := (bmap_sorted ts).nodup
      have a := coeffSum_mem (v := e.1) (c := e.2) hn he
      have b := coeffSum_mem (v := e'.1) (c := e'.2) hn hm
      rw [h1] at b
      rw [← a, b]
      simpa using hz
    · intro h
      exact mem_map.2 ⟨e, mem_filter.2 ⟨he, by simpa using h⟩, rfl⟩
  simp only [this, ne_eq]

theorem procLc_sorted (ts : List (Var × F)) : SortedKeys (procLc ts) := by
  rw [procLc_eq]; exact (bmap_sorted ts).filter _

theorem procLc_mem (ts : List (Var × F)) (v : Var) (c : F) : (v, c) ∈ procLc ts ↔ c ≠ 0 ∧ coeffSum v ts = c := by
  rw [procLc_eq, mem_filter, ← bmap_coeffSum]
  constructor
  · rintro ⟨h, hc⟩
    exact ⟨by simpa using hc, coeffSum_mem (bmap_sorted ts).nodup h⟩
  · rintro ⟨hc, h⟩
    refine ⟨?_, by simpa using hc⟩
    by_contra hm
    by_cases hk : v ∈ (bmap ts).map (·.1)
    · obtain ⟨⟨v', c'⟩, hm', rfl⟩ := mem_map.1 hk
      have := coeffSum_mem (bmap_sorted ts).nodup hm'
      simp only at h hm
      rw [this] at h
      subst h
      exact hm hm'
    · rw [coeffSum_notMem hk] at h
      exact hc h.symm

theorem sorted_ext {m m' : List (Var × F)} (h : SortedKeys m) (h' : SortedKeys m') (hm : ∀ x, x ∈ m ↔ x ∈ m') : m = m' := by
  induction m generalizing m' with
  | nil =>
    cases m' with
    | nil => rfl
    | cons a m' => exact absurd ((hm a).2 mem_cons_self) (by simp)
  | cons a m ih =>
    cases m' with
    | nil => exact absurd ((hm a).1 mem_cons_self) (by simp)
    | cons b m' =>
      obtain ⟨h1, h2⟩ := List.pairwise_cons.1 h
      obtain ⟨h1', h2'⟩ := List.pairwise_cons.1 h'
      have hab : a = b := by
        rcases mem_cons.1 ((hm a).1 mem_cons_self) with e | ha
        · exact e
        · rcases mem_cons.1 ((hm b).2 mem_cons_self) with e | hb
          · exact e.symm
          · have := Var.before_trans (h1 b hb) (h1' a ha)
            rw [Var.before_irrefl] at this
            cases this
      subst hab
      congr 1
      apply ih h2 h2'
      intro x
      constructor
      · intro hx
        rcases mem_cons.1 ((hm x).1 (mem_cons_of_mem _ hx)) with rfl | h
        · have := h1 x hx
          rw [Var.before_irrefl] at this
          cases this
        · exact h
      · intro hx
        rcases mem_cons.1 ((hm x).2 (mem_cons_of_mem _ hx)) with rfl | h
        · have := h1' x hx
          rw [Var.before_irrefl] at this
          cases this
        · exact h

theorem procLc_eq_iff (ts ts' : List (Var × F)) : procLc ts = procLc ts' ↔ ∀ v, coeffSum v ts = coeffSum v ts' := by
  constructor
  · intro h v
    by_contra hne
    have key : ∀ a b : List (Var × F), procLc a = procLc b → coeffSum v a ≠ coeffSum v b → coeffSum v a = 0 := by
      intro a b hab hne
      by_contra h0
      have := (procLc_mem a v (coeffSum v a)).2 ⟨h0, rfl⟩
      rw [hab, procLc_mem] at this
      exact hne this.2.symm
    have a := key _ _ h hne
    have b := key _ _ h.symm (Ne.symm hne)
    exact hne (a.trans b.symm)
  · intro h
    refine sorted_ext (procLc_sorted _) (procLc_sorted _) ?_
    rintro ⟨v, c⟩
    rw [procLc_mem, procLc_mem, h]

theorem entryAdd_eval (ρ : Var → F) (v : Var) (c : F) (m : List (Var × F)) :
    LC.eval ρ ⟨entryAdd v c m⟩ = LC.eval ρ ⟨m⟩ + c * ρ v := by
  induction m with
  | nil => simp [entryAdd, LC.eval]
  | cons e m ih =>
    obtain ⟨x, d⟩ := e
    unfold entryAdd
    split
    · rename_i h
      subst h
      simp only [LC.eval, map_cons, sum_cons]; ring
    · split
      · simp only [LC.eval, map_cons, sum_cons]; ring
      · simp only [LC.eval, map_cons, sum_cons] at ih ⊢
        rw [ih]; ring

theorem procLc_eval (ρ : Var → F) (ts : List (Var × F)) : LC.eval ρ ⟨procLc ts⟩ = LC.eval ρ ⟨ts⟩ := by
  have h1 : ∀ m : List (Var × F), LC.eval ρ ⟨m.filter fun e => e.2 ≠ 0⟩ = LC.eval ρ ⟨m⟩ := by
    intro m
    induction m with
    | nil => rfl
    | cons e m ih =>
      rw [filter_cons]
      split
      · simp only [LC.eval, map_cons, sum_cons] at ih ⊢
        rw [ih]
      · rename_i h
        have : e.2 = 0 := by simpa using h
        rw [ih]
        simp [LC.eval, this]
  have h2 : ∀ ts m : List (Var × F), LC.eval ρ ⟨ts.foldl (fun m t => entryAdd t.1 t.2 m) m⟩ =
      LC.eval ρ ⟨m⟩ + LC.eval ρ ⟨ts⟩ := by
    intro ts
    induction ts with
    | nil => intro m; simp [LC.eval]
    | cons t ts ih =>
      intro m
      rw [foldl_cons, ih, entryAdd_eval]
      simp only [LC.eval, map_cons, sum_cons]; ring
  rw [procLc_eq, h1, bmap, h2]
  simp [LC.eval]

/-! ## The bytes hashed -/

theorem u64be_length (n : ℕ) : (u64be n).length = 8 := rfl

theorem u64be_inj {n m : ℕ} (hn : n < 2 ^ 64) (hm : m < 2 ^ 64) (h : u64be n = u64be m) : n = m := by
  simp only [u64be, map_cons, map_nil, cons.injEq, and_true] at h
  obtain ⟨h1, h2, h3, h4, h5, h6, h7, h8⟩ := h
  have key : ∀ k : ℕ, UInt8.ofNat (n >>> k) = UInt8.ofNat (m >>> k) → n / 2 ^ k % 256 = m / 2 ^ k % 256 := by
    intro k h
    have := congrArg UInt8.toNat h
    simpa [UInt8.toNat_ofNat', Nat.shiftRight_eq_div_pow] using this
  have a1 := key _ h1; have a2 := key _ h2; have a3 := key _ h3; have a4 := key _ h4
  have a5 := key _ h5; have a6 := key _ h6; have a7 := key _ h7; have a8 := key _ h8
  norm_num at a1 a2 a3 a4 a5 a6 a7 a8 hn hm
  omega

/-- Indices that fit the 64-bit encoding. -/
def Var.Small : Var → Prop
  | .input i => i < 2 ^ 64
  | .aux i => i < 2 ^ 64

private def headBytes (v : Var) : List UInt8 := match v with | .input i => 73 :: u64be i | .aux i => 65 :: u64be i

private theorem hashLcTerms_cons_some {toRepr : F → List UInt8} {v : Var} {c : F} {m : List (Var × F)} {h : List UInt8}
    (hh : hashLcTerms toRepr ((v, c) :: m) = some h) : (toRepr c).length = 32 ∧ ∃ rest, hashLcTerms toRepr m = some rest ∧
      h = headBytes v ++ (toRepr c).reverse ++ rest := by
  simp only [hashLcTerms, length_reverse] at hh
  split at hh
  · rename_i hl
    obtain ⟨rest, h1, h2⟩ := Option.map_eq_some_iff.1 hh
    refine ⟨hl, rest, h1, ?_⟩
    rw [← h2]
    cases v <;> rfl
  · cases hh

theorem hashLcTerms_inj {toRepr : F → List UInt8} (hinj : Function.Injective toRepr) {m m' : List (Var × F)}
    {h h' x x' : List UInt8} (hl : m.length = m'.length) (hs : ∀ e ∈ m, e.1.Small) (hs' : ∀ e ∈ m', e.1.Small)
    (hh : hashLcTerms toRepr m = some h) (hh' : hashLcTerms toRepr m' = some h') (he : h ++ x = h' ++ x') :
    m = m' ∧ x = x' := by
  induction m generalizing m' h h' with
  | nil =>
    cases m' with
    | nil =>
      simp only [hashLcTerms, Option.some.injEq] at hh hh'
      subst hh; subst hh'
      exact ⟨rfl, he⟩
    | cons a m' => cases hl
  | cons a m ih =>
    cases m' with
    | nil => cases hl
    | cons b m' =>
      obtain ⟨v, c⟩ := a
      obtain ⟨w, d⟩ := b
      obtain ⟨l1, r1, e1, rfl⟩ := hashLcTerms_cons_some hh
      obtain ⟨l2, r2, e2, rfl⟩ := hashLcTerms_cons_some hh'
      have hv := hs _ mem_cons_self
      have hw := hs' _ mem_cons_self
      have hlen : ∀ v : Var, (headBytes v).length = 9 := by
        intro v; cases v <;> rfl
      rw [append_assoc, append_assoc, append_assoc, append_assoc] at he
      obtain ⟨g1, he⟩ := List.append_inj he ((hlen v).trans (hlen w).symm)
      obtain ⟨g2, he⟩ := List.append_inj he (by simp [l1, l2])
      have hc : c = d := hinj (List.reverse_injective g2)
      have hvw : v = w := by
        cases v <;> cases w <;> simp only [headBytes, cons.injEq] at g1
        · rw [u64be_inj hv hw g1.2]
        · exact absurd g1.1 (by decide)
        · exact absurd g1.1 (by decide)
        · rw [u64be_inj hv hw g1.2]
      obtain ⟨h1, h2⟩ := ih (by simpa using hl) (fun e h => hs e (mem_cons_of_mem _ h))
        (fun e h => hs' e (mem_cons_of_mem _ h)) e1 e2 he
      exact ⟨by rw [hc, hvw, h1], h2⟩

theorem hashLc_inj {toRepr : F → List UInt8} (hinj : Function.Injective toRepr) {ts ts' : List (Var × F)}
    {h h' x x' : List UInt8} (hl : (procLc ts).length < 2 ^ 64) (hl' : (procLc ts').length < 2 ^ 64)
    (hs : ∀ e ∈ procLc ts, e.1.Small) (hs' : ∀ e ∈ procLc ts', e.1.Small)
    (hh : hashLc toRepr ts = some h) (hh' : hashLc toRepr ts' = some h') (he : h ++ x = h' ++ x') :
    procLc ts = procLc ts' ∧ x = x' := by
  obtain ⟨r, e1, rfl⟩ := Option.map_eq_some_iff.1 hh
  obtain ⟨r', e2, rfl⟩ := Option.map_eq_some_iff.1 hh'
  rw [append_assoc, append_assoc] at he
  obtain ⟨g, he⟩ := List.append_inj he rfl
  exact hashLcTerms_inj hinj (u64be_inj hl hl' g) hs hs' e1 e2 he

end Bellman
