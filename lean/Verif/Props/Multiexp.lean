import Verif.Proofs.Multiexp
import Verif.FieldInstances

/-!
# C24, C25: multiexponentiation
-/

set_option linter.unusedSectionVars false

namespace Bellman

open PrimeField

variable {F G : Type} [PrimeField F] [AddCommGroup G] [Module F G] [DecidableEq G]

/-! ## Specification -/

/-- The exponents for which a base is taken from the source: all of them, or those whose bit in the tracker is set. -/
def queried : QueryDensity → List F → List F
  | .full, es => es
  | .tracker d, es => (es.zip d.bv).filterMap fun x => if x.2 then some x.1 else none

theorem selected_eq (q : QueryDensity) (es : List F) : selected q es = queried q es := by
  cases q with
  | full =>
    show ((es.map fun e => (e, true)).filter (·.2)).map (·.1) = es
    induction es with
    | nil => rfl
    | cons e es ih => simpa using ih
  | tracker d =>
    show ((es.zip d.bv).filter (·.2)).map (·.1) = (es.zip d.bv).filterMap fun x => if x.2 then some x.1 else none
    generalize es.zip d.bv = l
    induction l with
    | nil => rfl
    | cons x l ih => obtain ⟨e, b⟩ := x; cases b <;> simpa using ih

/-- The density has the size `multiexp` asserts. -/
def Fits (q : QueryDensity) (n : ℕ) : Prop :=
  match q with
  | .full => True
  | .tracker d => d.bv.length = n

/-- Too few bases are left in the source. -/
def Short (src : BaseSource G) (q : QueryDensity) (es : List F) : Prop := src.bases.length - src.pos < (queried q es).length

/-- The `i`-th queried exponent is `e`, and its base is the identity. -/
def IdentityAt (src : BaseSource G) (q : QueryDensity) (es : List F) (i : ℕ) (e : F) : Prop :=
  (queried q es)[i]? = some e ∧ src.bases[src.pos + i]? = some 0

/-- Number of the lowest bit of the topmost window: with window size `c` the windows start at `0, c, 2c, …` below `NUM_BITS`. -/
def topWindowStart (F : Type) [PrimeField F] (c : ℕ) : ℕ := c * ((NUM_BITS F + (c - 1)) / c - 1)

theorem zipWith_sum_range (es : List F) (bs : List G) (h : es.length ≤ bs.length) :
    (List.zipWith (fun e b => e • b) es bs).sum = ∑ i ∈ Finset.range es.length, es.getD i 0 • bs.getD i 0 := by
  induction es generalizing bs with
  | nil => simp
  | cons e es ih =>
    cases bs with
    | nil => simp at h
    | cons b bs =>
      rw [List.zipWith_cons_cons, List.sum_cons, ih bs (by simpa using h), List.length_cons, Finset.sum_range_succ', add_comm]
      simp

private theorem inner_cases (w : Worker) (src : BaseSource G) (q : QueryDensity) (es : List F) (c : ℕ) (hc : 0 < c)
    (hc64 : c < 64) :
    (∃ i e, IdentityAt src q es i e ∧ e ≠ 0 ∧ (Short src q es → 2 ^ topWindowStart F c ≤ val e) ∧
        multiexpInner F w src q (es.map Exponent.ofField) c = some (.error .unexpectedIdentity)) ∨
    ((∀ i e, IdentityAt src q es i e → val e < 2 ^ topWindowStart F c) ∧ Short src q es ∧
        multiexpInner F w src q (es.map Exponent.ofField) c = some (.error (.ioError .unexpectedEof))) ∨
    ((∀ i e, IdentityAt src q es i e → e = 0) ∧ ¬ Short src q es ∧
        multiexpInner F w src q (es.map Exponent.ofField) c =
          some (.ok (∑ i ∈ Finset.range (queried q es).length, (queried q es).getD i 0 • src.bases.getD (src.pos + i) 0))) := by
  have hs := multiexpInner_spec w src q es c hc hc64 _ (selected_eq q es) _ rfl
  simp only [List.length_drop, List.getElem?_drop] at hs
  rcases hs with ⟨i, e, h1, h2, h3, h4, h5⟩ | ⟨h1, h2, h3⟩ | ⟨h1, h2, h3⟩
  · exact .inl ⟨i, e, ⟨h1, h2⟩, h3, h4, h5⟩
  · exact .inr (.inl ⟨fun i e h => h1 i e h.1 h.2, h2, h3⟩)
  · refine .inr (.inr ⟨fun i e h => h1 i e h.1 h.2, not_lt.2 h2, ?_⟩)
    rw [h3, zipWith_sum_range _ _ (by rw [List.length_drop]; exact h2)]
    congr 2
    refine Finset.sum_congr rfl fun i _ => ?_
    simp [List.getD]

private theorem multiexp_inner (w : Worker) (src : BaseSource G) (q : QueryDensity) (es : List F)
    (hq : Fits q es.length) :
    multiexp F w src q (es.map Exponent.ofField) =
      multiexpInner F w src q (es.map Exponent.ofField) (windowSize es.length) := by
  unfold multiexp
  cases q with
  | full => simp [QueryDensity.querySize]
  | tracker d =>
    have : d.bv.length = es.length := hq
    simp [QueryDensity.querySize, this]

/-! ## C24 -/

/-- C24: with enough bases, none of which is an identity with a non-zero exponent, `multiexp` returns the sum over the queried
exponents of exponent times the matching base, for every worker. -/
theorem C24_multiexp (w : Worker) (src : BaseSource G) (q : QueryDensity) (es : List F) (hlen : es.length < 2 ^ 32)
    (hq : Fits q es.length) (henough : ¬ Short src q es) (hid : ∀ i e, IdentityAt src q es i e → e = 0) :
    multiexp F w src q (es.map Exponent.ofField) =
      some (.ok (∑ i ∈ Finset.range (queried q es).length, (queried q es).getD i 0 • src.bases.getD (src.pos + i) 0)) := by
  rw [multiexp_inner w src q es hq]
  obtain ⟨h1, h2⟩ := windowSize_bounds es.length hlen
  rcases inner_cases w src q es _ h1 h2 with ⟨i, e, h, h0, _⟩ | ⟨_, h, _⟩ | ⟨_, _, h⟩
  · exact absurd (hid i e h) h0
  · exact absurd h henough
  · exact h

/-- C24: the same for every window size the shift allows. -/
theorem C24_window (w : Worker) (src : BaseSource G) (q : QueryDensity) (es : List F) (c : ℕ) (hc : 0 < c) (hc64 : c < 64)
    (henough : ¬ Short src q es) (hid : ∀ i e, IdentityAt src q es i e → e = 0) :
    multiexpInner F w src q (es.map Exponent.ofField) c =
      some (.ok (∑ i ∈ Finset.range (queried q es).length, (queried q es).getD i 0 • src.bases.getD (src.pos + i) 0)) := by
  rcases inner_cases w src q es c hc hc64 with ⟨i, e, h, h0, _⟩ | ⟨_, h, _⟩ | ⟨_, _, h⟩
  · exact absurd (hid i e h) h0
  · exact absurd h henough
  · exact h

private theorem windowSize_cases (n : ℕ) : windowSize n = 0 ∨ (0 < windowSize n ∧ windowSize n < 64) := by
  by_cases h : n < 32
  · exact .inr (windowSize_bounds n (by omega))
  · rcases Nat.eq_zero_or_pos (windowSize n) with h0 | h0
    · exact .inl h0
    · refine .inr ⟨h0, ?_⟩
      by_cases h' : n % 2 ^ 32 < 32
      · unfold windowSize
        rw [if_neg h]
        refine lt_of_le_of_lt (Nat.ceil_le.2 (?_ : _ ≤ ((31 : ℕ) : ℝ))) (by norm_num)
        refine (Real.log_le_self (by positivity)).trans ?_
        exact_mod_cast (by omega)
      · have := (windowSize_bounds (n % 2 ^ 32) (Nat.mod_lt _ (by norm_num))).2
        unfold windowSize at this ⊢
        rw [if_neg h', Nat.mod_mod] at this
        rwa [if_neg h]

/-- C24, without a bound on the number of exponents: whenever `multiexp` returns `Ok`, there were enough bases, no identity met a
non-zero exponent, and the result is the sum. -/
theorem C24_ok (w : Worker) (src : BaseSource G) (q : QueryDensity) (es : List F) (r : G)
    (h : multiexp F w src q (es.map Exponent.ofField) = some (.ok r)) :
    Fits q es.length ∧ ¬ Short src q es ∧ (∀ i e, IdentityAt src q es i e → e = 0) ∧
      r = ∑ i ∈ Finset.range (queried q es).length, (queried q es).getD i 0 • src.bases.getD (src.pos + i) 0 := by
  have hq : Fits q es.length := by
    cases q with
    | full => trivial
    | tracker d =>
      by_contra hc
      have : multiexp F w src (.tracker d) (es.map Exponent.ofField) = none := by
        unfold multiexp
        have : d.bv.length ≠ es.length := hc
        simp [QueryDensity.querySize, this]
      rw [this] at h
      cases h
  refine ⟨hq, ?_⟩
  rw [multiexp_inner w src q es hq] at h
  rcases windowSize_cases es.length with h0 | ⟨h1, h2⟩
  · exfalso
    unfold multiexpInner at h
    rw [h0] at h
    simp at h
  · rcases inner_cases w src q es _ h1 h2 with ⟨i, e, _, _, _, hr⟩ | ⟨_, _, hr⟩ | ⟨a, b, hr⟩
    · rw [hr] at h; cases h
    · rw [hr] at h; cases h
    · rw [hr] at h
      cases h
      exact ⟨b, a, rfl⟩

/-- C24: of the source only as many bases matter as exponents are queried. Two sources that agree on those, from their positions on
(also in where they end), give the same outcome, success or not. -/
theorem C24_bases (w : Worker) (src src' : BaseSource G) (q : QueryDensity) (es : List F)
    (h : ∀ i < (queried q es).length, src.bases[src.pos + i]? = src'.bases[src'.pos + i]?) :
    multiexp F w src q (es.map Exponent.ofField) = multiexp F w src' q (es.map Exponent.ofField) := by
  by_cases hq : Fits q es.length
  swap
  · have : ∀ src : BaseSource G, multiexp F w src q (es.map Exponent.ofField) = none := by
      intro src
      cases q with
      | full => exact absurd trivial hq
      | tracker d =>
        unfold multiexp
        have : d.bv.length ≠ es.length := hq
        simp [QueryDensity.querySize, this]
    rw [this, this]
  rw [multiexp_inner w src q es hq, multiexp_inner w src' q es hq]
  rcases windowSize_cases es.length with h0 | ⟨h1, h2⟩
  · have : ∀ src : BaseSource G, multiexpInner F w src q (es.map Exponent.ofField) (windowSize es.length) = none := by
      intro src
      unfold multiexpInner
      rw [h0]
      simp
    rw [this, this]
  have hid : ∀ i e, IdentityAt src q es i e ↔ IdentityAt src' q es i e := by
    intro i e
    constructor
    · rintro ⟨a, b⟩
      exact ⟨a, by rw [← h i (List.getElem?_eq_some_iff.1 a).1, b]⟩
    · rintro ⟨a, b⟩
      exact ⟨a, by rw [h i (List.getElem?_eq_some_iff.1 a).1, b]⟩
  have hsh : Short src q es ↔ Short src' q es := by
    unfold Short
    rcases Nat.eq_zero_or_pos (queried q es).length with h0 | h0
    · omega
    · have := h ((queried q es).length - 1) (by omega)
      have key : ∀ s : BaseSource G, s.bases.length - s.pos < (queried q es).length ↔ s.bases[s.pos + ((queried q es).length - 1)]? = none := by
        intro s
        rw [List.getElem?_eq_none_iff]
        omega
      rw [key, key, this]
  rcases inner_cases w src q es _ h1 h2 with ⟨i, e, a1, a2, a3, a4⟩ | ⟨a1, a2, a3⟩ | ⟨a1, a2, a3⟩ <;>
    rcases inner_cases w src' q es _ h1 h2 with ⟨i', e', b1, b2, b3, b4⟩ | ⟨b1, b2, b3⟩ | ⟨b1, b2, b3⟩
  · rw [a4, b4]
  · exact absurd (b1 i e ((hid i e).1 a1)) (not_lt.2 (a3 (hsh.2 b2)))
  · exact absurd (b1 i e ((hid i e).1 a1)) a2
  · exact absurd (a1 i' e' ((hid i' e').2 b1)) (not_lt.2 (b3 (hsh.1 a2)))
  · rw [a3, b3]
  · exact absurd (hsh.1 a2) b2
  · exact absurd (a1 i' e' ((hid i' e').2 b1)) b2
  · exact absurd (hsh.2 b2) a2
  · rw [a3, b3]
    congr 2
    refine Finset.sum_congr rfl fun i hi => ?_
    rw [List.getD_eq_getElem?_getD (l := src.bases), List.getD_eq_getElem?_getD (l := src'.bases), h i (Finset.mem_range.1 hi)]

example (w : Worker) : multiexp DummyFr w (⟨[3, 5, 7], 1⟩ : BaseSource DummyFr) .full (([2, 4] : List DummyFr).map Exponent.ofField) =
    multiexp DummyFr w (⟨[5, 7, 0], 0⟩ : BaseSource DummyFr) .full (([2, 4] : List DummyFr).map Exponent.ofField) :=
  C24_bases w _ _ .full ([2, 4] : List DummyFr) fun i hi => by
    have hi : i < 2 := hi
    rcases i with _ | _ | i
    · rfl
    · rfl
    · omega

/-- C24: neither the number of threads nor the schedule influences any outcome, success or not. -/
theorem C24_schedule (w w' : Worker) (src : BaseSource G) (q : QueryDensity) (exps : List Exponent) :
    multiexp F w src q exps = multiexp F w' src q exps := by
  unfold multiexp multiexpInner
  simp only [Worker.runTasks_eq]

/-- C24 for the trivial density: all bases from the given position on. -/
theorem C24_full (w : Worker) (bases : List G) (es : List F) (pos : ℕ) (hlen : es.length < 2 ^ 32)
    (henough : pos + es.length ≤ bases.length) (hid : ∀ i < es.length, bases.getD (pos + i) 0 ≠ 0) :
    multiexp F w ⟨bases, pos⟩ .full (es.map Exponent.ofField) =
      some (.ok (∑ i ∈ Finset.range es.length, es.getD i 0 • bases.getD (pos + i) 0)) := by
  refine C24_multiexp w _ _ _ hlen trivial ?_ ?_
  · unfold Short queried; simp only; omega
  · rintro i e ⟨h1, h2⟩
    have hi : i < es.length := (List.getElem?_eq_some_iff.1 h1).1
    exact absurd (by simp [List.getD, show bases[pos + i]? = some 0 from h2]) (hid i hi)

/-- Non-vacuity: a source with an offset, a tracker that leaves out the second exponent, and exponents zero (whose base is the
identity), one and larger ones, over the BLS12-381 scalar field as a group. -/
example (w : Worker) :
    multiexp BlsScalar w ⟨([9, 7, 5, 0] : List BlsScalar), 1⟩ (.tracker ⟨[true, false, true, true]⟩)
      (([3, 11, 1, 0] : List BlsScalar).map Exponent.ofField) = some (.ok (3 * 7 + 1 * 5)) := by
  rw [C24_multiexp w _ (.tracker ⟨[true, false, true, true]⟩) ([3, 11, 1, 0] : List BlsScalar) (by norm_num) rfl]
  · simp [queried, Finset.sum_range_succ]
  · simp [Short, queried]
  · rintro i e ⟨h1, h2⟩
    simp only [queried, List.zip_cons_cons, List.zip_nil_left, List.filterMap_cons, List.filterMap_nil, if_true] at h1
    rcases i with _ | _ | _ | i
    · simp at h2; exact absurd h2 (by decide +kernel)
    · simp at h2; exact absurd h2 (by decide +kernel)
    · simpa using h1.symm
    · simp at h1

/-! ## C25 -/

/-- C25: `multiexp` succeeds exactly when the source holds enough bases and no queried base with non-zero exponent is the
identity. -/
theorem C25_ok (w : Worker) (src : BaseSource G) (q : QueryDensity) (es : List F) (hlen : es.length < 2 ^ 32)
    (hq : Fits q es.length) :
    (∃ r, multiexp F w src q (es.map Exponent.ofField) = some (.ok r)) ↔
      ¬ Short src q es ∧ ∀ i e, IdentityAt src q es i e → e = 0 := by
  rw [multiexp_inner w src q es hq]
  obtain ⟨h1, h2⟩ := windowSize_bounds es.length hlen
  rcases inner_cases w src q es _ h1 h2 with ⟨i, e, h, h0, _, hr⟩ | ⟨_, h, hr⟩ | ⟨h, h', hr⟩
  · rw [hr]
    exact ⟨fun ⟨r, h⟩ => (by cases h), fun h' => absurd (h'.2 i e h) h0⟩
  · rw [hr]
    exact ⟨fun ⟨r, h⟩ => (by cases h), fun h' => absurd h h'.1⟩
  · exact ⟨fun _ => ⟨h', h⟩, fun _ => ⟨_, hr⟩⟩

/-- C25: `UnexpectedEof` is returned exactly when bases are missing, unless an identity among the bases that are there meets
an exponent reaching into the topmost window (this window is looked at first). -/
theorem C25_eof (w : Worker) (src : BaseSource G) (q : QueryDensity) (es : List F) (hlen : es.length < 2 ^ 32)
    (hq : Fits q es.length) :
    multiexp F w src q (es.map Exponent.ofField) = some (.error (.ioError .unexpectedEof)) ↔
      Short src q es ∧ ∀ i e, IdentityAt src q es i e → val e < 2 ^ topWindowStart F (windowSize es.length) := by
  rw [multiexp_inner w src q es hq]
  obtain ⟨h1, h2⟩ := windowSize_bounds es.length hlen
  rcases inner_cases w src q es _ h1 h2 with ⟨i, e, h, h0, h3, hr⟩ | ⟨h, h', hr⟩ | ⟨_, h', hr⟩
  · rw [hr]
    refine ⟨fun h => (by cases h), fun h' => ?_⟩
    have := h3 h'.1
    have := h'.2 i e h
    omega
  · exact ⟨fun _ => ⟨h', h⟩, fun _ => hr⟩
  · rw [hr]
    exact ⟨fun h => (by cases h), fun h => absurd h.1 h'⟩

/-- C25: `UnexpectedIdentity` is returned exactly when a queried base that is present is the identity and its exponent is not
zero, and, if bases are missing, reaches into the topmost window. -/
theorem C25_identity (w : Worker) (src : BaseSource G) (q : QueryDensity) (es : List F) (hlen : es.length < 2 ^ 32)
    (hq : Fits q es.length) :
    multiexp F w src q (es.map Exponent.ofField) = some (.error .unexpectedIdentity) ↔
      ∃ i e, IdentityAt src q es i e ∧ e ≠ 0 ∧
        (Short src q es → 2 ^ topWindowStart F (windowSize es.length) ≤ val e) := by
  rw [multiexp_inner w src q es hq]
  obtain ⟨h1, h2⟩ := windowSize_bounds es.length hlen
  rcases inner_cases w src q es _ h1 h2 with ⟨i, e, h, h0, h3, hr⟩ | ⟨h, h', hr⟩ | ⟨h, h', hr⟩
  · exact ⟨fun _ => ⟨i, e, h, h0, h3⟩, fun _ => hr⟩
  · rw [hr]
    refine ⟨fun h => (by cases h), fun ⟨i, e, hi, h0, h3⟩ => ?_⟩
    have := h i e hi
    have := h3 h'
    omega
  · rw [hr]
    refine ⟨fun h => (by cases h), fun ⟨i, e, hi, h0, _⟩ => absurd (h i e hi) h0⟩

/-- C25: these are the only outcomes; in particular there is no panic. -/
theorem C25_total (w : Worker) (src : BaseSource G) (q : QueryDensity) (es : List F) (hlen : es.length < 2 ^ 32)
    (hq : Fits q es.length) :
    (∃ r, multiexp F w src q (es.map Exponent.ofField) = some (.ok r)) ∨
    multiexp F w src q (es.map Exponent.ofField) = some (.error (.ioError .unexpectedEof)) ∨
    multiexp F w src q (es.map Exponent.ofField) = some (.error .unexpectedIdentity) := by
  rw [multiexp_inner w src q es hq]
  obtain ⟨h1, h2⟩ := windowSize_bounds es.length hlen
  rcases inner_cases w src q es _ h1 h2 with ⟨_, _, _, _, _, hr⟩ | ⟨_, _, hr⟩ | ⟨_, _, hr⟩
  · exact .inr (.inr hr)
  · exact .inr (.inl hr)
  · exact .inl ⟨_, hr⟩

/-- C25: a tracker of the wrong size is caught by the assertion. -/
theorem C25_size_mismatch (w : Worker) (src : BaseSource G) (d : DensityTracker) (exps : List Exponent)
    (h : d.bv.length ≠ exps.length) : multiexp F w src (.tracker d) exps = none := by
  unfold multiexp
  simp [QueryDensity.querySize, h]

/-- C25, limit of the length: the window size is computed from the length truncated to 32 bits, so that exactly `2^32`
exponents give window size zero and a panic. -/
theorem C25_length_limit (w : Worker) (src : BaseSource G) (exps : List Exponent) (h : exps.length = 2 ^ 32) :
    multiexp F w src .full exps = none := by
  unfold multiexp multiexpInner
  have : windowSize exps.length = 0 := by
    unfold windowSize
    rw [h]
    norm_num
  simp [QueryDensity.querySize, this]

/-- All three outcomes occur: two exponents, and one base left, with and without an identity in front; the identity is only
reported before the shortage if its exponent is large. -/
example (w : Worker) :
    multiexp DummyFr w ⟨([7] : List DummyFr), 0⟩ .full (([5, 6] : List DummyFr).map Exponent.ofField) =
        some (.error (.ioError .unexpectedEof)) ∧
    multiexp DummyFr w ⟨([7, 0] : List DummyFr), 0⟩ .full (([5, 6] : List DummyFr).map Exponent.ofField) =
        some (.error .unexpectedIdentity) ∧
    multiexp DummyFr w ⟨([0] : List DummyFr), 0⟩ .full (([5, 6] : List DummyFr).map Exponent.ofField) =
        some (.error (.ioError .unexpectedEof)) ∧
    multiexp DummyFr w ⟨([0] : List DummyFr), 0⟩ .full (([64000, 6] : List DummyFr).map Exponent.ofField) =
        some (.error .unexpectedIdentity) := by
  have hws : windowSize 2 = 3 := by simp [windowSize]
  refine ⟨?_, ?_, ?_, ?_⟩
  · rw [C25_eof w _ .full ([5, 6] : List DummyFr) (by norm_num) trivial]
    refine ⟨by simp [Short, queried], ?_⟩
    rintro i e ⟨h1, h2⟩
    rcases i with _ | i
    · simp at h2; exact absurd h2 (by decide +kernel)
    · simp at h2
  · rw [C25_identity w _ .full ([5, 6] : List DummyFr) (by norm_num) trivial]
    exact ⟨1, 6, ⟨rfl, rfl⟩, by decide +kernel, by simp [Short, queried]⟩
  · rw [C25_eof w _ .full ([5, 6] : List DummyFr) (by norm_num) trivial]
    refine ⟨by simp [Short, queried], ?_⟩
    rintro i e ⟨h1, h2⟩
    rcases i with _ | i
    · simp [queried] at h1
      subst h1
      show val (5 : DummyFr) < 2 ^ topWindowStart DummyFr (windowSize 2)
      rw [hws]
      decide +kernel
    · simp at h2
  · rw [C25_identity w _ .full ([64000, 6] : List DummyFr) (by norm_num) trivial]
    refine ⟨0, 64000, ⟨rfl, rfl⟩, by decide +kernel, fun _ => ?_⟩
    show 2 ^ topWindowStart DummyFr (windowSize 2) ≤ val (64000 : DummyFr)
    rw [hws]
    decide +kernel

end Bellman
