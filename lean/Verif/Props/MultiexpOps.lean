import Verif.MultiexpOps
import Verif.Props.Multiexp
import Mathlib.Data.Nat.Digits.Defs
import Mathlib.Analysis.SpecialFunctions.Log.Basic
import Mathlib.Analysis.Complex.ExponentialBounds

/-!
# C74: how many group operations a multiexponentiation takes
-/

set_option linter.unusedSectionVars false

namespace Bellman

open PrimeField

variable {F G : Type} [PrimeField F] [AddCommGroup G] [Module F G] [DecidableEq G]

/-! ## Specification -/

/-- The number of digits other than zero in base `2^c`. -/
def nonzeroDigits (c : ℕ) (e : F) : ℕ := (Nat.digits (2 ^ c) (val e)).countP (· ≠ 0)

/-- The number of windows of `c` bits. -/
def windows (F : Type) [PrimeField F] (c : ℕ) : ℕ := (NUM_BITS F + (c - 1)) / c

/-! ## One window -/

/-- 1 if a base is added for this exponent in window `k`. -/
private def nz (k : ℕ) (ed : ChunkedExponent × Bool) : ℕ := if ed.2 = true ∧ (ed.1.dig k).getD 0 ≠ 0 then 1 else 0

private theorem meStepC_eq (k : ℕ) (s : MeState G) (n : ℕ) (ed : ChunkedExponent × Bool) :
    meStepC k (s, n) ed = (meStep k s ed).map fun r => r.map fun s' => (s', n + nz k ed) := by
  obtain ⟨ce, b⟩ := ed
  cases b with
  | false => rfl
  | true =>
    have hskip : MeState.skipC (s, n) = s.skip.map fun s' => (s', n) := by
      unfold MeState.skipC MeState.skip
      simp only
      split <;> simp_all [Except.map]
    have hacc : MeState.addAccC (s, n) = s.addAcc.map fun s' => (s', n + 1) := by
      unfold MeState.addAccC MeState.addAcc
      simp only
      split <;> simp_all [Except.map]
    have hbuc : ∀ i, MeState.addBucketC (s, n) i = (s.addBucket i).map fun r => r.map fun s' => (s', n + 1) := by
      intro i
      unfold MeState.addBucketC MeState.addBucket
      simp only
      cases s.buckets[i]? with
      | none => rfl
      | some x => simp only; split <;> simp_all [Except.map]
    cases ce with
    | zero => simp [meStepC, meStep, nz, ChunkedExponent.dig, hskip]
    | one =>
      by_cases h : k = 0
      · simp [meStepC, meStep, nz, ChunkedExponent.dig, hacc, h]
      · simp [meStepC, meStep, nz, ChunkedExponent.dig, hskip, h]
    | chunks cs =>
      rcases hk : cs[k]? with _ | d
      · simp [meStepC, meStep, hk]
      · by_cases hd : d = 0
        · simp [meStepC, meStep, nz, ChunkedExponent.dig, hskip, hk, hd]
        · simp [meStepC, meStep, nz, ChunkedExponent.dig, hbuc, hk, hd]

/-- A step of a window, counted. -/
private def stepC (k : ℕ) (s : Except SynthesisError (MeState G × ℕ)) (ed : ChunkedExponent × Bool) : Option (Except SynthesisError (MeState G × ℕ)) :=
  match s with
  | .error e => some (.error e)
  | .ok s => meStepC k s ed

/-- A step of a window. -/
private def step (k : ℕ) (s : Except SynthesisError (MeState G)) (ed : ChunkedExponent × Bool) : Option (Except SynthesisError (MeState G)) :=
  match s with
  | .error e => some (.error e)
  | .ok s => meStep k s ed

private theorem run_eq (k : ℕ) (pairs : List (ChunkedExponent × Bool)) (s : Except SynthesisError (MeState G)) (n : ℕ) :
    pairs.foldlM (stepC k) (s.map fun s' => (s', n)) =
      (pairs.foldlM (step k) s).map fun r => r.map fun s' => (s', n + (pairs.map (nz k)).sum) := by
  induction pairs generalizing s n with
  | nil => cases s <;> rfl
  | cons ed pairs ih =>
    rw [List.foldlM_cons, List.foldlM_cons, List.map_cons, List.sum_cons, ← Nat.add_assoc]
    cases s with
    | error e => exact ih (.error e) (n + nz k ed)
    | ok s =>
      show (meStepC k (s, n) ed).bind _ = ((meStep k s ed).bind _).map _
      rw [meStepC_eq]
      cases meStep k s ed with
      | none => rfl
      | some r => exact ih r (n + nz k ed)

private theorem meStep_buckets {k : ℕ} {s s' : MeState G} {ed : ChunkedExponent × Bool} (h : meStep k s ed = some (.ok s')) :
    s'.buckets.length = s.buckets.length := by
  have hskip : ∀ s', s.skip = .ok s' → s'.buckets.length = s.buckets.length := by
    intro s' h
    unfold MeState.skip at h
    split at h <;> cases h
    rfl
  have hacc : ∀ s', s.addAcc = .ok s' → s'.buckets.length = s.buckets.length := by
    intro s' h
    unfold MeState.addAcc at h
    split at h <;> cases h
    rfl
  have hbuc : ∀ i s', s.addBucket i = some (.ok s') → s'.buckets.length = s.buckets.length := by
    intro i s' h
    unfold MeState.addBucket at h
    split at h
    · cases h
    · split at h <;> cases h
      simp
  unfold meStep at h
  split at h
  · split at h
    · exact hskip _ (Option.some.inj h)
    · split at h
      · exact hacc _ (Option.some.inj h)
      · exact hskip _ (Option.some.inj h)
    · split at h
      · cases h
      · split at h
        · exact hbuc _ _ h
        · exact hskip _ (Option.some.inj h)
  · cases h; rfl

private theorem run_buckets {k : ℕ} {pairs : List (ChunkedExponent × Bool)} {s s' : MeState G}
    (h : pairs.foldlM (step k) (.ok s) = some (.ok s')) : s'.buckets.length = s.buckets.length := by
  induction pairs generalizing s with
  | nil => cases h; rfl
  | cons ed pairs ih =>
    rw [List.foldlM_cons] at h
    have h : (meStep k s ed).bind (fun r => pairs.foldlM (step k) r) = some (.ok s') := h
    rcases hs : meStep k s ed with _ | ⟨e | s1⟩
    · rw [hs] at h; cases h
    · rw [hs, Option.bind_some] at h
      exfalso
      have key : ∀ l : List (ChunkedExponent × Bool), l.foldlM (step k) (Except.error e : Except SynthesisError (MeState G)) = some (.error e) := by
        intro l
        induction l with
        | nil => rfl
        | cons a l ih => exact ih
      rw [key] at h
      cases h
    · rw [hs, Option.bind_some] at h
      rw [ih h, meStep_buckets hs]

private theorem windowTask_run (src : BaseSource G) (pairs : List (ChunkedExponent × Bool)) (c k : ℕ) :
    (windowTask src pairs c k).run = pairs.foldlM (step k) (.ok { acc := (0 : G), buckets := List.replicate ((1 <<< c) - 1) 0, bases := src }) := by
  unfold Task.run windowTask
  rw [List.foldlM_map]
  rfl

private theorem windowTaskC_run (src : BaseSource G) (pairs : List (ChunkedExponent × Bool)) (c k : ℕ) :
    (windowTaskC src pairs c k).run = ((windowTask src pairs c k).run).map fun r => r.map fun s => (s, (pairs.map (nz k)).sum) := by
  rw [windowTask_run]
  have := run_eq k pairs (.ok { acc := (0 : G), buckets := List.replicate ((1 <<< c) - 1) 0, bases := src }) 0
  rw [Nat.zero_add] at this
  rw [← this]
  unfold Task.run windowTaskC
  rw [List.foldlM_map]
  rfl

private theorem finishC_eq (s : MeState G) : s.finishC = (s.finish, 2 * s.buckets.length) := by
  unfold MeState.finishC MeState.finish
  have key : ∀ (l : List G) (r : G × G) (n : ℕ), l.foldl (fun (r : (G × G) × ℕ) b => ((r.1.1 + b, r.1.2 + (r.1.1 + b)), r.2 + 1 + 1)) (r, n) =
      (l.foldl (fun (r : G × G) b => (r.1 + b, r.2 + (r.1 + b))) r, n + 2 * l.length) := by
    intro l
    induction l with
    | nil => intro r n; rfl
    | cons b l ih =>
      intro r n
      rw [List.foldl_cons, List.foldl_cons, ih, List.length_cons]
      congr 1
      omega
  have := key s.buckets.reverse (0, s.acc) 0
  simp only [this, List.length_reverse, Nat.zero_add]

/-! ## The windows together -/

private theorem doubleC (c : ℕ) (a : G) (o : MeOps) :
    (List.range c).foldl (fun (a : G × MeOps) _ => (a.1 + a.1, { a.2 with doubles := a.2.doubles + 1 })) (a, o) =
      ((List.range c).foldl (fun a _ => a + a) a, { o with doubles := o.doubles + c }) := by
  induction c with
  | zero => rfl
  | succ c ih => rw [List.range_succ, List.foldl_append, List.foldl_append, ih]; rfl

private theorem combineC_eq (c : ℕ) (a : G) (o : MeOps) (ps : List (Except SynthesisError (G × ℕ × ℕ))) :
    combineWindowsC c (a, o) ps = (combineWindows c a (ps.map fun p => p.map Prod.fst)).map fun g =>
      (g, ⟨o.baseAdds + (ps.map fun p => match p with | .ok x => x.2.1 | .error _ => 0).sum,
        o.adds + (ps.map fun p => match p with | .ok x => x.2.2 + 1 | .error _ => 0).sum, o.doubles + ps.length * c⟩) := by
  induction ps generalizing a o with
  | nil => simp [combineWindowsC, combineWindows, Except.map]
  | cons p ps ih =>
    cases p with
    | error e => rfl
    | ok x =>
      simp only [combineWindowsC, doubleC, List.map_cons, Except.map, combineWindows, List.sum_cons, List.length_cons]
      rw [ih]
      simp only [Except.map, Nat.add_assoc, Nat.add_mul, Nat.one_mul, Nat.add_comm c]

private theorem combine_ok_all {c : ℕ} {a r : G} {ps : List (Except SynthesisError G)} (h : combineWindows c a ps = .ok r) :
    ∀ p ∈ ps, ∃ g, p = .ok g := by
  induction ps generalizing a with
  | nil => simp
  | cons p ps ih =>
    cases p with
    | error e => cases h
    | ok g =>
      intro q hq
      rcases List.mem_cons.1 hq with rfl | hq
      · exact ⟨g, rfl⟩
      · exact ih h q hq

private theorem mapM_count {σ : Type} (f : ℕ → Option (Except SynthesisError σ)) (N : ℕ → ℕ) (l : List ℕ) :
    l.mapM (fun k => (f k).map fun r => r.map fun s => (s, N k)) =
      (l.mapM f).map fun ps => List.zipWith (fun (p : Except SynthesisError σ) k => p.map fun s => (s, N k)) ps l := by
  induction l with
  | nil => rfl
  | cons k l ih =>
    rw [List.mapM_cons, List.mapM_cons, ih]
    cases f k with
    | none => rfl
    | some r => cases l.mapM f <;> rfl

/-- The windows, counted or not. -/
private theorem parts_eq (w : Worker) (src : BaseSource G) (pairs : List (ChunkedExponent × Bool)) (c W : ℕ) :
    w.runTasks ((List.range W).map fun k => windowTaskC src pairs c k) =
      (w.runTasks ((List.range W).map fun k => windowTask src pairs c k)).map fun ps =>
        List.zipWith (fun (p : Except SynthesisError (MeState G)) k => p.map fun s => (s, (pairs.map (nz k)).sum)) ps (List.range W) := by
  rw [Worker.runTasks_eq, Worker.runTasks_eq, List.mapM_map, List.mapM_map, ← mapM_count]
  congr 1
  funext k
  exact windowTaskC_run src pairs c k

private theorem parts_length {w : Worker} {src : BaseSource G} {pairs : List (ChunkedExponent × Bool)} {c W : ℕ}
    {ps : List (Except SynthesisError (MeState G))} (h : w.runTasks ((List.range W).map fun k => windowTask src pairs c k) = some ps) :
    ps.length = W ∧ ∀ p ∈ ps, ∀ s, p = .ok s → s.buckets.length = 2 ^ c - 1 := by
  rw [Worker.runTasks_eq, List.mapM_map] at h
  have key : ∀ (l : List ℕ) ps, l.mapM (fun k => (windowTask src pairs c k).run) = some ps → ps.length = l.length ∧
      ∀ p ∈ ps, ∀ s : MeState G, p = .ok s → s.buckets.length = 2 ^ c - 1 := by
    intro l
    induction l with
    | nil => intro ps h; cases h; exact ⟨rfl, by simp⟩
    | cons k l ih =>
      intro ps h
      rw [List.mapM_cons] at h
      rcases hk : (windowTask src pairs c k).run with _ | p
      · rw [hk] at h; cases h
      rcases hl : l.mapM (fun k => (windowTask src pairs c k).run) with _ | ps'
      · rw [hk, hl] at h; cases h
      rw [hk, hl] at h
      cases h
      obtain ⟨h1, h2⟩ := ih ps' hl
      refine ⟨by simp [h1], fun q hq s hs => ?_⟩
      rcases List.mem_cons.1 hq with rfl | hq
      · subst hs
        rw [windowTask_run] at hk
        rw [run_buckets hk]
        simp [Nat.shiftLeft_eq]
      · exact h2 q hq s hs
  obtain ⟨h1, h2⟩ := key _ _ h
  exact ⟨by rw [h1, List.length_range], h2⟩

private theorem innerC_unfold (w : Worker) (src : BaseSource G) (q : QueryDensity) (exps : List Exponent) (c : ℕ) :
    multiexpInnerC F w src q exps c = (exps.mapM fun e : Exponent => e.chunks c).bind fun ces => if 0 < c ∧ c < 64 then
      (w.runTasks ((List.range (windows F c)).map fun k => windowTaskC src (q.zip ces) c k)).bind fun parts =>
        some (combineWindowsC c (0, ⟨0, 0, 0⟩) (parts.map fun p => p.map fun s => (s.1.finishC.1, s.2, s.1.finishC.2)).reverse) else none := by
  unfold multiexpInnerC windows
  show Option.bind _ _ = Option.bind _ _
  congr 1
  funext ces
  by_cases hg : 0 < c ∧ c < 64
  · simp [hg, guard]
  · simp [hg, guard]

private theorem inner_unfold (w : Worker) (src : BaseSource G) (q : QueryDensity) (exps : List Exponent) (c : ℕ) :
    multiexpInner F w src q exps c = (exps.mapM fun e : Exponent => e.chunks c).bind fun ces => if 0 < c ∧ c < 64 then
      (w.runTasks ((List.range (windows F c)).map fun k => windowTask src (q.zip ces) c k)).bind fun parts =>
        some (combineWindows c 0 (parts.map fun p => p.map MeState.finish).reverse) else none := by
  unfold multiexpInner windows
  show Option.bind _ _ = Option.bind _ _
  congr 1
  funext ces
  by_cases hg : 0 < c ∧ c < 64
  · simp [hg, guard]
  · simp [hg, guard]

private theorem zip_fst (N : ℕ → ℕ) (ps : List (Except SynthesisError (MeState G))) (l : List ℕ) (h : ps.length = l.length) :
    ((List.zipWith (fun (p : Except SynthesisError (MeState G)) k => p.map fun s => (s, N k)) ps l).map
      fun p => p.map fun s => (s.1.finishC.1, s.2, s.1.finishC.2)).map (fun p => p.map Prod.fst) = ps.map fun p => p.map MeState.finish := by
  induction ps generalizing l with
  | nil => rfl
  | cons p ps ih =>
    cases l with
    | nil => cases h
    | cons k l =>
      rw [List.zipWith_cons_cons, List.map_cons, List.map_cons, List.map_cons, ih l (by simpa using h)]
      congr 1
      cases p with
      | error e => rfl
      | ok s => simp [Except.map, finishC_eq]

private theorem zip_sums (N : ℕ → ℕ) (B : ℕ) (ps : List (Except SynthesisError (MeState G))) (l : List ℕ) (h : ps.length = l.length)
    (hok : ∀ p ∈ ps, ∃ s, p = .ok s ∧ s.buckets.length = B) :
    (((List.zipWith (fun (p : Except SynthesisError (MeState G)) k => p.map fun s => (s, N k)) ps l).map
      fun p => p.map fun s => (s.1.finishC.1, s.2, s.1.finishC.2)).map fun p => match p with | .ok x => x.2.1 | .error _ => 0).sum = (l.map N).sum ∧
    (((List.zipWith (fun (p : Except SynthesisError (MeState G)) k => p.map fun s => (s, N k)) ps l).map
      fun p => p.map fun s => (s.1.finishC.1, s.2, s.1.finishC.2)).map fun p => match p with | .ok x => x.2.2 + 1 | .error _ => 0).sum =
      l.length * (2 * B + 1) := by
  induction ps generalizing l with
  | nil =>
    have : l = [] := List.length_eq_zero_iff.1 h.symm
    subst this
    simp
  | cons p ps ih =>
    cases l with
    | nil => cases h
    | cons k l =>
      obtain ⟨s, rfl, hs⟩ := hok p (by simp)
      obtain ⟨h1, h2⟩ := ih l (by simpa using h) fun p hp => hok p (by simp [hp])
      simp only [List.zipWith_cons_cons, List.map_cons, List.sum_cons]
      rw [h1, h2]
      refine ⟨rfl, ?_⟩
      simp only [Except.map, finishC_eq, hs, List.length_cons]
      ring

private theorem inner_fst (w : Worker) (src : BaseSource G) (q : QueryDensity) (exps : List Exponent) (c : ℕ) :
    (multiexpInnerC F w src q exps c).map (fun r => r.map Prod.fst) = multiexpInner F w src q exps c := by
  rw [innerC_unfold, inner_unfold]
  rcases exps.mapM (fun e : Exponent => e.chunks c) with _ | ces
  · rfl
  rw [Option.bind_some, Option.bind_some]
  split
  swap
  · rfl
  rw [parts_eq]
  rcases hp : w.runTasks ((List.range (windows F c)).map fun k => windowTask src (q.zip ces) c k) with _ | ps
  · rfl
  obtain ⟨hl, -⟩ := parts_length hp
  rw [Option.map_some, Option.bind_some, Option.bind_some, Option.map_some, combineC_eq]
  simp only [List.map_reverse]
  rw [zip_fst (fun k => ((q.zip ces).map (nz k)).sum) ps (List.range (windows F c)) (by rw [hl, List.length_range])]
  cases combineWindows c 0 (ps.map fun p => p.map MeState.finish).reverse <;> rfl

private theorem nz_sum (c K : ℕ) (L : List (F × Bool)) (pairs : List (ChunkedExponent × Bool))
    (hp : ∀ k < K, List.Forall₂ (fun (x : F × Bool) (y : ChunkedExponent × Bool) => y.2 = x.2 ∧ y.1.dig k = some (digit c k x.1)) L pairs) :
    ((List.range K).map fun k => (pairs.map (nz k)).sum).sum =
      (((L.filter (·.2)).map (·.1)).map fun e => ((List.range K).filter fun k => digit c k e ≠ 0).length).sum := by
  induction L generalizing pairs with
  | nil =>
    rcases Nat.eq_zero_or_pos K with rfl | h
    · simp
    · have := hp 0 h
      cases this
      simp
  | cons x L ih =>
    cases pairs with
    | nil =>
      rcases Nat.eq_zero_or_pos K with rfl | h
      · simp [Function.comp_def]
      · have := hp 0 h
        cases this
    | cons y pairs =>
      have h1 : ∀ k < K, y.2 = x.2 ∧ y.1.dig k = some (digit c k x.1) := fun k hk => (List.forall₂_cons.1 (hp k hk)).1
      have h2 := ih pairs fun k hk => (List.forall₂_cons.1 (hp k hk)).2
      have h3 : ((List.range K).map fun k => ((y :: pairs).map (nz k)).sum).sum =
          ((List.range K).map fun k => nz k y).sum + ((List.range K).map fun k => (pairs.map (nz k)).sum).sum := by
        rw [← List.sum_map_add]
        simp
      have h4 : ((List.range K).map fun k => nz k y).sum = if x.2 then ((List.range K).filter fun k => digit c k x.1 ≠ 0).length else 0 := by
        have : (List.range K).map (fun k => nz k y) = (List.range K).map fun k => if x.2 = true ∧ digit c k x.1 ≠ 0 then 1 else 0 := by
          refine List.map_congr_left fun k hk => ?_
          obtain ⟨a, b⟩ := h1 k (List.mem_range.1 hk)
          simp [nz, a, b]
        rw [this]
        cases x.2 with
        | false => simp
        | true =>
          simp only [true_and, if_true]
          generalize List.range K = l
          induction l with
          | nil => rfl
          | cons k l ih =>
            rw [List.map_cons, List.sum_cons, ih]
            by_cases hd : digit c k x.1 = 0
            · simp [hd]
            · simp [hd, Nat.add_comm]
      rw [h3, h4, h2]
      rcases x with ⟨e, _ | _⟩ <;> simp

private theorem digits_count (c : ℕ) (hc : 0 < c) (e : F) :
    ((List.range (windows F c)).filter fun k => digit c k e ≠ 0).length = nonzeroDigits c e := by
  unfold nonzeroDigits
  have hb : 2 ≤ 2 ^ c := by
    calc 2 = 2 ^ 1 := rfl
      _ ≤ 2 ^ c := Nat.pow_le_pow_right (by norm_num) hc
  have hlen : (Nat.digits (2 ^ c) (val e)).length ≤ windows F c := by
    by_contra h
    push Not at h
    have h1 := (Nat.lt_digits_length_iff (by omega : 1 < 2 ^ c) (val e)).1 h
    rw [← pow_mul] at h1
    have h2 := lt_of_lt_of_le (val_lt_two_pow e) (Nat.pow_le_pow_right (n := 2) (by norm_num) (div_ceil_le (n := NUM_BITS F) hc))
    exact absurd h1 (not_le.2 h2)
  have key : ∀ (l : List ℕ) (W : ℕ), l.length ≤ W → ((List.range W).filter fun k => l.getD k 0 ≠ 0).length = l.countP (· ≠ 0) := by
    intro l
    induction l with
    | nil => intro W _; simp
    | cons a l ih =>
      intro W hW
      obtain ⟨W, rfl⟩ : ∃ W', W = W' + 1 := ⟨W - 1, by simp at hW; omega⟩
      rw [List.range_succ_eq_map, List.filter_cons, List.countP_cons, ← ih W (by simpa using hW), List.filter_map]
      by_cases ha : a = 0 <;> simp [ha, Function.comp_def]
  rw [← key _ _ hlen]
  congr 2
  funext k
  rw [Nat.getD_digits _ _ hb, digit, pow_mul]

private theorem inner_ok (w : Worker) (src : BaseSource G) (q : QueryDensity) (es : List F) (c : ℕ) (r : G)
    (h : multiexpInner F w src q (es.map Exponent.ofField) c = some (.ok r)) :
    multiexpInnerC F w src q (es.map Exponent.ofField) c = some (.ok (r, ⟨((queried q es).map (nonzeroDigits c)).sum,
      windows F c * (2 * (2 ^ c - 1) + 1), windows F c * c⟩)) := by
  have hfst := inner_fst (F := F) w src q (es.map Exponent.ofField) c
  rw [h] at hfst
  rw [inner_unfold] at h
  rw [innerC_unfold] at hfst ⊢
  by_cases hg : 0 < c ∧ c < 64
  swap
  · simp [hg] at h
  obtain ⟨ces, hces, hdig⟩ := zip_mapM q c (windows F c) es (chunks_digit c hg.1)
  rw [hces, Option.bind_some, if_pos hg] at h hfst
  rw [hces, Option.bind_some, if_pos hg]
  rw [parts_eq] at hfst ⊢
  rcases hp : w.runTasks ((List.range (windows F c)).map fun k => windowTask src (q.zip ces) c k) with _ | ps
  · rw [hp] at h; cases h
  obtain ⟨hl, hB⟩ := parts_length hp
  rw [hp, Option.bind_some, Option.some_inj] at h
  have hall : ∀ p ∈ ps, ∃ s, p = .ok s ∧ s.buckets.length = 2 ^ c - 1 := by
    intro p hpm
    cases p with
    | error e =>
      obtain ⟨g, hg'⟩ := combine_ok_all h (.error e) (by
        rw [List.mem_reverse, List.mem_map]; exact ⟨_, hpm, rfl⟩)
      cases hg'
    | ok s => exact ⟨s, rfl, hB _ hpm s rfl⟩
  obtain ⟨s1, s2⟩ := zip_sums (fun k => ((q.zip ces).map (nz k)).sum) (2 ^ c - 1) ps (List.range (windows F c))
    (by rw [hl, List.length_range]) hall
  have hsum := nz_sum c (windows F c) (q.zip es) (q.zip ces) hdig
  have hsel := selected_eq q es
  unfold selected at hsel
  rw [hsel] at hsum
  rw [Option.map_some, Option.bind_some, combineC_eq]
  simp only [List.map_reverse]
  rw [zip_fst (fun k => ((q.zip ces).map (nz k)).sum) ps (List.range (windows F c)) (by rw [hl, List.length_range]), h]
  simp only [List.sum_reverse, List.length_reverse, List.length_map, List.length_zipWith, List.length_range, hl, Nat.min_self, Nat.zero_add]
  rw [s1, s2, hsum, List.length_range]
  simp only [digits_count c hg.1]
  rfl

/-! ## C74 -/

private theorem multiexpC_inner (w : Worker) (src : BaseSource G) (q : QueryDensity) (exps : List Exponent) :
    (multiexpC F w src q exps = none ∧ multiexp F w src q exps = none) ∨
    (multiexpC F w src q exps = multiexpInnerC F w src q exps (windowSize exps.length) ∧
      multiexp F w src q exps = multiexpInner F w src q exps (windowSize exps.length)) := by
  unfold multiexpC multiexp
  cases q with
  | full => right; simp [QueryDensity.querySize]
  | tracker d =>
    by_cases h : d.bv.length = exps.length
    · right; simp [QueryDensity.querySize, h]
    · left; simp [QueryDensity.querySize, h]

/-- C74: counting changes nothing, for any source, density and exponents, success or not. -/
theorem C74_same (w : Worker) (src : BaseSource G) (q : QueryDensity) (exps : List Exponent) :
    (multiexpC F w src q exps).map (fun r => r.map Prod.fst) = multiexp F w src q exps := by
  rcases multiexpC_inner (F := F) w src q exps with ⟨h1, h2⟩ | ⟨h1, h2⟩
  · rw [h1, h2]; rfl
  · rw [h1, h2, inner_fst]

/-- C74: a `multiexp` that succeeds with windows of `c` bits adds a base once for every digit other than zero, in base `2^c`, of the queried
exponents.  Besides, it makes in each window `2 (2^c - 1) + 1` additions and `c` doublings, whatever the exponents. -/
theorem C74_count (w : Worker) (src : BaseSource G) (q : QueryDensity) (es : List F) (r : G)
    (h : multiexp F w src q (es.map Exponent.ofField) = some (.ok r)) :
    multiexpC F w src q (es.map Exponent.ofField) = some (.ok (r, ⟨((queried q es).map (nonzeroDigits (windowSize es.length))).sum,
      windows F (windowSize es.length) * (2 * (2 ^ windowSize es.length - 1) + 1), windows F (windowSize es.length) * windowSize es.length⟩)) := by
  rcases multiexpC_inner (F := F) w src q (es.map Exponent.ofField) with ⟨-, h2⟩ | ⟨h1, h2⟩
  · rw [h] at h2; cases h2
  · rw [h2] at h
    rw [h1]
    rw [List.length_map] at h ⊢
    exact inner_ok w src q es _ r h

/-- C74: so never more than one base for each queried exponent and window. -/
theorem C74_bound (w : Worker) (src : BaseSource G) (q : QueryDensity) (es : List F) (r : G) (o : MeOps)
    (h : multiexpC F w src q (es.map Exponent.ofField) = some (.ok (r, o))) :
    o.baseAdds ≤ (queried q es).length * windows F (windowSize es.length) := by
  have hs := C74_same (F := F) w src q (es.map Exponent.ofField)
  rw [h] at hs
  have hc := C74_count w src q es r hs.symm
  rw [h] at hc
  cases hc
  have hpos : 0 < windowSize es.length := by
    rcases multiexpC_inner (F := F) w src q (es.map Exponent.ofField) with ⟨h1, -⟩ | ⟨h1, -⟩
    · rw [h1] at h; cases h
    · rw [h1, List.length_map, innerC_unfold] at h
      by_contra h0
      rcases hm : (es.map Exponent.ofField).mapM (fun e : Exponent => e.chunks (windowSize es.length)) with _ | ces
      · rw [hm] at h; cases h
      · rw [hm, Option.bind_some, if_neg (fun hg => h0 hg.1)] at h
        cases h
  have : ∀ l : List F, (l.map (nonzeroDigits (windowSize es.length))).sum ≤ l.length * windows F (windowSize es.length) := by
    intro l
    induction l with
    | nil => simp
    | cons e l ih =>
      rw [List.map_cons, List.sum_cons, List.length_cons, Nat.add_mul, Nat.one_mul, Nat.add_comm]
      refine Nat.add_le_add ih ?_
      rw [← digits_count _ hpos]
      exact (List.length_filter_le _ _).trans (by rw [List.length_range])
  exact this _

theorem windowSize_bench : windowSize 65536 = 12 := by
  unfold windowSize
  rw [if_neg (by norm_num)]
  have h : ((65536 % 2 ^ 32 : ℕ) : ℝ) = 2 ^ 16 := by norm_num
  rw [h, Real.log_pow]
  have h1 := Real.log_two_gt_d9
  have h2 := Real.log_two_lt_d9
  rw [Nat.ceil_eq_iff (by norm_num)]
  constructor
  · push_cast; linarith
  · push_cast; linarith

/-- C74: for 32 and more exponents the windows have a size for which this is at most `5 n` additions and doublings in a window, and the number of
windows is at most one more than the number of bits divided by `ln n`. -/
theorem C74_total (w : Worker) (src : BaseSource G) (q : QueryDensity) (es : List F) (r : G) (o : MeOps) (h32 : 32 ≤ es.length)
    (hlen : es.length < 2 ^ 32) (h : multiexpC F w src q (es.map Exponent.ofField) = some (.ok (r, o))) :
    o.baseAdds + o.adds + o.doubles ≤ windows F (windowSize es.length) * (5 * es.length) ∧
      (windows F (windowSize es.length) : ℝ) ≤ NUM_BITS F / Real.log es.length + 1 := by
  have hb := C74_bound w src q es r o h
  have hs := C74_same (F := F) w src q (es.map Exponent.ofField)
  rw [h] at hs
  have hc := C74_count w src q es r hs.symm
  rw [h] at hc
  have ho : o.adds = windows F (windowSize es.length) * (2 * (2 ^ windowSize es.length - 1) + 1) ∧
      o.doubles = windows F (windowSize es.length) * windowSize es.length := by
    cases hc
    exact ⟨rfl, rfl⟩
  have hq : (queried q es).length ≤ es.length := by
    cases q with
    | full => exact le_rfl
    | tracker d =>
      unfold queried
      refine (List.length_filterMap_le _ _).trans ?_
      rw [List.length_zip]
      omega
  have hn0 : (0 : ℝ) < es.length := by exact_mod_cast (by omega : 0 < es.length)
  have hn : (32 : ℝ) ≤ es.length := by exact_mod_cast h32
  have hl1 : 1 < Real.log es.length := by
    have h1 : Real.log 32 = 5 * Real.log 2 := by
      rw [show (32 : ℝ) = 2 ^ 5 by norm_num, Real.log_pow]; norm_num
    have h2 := Real.log_two_gt_d9
    have h3 : Real.log 32 ≤ Real.log es.length := Real.log_le_log (by norm_num) hn
    linarith
  have hc : windowSize es.length = ⌈Real.log es.length⌉₊ := by
    unfold windowSize
    rw [if_neg (by omega), Nat.mod_eq_of_lt hlen]
  generalize windowSize es.length = c at *
  have hc1 : Real.log es.length ≤ c := by rw [hc]; exact Nat.le_ceil _
  have hc2 : (c : ℝ) < Real.log es.length + 1 := by rw [hc]; exact Nat.ceil_lt_add_one (by linarith)
  have hcpos : 0 < c := by
    have : (0 : ℝ) < c := by linarith
    exact_mod_cast this
  -- `2^c` is at most `2^(1 + ln n)`, and that at most `1.6 n`
  have hpow : 5 * (2 ^ c) ≤ 8 * es.length := by
    have key : (c : ℝ) * Real.log 2 ≤ Real.log (8 / 5 * es.length) := by
      rw [Real.log_mul (by norm_num) hn0.ne']
      have h2 := Real.log_two_gt_d9
      have h2' := Real.log_two_lt_d9
      have h32' : 5 * Real.log 2 ≤ Real.log es.length := by
        have h1 : Real.log 32 = 5 * Real.log 2 := by
          rw [show (32 : ℝ) = 2 ^ 5 by norm_num, Real.log_pow]; norm_num
        rw [← h1]
        exact Real.log_le_log (by norm_num) hn
      have h85 : 0 ≤ Real.log (8 / 5) := Real.log_nonneg (by norm_num)
      nlinarith
    have h1 : ((2 : ℝ) ^ c) ≤ 8 / 5 * es.length := by
      have := Real.exp_le_exp.2 key
      rw [Real.exp_log (by positivity), mul_comm, ← Real.rpow_def_of_pos (by norm_num), Real.rpow_natCast] at this
      exact this
    have h2 : ((5 * 2 ^ c : ℕ) : ℝ) ≤ ((8 * es.length : ℕ) : ℝ) := by
      push_cast
      linarith
    exact_mod_cast h2
  have hcle : 2 * c ≤ 2 ^ c := by
    obtain ⟨d, rfl⟩ : ∃ d, c = d + 1 := ⟨c - 1, by omega⟩
    have : d < 2 ^ d := Nat.lt_two_pow_self
    rw [Nat.pow_succ]
    omega
  constructor
  · rw [ho.1, ho.2]
    have h1 : o.baseAdds ≤ windows F c * es.length := hb.trans (by rw [Nat.mul_comm]; exact Nat.mul_le_mul_left _ hq)
    calc o.baseAdds + windows F c * (2 * (2 ^ c - 1) + 1) + windows F c * c
        ≤ windows F c * es.length + windows F c * (2 * (2 ^ c - 1) + 1) + windows F c * c := by omega
      _ = windows F c * (es.length + (2 * (2 ^ c - 1) + 1) + c) := by ring
      _ ≤ windows F c * (5 * es.length) := Nat.mul_le_mul_left _ (by omega)
  · have h1 : windows F c * c ≤ NUM_BITS F + (c - 1) := by unfold windows; exact Nat.div_mul_le_self _ _
    have h2 : (windows F c : ℝ) * c ≤ NUM_BITS F + c := by exact_mod_cast h1.trans (by omega)
    have h3 : (windows F c : ℝ) ≤ NUM_BITS F / c + 1 := by
      rw [div_add_one (by positivity), le_div_iff₀ (by exact_mod_cast hcpos)]
      exact h2
    have h4 : (NUM_BITS F : ℝ) / c ≤ NUM_BITS F / Real.log es.length :=
      div_le_div_of_nonneg_left (by positivity) (by linarith) hc1
    linarith

/-- C74, the benchmark `bench_parts`, for any exponents and any bases other than the identity (in a field of 255 bits, as that of BLS12-381):
every turn computes the sum, with 22 windows of 12 bits, at most 1441792 additions of bases, exactly 180202 others and 264 doublings. -/
theorem C74_bench (hbits : NUM_BITS F = 255) (pool : Worker) (v : List F) (g : List G) (hv : v.length = 2 ^ 16) (hg : g.length = 2 ^ 16)
    (h0 : ∀ x ∈ g, x ≠ 0) :
    benchParts pool v g = some ((List.zipWith (fun e b => e • b) v g).sum, ⟨(v.map (nonzeroDigits 12)).sum, 180202, 264⟩) ∧
      (v.map (nonzeroDigits 12)).sum ≤ 1441792 := by
  have hsum := zipWith_sum_range v g (by rw [hv, hg])
  have hm := C24_full pool g v 0 (by rw [hv]; norm_num) (by rw [hv, hg]; norm_num) fun i hi => by
    rw [Nat.zero_add, List.getD_eq_getElem _ _ (by omega)]
    exact h0 _ (List.getElem_mem _)
  simp only [Nat.zero_add] at hm
  rw [← hsum] at hm
  have hc := C74_count pool ⟨g, 0⟩ .full v _ hm
  have hb := C74_bound pool ⟨g, 0⟩ .full v _ _ hc
  have hw : windowSize v.length = 12 := by rw [hv]; exact windowSize_bench
  have hW : windows F 12 = 22 := by unfold windows; rw [hbits]
  rw [hw, hW] at hc hb
  have hb : (v.map (nonzeroDigits 12)).sum ≤ v.length * 22 := hb
  refine ⟨?_, hb.trans (by rw [hv]; norm_num)⟩
  unfold benchParts
  rw [hc]
  rfl

/-! ## Examples -/

/-- The hypotheses of `C74_count`, `C74_bound` and `C74_bench` are met.  The numbers of additions depend on the exponents: five for the
octal numbers 77, 1, 0 and 105, none for zeros. -/
example (w : Worker) :
    multiexpC DummyFr w ⟨([1, 2, 3, 4] : List DummyFr), 0⟩ .full (([63, 1, 0, 69] : List DummyFr).map Exponent.ofField) =
      some (.ok (341, ⟨5, 90, 18⟩)) ∧
    multiexpC DummyFr w ⟨([1, 2, 3, 4] : List DummyFr), 0⟩ .full (([0, 0, 0, 0] : List DummyFr).map Exponent.ofField) =
      some (.ok (0, ⟨0, 90, 18⟩)) := by
  have hws : windowSize 4 = 3 := by simp [windowSize]
  constructor
  · have h := C24_full w ([1, 2, 3, 4] : List DummyFr) ([63, 1, 0, 69] : List DummyFr) 0 (by norm_num) (by norm_num) (by decide +kernel)
    rw [C74_count w _ _ _ _ h]
    show some (Except.ok (_, MeOps.mk (([63, 1, 0, 69] : List DummyFr).map (nonzeroDigits (windowSize 4))).sum
      (windows DummyFr (windowSize 4) * _) (windows DummyFr (windowSize 4) * windowSize 4))) = _
    rw [hws]
    decide +kernel
  · have h := C24_full w ([1, 2, 3, 4] : List DummyFr) ([0, 0, 0, 0] : List DummyFr) 0 (by norm_num) (by norm_num) (by decide +kernel)
    rw [C74_count w _ _ _ _ h]
    show some (Except.ok (_, MeOps.mk (([0, 0, 0, 0] : List DummyFr).map (nonzeroDigits (windowSize 4))).sum
      (windows DummyFr (windowSize 4) * _) (windows DummyFr (windowSize 4) * windowSize 4))) = _
    rw [hws]
    decide +kernel

example (w : Worker) : ∃ r o, multiexpC DummyFr w ⟨List.replicate 40 (1 : DummyFr), 0⟩ .full ((List.replicate 40 (5 : DummyFr)).map Exponent.ofField) =
    some (.ok (r, o)) :=
  ⟨_, _, C74_count w _ _ _ _ (C24_full w (List.replicate 40 (1 : DummyFr)) (List.replicate 40 (5 : DummyFr)) 0 (by simp) (by simp)
    (by decide +kernel))⟩

example (w : Worker) : ∃ n, benchParts w (List.replicate (2 ^ 16) (-1 : BlsScalar)) (List.replicate (2 ^ 16) (1 : BlsScalar)) =
    some (n, ⟨65536 * nonzeroDigits 12 (-1 : BlsScalar), 180202, 264⟩) := by
  obtain ⟨h, -⟩ := C74_bench (F := BlsScalar) (G := BlsScalar) (by decide +kernel) w (List.replicate (2 ^ 16) (-1)) (List.replicate (2 ^ 16) 1)
    (List.length_replicate ..) (List.length_replicate ..) (fun x hx => by rw [List.eq_of_mem_replicate hx]; exact one_ne_zero)
  rw [List.map_replicate, List.sum_replicate] at h
  exact ⟨_, h⟩

end Bellman
