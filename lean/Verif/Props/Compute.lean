import Verif.Compute
import Mathlib.Data.List.Count
import Mathlib.Tactic.Linarith
import Mathlib.Algebra.BigOperators.Group.List.Basic

/-!
# C28 and C41: background computations
-/

namespace Bellman

namespace Compute

variable {R : Type}

/-! ## Vocabulary -/

/-- A call that has incremented the spawn counter and not yet decremented it. -/
def Job.unfinished (j : Job R) : Bool :=
  match j.phase with
  | .called => false
  | .finished => false
  | _ => true

/-- A computation handed over to the pool (or about to be: the decision has been taken) that has not finished. -/
def Job.backlog (maxCount : ℕ) (j : Job R) : Bool :=
  match j.phase with
  | .counted prev => decide (prev ≤ maxCount)
  | .queued => true
  | .running bg => bg
  | .ran bg _ => bg
  | .sent bg => bg
  | _ => false

/-- The waiter lost its receiver before it received. -/
def Job.lost (j : Job R) : Bool := j.wait.gone

/-! ## The invariant -/

/-- Consistency of one job. -/
def Job.Ok (j : Job R) : Prop :=
  (∀ r, j.chan = some r → j.closure = some r) ∧
  (∀ r, j.wait = .got r → j.closure = some r) ∧
  (j.phase.returned = false → j.wait = .pending) ∧
  match j.phase with
  | .called => j.chan = none ∧ (∀ r, j.wait ≠ .got r)
  | .counted _ => j.chan = none ∧ (∀ r, j.wait ≠ .got r)
  | .queued => j.chan = none ∧ (∀ r, j.wait ≠ .got r)
  | .running _ => j.chan = none ∧ (∀ r, j.wait ≠ .got r)
  | .ran _ r => j.chan = none ∧ (∀ r, j.wait ≠ .got r) ∧ j.closure = some r
  | .sent _ => j.wait = .pending → j.chan ≠ none
  | .finished => j.wait = .pending → j.chan ≠ none
  | .panicked => j.closure = none

/-- The inductive invariant. -/
structure Inv (maxCount : ℕ) (s : State R) : Prop where
  counter : s.counter = s.jobs.countP Job.unfinished
  backlog : s.jobs.countP (Job.backlog maxCount) ≤ maxCount + 1
  ok : ∀ j ∈ s.jobs, j.Ok
  aborted : s.aborted = true → ∃ j ∈ s.jobs, j.closure = none ∨ j.lost = true

theorem backlog_le_unfinished (maxCount : ℕ) (l : List (Job R)) :
    l.countP (Job.backlog maxCount) ≤ l.countP Job.unfinished := by
  apply List.countP_mono_left
  rintro ⟨f, ph, c, w⟩ _ h
  cases ph <;> simp_all [Job.backlog, Job.unfinished]

private theorem ok_set {l : List (Job R)} {i : ℕ} {j' : Job R} (h : ∀ j ∈ l, j.Ok) (hj : j'.Ok) : ∀ j ∈ l.set i j', j.Ok := by
  intro k hk
  rcases List.mem_or_eq_of_mem_set hk with h' | h'
  · exact h k h'
  · rw [h']; exact hj

private theorem countP_set' (p : Job R → Bool) (l : List (Job R)) (i : ℕ) (j j' : Job R) (hj : l[i]? = some j) :
    (l.set i j').countP p + (if p j then 1 else 0) = l.countP p + (if p j' then 1 else 0) := by
  induction l generalizing i with
  | nil => simp at hj
  | cons x xs ih =>
    cases i with
    | zero =>
      simp only [List.getElem?_cons_zero, Option.some.injEq] at hj
      subst hj
      simp only [List.set_cons_zero, List.countP_cons]
      omega
    | succ i =>
      have := ih i (by simpa using hj)
      simp only [List.set_cons_succ, List.countP_cons]
      omega

private theorem inv_set {m : ℕ} {s : State R} (hs : Inv m s) {i : ℕ} {j : Job R} (hj : s.jobs[i]? = some j) (j' : Job R)
    (hu : j'.unfinished = j.unfinished) (hb : j'.backlog m = j.backlog m) (hok : j.Ok → j'.Ok) (ha : s.aborted = false) :
    Inv m { s with jobs := s.jobs.set i j' } := by
  have hm := List.mem_of_getElem? hj
  refine ⟨?_, ?_, ok_set hs.ok (hok (hs.ok j hm)), fun h => absurd h (by simp [ha])⟩
  · have := countP_set' Job.unfinished s.jobs i j j' hj
    rw [hu] at this
    simp only
    rw [hs.counter]; omega
  · have := countP_set' (Job.backlog m) s.jobs i j j' hj
    rw [hb] at this
    have := hs.backlog
    simp only
    omega

theorem Inv.init (m : ℕ) : Inv m (State.init R) :=
  ⟨rfl, Nat.zero_le _, by simp [State.init], by simp [State.init]⟩

theorem Inv.step {m : ℕ} {s s' : State R} (hs : Inv m s) (ha : s.aborted = false) (h : Step m s s') : Inv m s' := by
  cases h with
  | fetchAdd i j hj hp =>
    obtain ⟨f, ph, c, w⟩ := j
    simp only at hp; subst hp
    have hok := hs.ok _ (List.mem_of_getElem? hj)
    refine ⟨?_, ?_, ok_set hs.ok ?_, fun h => absurd h (by simp [ha])⟩
    · have := countP_set' Job.unfinished s.jobs i _ ⟨f, .counted s.counter, c, w⟩ hj
      simp only [Job.unfinished, if_true] at this
      have h3 := hs.counter
      simp at this
      simp only
      omega
    · have h1 := countP_set' (Job.backlog m) s.jobs i _ ⟨f, .counted s.counter, c, w⟩ hj
      have h2 := backlog_le_unfinished m s.jobs
      have h3 := hs.counter
      have h4 := hs.backlog
      simp only [Job.backlog] at h1
      simp only
      by_cases hc : s.counter ≤ m
      · simp [hc] at h1; omega
      · simp [hc] at h1; omega
    · exact hok
  | inline i prev j hj hp hlt =>
    obtain ⟨f, ph, c, w⟩ := j
    simp only at hp; subst hp
    exact inv_set hs hj _ rfl (by simp [Job.backlog]; omega) (fun h => h) ha
  | spawn i prev j hj hp hlt =>
    obtain ⟨f, ph, c, w⟩ := j
    simp only at hp; subst hp
    refine inv_set hs hj _ rfl (by simp [Job.backlog]; omega) (fun h => ?_) ha
    exact ⟨h.1, h.2.1, fun h' => by simp [Phase.returned] at h', h.2.2.2⟩
  | pickUp i j hj hp =>
    obtain ⟨f, ph, c, w⟩ := j
    simp only at hp; subst hp
    refine inv_set hs hj _ rfl rfl (fun h => ?_) ha
    exact ⟨h.1, h.2.1, fun h' => by simp [Phase.returned] at h', h.2.2.2⟩
  | eval i j bg r hj hp hf =>
    obtain ⟨f, ph, c, w⟩ := j
    simp only at hp hf; subst hp; subst hf
    exact inv_set hs hj _ rfl rfl (fun h => ⟨h.1, h.2.1, h.2.2.1, h.2.2.2.1, h.2.2.2.2, rfl⟩) ha
  | panic i j hj hp hf =>
    obtain ⟨f, ph, c, w⟩ := j
    simp only at hp hf; subst hp; subst hf
    exact inv_set hs hj _ rfl rfl (fun h => ⟨h.1, h.2.1, h.2.2.1, rfl⟩) ha
  | abort i j hj hp hf =>
    exact ⟨hs.counter, hs.backlog, hs.ok, fun _ => ⟨j, List.mem_of_getElem? hj, .inl hf⟩⟩
  | send i j bg r hj hp hc hg =>
    obtain ⟨f, ph, c, w⟩ := j
    simp only at hp hc hg; subst hp; subst hc
    refine inv_set hs hj _ rfl rfl (fun h => ⟨?_, h.2.1, h.2.2.1, fun _ => by simp⟩) ha
    rintro r' hr'
    simp only [Option.some.injEq] at hr'
    subst hr'
    exact h.2.2.2.2.2
  | sendFail i j r hj hp hg =>
    exact ⟨hs.counter, hs.backlog, hs.ok, fun _ => ⟨j, List.mem_of_getElem? hj, .inr hg⟩⟩
  | fetchSub i j bg hj hp =>
    obtain ⟨f, ph, c, w⟩ := j
    simp only at hp; subst hp
    have hok := hs.ok _ (List.mem_of_getElem? hj)
    refine ⟨?_, ?_, ok_set hs.ok ?_, fun h => absurd h (by simp [ha])⟩
    · have := countP_set' Job.unfinished s.jobs i _ ⟨f, .finished, c, w⟩ hj
      simp only [Job.unfinished, if_true] at this
      simp only
      rw [hs.counter]
      simp at this
      omega
    · have h1 := countP_set' (Job.backlog m) s.jobs i _ ⟨f, .finished, c, w⟩ hj
      have h4 := hs.backlog
      simp only [Job.backlog] at h1
      simp only
      simp at h1
      omega
    · exact ⟨hok.1, hok.2.1, fun h' => by simp [Phase.returned] at h', hok.2.2.2⟩
  | recv i j r hj hr hw hc =>
    obtain ⟨f, ph, c, w⟩ := j
    simp only at hr hw hc; subst hw; subst hc
    refine inv_set hs hj _ rfl rfl (fun h => ⟨fun r h' => (by cases h'), ?_, fun h' => ?_, ?_⟩) ha
    · intro r' hr'
      cases hr'
      exact h.1 r rfl
    · rw [hr] at h'; cases h'
    · have h4 := h.2.2.2
      cases ph <;> simp_all

theorem Inv.misuse {m : ℕ} {s s' : State R} (hs : Inv m s) (ha : s.aborted = false) (h : Misuse s s') : Inv m s' := by
  cases h with
  | waitInPool i j hj hr hw =>
    obtain ⟨f, ph, c, w⟩ := j
    simp only at hw hr; subst hw
    refine inv_set hs hj _ rfl rfl (fun h => ⟨h.1, fun r h' => (by cases h'), fun h' => ?_, ?_⟩) ha
    · rw [hr] at h'; cases h'
    · have h4 := h.2.2.2
      cases ph <;> simp_all
  | drop i j hj hr hw =>
    obtain ⟨f, ph, c, w⟩ := j
    simp only at hw hr; subst hw
    refine inv_set hs hj _ rfl rfl (fun h => ⟨h.1, fun r h' => (by cases h'), fun h' => ?_, ?_⟩) ha
    · rw [hr] at h'; cases h'
    · have h4 := h.2.2.2
      cases ph <;> simp_all

private theorem inv_append {m : ℕ} {s : State R} (hs : Inv m s) (ha : s.aborted = false) (j : Job R)
    (hu : j.unfinished = false) (hb : j.backlog m = false) (hok : j.Ok) : Inv m { s with jobs := s.jobs ++ [j] } := by
  refine ⟨?_, ?_, ?_, fun h => absurd h (by simp [ha])⟩
  · simp [List.countP_append, hu, hs.counter]
  · simp [List.countP_append, hb, hs.backlog]
  · intro k hk
    rcases List.mem_append.1 hk with h | h
    · exact hs.ok k h
    · rw [List.mem_singleton.1 h]; exact hok

theorem Reachable.inv {threads : ℕ} {s : State R} (h : Reachable threads s) : Inv (4 * threads) s := by
  unfold Reachable at h
  induction h with
  | refl => exact Inv.init _
  | tail _ hr ih =>
    cases hr with
    | step ha hst => exact ih.step ha hst
    | misuse ha hst => exact ih.misuse ha hst
    | compute f ha =>
      exact inv_append ih ha _ rfl rfl ⟨fun r h => (by cases h), fun r h => (by cases h), fun _ => rfl, rfl, fun r h => (by cases h)⟩
    | done v ha =>
      exact inv_append ih ha _ rfl rfl ⟨fun r h => h, fun r h => (by cases h), fun _ => rfl, fun _ h => (by cases h)⟩

/-! ## C28 -/

/-- C28: what a waiter returns is the value of its own closure, in every reachable state. -/
theorem C28_own_result {threads : ℕ} {s : State R} (h : Reachable threads s) (i : ℕ) (j : Job R) (r : R)
    (hj : s.jobs[i]? = some j) (hr : j.wait = .got r) : j.closure = some r :=
  (h.inv.ok j (List.mem_of_getElem? hj)).2.1 r hr

/-- C28: what has been delivered stays delivered, and is never delivered again or replaced: the list of closures and the
received values only grow. -/
theorem C28_once {m : ℕ} {s s' : State R} (h : Run m s s') (i : ℕ) (j : Job R) (r : R) (hj : s.jobs[i]? = some j)
    (hr : j.wait = .got r) : ∃ j', s'.jobs[i]? = some j' ∧ j'.wait = .got r ∧ j'.closure = j.closure := by
  have hset : ∀ (k : ℕ) (jk jk' : Job R), s.jobs[k]? = some jk → (jk.wait = .got r → jk'.wait = .got r) →
      jk'.closure = jk.closure →
      ∃ j', (s.jobs.set k jk')[i]? = some j' ∧ j'.wait = .got r ∧ j'.closure = j.closure := by
    intro k jk jk' hk hw hc
    by_cases hki : k = i
    · subst hki
      rw [hj] at hk
      cases hk
      refine ⟨jk', ?_, hw hr, hc⟩
      obtain ⟨hlt, _⟩ := List.getElem?_eq_some_iff.1 hj
      simp [hlt]
    · exact ⟨j, by rw [List.getElem?_set_ne hki]; exact hj, hr, rfl⟩
  have happ : ∀ x, ∃ j', (s.jobs ++ [x])[i]? = some j' ∧ j'.wait = .got r ∧ j'.closure = j.closure := by
    intro x
    refine ⟨j, ?_, hr, rfl⟩
    obtain ⟨hlt, _⟩ := List.getElem?_eq_some_iff.1 hj
    rw [List.getElem?_append_left hlt]; exact hj
  cases h with
  | compute f _ => exact happ _
  | done v _ => exact happ _
  | misuse _ hm =>
    cases hm with
    | waitInPool k jk hk _ hw => exact hset k jk _ hk (fun h => by rw [hw] at h; cases h) rfl
    | drop k jk hk _ hw => exact hset k jk _ hk (fun h => by rw [hw] at h; cases h) rfl
  | step _ hs =>
    cases hs with
    | fetchAdd k jk hk _ => exact hset k jk _ hk (fun h => h) rfl
    | inline k prev jk hk _ _ => exact hset k jk _ hk (fun h => h) rfl
    | spawn k prev jk hk _ _ => exact hset k jk _ hk (fun h => h) rfl
    | pickUp k jk hk _ => exact hset k jk _ hk (fun h => h) rfl
    | eval k jk bg r' hk _ _ => exact hset k jk _ hk (fun h => h) rfl
    | panic k jk hk _ _ => exact hset k jk _ hk (fun h => h) rfl
    | abort k jk hk _ _ => exact ⟨j, hj, hr, rfl⟩
    | send k jk bg r' hk _ _ _ => exact hset k jk _ hk (fun h => h) rfl
    | sendFail k jk r' hk _ _ => exact ⟨j, hj, hr, rfl⟩
    | fetchSub k jk bg hk _ => exact hset k jk _ hk (fun h => h) rfl
    | recv k jk r' hk _ hw _ => exact hset k jk _ hk (fun h => by rw [hw] at h; cases h) rfl

/-- C28: never more than `4·threads + 1` computations are queued or unfinished in the pool. -/
theorem C28_backlog {threads : ℕ} {s : State R} (h : Reachable threads s) :
    s.jobs.countP (Job.backlog (4 * threads)) ≤ 4 * threads + 1 := h.inv.backlog

/-- C28: the counter counts exactly the calls between `fetch_add` and `fetch_sub` (including those that panicked). -/
theorem C28_counter {threads : ℕ} {s : State R} (h : Reachable threads s) :
    s.counter = s.jobs.countP Job.unfinished := h.inv.counter

/-- C28: the counter is zero when all computations have finished. -/
theorem C28_counter_zero {threads : ℕ} {s : State R} (h : Reachable threads s)
    (hfin : ∀ j ∈ s.jobs, j.phase = .finished) : s.counter = 0 := by
  rw [h.inv.counter, List.countP_eq_zero]
  intro j hj
  simp [Job.unfinished, hfin j hj]

/-- Number of steps a call still has ahead of it. -/
def Job.fuel (j : Job R) : ℕ :=
  (match j.phase with
   | .called => 6
   | .counted _ => 5
   | .queued => 4
   | .running _ => 3
   | .ran _ _ => 2
   | .sent _ => 1
   | .finished => 0
   | .panicked => 0) +
  (match j.wait with
   | .pending => 1
   | _ => 0)

/-- Total over all calls, plus one while the process runs. -/
def State.fuel (s : State R) : ℕ := (s.jobs.map Job.fuel).sum + (if s.aborted then 0 else 1)

private theorem sum_set_lt (l : List (Job R)) (i : ℕ) (j j' : Job R) (hj : l[i]? = some j) (hlt : j'.fuel < j.fuel) :
    ((l.set i j').map Job.fuel).sum < (l.map Job.fuel).sum := by
  induction l generalizing i with
  | nil => simp at hj
  | cons x xs ih =>
    cases i with
    | zero =>
      simp only [List.getElem?_cons_zero, Option.some.injEq] at hj
      subst hj
      simpa using hlt
    | succ i =>
      have := ih i (by simpa using hj)
      simpa using this

/-- C28: calls in progress cannot go on for ever: every step uses up fuel. -/
theorem C28_terminates {m : ℕ} {s s' : State R} (ha : s.aborted = false) (h : Step m s s') : s'.fuel < s.fuel := by
  have hset : ∀ (c : ℕ) (i : ℕ) (j j' : Job R), s.jobs[i]? = some j → j'.fuel < j.fuel →
      State.fuel { s with counter := c, jobs := s.jobs.set i j' } < s.fuel := by
    intro c i j j' hj hlt
    have := sum_set_lt s.jobs i j j' hj hlt
    unfold State.fuel
    simp only
    omega
  have habort : State.fuel { s with aborted := true } < s.fuel := by
    unfold State.fuel
    simp [ha]
  cases h with
  | fetchAdd i j hj hp => exact hset _ i j _ hj (by simp [Job.fuel, hp])
  | inline i prev j hj hp _ => exact hset _ i j _ hj (by simp [Job.fuel, hp])
  | spawn i prev j hj hp _ => exact hset _ i j _ hj (by simp [Job.fuel, hp])
  | pickUp i j hj hp => exact hset _ i j _ hj (by simp [Job.fuel, hp])
  | eval i j bg r hj hp _ => exact hset _ i j _ hj (by simp [Job.fuel, hp])
  | panic i j hj hp _ => exact hset _ i j _ hj (by simp [Job.fuel, hp])
  | abort i j hj hp _ => exact habort
  | send i j bg r hj hp _ _ => exact hset _ i j _ hj (by simp [Job.fuel, hp])
  | sendFail i j r hj hp _ => exact habort
  | fetchSub i j bg hj hp => exact hset _ i j _ hj (by simp [Job.fuel, hp])
  | recv i j r hj _ hw _ => exact hset _ i j _ hj (by simp [Job.fuel, hw])

/-- C28: and when no step is left, every call has finished, every waiter has delivered its closure's value (unless it was
dropped), and the counter is zero, provided no closure panics. -/
theorem C28_all_delivered {threads : ℕ} {s : State R} (h : Reachable threads s)
    (hc : ∀ j ∈ s.jobs, j.closure ≠ none) (hstop : ∀ s', ¬ Step (4 * threads) s s') :
    s.counter = 0 ∧ ∀ j ∈ s.jobs, j.phase = .finished ∧ (j.lost = true ∨ ∃ r, j.wait = .got r ∧ j.closure = some r) := by
  have hfin : ∀ j ∈ s.jobs, j.phase = .finished := by
    intro j hj
    obtain ⟨i, hi⟩ := List.mem_iff_getElem?.1 hj
    have hok := h.inv.ok j hj
    cases hp : j.phase with
    | called => exact absurd (Step.fetchAdd i j hi hp) (hstop _)
    | counted prev =>
      by_cases hlt : 4 * threads < prev
      · exact absurd (Step.inline i prev j hi hp hlt) (hstop _)
      · exact absurd (Step.spawn i prev j hi hp hlt) (hstop _)
    | queued => exact absurd (Step.pickUp i j hi hp) (hstop _)
    | running bg =>
      cases hf : j.closure with
      | none => exact absurd hf (hc j hj)
      | some r => exact absurd (Step.eval i j bg r hi hp hf) (hstop _)
    | ran bg r =>
      have h4 := hok.2.2.2
      rw [hp] at h4
      cases hg : j.wait.gone with
      | false => exact absurd (Step.send i j bg r hi hp h4.1 hg) (hstop _)
      | true =>
        cases bg with
        | true => exact absurd (Step.sendFail i j r hi hp hg) (hstop _)
        | false =>
          have h3 := hok.2.2.1 (by rw [hp]; rfl)
          rw [h3] at hg; cases hg
    | sent bg => exact absurd (Step.fetchSub i j bg hi hp) (hstop _)
    | finished => rfl
    | panicked =>
      have h4 := hok.2.2.2
      rw [hp] at h4
      exact absurd h4 (hc j hj)
  refine ⟨C28_counter_zero h hfin, fun j hj => ⟨hfin j hj, ?_⟩⟩
  obtain ⟨i, hi⟩ := List.mem_iff_getElem?.1 hj
  have hok := h.inv.ok j hj
  cases hw : j.wait with
  | pending =>
    have h4 := hok.2.2.2
    rw [hfin j hj] at h4
    cases hch : j.chan with
    | none => exact absurd hch (h4 hw)
    | some r => exact absurd (Step.recv i j r hi (by rw [hfin j hj]; rfl) hw hch) (hstop _)
  | got r => exact .inr ⟨r, rfl, hok.2.1 r hw⟩
  | refused => left; simp [Job.lost, hw, Wait.gone]
  | dropped => left; simp [Job.lost, hw, Wait.gone]

/-! ## C41 -/

/-- C41: the process is only ever aborted if some closure panicked or some waiter was dropped (or waited for inside the pool). -/
theorem C41_no_abort {threads : ℕ} {s : State R} (h : Reachable threads s)
    (hc : ∀ j ∈ s.jobs, j.closure ≠ none ∧ j.lost = false) : s.aborted = false := by
  cases ha : s.aborted with
  | false => rfl
  | true =>
    obtain ⟨j, hj, h' | h'⟩ := h.inv.aborted ha
    · exact absurd h' (hc j hj).1
    · rw [(hc j hj).2] at h'; cases h'

/-- C41: dropping the waiter of a background computation that has not sent its result yet makes it possible, and once the
computation has run unavoidable, that the process is aborted: the computation can only take the failing `send`. -/
theorem C41_drop_aborts (threads : ℕ) (v : R) : ∃ s : State R, Reachable threads s ∧ s.aborted = false ∧
    (∃ j, s.jobs = [j] ∧ j.closure = some v ∧ j.wait = .dropped) ∧
    (∃ s', Step (4 * threads) s s') ∧ ∀ s', Step (4 * threads) s s' → s'.aborted = true := by
  have h0 : Reachable threads (State.init R) := .refl
  have h1 := h0.tail (.compute (some v) rfl)
  have h2 := h1.tail (.step rfl (.fetchAdd 0 _ rfl rfl))
  have h3 := h2.tail (.step rfl (.spawn 0 0 _ rfl rfl (by omega)))
  have h4 := h3.tail (.misuse rfl (.drop 0 _ rfl rfl rfl))
  have h5 := h4.tail (.step rfl (.pickUp 0 _ rfl rfl))
  have h6 := h5.tail (.step rfl (.eval 0 _ true v rfl rfl rfl))
  refine ⟨_, h6, rfl, ⟨_, rfl, rfl, rfl⟩, ⟨_, .sendFail 0 _ v rfl rfl rfl⟩, ?_⟩
  intro s' hs
  cases hs with
  | abort => rfl
  | sendFail => rfl
  | fetchAdd i j hj hp => cases i with
    | zero => cases hj; cases hp
    | succ i => simp [State.init] at hj
  | inline i _ j hj hp _ => cases i with
    | zero => cases hj; cases hp
    | succ i => simp [State.init] at hj
  | spawn i _ j hj hp _ => cases i with
    | zero => cases hj; cases hp
    | succ i => simp [State.init] at hj
  | pickUp i j hj hp => cases i with
    | zero => cases hj; cases hp
    | succ i => simp [State.init] at hj
  | eval i j _ _ hj hp _ => cases i with
    | zero => cases hj; cases hp
    | succ i => simp [State.init] at hj
  | panic i j hj hp _ => cases i with
    | zero => cases hj; cases hp
    | succ i => simp [State.init] at hj
  | send i j _ _ hj hp hc hg => cases i with
    | zero => cases hj; cases hg
    | succ i => simp [State.init] at hj
  | fetchSub i j _ hj hp => cases i with
    | zero => cases hj; cases hp
    | succ i => simp [State.init] at hj
  | recv i j _ hj _ hw _ => cases i with
    | zero => cases hj; cases hw
    | succ i => simp [State.init] at hj

/-- C41: a closure that panics in the blocking scope leaves the counter incremented for ever. -/
theorem C41_counter_leak {threads : ℕ} {s : State R} (h : Reachable threads s) (j : Job R) (hj : j ∈ s.jobs)
    (hp : j.phase = .panicked) : 0 < s.counter := by
  rw [h.inv.counter, List.countP_pos_iff]
  exact ⟨j, hj, by simp [Job.unfinished, hp]⟩

/-- A state in which `k` computations wait in the queue of the pool. -/
private theorem queued (threads : ℕ) (v : R) (k : ℕ) (hk : k ≤ 4 * threads + 1) :
    Reachable threads (⟨k, List.replicate k ⟨some v, .queued, none, .pending⟩, false⟩ : State R) := by
  induction k with
  | zero => exact .refl
  | succ k ih =>
    have h := ih (by omega)
    have h := h.tail (.compute (some v) rfl)
    have h := h.tail (.step rfl (.fetchAdd k _ (by simp; rfl) rfl))
    have h := h.tail (.step rfl (.spawn k k ⟨some v, .counted k, none, .pending⟩ (by simp [Job.new]) rfl (by omega)))
    refine (congrArg (Reachable threads) ?_).mp h
    simp [Job.new, List.replicate_succ']

/-- C28: the bound on the backlog is attained for every number of threads. -/
theorem C28_backlog_attained (threads : ℕ) (v : R) : ∃ s : State R, Reachable threads s ∧ s.aborted = false ∧
    s.jobs.countP (Job.backlog (4 * threads)) = 4 * threads + 1 :=
  ⟨_, queued threads v _ le_rfl, rfl, by simp [List.countP_replicate, Job.backlog]⟩

/-- Beside `C41_counter_leak`: with a full queue, a closure that panics runs in the thread of the caller and leaves the counter
raised for good. -/
example (threads : ℕ) (v : R) : ∃ (s : State R) (j : Job R), Reachable threads s ∧ j ∈ s.jobs ∧ j.phase = .panicked ∧ s.aborted = false ∧
    s.counter = 4 * threads + 2 := by
  have h := queued threads v (4 * threads + 1) le_rfl
  have h := h.tail (.compute none rfl)
  have h := h.tail (.step rfl (.fetchAdd (4 * threads + 1) _ (by simp; rfl) rfl))
  have h := h.tail (.step rfl (.inline (4 * threads + 1) (4 * threads + 1) ⟨none, .counted (4 * threads + 1), none, .pending⟩
    (by simp [Job.new]) rfl (by omega)))
  have h := h.tail (.step rfl (.panic (4 * threads + 1) ⟨none, .running false, none, .pending⟩ (by simp [Job.new]) rfl rfl))
  exact ⟨_, ⟨none, .panicked, none, .pending⟩, h, by simp [Job.new], rfl, rfl, rfl⟩

/-- Beside `C28_all_delivered`: a reachable state in which nothing remains to be done. -/
example (threads : ℕ) (v : R) : ∃ s : State R, Reachable threads s ∧ (∀ j ∈ s.jobs, j.closure ≠ none) ∧ s.jobs ≠ [] ∧
    ∀ s', ¬ Step (4 * threads) s s' := by
  have h0 : Reachable threads (State.init R) := .refl
  have h := h0.tail (.compute (some v) rfl)
  have h := h.tail (.step rfl (.fetchAdd 0 _ rfl rfl))
  have h := h.tail (.step rfl (.spawn 0 0 _ rfl rfl (by omega)))
  have h := h.tail (.step rfl (.pickUp 0 _ rfl rfl))
  have h := h.tail (.step rfl (.eval 0 _ true v rfl rfl rfl))
  have h := h.tail (.step rfl (.send 0 _ true v rfl rfl rfl rfl))
  have h := h.tail (.step rfl (.recv 0 _ v rfl rfl rfl rfl))
  have h := h.tail (.step rfl (.fetchSub 0 _ true rfl rfl))
  refine ⟨_, h, by simp [State.init, Job.new], by simp [State.init], fun s' hs => ?_⟩
  have hj : ∀ (i : ℕ) (j : Job R), [(⟨some v, .finished, none, .got v⟩ : Job R)][i]? = some j → j = ⟨some v, .finished, none, .got v⟩ := by
    intro i j h
    cases i <;> simp at h
    exact h.symm
  cases hs with
  | fetchAdd i j a b => cases hj i j a; cases b
  | inline i p j a b => cases hj i j a; cases b
  | spawn i p j a b => cases hj i j a; cases b
  | pickUp i j a b => cases hj i j a; cases b
  | eval i j bg r a b => cases hj i j a; cases b
  | panic i j a b => cases hj i j a; cases b
  | abort i j a b => cases hj i j a; cases b
  | send i j bg r a b => cases hj i j a; cases b
  | sendFail i j r a b => cases hj i j a; cases b
  | fetchSub i j bg a b => cases hj i j a; cases b
  | recv i j r a b c => cases hj i j a; cases c

/-- Non-vacuity: a run in which two computations on a pool of one thread are submitted, executed in reverse order, and both
delivered. -/
example : ∃ s : State ℕ, Reachable 1 s ∧ s.counter = 0 ∧ s.aborted = false ∧ s.jobs.map Job.wait = [.got 7, .got 8] := by
  have h0 : Reachable 1 (State.init ℕ) := .refl
  have h := h0.tail (.compute (some 7) rfl)
  have h := h.tail (.compute (some 8) rfl)
  have h := h.tail (.step rfl (.fetchAdd 0 _ rfl rfl))
  have h := h.tail (.step rfl (.fetchAdd 1 _ rfl rfl))
  have h := h.tail (.step rfl (.spawn 1 1 _ rfl rfl (by omega)))
  have h := h.tail (.step rfl (.spawn 0 0 _ rfl rfl (by omega)))
  have h := h.tail (.step rfl (.pickUp 1 _ rfl rfl))
  have h := h.tail (.step rfl (.eval 1 _ true 8 rfl rfl rfl))
  have h := h.tail (.step rfl (.pickUp 0 _ rfl rfl))
  have h := h.tail (.step rfl (.send 1 _ true 8 rfl rfl rfl rfl))
  have h := h.tail (.step rfl (.recv 1 _ 8 rfl rfl rfl rfl))
  have h := h.tail (.step rfl (.eval 0 _ true 7 rfl rfl rfl))
  have h := h.tail (.step rfl (.send 0 _ true 7 rfl rfl rfl rfl))
  have h := h.tail (.step rfl (.fetchSub 0 _ true rfl rfl))
  have h := h.tail (.step rfl (.recv 0 _ 7 rfl rfl rfl rfl))
  have h := h.tail (.step rfl (.fetchSub 1 _ true rfl rfl))
  exact ⟨_, h, rfl, rfl, rfl⟩

end Compute

end Bellman
