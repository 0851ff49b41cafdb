import Verif.Threads
import Verif.Props.Compute

/-!
# Threads and background computations: invariants
-/

namespace Bellman

namespace Compute

variable {R α : Type}

/-- What a step of the pool does to one job. -/
theorem Step.frame {m : ℕ} {s s' : State R} (h : Step m s s') :
    s'.jobs.length = s.jobs.length ∧ ∀ (i : ℕ) (j' : Job R), s'.jobs[i]? = some j' →
      ∃ j, s.jobs[i]? = some j ∧ j'.closure = j.closure ∧ (j.Ok → j'.Ok) := by
  have same : ∀ (i : ℕ) (j' : Job R), s.jobs[i]? = some j' → ∃ j, s.jobs[i]? = some j ∧ j'.closure = j.closure ∧ (j.Ok → j'.Ok) :=
    fun i j' h => ⟨j', h, rfl, id⟩
  have hset : ∀ (k : ℕ) (jk jk' : Job R), s.jobs[k]? = some jk → jk'.closure = jk.closure → (jk.Ok → jk'.Ok) →
      (s.jobs.set k jk').length = s.jobs.length ∧ ∀ (i : ℕ) (j' : Job R), (s.jobs.set k jk')[i]? = some j' →
      ∃ j, s.jobs[i]? = some j ∧ j'.closure = j.closure ∧ (j.Ok → j'.Ok) := by
    intro k jk jk' hk hc ho
    refine ⟨List.length_set, fun i j' hi => ?_⟩
    rw [List.getElem?_set] at hi
    by_cases hki : k = i
    · subst hki
      have hlt : k < s.jobs.length := by
        by_contra hn
        rw [List.getElem?_eq_none (by omega)] at hk
        cases hk
      simp only [if_true, hlt] at hi
      cases hi
      exact ⟨jk, hk, hc, ho⟩
    · simp only [hki, if_false] at hi
      exact same i j' hi
  cases h with
  | fetchAdd i j hj hp =>
    obtain ⟨f, ph, c, w⟩ := j
    simp only at hp; subst hp
    exact hset i _ _ hj rfl id
  | inline i prev j hj hp hlt =>
    obtain ⟨f, ph, c, w⟩ := j
    simp only at hp; subst hp
    exact hset i _ _ hj rfl id
  | spawn i prev j hj hp hlt =>
    obtain ⟨f, ph, c, w⟩ := j
    simp only at hp; subst hp
    exact hset i _ _ hj rfl fun h => ⟨h.1, h.2.1, fun h' => by simp [Phase.returned] at h', h.2.2.2⟩
  | pickUp i j hj hp =>
    obtain ⟨f, ph, c, w⟩ := j
    simp only at hp; subst hp
    exact hset i _ _ hj rfl fun h => ⟨h.1, h.2.1, fun h' => by simp [Phase.returned] at h', h.2.2.2⟩
  | eval i j bg r hj hp hf =>
    obtain ⟨f, ph, c, w⟩ := j
    simp only at hp hf; subst hp; subst hf
    exact hset i _ _ hj rfl fun h => ⟨h.1, h.2.1, h.2.2.1, h.2.2.2.1, h.2.2.2.2, rfl⟩
  | panic i j hj hp hf =>
    obtain ⟨f, ph, c, w⟩ := j
    simp only at hp hf; subst hp; subst hf
    exact hset i _ _ hj rfl fun h => ⟨h.1, h.2.1, h.2.2.1, rfl⟩
  | abort i j hj hp hf => exact ⟨rfl, same⟩
  | send i j bg r hj hp hc hg =>
    obtain ⟨f, ph, c, w⟩ := j
    simp only at hp hc hg; subst hp; subst hc
    refine hset i _ _ hj rfl fun h => ⟨?_, h.2.1, h.2.2.1, fun _ => by simp⟩
    rintro r' hr'
    simp only [Option.some.injEq] at hr'
    subst hr'
    exact h.2.2.2.2.2
  | sendFail i j r hj hp hg => exact ⟨rfl, same⟩
  | fetchSub i j bg hj hp =>
    obtain ⟨f, ph, c, w⟩ := j
    simp only at hp; subst hp
    exact hset i _ _ hj rfl fun h => ⟨h.1, h.2.1, fun h' => by simp [Phase.returned] at h', h.2.2.2⟩
  | recv i j r hj hr hw hc =>
    obtain ⟨f, ph, c, w⟩ := j
    simp only at hr hw hc; subst hw; subst hc
    refine hset i _ _ hj rfl fun h => ⟨fun r h' => (by cases h'), ?_, fun h' => ?_, ?_⟩
    · intro r' hr'
      cases hr'
      exact h.1 r rfl
    · rw [hr] at h'; cases h'
    · have h4 := h.2.2.2
      cases ph <;> simp_all

/-- What a job contributes to the sequential reading: its value, unless it has been received. -/
def Job.cell (j : Job R) : Option R :=
  match j.wait with
  | .got _ => none
  | _ => j.closure

/-- The thread is on the path of the sequential execution, which ends with `a` and the cells `fin`. -/
structure Thread.Follows (a : α) (fin : List (Option R)) (th : Thread R α) : Prop where
  seq : th.prog.seq (th.jobs.map Job.cell) = (some a, fin)
  ok : ∀ j ∈ th.jobs, j.Ok
  closure : ∀ j ∈ th.jobs, j.closure ≠ none
  refused : ∀ j ∈ th.jobs, j.wait ≠ .refused
  dropped : ∀ j ∈ th.jobs, j.wait = .dropped → ∃ b, th.prog = .ret b

theorem map_cell_eq {l l' : List (Job R)} (hlen : l'.length = l.length)
    (hf : ∀ (i : ℕ) (j' : Job R), l'[i]? = some j' → ∃ j, l[i]? = some j ∧ j'.closure = j.closure ∧ (j.Ok → j'.Ok))
    (hw : l'.map Job.wait = l.map Job.wait) : l'.map Job.cell = l.map Job.cell := by
  apply List.ext_getElem?
  intro i
  have hwi := congrArg (·[i]?) hw
  simp only [List.getElem?_map] at hwi ⊢
  cases h' : l'[i]? with
  | none =>
    have : l[i]? = none := by
      rw [List.getElem?_eq_none_iff] at h' ⊢; omega
    rw [this]
  | some j' =>
    obtain ⟨j, hj, hc, -⟩ := hf i j' h'
    rw [hj]
    rw [h', hj] at hwi
    simp only [Option.map_some, Option.some.injEq] at hwi ⊢
    unfold Job.cell
    rw [hwi, hc]

theorem forall_of_frame {l l' : List (Job R)} {P : Job R → Prop} (hP : ∀ j ∈ l, P j)
    (hf : ∀ (i : ℕ) (j' : Job R), l'[i]? = some j' → ∃ j, l[i]? = some j ∧ (P j → P j')) : ∀ j ∈ l', P j := by
  intro j' hj'
  obtain ⟨i, hi⟩ := List.mem_iff_getElem?.1 hj'
  obtain ⟨j, hj, h⟩ := hf i j' hi
  exact h (hP j (List.mem_of_getElem? hj))

theorem wait_eq_of_frame {l l' : List (Job R)} (hw : l'.map Job.wait = l.map Job.wait) {i : ℕ} {j j' : Job R} (h' : l'[i]? = some j')
    (h : l[i]? = some j) : j'.wait = j.wait := by
  have := congrArg (·[i]?) hw
  simp only [List.getElem?_map, h', h] at this
  simpa using this

/-- A step of the pool keeps the thread on its path. -/
theorem Thread.Follows.pool {a : α} {fin : List (Option R)} {th : Thread R α} (h : th.Follows a fin) {m n : ℕ} {s : State R}
    (hs : Compute.Step m ⟨n, th.jobs, false⟩ s) (hw : s.jobs.map Job.wait = th.jobs.map Job.wait) :
    ({ th with jobs := s.jobs } : Thread R α).Follows a fin := by
  obtain ⟨hlen, hf⟩ := hs.frame
  simp only at hlen hf
  refine ⟨?_, ?_, ?_, ?_, ?_⟩
  · simp only
    rw [map_cell_eq hlen hf hw]
    exact h.seq
  · exact forall_of_frame h.ok fun i j' hi => by
      obtain ⟨j, hj, -, ho⟩ := hf i j' hi
      exact ⟨j, hj, ho⟩
  · exact forall_of_frame h.closure fun i j' hi => by
      obtain ⟨j, hj, hc, -⟩ := hf i j' hi
      exact ⟨j, hj, fun h => by rw [hc]; exact h⟩
  · exact forall_of_frame h.refused fun i j' hi => by
      obtain ⟨j, hj, hc, -⟩ := hf i j' hi
      exact ⟨j, hj, fun h => by rw [wait_eq_of_frame hw hi hj]; exact h⟩
  · exact forall_of_frame (P := fun j => j.wait = .dropped → ∃ b, th.prog = .ret b) h.dropped fun i j' hi => by
      obtain ⟨j, hj, hc, -⟩ := hf i j' hi
      exact ⟨j, hj, fun h => by rw [wait_eq_of_frame hw hi hj]; exact h⟩

theorem Job.new_ok (f : Option R) : (Job.new f).Ok := by
  refine ⟨?_, ?_, ?_, ?_⟩ <;> simp [Job.new]

theorem forall_set {l : List (Job R)} {P : Job R → Prop} {i : ℕ} {j' : Job R} (hP : ∀ j ∈ l, P j) (hj : P j') :
    ∀ j ∈ l.set i j', P j := by
  intro k hk
  rcases List.mem_or_eq_of_mem_set hk with h' | h'
  · exact hP k h'
  · rw [h']; exact hj

/-- A call of `compute` keeps the thread on its path; the closure does not panic. -/
theorem Thread.Follows.compute {a : α} {fin : List (Option R)} {th : Thread R α} (h : th.Follows a fin) {f : Option R} {k : ℕ → Own R α}
    (hp : th.prog = .compute f k) :
    ({ th with prog := k th.jobs.length, jobs := th.jobs ++ [Job.new f] } : Thread R α).Follows a fin ∧ ∃ r, f = some r := by
  have hs := h.seq
  rw [hp] at hs
  cases f with
  | none => simp [Own.seq] at hs
  | some r =>
    simp only [Own.seq, List.length_map] at hs
    refine ⟨⟨?_, ?_, ?_, ?_, ?_⟩, r, rfl⟩
    · simpa [Job.cell, Job.new] using hs
    · intro j hj
      rcases List.mem_append.1 hj with h' | h'
      · exact h.ok j h'
      · rw [List.mem_singleton.1 h']; exact Job.new_ok _
    · intro j hj
      rcases List.mem_append.1 hj with h' | h'
      · exact h.closure j h'
      · rw [List.mem_singleton.1 h']; simp [Job.new]
    · intro j hj
      rcases List.mem_append.1 hj with h' | h'
      · exact h.refused j h'
      · rw [List.mem_singleton.1 h']; simp [Job.new]
    · intro j hj hd
      rcases List.mem_append.1 hj with h' | h'
      · obtain ⟨b, hb⟩ := h.dropped j h' hd
        rw [hp] at hb; cases hb
      · rw [List.mem_singleton.1 h'] at hd; simp [Job.new] at hd

theorem Thread.Follows.not_panicked {a : α} {fin : List (Option R)} {th : Thread R α} (h : th.Follows a fin) {j : Job R} (hj : j ∈ th.jobs) :
    j.phase ≠ .panicked := by
  intro hp
  have h4 := (h.ok j hj).2.2.2
  rw [hp] at h4
  exact h.closure j hj h4

theorem map_cell_set (l : List (Job R)) (i : ℕ) (j' : Job R) : (l.set i j').map Job.cell = (l.map Job.cell).set i j'.cell :=
  List.map_set

/-- Receiving keeps the thread on its path. -/
theorem Thread.Follows.recv {a : α} {fin : List (Option R)} {th : Thread R α} (h : th.Follows a fin) {i : ℕ} {k : R → Own R α} {j : Job R}
    {r : R} (hp : th.prog = .wait i k) (hj : th.jobs[i]? = some j) (hw : j.wait = .pending) (hc : j.chan = some r)
    (hr : j.phase.returned = true) :
    ({ th with prog := k r, jobs := th.jobs.set i { j with chan := none, wait := .got r } } : Thread R α).Follows a fin := by
  have hm := List.mem_of_getElem? hj
  have hok := h.ok j hm
  have hcl : j.closure = some r := hok.1 r hc
  have hs := h.seq
  rw [hp] at hs
  have hcell : (th.jobs.map Job.cell)[i]? = some (some r) := by
    simp [hj, Job.cell, hw, hcl]
  rw [Own.seq, hcell] at hs
  simp only at hs
  refine ⟨?_, forall_set h.ok ?_, forall_set h.closure ?_, forall_set h.refused ?_, ?_⟩
  · simp only
    rw [map_cell_set]
    exact hs
  · obtain ⟨f, ph, c, w⟩ := j
    simp only at hw hc hr hcl; subst hw; subst hc
    refine ⟨fun r h' => (by cases h'), ?_, fun h' => ?_, ?_⟩
    · intro r' hr'
      cases hr'
      exact hcl
    · rw [hr] at h'; cases h'
    · have h4 := hok.2.2.2
      cases ph <;> simp_all
  · simp [hcl]
  · simp
  · intro j' hj' hd
    rcases List.mem_or_eq_of_mem_set hj' with h' | h'
    · obtain ⟨b, hb⟩ := h.dropped j' h' hd
      rw [hp] at hb; cases hb
    · rw [h'] at hd; cases hd

/-- So does dropping a waiter at the end. -/
theorem Thread.Follows.drop {a : α} {fin : List (Option R)} {th : Thread R α} (h : th.Follows a fin) {b : Option α} {i : ℕ} {j : Job R}
    (hp : th.prog = .ret b) (hj : th.jobs[i]? = some j) (hw : j.wait = .pending) (hr : j.phase.returned = true) :
    ({ th with jobs := th.jobs.set i { j with wait := .dropped } } : Thread R α).Follows a fin := by
  have hm := List.mem_of_getElem? hj
  have hok := h.ok j hm
  have hcl := h.closure j hm
  refine ⟨?_, forall_set h.ok ?_, forall_set h.closure hcl, forall_set h.refused (by simp), fun _ _ _ => ⟨b, hp⟩⟩
  · simp only
    rw [map_cell_set]
    have : (th.jobs.map Job.cell).set i ({ j with wait := .dropped } : Job R).cell = th.jobs.map Job.cell := by
      apply List.ext_getElem?
      intro n
      rw [List.getElem?_set]
      split_ifs with h1 h2
      · subst h1
        simp [hj, Job.cell, hw]
      · subst h1
        rw [List.getElem?_eq_none (by omega)]
      · rfl
    rw [this]
    exact h.seq
  · obtain ⟨f, ph, c, w⟩ := j
    simp only at hw hr hcl; subst hw
    refine ⟨hok.1, fun r h' => (by cases h'), fun h' => ?_, ?_⟩
    · rw [hr] at h'; cases h'
    · have h4 := hok.2.2.2
      cases ph <;> simp_all

/-- A thread of the application outside the pool stays on the path of its sequential execution, whatever the others do. -/
theorem Config.Step.follows {m : ℕ} {c c' : Config R α} (h : Config.Step m c c') {t : ℕ} {a : α} {fin : List (Option R)}
    (hf : ∃ th, c.threads[t]? = some th ∧ th.inPool = false ∧ th.Follows a fin) :
    ∃ th, c'.threads[t]? = some th ∧ th.inPool = false ∧ th.Follows a fin := by
  obtain ⟨th, hth, hnp, hfol⟩ := hf
  have hset : ∀ (t' : ℕ) (th' : Thread R α) (u : Thread R α), c.threads[t']? = some th' →
      (t' = t → u.inPool = false ∧ u.Follows a fin) →
      ∃ th, (c.threads.set t' u)[t]? = some th ∧ th.inPool = false ∧ th.Follows a fin := by
    intro t' th' u ht' hu
    by_cases htt : t' = t
    · subst htt
      refine ⟨u, ?_, hu rfl⟩
      have hlt : t' < c.threads.length := by
        by_contra hn
        rw [List.getElem?_eq_none (by omega)] at ht'
        cases ht'
      simp [hlt]
    · exact ⟨th, by rw [List.getElem?_set_ne htt]; exact hth, hnp, hfol⟩
  cases h with
  | pool t' th' s _ ht' hs hw =>
    refine hset t' th' _ ht' fun e => ?_
    subst e; rw [hth] at ht'; cases ht'
    exact ⟨hnp, hfol.pool hs hw⟩
  | compute t' th' f k _ ht' hr hp =>
    refine hset t' th' _ ht' fun e => ?_
    subst e; rw [hth] at ht'; cases ht'
    exact ⟨hnp, (hfol.compute hp).1⟩
  | unwind t' th' j _ ht' hj hp _ =>
    refine hset t' th' _ ht' fun e => ?_
    subst e; rw [hth] at ht'; cases ht'
    exact absurd hp (hfol.not_panicked hj)
  | recv t' th' i k j r _ ht' hr hp hn hj hw hc =>
    refine hset t' th' _ ht' fun e => ?_
    subst e; rw [hth] at ht'; cases ht'
    exact ⟨hnp, hfol.recv hp hj hw hc (hr j (List.mem_of_getElem? hj))⟩
  | refuse t' th' i k j _ ht' hr hp hn hj hw =>
    refine hset t' th' _ ht' fun e => ?_
    subst e; rw [hth] at ht'; cases ht'
    rw [hn] at hnp; cases hnp
  | drop t' th' b i j _ ht' hp hj hr hw =>
    refine hset t' th' _ ht' fun e => ?_
    subst e; rw [hth] at ht'; cases ht'
    exact ⟨hnp, hfol.drop hp hj hw hr⟩

theorem Config.Reachable.follows {n : ℕ} {ps : List (Bool × Own R α)} {c : Config R α} (h : Config.Reachable n ps c) {t : ℕ} {p : Own R α}
    (ht : ps[t]? = some (false, p)) {a : α} {fin : List (Option R)} (hp : p.seq [] = (some a, fin)) :
    ∃ th, c.threads[t]? = some th ∧ th.inPool = false ∧ th.Follows a fin := by
  induction h with
  | refl =>
    refine ⟨⟨false, p, []⟩, by simp [Config.init, ht], rfl, ⟨by simpa using hp, ?_, ?_, ?_, ?_⟩⟩ <;> simp
  | tail _ hs ih => exact hs.follows ih

theorem Config.Step.length {m : ℕ} {c c' : Config R α} (h : Config.Step m c c') : c'.threads.length = c.threads.length := by
  cases h <;> simp

theorem Config.Reachable.length {n : ℕ} {ps : List (Bool × Own R α)} {c : Config R α} (h : Config.Reachable n ps c) :
    c.threads.length = ps.length := by
  induction h with
  | refl => simp [Config.init]
  | tail _ hs ih => rw [hs.length, ih]

/-- If every thread is on a path that ends without a waiter left, the process is not aborted. -/
theorem Thread.Follows.no_abort {a : α} {fin : List (Option R)} {th : Thread R α} (h : th.Follows a fin) (hfin : ∀ x ∈ fin, x = none)
    {m n : ℕ} {s : State R} (hs : Compute.Step m ⟨n, th.jobs, false⟩ s) : s.aborted = false := by
  have hnd : ∀ j ∈ th.jobs, j.wait.gone = false := by
    intro j hj
    cases hw : j.wait with
    | pending => rfl
    | got r => rfl
    | refused => exact absurd hw (h.refused j hj)
    | dropped =>
      exfalso
      obtain ⟨b, hb⟩ := h.dropped j hj hw
      have hseq := h.seq
      rw [hb, Own.seq] at hseq
      have h1 := hfin j.cell (by
        rw [← (Prod.mk.inj hseq).2]
        exact List.mem_map_of_mem hj)
      simp only [Job.cell, hw] at h1
      exact h.closure j hj h1
  cases hs with
  | abort i j hj hp hf => exact absurd hf (h.closure j (List.mem_of_getElem? hj))
  | sendFail i j r hj hp hg =>
    rw [hnd j (List.mem_of_getElem? hj)] at hg; cases hg
  | _ => rfl

/-! ## Progress -/

/-- As long as some computation of the thread has not finished, the pool can do a step. -/
theorem Thread.Follows.pool_step {a : α} {fin : List (Option R)} {th : Thread R α} (h : th.Follows a fin) (m n : ℕ) {j : Job R} (hj : j ∈ th.jobs)
    (hp : j.phase ≠ .finished) :
    ∃ s, Compute.Step m ⟨n, th.jobs, false⟩ s ∧ s.jobs.map Job.wait = th.jobs.map Job.wait := by
  obtain ⟨i, hi⟩ := List.mem_iff_getElem?.1 hj
  have hok := h.ok j hj
  have hw : ∀ j' : Job R, j'.wait = j.wait → (th.jobs.set i j').map Job.wait = th.jobs.map Job.wait := by
    intro j' hj'
    apply List.ext_getElem?
    intro q
    rw [List.map_set, List.getElem?_set]
    split_ifs with h1 h2
    · subst h1
      simp [hi, hj']
    · subst h1
      rw [List.getElem?_eq_none (by omega)]
    · rfl
  cases hph : j.phase with
  | called => exact ⟨_, Step.fetchAdd (s := ⟨n, th.jobs, false⟩) i j hi hph, hw _ rfl⟩
  | counted prev =>
    by_cases hlt : m < prev
    · exact ⟨_, Step.inline (s := ⟨n, th.jobs, false⟩) i prev j hi hph hlt, hw _ rfl⟩
    · exact ⟨_, Step.spawn (s := ⟨n, th.jobs, false⟩) i prev j hi hph hlt, hw _ rfl⟩
  | queued => exact ⟨_, Step.pickUp (s := ⟨n, th.jobs, false⟩) i j hi hph, hw _ rfl⟩
  | running bg =>
    cases hf : j.closure with
    | none => exact absurd hf (h.closure j hj)
    | some r => exact ⟨_, Step.eval (s := ⟨n, th.jobs, false⟩) i j bg r hi hph hf, hw _ rfl⟩
  | ran bg r =>
    have h4 := hok.2.2.2
    rw [hph] at h4
    cases hg : j.wait.gone with
    | false => exact ⟨_, Step.send (s := ⟨n, th.jobs, false⟩) i j bg r hi hph h4.1 hg, hw _ rfl⟩
    | true =>
      cases bg with
      | true => exact ⟨_, Step.sendFail (s := ⟨n, th.jobs, false⟩) i j r hi hph hg, rfl⟩
      | false =>
        have h3 := hok.2.2.1 (by rw [hph]; rfl)
        rw [h3] at hg; cases hg
  | sent bg => exact ⟨_, Step.fetchSub (s := ⟨n, th.jobs, false⟩) i j bg hi hph, hw _ rfl⟩
  | finished => exact absurd hph hp
  | panicked => exact absurd hph (h.not_panicked hj)

/-- A thread that is not finished, or a computation of it, can do a step. -/
theorem Config.progress {m : ℕ} {c : Config R α} (ha : c.aborted = false) {t : ℕ} {th : Thread R α} (ht : c.threads[t]? = some th)
    (hn : th.inPool = false) {a : α} {fin : List (Option R)} (h : th.Follows a fin) :
    th.finished (some a) ∨ ∃ c', Config.Step m c c' := by
  by_cases hall : ∀ j ∈ th.jobs, j.phase = .finished
  · have hready : th.ready := fun j hj => by rw [hall j hj]; rfl
    cases hp : th.prog with
    | compute f k => exact .inr ⟨_, .compute t th f k ha ht hready hp⟩
    | wait i k =>
      right
      have hs := h.seq
      rw [hp, Own.seq] at hs
      cases hj : th.jobs[i]? with
      | none => simp [hj] at hs
      | some j =>
        have hm := List.mem_of_getElem? hj
        have hw : j.wait = .pending := by
          cases hw : j.wait with
          | pending => rfl
          | got r => simp [hj, Job.cell, hw] at hs
          | refused => exact absurd hw (h.refused j hm)
          | dropped =>
            obtain ⟨b, hb⟩ := h.dropped j hm hw
            rw [hp] at hb; cases hb
        have h4 := (h.ok j hm).2.2.2
        rw [hall j hm] at h4
        cases hc : j.chan with
        | none => exact absurd hc (h4 hw)
        | some r => exact ⟨_, .recv t th i k j r ha ht hready hp hn hj hw hc⟩
    | ret b =>
      have hs := h.seq
      rw [hp, Own.seq] at hs
      obtain ⟨hb, -⟩ := Prod.mk.inj hs
      subst hb
      by_cases hpend : ∃ j ∈ th.jobs, j.wait = .pending
      · obtain ⟨j, hj, hw⟩ := hpend
        obtain ⟨i, hi⟩ := List.mem_iff_getElem?.1 hj
        exact .inr ⟨_, .drop t th _ i j ha ht hp hi (hready j hj) hw⟩
      · exact .inl ⟨hp, fun j hj => .inr ⟨hready j hj, fun hw => hpend ⟨j, hj, hw⟩⟩⟩
  · simp only [not_forall] at hall
    obtain ⟨j, hj, hp⟩ := hall
    obtain ⟨s, hs, hw⟩ := h.pool_step m c.counter hj hp
    exact .inr ⟨_, .pool t th s ha ht hs hw⟩

end Compute

end Bellman
