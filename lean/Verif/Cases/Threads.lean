import Verif.Props.Compute
import Verif.Props.Threads

/-!
# Concrete cases of the theorems on background computations (C28, C41, C60)
-/

set_option linter.unusedSectionVars false

namespace Bellman.Cases

open Compute

/-! ### C28, C41 -/

/-- Two computations on one thread, spawned in the opposite order, both received and finished. -/
private theorem done2 : ∃ s : State ℕ, Reachable 1 s ∧ s.aborted = false ∧
    s.jobs = [⟨some 7, .finished, none, .got 7⟩, ⟨some 8, .finished, none, .got 8⟩] := by
  have h0 : Reachable 1 (State.init ℕ) := .refl
  have h := h0.tail (.compute (some 7) rfl)
  have h := h.tail (.compute (some 8) rfl)
  have h := h.tail (.step rfl (.fetchAdd 0 _ rfl rfl))
  have h := h.tail (.step rfl (.fetchAdd 1 _ rfl rfl))
  have h := h.tail (.step rfl (.spawn 1 1 _ rfl rfl (by omega)))
  have h := h.tail (.step rfl (.spawn 0 0 _ rfl rfl (by omega)))
  have h := h.tail (.step rfl (.pickUp 1 _ rfl rfl))
  have h := h.tail (.step rfl (.eval 1 _ true 8 rfl rfl rfl))
  have h := h.tail (.step rfl (.pickUp 0 _ rfl rfl))
  have h := h.tail (.step rfl (.send 1 _ true 8 rfl rfl rfl rfl))
  have h := h.tail (.step rfl (.recv 1 _ 8 rfl rfl rfl rfl))
  have h := h.tail (.step rfl (.eval 0 _ true 7 rfl rfl rfl))
  have h := h.tail (.step rfl (.send 0 _ true 7 rfl rfl rfl rfl))
  have h := h.tail (.step rfl (.fetchSub 0 _ true rfl rfl))
  have h := h.tail (.step rfl (.recv 0 _ 7 rfl rfl rfl rfl))
  have h := h.tail (.step rfl (.fetchSub 1 _ true rfl rfl))
  exact ⟨_, h, rfl, rfl⟩

example : ∃ s : State ℕ, Reachable 1 s ∧ (∃ j, s.jobs[1]? = some j ∧ j.wait = .got 8 ∧ j.closure = some 8) ∧
    s.jobs.countP (Job.backlog 4) ≤ 5 ∧ s.counter = s.jobs.countP Job.unfinished ∧ s.counter = 0 ∧ s.aborted = false := by
  obtain ⟨s, h, -, hj⟩ := done2
  refine ⟨s, h, ⟨⟨some 8, .finished, none, .got 8⟩, by rw [hj]; rfl, rfl, C28_own_result h 1 _ 8 (by rw [hj]; rfl) rfl⟩,
    C28_backlog h, C28_counter h, C28_counter_zero h ?_, C41_no_abort h ?_⟩
  all_goals
    intro j hjm
    rw [hj] at hjm
    simp only [List.mem_cons, List.not_mem_nil, or_false] at hjm
    rcases hjm with rfl | rfl
  · rfl
  · rfl
  · exact ⟨by simp, rfl⟩
  · exact ⟨by simp, rfl⟩

/-- A further call changes nothing for the results already received. -/
example : ∃ s s' : State ℕ, Run 4 s s' ∧ s ≠ s' ∧ ∃ j', s'.jobs[0]? = some j' ∧ j'.wait = .got 7 := by
  obtain ⟨s, h, ha, hj⟩ := done2
  have hr : Run 4 s _ := .compute (some 9) ha
  obtain ⟨j', h1, h2, -⟩ := C28_once hr 0 ⟨some 7, .finished, none, .got 7⟩ 7 (by rw [hj]; rfl) rfl
  refine ⟨s, _, hr, fun e => ?_, j', h1, h2⟩
  have := congrArg (fun s : State ℕ => s.jobs.length) e
  simp at this

/-- A step, and the measure that decreases. -/
example : ∃ s s' : State ℕ, Step 4 s s' ∧ s'.fuel < s.fuel := by
  have hs : Step 4 (⟨0, [Job.new (some 7)], false⟩ : State ℕ) _ := .fetchAdd 0 _ rfl rfl
  exact ⟨_, _, hs, C28_terminates rfl hs⟩

/-! ### C60 -/

/-- The first thread submits 1 and 2 and waits in reverse order, the second submits 3. -/
private abbrev two : List (Bool × Own ℕ ℕ) :=
  [(false, .compute (some 1) fun i => .compute (some 2) fun j => .wait j fun y => .wait i fun x => .ret (some (10 * x + y))),
    (false, .compute (some 3) fun i => .wait i fun x => .ret (some x))]

private theorem two_ok : ∀ p ∈ two, p.1 = false ∧ ∃ a cells, p.2.seq [] = (some a, cells) ∧ ∀ x ∈ cells, x = none := by
  intro p hp
  simp only [List.mem_cons, List.not_mem_nil, or_false] at hp
  rcases hp with rfl | rfl
  · exact ⟨rfl, 12, [none, none], rfl, by simp⟩
  · exact ⟨rfl, 3, [none], rfl, by simp⟩

private theorem two_ok' : ∀ p ∈ two, p.1 = false ∧ ∃ a cells, p.2.seq [] = (some a, cells) := fun p hp =>
  let ⟨h, a, cells, e, _⟩ := two_ok p hp
  ⟨h, a, cells, e⟩

/-- A state in which both threads have finished is reachable; there is no abort in it, and the first thread has 12. -/
example : ∃ (c : Config ℕ ℕ) (th : Thread ℕ ℕ), Config.Reachable 1 two c ∧ c.aborted = false ∧ c.threads[0]? = some th ∧
    th.finished (some 12) := by
  obtain ⟨c, h1, h2⟩ := C60_completes (n := 1) two_ok .refl
  have hl : c.threads.length = 2 := Config.Reachable.length h1
  have h0 : 0 < c.threads.length := by omega
  obtain ⟨a, ha⟩ := h2 c.threads[0] (List.getElem_mem h0)
  have e : some a = some 12 := C60_result h1 (t := 0) rfl (a := 12) (cells := [none, none]) rfl (List.getElem?_eq_getElem h0) ha
  exact ⟨c, c.threads[0], h1, C60_no_abort h1 two_ok, List.getElem?_eq_getElem h0, e ▸ ha⟩

/-- No schedule of the two threads is infinite. -/
example : ¬ ∃ f : ℕ → Config ℕ ℕ, f 0 = Config.init two ∧ ∀ k, Config.Step 4 (f k) (f (k + 1)) := C60_terminates 1 two two_ok'

/-- So some reachable state is stuck, and in it all threads have finished. -/
example : ∃ c : Config ℕ ℕ, Config.Reachable 1 two c ∧ ∀ th ∈ c.threads, ∃ a, th.finished (some a) := by
  by_contra hno
  push Not at hno
  refine C60_terminates 1 two two_ok' ?_
  have hstep : ∀ c : {c : Config ℕ ℕ // Config.Reachable 1 two c}, ∃ c' : {c : Config ℕ ℕ // Config.Reachable 1 two c},
      Config.Step 4 c.1 c'.1 := fun c => by
    by_contra hs
    push Not at hs
    obtain ⟨th, hth, hf⟩ := hno c.1 c.2
    obtain ⟨a, ha⟩ := C60_progress c.2 (C60_no_abort c.2 two_ok) two_ok' (fun c' h => hs ⟨c', c.2.tail h⟩ h) th hth
    exact hf a ha
  choose g hg using hstep
  have h0 : Config.Reachable 1 two (Config.init two) := .refl
  refine ⟨fun k => (g^[k] ⟨_, h0⟩).1, rfl, fun k => ?_⟩
  have := hg (g^[k] ⟨_, h0⟩)
  rwa [← Function.iterate_succ_apply' g] at this

/-- A thread that drops a waiter: some schedule aborts the process. -/
example : ∃ c : Config ℕ ℕ, Config.Reachable 2 [(false, .compute (some 1) fun _ => .ret (some 5))] c ∧ c.aborted = true :=
  C60_leftover (by norm_num) (t := 0) rfl (a := 5) (cells := [some 1]) rfl (i := 0) (v := 1) rfl

end Bellman.Cases
