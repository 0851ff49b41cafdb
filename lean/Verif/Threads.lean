import Verif.Compute

/-!
# Threads that use `Worker::compute` and `Waiter::wait` (src/multicore.rs:33-118, 147-188)

A thread of the application is a program that calls `compute` and `wait`; everything it does in between happens in its own memory and
is a function of what it has received.  The same program has two meanings: `Own.seq`, the implementation without the `multicore`
feature, and the transition system `Config.Step`, the implementation with it, in which the steps of any number of threads and of
the computations they have submitted (`Compute.Step`) interleave arbitrarily.
-/

namespace Bellman

namespace Compute

/-- A program of one thread. `ret none` is a panic (the thread unwinds), `ret (some a)` returns `a`.
Calls src/multicore.rs:33-118. -/
inductive Own (R α : Type) where
  /-- the end: every waiter still in scope is dropped -/
  | ret (a : Option α)
  /-- `let waiter = worker.compute(f);` (`f = none`: the closure panics); the program continues with the waiter, which is identified
  by the number of earlier calls of `compute` of this thread -/
  | compute (f : Option R) (k : ℕ → Own R α)
  /-- `waiter.wait()` -/
  | wait (i : ℕ) (k : R → Own R α)

namespace Own

variable {R α β : Type}

/-- Running a program without the `multicore` feature (src/multicore.rs:159-188): `compute` evaluates the closure at once and stores
the value in the waiter (`Waiter::done(f())`), `wait` takes it out (`self.val.take().expect(..)`). The cells are the `val` fields of the
waiters created so far; the result comes with the cells at the end. -/
def seq : Own R α → List (Option R) → Option α × List (Option R)
  | ret a, l => (a, l)
  | compute none _, l => (none, l)
  | compute (some r) k, l => seq (k l.length) (l ++ [some r])
  | wait i k, l =>
    match l[i]? with
    | some (some r) => seq (k r) (l.set i none)
    | _ => (none, l)

end Own

/-- One thread of the application: whether it is a thread of the pool (`rayon::current_thread_index().is_some()`), what it still has to
do, and its calls of `compute` with their waiters. Model device, no counterpart in the code. -/
structure Thread (R α : Type) where
  inPool : Bool
  prog : Own R α
  jobs : List (Job R)

namespace Thread

variable {R α : Type}

/-- The thread is not inside a call of `compute`. src/multicore.rs:33-76. -/
def ready (t : Thread R α) : Prop := ∀ j ∈ t.jobs, j.phase.returned = true

/-- The thread has ended with result `a`: it is not inside a call of `compute` (except for one that panicked) and has no waiter left.
src/multicore.rs:33-118. -/
def finished (t : Thread R α) (a : Option α) : Prop :=
  t.prog = .ret a ∧ ∀ j ∈ t.jobs, (j.phase = .panicked ∧ a = none) ∨ (j.phase.returned = true ∧ j.wait ≠ .pending)

end Thread

/-- All threads, `WORKER_SPAWN_COUNTER`, and whether the process has been aborted. src/multicore.rs:14. -/
structure Config (R α : Type) where
  counter : ℕ
  aborted : Bool
  threads : List (Thread R α)

namespace Config

variable {R α : Type}

/-- The start: no call of `compute` has been made. src/multicore.rs:14. -/
def init (ps : List (Bool × Own R α)) : Config R α := ⟨0, false, ps.map fun p => ⟨p.1, p.2, []⟩⟩

/-- The steps of the process; none after an abort. src/multicore.rs:33-118. -/
inductive Step (maxCount : ℕ) (c : Config R α) : Config R α → Prop where
  /-- a step of a computation in progress (anything in `Compute.Step` but receiving, which is done by the thread) -/
  | pool (t : ℕ) (th : Thread R α) (s : State R) : c.aborted = false → c.threads[t]? = some th →
      Compute.Step maxCount ⟨c.counter, th.jobs, false⟩ s → s.jobs.map Job.wait = th.jobs.map Job.wait →
      Step maxCount c ⟨s.counter, s.aborted, c.threads.set t { th with jobs := s.jobs }⟩
  /-- a call of `compute` -/
  | compute (t : ℕ) (th : Thread R α) (f : Option R) (k : ℕ → Own R α) : c.aborted = false → c.threads[t]? = some th → th.ready →
      th.prog = .compute f k →
      Step maxCount c { c with threads := c.threads.set t { th with prog := k th.jobs.length, jobs := th.jobs ++ [Job.new f] } }
  /-- the closure panicked in the blocking scope of `compute` -/
  | unwind (t : ℕ) (th : Thread R α) (j : Job R) : c.aborted = false → c.threads[t]? = some th → j ∈ th.jobs → j.phase = .panicked →
      th.prog ≠ .ret none →
      Step maxCount c { c with threads := c.threads.set t { th with prog := .ret none } }
  /-- `wait` outside the pool, when the result is there (src/multicore.rs:108) -/
  | recv (t : ℕ) (th : Thread R α) (i : ℕ) (k : R → Own R α) (j : Job R) (r : R) : c.aborted = false → c.threads[t]? = some th →
      th.ready → th.prog = .wait i k → th.inPool = false → th.jobs[i]? = some j → j.wait = .pending → j.chan = some r →
      Step maxCount c { c with
        threads := c.threads.set t { th with prog := k r, jobs := th.jobs.set i { j with chan := none, wait := .got r } } }
  /-- `wait` inside the pool panics (src/multicore.rs:101-107) -/
  | refuse (t : ℕ) (th : Thread R α) (i : ℕ) (k : R → Own R α) (j : Job R) : c.aborted = false → c.threads[t]? = some th →
      th.ready → th.prog = .wait i k → th.inPool = true → th.jobs[i]? = some j → j.wait = .pending →
      Step maxCount c { c with
        threads := c.threads.set t { th with prog := .ret none, jobs := th.jobs.set i { j with wait := .refused } } }
  /-- at the end of the thread's function a waiter in scope is dropped -/
  | drop (t : ℕ) (th : Thread R α) (a : Option α) (i : ℕ) (j : Job R) : c.aborted = false → c.threads[t]? = some th →
      th.prog = .ret a → th.jobs[i]? = some j → j.phase.returned = true → j.wait = .pending →
      Step maxCount c { c with threads := c.threads.set t { th with jobs := th.jobs.set i { j with wait := .dropped } } }

/-- Configurations that can occur when the given programs are started on a pool with the given number of threads
(`WORKER_SPAWN_MAX_COUNT` is four times that, src/multicore.rs:16-19). -/
def Reachable (threads : ℕ) (ps : List (Bool × Own R α)) (c : Config R α) : Prop :=
  Relation.ReflTransGen (Step (4 * threads)) (init ps) c

end Config

end Compute

end Bellman
