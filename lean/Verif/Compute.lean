import Mathlib.Data.List.Basic
import Mathlib.Logic.Relation

/-!
# `Worker::compute` and `Waiter` (src/multicore.rs:33-76, 94-118)

The calls made by any number of threads are modelled as a transition system.  A *job* is one call of
`compute`, from the call to the final decrement of the spawn counter, together with its `Waiter`; every
atomic action of the code (atomic counter operation, spawning, picking up, evaluating the closure, sending,
receiving) is one step, and the steps of different jobs interleave arbitrarily.  Without the `multicore`
feature (src/multicore.rs:159-188) `compute` evaluates the closure at once and `wait` returns its value;
there is nothing to model.
-/

namespace Bellman

namespace Compute

/-- How far a call of `compute` has got. `bg` tells whether the closure was handed to `rayon::spawn`
(src/multicore.rs:68-72) or runs in a blocking scope (src/multicore.rs:58-66). -/
inductive Phase (R : Type) where
  /-- the call has started (channel created, src/multicore.rs:38) -/
  | called
  /-- `fetch_add` done, `prev` is `previous_count` (src/multicore.rs:47) -/
  | counted (prev : ℕ)
  /-- in the queue of the pool (src/multicore.rs:68) -/
  | queued
  /-- executing the closure (src/multicore.rs:63, 69) -/
  | running (bg : Bool)
  /-- the closure has returned `res` (src/multicore.rs:63, 69) -/
  | ran (bg : Bool) (res : R)
  /-- `sender.send(res)` done (src/multicore.rs:64, 70) -/
  | sent (bg : Bool)
  /-- `fetch_sub` done (src/multicore.rs:65, 71) -/
  | finished
  /-- the closure panicked in the blocking scope; the panic propagated to the caller and the counter was not decremented -/
  | panicked

/-- State of a `Waiter`: not waited for yet (its receiver is alive), consumed by a `wait` that returned `r`, consumed by a `wait`
that panicked because it ran inside the pool (src/multicore.rs:101-107), or dropped by its owner. In the last two cases the
receiving end of the channel is gone. -/
inductive Wait (R : Type) where
  | pending
  | got (r : R)
  | refused
  | dropped

/-- The receiving end of the channel has been dropped without receiving. src/multicore.rs:75, 94-96. -/
def Wait.gone {R : Type} : Wait R → Bool
  | .refused => true
  | .dropped => true
  | _ => false

/-- One call of `compute`: the closure (`none` if it panics), the progress of the call, the content of the `bounded(1)` channel
and the waiter. src/multicore.rs:33-76. -/
structure Job (R : Type) where
  closure : Option R
  phase : Phase R
  chan : Option R
  wait : Wait R

/-- `compute` has returned the waiter to its caller: right after `rayon::spawn`, or at the end of the blocking scope.
src/multicore.rs:75. -/
def Phase.returned {R : Type} : Phase R → Bool
  | .queued => true
  | .running bg => bg
  | .ran bg _ => bg
  | .sent bg => bg
  | .finished => true
  | _ => false

/-- `WORKER_SPAWN_COUNTER` (src/multicore.rs:14) and all calls made so far. `aborted`: a job handed to
`rayon::spawn` panicked, upon which rayon's default panic handler aborts the process. -/
structure State (R : Type) where
  counter : ℕ
  jobs : List (Job R)
  aborted : Bool

/-- The initial state of the process. src/multicore.rs:14. -/
def State.init (R : Type) : State R := ⟨0, [], false⟩

/-- A new call of `compute` with the given closure. src/multicore.rs:33-38. -/
def Job.new {R : Type} (f : Option R) : Job R := ⟨f, .called, none, .pending⟩

/-- `Waiter::done(val)` (src/multicore.rs:112-117): a waiter whose channel is already filled; no counter is involved. -/
def Job.done {R : Type} (val : R) : Job R := ⟨some val, .finished, some val, .pending⟩

/-- The steps that calls in progress perform. `maxCount` is `WORKER_SPAWN_MAX_COUNT`, four times the number of threads
(src/multicore.rs:16-19). -/
inductive Step {R : Type} (maxCount : ℕ) (s : State R) : State R → Prop where
  /-- `WORKER_SPAWN_COUNTER.fetch_add(1)` -/
  | fetchAdd (i : ℕ) (j : Job R) : s.jobs[i]? = some j → j.phase = .called →
      Step maxCount s { s with counter := s.counter + 1, jobs := s.jobs.set i { j with phase := .counted s.counter } }
  /-- `previous_count > MAX`: run the closure in a scope -/
  | inline (i prev : ℕ) (j : Job R) : s.jobs[i]? = some j → j.phase = .counted prev → maxCount < prev →
      Step maxCount s { s with jobs := s.jobs.set i { j with phase := .running false } }
  /-- otherwise `rayon::spawn` -/
  | spawn (i prev : ℕ) (j : Job R) : s.jobs[i]? = some j → j.phase = .counted prev → ¬ maxCount < prev →
      Step maxCount s { s with jobs := s.jobs.set i { j with phase := .queued } }
  /-- a pool thread picks the job up -/
  | pickUp (i : ℕ) (j : Job R) : s.jobs[i]? = some j → j.phase = .queued →
      Step maxCount s { s with jobs := s.jobs.set i { j with phase := .running true } }
  /-- `let res = f();` -/
  | eval (i : ℕ) (j : Job R) (bg : Bool) (r : R) : s.jobs[i]? = some j → j.phase = .running bg → j.closure = some r →
      Step maxCount s { s with jobs := s.jobs.set i { j with phase := .ran bg r } }
  /-- `f()` panics in the blocking scope -/
  | panic (i : ℕ) (j : Job R) : s.jobs[i]? = some j → j.phase = .running false → j.closure = none →
      Step maxCount s { s with jobs := s.jobs.set i { j with phase := .panicked } }
  /-- `f()` panics in the background -/
  | abort (i : ℕ) (j : Job R) : s.jobs[i]? = some j → j.phase = .running true → j.closure = none →
      Step maxCount s { s with aborted := true }
  /-- `sender.send(res).unwrap()` (the channel has room for one value), the receiver being alive -/
  | send (i : ℕ) (j : Job R) (bg : Bool) (r : R) : s.jobs[i]? = some j → j.phase = .ran bg r → j.chan = none →
      j.wait.gone = false →
      Step maxCount s { s with jobs := s.jobs.set i { j with phase := .sent bg, chan := some r } }
  /-- `sender.send(res).unwrap()` in the background when the receiver is gone: `send` returns an error and `unwrap` panics -/
  | sendFail (i : ℕ) (j : Job R) (r : R) : s.jobs[i]? = some j → j.phase = .ran true r → j.wait.gone = true →
      Step maxCount s { s with aborted := true }
  /-- `WORKER_SPAWN_COUNTER.fetch_sub(1)` -/
  | fetchSub (i : ℕ) (j : Job R) (bg : Bool) : s.jobs[i]? = some j → j.phase = .sent bg →
      Step maxCount s { s with counter := s.counter - 1, jobs := s.jobs.set i { j with phase := .finished } }
  /-- `waiter.wait()` outside the pool: `receiver.recv()` (src/multicore.rs:108), blocks while the channel is empty -/
  | recv (i : ℕ) (j : Job R) (r : R) : s.jobs[i]? = some j → j.phase.returned = true → j.wait = .pending → j.chan = some r →
      Step maxCount s { s with jobs := s.jobs.set i { j with chan := none, wait := .got r } }

/-- What the owner of a `Waiter` may do besides waiting for it properly. src/multicore.rs:100-109. -/
inductive Misuse {R : Type} (s : State R) : State R → Prop where
  /-- `waiter.wait()` inside the pool panics -/
  | waitInPool (i : ℕ) (j : Job R) : s.jobs[i]? = some j → j.phase.returned = true → j.wait = .pending →
      Misuse s { s with jobs := s.jobs.set i { j with wait := .refused } }
  /-- the waiter goes out of scope, for example on an early return with `?` -/
  | drop (i : ℕ) (j : Job R) : s.jobs[i]? = some j → j.phase.returned = true → j.wait = .pending →
      Misuse s { s with jobs := s.jobs.set i { j with wait := .dropped } }

/-- All steps: new calls may start at any time, waiters may be misused at any time; nothing happens after an abort.
src/multicore.rs:33-118. -/
inductive Run {R : Type} (maxCount : ℕ) (s : State R) : State R → Prop where
  | step {s' : State R} : s.aborted = false → Step maxCount s s' → Run maxCount s s'
  | misuse {s' : State R} : s.aborted = false → Misuse s s' → Run maxCount s s'
  | compute (f : Option R) : s.aborted = false → Run maxCount s { s with jobs := s.jobs ++ [Job.new f] }
  | done (val : R) : s.aborted = false → Run maxCount s { s with jobs := s.jobs ++ [Job.done val] }

/-- Reachable states, for a pool of `threads` threads. src/multicore.rs:33-118. -/
def Reachable {R : Type} (threads : ℕ) (s : State R) : Prop :=
  Relation.ReflTransGen (Run (4 * threads)) (State.init R) s

end Compute

end Bellman
