import Verif.Chunks

/-!
# The multicore abstraction (src/multicore.rs), scoped part

`Worker::scope` splits a slice into chunks and spawns one task per chunk.  Rust's borrow rules give
each task exclusive access to its own chunk and shared read access to everything else, so a task is
modelled by a private state and a list of atomic steps on that state; the scheduler may interleave
the steps of the tasks in any way.  `Worker::compute`/`Waiter` are modelled in `Verif/Compute.lean`.
-/

namespace Bellman

/-- `log2_floor`, loop body of src/multicore.rs:123-129: `while (1 << (pow + 1)) <= num { pow += 1 }`. The model uses
unbounded integers, so the shift overflow for `num ≥ 2^63` threads is not represented. -/
def log2FloorLoop (num pow : ℕ) : ℕ :=
  if 1 <<< (pow + 1) ≤ num then log2FloorLoop num (pow + 1) else pow
termination_by num - pow
decreasing_by
  rename_i h
  have : pow + 1 < 2 ^ (pow + 1) := Nat.lt_two_pow_self
  rw [Nat.shiftLeft_eq, Nat.one_mul] at h
  omega

/-- `log2_floor` (src/multicore.rs:120-130): panics for 0. -/
def log2Floor (num : ℕ) : Option ℕ := if 0 < num then some (log2FloorLoop num 0) else none

/-- A `Worker` (src/multicore.rs:22-27 and, without the `multicore` feature, 148-153) together with the environment it runs
in: the size of the rayon pool (`current_num_threads()`, at least one) and the decisions of the scheduler. `sched` maps a
call site (a path of numbers, so that successive calls may be scheduled differently) to the sequence of task numbers in
which steps are executed; it is completely arbitrary, see `runSched`. -/
structure Worker where
  /-- the `multicore` feature is enabled -/
  multicore : Bool
  /-- `rayon::current_num_threads()` -/
  threads : ℕ
  threads_pos : 0 < threads
  sched : List ℕ → List ℕ

namespace Worker

/-- The same worker at a different call site (model device: lets every call be scheduled differently). -/
def site (w : Worker) (k : ℕ) : Worker := { w with sched := fun p => w.sched (k :: p) }

/-- `Worker::log_num_threads` (src/multicore.rs:29-31; 155-157 without the feature). -/
def logNumThreads (w : Worker) : Option ℕ := if w.multicore then log2Floor w.threads else some 0

/-- The chunk size `Worker::scope` passes to its closure (src/multicore.rs:83-88; 171 without the feature). -/
def chunkSize (w : Worker) (elements : ℕ) : ℕ :=
  if w.multicore then (if elements < w.threads then 1 else elements / w.threads) else elements

end Worker

/-- A closure passed to `scope.spawn` (e.g. src/domain.rs:92-96): private state and atomic steps; a step may panic. -/
structure Task (σ : Type) where
  state : σ
  steps : List (σ → Option σ)

/-- Running a task to its end. Model device, no counterpart in the code. -/
def Task.run {σ : Type} (t : Task σ) : Option σ := t.steps.foldlM (fun s f => f s) t.state

/-- `rayon::scope` (used at src/multicore.rs:90) running spawned tasks under a schedule: each entry names the task that
performs its next step (entries naming a missing or finished task do nothing); when the schedule is used up the scope
waits for the remaining tasks. Every interleaving of the steps is the effect of some schedule. A panic in a task makes the
whole scope panic (`none`). Rayon itself is not modelled beyond this contract. -/
def runSched {σ : Type} : List ℕ → List (Task σ) → Option (List σ)
  | [], ts => ts.mapM Task.run
  | i :: rest, ts =>
    match ts[i]? with
    | some ⟨s, f :: fs⟩ => (f s).bind fun s' => runSched rest (ts.set i ⟨s', fs⟩)
    | _ => runSched rest ts

/-- Running the tasks spawned in a scope (src/multicore.rs:78-91). Without the feature `DummyScope::spawn`
(src/multicore.rs:193-197) runs each closure immediately, in order. -/
def Worker.runTasks (w : Worker) {σ : Type} (ts : List (Task σ)) : Option (List σ) :=
  if w.multicore then runSched (w.sched []) ts else ts.mapM Task.run

/-- The recurring pattern `worker.scope(len, |scope, chunk| for (i, v) in slice.chunks_mut(chunk).enumerate() {
scope.spawn(…) })` (src/domain.rs:88-98, 102-112, 142-150, 358-371; groth16/src/generator.rs): `mk chunk i c` is the task
spawned for the `i`-th chunk `c`, `out` reads the chunk out of the task's final state. `chunks_mut(0)` panics. -/
def Worker.forChunks (w : Worker) {α σ : Type} (elements : ℕ) (mk : ℕ → ℕ → List α → Task σ) (out : σ → List α)
    (l : List α) : Option (List α) := do
  let chunk := w.chunkSize elements
  let cs ← chunks? chunk l
  let rs ← w.runTasks (cs.mapIdx fun i c => mk chunk i c)
  pure (rs.map out).flatten

/-- A task that runs the loop `for x in v.iter_mut() { … }` over its chunk with a local variable (`aux`), as in
src/domain.rs:104-110: step `j` updates element `j` and the local. -/
def loopTask {α β : Type} (init : β) (f : β → α → α × β) (c : List α) : Task (List α × β) :=
  { state := (c, init)
    steps := (List.range c.length).map fun j s =>
      match s.1[j]? with
      | some x => some (s.1.set j (f s.2 x).1, (f s.2 x).2)
      | none => none }

end Bellman
