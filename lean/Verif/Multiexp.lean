import Verif.Field
import Verif.Circ
import Verif.Density
import Verif.Multicore
import Mathlib.Algebra.Module.Basic
import Mathlib.Analysis.SpecialFunctions.Log.Basic

/-!
# src/multiexp.rs

`G` stands for a prime-order curve group, its affine form included (the model does not distinguish
representations of the same group element).  A panic is `none`; a returned error is `Except.error`.
-/

namespace Bellman

open PrimeField

/-- The source `(Arc<Vec<G>>, usize)` (src/multiexp.rs:45-51): the bases and the position of the next one. -/
structure BaseSource (G : Type) where
  bases : List G
  pos : ℕ

/-- `impl Source for (Arc<Vec<G>>, usize)`: `next` (src/multiexp.rs:54-71). -/
def BaseSource.next {G : Type} [Zero G] [DecidableEq G] (s : BaseSource G) : Except SynthesisError (G × BaseSource G) :=
  match s.bases[s.pos]? with
  | none => .error (.ioError .unexpectedEof)
  | some b => if b = 0 then .error .unexpectedIdentity else .ok (b, { s with pos := s.pos + 1 })

/-- `skip` (src/multiexp.rs:73-85): only checks that the source is not yet exhausted. -/
def BaseSource.skip {G : Type} (s : BaseSource G) (amt : ℕ) : Except SynthesisError (BaseSource G) :=
  if s.bases.length ≤ s.pos then .error (.ioError .unexpectedEof) else .ok { s with pos := s.pos + amt }

/-- The two implementations of `QueryDensity` (src/multiexp.rs:88-131). -/
inductive QueryDensity where
  /-- `FullDensity` (src/multiexp.rs:96-115) -/
  | full
  /-- `DensityTracker` (src/multiexp.rs:121-131) -/
  | tracker (d : DensityTracker)

/-- `exponents.iter().zip(density_map.iter())` (src/multiexp.rs:242): `FullDensity` iterates `true` forever, a tracker its bits. -/
def QueryDensity.zip {α : Type} (q : QueryDensity) (l : List α) : List (α × Bool) :=
  match q with
  | full => l.map fun e => (e, true)
  | tracker d => List.zip l d.bv

/-- `get_query_size` (src/multiexp.rs:112-114, 128-130). -/
def QueryDensity.querySize : QueryDensity → Option ℕ
  | full => none
  | tracker d => some d.bv.length

/-- `enum Exponent` (src/multiexp.rs:166-170). -/
inductive Exponent where
  | zero
  | one
  | bits (b : List Bool)

/-- `impl From<&F> for Exponent<F>` (src/multiexp.rs:172-182). -/
def Exponent.ofField {F : Type} [PrimeField F] (e : F) : Exponent :=
  if e = 0 then .zero else if e = 1 then .one else .bits (toLeBits e)

/-- `enum ChunkedExponent` (src/multiexp.rs:159-163); the `u64` windows are natural numbers (a window has at most 63 bits). -/
inductive ChunkedExponent where
  | zero
  | one
  | chunks (c : List ℕ)

/-- The fold turning the bits of one window into a number (src/multiexp.rs:199-203). -/
def windowVal (chunk : List Bool) : ℕ :=
  (chunk.zipIdx).foldl (fun acc (b : Bool × ℕ) => acc + (b.1.toNat <<< b.2)) 0

/-- `Exponent::chunks` (src/multiexp.rs:190-208). -/
def Exponent.chunks (e : Exponent) (c : ℕ) : Option ChunkedExponent :=
  match e with
  | .zero => some .zero
  | .one => some .one
  | .bits b => (chunks? c b).map fun cs => .chunks (cs.map windowVal)

section Inner

variable {G : Type} [AddCommGroup G] [DecidableEq G]

/-- Local variables of the closure `this` (src/multiexp.rs:229-236): `acc`, `buckets`, `bases`. -/
structure MeState (G : Type) where
  acc : G
  buckets : List G
  bases : BaseSource G

/-- `add_assign_from_source` (src/multiexp.rs:34-41) on the accumulator. -/
def MeState.addAcc (s : MeState G) : Except SynthesisError (MeState G) :=
  match s.bases.next with
  | .error e => .error e
  | .ok (b, src) => .ok { s with acc := s.acc + b, bases := src }

/-- `bases.skip(1)?`. src/multiexp.rs:245, 250, 260. -/
def MeState.skip (s : MeState G) : Except SynthesisError (MeState G) :=
  match s.bases.skip 1 with
  | .error e => .error e
  | .ok src => .ok { s with bases := src }

/-- `(&mut buckets[i]).add_assign_from_source(&mut bases)?` (src/multiexp.rs:257-258): indexing panics out of range. -/
def MeState.addBucket (s : MeState G) (i : ℕ) : Option (Except SynthesisError (MeState G)) :=
  match s.buckets[i]? with
  | none => none
  | some x =>
    match s.bases.next with
    | .error e => some (.error e)
    | .ok (b, src) => some (.ok { s with buckets := s.buckets.set i (x + b), bases := src })

/-- One iteration of the loop that sorts the bases into buckets (src/multiexp.rs:242-265). -/
def meStep (chunk : ℕ) (s : MeState G) (ed : ChunkedExponent × Bool) : Option (Except SynthesisError (MeState G)) :=
  if ed.2 then
    match ed.1 with
    | .zero => some s.skip
    | .one => if chunk = 0 then some s.addAcc else some s.skip
    | .chunks cs =>
      match cs[chunk]? with
      | none => none
      | some e => if e ≠ 0 then s.addBucket (e - 1) else some s.skip
  else some (.ok s)

/-- The summation by parts (src/multiexp.rs:267-275); the pair is (`running_sum`, `acc`). -/
def MeState.finish (s : MeState G) : G :=
  (s.buckets.reverse.foldl (fun (r : G × G) b => (r.1 + b, r.2 + (r.1 + b))) (0, s.acc)).2

/-- The closure `this` for one window (src/multiexp.rs:224-278) as a task with one step per loop iteration; an error ends the
loop (`?`). It shares only immutable data with the other windows. -/
def windowTask (bases : BaseSource G) (pairs : List (ChunkedExponent × Bool)) (c chunk : ℕ) :
    Task (Except SynthesisError (MeState G)) :=
  { state := .ok { acc := 0, buckets := List.replicate ((1 <<< c) - 1) 0, bases := bases }
    steps := pairs.map fun ed s =>
      match s with
      | .error e => some (.error e)
      | .ok s => meStep chunk s ed }

/-- The combination of the windows, most significant first (src/multiexp.rs:295-300). -/
def combineWindows (c : ℕ) : G → List (Except SynthesisError G) → Except SynthesisError G
  | acc, [] => .ok acc
  | _, .error e :: _ => .error e
  | acc, .ok part :: rest => combineWindows c ((List.range c).foldl (fun a _ => a + a) acc + part) rest

/-- `multiexp_inner` (src/multiexp.rs:210-301) for window size `c`. `F` is the scalar field. Windows are computed in parallel
(`into_par_iter().step_by(c)`, which panics for `c = 0`); `collect` keeps their order. `c ≥ 64` would overflow the shift `1 << c`;
`multiexp` never asks for that. -/
def multiexpInner (F : Type) [PrimeField F] (w : Worker) (bases : BaseSource G) (density : QueryDensity)
    (exponents : List Exponent) (c : ℕ) : Option (Except SynthesisError G) := do
  let exps ← exponents.mapM fun e => e.chunks c
  guard (0 < c ∧ c < 64)
  let parts ← w.runTasks ((List.range ((NUM_BITS F + (c - 1)) / c)).map fun chunk =>
    windowTask bases (density.zip exps) c chunk)
  pure (combineWindows c 0 (parts.map fun p => p.map MeState.finish).reverse)

/-- The window size (src/multiexp.rs:318-322). The `f64` logarithm is idealised to the real one (for lengths up to `2^32` the
two round up to the same integer, as no such logarithm is within `10^-11` of an integer); `ln 0 = -∞` becomes 0 by the
saturating cast, as does `Real.log 0`. -/
noncomputable def windowSize (len : ℕ) : ℕ :=
  if len < 32 then 3 else ⌈Real.log ((len % 2 ^ 32 : ℕ) : ℝ)⌉₊

/-- `multiexp` (src/multiexp.rs:305-332). The result is what `wait` on the returned `Waiter` gives (see `Verif/Compute.lean`
for `Worker::compute`). -/
noncomputable def multiexp (F : Type) [PrimeField F] (w : Worker) (bases : BaseSource G) (density : QueryDensity)
    (exponents : List Exponent) : Option (Except SynthesisError G) := do
  let c := windowSize exponents.length
  match density.querySize with
  | some n => guard (n = exponents.length)
  | none => pure ()
  multiexpInner F w bases density exponents c

end Inner

end Bellman
