import Verif.Multiexp

/-!
# src/multiexp.rs with the group operations counted

The functions of `Verif/Multiexp.lean` once more, with counters.  C74 shows that the results are the same.  What a window does before it
reports an error is not counted.
-/

namespace Bellman

open PrimeField

/-- What is counted. Model device, no counterpart in the code. -/
structure MeOps where
  /-- additions of a base from the source (`add_assign_from_source`, mixed additions) -/
  baseAdds : ℕ
  /-- other additions of two group elements -/
  adds : ℕ
  /-- doublings -/
  doubles : ℕ
deriving DecidableEq, Repr

section Inner

variable {G : Type} [AddCommGroup G] [DecidableEq G]

/-- `add_assign_from_source` (src/multiexp.rs:34-41) on the accumulator, counted; the number is that of the bases added so far. -/
def MeState.addAccC (s : MeState G × ℕ) : Except SynthesisError (MeState G × ℕ) :=
  match s.1.bases.next with
  | .error e => .error e
  | .ok (b, src) => .ok ({ s.1 with acc := s.1.acc + b, bases := src }, s.2 + 1)

/-- `bases.skip(1)?`, which adds nothing. src/multiexp.rs:245, 250, 260. -/
def MeState.skipC (s : MeState G × ℕ) : Except SynthesisError (MeState G × ℕ) :=
  match s.1.bases.skip 1 with
  | .error e => .error e
  | .ok src => .ok ({ s.1 with bases := src }, s.2)

/-- `(&mut buckets[i]).add_assign_from_source(&mut bases)?` (src/multiexp.rs:257-258), counted. -/
def MeState.addBucketC (s : MeState G × ℕ) (i : ℕ) : Option (Except SynthesisError (MeState G × ℕ)) :=
  match s.1.buckets[i]? with
  | none => none
  | some x =>
    match s.1.bases.next with
    | .error e => some (.error e)
    | .ok (b, src) => some (.ok ({ s.1 with buckets := s.1.buckets.set i (x + b), bases := src }, s.2 + 1))

/-- One iteration of the loop that sorts the bases into buckets (src/multiexp.rs:242-265), counted. -/
def meStepC (chunk : ℕ) (s : MeState G × ℕ) (ed : ChunkedExponent × Bool) : Option (Except SynthesisError (MeState G × ℕ)) :=
  if ed.2 then
    match ed.1 with
    | .zero => some (MeState.skipC s)
    | .one => if chunk = 0 then some (MeState.addAccC s) else some (MeState.skipC s)
    | .chunks cs =>
      match cs[chunk]? with
      | none => none
      | some e => if e ≠ 0 then MeState.addBucketC s (e - 1) else some (MeState.skipC s)
  else some (.ok s)

/-- The summation by parts (src/multiexp.rs:267-275), counted: two additions for each bucket. -/
def MeState.finishC (s : MeState G) : G × ℕ :=
  let r := s.buckets.reverse.foldl (fun (r : (G × G) × ℕ) b =>
    let runningSum := r.1.1 + b
    let n := r.2 + 1
    let acc := r.1.2 + runningSum
    let n := n + 1
    ((runningSum, acc), n)) ((0, s.acc), 0)
  (r.1.2, r.2)

/-- The closure `this` for one window (src/multiexp.rs:224-278), counted. -/
def windowTaskC (bases : BaseSource G) (pairs : List (ChunkedExponent × Bool)) (c chunk : ℕ) :
    Task (Except SynthesisError (MeState G × ℕ)) :=
  { state := .ok ({ acc := 0, buckets := List.replicate ((1 <<< c) - 1) 0, bases := bases }, 0)
    steps := pairs.map fun ed s =>
      match s with
      | .error e => some (.error e)
      | .ok s => meStepC chunk s ed }

/-- The combination of the windows, most significant first (src/multiexp.rs:295-300), counted: each window is its value, the number of bases
and the number of other additions in it. -/
def combineWindowsC (c : ℕ) : G × MeOps → List (Except SynthesisError (G × ℕ × ℕ)) → Except SynthesisError (G × MeOps)
  | acc, [] => .ok acc
  | _, .error e :: _ => .error e
  | acc, .ok part :: rest =>
    let acc := (List.range c).foldl (fun a _ => (a.1 + a.1, { a.2 with doubles := a.2.doubles + 1 })) acc
    combineWindowsC c (acc.1 + part.1, ⟨acc.2.baseAdds + part.2.1, acc.2.adds + part.2.2 + 1, acc.2.doubles⟩) rest

/-- `multiexp_inner` (src/multiexp.rs:210-301) for window size `c`, counted. -/
def multiexpInnerC (F : Type) [PrimeField F] (w : Worker) (bases : BaseSource G) (density : QueryDensity)
    (exponents : List Exponent) (c : ℕ) : Option (Except SynthesisError (G × MeOps)) := do
  let exps ← exponents.mapM fun e => e.chunks c
  guard (0 < c ∧ c < 64)
  let parts ← w.runTasks ((List.range ((NUM_BITS F + (c - 1)) / c)).map fun chunk =>
    windowTaskC bases (density.zip exps) c chunk)
  pure (combineWindowsC c (0, ⟨0, 0, 0⟩) (parts.map fun p => p.map fun s => (s.1.finishC.1, s.2, s.1.finishC.2)).reverse)

/-- `multiexp` (src/multiexp.rs:305-332), counted. -/
noncomputable def multiexpC (F : Type) [PrimeField F] (w : Worker) (bases : BaseSource G) (density : QueryDensity)
    (exponents : List Exponent) : Option (Except SynthesisError (G × MeOps)) := do
  let c := windowSize exponents.length
  match density.querySize with
  | some n => guard (n = exponents.length)
  | none => pure ()
  multiexpInnerC F w bases density exponents c

/-- benches/slow.rs:13-44 `bench_parts`, one turn: the multiexponentiation of the exponents and bases drawn; `unwrap` on an error is a panic.
The code throws the result away. -/
noncomputable def benchParts {F : Type} [PrimeField F] (pool : Worker) (v : List F) (g : List G) : Option (G × MeOps) :=
  match multiexpC F pool ⟨g, 0⟩ .full (v.map Exponent.ofField) with
  | some (.ok r) => some r
  | _ => none

end Inner

end Bellman
