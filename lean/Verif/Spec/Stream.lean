import Verif.Groth16.Stream
import Verif.Spec.Encoding

/-!
# What a stream holds (specification)

The meaning of a sequence of stream events without reference to who reads or writes: the bytes that come before the stream first stops, why
it stops, and what there is after that.
-/

namespace Bellman

/-- The bytes that can be read before the stream first stops. -/
def InEvent.avail : List InEvent → List UInt8
  | [] => []
  | .interrupted :: evs => InEvent.avail evs
  | .fail _ :: _ => []
  | .data [] :: _ => []
  | .data (b :: bs) :: evs => b :: bs ++ InEvent.avail evs

/-- Why the stream first stops. -/
def InEvent.stop : List InEvent → StreamError
  | [] => .io .unexpectedEof
  | .interrupted :: evs => InEvent.stop evs
  | .fail c :: _ => .device c
  | .data [] :: _ => .io .unexpectedEof
  | .data (_ :: _) :: evs => InEvent.stop evs

/-- What is left of the stream once it has stopped. -/
def InEvent.after : List InEvent → List InEvent
  | [] => []
  | .interrupted :: evs => InEvent.after evs
  | .fail _ :: evs => evs
  | .data [] :: evs => evs
  | .data (_ :: _) :: evs => InEvent.after evs

/-- All bytes that the stream will ever deliver. -/
def InEvent.total : List InEvent → ℕ
  | [] => 0
  | .interrupted :: evs => InEvent.total evs
  | .fail _ :: evs => InEvent.total evs
  | .data bs :: evs => bs.length + InEvent.total evs

/-- How many bytes a writer takes before it first stops; `none` if it never stops. -/
def OutEvent.room : List OutEvent → Option ℕ
  | [] => none
  | .interrupted :: evs => OutEvent.room evs
  | .fail _ :: _ => some 0
  | .take 0 :: _ => some 0
  | .take (n + 1) :: evs => (OutEvent.room evs).map (n + 1 + ·)

/-- Why the writer first stops. -/
def OutEvent.stop : List OutEvent → StreamError
  | [] => .io .writeZero
  | .interrupted :: evs => OutEvent.stop evs
  | .fail c :: _ => .device c
  | .take 0 :: _ => .io .writeZero
  | .take (_ + 1) :: evs => OutEvent.stop evs

/-- What reading from a stream has to do, given what reading from the bytes before its first stop does: the same value or the same
complaint, with the stream then standing behind what was read and its stop still to come; and if those bytes are too few, the stream's own
reason for stopping, with the stream then standing behind its stop. -/
def StreamAgrees {α : Type} (evs : List InEvent) :
    Option (Except IoError (α × List UInt8)) → Option (Except StreamError α × InStream) → Prop
  | some (.ok (x, rest)), some (.ok y, s) =>
    y = x ∧ InEvent.avail s.events = rest ∧ InEvent.stop s.events = InEvent.stop evs ∧ InEvent.after s.events = InEvent.after evs
  | some (.error .unexpectedEof), some (.error e, s) => e = InEvent.stop evs ∧ s.events = InEvent.after evs
  | some (.error (.invalidData msg)), some (.error e, s) =>
    e = .io (.invalidData msg) ∧ InEvent.stop s.events = InEvent.stop evs ∧ InEvent.after s.events = InEvent.after evs ∧
      InEvent.avail s.events <:+ InEvent.avail evs
  | none, none => True
  | _, _ => False

/-- What writing `bs` to a writer has to do: if there is room all of `bs` arrives, behind what was there, and the room shrinks
accordingly; otherwise what fits arrives and the writer's own reason for stopping is reported. -/
def StreamWrites (bs out : List UInt8) (evs : List OutEvent) (r : Except StreamError Unit × OutStream) : Prop :=
  match OutEvent.room evs with
  | none => r.1 = .ok () ∧ r.2.out = out ++ bs ∧ OutEvent.room r.2.events = none
  | some n =>
    if bs.length ≤ n then
      r.1 = .ok () ∧ r.2.out = out ++ bs ∧ OutEvent.room r.2.events = some (n - bs.length) ∧
        OutEvent.stop r.2.events = OutEvent.stop evs
    else r.1 = .error (OutEvent.stop evs) ∧ r.2.out = out ++ bs.take n

end Bellman
