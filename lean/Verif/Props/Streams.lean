import Verif.Proofs.Stream
import Verif.Props.Serialize

/-!
# C83: serialization over streams

Readers and writers as `std::io` has them: a call transfers as many bytes as the device likes, is interrupted, or fails.  What a stream
holds is described in `Verif.Spec.Stream`.
-/

namespace Bellman

set_option linter.unusedSectionVars false

variable {G1 G2 : Type} [Zero G1] [Zero G2] [DecidableEq G1] [DecidableEq G2] (c1 : PointCodec G1) (c2 : PointCodec G2)

/-! ### Reading -/

/-- C83: reading a proof from a stream is reading it from the bytes before the stream stops, however they arrive. -/
theorem C83_read_proof (evs : List InEvent) (d : ℕ) :
    StreamAgrees evs (Proof.read c1 c2 (InEvent.avail evs)) (Proof.readStream c1 c2 ⟨evs, d⟩) :=
  (Streams.proof c1 c2 evs d).1

/-- C83: the same for verifying keys. -/
theorem C83_read_vk (evs : List InEvent) (d : ℕ) :
    StreamAgrees evs (VerifyingKey.read c1 c2 (InEvent.avail evs)) (VerifyingKey.readStream c1 c2 ⟨evs, d⟩) :=
  (Streams.vk c1 c2 evs d).1

/-- C83: the same for parameters, with and without checks. -/
theorem C83_read_parameters (checked : Bool) (evs : List InEvent) (d : ℕ) :
    StreamAgrees evs (Parameters.read c1 c2 checked (InEvent.avail evs)) (Parameters.readStream c1 c2 checked ⟨evs, d⟩) :=
  (Streams.parameters c1 c2 checked evs d).1

theorem StreamAgrees.not_none {α : Type} {evs : List InEvent} {r : Option (Except IoError (α × List UInt8))}
    {t : Option (Except StreamError α × InStream)} (h : StreamAgrees evs r t) (hr : r ≠ none) : t ≠ none := by
  rintro rfl
  rcases r with _ | (_ | _ | _) | _ <;> first | exact hr rfl | exact h

/-- C83: whatever a stream does, reading from it does not panic. -/
theorem C83_no_panic (checked : Bool) (evs : List InEvent) (d : ℕ) :
    Proof.readStream c1 c2 ⟨evs, d⟩ ≠ none ∧ VerifyingKey.readStream c1 c2 ⟨evs, d⟩ ≠ none ∧
      Parameters.readStream c1 c2 checked ⟨evs, d⟩ ≠ none := by
  obtain ⟨h1, h2, h3⟩ := C38_no_panic c1 c2 checked (InEvent.avail evs)
  exact ⟨(C83_read_proof c1 c2 evs d).not_none h1, (C83_read_vk c1 c2 evs d).not_none h2,
    (C83_read_parameters c1 c2 checked evs d).not_none h3⟩

/-! ### The work of reading -/

/-- C83: reading a proof decodes three points if it succeeds, and at most as many as were delivered in any case. -/
theorem C83_work_proof (k : ℕ) (h1 : k ≤ c1.size) (h2 : k ≤ c2.size) (evs : List InEvent) (r : Except StreamError (Proof G1 G2))
    (s : InStream) (h : Proof.readStream c1 c2 ⟨evs, 0⟩ = some (r, s)) :
    k * s.decoded + InEvent.total s.events ≤ InEvent.total evs ∧ ∀ p, r = .ok p → s.decoded = 3 := by
  obtain ⟨a, b⟩ := Paid.proof c1 c2 h1 h2 _ _ _ h
  refine ⟨by simpa using a, fun p hp => ?_⟩
  obtain ⟨n, e, hn⟩ := b p hp
  simpa [hn] using e

/-- C83: reading a verifying key decodes one point per element of the result, and whatever length is announced never more points than
were delivered. -/
theorem C83_work_vk (k : ℕ) (h1 : k ≤ c1.usize) (h2 : k ≤ c2.usize) (evs : List InEvent)
    (r : Except StreamError (VerifyingKey G1 G2)) (s : InStream) (h : VerifyingKey.readStream c1 c2 ⟨evs, 0⟩ = some (r, s)) :
    k * s.decoded + InEvent.total s.events ≤ InEvent.total evs ∧ ∀ vk, r = .ok vk → s.decoded = 6 + vk.ic.length := by
  obtain ⟨a, b⟩ := Paid.vk c1 c2 h1 h2 _ _ _ h
  refine ⟨by simpa using a, fun p hp => ?_⟩
  obtain ⟨n, e, hn⟩ := b p hp
  simpa [hn] using e

/-- C83: the same for parameters. -/
theorem C83_work_parameters (checked : Bool) (k : ℕ) (h1 : k ≤ c1.usize) (h2 : k ≤ c2.usize) (evs : List InEvent)
    (r : Except StreamError (Parameters G1 G2)) (s : InStream) (h : Parameters.readStream c1 c2 checked ⟨evs, 0⟩ = some (r, s)) :
    k * s.decoded + InEvent.total s.events ≤ InEvent.total evs ∧
      ∀ p, r = .ok p →
        s.decoded = 6 + p.vk.ic.length + p.h.length + p.l.length + p.a.length + p.bG1.length + p.bG2.length := by
  obtain ⟨a, b⟩ := Paid.parameters c1 c2 checked h1 h2 _ _ _ h
  refine ⟨by simpa using a, fun p hp => ?_⟩
  obtain ⟨n, e, hn⟩ := b p hp
  simpa [hn] using e

/-! ### Writing -/

/-- C83: a proof arrives at a writer in full or, if the writer stops before, up to there. -/
theorem C83_write_proof (p : Proof G1 G2) (out : List UInt8) (evs : List OutEvent) :
    StreamWrites (p.encoding c1 c2) out evs (p.writeStream c1 c2 ⟨out, evs⟩) := by
  rw [StreamW.proof_eq]
  exact StreamW.writeAll_writes _ _ _

/-- C83: the same for verifying keys. -/
theorem C83_write_vk (vk : VerifyingKey G1 G2) (out : List UInt8) (evs : List OutEvent) :
    StreamWrites (vk.encoding c1 c2) out evs (vk.writeStream c1 c2 ⟨out, evs⟩) := by
  rw [StreamW.vk_eq]
  exact StreamW.writeAll_writes _ _ _

/-- C83: the same for parameters. -/
theorem C83_write_parameters (p : Parameters G1 G2) (out : List UInt8) (evs : List OutEvent) :
    StreamWrites (p.encoding c1 c2) out evs (p.writeStream c1 c2 ⟨out, evs⟩) := by
  rw [StreamW.parameters_eq]
  exact StreamW.writeAll_writes _ _ _

/-! ### There and back -/

theorem StreamAgrees.of_ok {α : Type} {evs : List InEvent} {x : α} {rest : List UInt8}
    {t : Option (Except StreamError α × InStream)} (h : StreamAgrees evs (some (.ok (x, rest))) t) :
    ∃ s, t = some (.ok x, s) ∧ InEvent.avail s.events = rest := by
  rcases t with _ | ⟨e | y, s⟩
  · exact h.elim
  · exact h.elim
  · obtain ⟨rfl, h, _⟩ := h
    exact ⟨s, rfl, h⟩

/-- C83: if writing a proof succeeds, then from every stream that begins with the bytes that arrived, in whatever pieces, that proof is
read, and what follows it is still there. -/
theorem C83_transport_proof (p : Proof G1 G2) (hv : p.Valid c1 c2) (ha : p.a ≠ 0) (hb : p.b ≠ 0) (hc : p.c ≠ 0)
    (w : List OutEvent) (w' : OutStream) (hw : p.writeStream c1 c2 ⟨[], w⟩ = (.ok (), w')) (evs : List InEvent) (rest : List UInt8)
    (he : InEvent.avail evs = w'.out ++ rest) :
    ∃ s, Proof.readStream c1 c2 ⟨evs, 0⟩ = some (.ok p, s) ∧ InEvent.avail s.events = rest := by
  have h := C83_write_proof c1 c2 p [] w
  rw [hw] at h
  have ho : w'.out = p.encoding c1 c2 := by
    unfold StreamWrites at h
    split at h
    · exact h.2.1
    · split at h
      · exact h.2.1
      · cases h.1
  have h2 := C83_read_proof c1 c2 evs 0
  rw [he, ho, (Proof.read_parses c1 c2 p hv ha hb hc).full] at h2
  exact h2.of_ok

/-- C83: the same for verifying keys. -/
theorem C83_transport_vk (vk : VerifyingKey G1 G2) (hv : vk.Valid c1 c2) (h0 : ∀ g ∈ vk.ic, g ≠ 0) (hl : vk.ic.length < 2 ^ 32)
    (w : List OutEvent) (w' : OutStream) (hw : vk.writeStream c1 c2 ⟨[], w⟩ = (.ok (), w')) (evs : List InEvent) (rest : List UInt8)
    (he : InEvent.avail evs = w'.out ++ rest) :
    ∃ s, VerifyingKey.readStream c1 c2 ⟨evs, 0⟩ = some (.ok vk, s) ∧ InEvent.avail s.events = rest := by
  have h := C83_write_vk c1 c2 vk [] w
  rw [hw] at h
  have ho : w'.out = vk.encoding c1 c2 := by
    unfold StreamWrites at h
    split at h
    · exact h.2.1
    · split at h
      · exact h.2.1
      · cases h.1
  have h2 := C83_read_vk c1 c2 evs 0
  rw [he, ho, (VerifyingKey.read_parses c1 c2 vk hv ⟨h0, hl⟩).full] at h2
  exact h2.of_ok

/-- C83: the same for parameters. -/
theorem C83_transport_parameters (checked : Bool) (p : Parameters G1 G2) (hk : p.vk.Valid c1 c2)
    (hv : checked = true → p.Valid c1 c2) (h1 : ∀ v ∈ [p.vk.ic, p.h, p.l, p.a, p.bG1], (∀ g ∈ v, g ≠ 0) ∧ v.length < 2 ^ 32)
    (h2 : (∀ g ∈ p.bG2, g ≠ 0) ∧ p.bG2.length < 2 ^ 32)
    (w : List OutEvent) (w' : OutStream) (hw : p.writeStream c1 c2 ⟨[], w⟩ = (.ok (), w')) (evs : List InEvent) (rest : List UInt8)
    (he : InEvent.avail evs = w'.out ++ rest) :
    ∃ s, Parameters.readStream c1 c2 checked ⟨evs, 0⟩ = some (.ok p, s) ∧ InEvent.avail s.events = rest := by
  have h := C83_write_parameters c1 c2 p [] w
  rw [hw] at h
  have ho : w'.out = p.encoding c1 c2 := by
    unfold StreamWrites at h
    split at h
    · exact h.2.1
    · split at h
      · exact h.2.1
      · cases h.1
  have s : ∀ v ∈ [p.vk.ic, p.h, p.l, p.a, p.bG1], Storable v := fun v hv => ⟨(h1 v hv).1, (h1 v hv).2⟩
  have h3 := C83_read_parameters c1 c2 checked evs 0
  rw [he, ho, (Parameters.read_parses c1 c2 checked p hk hv (s _ (by simp)) (s _ (by simp)) (s _ (by simp)) (s _ (by simp))
    (s _ (by simp)) ⟨h2.1, h2.2⟩).full] at h3
  exact h3.of_ok

/-! ### Examples -/

/-- A proof delivered in three pieces with interruptions is read, and the failure behind it is not met; delivered in part it gives the
failure. -/
example : Proof.readStream byteCodec byteCodec ⟨[.interrupted, .data [1], .interrupted, .data [2, 3, 9], .fail 5], 0⟩ =
      some (.ok ⟨1, 2, 3⟩, ⟨[.data [9], .fail 5], 3⟩) ∧
    Proof.readStream byteCodec byteCodec ⟨[.data [1], .interrupted, .fail 5, .data [2, 3]], 0⟩ =
      some (.error (.device 5), ⟨[.data [2, 3]], 1⟩) :=
  ⟨rfl, rfl⟩

/-- A key that announces 2^32 - 1 elements and delivers one: seven points are decoded, and `C83_work_vk` allows nine. -/
example : VerifyingKey.readStream byteCodec byteCodec
      ⟨[.data [2, 2, 3, 3, 4, 4, 0, 0, 5, 5, 6, 6, 255, 255, 255, 255, 7, 7]], 0⟩ = some (.error (.io .unexpectedEof), ⟨[], 7⟩) ∧
    2 * 7 + InEvent.total [] ≤ InEvent.total [.data [2, 2, 3, 3, 4, 4, 0, 0, 5, 5, 6, 6, 255, 255, 255, 255, 7, 7]] := by
  have h : VerifyingKey.readStream byteCodec byteCodec
      ⟨[.data [2, 2, 3, 3, 4, 4, 0, 0, 5, 5, 6, 6, 255, 255, 255, 255, 7, 7]], 0⟩ = some (.error (.io .unexpectedEof), ⟨[], 7⟩) := by
    decide +kernel
  exact ⟨h, (C83_work_vk byteCodec byteCodec 2 (le_refl _) (le_refl _) _ _ _ h).1⟩

/-- `C83_transport_proof` applies: the writer takes one byte, is interrupted, takes one, then all; the reader gets two and one. -/
example : ∃ s, Proof.readStream byteCodec byteCodec ⟨[.data [1, 2], .interrupted, .data [3], .fail 1], 0⟩ =
    some (.ok (⟨1, 2, 3⟩ : Proof UInt8 UInt8), s) ∧ InEvent.avail s.events = [] :=
  C83_transport_proof byteCodec byteCodec ⟨1, 2, 3⟩ ⟨by decide, by decide, by decide⟩ (by decide) (by decide) (by decide)
    [.take 1, .interrupted, .take 1] ⟨[1, 2, 3], []⟩ rfl _ [] rfl

/-- `C83_transport_vk` and `C83_transport_parameters` apply. -/
example : (∃ w', byteKey.writeStream byteCodec byteCodec ⟨[], [.take 3, .interrupted]⟩ = (.ok (), w') ∧
      ∃ s, VerifyingKey.readStream byteCodec byteCodec ⟨[.interrupted, .data w'.out, .data [1]], 0⟩ = some (.ok byteKey, s) ∧
        InEvent.avail s.events = [1]) ∧
    ∃ w', (⟨byteKey, [9], [1, 1], [], [3, 4], [5]⟩ : Parameters UInt8 UInt8).writeStream byteCodec byteCodec ⟨[], [.take 3]⟩ =
        (.ok (), w') ∧
      ∃ s, Parameters.readStream byteCodec byteCodec true ⟨[.interrupted, .data w'.out, .data [1]], 0⟩ =
        some (.ok ⟨byteKey, [9], [1, 1], [], [3, 4], [5]⟩, s) ∧ InEvent.avail s.events = [1] := by
  refine ⟨⟨_, rfl, ?_⟩, ⟨_, rfl, ?_⟩⟩
  · exact C83_transport_vk byteCodec byteCodec byteKey byteKey_valid (by decide) (by decide) [.take 3, .interrupted] _ rfl _ _ rfl
  · exact C83_transport_parameters byteCodec byteCodec true _ byteKey_valid
      (fun _ => ⟨by decide, by decide, by decide, by decide, by decide⟩) (by decide) (by decide) [.take 3] _ rfl _ _ rfl

end Bellman
