import Verif.Props.Streams

/-!
# C83: how the bytes arrive does not matter

Two streams that deliver the same bytes and then stop for the same reason lead to the same outcome, and to the same number of decodings,
whatever the sizes of the pieces and wherever calls are interrupted.
-/

namespace Bellman

open InEvent (avail)

/-- The outcome and the number of decodings depend on the bytes before the stop and on the reason of the stop only; after success so does
what is left.  Specification. -/
def Uniform {α : Type} (m : StreamM α) : Prop :=
  ∀ evs evs' d, avail evs = avail evs' → InEvent.stop evs = InEvent.stop evs' → ∀ r s, m ⟨evs, d⟩ = some (r, s) →
    ∃ s', m ⟨evs', d⟩ = some (r, s') ∧ s'.decoded = s.decoded ∧
      ∀ x, r = .ok x → avail s.events = avail s'.events ∧ InEvent.stop s.events = InEvent.stop s'.events

namespace Uniform

variable {α β : Type}

theorem ok (x : α) : Uniform (StreamM.ok x) := by
  intro evs evs' d h1 h2 r s h
  cases h
  exact ⟨_, rfl, rfl, fun _ _ => ⟨h1, h2⟩⟩

theorem err (e : IoError) : Uniform (α := α) (StreamM.err e) := by
  intro evs evs' d h1 h2 r s h
  cases h
  exact ⟨_, rfl, rfl, fun _ hx => by cases hx⟩

theorem panic : Uniform (α := α) StreamM.panic := by
  intro evs evs' d h1 h2 r s h
  cases h

theorem bind {m : StreamM α} {f : α → StreamM β} (hm : Uniform m) (hf : ∀ x, Uniform (f x)) : Uniform (m >>= f) := by
  intro evs evs' d h1 h2 r s h
  change StreamM.bind m f ⟨evs, d⟩ = _ at h
  change ∃ s', StreamM.bind m f ⟨evs', d⟩ = _ ∧ _
  unfold StreamM.bind at h ⊢
  cases hx : m ⟨evs, d⟩ with
  | none => rw [hx] at h; cases h
  | some p =>
    obtain ⟨q, t⟩ := p
    obtain ⟨t', e1, e2, e3⟩ := hm evs evs' d h1 h2 q t hx
    rw [hx] at h
    rw [e1]
    cases q with
    | error e =>
      cases h
      exact ⟨_, rfl, e2, fun _ hx => by cases hx⟩
    | ok x =>
      obtain ⟨a, b⟩ := e3 x rfl
      obtain ⟨te, td⟩ := t
      obtain ⟨te', td'⟩ := t'
      cases e2
      exact hf x te te' _ a b r s h

theorem readExact (n : ℕ) : Uniform (StreamM.readExact n) := by
  intro evs evs' d h1 h2 r s h
  have p := readEvents_spec n [] evs
  have q := readEvents_spec n [] evs'
  unfold StreamM.readExact at h ⊢
  rw [← h1] at q
  by_cases hn : n ≤ (avail evs).length
  · rw [if_pos hn] at p q
    obtain ⟨t, a1, a2, a3, -⟩ := p
    obtain ⟨t', b1, b2, b3, -⟩ := q
    simp only [a1] at h
    simp only [b1]
    cases h
    exact ⟨_, rfl, rfl, fun _ _ => ⟨a2.trans b2.symm, a3.trans (h2.trans b3.symm)⟩⟩
  · rw [if_neg hn] at p q
    simp only [p] at h
    simp only [q]
    cases h
    exact ⟨⟨InEvent.after evs', d⟩, by rw [h2], rfl, fun _ hx => by cases hx⟩

theorem readU32 : Uniform StreamM.readU32 :=
  bind (readExact 4) fun bs => by
    cases ofBE32 bs with
    | none => exact panic
    | some n => exact ok n

theorem decode (x : α) : Uniform (StreamM.decode x) := by
  intro evs evs' d h1 h2 r s h
  cases h
  exact ⟨_, rfl, rfl, fun _ _ => ⟨h1, h2⟩⟩

theorem unwrapOr (o : Option α) (msg : String) : Uniform (StreamM.unwrapOr o msg) := by
  unfold StreamM.unwrapOr
  cases o with
  | none => exact err _
  | some x => exact ok x

theorem refuseIdentity {G : Type} [Zero G] [DecidableEq G] (e : G) : Uniform (StreamM.refuseIdentity e) := by
  unfold StreamM.refuseIdentity
  split
  · exact err _
  · exact ok _

theorem readN {m : StreamM α} (h : Uniform m) (n : ℕ) : Uniform (StreamM.readN m n) := by
  induction n with
  | zero => exact ok _
  | succ n ih => exact bind h fun x => bind ih fun xs => ok _

theorem readVec {m : StreamM α} (h : Uniform m) : Uniform (StreamM.readVec m) :=
  bind readU32 fun n => readN h n

variable {G G1 G2 : Type} [Zero G] [DecidableEq G] [Zero G1] [Zero G2] [DecidableEq G1] [DecidableEq G2]

theorem proofPoint (c : PointCodec G) (msg : String) : Uniform (Proof.streamPoint c msg) :=
  bind (readExact _) fun _ => bind (decode _) fun _ => bind (unwrapOr _ _) fun _ => refuseIdentity _

theorem proof (c1 : PointCodec G1) (c2 : PointCodec G2) : Uniform (Proof.readStream c1 c2) :=
  bind (proofPoint _ _) fun _ => bind (proofPoint _ _) fun _ => bind (proofPoint _ _) fun _ => ok _

theorem vkPoint {G : Type} (c : PointCodec G) (msg : String) : Uniform (VerifyingKey.streamPoint c msg) :=
  bind (readExact _) fun _ => bind (decode _) fun _ => unwrapOr _ _

omit [Zero G2] [DecidableEq G2] in
theorem vk (c1 : PointCodec G1) (c2 : PointCodec G2) : Uniform (VerifyingKey.readStream c1 c2) :=
  bind (vkPoint _ _) fun _ => bind (vkPoint _ _) fun _ => bind (vkPoint _ _) fun _ => bind (vkPoint _ _) fun _ =>
    bind (vkPoint _ _) fun _ => bind (vkPoint _ _) fun _ => bind readU32 fun _ =>
      bind (readN (bind (vkPoint _ _) fun _ => refuseIdentity _) _) fun _ => ok _

theorem parametersPoint (c : PointCodec G) (msg : String) (checked : Bool) : Uniform (Parameters.streamPoint c msg checked) :=
  bind (readExact _) fun _ => bind (decode _) fun _ => bind (unwrapOr _ _) fun _ => refuseIdentity _

theorem parameters (c1 : PointCodec G1) (c2 : PointCodec G2) (checked : Bool) : Uniform (Parameters.readStream c1 c2 checked) :=
  bind (vk _ _) fun _ => bind (readVec (parametersPoint _ _ _)) fun _ => bind (readVec (parametersPoint _ _ _)) fun _ =>
    bind (readVec (parametersPoint _ _ _)) fun _ => bind (readVec (parametersPoint _ _ _)) fun _ =>
      bind (readVec (parametersPoint _ _ _)) fun _ => ok _

end Uniform

variable {G1 G2 : Type} [Zero G1] [Zero G2] [DecidableEq G1] [DecidableEq G2] (c1 : PointCodec G1) (c2 : PointCodec G2)

/-- C83: the outcome of reading a proof and the number of decodings it takes are the same for all ways in which the same bytes can arrive
before the same stop. -/
theorem C83_chunking_proof (evs evs' : List InEvent) (ha : avail evs = avail evs') (hs : InEvent.stop evs = InEvent.stop evs') :
    ∃ r s s', Proof.readStream c1 c2 ⟨evs, 0⟩ = some (r, s) ∧ Proof.readStream c1 c2 ⟨evs', 0⟩ = some (r, s') ∧
      s'.decoded = s.decoded := by
  obtain ⟨⟨r, s⟩, h⟩ := Option.ne_none_iff_exists'.1 (C83_no_panic c1 c2 true evs 0).1
  obtain ⟨s', e1, e2, -⟩ := Uniform.proof c1 c2 evs evs' 0 ha hs r s h
  exact ⟨r, s, s', h, e1, e2⟩

/-- C83: the same for verifying keys. -/
theorem C83_chunking_vk (evs evs' : List InEvent) (ha : avail evs = avail evs') (hs : InEvent.stop evs = InEvent.stop evs') :
    ∃ r s s', VerifyingKey.readStream c1 c2 ⟨evs, 0⟩ = some (r, s) ∧ VerifyingKey.readStream c1 c2 ⟨evs', 0⟩ = some (r, s') ∧
      s'.decoded = s.decoded := by
  obtain ⟨⟨r, s⟩, h⟩ := Option.ne_none_iff_exists'.1 (C83_no_panic c1 c2 true evs 0).2.1
  obtain ⟨s', e1, e2, -⟩ := Uniform.vk c1 c2 evs evs' 0 ha hs r s h
  exact ⟨r, s, s', h, e1, e2⟩

/-- C83: the same for parameters, with and without checks. -/
theorem C83_chunking_parameters (checked : Bool) (evs evs' : List InEvent) (ha : avail evs = avail evs')
    (hs : InEvent.stop evs = InEvent.stop evs') :
    ∃ r s s', Parameters.readStream c1 c2 checked ⟨evs, 0⟩ = some (r, s) ∧
      Parameters.readStream c1 c2 checked ⟨evs', 0⟩ = some (r, s') ∧ s'.decoded = s.decoded := by
  obtain ⟨⟨r, s⟩, h⟩ := Option.ne_none_iff_exists'.1 (C83_no_panic c1 c2 checked evs 0).2.2
  obtain ⟨s', e1, e2, -⟩ := Uniform.parameters c1 c2 checked evs evs' 0 ha hs r s h
  exact ⟨r, s, s', h, e1, e2⟩

/-- `C83_chunking_proof` applies: two bytes in one piece or in two, before the same failure; both runs decode two points and report it. -/
example : ∃ s s', Proof.readStream byteCodec byteCodec ⟨[.data [1, 2], .fail 5, .data [3]], 0⟩ = some (.error (.device 5), s) ∧
    Proof.readStream byteCodec byteCodec ⟨[.data [1], .interrupted, .data [2], .interrupted, .fail 5], 0⟩ =
      some (.error (.device 5), s') ∧ s'.decoded = s.decoded ∧ s.decoded = 2 := by
  obtain ⟨r, s, s', h, h', e⟩ := C83_chunking_proof byteCodec byteCodec [.data [1, 2], .fail 5, .data [3]]
    [.data [1], .interrupted, .data [2], .interrupted, .fail 5] rfl rfl
  have hr : Proof.readStream byteCodec byteCodec ⟨[.data [1, 2], .fail 5, .data [3]], 0⟩ =
      some (.error (.device 5), ⟨[.data [3]], 2⟩) := rfl
  rw [hr] at h
  cases h
  exact ⟨_, s', hr, h', e, rfl⟩

/-- `C83_chunking_vk` and `C83_chunking_parameters` apply: a key that ends before the length of `ic`, in pieces of different sizes. -/
example : (∃ r s s', VerifyingKey.readStream byteCodec byteCodec ⟨[.data [2, 2, 3, 3, 4, 4, 0, 0, 5, 5, 6, 6, 0, 0]], 0⟩ = some (r, s) ∧
      VerifyingKey.readStream byteCodec byteCodec ⟨[.data [2], .data [2, 3, 3, 4], .interrupted, .data [4, 0, 0, 5, 5, 6, 6, 0, 0]], 0⟩ =
        some (r, s') ∧ s'.decoded = s.decoded) ∧
    ∃ r s s', Parameters.readStream byteCodec byteCodec true ⟨[.data [2, 2, 3, 3, 4, 4, 0, 0, 5, 5, 6, 6, 0, 0]], 0⟩ = some (r, s) ∧
      Parameters.readStream byteCodec byteCodec true
        ⟨[.data [2], .data [2, 3, 3, 4], .interrupted, .data [4, 0, 0, 5, 5, 6, 6, 0, 0]], 0⟩ = some (r, s') ∧ s'.decoded = s.decoded :=
  ⟨C83_chunking_vk byteCodec byteCodec _ _ rfl rfl, C83_chunking_parameters byteCodec byteCodec true _ _ rfl rfl⟩

end Bellman
