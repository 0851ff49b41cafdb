import Verif.Spec.Stream
import Mathlib.Tactic.Linarith

/-!
# Reading from and writing to streams: proofs
-/

namespace Bellman

open InEvent (avail after total)

/-! ## `read_exact` and `write_all` -/

theorem readEvents_spec (n : ℕ) (acc : List UInt8) (evs : List InEvent) :
    if n ≤ (avail evs).length then
      ∃ evs', readEvents n acc evs = (.ok (acc ++ (avail evs).take n), evs') ∧ avail evs' = (avail evs).drop n ∧
        InEvent.stop evs' = InEvent.stop evs ∧ after evs' = after evs
    else readEvents n acc evs = (.error (InEvent.stop evs), after evs) := by
  induction evs generalizing n acc with
  | nil => cases n <;> simp [readEvents, avail, InEvent.stop, after]
  | cons e evs ih =>
    cases n with
    | zero => simp [readEvents]
    | succ n =>
      cases e with
      | interrupted => simpa [readEvents, avail, InEvent.stop, after] using ih (n + 1) acc
      | fail c => simp [readEvents, avail, InEvent.stop, after]
      | data bs =>
        cases bs with
        | nil => simp [readEvents, avail, InEvent.stop, after]
        | cons b bs =>
          by_cases h : n < bs.length
          · have h1 : n + 1 ≤ (b :: bs ++ avail evs).length := by simp; omega
            simp only [avail, if_pos h1, readEvents, if_pos h]
            have h0 : bs.drop n ≠ [] := by simpa using h
            obtain ⟨x, xs, hx⟩ := List.exists_cons_of_ne_nil h0
            refine ⟨_, by rw [List.cons_append, List.take_succ_cons, List.take_append_of_le_length (by omega)], ?_, ?_, ?_⟩
            · rw [hx]
              simp only [avail, List.cons_append, List.drop_succ_cons]
              rw [List.drop_append_of_le_length (by omega), hx]; rfl
            · rw [hx]; rfl
            · rw [hx]; rfl
          · have hi := ih (n - bs.length) (acc ++ b :: bs)
            simp only [readEvents, if_neg h, avail, InEvent.stop, after]
            by_cases h1 : n - bs.length ≤ (avail evs).length
            · rw [if_pos h1] at hi
              have h2 : n + 1 ≤ (b :: bs ++ avail evs).length := by simp; omega
              rw [if_pos h2]
              obtain ⟨evs', e1, e2, e3, e4⟩ := hi
              refine ⟨evs', ?_, ?_, e3, e4⟩
              · rw [e1]
                simp [List.take_append, List.take_of_length_le (Nat.le_of_not_lt h)]
              · rw [e2]
                simp [List.drop_append, List.drop_eq_nil_of_le (Nat.le_of_not_lt h)]
            · rw [if_neg h1] at hi
              have h2 : ¬ n + 1 ≤ (b :: bs ++ avail evs).length := by simp; omega
              rw [if_neg h2]
              exact hi

theorem readEvents_total (n : ℕ) (acc : List UInt8) (evs : List InEvent) :
    total (readEvents n acc evs).2 ≤ total evs ∧
      ∀ bs, (readEvents n acc evs).1 = .ok bs → total (readEvents n acc evs).2 + n = total evs ∧ bs.length = acc.length + n := by
  induction evs generalizing n acc with
  | nil => cases n <;> simp [readEvents, total]
  | cons e evs ih =>
    cases n with
    | zero => simp [readEvents]
    | succ n =>
      cases e with
      | interrupted => simpa [readEvents, total] using ih (n + 1) acc
      | fail c => simp [readEvents, total]
      | data bs =>
        cases bs with
        | nil => simp [readEvents, total]
        | cons b bs =>
          by_cases h : n < bs.length
          · simp only [readEvents, if_pos h, total, List.length_drop, List.length_cons]
            refine ⟨by omega, ?_⟩
            intro xs hx
            cases hx
            simp
            omega
          · simp only [readEvents, if_neg h, total, List.length_cons]
            obtain ⟨i1, i2⟩ := ih (n - bs.length) (acc ++ b :: bs)
            refine ⟨by omega, fun xs hx => ?_⟩
            have := i2 xs hx
            simp at this
            omega

theorem writeEvents_spec (bs out : List UInt8) (evs : List OutEvent) :
    match OutEvent.room evs with
    | none => ∃ evs', writeEvents bs out evs = (.ok (), ⟨out ++ bs, evs'⟩) ∧ OutEvent.room evs' = none
    | some n =>
      if bs.length ≤ n then
        ∃ evs', writeEvents bs out evs = (.ok (), ⟨out ++ bs, evs'⟩) ∧ OutEvent.room evs' = some (n - bs.length) ∧
          OutEvent.stop evs' = OutEvent.stop evs
      else ∃ evs', writeEvents bs out evs = (.error (OutEvent.stop evs), ⟨out ++ bs.take n, evs'⟩) := by
  induction evs generalizing bs out with
  | nil => cases bs <;> simp [writeEvents, OutEvent.room]
  | cons e evs ih =>
    cases bs with
    | nil => 
      cases h : OutEvent.room (e :: evs) <;> simp [writeEvents, h]
    | cons b bs =>
      cases e with
      | interrupted => simpa [writeEvents, OutEvent.room, OutEvent.stop] using ih (b :: bs) out
      | fail c => simp [writeEvents, OutEvent.room, OutEvent.stop]
      | take n =>
        cases n with
        | zero => simp [writeEvents, OutEvent.room, OutEvent.stop]
        | succ n =>
          by_cases h : bs.length < n
          · have hn : n - bs.length = (n - bs.length - 1) + 1 := by omega
            simp only [writeEvents, if_pos h, OutEvent.room]
            cases hr : OutEvent.room evs with
            | none =>
              refine ⟨_, rfl, ?_⟩
              rw [hn]; simp [OutEvent.room, hr]
            | some r =>
              have : (b :: bs).length ≤ n + 1 + r := by simp; omega
              simp only [Option.map_some, if_pos this]
              refine ⟨_, rfl, ?_, ?_⟩
              · rw [hn]; simp [OutEvent.room, hr]; omega
              · rw [hn]; rfl
          · have hi := ih (bs.drop n) (out ++ b :: bs.take n)
            simp only [writeEvents, if_neg h, OutEvent.room, OutEvent.stop]
            have ht : out ++ b :: bs.take n ++ bs.drop n = out ++ b :: bs := by simp
            cases hr : OutEvent.room evs with
            | none =>
              simp only [hr, ht] at hi
              exact hi
            | some r =>
              simp only [hr, ht, List.length_drop] at hi
              simp only [Option.map_some, List.length_cons]
              by_cases h1 : bs.length - n ≤ r
              · rw [if_pos h1] at hi
                rw [if_pos (by omega)]
                obtain ⟨evs', e1, e2, e3⟩ := hi
                exact ⟨evs', e1, by rw [e2]; congr 1; omega, e3⟩
              · rw [if_neg h1] at hi
                rw [if_neg (by omega)]
                obtain ⟨evs', e1⟩ := hi
                refine ⟨evs', ?_⟩
                rw [e1]
                congr 2
                rw [List.append_assoc, show n + 1 + r = (n + r) + 1 by omega, List.take_succ_cons, List.cons_append,
                  ← List.take_add]

/-- Two writes are one. -/
theorem writeEvents_append (as bs out : List UInt8) (evs : List OutEvent) :
    writeEvents (as ++ bs) out evs =
      match writeEvents as out evs with
      | (.error e, w) => (.error e, w)
      | (.ok (), w) => writeEvents bs w.out w.events := by
  induction evs generalizing as out with
  | nil =>
    cases as with
    | nil => simp [writeEvents]
    | cons a as => cases bs <;> simp [writeEvents]
  | cons e evs ih =>
    cases as with
    | nil => simp [writeEvents]
    | cons a as =>
      cases e with
      | interrupted => simpa [writeEvents] using ih (a :: as) out
      | fail c => simp [writeEvents]
      | take n =>
        cases n with
        | zero => simp [writeEvents]
        | succ n =>
          by_cases h : as.length < n
          · simp only [writeEvents, List.cons_append, if_pos h]
            have hn : n - as.length = (n - as.length - 1) + 1 := by omega
            by_cases h1 : (as ++ bs).length < n
            · rw [if_pos h1]
              cases bs with
              | nil => simp [writeEvents]
              | cons b bs =>
                rw [hn]
                simp only [writeEvents]
                simp at h1
                rw [if_pos (by omega)]
                simp; omega
            · rw [if_neg h1]
              cases bs with
              | nil => simp at h1; omega
              | cons b bs =>
                rw [hn]
                simp only [writeEvents]
                simp at h1
                rw [if_neg (by omega)]
                have e1 : (as ++ b :: bs).drop n = bs.drop (n - as.length - 1) := by
                  rw [List.drop_append, List.drop_eq_nil_of_le (by omega), hn]; simp
                have e2 : (as ++ b :: bs).take n = as ++ b :: bs.take (n - as.length - 1) := by
                  rw [List.take_append, List.take_of_length_le (by omega)]
                  conv_lhs => rw [hn]
                  simp
                rw [e1, e2]; simp
          · have h1 : ¬ (as ++ bs).length < n := by simp; omega
            simp only [writeEvents, List.cons_append, if_neg h, if_neg h1]
            rw [List.drop_append_of_le_length (by omega), List.take_append_of_le_length (by omega)]
            exact ih _ _

namespace StreamW

theorem writeAll_andThen (as bs : List UInt8) : (writeAll as).andThen (writeAll bs) = writeAll (as ++ bs) := by
  funext w
  simp only [writeAll, andThen, writeEvents_append]
  split <;> rename_i h <;> simp [h]

theorem writeAll_nil : writeAll [] = ok := by
  funext w
  simp [writeAll, writeEvents, ok]

theorem andThen_ok (m : StreamW) : m.andThen ok = m := by
  funext w
  simp only [andThen, ok]
  split <;> rename_i h <;> simp [h]

theorem writeEach_eq {α : Type} (f : α → List UInt8) (v : List α) : writeEach f v = writeAll (v.flatMap f) := by
  induction v with
  | nil => simp [writeEach, writeAll_nil]
  | cons x xs ih => rw [writeEach, ih, writeAll_andThen]; rfl

theorem writeU32_eq (n : ℕ) : writeU32 n = writeAll (be32 n) := by
  unfold writeU32 be32
  have h : ∀ a b c d a' b' c' d' : UInt8, a = a' → b = b' → c = c' → d = d' → writeAll [a, b, c, d] = writeAll [a', b', c', d'] := by
    rintro a b c d _ _ _ _ rfl rfl rfl rfl; rfl
  apply h <;> apply UInt8.toNat.inj <;> simp [Nat.shiftRight_eq_div_pow] <;> omega

theorem writeVec_eq {G : Type} (c : PointCodec G) (v : List G) : writeVec c v = writeAll (vecEncoding c v) := by
  rw [writeVec, writeU32_eq, writeEach_eq, writeAll_andThen, vecEncoding]

theorem proof_eq {G1 G2 : Type} (c1 : PointCodec G1) (c2 : PointCodec G2) (p : Proof G1 G2) :
    p.writeStream c1 c2 = writeAll (p.encoding c1 c2) := by
  rw [Proof.writeStream, andThen_ok]
  simp only [writeAll_andThen, Proof.encoding, List.append_assoc]

theorem vk_eq {G1 G2 : Type} (c1 : PointCodec G1) (c2 : PointCodec G2) (vk : VerifyingKey G1 G2) :
    vk.writeStream c1 c2 = writeAll (vk.encoding c1 c2) := by
  rw [VerifyingKey.writeStream, andThen_ok, writeU32_eq, writeEach_eq]
  simp only [writeAll_andThen, VerifyingKey.encoding, vecEncoding, List.append_assoc]

theorem parameters_eq {G1 G2 : Type} (c1 : PointCodec G1) (c2 : PointCodec G2) (p : Parameters G1 G2) :
    p.writeStream c1 c2 = writeAll (p.encoding c1 c2) := by
  rw [Parameters.writeStream, andThen_ok, vk_eq]
  simp only [writeVec_eq, writeAll_andThen, Parameters.encoding, List.append_assoc]

theorem writeAll_writes (bs out : List UInt8) (evs : List OutEvent) : StreamWrites bs out evs (writeAll bs ⟨out, evs⟩) := by
  have h := writeEvents_spec bs out evs
  unfold StreamWrites writeAll
  cases hr : OutEvent.room evs with
  | none =>
    rw [hr] at h
    obtain ⟨evs', e1, e2⟩ := h
    simp [e1, e2]
  | some n =>
    rw [hr] at h
    simp only at h ⊢
    split at h
    · rename_i hn
      obtain ⟨evs', e1, e2, e3⟩ := h
      simp [e1, e2, e3, hn]
    · rename_i hn
      obtain ⟨evs', e1⟩ := h
      simp [e1, hn]

end StreamW

/-! ## Reading -/

/-- `s` does on streams what `m` does on byte lists. -/
def Streams {α : Type} (s : StreamM α) (m : ReadM α) : Prop :=
  ∀ evs d, StreamAgrees evs (m (avail evs)) (s ⟨evs, d⟩) ∧ ∀ x rest, m (avail evs) = some (.ok (x, rest)) → rest <:+ avail evs

namespace Streams

variable {α β : Type}

theorem ok (x : α) : Streams (StreamM.ok x) (ReadM.ok x) := fun evs d =>
  ⟨⟨rfl, rfl, rfl, rfl⟩, fun y rest h => by cases h; exact List.suffix_refl _⟩

theorem err (msg : String) : Streams (α := α) (StreamM.err (.invalidData msg)) (ReadM.err (.invalidData msg)) := fun evs d =>
  ⟨⟨rfl, rfl, rfl, List.suffix_refl _⟩, fun y rest h => by cases h⟩

theorem panic : Streams (α := α) StreamM.panic ReadM.panic := fun _ _ => ⟨trivial, fun _ _ h => by cases h⟩

theorem bind {s : StreamM α} {m : ReadM α} {s' : α → StreamM β} {m' : α → ReadM β} (h : Streams s m)
    (h' : ∀ x, Streams (s' x) (m' x)) : Streams (s >>= s') (m >>= m') := by
  intro evs d
  obtain ⟨h1, h2⟩ := h evs d
  show StreamAgrees evs (ReadM.bind m m' _) (StreamM.bind s s' _) ∧ ∀ x rest, ReadM.bind m m' _ = _ → _
  unfold ReadM.bind StreamM.bind
  generalize hm : m (avail evs) = r at h1 h2
  generalize hs : s ⟨evs, d⟩ = t at h1
  rcases r with _ | e | ⟨x, rest⟩
  · rcases t with _ | ⟨_ | _, _⟩ <;> simp_all [StreamAgrees]
  · rcases t with _ | ⟨e' | _, st⟩
    · cases e <;> simp_all [StreamAgrees]
    · simp only
      exact ⟨by cases e <;> exact h1, fun x rest h => by cases h⟩
    · cases e <;> simp_all [StreamAgrees]
  · rcases t with _ | ⟨e' | y, st⟩
    · simp_all [StreamAgrees]
    · simp_all [StreamAgrees]
    · obtain ⟨rfl, e1, e2, e3⟩ := h1
      obtain ⟨k1, k2⟩ := h' y st.events st.decoded
      have hsuf := h2 y rest rfl
      simp only
      subst e1
      refine ⟨?_, fun x r hr => (k2 x r hr).trans hsuf⟩
      generalize m' y (avail st.events) = r' at k1
      change StreamAgrees st.events r' (s' y st) at k1
      generalize s' y st = t' at k1
      rcases r' with _ | (_ | _ | msg) | ⟨x, rest⟩ <;> rcases t' with _ | ⟨_ | _, _⟩ <;>
        simp_all [StreamAgrees]
      exact k1.2.2.2.trans hsuf

theorem readExact (n : ℕ) : Streams (StreamM.readExact n) (Bellman.readExact n) := by
  intro evs d
  have h := readEvents_spec n [] evs
  unfold Bellman.readExact StreamM.readExact
  by_cases hn : n ≤ (avail evs).length
  · simp only [if_pos hn, List.nil_append] at h ⊢
    obtain ⟨evs', e1, e2, e3, e4⟩ := h
    rw [e1]
    refine ⟨⟨rfl, e2, e3, e4⟩, fun x rest h => ?_⟩
    cases h
    exact List.drop_suffix _ _
  · simp only [if_neg hn] at h ⊢
    rw [h]
    exact ⟨⟨rfl, rfl⟩, fun x rest h => by cases h⟩

theorem readU32 : Streams StreamM.readU32 Bellman.readU32 :=
  bind (readExact 4) fun bs => by
    cases ofBE32 bs with
    | none => exact panic
    | some n => exact ok n

theorem decode {s : α → StreamM β} {m : ReadM β} {x : α} (h : Streams (s x) m) : Streams (StreamM.decode x >>= s) m :=
  fun evs d => h evs (d + 1)

theorem unwrapOr (o : Option α) (msg : String) : Streams (StreamM.unwrapOr o msg) (Bellman.unwrapOr o msg) := by
  unfold StreamM.unwrapOr Bellman.unwrapOr
  cases o with
  | none => exact err msg
  | some x => exact ok x

theorem refuseIdentity {G : Type} [Zero G] [DecidableEq G] (e : G) :
    Streams (StreamM.refuseIdentity e) (Bellman.refuseIdentity e) := by
  unfold StreamM.refuseIdentity Bellman.refuseIdentity
  split
  · exact err _
  · exact ok _

theorem readN {s : StreamM α} {m : ReadM α} (h : Streams s m) (n : ℕ) : Streams (StreamM.readN s n) (Bellman.readN m n) := by
  induction n with
  | zero => exact ok _
  | succ n ih => exact bind h fun x => bind ih fun xs => ok _

theorem readVec {s : StreamM α} {m : ReadM α} (h : Streams s m) : Streams (StreamM.readVec s) (Bellman.readVec m) :=
  bind readU32 fun n => readN h n

variable {G G1 G2 : Type} [Zero G] [DecidableEq G] [Zero G1] [Zero G2] [DecidableEq G1] [DecidableEq G2]

theorem proofPoint (c : PointCodec G) (msg : String) : Streams (Proof.streamPoint c msg) (Proof.readPoint c msg) :=
  bind (readExact _) fun _ => decode (bind (unwrapOr _ _) fun _ => refuseIdentity _)

theorem proof (c1 : PointCodec G1) (c2 : PointCodec G2) : Streams (Proof.readStream c1 c2) (Proof.read c1 c2) :=
  bind (proofPoint _ _) fun _ => bind (proofPoint _ _) fun _ => bind (proofPoint _ _) fun _ => ok _

theorem vkPoint {G : Type} (c : PointCodec G) (msg : String) : Streams (VerifyingKey.streamPoint c msg) (VerifyingKey.readPoint c msg) :=
  bind (readExact _) fun _ => decode (unwrapOr _ _)

omit [Zero G2] [DecidableEq G2] in
theorem vk (c1 : PointCodec G1) (c2 : PointCodec G2) : Streams (VerifyingKey.readStream c1 c2) (VerifyingKey.read c1 c2) :=
  bind (vkPoint _ _) fun _ => bind (vkPoint _ _) fun _ => bind (vkPoint _ _) fun _ => bind (vkPoint _ _) fun _ =>
    bind (vkPoint _ _) fun _ => bind (vkPoint _ _) fun _ => bind readU32 fun _ =>
      bind (readN (bind (vkPoint _ _) fun _ => refuseIdentity _) _) fun _ => ok _

theorem parametersPoint (c : PointCodec G) (msg : String) (checked : Bool) :
    Streams (Parameters.streamPoint c msg checked) (Parameters.readPoint c msg checked) :=
  bind (readExact _) fun _ => decode (bind (unwrapOr _ _) fun _ => refuseIdentity _)

theorem parameters (c1 : PointCodec G1) (c2 : PointCodec G2) (checked : Bool) :
    Streams (Parameters.readStream c1 c2 checked) (Parameters.read c1 c2 checked) :=
  bind (vk _ _) fun _ => bind (readVec (parametersPoint _ _ _)) fun _ => bind (readVec (parametersPoint _ _ _)) fun _ =>
    bind (readVec (parametersPoint _ _ _)) fun _ => bind (readVec (parametersPoint _ _ _)) fun _ =>
      bind (readVec (parametersPoint _ _ _)) fun _ => ok _

end Streams

/-! ## The work of reading -/

/-- Every decoding is paid for by `k` bytes, and what a successful run returns and the number of its decodings satisfy `Q`. -/
def Paid {α : Type} (k : ℕ) (s : StreamM α) (Q : α → ℕ → Prop) : Prop :=
  ∀ st r st', s st = some (r, st') →
    k * st'.decoded + total st'.events ≤ k * st.decoded + total st.events ∧
      ∀ x, r = .ok x → ∃ n, st'.decoded = st.decoded + n ∧ Q x n

namespace Paid

variable {α β : Type} {k : ℕ}

theorem ok {x : α} {Q : α → ℕ → Prop} (hQ : Q x 0) : Paid k (StreamM.ok x) Q := by
  intro st r st' h
  cases h
  exact ⟨le_refl _, fun y hy => by cases hy; exact ⟨0, rfl, hQ⟩⟩

theorem err {e : IoError} {Q : α → ℕ → Prop} : Paid (α := α) k (StreamM.err e) Q := by
  intro st r st' h
  cases h
  exact ⟨le_refl _, fun y hy => by cases hy⟩

theorem panic {Q : α → ℕ → Prop} : Paid (α := α) k StreamM.panic Q := by
  intro st r st' h
  cases h

theorem bind {s : StreamM α} {f : α → StreamM β} {Q : α → ℕ → Prop} {R : β → ℕ → Prop} (h : Paid k s Q)
    (h' : ∀ x n, Q x n → Paid k (f x) fun y m => R y (n + m)) : Paid k (s >>= f) R := by
  intro st r st' hr
  change StreamM.bind s f st = _ at hr
  unfold StreamM.bind at hr
  generalize hs : s st = t at hr
  rcases t with _ | ⟨e | x, s1⟩
  · cases hr
  · cases hr
    exact ⟨(h _ _ _ hs).1, fun y hy => by cases hy⟩
  · obtain ⟨a1, a2⟩ := h _ _ _ hs
    obtain ⟨n, e1, q1⟩ := a2 x rfl
    obtain ⟨b1, b2⟩ := h' x n q1 _ _ _ hr
    refine ⟨b1.trans a1, fun y hy => ?_⟩
    obtain ⟨m, e2, q2⟩ := b2 y hy
    exact ⟨n + m, by rw [e2, e1, Nat.add_assoc], q2⟩

theorem readU32 : Paid k StreamM.readU32 fun _ n => n = 0 := by
  refine bind (Q := fun _ n => n = 0) ?_ ?_
  · intro st r st' h
    cases h
    have ht := readEvents_total 4 [] st.events
    exact ⟨Nat.add_le_add_left ht.1 _, fun x _ => ⟨0, rfl, rfl⟩⟩
  · rintro bs n rfl
    show Paid k (match ofBE32 bs with | some n => StreamM.ok n | none => StreamM.panic) _
    cases ofBE32 bs with
    | none => exact panic
    | some n => exact ok rfl

/-- A point is read, then decoded, then checked. -/
theorem point {γ : Type} {size : ℕ} (hk : k ≤ size) (g : List UInt8 → γ) {f : γ → StreamM β}
    (hf : ∀ o, Paid k (f o) fun _ n => n = 0) :
    Paid k (StreamM.readExact size >>= fun r => StreamM.decode (g r) >>= f) fun _ n => n = 1 := by
  intro st r st' h
  change StreamM.bind (StreamM.readExact size) _ st = _ at h
  have ht := readEvents_total size [] st.events
  unfold StreamM.bind StreamM.readExact at h
  generalize readEvents size [] st.events = t at h ht
  rcases t with ⟨e | bs, evs⟩
  · cases h
    exact ⟨Nat.add_le_add_left ht.1 _, fun y hy => by cases hy⟩
  · have h2 := (ht.2 bs rfl).1
    obtain ⟨b1, b2⟩ := hf (g bs) ⟨evs, st.decoded + 1⟩ r st' h
    refine ⟨b1.trans ?_, fun y hy => ?_⟩
    · simp only [Nat.mul_add, Nat.mul_one] at h2 ⊢
      omega
    · obtain ⟨n, e, rfl⟩ := b2 y hy
      exact ⟨1, e, rfl⟩

theorem unwrapOr (o : Option α) (msg : String) : Paid k (StreamM.unwrapOr o msg) fun _ n => n = 0 := by
  unfold StreamM.unwrapOr
  cases o with
  | none => exact err
  | some x => exact ok rfl

theorem refuseIdentity {G : Type} [Zero G] [DecidableEq G] (e : G) : Paid k (StreamM.refuseIdentity e) fun _ n => n = 0 := by
  unfold StreamM.refuseIdentity
  split
  · exact err
  · exact ok rfl

theorem readN {s : StreamM α} (h : Paid k s fun _ n => n = 1) (n : ℕ) : Paid k (StreamM.readN s n) fun xs m => m = xs.length := by
  induction n with
  | zero => exact ok rfl
  | succ n ih =>
    refine bind h ?_
    rintro x _ rfl
    refine bind ih ?_
    rintro xs _ rfl
    exact ok (by simp; omega)

theorem readVec {s : StreamM α} (h : Paid k s fun _ n => n = 1) : Paid k (StreamM.readVec s) fun xs m => m = xs.length := by
  refine bind readU32 ?_
  rintro n _ rfl
  simpa using readN h n

variable {G G1 G2 : Type} [Zero G] [DecidableEq G] [Zero G1] [Zero G2] [DecidableEq G1] [DecidableEq G2]

theorem checkedPoint (o : Option G) (msg : String) :
    Paid k (StreamM.unwrapOr o msg >>= fun e => StreamM.refuseIdentity e) fun _ n => n = 0 := by
  refine bind (unwrapOr o msg) ?_
  rintro e _ rfl
  simpa using refuseIdentity e

theorem proofPoint (c : PointCodec G) (msg : String) (hk : k ≤ c.size) : Paid k (Proof.streamPoint c msg) fun _ n => n = 1 :=
  point hk c.fromBytes fun o => checkedPoint o msg

theorem proof (c1 : PointCodec G1) (c2 : PointCodec G2) (h1 : k ≤ c1.size) (h2 : k ≤ c2.size) :
    Paid k (Proof.readStream c1 c2) fun _ n => n = 3 := by
  refine bind (proofPoint c1 _ h1) ?_
  rintro a _ rfl
  refine bind (proofPoint c2 _ h2) ?_
  rintro b _ rfl
  refine bind (proofPoint c1 _ h1) ?_
  rintro c _ rfl
  exact ok rfl

theorem vkPoint {G : Type} (c : PointCodec G) (msg : String) (hk : k ≤ c.usize) :
    Paid k (VerifyingKey.streamPoint c msg) fun _ n => n = 1 :=
  point hk c.fromUncompressed fun o => unwrapOr o msg

omit [Zero G2] [DecidableEq G2] in
theorem vk (c1 : PointCodec G1) (c2 : PointCodec G2) (h1 : k ≤ c1.usize) (h2 : k ≤ c2.usize) :
    Paid k (VerifyingKey.readStream c1 c2) fun vk n => n = 6 + vk.ic.length := by
  refine bind (vkPoint c1 _ h1) ?_
  rintro _ _ rfl
  refine bind (vkPoint c1 _ h1) ?_
  rintro _ _ rfl
  refine bind (vkPoint c2 _ h2) ?_
  rintro _ _ rfl
  refine bind (vkPoint c2 _ h2) ?_
  rintro _ _ rfl
  refine bind (vkPoint c1 _ h1) ?_
  rintro _ _ rfl
  refine bind (vkPoint c2 _ h2) ?_
  rintro _ _ rfl
  refine bind readU32 ?_
  rintro n _ rfl
  refine bind (readN ?_ n) ?_
  · refine bind (vkPoint c1 _ h1) ?_
    rintro e _ rfl
    simpa using refuseIdentity e
  · rintro ic _ rfl
    exact ok (by simp; omega)

theorem parametersPoint (c : PointCodec G) (msg : String) (checked : Bool) (hk : k ≤ c.usize) :
    Paid k (Parameters.streamPoint c msg checked) fun _ n => n = 1 :=
  point hk (fun repr => if checked then c.fromUncompressed repr else c.fromUncompressedUnchecked repr) fun o => checkedPoint o msg

theorem parameters (c1 : PointCodec G1) (c2 : PointCodec G2) (checked : Bool) (h1 : k ≤ c1.usize) (h2 : k ≤ c2.usize) :
    Paid k (Parameters.readStream c1 c2 checked) fun p n =>
      n = 6 + p.vk.ic.length + p.h.length + p.l.length + p.a.length + p.bG1.length + p.bG2.length := by
  refine bind (vk c1 c2 h1 h2) ?_
  rintro vk _ rfl
  refine bind (readVec (parametersPoint c1 _ checked h1)) ?_
  rintro h _ rfl
  refine bind (readVec (parametersPoint c1 _ checked h1)) ?_
  rintro l _ rfl
  refine bind (readVec (parametersPoint c1 _ checked h1)) ?_
  rintro a _ rfl
  refine bind (readVec (parametersPoint c1 _ checked h1)) ?_
  rintro bG1 _ rfl
  refine bind (readVec (parametersPoint c2 _ checked h2)) ?_
  rintro bG2 _ rfl
  exact ok (by simp; omega)

end Paid

end Bellman
