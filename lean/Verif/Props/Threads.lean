import Verif.Proofs.Concurrent
import Verif.Props.UnitTests

/-!
# C60: concurrent provers
-/

namespace Bellman

open PrimeField Compute

set_option linter.unusedSimpArgs false

/-! ## Any programs that use `compute` and `wait` -/

section

variable {R α : Type}

/-- C60: whatever the schedule and whatever the other threads do, a thread outside the pool that ends has the result of its sequential
execution (the one without the `multicore` feature), if that does not panic. -/
theorem C60_result {n : ℕ} {ps : List (Bool × Own R α)} {c : Config R α} (h : Config.Reachable n ps c) {t : ℕ} {p : Own R α}
    (ht : ps[t]? = some (false, p)) {a : α} {cells : List (Option R)} (hp : p.seq [] = (some a, cells)) {th : Thread R α}
    (hth : c.threads[t]? = some th) {o : Option α} (ho : th.finished o) : o = some a := by
  obtain ⟨th', hth', -, hf⟩ := h.follows ht hp
  rw [hth] at hth'
  cases hth'
  have hs := hf.seq
  rw [ho.1, Own.seq] at hs
  exact (Prod.mk.inj hs).1

/-- C60: if the sequential execution of every thread succeeds and waits for everything it has submitted, the process is never
aborted. -/
theorem C60_no_abort {n : ℕ} {ps : List (Bool × Own R α)} {c : Config R α} (h : Config.Reachable n ps c)
    (hps : ∀ p ∈ ps, p.1 = false ∧ ∃ a cells, p.2.seq [] = (some a, cells) ∧ ∀ x ∈ cells, x = none) : c.aborted = false := by
  induction h with
  | refl => rfl
  | tail hr hs ih =>
    cases hs with
    | pool t th s ha ht hst hw =>
      have hlt : t < ps.length := by
        rw [← Config.Reachable.length hr]
        by_contra hn
        rw [List.getElem?_eq_none (by omega)] at ht; cases ht
      have hmem := hps ps[t] (List.getElem_mem hlt)
      obtain ⟨hf, a, cells, hseq, hnone⟩ := hmem
      obtain ⟨th', hth', -, hfol⟩ := Config.Reachable.follows hr (t := t) (p := ps[t].2)
        (by rw [List.getElem?_eq_getElem hlt]; simp [← hf]) hseq
      rw [ht] at hth'
      cases hth'
      exact hfol.no_abort hnone hst
    | compute t th f k ha => exact ha
    | unwind t th j ha => exact ha
    | recv t th i k j r ha => exact ha
    | refuse t th i k j ha => exact ha
    | drop t th b i j ha => exact ha

/-- C60: no deadlock: unless the process is aborted, it can only come to rest when every thread has ended, if none of them panics
sequentially. -/
theorem C60_progress {n : ℕ} {ps : List (Bool × Own R α)} {c : Config R α} (h : Config.Reachable n ps c) (ha : c.aborted = false)
    (hps : ∀ p ∈ ps, p.1 = false ∧ ∃ a cells, p.2.seq [] = (some a, cells)) (hstop : ∀ c', ¬ Config.Step (4 * n) c c') :
    ∀ th ∈ c.threads, ∃ a, th.finished (some a) := by
  intro th hth
  obtain ⟨t, ht⟩ := List.mem_iff_getElem?.1 hth
  have hlt : t < ps.length := by
    rw [← h.length]
    by_contra hn
    rw [List.getElem?_eq_none (by omega)] at ht; cases ht
  obtain ⟨hf, a, cells, hseq⟩ := hps ps[t] (List.getElem_mem hlt)
  obtain ⟨th', hth', hn, hfol⟩ := h.follows (t := t) (p := ps[t].2) (by rw [List.getElem?_eq_getElem hlt]; simp [← hf]) hseq
  rw [ht] at hth'
  cases hth'
  rcases Config.progress (m := 4 * n) ha ht hn hfol with h' | ⟨c', h'⟩
  · exact ⟨a, h'⟩
  · exact absurd h' (hstop c')

/-- C60: and it does come to rest: there is no infinite execution. -/
theorem C60_terminates (n : ℕ) (ps : List (Bool × Own R α)) (hps : ∀ p ∈ ps, p.1 = false ∧ ∃ a cells, p.2.seq [] = (some a, cells)) :
    ¬ ∃ f : ℕ → Config R α, f 0 = Config.init ps ∧ ∀ k, Config.Step (4 * n) (f k) (f (k + 1)) := by
  rintro ⟨f, h0, hf⟩
  have hreach : ∀ k, Config.Reachable n ps (f k) := by
    intro k
    induction k with
    | zero => rw [h0]; exact .refl
    | succ k ih => exact Relation.ReflTransGen.tail ih (hf k)
  have hdec : ∀ k, (f (k + 1)).fuel < (f k).fuel := by
    intro k
    refine (hf k).fuel_lt fun t th ht => ?_
    have hlt : t < ps.length := by
      rw [← (hreach k).length]
      by_contra hn
      rw [List.getElem?_eq_none (by omega)] at ht; cases ht
    obtain ⟨hfa, a, cells, hseq⟩ := hps ps[t] (List.getElem_mem hlt)
    obtain ⟨th', hth', hn, hfol⟩ := (hreach k).follows (t := t) (p := ps[t].2) (by rw [List.getElem?_eq_getElem hlt]; simp [← hfa]) hseq
    rw [ht] at hth'
    cases hth'
    exact ⟨hn, a, cells, hfol⟩
  have hle : ∀ k, (f k).fuel + k ≤ (f 0).fuel := by
    intro k
    induction k with
    | zero => simp
    | succ k ih => have := hdec k; omega
  have := hle ((f 0).fuel + 1)
  omega

/-- C60: so from every configuration an end is reached: if moreover nothing is left over, one in which every thread has ended. -/
theorem C60_completes {n : ℕ} {ps : List (Bool × Own R α)}
    (hps : ∀ p ∈ ps, p.1 = false ∧ ∃ a cells, p.2.seq [] = (some a, cells) ∧ ∀ x ∈ cells, x = none) {c : Config R α}
    (h : Config.Reachable n ps c) :
    ∃ c', Relation.ReflTransGen (Config.Step (4 * n)) c c' ∧ ∀ th ∈ c'.threads, ∃ a, th.finished (some a) := by
  have hps' : ∀ p ∈ ps, p.1 = false ∧ ∃ a cells, p.2.seq [] = (some a, cells) := fun p hp => by
    obtain ⟨h1, a, cells, h2, -⟩ := hps p hp
    exact ⟨h1, a, cells, h2⟩
  induction hk : c.fuel using Nat.strong_induction_on generalizing c with
  | _ k ih =>
    by_cases hstop : ∀ c', ¬ Config.Step (4 * n) c c'
    · exact ⟨c, .refl, C60_progress h (C60_no_abort h hps) hps' hstop⟩
    · simp only [not_forall, not_not] at hstop
      obtain ⟨c', hs⟩ := hstop
      have hlt := hs.fuel_lt fun t th ht => by
        have hlt : t < ps.length := by
          rw [← h.length]
          by_contra hn
          rw [List.getElem?_eq_none (by omega)] at ht; cases ht
        obtain ⟨hfa, a, cells, hseq⟩ := hps' ps[t] (List.getElem_mem hlt)
        obtain ⟨th', hth', hn, hfol⟩ := h.follows (t := t) (p := ps[t].2) (by rw [List.getElem?_eq_getElem hlt]; simp [← hfa]) hseq
        rw [ht] at hth'
        cases hth'
        exact ⟨hn, a, cells, hfol⟩
      obtain ⟨c'', h1, h2⟩ := ih c'.fuel (by omega) (h.tail hs) rfl
      exact ⟨c'', .head hs h1, h2⟩

/-- C60: a thread whose sequential execution ends with a waiter left over can bring the process down, on every pool: there is a
schedule that aborts. -/
theorem C60_leftover {n : ℕ} (hn : 1 ≤ n) {ps : List (Bool × Own R α)} {t : ℕ} {p : Own R α} (ht : ps[t]? = some (false, p)) {a : α}
    {cells : List (Option R)} (hp : p.seq [] = (some a, cells)) {i : ℕ} {v : R} (hi : cells[i]? = some (some v)) :
    ∃ c, Config.Reachable n ps c ∧ c.aborted = true := by
  have hlt : t < (Config.init ps).threads.length := by
    by_contra hq
    rw [List.getElem?_eq_none (by simpa [Config.init] using hq)] at ht; cases ht
  obtain ⟨c, hc, hab⟩ := Config.abort_schedule (m := 4 * n) (by omega) (Config.init ps).threads t hlt i p [] 0 (some a) cells v (by simpa using hp)
    (by simp) hi ⟨by simp, by simp⟩ (by omega) (by simp)
  have : (Config.init ps).threads.set t ⟨false, p, []⟩ = (Config.init ps).threads := by
    apply List.ext_getElem?
    intro q
    rw [List.getElem?_set]
    split_ifs with h1 h2
    · subst h1
      simp [Config.init, ht]
    · rfl
  rw [this] at hc
  exact ⟨c, hc, hab⟩

/-- C60: a thread of the pool itself ends with a panic, unless it ends before it waits for the first time. -/
theorem C60_pool {n : ℕ} {ps : List (Bool × Own R α)} {c : Config R α} (h : Config.Reachable n ps c) {t : ℕ} {p : Own R α}
    (ht : ps[t]? = some (true, p)) {th : Thread R α} (hth : c.threads[t]? = some th) {o : Option α} (ho : th.finished o) :
    o = none ∨ Own.Early 0 p o := by
  have key : ∃ th, c.threads[t]? = some th ∧ th.inPool = true ∧ ∀ o, Own.Early th.jobs.length th.prog o → o = none ∨ Own.Early 0 p o := by
    induction h generalizing th with
    | refl => exact ⟨⟨true, p, []⟩, by simp [Config.init, ht], rfl, fun o ho => .inr ho⟩
    | tail hr hs ih =>
      rename_i b c'
      have hb : ∃ th', b.threads[t]? = some th' := by
        have hl := Config.Step.length hs
        have : t < b.threads.length := by
          rw [← hl]
          by_contra hn
          rw [List.getElem?_eq_none (by omega)] at hth; cases hth
        exact ⟨_, List.getElem?_eq_getElem this⟩
      refine hs.early ?_
      have hmk : ∀ (x : Config R α), Config.Reachable n ps x →
          ∃ th, x.threads[t]? = some th ∧ th.inPool = true ∧ ∀ o, Own.Early th.jobs.length th.prog o → o = none ∨ Own.Early 0 p o := by
        intro x hx
        induction hx with
        | refl => exact ⟨⟨true, p, []⟩, by simp [Config.init, ht], rfl, fun o ho => .inr ho⟩
        | tail _ hs' ih' => exact hs'.early ih'
      exact hmk b hr
  obtain ⟨th', hth', -, hf⟩ := key
  rw [hth] at hth'
  cases hth'
  refine hf o ?_
  rw [ho.1]
  exact .ret _ _

end

/-! ## `create_proof` -/

section

variable {F G1 G2 : Type} [PrimeField F] [AddCommGroup G1] [AddCommGroup G2] [Module F G1] [Module F G2] [DecidableEq G1] [DecidableEq G2]

/-- One call of `create_proof` in a thread of the application: worker (schedule inside the parallel loops), circuit, key and
randomness. -/
structure ProveCall (F G1 G2 : Type) [PrimeField F] [AddCommGroup G1] [AddCommGroup G2] where
  worker : Worker
  circuit : Synth F Unit
  params : Parameters G1 G2
  r : F
  s : F

/-- The thread of a call. -/
noncomputable def ProveCall.thread (x : ProveCall F G1 G2) :
    Bool × Own (ProofJob G1 G2) (Except SynthesisError (Proof G1 G2)) :=
  (false, createProofThread x.worker x.circuit x.params x.r x.s)

/-- The result of a call by itself. -/
noncomputable def ProveCall.result (x : ProveCall F G1 G2) :
    Res (Proof G1 G2) := createProof x.worker x.circuit x.params x.r x.s

/-- C60: any number of concurrent calls of `create_proof` that would each succeed by itself do not disturb each other: under every
schedule the process is not aborted, every call that has returned has returned its own proof, the process can only come to rest when all
calls have returned, and it does come to rest. -/
theorem C60_create_proof (n : ℕ) (calls : List (ProveCall F G1 G2)) (hok : ∀ x ∈ calls, ∃ pf, x.result = Res.ok pf) :
    (∀ c, Config.Reachable n (calls.map ProveCall.thread) c →
      c.aborted = false ∧
      (∀ (t : ℕ) (x : ProveCall F G1 G2) th o, calls[t]? = some x → c.threads[t]? = some th → th.finished o → o = x.result) ∧
      ((∀ c', ¬ Config.Step (4 * n) c c') → ∀ th ∈ c.threads, ∃ a, th.finished (some a))) ∧
    ¬ ∃ f : ℕ → Config (ProofJob G1 G2) (Except SynthesisError (Proof G1 G2)),
      f 0 = Config.init (calls.map ProveCall.thread) ∧ ∀ k, Config.Step (4 * n) (f k) (f (k + 1)) := by
  have hseq : ∀ x ∈ calls, ∃ pf cells, x.result = Res.ok pf ∧ x.thread.2.seq [] = (some (.ok pf), cells) ∧ ∀ y ∈ cells, y = none := by
    intro x hx
    obtain ⟨pf, hpf⟩ := hok x hx
    obtain ⟨fin, h1, h2, -⟩ := createProofThread_seq x.worker x.circuit x.params x.r x.s
    refine ⟨pf, fin, hpf, ?_, h2 pf hpf⟩
    change Own.seq (createProofThread x.worker x.circuit x.params x.r x.s) [] = _
    exact h1.trans (by unfold ProveCall.result at hpf; rw [hpf]; rfl)
  have hps : ∀ p ∈ calls.map ProveCall.thread, p.1 = false ∧ ∃ a cells, p.2.seq [] = (some a, cells) ∧ ∀ x ∈ cells, x = none := by
    intro p hp
    obtain ⟨x, hx, rfl⟩ := List.mem_map.1 hp
    obtain ⟨pf, cells, -, h2, h3⟩ := hseq x hx
    exact ⟨rfl, _, cells, h2, h3⟩
  have hps' : ∀ p ∈ calls.map ProveCall.thread, p.1 = false ∧ ∃ a cells, p.2.seq [] = (some a, cells) := fun p hp => by
    obtain ⟨h1, a, cells, h2, -⟩ := hps p hp
    exact ⟨h1, a, cells, h2⟩
  refine ⟨fun c hc => ⟨C60_no_abort hc hps, ?_, C60_progress hc (C60_no_abort hc hps) hps'⟩, C60_terminates n _ hps'⟩
  intro t x th o hx hth ho
  obtain ⟨pf, cells, h1, h2, -⟩ := hseq x (List.mem_of_getElem? hx)
  have := C60_result hc (t := t) (p := x.thread.2) (by simp [hx, ProveCall.thread]) h2 hth ho
  rw [this, h1]
  rfl

/-- C60: but a call that returns an error (by itself) after it has submitted its computations, for another reason than an error in the
computation for `l`, which is waited for last, can abort the process, on every pool and whatever the other threads do. -/
theorem C60_error {n : ℕ} (hn : 1 ≤ n) (calls : List (ProveCall F G1 G2)) (x : ProveCall F G1 G2) (hx : x ∈ calls) (e : SynthesisError)
    (he : x.result = Res.err e) (prover : ProvingAssignment F) (hp : assign? x.circuit = Res.ok prover) (hc : List F)
    (hh : hCoeffs (x.worker.site 0) prover.a prover.b prover.c = Res.ok hc) (l : G1)
    (hl : multiexp F (x.worker.site 2) ⟨x.params.l, 0⟩ .full (prover.auxAssignment.map Exponent.ofField) = some (.ok l)) :
    ∃ c, Config.Reachable n (calls.map ProveCall.thread) c ∧ c.aborted = true := by
  obtain ⟨fin, h1, -, h3⟩ := createProofThread_seq x.worker x.circuit x.params x.r x.s
  obtain ⟨t, ht⟩ := List.mem_iff_getElem?.1 hx
  have h4 := h3 e prover hc l he hp hh hl
  refine C60_leftover hn (t := t) (p := x.thread.2) (by simp [ht, ProveCall.thread]) (a := .error e) (cells := fin) (i := 1) ?_ h4
  change Own.seq (createProofThread x.worker x.circuit x.params x.r x.s) [] = _
  exact h1.trans (by unfold ProveCall.result at he; rw [he]; rfl)

/-- C60, the check against subverted parameters (groth16/src/prover.rs:320-324): take a key with which a call succeeds and replace
`delta_g1` by the identity. Then the call by itself returns `UnexpectedIdentity`; with the `multicore` feature there is a schedule under which
it aborts the process instead. -/
theorem C60_subversion {n : ℕ} (hn : 1 ≤ n) (x : ProveCall F G1 G2) (pf : Proof G1 G2) (hx : x.result = Res.ok pf) :
    ({ x with params := { x.params with vk := { x.params.vk with deltaG1 := 0 } } } : ProveCall F G1 G2).result =
        Res.err .unexpectedIdentity ∧
    ∃ c, Config.Reachable n
        [({ x with params := { x.params with vk := { x.params.vk with deltaG1 := 0 } } } : ProveCall F G1 G2).thread] c ∧
      c.aborted = true := by
  unfold ProveCall.result createProof at hx
  simp only [Parameters.getVk, Parameters.getH, Parameters.getL, Parameters.getA, Parameters.getBG1, Parameters.getBG2,
    Res.ofExcept_ok, Res.ok_bind] at hx
  obtain ⟨prover, h0, hx⟩ := Res.bind_eq_ok.1 hx
  obtain ⟨hc, h1, hx⟩ := Res.bind_eq_ok.1 hx
  obtain ⟨vh, h2, hx⟩ := Res.bind_eq_ok.1 hx
  obtain ⟨vl, h3, hx⟩ := Res.bind_eq_ok.1 hx
  obtain ⟨v3, h4, hx⟩ := Res.bind_eq_ok.1 hx
  obtain ⟨v4, h5, hx⟩ := Res.bind_eq_ok.1 hx
  obtain ⟨v5, h6, hx⟩ := Res.bind_eq_ok.1 hx
  obtain ⟨v6, h7, hx⟩ := Res.bind_eq_ok.1 hx
  obtain ⟨v7, h8, hx⟩ := Res.bind_eq_ok.1 hx
  obtain ⟨v8, h9, hx⟩ := Res.bind_eq_ok.1 hx
  have hlok : ∃ l, vl = .ok l := by
    split_ifs at hx with hd
    · cases hx
    · obtain ⟨_, -, hx⟩ := Res.bind_eq_ok.1 hx
      obtain ⟨_, -, hx⟩ := Res.bind_eq_ok.1 hx
      obtain ⟨_, -, hx⟩ := Res.bind_eq_ok.1 hx
      obtain ⟨_, -, hx⟩ := Res.bind_eq_ok.1 hx
      obtain ⟨_, -, hx⟩ := Res.bind_eq_ok.1 hx
      obtain ⟨_, -, hx⟩ := Res.bind_eq_ok.1 hx
      obtain ⟨_, -, hx⟩ := Res.bind_eq_ok.1 hx
      obtain ⟨l, h, hx⟩ := Res.bind_eq_ok.1 hx
      cases vl with
      | error e => cases h
      | ok l => exact ⟨l, rfl⟩
  obtain ⟨l, rfl⟩ := hlok
  have herr : ({ x with params := { x.params with vk := { x.params.vk with deltaG1 := 0 } } } : ProveCall F G1 G2).result =
      Res.err .unexpectedIdentity := by
    unfold ProveCall.result createProof
    simp only [Parameters.getVk, Parameters.getH, Parameters.getL, Parameters.getA, Parameters.getBG1, Parameters.getBG2,
      Res.ofExcept_ok, Res.ok_bind, h0, h1, h2, h3, h4, h5, h6, h7, h8, h9, true_or, if_true]
  refine ⟨herr, ?_⟩
  have := C60_error hn [({ x with params := { x.params with vk := { x.params.vk with deltaG1 := 0 } } } : ProveCall F G1 G2)] _
    (List.mem_singleton_self _) _ herr prover h0 hc h1 l (Res.lift_eq_ok.1 h3)
  simpa using this

/-- No result of the program before it waits for the first time is a success. -/
def NoEarlyOk {R β : Type} (x : Own R (Except SynthesisError β)) : Prop := ∀ n o, Own.Early n x o → ∀ b, o ≠ some (.ok b)

omit [DecidableEq G1] [DecidableEq G2] in
theorem noEarlyOk_bind {R α β : Type} (x : Thr R α) (f : α → Thr R β) (hf : ∀ a, NoEarlyOk (f a)) : NoEarlyOk (x >>= f : Thr R β) := by
  change NoEarlyOk (Thr.bind f x)
  have : ∀ y : Own R (Except SynthesisError α), NoEarlyOk (Thr.bind f y) := by
    intro y
    induction y with
    | ret a =>
      rcases a with _ | (e | a)
      · intro n o ho b
        simp only [Thr.bind] at ho
        cases ho; simp
      · intro n o ho b
        simp only [Thr.bind] at ho
        cases ho; simp
      · exact hf a
    | compute g k ih =>
      intro n o ho b
      simp only [Thr.bind] at ho
      cases ho with
      | compute _ _ _ _ h => exact ih n (n + 1) o h b
    | wait i k ih =>
      intro n o ho b
      simp only [Thr.bind] at ho
      cases ho
  exact this x

/-- C60: called inside the pool, `create_proof` never returns a proof. -/
theorem C60_create_proof_in_pool {n : ℕ} {ps : List (Bool × Own (ProofJob G1 G2) (Except SynthesisError (Proof G1 G2)))}
    {c : Config (ProofJob G1 G2) (Except SynthesisError (Proof G1 G2))} (h : Config.Reachable n ps c) {t : ℕ} (x : ProveCall F G1 G2)
    (ht : ps[t]? = some (true, x.thread.2)) {th : Thread (ProofJob G1 G2) (Except SynthesisError (Proof G1 G2))}
    (hth : c.threads[t]? = some th) {o : Res (Proof G1 G2)} (ho : th.finished o) (pf : Proof G1 G2) : o ≠ Res.ok pf := by
  rcases C60_pool h ht hth ho with h' | h'
  · rw [h']; intro h''; cases h''
  · refine (?_ : NoEarlyOk x.thread.2) 0 o h' pf
    change NoEarlyOk (createProofThread x.worker x.circuit x.params x.r x.s)
    unfold createProofThread
    iterate 16
      refine noEarlyOk_bind _ _ fun _ => ?_
    split_ifs
    · intro n o ho b
      cases ho
      intro h; cases h
    · intro n o ho b
      cases ho

end

/-! ## A concrete case -/

open UnitTests in
/-- Non-vacuity: the key and proof of the test `test_xordemo`, in three threads at once, on a pool of any size. -/
example (n : ℕ) (w : Worker) : ∃ x : ProveCall DummyFr DummyFr DummyFr, (∃ pf, x.result = Res.ok pf) ∧
    ∀ c, Config.Reachable n ([x, x, x].map ProveCall.thread) c → c.aborted = false := by
  obtain ⟨params, pf, -, -, -, -, -, -, -, -, -, -, -, -, -, h, -⟩ := C53_xor_test w w
  refine ⟨⟨w, _, params, _, _⟩, ⟨pf, h⟩, fun c hc => ?_⟩
  refine ((C60_create_proof n [⟨w, _, params, _, _⟩, ⟨w, _, params, _, _⟩, ⟨w, _, params, _, _⟩] ?_).1 c hc).1
  intro x hx
  simp only [List.mem_cons, List.not_mem_nil, or_false, or_self] at hx
  exact ⟨pf, by rw [hx]; exact h⟩

open UnitTests in
/-- The same call with `delta_g1` replaced by the identity, alone on a pool of four threads: an error by itself, but it can abort. -/
example (w : Worker) : ∃ x : ProveCall DummyFr DummyFr DummyFr, x.result = Res.err .unexpectedIdentity ∧
    ∃ c, Config.Reachable 4 [x.thread] c ∧ c.aborted = true := by
  obtain ⟨params, pf, -, -, -, -, -, -, -, -, -, -, -, -, -, h, -⟩ := C53_xor_test w w
  exact ⟨_, C60_subversion (by norm_num) ⟨w, _, params, _, _⟩ pf h⟩

/-- Two small threads: the first submits 1 and 2 and waits for them in reverse order, the second submits 3; they end with 12 and 3 under
every schedule. -/
example : ∃ c : Config ℕ ℕ, Config.Reachable 1
      [(false, .compute (some 1) fun i => .compute (some 2) fun j => .wait j fun y => .wait i fun x => .ret (some (10 * x + y))),
       (false, .compute (some 3) fun i => .wait i fun x => .ret (some x))] c ∧ ∀ th ∈ c.threads, ∃ a, th.finished (some a) := by
  obtain ⟨c, h1, h2⟩ := C60_completes (n := 1) (ps := [(false, .compute (some 1) fun i => .compute (some 2) fun j => .wait j fun y =>
      .wait i fun x => .ret (some (10 * x + y))), (false, .compute (some 3) fun i => .wait i fun x => .ret (some x))])
    (by
      intro p hp
      simp only [List.mem_cons, List.not_mem_nil, or_false] at hp
      rcases hp with rfl | rfl
      · exact ⟨rfl, 12, [none, none], rfl, by simp⟩
      · exact ⟨rfl, 3, [none], rfl, by simp⟩) .refl
  exact ⟨c, h1, h2⟩

end Bellman
