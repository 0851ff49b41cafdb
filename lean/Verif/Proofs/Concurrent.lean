import Verif.Groth16.Concurrent
import Verif.Proofs.ThreadsRun

/-!
# `create_proof` as a thread: its sequential execution
-/

namespace Bellman

open PrimeField Compute

set_option linter.unusedSimpArgs false

variable {F : Type} [PrimeField F]

namespace Thr

variable {R α β G1 G2 : Type}

/-- The sequential execution of a thread that returns a `Result`. -/
def seq (x : Thr R α) (l : List (Option R)) : Res α × List (Option R) := Own.seq x l

/-- Continue after a result. -/
def andThen (f : α → Thr R β) : Res α × List (Option R) → Res β × List (Option R)
  | (none, l) => (none, l)
  | (some (.error e), l) => (some (.error e), l)
  | (some (.ok a), l) => (f a).seq l

theorem seq_bind' (f : α → Thr R β) (x : Own R (Except SynthesisError α)) (l : List (Option R)) :
    Own.seq (bind f x) l = andThen f (Own.seq x l) := by
  induction x generalizing l with
  | ret a => rcases a with _ | (e | a) <;> rfl
  | compute g k ih =>
    cases g with
    | none => rfl
    | some r => simp only [bind, Own.seq]; exact ih _ _
  | wait i k ih =>
    simp only [bind, Own.seq]
    split
    · exact ih _ _
    · rfl

theorem seq_bind (x : Thr R α) (f : α → Thr R β) (l : List (Option R)) : Thr.seq (x >>= f) l = andThen f (Thr.seq x l) :=
  seq_bind' f x l

theorem seq_pure (a : α) (l : List (Option R)) : Thr.seq (pure a : Thr R α) l = (Res.ok a, l) := rfl

theorem seq_lift (x : Res α) (l : List (Option R)) : Thr.seq (lift x : Thr R α) l = (x, l) := rfl

theorem andThen_ok (f : α → Thr R β) (a : α) (l : List (Option R)) : andThen f (Res.ok a, l) = Thr.seq (f a) l := rfl
theorem andThen_err (f : α → Thr R β) (e : SynthesisError) (l : List (Option R)) :
    andThen f (Res.err e, l) = (Res.err e, l) := rfl
theorem andThen_none (f : α → Thr R β) (l : List (Option R)) : andThen f (Res.panic, l) = (Res.panic, l) := rfl

section

variable [AddCommGroup G1] [AddCommGroup G2] [DecidableEq G1] [DecidableEq G2]

theorem multiexp_eq {G : Type} [AddCommGroup G] [DecidableEq G] (w : Worker) (b : BaseSource G) (d : QueryDensity) (e : List Exponent) :
    multiexp F w b d e = if ∀ n, d.querySize = some n → n = e.length then multiexpInner F w b d e (windowSize e.length) else none := by
  unfold multiexp
  cases d with
  | full => simp [QueryDensity.querySize]
  | tracker d =>
    by_cases h : d.bv.length = e.length
    · simp [QueryDensity.querySize, h]
    · simp [QueryDensity.querySize, h]

theorem seq_multiexpG1 (w : Worker) (b : BaseSource G1) (d : QueryDensity) (e : List Exponent) (l : List (Option (ProofJob G1 G2))) :
    Thr.seq (multiexpG1 F w b d e) l = match multiexp F w b d e with
      | none => (Res.panic, l)
      | some v => (Res.ok l.length, l ++ [some (.inl v)]) := by
  rw [multiexp_eq]
  by_cases h : ∀ n, d.querySize = some n → n = e.length
  · have he : (multiexpG1 F w b d e : Thr (ProofJob G1 G2) ℕ) =
        Own.compute ((multiexpInner F w b d e (windowSize e.length)).map Sum.inl) fun i => Own.ret (some (.ok i)) := if_pos h
    rw [he, if_pos h]
    cases multiexpInner F w b d e (windowSize e.length) with
    | none => rfl
    | some v => rfl
  · have he : (multiexpG1 F w b d e : Thr (ProofJob G1 G2) ℕ) = Own.ret none := if_neg h
    rw [he, if_neg h]
    rfl

theorem seq_multiexpG2 (w : Worker) (b : BaseSource G2) (d : QueryDensity) (e : List Exponent) (l : List (Option (ProofJob G1 G2))) :
    Thr.seq (multiexpG2 F w b d e) l = match multiexp F w b d e with
      | none => (Res.panic, l)
      | some v => (Res.ok l.length, l ++ [some (.inr v)]) := by
  rw [multiexp_eq]
  by_cases h : ∀ n, d.querySize = some n → n = e.length
  · have he : (multiexpG2 F w b d e : Thr (ProofJob G1 G2) ℕ) =
        Own.compute ((multiexpInner F w b d e (windowSize e.length)).map Sum.inr) fun i => Own.ret (some (.ok i)) := if_pos h
    rw [he, if_pos h]
    cases multiexpInner F w b d e (windowSize e.length) with
    | none => rfl
    | some v => rfl
  · have he : (multiexpG2 F w b d e : Thr (ProofJob G1 G2) ℕ) = Own.ret none := if_neg h
    rw [he, if_neg h]
    rfl

theorem seq_waitG1 (i : ℕ) (l : List (Option (ProofJob G1 G2))) (v : Except SynthesisError G1) (h : l[i]? = some (some (.inl v))) :
    Thr.seq (waitG1 i) l = (Res.ofExcept v, l.set i none) := by
  simp only [waitG1, Thr.seq, Own.seq, h]
  rfl

theorem seq_waitG2 (i : ℕ) (l : List (Option (ProofJob G1 G2))) (v : Except SynthesisError G2) (h : l[i]? = some (some (.inr v))) :
    Thr.seq (waitG2 i) l = (Res.ofExcept v, l.set i none) := by
  simp only [waitG2, Thr.seq, Own.seq, h]
  rfl

end

end Thr

section

variable {G1 G2 : Type} [AddCommGroup G1] [AddCommGroup G2] [Module F G1] [Module F G2] [DecidableEq G1] [DecidableEq G2]

theorem Res.cases {α : Type} (x : Res α) : x = Res.panic ∨ (∃ e, x = Res.err e) ∨ ∃ a, x = Res.ok a := by
  rcases x with _ | (e | a)
  · exact .inl rfl
  · exact .inr (.inl ⟨e, rfl⟩)
  · exact .inr (.inr ⟨a, rfl⟩)

theorem Res.ofExcept_ok {α : Type} (a : α) : Res.ofExcept (.ok a) = Res.ok a := rfl
theorem Res.ofExcept_error {α : Type} (e : SynthesisError) : (Res.ofExcept (.error e) : Res α) = Res.err e := rfl

/-- Sequentially the thread computes `createProof`; if it ends with an error although all nine computations were submitted and the one
for `l` succeeded, then the waiter of that one is left; if it succeeds, no waiter is left. -/
theorem createProofThread_seq (w : Worker) (circuit : Synth F Unit) (params : Parameters G1 G2) (r s : F) :
    ∃ fin, Thr.seq (createProofThread w circuit params r s) [] = (createProof w circuit params r s, fin) ∧
      (∀ π, createProof w circuit params r s = Res.ok π → ∀ x ∈ fin, x = none) ∧
      (∀ e prover hc v, createProof w circuit params r s = Res.err e → assign? circuit = Res.ok prover →
        hCoeffs (w.site 0) prover.a prover.b prover.c = Res.ok hc →
        multiexp F (w.site 2) ⟨params.l, 0⟩ .full (prover.auxAssignment.map Exponent.ofField) = some (.ok v) →
        fin[1]? = some (some (.inl (.ok v)))) := by
  unfold createProofThread createProof
  simp only [Thr.seq_bind, Thr.seq_lift, Parameters.getVk, Parameters.getH, Parameters.getL, Parameters.getA, Parameters.getBG1,
    Parameters.getBG2, Res.ofExcept_ok, Thr.andThen_ok, Thr.andThen_err, Thr.andThen_none, Res.ok_bind, Res.err_bind, Res.panic_bind, Res.ofExcept_ok, Res.ofExcept_error]
  generalize assign? circuit = x0
  obtain rfl | ⟨e, rfl⟩ | ⟨prover, rfl⟩ := Res.cases x0
  · exact ⟨_, rfl, fun _ h => (by cases h), fun _ _ _ _ h => (by cases h)⟩
  · exact ⟨_, rfl, fun _ h => (by cases h), fun _ _ _ _ _ h => (by cases h)⟩
  simp only [Thr.andThen_ok, Thr.andThen_err, Thr.andThen_none, Res.ok_bind, Res.err_bind, Res.panic_bind, Res.ofExcept_ok, Res.ofExcept_error, Thr.seq_bind, Thr.seq_lift]
  obtain hhc | ⟨e, hhc⟩ | ⟨hc, hhc⟩ := Res.cases (hCoeffs (w.site 0) prover.a prover.b prover.c : Res (List F)) <;> rw [hhc]
  · exact ⟨_, rfl, fun _ h => (by cases h), fun _ _ _ _ h => (by cases h)⟩
  · refine ⟨_, rfl, fun _ h => (by cases h), fun _ p _ _ _ h h' => ?_⟩
    cases h
    rw [hhc] at h'
    cases h'
  simp only [Thr.andThen_ok, Thr.andThen_err, Thr.andThen_none, Res.ok_bind, Res.err_bind, Res.panic_bind, Res.ofExcept_ok, Res.ofExcept_error, Thr.seq_bind, Thr.seq_lift, Thr.seq_multiexpG1, Thr.seq_multiexpG2]
  rcases multiexp F (w.site 1) ⟨params.h, 0⟩ .full (hc.map Exponent.ofField) with _ | vh
  · exact ⟨_, rfl, fun _ h => (by cases h), fun _ _ _ _ h => (by cases h)⟩
  simp only [Thr.andThen_ok, Thr.andThen_err, Thr.andThen_none, Res.ok_bind, Res.err_bind, Res.panic_bind, Res.ofExcept_ok, Res.ofExcept_error, Thr.seq_bind, Thr.seq_lift, Thr.seq_multiexpG1, Thr.seq_multiexpG2, Res.lift_some, Res.ok_bind]
  rcases hl : multiexp F (w.site 2) ⟨params.l, 0⟩ .full (prover.auxAssignment.map Exponent.ofField) with _ | vl
  · exact ⟨_, rfl, fun _ h => (by cases h), fun _ _ _ _ h => (by cases h)⟩
  have fin1 : ∀ (e : SynthesisError) (fin : List (Option (ProofJob G1 G2))), fin[1]? = some (some (.inl vl)) →
      ∃ fin', ((Res.err e : Res (Proof G1 G2)), fin) = (Res.err e, fin') ∧
      (∀ π, (Res.err e : Res (Proof G1 G2)) = Res.ok π → ∀ x ∈ fin', x = none) ∧
      (∀ e' (prover' : ProvingAssignment F) (hc' : List F) v, (Res.err e : Res (Proof G1 G2)) = Res.err e' →
        (Res.ok prover : Res (ProvingAssignment F)) = Res.ok prover' →
        hCoeffs (w.site 0) prover'.a prover'.b prover'.c = Res.ok hc' →
        multiexp F (w.site 2) ⟨params.l, 0⟩ .full (prover'.auxAssignment.map Exponent.ofField) = some (.ok v) →
        fin'[1]? = some (some (.inl (.ok v)))) := by
    intro e fin h1
    refine ⟨fin, rfl, fun _ h => (by cases h), fun e' p hc' v _ h _ h' => ?_⟩
    cases h
    rw [hl] at h'
    cases h'
    exact h1
  simp only [Thr.andThen_ok, Thr.andThen_err, Thr.andThen_none, Res.ok_bind, Res.err_bind, Res.panic_bind, Res.ofExcept_ok, Res.ofExcept_error, Thr.seq_bind, Thr.seq_lift, Thr.seq_multiexpG1, Thr.seq_multiexpG2, Res.lift_some, Res.ok_bind]
  rcases multiexp F (w.site 3) ⟨params.a, 0⟩ .full (prover.inputAssignment.map Exponent.ofField) with _ | va
  · exact ⟨_, rfl, fun _ h => (by cases h), fun _ _ _ _ h => (by cases h)⟩
  simp only [Thr.andThen_ok, Thr.andThen_err, Thr.andThen_none, Res.ok_bind, Res.err_bind, Res.panic_bind, Res.ofExcept_ok, Res.ofExcept_error, Thr.seq_bind, Thr.seq_lift, Thr.seq_multiexpG1, Thr.seq_multiexpG2, Res.lift_some, Res.ok_bind]
  generalize multiexp (G := G1) F (w.site 4) _ _ _ = m4
  rcases m4 with _ | va'
  · exact ⟨_, rfl, fun _ h => (by cases h), fun _ _ _ _ h => (by cases h)⟩
  simp only [Thr.andThen_ok, Thr.andThen_err, Thr.andThen_none, Res.ok_bind, Res.err_bind, Res.panic_bind, Res.ofExcept_ok, Res.ofExcept_error, Thr.seq_bind, Thr.seq_lift, Thr.seq_multiexpG1, Thr.seq_multiexpG2, Res.lift_some, Res.ok_bind]
  generalize multiexp (G := G1) F (w.site 5) _ _ _ = m5
  rcases m5 with _ | vb
  · exact ⟨_, rfl, fun _ h => (by cases h), fun _ _ _ _ h => (by cases h)⟩
  simp only [Thr.andThen_ok, Thr.andThen_err, Thr.andThen_none, Res.ok_bind, Res.err_bind, Res.panic_bind, Res.ofExcept_ok, Res.ofExcept_error, Thr.seq_bind, Thr.seq_lift, Thr.seq_multiexpG1, Thr.seq_multiexpG2, Res.lift_some, Res.ok_bind]
  generalize multiexp (G := G1) F (w.site 6) _ _ _ = m6
  rcases m6 with _ | vb'
  · exact ⟨_, rfl, fun _ h => (by cases h), fun _ _ _ _ h => (by cases h)⟩
  simp only [Thr.andThen_ok, Thr.andThen_err, Thr.andThen_none, Res.ok_bind, Res.err_bind, Res.panic_bind, Res.ofExcept_ok, Res.ofExcept_error, Thr.seq_bind, Thr.seq_lift, Thr.seq_multiexpG1, Thr.seq_multiexpG2, Res.lift_some, Res.ok_bind]
  generalize multiexp (G := G2) F (w.site 7) _ _ _ = m7
  rcases m7 with _ | vc
  · exact ⟨_, rfl, fun _ h => (by cases h), fun _ _ _ _ h => (by cases h)⟩
  simp only [Thr.andThen_ok, Thr.andThen_err, Thr.andThen_none, Res.ok_bind, Res.err_bind, Res.panic_bind, Res.ofExcept_ok, Res.ofExcept_error, Thr.seq_bind, Thr.seq_lift, Thr.seq_multiexpG1, Thr.seq_multiexpG2, Res.lift_some, Res.ok_bind]
  generalize multiexp (G := G2) F (w.site 8) _ _ _ = m8
  rcases m8 with _ | vc'
  · exact ⟨_, rfl, fun _ h => (by cases h), fun _ _ _ _ h => (by cases h)⟩
  simp only [Thr.andThen_ok, Thr.andThen_err, Thr.andThen_none, Res.ok_bind, Res.err_bind, Res.panic_bind, Res.ofExcept_ok, Res.ofExcept_error, Thr.seq_bind, Thr.seq_lift, Thr.seq_multiexpG1, Thr.seq_multiexpG2, Res.lift_some, Res.ok_bind]
  simp only [List.nil_append, List.cons_append, List.length_cons, List.length_nil, Nat.zero_add, Nat.reduceAdd]
  split_ifs with hd
  · exact fin1 _ _ rfl
  rw [Thr.seq_bind, Thr.seq_waitG1 _ _ va rfl]
  rcases va with e | va
  · exact fin1 e _ rfl
  simp only [Thr.andThen_ok, Thr.andThen_err, Thr.andThen_none, Res.ok_bind, Res.err_bind, Res.panic_bind, Res.ofExcept_ok, Res.ofExcept_error, List.set_cons_succ, List.set_cons_zero]
  rw [Thr.seq_bind, Thr.seq_waitG1 _ _ va' rfl]
  rcases va' with e | va'
  · exact fin1 e _ rfl
  simp only [Thr.andThen_ok, Thr.andThen_err, Thr.andThen_none, Res.ok_bind, Res.err_bind, Res.panic_bind, Res.ofExcept_ok, Res.ofExcept_error, List.set_cons_succ, List.set_cons_zero]
  rw [Thr.seq_bind, Thr.seq_waitG1 _ _ vb rfl]
  rcases vb with e | vb
  · exact fin1 e _ rfl
  simp only [Thr.andThen_ok, Thr.andThen_err, Thr.andThen_none, Res.ok_bind, Res.err_bind, Res.panic_bind, Res.ofExcept_ok, Res.ofExcept_error, List.set_cons_succ, List.set_cons_zero]
  rw [Thr.seq_bind, Thr.seq_waitG1 _ _ vb' rfl]
  rcases vb' with e | vb'
  · exact fin1 e _ rfl
  simp only [Thr.andThen_ok, Thr.andThen_err, Thr.andThen_none, Res.ok_bind, Res.err_bind, Res.panic_bind, Res.ofExcept_ok, Res.ofExcept_error, List.set_cons_succ, List.set_cons_zero]
  rw [Thr.seq_bind, Thr.seq_waitG2 _ _ vc rfl]
  rcases vc with e | vc
  · exact fin1 e _ rfl
  simp only [Thr.andThen_ok, Thr.andThen_err, Thr.andThen_none, Res.ok_bind, Res.err_bind, Res.panic_bind, Res.ofExcept_ok, Res.ofExcept_error, List.set_cons_succ, List.set_cons_zero]
  rw [Thr.seq_bind, Thr.seq_waitG2 _ _ vc' rfl]
  rcases vc' with e | vc'
  · exact fin1 e _ rfl
  simp only [Thr.andThen_ok, Thr.andThen_err, Thr.andThen_none, Res.ok_bind, Res.err_bind, Res.panic_bind, Res.ofExcept_ok, Res.ofExcept_error, List.set_cons_succ, List.set_cons_zero]
  rw [Thr.seq_bind, Thr.seq_waitG1 _ _ vh rfl]
  rcases vh with e | vh
  · exact fin1 e _ rfl
  simp only [Thr.andThen_ok, Thr.andThen_err, Thr.andThen_none, Res.ok_bind, Res.err_bind, Res.panic_bind, Res.ofExcept_ok, Res.ofExcept_error, List.set_cons_succ, List.set_cons_zero]
  rw [Thr.seq_bind, Thr.seq_waitG1 _ _ vl rfl]
  rcases vl with e | vl
  · refine ⟨_, rfl, fun _ h => (by cases h), fun e' p hc' v _ h _ h' => ?_⟩
    cases h
    rw [hl] at h'
    cases h'
  simp only [Thr.andThen_ok, Thr.andThen_err, Thr.andThen_none, Res.ok_bind, Res.err_bind, Res.panic_bind, Res.ofExcept_ok, Res.ofExcept_error, List.set_cons_succ, List.set_cons_zero]
  refine ⟨_, rfl, ?_, ?_⟩
  · intro π _ x hx
    simp at hx
    exact hx
  · intro e _ _ _ h
    cases h

end

end Bellman
