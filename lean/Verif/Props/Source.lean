import Verif.Groth16.Source
import Verif.Proofs.Groth16
import Verif.Props.Domain
import Verif.Props.UnitTests

/-!
# C58: what the prover asks of its parameter source

`create_proof` does not need a whole proving key in memory: it asks a `ParameterSource` for the parts. These theorems say what it asks
for, that the answers to exactly these requests suffice, and that errors of the source are passed on.
-/

set_option linter.unusedSectionVars false

namespace Bellman

open PrimeField EvaluationDomain

variable {F : Type} [PrimeField F] {G1 G2 π : Type} [AddCommGroup G1] [AddCommGroup G2] [Module F G1] [Module F G2]
  [DecidableEq G1] [DecidableEq G2]

/-! ## Specification -/

/-- A method call on a parameter source. -/
inductive Request where
  | vk (numIc : ℕ)
  | h (num : ℕ)
  | l (num : ℕ)
  | a (numInputs numAux : ℕ)
  | bG1 (numInputs numAux : ℕ)
  | bG2 (numInputs numAux : ℕ)
deriving DecidableEq, Repr

/-- A record of the calls, each with the error that the source returned, if it did. -/
abbrev Log := List (Request × Option SynthesisError)

/-- The error of a result. -/
def errorOf {α : Type} : Except SynthesisError α → Option SynthesisError
  | .ok _ => none
  | .error e => some e

/-- Write down a call and its outcome. -/
def noted {α : Type} (q : Request) (x : Except SynthesisError α × π) (log : Log) : Except SynthesisError α × π × Log :=
  (x.1, x.2, log ++ [(q, errorOf x.1)])

/-- The same source, keeping a record of the calls. -/
def ParameterSource.logged (src : ParameterSource π G1 G2) : ParameterSource (π × Log) G1 G2 where
  getVk n s := noted (.vk n) (src.getVk n s.1) s.2
  getH n s := noted (.h n) (src.getH n s.1) s.2
  getL n s := noted (.l n) (src.getL n s.1) s.2
  getA n k s := noted (.a n k) (src.getA n k s.1) s.2
  getBG1 n k s := noted (.bG1 n k) (src.getBG1 n k s.1) s.2
  getBG2 n k s := noted (.bG2 n k) (src.getBG2 n k s.1) s.2

/-- The requests for a circuit whose synthesis makes the calls `t`: the verifying key with one element per public input and the constant
one; one element of `h` less than the evaluation domain has points; one of `l` for every auxiliary variable; of `a` one for every
input and one for every auxiliary variable that occurs in a left factor; of `b` one for every input and every auxiliary variable that
occurs in a right factor. -/
noncomputable def requests (t : List (Ev F)) : List Request :=
  let aAux := {i | ∃ k ∈ consOf t, Occurs k.1.terms (.aux i)}.ncard
  let bInput := {i | ∃ k ∈ consOf t, Occurs k.2.1.terms (.input i)}.ncard
  let bAux := {i | ∃ k ∈ consOf t, Occurs k.2.1.terms (.aux i)}.ncard
  [.vk (numIn t + 1), .h (2 ^ Nat.clog 2 ((consOf t).length + (numIn t + 1)) - 1), .l (numAux t), .a (numIn t + 1) aAux,
    .bG1 bInput bAux, .bG2 bInput bAux]

/-- The bases from the position of the source on are those of `key` from `pos` on, as far as the first `n` are concerned. -/
def BaseSource.Serves {G : Type} (b : BaseSource G) (key : List G) (pos n : ℕ) : Prop :=
  ∀ i < n, b.bases[b.pos + i]? = key[pos + i]?

/-- A source that answers every request with as many elements of the key as were asked for, from the right place; more may follow. Of
the verifying key the prover needs only the elements outside `ic`. -/
structure ParameterSource.Provides (src : ParameterSource π G1 G2) (key : Parameters G1 G2) : Prop where
  vk : ∀ n s, ∃ vk s', src.getVk n s = (.ok vk, s') ∧ { vk with ic := key.vk.ic } = key.vk
  h : ∀ n s, ∃ b s', src.getH n s = (.ok b, s') ∧ b.Serves key.h 0 n
  l : ∀ n s, ∃ b s', src.getL n s = (.ok b, s') ∧ b.Serves key.l 0 n
  a : ∀ n k s, ∃ b s', src.getA n k s = (.ok b, s') ∧ b.1.Serves key.a 0 n ∧ b.2.Serves key.a n k
  bG1 : ∀ n k s, ∃ b s', src.getBG1 n k s = (.ok b, s') ∧ b.1.Serves key.bG1 0 n ∧ b.2.Serves key.bG1 n k
  bG2 : ∀ n k s, ∃ b s', src.getBG2 n k s = (.ok b, s') ∧ b.1.Serves key.bG2 0 n ∧ b.2.Serves key.bG2 n k

/-! ## Proofs -/

namespace SProg

variable {α β : Type}

/-- The outcome of a program on the source does not depend on the source and is that of `y`. -/
def Same (x : SProg π α) (y : Res α) : Prop := ∀ s, (x s).map (·.1) = (y : Option _)

theorem Same.lift (y : Res α) : Same (SProg.lift y : SProg π α) y := by
  intro s
  unfold SProg.lift
  cases y with
  | none => rfl
  | some r => rfl

theorem Same.bind {x : SProg π α} {y : Res α} {f : α → SProg π β} {g : α → Res β} (h : Same x y)
    (hf : ∀ a, y = Res.ok a → Same (f a) (g a)) : Same (x >>= f) (y >>= g) := by
  intro s
  have hs := h s
  show (SProg.bind x f s).map (·.1) = Res.bind y g
  unfold SProg.bind
  rcases hx : x s with _ | ⟨e | a, s'⟩
  · rw [hx] at hs
    rw [← hs]; rfl
  · rw [hx] at hs
    rw [← hs]; rfl
  · rw [hx] at hs
    rw [← hs]
    exact hf a hs.symm s'

theorem Same.call {f : π → Except SynthesisError α × π} {P : α → Prop} (hf : ∀ s, ∃ a s', f s = (.ok a, s') ∧ P a) {β : Type}
    {k : α → SProg π β} {y : Res β} (hk : ∀ a, P a → Same (k a) y) : Same (SProg.call f >>= k) y := by
  intro s
  obtain ⟨a, s', h1, h2⟩ := hf s
  show (SProg.bind (SProg.call f) k s).map (·.1) = y
  unfold SProg.bind SProg.call
  rw [h1]
  exact hk a h2 s'

/-- `x'` does as `x`, and keeps a log. -/
def Logs (x' : SProg (π × Log) α) (x : SProg π α) : Prop := ∀ s log, (x' (s, log)).map (fun r => (r.1, r.2.1)) = x s

theorem Logs.lift (y : Res α) : Logs (SProg.lift y : SProg (π × Log) α) (SProg.lift y) := by
  intro s log
  cases y with
  | none => rfl
  | some r => rfl

theorem Logs.bind {x' : SProg (π × Log) α} {x : SProg π α} {f' : α → SProg (π × Log) β} {f : α → SProg π β} (h : Logs x' x)
    (hf : ∀ a, Logs (f' a) (f a)) : Logs (x' >>= f') (x >>= f) := by
  intro s log
  have hs := h s log
  show (SProg.bind x' f' (s, log)).map _ = SProg.bind x f s
  unfold SProg.bind
  rcases hx : x' (s, log) with _ | ⟨e | a, s', log'⟩
  · rw [hx] at hs
    rw [← hs]; rfl
  · rw [hx] at hs
    rw [← hs]; rfl
  · rw [hx] at hs
    rw [← hs]
    exact hf a s' log'

theorem Logs.call (q : Request) (f : π → Except SynthesisError α × π) :
    Logs (SProg.call fun s : π × Log => noted q (f s.1) s.2) (SProg.call f) := fun _ _ => rfl

/-- The log of a computation: on success all of `L`; on an error, an initial part of it, of which only the last call may have
failed, and then with that error. -/
def Asks (x : SProg (π × Log) α) (L : List Request) : Prop :=
  ∀ s log, match x (s, log) with
    | none => True
    | some (.ok _, _, log') => log' = log ++ L.map (·, none)
    | some (.error e, _, log') => (∃ k, log' = log ++ (L.take k).map (·, none)) ∨
        ∃ k q, L[k]? = some q ∧ log' = log ++ (L.take k).map (·, none) ++ [(q, some e)]

theorem Asks.lift (y : Res α) : Asks (SProg.lift y : SProg (π × Log) α) [] := by
  intro s log
  rcases y with _ | (e | a)
  · trivial
  · exact .inl ⟨0, by simp⟩
  · show log = log ++ []
    simp

theorem Asks.bind {x : SProg (π × Log) α} {f : α → SProg (π × Log) β} {L M : List Request} (h : Asks x L)
    (hf : ∀ a s s', x s = some (.ok a, s') → Asks (f a) M) : Asks (x >>= f) (L ++ M) := by
  intro s log
  have hs := h s log
  show match SProg.bind x f (s, log) with | none => _ | some (.ok _, _, log') => _ | some (.error e, _, log') => _
  unfold SProg.bind
  rcases hx : x (s, log) with _ | ⟨e | a, s', log'⟩
  · trivial
  · rw [hx] at hs
    rcases hs with ⟨k, hk⟩ | ⟨k, q, hq, hk⟩
    · refine .inl ⟨min k L.length, ?_⟩
      show log' = _
      rw [hk, List.take_append_of_le_length (Nat.min_le_right ..), List.take_eq_take_min]
    · refine .inr ⟨k, q, ?_, ?_⟩
      · rw [List.getElem?_append_left (List.getElem?_eq_some_iff.1 hq).1]; exact hq
      · show log' = _
        rw [hk, List.take_append_of_le_length (List.getElem?_eq_some_iff.1 hq).1.le]
  · rw [hx] at hs
    have hs : log' = log ++ L.map (·, none) := hs
    have h2 := hf a _ _ hx s' log'
    show match f a (s', log') with | none => _ | some (.ok _, _, log') => _ | some (.error e, _, log') => _
    rcases hy : f a (s', log') with _ | ⟨e | b, s'', log''⟩
    · trivial
    · rw [hy] at h2
      rcases h2 with ⟨k, hk⟩ | ⟨k, q, hq, hk⟩
      · refine .inl ⟨L.length + k, ?_⟩
        show log'' = _
        rw [hk, hs, List.take_length_add_append]
        simp
      · refine .inr ⟨L.length + k, q, ?_, ?_⟩
        · rw [List.getElem?_append_right (by omega), Nat.add_sub_cancel_left]; exact hq
        · show log'' = _
          rw [hk, hs, List.take_length_add_append]
          simp
    · rw [hy] at h2
      have h2 : log'' = log' ++ M.map (·, none) := h2
      show log'' = _
      rw [h2, hs]
      simp

theorem Asks.bind_lift {y : Res α} {f : α → SProg (π × Log) β} {M : List Request} (hf : ∀ a, y = Res.ok a → Asks (f a) M) :
    Asks (SProg.lift y >>= f) M := by
  refine Asks.bind (L := []) (Asks.lift y) fun a s s' h => hf a ?_
  rcases y with _ | (e | b)
  · cases h
  · cases h
  · cases h; rfl

theorem Asks.call (q : Request) (f : π → Except SynthesisError α × π) :
    Asks (SProg.call fun s : π × Log => noted q (f s.1) s.2) [q] := by
  intro s log
  show match (some (noted q (f s) log) : Option (Except SynthesisError α × π × Log)) with
    | none => _ | some (.ok _, _, log') => _ | some (.error e, _, log') => _
  rcases hf : f s with ⟨e | a, s'⟩
  · exact .inr ⟨0, q, rfl, by simp [errorOf]⟩
  · rfl

theorem Asks.bind_call {q : Request} {f : π → Except SynthesisError α × π} {k : α → SProg (π × Log) β} {M : List Request}
    (hk : ∀ a, Asks (k a) M) : Asks (SProg.call (fun s : π × Log => noted q (f s.1) s.2) >>= k) (q :: M) :=
  Asks.bind (L := [q]) (Asks.call q f) fun a _ _ _ => hk a

end SProg

/-! ## Theorems -/

/-- C58. With a key in memory as its source, the prover is the one of the other theorems, and the key is not changed. -/
theorem C58_parameters (w : Worker) (pc : Synth F Unit) (params : Parameters G1 G2) (r s : F) :
    createProofFrom w pc (Parameters.source G1 G2) r s params = Option.map (·, params) (createProof w pc params r s : Option _) := by
  have lift_bind : ∀ {α β : Type} (y : Res α) (f : α → SProg (Parameters G1 G2) β) (g : α → Res β),
      (∀ a, f a params = Option.map (·, params) (g a : Option _)) →
      (SProg.lift y >>= f) params = Option.map (·, params) ((y >>= g : Res β) : Option _) := by
    intro α β y f g h
    rcases y with _ | (e | a)
    · rfl
    · rfl
    · exact h a
  have call_bind : ∀ {α β : Type} (x : Parameters G1 G2 → Except SynthesisError α × Parameters G1 G2)
      (f : α → SProg (Parameters G1 G2) β) (g : α → Res β) (hx : (x params).2 = params),
      (∀ a, f a params = Option.map (·, params) (g a : Option _)) →
      (SProg.call x >>= f) params = Option.map (·, params) ((Res.ofExcept (x params).1 >>= g : Res β) : Option _) := by
    intro α β x f g hx h
    show SProg.bind (SProg.call x) f params = _
    unfold SProg.bind SProg.call
    rcases hy : x params with ⟨e | a, p⟩
    · rw [hy] at hx; cases hx; rfl
    · rw [hy] at hx; cases hx; exact h a
  have lift_end : ∀ {α : Type} (y : Res α), (SProg.lift y : SProg (Parameters G1 G2) α) params = Option.map (·, params) (y : Option _) := by
    rintro α (_ | y) <;> rfl
  unfold createProofFrom createProof
  refine lift_bind _ _ _ fun prover => ?_
  refine call_bind ((Parameters.source G1 G2).getVk _) _ _ rfl fun vk => ?_
  refine lift_bind _ _ _ fun hc => ?_
  refine call_bind ((Parameters.source G1 G2).getH _) _ _ rfl fun hSource => ?_
  refine lift_bind _ _ _ fun h => ?_
  refine call_bind ((Parameters.source G1 G2).getL _) _ _ rfl fun lSource => ?_
  refine lift_bind _ _ _ fun l => ?_
  refine call_bind ((Parameters.source G1 G2).getA _ _) _ _ rfl fun aSources => ?_
  refine lift_bind _ _ _ fun aInputs => ?_
  refine lift_bind _ _ _ fun aAux => ?_
  refine call_bind ((Parameters.source G1 G2).getBG1 _ _) _ _ rfl fun b1Sources => ?_
  refine lift_bind _ _ _ fun b1Inputs => ?_
  refine lift_bind _ _ _ fun b1Aux => ?_
  refine call_bind ((Parameters.source G1 G2).getBG2 _ _) _ _ rfl fun b2Sources => ?_
  refine lift_bind _ _ _ fun b2Inputs => ?_
  refine lift_bind _ _ _ fun b2Aux => ?_
  exact lift_end _

/-- C58. Keeping a record of the calls does not influence the prover. -/
theorem C58_log (w : Worker) (pc : Synth F Unit) (src : ParameterSource π G1 G2) (r s : F) (st : π) (log : Log) :
    (createProofFrom w pc src.logged r s (st, log)).map (fun x => (x.1, x.2.1)) = createProofFrom w pc src r s st := by
  have : SProg.Logs (createProofFrom w pc src.logged r s) (createProofFrom w pc src r s) := by
    unfold createProofFrom
    refine (SProg.Logs.lift _).bind fun prover => ?_
    refine (SProg.Logs.call (.vk _) _).bind fun vk => ?_
    refine (SProg.Logs.lift _).bind fun hc => ?_
    refine (SProg.Logs.call (.h _) _).bind fun hSource => ?_
    refine (SProg.Logs.lift _).bind fun h => ?_
    refine (SProg.Logs.call (.l _) _).bind fun lSource => ?_
    refine (SProg.Logs.lift _).bind fun l => ?_
    refine (SProg.Logs.call (.a _ _) _).bind fun aSources => ?_
    refine (SProg.Logs.lift _).bind fun aInputs => ?_
    refine (SProg.Logs.lift _).bind fun aAux => ?_
    refine (SProg.Logs.call (.bG1 _ _) _).bind fun b1Sources => ?_
    refine (SProg.Logs.lift _).bind fun b1Inputs => ?_
    refine (SProg.Logs.lift _).bind fun b1Aux => ?_
    refine (SProg.Logs.call (.bG2 _ _) _).bind fun b2Sources => ?_
    refine (SProg.Logs.lift _).bind fun b2Inputs => ?_
    refine (SProg.Logs.lift _).bind fun b2Aux => ?_
    exact SProg.Logs.lift _
  exact this st log

private theorem density_count {d : DensityTracker} {P : ℕ → Prop} (h : ∀ i, d.Has i ↔ P i) : d.getTotalDensity = {i | P i}.ncard := by
  have h0 : {i | P i} = {i | d.Has i} := by ext i; exact (h i).symm
  rw [h0]
  unfold DensityTracker.getTotalDensity DensityTracker.Has
  generalize d.bv = l
  clear h h0 d
  induction l using List.reverseRecOn with
  | nil => simp
  | append_singleton l b ih =>
    rw [List.count_append, ih]
    have hfin : {i : ℕ | l[i]? = some true}.Finite := (Set.finite_lt_nat l.length).subset fun i hi => (List.getElem?_eq_some_iff.1 hi).1
    cases b with
    | false =>
      have : {i : ℕ | (l ++ [false])[i]? = some true} = {i : ℕ | l[i]? = some true} := by
        ext i
        simp only [Set.mem_ofPred_eq, List.getElem?_append]
        split
        · rfl
        · rename_i hi
          rw [List.getElem?_eq_none (by omega : l.length ≤ i)]
          rcases hj : i - l.length with _ | j <;> simp
      rw [this]; simp
    | true =>
      have : {i : ℕ | (l ++ [true])[i]? = some true} = insert l.length {i : ℕ | l[i]? = some true} := by
        ext i
        simp only [Set.mem_ofPred_eq, Set.mem_insert_iff, List.getElem?_append]
        split
        · rename_i hi
          exact ⟨.inr, fun h => h.resolve_left (by omega)⟩
        · rename_i hi
          rw [List.getElem?_eq_none (by omega : l.length ≤ i)]
          rcases hj : i - l.length with _ | j
          · simp; omega
          · simp; omega
      rw [this, Set.ncard_insert_of_notMem (by simp) hfin]
      simp

private theorem hCoeffs_length {w : Worker} {a b c hc : List F} (hab : a.length = b.length) (hac : a.length = c.length)
    (h : hCoeffs w a b c = some (.ok hc)) : hc.length = 2 ^ Nat.clog 2 a.length - 1 := by
  rcases fromCoeffs_cases (F := F) a with ⟨d, hd, wd, hle, hmin, hco, hom⟩ | ⟨hd, hgt⟩
  · have hclog := clog_of_bounds hle hmin
    by_cases hf : w.FftFits d.exp
    · obtain ⟨A, ⟨hA, va⟩, _⟩ := C23_interpolate d.omega _ wd.prim a
      obtain ⟨B, ⟨hB, vb⟩, _⟩ := C23_interpolate d.omega _ wd.prim b
      obtain ⟨Cc, ⟨hC, vc⟩, _⟩ := C23_interpolate d.omega _ wd.prim c
      have := hCoeffs_spec w a b c hab hac d hd hf A B Cc hA hB hC va vb vc
      rw [h] at this
      cases this
      rw [List.length_map, List.length_range, hclog]
    · exfalso
      have hd2 : ∀ l : List F, l.length = a.length → ∃ d', fromCoeffs (F := F) l = some (.ok d') := by
        intro l hl
        rcases fromCoeffs_cases (F := F) l with ⟨d', hd', _⟩ | ⟨_, hgt⟩
        · exact ⟨d', hd'⟩
        · have := wd.exp_lt
          have : 2 ^ d.exp ≤ 2 ^ (S F - 1) := Nat.pow_le_pow_right (by norm_num) (by omega)
          omega
      obtain ⟨d2, e2⟩ := hd2 b hab.symm
      obtain ⟨d3, e3⟩ := hd2 c hac.symm
      unfold hCoeffs at h
      rw [hd, e2, e3] at h
      have : d.ifft ((w.site 0).site 0) = none := ifft_none ((w.site 0).site 0) d hf
      simp only [Option.bind_eq_bind, Option.bind_some, toCoset] at h
      rw [this] at h
      cases h
  · exfalso
    unfold hCoeffs at h
    rw [hd] at h
    cases h

/-- C58. What is asked for. If the prover succeeds, it has called each method of the source once, in this order, with the numbers of
`requests`, and every call succeeded. If it returns an error, then either all calls so far succeeded, and they are the first few of
these, or the last of them failed, and the error is the one the source returned. -/
theorem C58_requests (w : Worker) (pc : Synth F Unit) (t : List (Ev F)) (ht : ProverTrace pc t) (src : ParameterSource π G1 G2)
    (r s : F) (st st' : π) (log : Log) :
    (∀ pf, createProofFrom w pc src.logged r s (st, []) = some (.ok pf, st', log) → log = (requests t).map (·, none)) ∧
    (∀ e, createProofFrom w pc src.logged r s (st, []) = some (.error e, st', log) →
      (∃ k, log = ((requests t).take k).map (·, none)) ∨
      ∃ k q, (requests t)[k]? = some q ∧ log = ((requests t).take k).map (·, none) ++ [(q, some e)]) := by
  have key : SProg.Asks (createProofFrom w pc src.logged r s) (requests t) := by
    unfold createProofFrom requests
    refine SProg.Asks.bind_lift fun p hp => ?_
    have ha := ht.assigned hp
    have hn : p.inputAssignment.length = numIn t + 1 := by rw [ha.inputs, List.length_cons, ha.nIn]
    have hk : p.auxAssignment.length = numAux t := by rw [ha.aux, ha.nAux]
    have hal : p.a.length = (consOf t).length + (numIn t + 1) := by rw [ha.a]; simp [inputRows]
    rw [← hn, ← hk, ← density_count ha.aAux, ← density_count ha.bInput, ← density_count ha.bAux]
    refine SProg.Asks.bind_call fun vk => ?_
    refine SProg.Asks.bind_lift fun hc hhc => ?_
    have hlen := hCoeffs_length (by rw [ha.a, ha.b]; simp) (by rw [ha.a, ha.c]; simp) hhc
    rw [hal, ← hn] at hlen
    rw [← hlen]
    refine SProg.Asks.bind_call fun hSource => ?_
    refine SProg.Asks.bind_lift fun h _ => ?_
    simp only [List.length_map]
    refine SProg.Asks.bind_call fun lSource => ?_
    refine SProg.Asks.bind_lift fun l _ => ?_
    refine SProg.Asks.bind_call fun aSources => ?_
    refine SProg.Asks.bind_lift fun aInputs _ => ?_
    refine SProg.Asks.bind_lift fun aAux _ => ?_
    refine SProg.Asks.bind_call fun b1Sources => ?_
    refine SProg.Asks.bind_lift fun b1Inputs _ => ?_
    refine SProg.Asks.bind_lift fun b1Aux _ => ?_
    refine SProg.Asks.bind_call fun b2Sources => ?_
    refine SProg.Asks.bind_lift fun b2Inputs _ => ?_
    refine SProg.Asks.bind_lift fun b2Aux _ => ?_
    exact SProg.Asks.lift _
  have hk := key st []
  constructor
  · intro pf h
    rw [h] at hk
    simpa using hk
  · intro e h
    rw [h] at hk
    simpa using hk

private theorem queried_full (es : List F) : (queried .full es).length = es.length := rfl

private theorem queried_tracker (d : DensityTracker) (es : List F) : (queried (.tracker d) es).length ≤ d.getTotalDensity := by
  show ((es.zip d.bv).filterMap fun x => if x.2 then some x.1 else none).length ≤ d.bv.count true
  generalize d.bv = l
  induction l generalizing es with
  | nil => simp
  | cons b l ih =>
    cases es with
    | nil => simp
    | cons e es =>
      have := ih es
      cases b <;> simp <;> omega

/-- C58. A source that provides as many elements as it is asked for, in the right places, is enough: the outcome, success, error or
panic, is that of the prover with the whole key, for every circuit, witness and worker. -/
theorem C58_enough (w : Worker) (pc : Synth F Unit) (src : ParameterSource π G1 G2) (key : Parameters G1 G2)
    (hsrc : src.Provides key) (r s : F) (st : π) :
    (createProofFrom w pc src r s st).map (·.1) = createProof w pc key r s := by
  have main : SProg.Same (createProofFrom w pc src r s) (createProof w pc key r s) := by
    unfold createProofFrom createProof
    refine (SProg.Same.lift _).bind fun p _ => ?_
    refine SProg.Same.call (hsrc.vk _) fun vk hvk => ?_
    simp only [Parameters.getVk, Parameters.getH, Parameters.getL, Parameters.getA, Parameters.getBG1, Parameters.getBG2,
      Res.ofExcept_ok, Res.ok_bind]
    refine (SProg.Same.lift _).bind fun hc _ => ?_
    refine SProg.Same.call (hsrc.h _) fun b hb => ?_
    rw [C24_bases (w.site 1) b ⟨key.h, 0⟩ .full hc fun i hi => hb i hi]
    refine (SProg.Same.lift _).bind fun h _ => ?_
    simp only [List.length_map]
    refine SProg.Same.call (hsrc.l _) fun b hb => ?_
    rw [C24_bases (w.site 2) b ⟨key.l, 0⟩ .full p.auxAssignment fun i hi => hb i hi]
    refine (SProg.Same.lift _).bind fun l _ => ?_
    refine SProg.Same.call (hsrc.a _ _) fun b hb => ?_
    rw [C24_bases (w.site 3) b.1 ⟨key.a, 0⟩ .full p.inputAssignment fun i hi => hb.1 i hi,
      C24_bases (w.site 4) b.2 ⟨key.a, p.inputAssignment.length⟩ (.tracker p.aAuxDensity) p.auxAssignment
        fun i hi => hb.2 i (lt_of_lt_of_le hi (queried_tracker _ _))]
    refine (SProg.Same.lift _).bind fun aInputs _ => ?_
    refine (SProg.Same.lift _).bind fun aAux _ => ?_
    refine SProg.Same.call (hsrc.bG1 _ _) fun b hb => ?_
    rw [C24_bases (w.site 5) b.1 ⟨key.bG1, 0⟩ (.tracker p.bInputDensity) p.inputAssignment
        fun i hi => hb.1 i (lt_of_lt_of_le hi (queried_tracker _ _)),
      C24_bases (w.site 6) b.2 ⟨key.bG1, p.bInputDensity.getTotalDensity⟩ (.tracker p.bAuxDensity) p.auxAssignment
        fun i hi => hb.2 i (lt_of_lt_of_le hi (queried_tracker _ _))]
    refine (SProg.Same.lift _).bind fun b1Inputs _ => ?_
    refine (SProg.Same.lift _).bind fun b1Aux _ => ?_
    refine SProg.Same.call (hsrc.bG2 _ _) fun b hb => ?_
    rw [C24_bases (w.site 7) b.1 ⟨key.bG2, 0⟩ (.tracker p.bInputDensity) p.inputAssignment
        fun i hi => hb.1 i (lt_of_lt_of_le hi (queried_tracker _ _)),
      C24_bases (w.site 8) b.2 ⟨key.bG2, p.bInputDensity.getTotalDensity⟩ (.tracker p.bAuxDensity) p.auxAssignment
        fun i hi => hb.2 i (lt_of_lt_of_le hi (queried_tracker _ _))]
    refine (SProg.Same.lift _).bind fun b2Inputs _ => ?_
    refine (SProg.Same.lift _).bind fun b2Aux _ => ?_
    rw [← hvk]
    exact SProg.Same.lift _
  exact main st

/-! ## A source that hands out no more than it is asked for -/

/-- Reads from a key exactly the elements asked for, and counts the calls. -/
def sliced (key : Parameters G1 G2) : ParameterSource ℕ G1 G2 where
  getVk n s := (.ok { key.vk with ic := key.vk.ic.take n }, s + 1)
  getH n s := (.ok ⟨key.h.take n, 0⟩, s + 1)
  getL n s := (.ok ⟨key.l.take n, 0⟩, s + 1)
  getA n k s := (.ok (⟨key.a.take n, 0⟩, ⟨(key.a.drop n).take k, 0⟩), s + 1)
  getBG1 n k s := (.ok (⟨key.bG1.take n, 0⟩, ⟨(key.bG1.drop n).take k, 0⟩), s + 1)
  getBG2 n k s := (.ok (⟨key.bG2.take n, 0⟩, ⟨(key.bG2.drop n).take k, 0⟩), s + 1)

theorem sliced_provides (key : Parameters G1 G2) : (sliced key).Provides key := by
  have h1 : ∀ {G : Type} (l : List G) (n : ℕ), (⟨l.take n, 0⟩ : BaseSource G).Serves l 0 n := by
    intro G l n i hi
    show (l.take n)[0 + i]? = l[0 + i]?
    rw [List.getElem?_take_of_lt (by omega)]
  have h2 : ∀ {G : Type} (l : List G) (n k : ℕ), (⟨(l.drop n).take k, 0⟩ : BaseSource G).Serves l n k := by
    intro G l n k i hi
    show ((l.drop n).take k)[0 + i]? = l[n + i]?
    rw [List.getElem?_take_of_lt (by omega), List.getElem?_drop, Nat.zero_add]
  exact ⟨fun n s => ⟨_, _, rfl, rfl⟩, fun n s => ⟨_, _, rfl, h1 _ _⟩, fun n s => ⟨_, _, rfl, h1 _ _⟩,
    fun n k s => ⟨_, _, rfl, h1 _ _, h2 _ _ _⟩, fun n k s => ⟨_, _, rfl, h1 _ _, h2 _ _ _⟩, fun n k s => ⟨_, _, rfl, h1 _ _, h2 _ _ _⟩⟩

example (w : Worker) (pc : Synth F Unit) (key : Parameters G1 G2) (r s : F) :
    (createProofFrom w pc (sliced key) r s 0).map (·.1) = createProof w pc key r s :=
  C58_enough w pc _ key (sliced_provides key) r s 0

open UnitTests in
/-- The test circuit `a * b = c` with additional terms of coefficient zero: one element each of `a` and `b` for the two factors, none
for the variables with coefficient zero. -/
example (va vb vc : Option F) : requests (zeroTrace true va vb vc) = [.vk 1, .h 1, .l 3, .a 1 1, .bG1 0 1, .bG2 0 1] := by
  have h1 : {i : ℕ | ∃ k ∈ consOf (zeroTrace true va vb vc), Occurs k.1.terms (.aux i)} = {0} := by
    ext i
    simp [zeroTrace, consOf, Occurs]
  have h2 : {i : ℕ | ∃ k ∈ consOf (zeroTrace true va vb vc), Occurs k.2.1.terms (.input i)} = ∅ := by
    ext i
    simp [zeroTrace, consOf, Occurs]
  have h3 : {i : ℕ | ∃ k ∈ consOf (zeroTrace true va vb vc), Occurs k.2.1.terms (.aux i)} = {1} := by
    ext i
    simp [zeroTrace, consOf, Occurs, Var.one]
  unfold requests
  rw [h1, h2, h3]
  simp only [Set.ncard_singleton, Set.ncard_empty]
  rfl

end Bellman
