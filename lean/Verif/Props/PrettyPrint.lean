import Verif.Proofs.PrettyPrint
import Verif.Props.TestCS
import Verif.Proofs.SameCircuit
import Verif.Proofs.ShapeNum

/-!
# C63: what `TestConstraintSystem::pretty_print` shows
-/

set_option linter.unusedSectionVars false

namespace Bellman

open List PrimeField

variable {F : Type} [PrimeField F] {α β : Type}

/-- The sum of the coefficients of all variables called `n`. -/
def TestCS.coeffNamed (s : TestCS F) (l : LC F) (n : String) : F :=
  (l.terms.map fun t => if s.varName t.1 = some n then t.2 else 0).sum

theorem TestCS.varName_isSome (s : TestCS F) (v : Var) : (s.varName v).isSome ↔ v.InRange s.inputs.length s.aux.length := by
  cases v <;> simp [TestCS.varName, Var.InRange]

theorem TestCS.ppLc_isSome (dbg : F → List Char) (s : TestCS F) (l : LC F) :
    (s.ppLc dbg l).isSome ↔ ∀ v, (l.terms.map fun t => if t.1 = v then t.2 else 0).sum ≠ 0 → v.InRange s.inputs.length s.aux.length := by
  unfold TestCS.ppLc
  rw [Option.isSome_map, TestCS.ppTerms_isSome]
  constructor
  · intro h v hv
    exact (s.varName_isSome v).1 (h (v, _) ((procLc_mem _ _ _).2 ⟨hv, rfl⟩))
  · intro h e he
    obtain ⟨h1, h2⟩ := (procLc_mem _ _ _).1 he
    exact (s.varName_isSome _).2 (h e.1 (by rw [← h2] at h1; exact h1))

/-- C63: `pretty_print` panics only if a constraint mentions a variable that does not exist with a coefficient other than zero. -/
theorem C63_total (dbg : F → List Char) (s : TestCS F) : (s.prettyPrint dbg).isSome ↔
    ∀ k ∈ s.constraints, ∀ l ∈ [k.1, k.2.1, k.2.2.1], ∀ v, (l.terms.map fun t => if t.1 = v then t.2 else 0).sum ≠ 0 →
      v.InRange s.inputs.length s.aux.length := by
  have h1 : ∀ k : LC F × LC F × LC F × String, (s.ppConstraint dbg k).isSome ↔ ∀ l ∈ [k.1, k.2.1, k.2.2.1], ∀ v,
      (l.terms.map fun t => if t.1 = v then t.2 else 0).sum ≠ 0 → v.InRange s.inputs.length s.aux.length := by
    intro k
    simp only [mem_cons, not_mem_nil, or_false, forall_eq_or_imp, forall_eq, ← TestCS.ppLc_isSome dbg]
    unfold TestCS.ppConstraint
    cases s.ppLc dbg k.1 <;> cases s.ppLc dbg k.2.1 <;> cases s.ppLc dbg k.2.2.1 <;> simp
  simp only [← h1]
  unfold TestCS.prettyPrint
  rw [Option.isSome_map]
  generalize s.constraints = ks
  induction ks with
  | nil => simp
  | cons k ks ih =>
    rw [mapM_cons, forall_mem_cons]
    refine Iff.trans ?_ (and_congr_right fun _ => ih)
    cases s.ppConstraint dbg k <;> cases ks.mapM (s.ppConstraint dbg) <;> simp

/-- The printout depends on the names of the variables and on names and normal forms of the constraints only. -/
theorem TestCS.prettyPrint_congr (dbg : F → List Char) {s s' : TestCS F} (hv : ∀ v, s.varName v = s'.varName v)
    (hk : Forall₂ (fun k k' : LC F × LC F × LC F × String => k.2.2.2 = k'.2.2.2 ∧ procLc k.1.terms = procLc k'.1.terms ∧
      procLc k.2.1.terms = procLc k'.2.1.terms ∧ procLc k.2.2.1.terms = procLc k'.2.2.1.terms) s.constraints s'.constraints) :
    s.prettyPrint dbg = s'.prettyPrint dbg := by
  have h1 : ∀ f m, TestCS.ppTerms dbg s f m = TestCS.ppTerms dbg s' f m := by
    intro f m
    induction m generalizing f with
    | nil => rfl
    | cons e m ih => obtain ⟨v, c⟩ := e; simp only [TestCS.ppTerms, hv, ih]
  unfold TestCS.prettyPrint
  congr 1
  generalize s.constraints = l at hk ⊢
  generalize s'.constraints = l' at hk ⊢
  induction hk with
  | nil => rfl
  | cons h _ ih =>
    obtain ⟨e1, e2, e3, e4⟩ := h
    rw [mapM_cons, mapM_cons, ih]
    simp only [TestCS.ppConstraint, TestCS.ppLc, h1, e1, e2, e3, e4]

/-- C63: values do not show.  Two systems whose variables have the same names and whose constraints have the same names and give every
variable the same coefficients, however the terms are ordered or split, print the same. -/
theorem C63_values (dbg : F → List Char) {s s' : TestCS F} (hi : s.inputs.map (·.2) = s'.inputs.map (·.2))
    (ha : s.aux.map (·.2) = s'.aux.map (·.2))
    (hk : Forall₂ (fun k k' : LC F × LC F × LC F × String => k.2.2.2 = k'.2.2.2 ∧
      ∀ v, ∀ l ∈ [(k.1, k'.1), (k.2.1, k'.2.1), (k.2.2.1, k'.2.2.1)],
        (l.1.terms.map fun t => if t.1 = v then t.2 else 0).sum = (l.2.terms.map fun t => if t.1 = v then t.2 else 0).sum)
      s.constraints s'.constraints) :
    s.prettyPrint dbg = s'.prettyPrint dbg := by
  refine TestCS.prettyPrint_congr dbg ?_ (hk.imp fun k k' h => ⟨h.1, ?_, ?_, ?_⟩)
  · intro v
    cases v with
    | input i => simpa [TestCS.varName] using congrArg (·[i]?) hi
    | aux i => simpa [TestCS.varName] using congrArg (·[i]?) ha
  · exact (procLc_eq_iff _ _).2 fun v => h.2 v (k.1, k'.1) (by simp)
  · exact (procLc_eq_iff _ _).2 fun v => h.2 v (k.2.1, k'.2.1) (by simp)
  · exact (procLc_eq_iff _ _).2 fun v => h.2 v (k.2.2.1, k'.2.2.1) (by simp)

theorem TestCS.WF.varName_iff {s : TestCS F} (h : s.WF) (v : Var) (n : String) :
    s.varName v = some n ↔ s.named.lookup n = some (.var v) := by
  cases v with
  | input i => rw [h.inp]; simp [TestCS.varName]
  | aux i => rw [h.aux]; simp [TestCS.varName]

theorem TestCS.WF.varName_congr {s s' : TestCS F} (h : s.WF) (h' : s'.WF) (hn : s.named = s'.named) (v : Var) :
    s.varName v = s'.varName v := by
  ext n
  rw [h.varName_iff, h'.varName_iff, hn]

theorem TestCS.WF.conNames {s s' : TestCS F} (h : s.WF) (h' : s'.WF) (hn : s.named = s'.named)
    (hc : (s.constraints.map fun k => (k.1, k.2.1, k.2.2.1)) = s'.constraints.map fun k => (k.1, k.2.1, k.2.2.1)) :
    s.constraints = s'.constraints := by
  apply List.ext_getElem?
  intro i
  have hi := congrArg (·[i]?) hc
  simp only [getElem?_map] at hi
  cases h1 : s.constraints[i]? with
  | none =>
    rw [h1] at hi
    cases h2 : s'.constraints[i]? with
    | none => rfl
    | some k => rw [h2] at hi; cases hi
  | some k =>
    obtain ⟨a, b, c, p⟩ := k
    have := (h.con i p).2 ⟨a, b, c, h1⟩
    rw [hn] at this
    obtain ⟨a', b', c', h2⟩ := (h'.con i p).1 this
    rw [h1, h2] at hi
    rw [h2]
    simp only [Option.map_some, Option.some.injEq, Prod.mk.injEq] at hi
    simp [hi]

/-- C63: editing values with `set` changes nothing in the printout. -/
theorem C63_set (dbg : F → List Char) {s s' : TestCS F} (hs : s.Reachable) (p : String) (x : F) (h : s.set p x = some s') :
    s'.prettyPrint dbg = s.prettyPrint dbg := by
  have hw := hs.wf
  obtain ⟨h1, h2⟩ := TestCS.set_spec hw p x
  by_cases hv : ∃ v, s.named.lookup p = some (.var v)
  · obtain ⟨v, hv⟩ := hv
    obtain ⟨s'', e, hw', -, hc, hn, -⟩ := h1 v hv
    cases h.symm.trans e
    refine TestCS.prettyPrint_congr dbg (fun v => hw'.varName_congr hw hn v) ?_
    rw [hc]
    exact forall₂_same.2 fun _ _ => ⟨rfl, rfl, rfl, rfl⟩
  · push Not at hv
    rw [h2 hv] at h; cases h

omit [PrimeField F] in
theorem Ev.Same.objsOf {t₁ t₂ : List (Ev F)} (h : Forall₂ Ev.Same t₁ t₂) (ns : List String) (k : ℕ) : objsOf ns k t₁ = objsOf ns k t₂ := by
  induction h generalizing ns k with
  | nil => rfl
  | @cons e₁ e₂ t₁ t₂ he _ ih =>
    rcases e₁ with ⟨_, _, _, _⟩ | _ | _ | _ <;> rcases e₂ with ⟨_, _, _, _⟩ | _ | _ | _ <;> simp_all [Ev.Same, Bellman.objsOf]

/-- C63: a circuit prints the same for every witness.  Two programs of the same shape (which every gadget has with itself for different
witnesses), run on the same system, leave systems that print the same. -/
theorem C63_witness (dbg : F → List Char) {R : α → β → Prop} {m₁ : Synth F α} {m₂ : Synth F β} (hR : SShape R m₁ m₂) {s s₁ s₂ : TestCS F}
    (hs : s.Reachable) {a : α} {b : β} (h₁ : m₁.run.run TestCS.impl s = some (.ok a, s₁)) (h₂ : m₂.run.run TestCS.impl s = some (.ok b, s₂)) :
    s₁.prettyPrint dbg = s₂.prettyPrint dbg := by
  obtain ⟨t₁, e₁, r₁⟩ := TestCS.run_recorded _ hs.wf h₁
  obtain ⟨t₂, e₂, r₂⟩ := TestCS.run_recorded _ hs.wf h₂
  have hsame := (hR.same_trace e₁.exec e₂.exec r₁.numbered r₂.numbered).1
  have hn : s₁.named = s₂.named := by rw [r₁.named, r₂.named, Ev.Same.objsOf hsame]
  have hc : s₁.constraints = s₂.constraints := r₁.wf.conNames r₂.wf hn (by rw [r₁.constraints, r₂.constraints, Ev.Same.consOf hsame])
  refine TestCS.prettyPrint_congr dbg (fun v => r₁.wf.varName_congr r₂.wf hn v) ?_
  rw [hc]
  exact forall₂_same.2 fun _ _ => ⟨rfl, rfl, rfl, rfl⟩

theorem TestCS.coeffNamed_eq (s : TestCS F) (l : LC F) (n : String) :
    s.coeffNamed l n = ((s.namedTerms (procLc l.terms)).map fun e => if e.1 = some n then e.2 else 0).sum := by
  have h := procLc_eval (fun v => if s.varName v = some n then 1 else 0) l.terms
  have e : ∀ ts : List (Var × F), LC.eval (fun v => if s.varName v = some n then 1 else 0) ⟨ts⟩ =
      (ts.map fun t => if s.varName t.1 = some n then t.2 else 0).sum := by
    intro ts
    unfold LC.eval
    congr 1
    refine map_congr_left fun t _ => ?_
    by_cases hh : s.varName t.1 = some n <;> simp [hh]
  rw [e, e] at h
  rw [TestCS.coeffNamed, ← h, TestCS.namedTerms, map_map]
  rfl

/-- C63: the printout can be read back.  If field elements print injectively and without spaces, backticks and line breaks, no variable's
name contains a backtick and no constraint's name an opening parenthesis, then two systems that print the same have the same number of
constraints, with the same names in the same order, and in each position of each constraint every name has the same coefficient. -/
theorem C63_faithful {dbg : F → List Char} (hinj : Function.Injective dbg) (hd : ∀ c, ' ' ∉ dbg c ∧ '`' ∉ dbg c ∧ '\n' ∉ dbg c)
    {s s' : TestCS F} (hs : ∀ u ∈ [s, s'], (∀ e ∈ u.inputs ++ u.aux, '`' ∉ e.2.toList) ∧ ∀ k ∈ u.constraints, '(' ∉ k.2.2.2.toList)
    {x : String} (h : s.prettyPrint dbg = some x) (h' : s'.prettyPrint dbg = some x) :
    Forall₂ (fun k k' : LC F × LC F × LC F × String => k.2.2.2 = k'.2.2.2 ∧ ∀ n, s.coeffNamed k.1 n = s'.coeffNamed k'.1 n ∧
      s.coeffNamed k.2.1 n = s'.coeffNamed k'.2.1 n ∧ s.coeffNamed k.2.2.1 n = s'.coeffNamed k'.2.2.1 n) s.constraints s'.constraints := by
  have hcv : ∀ u ∈ [s, s'], u.CleanVars := by
    intro u hu v n hv
    cases v with
    | input i =>
      simp only [TestCS.varName, Option.map_eq_some_iff] at hv
      obtain ⟨e, he, rfl⟩ := hv
      exact (hs u hu).1 e (mem_append_left _ (mem_of_getElem? he))
    | aux i =>
      simp only [TestCS.varName, Option.map_eq_some_iff] at hv
      obtain ⟨e, he, rfl⟩ := hv
      exact (hs u hu).1 e (mem_append_right _ (mem_of_getElem? he))
  refine (TestCS.prettyPrint_inj ⟨hinj, hd⟩ (hcv s (by simp)) (hcv s' (by simp)) (hs s (by simp)).2 (hs s' (by simp)).2 h h').imp ?_
  rintro k k' ⟨e1, e2, e3, e4⟩
  refine ⟨e1, fun n => ?_⟩
  simp only [TestCS.coeffNamed_eq, e2, e3, e4, and_self]

/-- C63: for systems a test can reach, with the same variable names, printing the same is the same as having constraints with the same
names and normal forms.  (`hash` compares the normal forms only, C40.) -/
theorem C63_identifies {dbg : F → List Char} (hinj : Function.Injective dbg) (hd : ∀ c, ' ' ∉ dbg c ∧ '`' ∉ dbg c ∧ '\n' ∉ dbg c)
    {s s' : TestCS F} (hr : s.Reachable) (hi : s.inputs.map (·.2) = s'.inputs.map (·.2)) (ha : s.aux.map (·.2) = s'.aux.map (·.2))
    (hs : ∀ u ∈ [s, s'], (∀ e ∈ u.inputs ++ u.aux, '`' ∉ e.2.toList) ∧ ∀ k ∈ u.constraints, '(' ∉ k.2.2.2.toList)
    (hp : (s.prettyPrint dbg).isSome ∧ (s'.prettyPrint dbg).isSome) :
    s.prettyPrint dbg = s'.prettyPrint dbg ↔
    Forall₂ (fun k k' : LC F × LC F × LC F × String => k.2.2.2 = k'.2.2.2 ∧
      ∀ v, ∀ l ∈ [(k.1, k'.1), (k.2.1, k'.2.1), (k.2.2.1, k'.2.2.1)],
        (l.1.terms.map fun t => if t.1 = v then t.2 else 0).sum = (l.2.terms.map fun t => if t.1 = v then t.2 else 0).sum)
      s.constraints s'.constraints := by
  refine ⟨fun h => ?_, C63_values dbg hi ha⟩
  obtain ⟨x, hx⟩ := Option.isSome_iff_exists.1 hp.1
  have hx' := h.symm.trans hx
  have hv : ∀ v, s.varName v = s'.varName v := by
    intro v
    cases v with
    | input i => simpa [TestCS.varName] using congrArg (·[i]?) hi
    | aux i => simpa [TestCS.varName] using congrArg (·[i]?) ha
  have huniq : ∀ v w n, s.varName v = some n → s.varName w = some n → v = w := by
    intro v w n h1 h2
    rw [hr.wf.varName_iff] at h1 h2
    simpa using h1.symm.trans h2
  have hsum : ∀ (u : TestCS F), (∀ v, s.varName v = u.varName v) → ∀ (l : LC F) (v : Var) (n : String), s.varName v = some n →
      (l.terms.map fun t => if t.1 = v then t.2 else 0).sum = u.coeffNamed l n := by
    intro u hu l v n hn
    unfold TestCS.coeffNamed
    congr 1
    refine map_congr_left fun t _ => ?_
    rw [← hu]
    by_cases e : t.1 = v
    · rw [if_pos e, if_pos (e ▸ hn)]
    · rw [if_neg e, if_neg fun h => e (huniq _ _ _ h hn)]
  have hlen : s.inputs.length = s'.inputs.length ∧ s.aux.length = s'.aux.length :=
    ⟨by simpa using congrArg length hi, by simpa using congrArg length ha⟩
  have t1 := (C63_total dbg s).1 hp.1
  have t2 := (C63_total dbg s').1 hp.2
  have hf := C63_faithful hinj hd hs hx hx'
  rw [forall₂_iff_get] at hf ⊢
  refine ⟨hf.1, fun i h1 h2 => ⟨(hf.2 i h1 h2).1, fun v l hl => ?_⟩⟩
  have hm1 : s.constraints.get ⟨i, h1⟩ ∈ s.constraints := get_mem ..
  have hm2 : s'.constraints.get ⟨i, h2⟩ ∈ s'.constraints := get_mem ..
  have hq := (hf.2 i h1 h2).2
  generalize s.constraints.get ⟨i, h1⟩ = k at *
  generalize s'.constraints.get ⟨i, h2⟩ = k' at *
  by_cases hin : v.InRange s.inputs.length s.aux.length
  · obtain ⟨n, hn⟩ := Option.isSome_iff_exists.1 ((s.varName_isSome v).2 hin)
    rw [hsum s (fun _ => rfl) _ v n hn, hsum s' hv _ v n hn]
    obtain ⟨q1, q2, q3⟩ := hq n
    simp only [mem_cons, not_mem_nil, or_false] at hl
    rcases hl with rfl | rfl | rfl
    exacts [q1, q2, q3]
  · have z1 : (l.1.terms.map fun t => if t.1 = v then t.2 else 0).sum = 0 := by
      by_contra hne
      refine hin (t1 k hm1 l.1 ?_ v hne)
      simp only [mem_cons, not_mem_nil, or_false] at hl
      rcases hl with rfl | rfl | rfl <;> simp
    have z2 : (l.2.terms.map fun t => if t.1 = v then t.2 else 0).sum = 0 := by
      by_contra hne
      refine hin ?_
      rw [hlen.1, hlen.2]
      refine t2 k' hm2 l.2 ?_ v hne
      simp only [mem_cons, not_mem_nil, or_false] at hl
      rcases hl with rfl | rfl | rfl <;> simp
    rw [z1, z2]

/-- C63: a coefficient other than 1 and -1 is marked as a power of two exactly if, as a number below the modulus, it is one. -/
theorem C63_power (dbg : F → List Char) (isFirst : Bool) (c : F) (h1 : c ≠ 1) (h2 : c ≠ -1) :
    (∀ i, val c = 2 ^ i → ppCoeff dbg isFirst c = (if isFirst then "" else " + ").toList ++ ("2^" ++ toString i ++ " . ").toList ++ dbg c ++ " . ".toList) ∧
    ((∀ i, val c ≠ 2 ^ i) → ppCoeff dbg isFirst c = (if isFirst then "" else " + ").toList ++ dbg c ++ " . ".toList) := by
  have hval : ∀ i < NUM_BITS F, ∀ x : F, (2 : F) ^ i = x ↔ val x = 2 ^ i := by
    intro i hi x
    have hlt : 2 ^ i < p F := by
      have hle : 2 ^ i ≤ p F := Nat.lt_size.1 (by rw [← NUM_BITS_eq (F := F)]; exact hi)
      refine lt_of_le_of_ne hle fun e => ?_
      have hp := prime (F := F)
      cases i with
      | zero => rw [← e] at hp; exact absurd hp (by norm_num)
      | succ i =>
        have : 2 ∣ p F := by rw [← e]; exact dvd_pow_self 2 (by omega)
        exact p_ne_two (F := F) ((Nat.prime_dvd_prime_iff_eq Nat.prime_two hp).1 this).symm
    constructor
    · intro e
      have : ((2 ^ i : ℕ) : F) = x := by push_cast; exact e
      rw [← this]
      exact val_cast_of_lt hlt
    · intro e
      rw [← cast_val x, e]; push_cast; rfl
  have hsize : ∀ i, val c = 2 ^ i → i < NUM_BITS F := by
    intro i e
    rw [NUM_BITS_eq]
    exact Nat.lt_size.2 (by rw [← e]; exact (val_lt c).le)
  have hpre : ∀ X : List Char, ppPower c = X → ppCoeff dbg isFirst c = (if isFirst then "" else " + ").toList ++ X ++ dbg c ++ " . ".toList := by
    intro X hX
    rw [ppCoeff_other _ h1 h2, hX]
    cases isFirst <;> simp
  constructor
  · intro i e
    refine hpre _ ?_
    have hi := hsize i e
    have : (powersOfTwo F).findIdx? (fun x => decide (x = c)) = some i := by
      rw [findIdx?_eq_some_iff_getElem]
      refine ⟨by simpa [powersOfTwo] using hi, by simpa [powersOfTwo] using (hval i hi c).2 e, fun j hj => ?_⟩
      simp only [powersOfTwo, getElem_map, getElem_range, decide_eq_true_eq]
      intro ej
      have := (hval j (hj.trans hi) c).1 ej
      rw [e] at this
      exact absurd (Nat.pow_right_injective le_rfl this) (by omega)
    unfold ppPower
    rw [this]
    simp
  · intro h
    rw [hpre [] ?_]
    · simp
    have : (powersOfTwo F).findIdx? (fun x => decide (x = c)) = none := by
      rw [findIdx?_eq_none_iff]
      intro x hx
      obtain ⟨i, hi, rfl⟩ := mem_map.1 hx
      simp only [decide_eq_false_iff_not]
      intro e
      exact h i ((hval i (mem_range.1 hi) c).1 e)
    unfold ppPower
    rw [this]

section Example

/-- A test circuit with all kinds of coefficients: `(2 x - y) * 0 = 3 z + x - x`. -/
private def printed : Synth DummyFr Unit := do
  let (x, _) ← Synth.alloc "x" (.ok 2)
  let (y, _) ← Synth.inNs "in" (Synth.alloc "y" (.ok 4))
  let (z, _) ← Synth.allocInput "z" (.ok 0)
  Synth.inNs "ns" (Synth.enforce "c" (fun l => l + x - y + x) id (fun l => l + ((3 : DummyFr), z) + x - x))

private def printedState : TestCS DummyFr := ((printed.run.run TestCS.impl .new).map (·.2)).getD .new

/-- A `Debug` that prints sixteen binary digits. -/
private def binary (x : DummyFr) : List Char := (List.range 16).reverse.map fun i => if (val x).testBit i then '1' else '0'

example : printedState.prettyPrint binary = some
    "\nns/c: (2^1 . 0000000000000010 . `x` - `in/y`) * (0) = (0000000000000011 . `z`)\n" := by decide +kernel

private theorem binary_injective : Function.Injective binary := by
  intro x y h
  apply val_injective
  apply Nat.eq_of_testBit_eq
  intro i
  have hx : val x < 2 ^ 16 := (val_lt x).trans (by decide)
  have hy : val y < 2 ^ 16 := (val_lt y).trans (by decide)
  by_cases hi : i < 16
  · have := map_inj_left.1 h i (by simpa using hi)
    cases h1 : (val x).testBit i <;> cases h2 : (val y).testBit i <;> simp [h1, h2] at this <;> rfl
  · rw [Nat.testBit_lt_two_pow (hx.trans_le (Nat.pow_le_pow_right (by decide) (by omega))),
      Nat.testBit_lt_two_pow (hy.trans_le (Nat.pow_le_pow_right (by decide) (by omega)))]

private theorem binary_clean (c : DummyFr) : ' ' ∉ binary c ∧ '`' ∉ binary c ∧ '\n' ∉ binary c := by
  have : ∀ a ∈ binary c, a = '1' ∨ a = '0' := by
    intro a ha
    obtain ⟨i, -, rfl⟩ := mem_map.1 ha
    split <;> simp
  refine ⟨fun h => ?_, fun h => ?_, fun h => ?_⟩ <;> have := this _ h <;> revert this <;> decide

/-- Whatever system with clean names prints this has exactly one constraint, `ns/c`, in whose first position `x` has the coefficient 2. -/
example (s : TestCS DummyFr) (hs : (∀ e ∈ s.inputs ++ s.aux, '`' ∉ e.2.toList) ∧ ∀ k ∈ s.constraints, '(' ∉ k.2.2.2.toList)
    (h : s.prettyPrint binary = some "\nns/c: (2^1 . 0000000000000010 . `x` - `in/y`) * (0) = (0000000000000011 . `z`)\n") :
    ∃ a b c, s.constraints = [(a, b, c, "ns/c")] ∧ s.coeffNamed a "x" = 2 ∧ s.coeffNamed a "in/y" = -1 ∧ s.coeffNamed c "z" = 3 := by
  have hf := C63_faithful binary_injective binary_clean (s := s) (s' := printedState) (by
    intro u hu
    simp only [mem_cons, not_mem_nil, or_false] at hu
    rcases hu with rfl | rfl
    · exact hs
    · decide +kernel) h (by decide +kernel)
  have hc : printedState.constraints.map (·.2.2.2) = ["ns/c"] := by decide +kernel
  have hx : ∀ k ∈ printedState.constraints, printedState.coeffNamed k.1 "x" = 2 ∧ printedState.coeffNamed k.1 "in/y" = -1 ∧
    printedState.coeffNamed k.2.2.1 "z" = 3 := by decide +kernel
  generalize printedState.constraints = l at hf hc hx
  generalize s.constraints = l' at hf ⊢
  cases hf with
  | nil => simp at hc
  | @cons k k' l l' hk hf =>
    cases hf with
    | cons _ _ => simp at hc
    | nil =>
      obtain ⟨a, b, c, n⟩ := k
      simp only [map_cons, map_nil, cons.injEq, and_true] at hc
      obtain ⟨x1, x2, x3⟩ := hx k' mem_cons_self
      refine ⟨a, b, c, ?_, ((hk.2 _).1).trans x1, ((hk.2 _).1).trans x2, ((hk.2 _).2.2).trans x3⟩
      have := hk.1
      rw [hc] at this
      simp at this
      rw [this]

/-- Whatever bit is allocated, its constraint prints as `1 - b` times `b`. -/
example (dbg : DummyFr → List Char) (b : Bool) : ∃ x s, (AllocatedBit.alloc (F := DummyFr) (some b)).run.run TestCS.impl .new = some (.ok x, s) ∧
    s.prettyPrint dbg = some "\nboolean constraint: (`ONE` - `boolean`) * (`boolean`) = (0)\n" := by
  have h0 : ∃ x s, (AllocatedBit.alloc (F := DummyFr) (some false)).run.run TestCS.impl .new = some (.ok x, s) := ⟨_, _, rfl⟩
  have hb : ∃ x s, (AllocatedBit.alloc (F := DummyFr) (some b)).run.run TestCS.impl .new = some (.ok x, s) := by
    cases b <;> exact ⟨_, _, rfl⟩
  obtain ⟨x, s, h⟩ := hb
  obtain ⟨x0, s0, h0⟩ := h0
  refine ⟨x, s, h, ?_⟩
  rw [C63_witness dbg (AllocatedBit.shape_alloc _ _) .new h h0]
  cases h0
  rfl

/-- A constraint that mentions an auxiliary variable before any exists cannot be printed. -/
example (dbg : DummyFr → List Char) : (⟨[], [], [(⟨[(.aux 0, 1)]⟩, ⟨[]⟩, ⟨[]⟩, "c")], [], []⟩ : TestCS DummyFr).prettyPrint dbg = none := by
  rw [← Option.not_isSome_iff_eq_none, C63_total]
  intro h
  have := h _ mem_cons_self ⟨[(.aux 0, 1)]⟩ (by simp) (.aux 0) (by simp)
  simp [Var.InRange] at this

end Example

end Bellman
