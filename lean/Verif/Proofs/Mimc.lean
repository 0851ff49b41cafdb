import Verif.Examples.Mimc
import Verif.Spec.Mimc
import Verif.Proofs.ScopeTrace
import Verif.Proofs.Prover
import Verif.Proofs.Proof
import Verif.Proofs.SameCircuit
import Verif.Spec.Groth16

/-!
# The MiMC circuit: its calls, what they mean, and that no coefficient cancels
-/

namespace Bellman.Mimc

open PrimeField

set_option linter.unusedSectionVars false

variable {F : Type} [PrimeField F]

/-- The variable that holds the result of round `i`. -/
def newVar (i k : ℕ) : Var := if i = ROUNDS - 1 then .input 1 else .aux (k + 1)

/-- The two constraints of a round. -/
def rowA (c : F) (xl : Var) : LC F := ⟨[(xl, 1), (.input 0, c)]⟩
def rowV (x : Var) : LC F := ⟨[(x, 1)]⟩
def rowC (new xr : Var) : LC F := ⟨[(new, 1), (xr, -1)]⟩

/-- The calls made by the loop; `v` are the values if there is a witness. -/
def loopTr : List F → ℕ → ℕ → Var → Var → Option (F × F) → List (Ev F)
  | [], _, _, _, _, _ => []
  | c :: cs, i, k, xl, xr, v =>
    .push s!"round {i}" :: .alloc false "tmp" (.aux k) (v.map fun v => (v.1 + c) * (v.1 + c)) ::
    .enforce "tmp = (xL + Ci)^2" (rowA c xl) (rowA c xl) (rowV (.aux k)) ::
    .alloc (decide (i = ROUNDS - 1)) (if i = ROUNDS - 1 then "image" else "new_xl") (newVar i k)
      (v.map fun v => (v.1 + c) * ((v.1 + c) * (v.1 + c)) + v.2) ::
    .enforce "new_xL = xR + (xL + Ci)^3" (rowV (.aux k)) (rowA c xl) (rowC (newVar i k) xr) :: .pop ::
    loopTr cs (i + 1) (k + 2) (newVar i k) xl (v.map fun v => ((v.1 + c) * ((v.1 + c) * (v.1 + c)) + v.2, v.1))

/-- The calls made by the circuit. -/
def demoTr (cs : List F) (v : Option (F × F)) : List (Ev F) :=
  .alloc false "preimage xl" (.aux 0) (v.map (·.1)) :: .alloc false "preimage xr" (.aux 1) (v.map (·.2)) ::
    loopTr cs 0 2 (.aux 0) (.aux 1) v

theorem blind_loop (cs : List F) (i k : ℕ) (xl xr : Var) :
    Blind (loop cs i ⟨xl, none, xr, none⟩).run (loopTr cs i k xl xr none) (some (.ok ())) := by
  induction cs generalizing i k xl xr with
  | nil => exact .ret _
  | cons c cs ih =>
    by_cases h : i = ROUNDS - 1
    · have := ih (i + 1) (k + 2) (.input 1) xl
      rw [loop, loopTr]
      unfold round newVar
      simp only [if_pos h, decide_eq_true h]
      exact .push (.allocSkip _ (.enforce (.allocSkip _ (.enforce (.pop this)))))
    · have := ih (i + 1) (k + 2) (.aux (k + 1)) xl
      rw [loop, loopTr]
      unfold round newVar
      simp only [if_neg h, decide_eq_false h]
      exact .push (.allocSkip _ (.enforce (.allocSkip _ (.enforce (.pop this)))))

theorem honest_loop (cs : List F) (i k : ℕ) (xl xr : Var) (a b : F) :
    Honest (loop cs i ⟨xl, some a, xr, some b⟩).run (loopTr cs i k xl xr (some (a, b))) (some (.ok ())) := by
  induction cs generalizing i k xl xr a b with
  | nil => exact .ret _
  | cons c cs ih =>
    by_cases h : i = ROUNDS - 1
    · have := ih (i + 1) (k + 2) (.input 1) xl ((a + c) * ((a + c) * (a + c)) + b) a
      rw [loop, loopTr]
      unfold round newVar
      simp only [if_pos h, decide_eq_true h]
      exact .push (.allocRun _ _ rfl (.enforce (.allocRun _ _ rfl (.enforce (.pop this)))))
    · have := ih (i + 1) (k + 2) (.aux (k + 1)) xl ((a + c) * ((a + c) * (a + c)) + b) a
      rw [loop, loopTr]
      unfold round newVar
      simp only [if_neg h, decide_eq_false h]
      exact .push (.allocRun _ _ rfl (.enforce (.allocRun _ _ rfl (.enforce (.pop this)))))

theorem blind_demo (cs : List F) (h : cs.length = ROUNDS) :
    Blind (Demo.mk none none cs).synthesize.run (demoTr cs none) (some (.ok ())) := by
  have := blind_loop cs 0 2 (.aux 0) (.aux 1)
  unfold Demo.synthesize
  rw [if_pos h]
  exact .allocSkip _ (.allocSkip _ this)

theorem honest_demo (cs : List F) (h : cs.length = ROUNDS) (a b : F) :
    Honest (Demo.mk (some a) (some b) cs).synthesize.run (demoTr cs (some (a, b))) (some (.ok ())) := by
  have := honest_loop cs 0 2 (.aux 0) (.aux 1) a b
  unfold Demo.synthesize
  rw [if_pos h]
  exact .allocRun _ _ rfl (.allocRun _ _ rfl this)

/-! ### Numbering -/

theorem newVar_last {i k : ℕ} (h : i = ROUNDS - 1) : newVar i k = .input 1 := if_pos h
theorem newVar_other {i k : ℕ} (h : i ≠ ROUNDS - 1) : newVar i k = .aux (k + 1) := if_neg h

/-- The last round is the one that allocates an input. -/
theorem loop_last {i : ℕ} {c : F} {cs : List F} (h : i + (c :: cs).length = ROUNDS) (h' : i = ROUNDS - 1) : cs = [] := by
  have : (c :: cs).length = cs.length + 1 := rfl
  have : cs.length = 0 := by unfold ROUNDS at *; omega
  exact List.length_eq_zero_iff.1 this

theorem loop_more {i : ℕ} {c : F} {cs : List F} (h : i + (c :: cs).length = ROUNDS) (h' : i ≠ ROUNDS - 1) :
    i + 1 + cs.length = ROUNDS ∧ cs ≠ [] := by
  have h1 : (c :: cs).length = cs.length + 1 := rfl
  refine ⟨by omega, ?_⟩
  rintro rfl
  unfold ROUNDS at *
  simp at h
  omega

theorem numbered_loop (cs : List F) (i k : ℕ) (xl xr : Var) (v : Option (F × F)) (h : i + cs.length = ROUNDS) :
    Numbered 1 k (loopTr cs i k xl xr v) := by
  induction cs generalizing i k xl xr v with
  | nil => trivial
  | cons c cs ih =>
    rw [loopTr]
    by_cases h' : i = ROUNDS - 1
    · rw [loop_last h h', newVar_last h', decide_eq_true h']
      exact ⟨rfl, rfl, trivial⟩
    · rw [newVar_other h', decide_eq_false h']
      exact ⟨rfl, rfl, ih _ _ _ _ _ (loop_more h h').1⟩

theorem counts_loop (cs : List F) (i k : ℕ) (xl xr : Var) (v : Option (F × F)) (h : i + cs.length = ROUNDS) (hne : cs ≠ []) :
    numIn (loopTr cs i k xl xr v) = 1 ∧ numAux (loopTr cs i k xl xr v) + 1 = 2 * cs.length ∧
      (consOf (loopTr cs i k xl xr v)).length = 2 * cs.length := by
  induction cs generalizing i k xl xr v with
  | nil => exact absurd rfl hne
  | cons c cs ih =>
    rw [loopTr]
    by_cases h' : i = ROUNDS - 1
    · rw [loop_last h h', newVar_last h', decide_eq_true h']
      exact ⟨rfl, rfl, rfl⟩
    · rw [newVar_other h', decide_eq_false h']
      obtain ⟨h1, h2⟩ := loop_more h h'
      obtain ⟨i1, i2, i3⟩ := ih (i + 1) (k + 2) (.aux (k + 1)) xl (v.map fun v => ((v.1 + c) * ((v.1 + c) * (v.1 + c)) + v.2, v.1)) h1 h2
      have hl : (c :: cs).length = cs.length + 1 := rfl
      simp only [numIn_push, numIn_aux, numIn_enforce, numIn_pop, numAux_push, numAux_aux, numAux_enforce, numAux_pop, consOf_push,
        consOf_alloc, consOf_enforce, consOf_pop, List.length_cons]
      exact ⟨i1, by omega, by omega⟩

theorem scoped_loop (cs : List F) (i k a b : ℕ) (v : Option (F × F)) (h : i + cs.length = ROUNDS) (ha : a < k) (hb : b < k) :
    Scoped 1 k (loopTr cs i k (.aux a) (.aux b) v) := by
  induction cs generalizing i k a b v with
  | nil => trivial
  | cons c cs ih =>
    rw [loopTr]
    by_cases h' : i = ROUNDS - 1
    · rw [loop_last h h', newVar_last h', decide_eq_true h']
      refine ⟨?_, ?_, trivial⟩
      · simp [rowA, rowV, Var.InRange]; omega
      · simp [rowA, rowV, rowC, Var.InRange]; omega
    · rw [newVar_other h', decide_eq_false h']
      refine ⟨?_, ?_, ih _ _ _ _ _ (loop_more h h').1 (by omega) (by omega)⟩
      · simp [rowA, rowV, Var.InRange]; omega
      · simp [rowA, rowV, rowC, Var.InRange]; omega

theorem numbered_demo (cs : List F) (h : cs.length = ROUNDS) (v : Option (F × F)) : Numbered 1 0 (demoTr cs v) :=
  ⟨rfl, rfl, numbered_loop cs 0 2 _ _ v (by omega)⟩

theorem scoped_demo (cs : List F) (h : cs.length = ROUNDS) (v : Option (F × F)) : Scoped 1 0 (demoTr cs v) :=
  scoped_loop cs 0 2 0 1 v (by omega) (by omega) (by omega)

theorem counts_demo (cs : List F) (h : cs.length = ROUNDS) (v : Option (F × F)) :
    numIn (demoTr cs v) = 1 ∧ numAux (demoTr cs v) = 645 ∧ (consOf (demoTr cs v)).length = 644 := by
  have hne : cs ≠ [] := by rintro rfl; simp [ROUNDS] at h
  obtain ⟨h1, h2, h3⟩ := counts_loop cs 0 2 (.aux 0) (.aux 1) v (by omega) hne
  rw [h] at h2 h3
  unfold ROUNDS at h2 h3
  simp only [demoTr, numIn_aux, numAux_aux, consOf_alloc]
  exact ⟨h1, by omega, by omega⟩

theorem keyTrace_demo (cs : List F) (h : cs.length = ROUNDS) : KeyTrace (Demo.mk none none cs).synthesize (demoTr cs none) :=
  ⟨blind_demo cs h, numbered_demo cs h _, scoped_demo cs h _⟩

theorem proverTrace_demo (cs : List F) (h : cs.length = ROUNDS) (a b : F) :
    ProverTrace (Demo.mk (some a) (some b) cs).synthesize (demoTr cs (some (a, b))) :=
  ⟨honest_demo cs h a b, numbered_demo cs h _⟩

/-! ### Meaning -/

variable {ρ : Var → F}

theorem sat_loop (cs : List F) (i k : ℕ) (xl xr : Var) (v : Option (F × F)) (h1 : ρ (.input 0) = 1) (h : i + cs.length = ROUNDS)
    (hne : cs ≠ []) (hs : Sat ρ (loopTr cs i k xl xr v)) : ρ (.input 1) = Spec.mimc cs (ρ xl) (ρ xr) := by
  induction cs generalizing i k xl xr v with
  | nil => exact absurd rfl hne
  | cons c cs ih =>
    rw [loopTr] at hs
    simp only [Sat_push, Sat_alloc, Sat_enforce, Sat_pop] at hs
    obtain ⟨s1, s2, s3⟩ := hs
    simp only [rowA, rowV, rowC, LC.eval, List.map_cons, List.map_nil, List.sum_cons, List.sum_nil, h1] at s1 s2
    have e : ρ (newVar i k) = ρ xr + (ρ xl + c) ^ 3 := by linear_combination -s2 - (ρ xl + c) * s1
    by_cases h' : i = ROUNDS - 1
    · rw [newVar_last h'] at e
      rw [loop_last h h', e]
      rfl
    · obtain ⟨l1, l2⟩ := loop_more h h'
      rw [ih _ _ _ _ _ l1 l2 s3, e]
      rfl

theorem agrees_loop (cs : List F) (i k : ℕ) (xl xr : Var) (h1 : ρ (.input 0) = 1)
    (ha : Agrees ρ (loopTr cs i k xl xr (some (ρ xl, ρ xr)))) : Sat ρ (loopTr cs i k xl xr (some (ρ xl, ρ xr))) := by
  induction cs generalizing i k xl xr with
  | nil => exact Sat_nil _
  | cons c cs ih =>
    rw [loopTr] at ha ⊢
    have e1 : ρ (.aux k) = (ρ xl + c) * (ρ xl + c) := ha false "tmp" _ _ (by simp)
    have e2 : ρ (newVar i k) = (ρ xl + c) * ((ρ xl + c) * (ρ xl + c)) + ρ xr :=
      ha (decide (i = ROUNDS - 1)) (if i = ROUNDS - 1 then "image" else "new_xl") _ _ (by simp)
    simp only [Option.map_some] at ha ⊢
    rw [← e2] at ha ⊢
    simp only [Sat_push, Sat_alloc, Sat_enforce, Sat_pop]
    refine ⟨?_, ?_, ih _ _ _ _ fun i n x v hm => ha i n x v ?_⟩
    · simp only [rowA, rowV, LC.eval, List.map_cons, List.map_nil, List.sum_cons, List.sum_nil, h1, e1]
      ring
    · simp only [rowA, rowV, rowC, LC.eval, List.map_cons, List.map_nil, List.sum_cons, List.sum_nil, h1, e1, e2]
      ring
    · exact List.mem_cons_of_mem _ (List.mem_cons_of_mem _ (List.mem_cons_of_mem _ (List.mem_cons_of_mem _ (List.mem_cons_of_mem _
        (List.mem_cons_of_mem _ hm)))))

theorem sat_demo (cs : List F) (h : cs.length = ROUNDS) (v : Option (F × F)) (h1 : ρ (.input 0) = 1) (hs : Sat ρ (demoTr cs v)) :
    ρ (.input 1) = Spec.mimc cs (ρ (.aux 0)) (ρ (.aux 1)) := by
  have hne : cs ≠ [] := by rintro rfl; simp [ROUNDS] at h
  simp only [demoTr, Sat_alloc] at hs
  exact sat_loop cs 0 2 _ _ v h1 (by omega) hne hs

theorem agrees_demo (cs : List F) (a b : F) (h1 : ρ (.input 0) = 1) (ha : Agrees ρ (demoTr cs (some (a, b)))) :
    Sat ρ (demoTr cs (some (a, b))) ∧ ρ (.aux 0) = a ∧ ρ (.aux 1) = b := by
  have e0 : ρ (.aux 0) = a := ha false "preimage xl" _ _ (by simp [demoTr])
  have e1 : ρ (.aux 1) = b := ha false "preimage xr" _ _ (by simp [demoTr])
  refine ⟨?_, e0, e1⟩
  simp only [demoTr, Sat_alloc]
  rw [← e0, ← e1]
  refine agrees_loop cs 0 2 _ _ h1 fun i n x v hm => ha i n x v ?_
  rw [e0, e1] at hm
  exact List.mem_cons_of_mem _ (List.mem_cons_of_mem _ hm)

theorem inVals_loop (cs : List F) (i k : ℕ) (xl xr : Var) (a b : F) (h : i + cs.length = ROUNDS) (hne : cs ≠ []) :
    inVals (loopTr cs i k xl xr (some (a, b))) = [Spec.mimc cs a b] := by
  induction cs generalizing i k xl xr a b with
  | nil => exact absurd rfl hne
  | cons c cs ih =>
    have e : (a + c) * ((a + c) * (a + c)) + b = b + (a + c) ^ 3 := by ring
    rw [loopTr]
    by_cases h' : i = ROUNDS - 1
    · rw [loop_last h h', decide_eq_true h']
      simp only [Option.map_some, e]
      rfl
    · obtain ⟨l1, l2⟩ := loop_more h h'
      rw [decide_eq_false h']
      simp only [inVals_push, inVals_aux, inVals_enforce, inVals_pop, Option.map_some]
      rw [ih _ _ _ _ _ _ l1 l2, e]
      rfl

theorem inVals_demo (cs : List F) (h : cs.length = ROUNDS) (a b : F) : inVals (demoTr cs (some (a, b))) = [Spec.mimc cs a b] := by
  have hne : cs ≠ [] := by rintro rfl; simp [ROUNDS] at h
  exact inVals_loop cs 0 2 _ _ a b (by omega) hne

/-! ### Every variable is constrained and nothing cancels -/

theorem coeffOf_rowA (c : F) (j : ℕ) : (rowA c (.aux j)).coeffOf (.aux j) = 1 := by simp [rowA, LC.coeffOf]

/-- The variables of a loop are constrained in it, those allocated and the two given. -/
theorem constrained_loop (cs : List F) (i k a b : ℕ) (v : Option (F × F)) (h : i + cs.length = ROUNDS) (ha : a < k) (hb : b < k) (hne : cs ≠ [])
    (j : ℕ) (hj : j = a ∨ j = b ∨ (k ≤ j ∧ j < k + numAux (loopTr cs i k (.aux a) (.aux b) v))) :
    ∃ r ∈ consOf (loopTr cs i k (.aux a) (.aux b) v), r.1.coeffOf (.aux j) ≠ 0 ∨ r.2.1.coeffOf (.aux j) ≠ 0 ∨ r.2.2.coeffOf (.aux j) ≠ 0 := by
  induction cs generalizing i k a b v with
  | nil => exact absurd rfl hne
  | cons c cs ih =>
    rw [loopTr] at hj ⊢
    simp only [consOf_push, consOf_alloc, consOf_enforce, consOf_pop]
    rcases hj with rfl | rfl | hj
    · exact ⟨_, List.mem_cons_self, .inl (by rw [coeffOf_rowA]; exact one_ne_zero)⟩
    · refine ⟨_, List.mem_cons_of_mem _ List.mem_cons_self, .inr (.inr ?_)⟩
      have : newVar i k ≠ .aux j := by
        unfold newVar; split
        · simp
        · simp; omega
      simp [rowC, LC.coeffOf, this]
    · by_cases h' : i = ROUNDS - 1
      · rw [loop_last h h', decide_eq_true h'] at hj
        have : j = k := by
          simp only [numAux_push, numAux_aux, numAux_enforce, numAux_input, numAux_pop, loopTr, numAux_nil] at hj
          omega
        subst this
        refine ⟨_, List.mem_cons_of_mem _ List.mem_cons_self, .inl ?_⟩
        simp [rowV, LC.coeffOf]
      · obtain ⟨l1, l2⟩ := loop_more h h'
        rw [newVar_other h', decide_eq_false h'] at *
        simp only [numAux_push, numAux_aux, numAux_enforce, numAux_pop] at hj
        by_cases h3 : j = k
        · subst h3
          refine ⟨_, List.mem_cons_of_mem _ List.mem_cons_self, .inl ?_⟩
          simp [rowV, LC.coeffOf]
        · obtain ⟨r, hr, hq⟩ := ih (i + 1) (k + 2) (k + 1) a (v.map fun v => ((v.1 + c) * ((v.1 + c) * (v.1 + c)) + v.2, v.1)) l1 (by omega)
            (by omega) l2 (by omega)
          exact ⟨r, List.mem_cons_of_mem _ (List.mem_cons_of_mem _ hr), hq⟩

theorem constrained_demo (cs : List F) (h : cs.length = ROUNDS) (v : Option (F × F)) (j : ℕ) (hj : j < numAux (demoTr cs v)) :
    ∃ r ∈ consOf (demoTr cs v), r.1.coeffOf (.aux j) ≠ 0 ∨ r.2.1.coeffOf (.aux j) ≠ 0 ∨ r.2.2.coeffOf (.aux j) ≠ 0 := by
  have hne : cs ≠ [] := by rintro rfl; simp [ROUNDS] at h
  simp only [demoTr, numAux_aux] at hj
  exact constrained_loop cs 0 2 0 1 v (by omega) (by omega) (by omega) hne j (by omega)

/-- The `a` and `b` parts mention each variable once. -/
theorem once_loop (cs : List F) (i k a b : ℕ) (v : Option (F × F)) (h : i + cs.length = ROUNDS) :
    ∀ r ∈ consOf (loopTr cs i k (.aux a) (.aux b) v), (r.1.terms.map (·.1)).Nodup ∧ (r.2.1.terms.map (·.1)).Nodup := by
  induction cs generalizing i k a b v with
  | nil => intro r hr; cases hr
  | cons c cs ih =>
    rw [loopTr]
    simp only [consOf_push, consOf_alloc, consOf_enforce, consOf_pop, List.forall_mem_cons]
    refine ⟨by simp [rowA], by simp [rowA, rowV], ?_⟩
    by_cases h' : i = ROUNDS - 1
    · rw [loop_last h h']
      intro r hr; cases hr
    · rw [newVar_other h']
      exact ih _ _ _ _ _ (loop_more h h').1

theorem coeffOf_once {l : LC F} (h : (l.terms.map (·.1)).Nodup) {x : Var} {c : F} (hm : (x, c) ∈ l.terms) : l.coeffOf x = c := by
  obtain ⟨ts⟩ := l
  simp only at h hm
  unfold LC.coeffOf
  simp only
  induction ts with
  | nil => cases hm
  | cons t ts ih =>
    rw [List.map_cons, List.nodup_cons] at h
    rw [List.map_cons, List.sum_cons]
    rcases List.mem_cons.1 hm with rfl | hm
    · rw [if_pos rfl, List.sum_eq_zero, add_zero]
      intro y hy
      obtain ⟨u, hu, rfl⟩ := List.mem_map.1 hy
      refine if_neg ?_
      rintro rfl
      exact h.1 (List.mem_map.2 ⟨u, hu, rfl⟩)
    · rw [if_neg, zero_add, ih h.2 hm]
      rintro rfl
      exact h.1 (List.mem_map.2 ⟨_, hm, rfl⟩)

/-- If every constraint writes each variable at most once in its `a` and in its `b` part then nothing cancels. -/
theorem noCancel_of_once {t : List (Ev F)} (h : ∀ r ∈ consOf t, (r.1.terms.map (·.1)).Nodup ∧ (r.2.1.terms.map (·.1)).Nodup) :
    (Qap.ofTrace t).NoCancel := by
  have h' : ∀ r ∈ (Qap.ofTrace t).rows, (r.1.terms.map (·.1)).Nodup ∧ (r.2.1.terms.map (·.1)).Nodup := by
    intro r hr
    rw [ofTrace_rows] at hr
    rcases List.mem_append.1 hr with hr | hr
    · exact h r hr
    · obtain ⟨j, _, rfl⟩ := List.mem_map.1 hr
      simp
  refine fun x _ => ⟨?_, ?_⟩
  · rintro ⟨r, hr, c, hc, hm⟩
    exact ⟨r, hr, by rw [coeffOf_once (h' r hr).1 hm]; exact hc⟩
  · rintro ⟨r, hr, c, hc, hm⟩
    exact ⟨r, hr, by rw [coeffOf_once (h' r hr).2 hm]; exact hc⟩

theorem noCancel_demo (cs : List F) (h : cs.length = ROUNDS) (v : Option (F × F)) : (Qap.ofTrace (demoTr cs v)).NoCancel :=
  noCancel_of_once (once_loop cs 0 2 0 1 v (by omega))

/-! ### Shape -/

/-- The values known in a state. -/
def State.of (xl xr : Var) (v : Option (F × F)) : State F := ⟨xl, v.map (·.1), xr, v.map (·.2)⟩

theorem shape_round (i : ℕ) (c : F) (xl xr : Var) (v v' : Option (F × F)) :
    SShape (fun s s' : State F => ∃ x u u', s = State.of x xl u ∧ s' = State.of x xl u') (round i c (State.of xl xr v)) (round i c (State.of xl xr v')) := by
  have hv : ∀ v : Option (F × F), newXlValue c (State.of xl xr v) ((State.of xl xr v).xlValue.map fun e => (e + c) * (e + c)) =
      pure (v.map fun v => (v.1 + c) * ((v.1 + c) * (v.1 + c)) + v.2) := by
    intro v
    cases v <;> rfl
  refine SShape.inNs _ ?_
  refine SShape.bind (SShape.alloc _) fun t t' ht => ?_
  refine SShape.bind (SShape.enforce _ rfl rfl (by rw [ht])) fun _ _ _ => ?_
  rw [hv, hv, pure_bind, pure_bind]
  have tail : ∀ n n' : Var × Option F, n.1 = n'.1 →
      SShape (fun s s' : State F => ∃ x u u', s = State.of x xl u ∧ s' = State.of x xl u')
        (do Synth.enforce "new_xL = xR + (xL + Ci)^3" (fun lc => lc + t.1) (fun lc => lc + xl + (c, Var.one)) (fun lc => lc + n.1 - xr)
            pure (⟨n.1, v.map fun v => (v.1 + c) * ((v.1 + c) * (v.1 + c)) + v.2, xl, v.map (·.1)⟩ : State F) : Synth F (State F))
        (do Synth.enforce "new_xL = xR + (xL + Ci)^3" (fun lc => lc + t'.1) (fun lc => lc + xl + (c, Var.one)) (fun lc => lc + n'.1 - xr)
            pure (⟨n'.1, v'.map fun v => (v.1 + c) * ((v.1 + c) * (v.1 + c)) + v.2, xl, v'.map (·.1)⟩ : State F) : Synth F (State F)) := by
    intro n n' hn
    refine SShape.bind (SShape.enforce _ (by rw [ht]) rfl (by rw [hn])) fun _ _ _ => ?_
    refine SShape.pure ⟨n.1, v.map fun v => ((v.1 + c) * ((v.1 + c) * (v.1 + c)) + v.2, v.1),
      v'.map fun v => ((v.1 + c) * ((v.1 + c) * (v.1 + c)) + v.2, v.1), ?_, ?_⟩
    · cases v <;> rfl
    · rw [hn]; cases v' <;> rfl
  by_cases h : i = ROUNDS - 1
  · simp only [if_pos h]
    exact SShape.bind (SShape.allocInput _) tail
  · simp only [if_neg h]
    exact SShape.bind (SShape.alloc _) tail

theorem shape_loop (cs : List F) (i : ℕ) (xl xr : Var) (v v' : Option (F × F)) :
    SShape (fun _ _ : Unit => True) (loop cs i (State.of xl xr v)) (loop cs i (State.of xl xr v')) := by
  induction cs generalizing i xl xr v v' with
  | nil => exact SShape.pure trivial
  | cons c cs ih =>
    refine SShape.bind (shape_round i c xl xr v v') ?_
    rintro s s' ⟨x, u, u', rfl, rfl⟩
    exact ih _ _ _ _ _

theorem shape_demo (cs : List F) (v v' : Option (F × F)) :
    SShape (fun _ _ : Unit => True) (Demo.mk (v.map (·.1)) (v.map (·.2)) cs).synthesize (Demo.mk (v'.map (·.1)) (v'.map (·.2)) cs).synthesize := by
  unfold Demo.synthesize
  dsimp only
  split
  · refine SShape.bind (SShape.alloc _) fun x x' hx => ?_
    refine SShape.bind (SShape.alloc _) fun y y' hy => ?_
    rw [hx, hy]
    exact shape_loop cs 0 x'.1 y'.1 v v'
  · exact SShape.panic

/-- The circuit without a preimage has the shape of the circuit with any preimage. -/
theorem shape_key (cs : List F) (a b : F) :
    SShape (fun _ _ : Unit => True) (Demo.mk none none cs).synthesize (Demo.mk (some a) (some b) cs).synthesize :=
  shape_demo cs none (some (a, b))

/-! ### The witness is complete -/

theorem witnessOk_loop (cs : List F) (i : ℕ) (xl xr : Var) (a b : F) : WitnessOk (loop cs i ⟨xl, some a, xr, some b⟩).run := by
  induction cs generalizing i xl xr a b with
  | nil => trivial
  | cons c cs ih =>
    rw [loop]
    unfold round
    by_cases h : i = ROUNDS - 1
    · simp only [if_pos h]
      exact ⟨_, rfl, fun x => ⟨_, rfl, fun y => ih _ _ _ _ _⟩⟩
    · simp only [if_neg h]
      exact ⟨_, rfl, fun x => ⟨_, rfl, fun y => ih _ _ _ _ _⟩⟩

theorem witnessOk_demo (cs : List F) (a b : F) : WitnessOk (Demo.mk (some a) (some b) cs).synthesize.run := by
  unfold Demo.synthesize
  dsimp only
  split
  · exact ⟨_, rfl, fun x => ⟨_, rfl, fun y => witnessOk_loop _ _ _ _ _ _⟩⟩
  · trivial

end Bellman.Mimc
