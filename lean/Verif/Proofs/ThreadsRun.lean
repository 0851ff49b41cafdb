import Verif.Proofs.Threads

/-!
# Threads and background computations: termination, and schedules that abort
-/

namespace Bellman

namespace Compute

variable {R α : Type}

/-! ## Termination -/

/-- Steps ahead of a program on its sequential path, each call of `compute` counted with all the steps of the computation. -/
def Own.weight : Own R α → List (Option R) → ℕ
  | .ret _, _ => 0
  | .compute none _, _ => 0
  | .compute (some r) k, l => 8 + weight (k l.length) (l ++ [some r])
  | .wait i k, l =>
    match l[i]? with
    | some (some r) => 1 + weight (k r) (l.set i none)
    | _ => 0

/-- Steps ahead of a thread. -/
def Thread.fuel (th : Thread R α) : ℕ := th.prog.weight (th.jobs.map Job.cell) + (th.jobs.map Job.fuel).sum

/-- Steps ahead of the process. -/
def Config.fuel (c : Config R α) : ℕ := (c.threads.map Thread.fuel).sum + (if c.aborted then 0 else 1)

theorem sum_set_add (l : List (Thread R α)) (i : ℕ) (j j' : Thread R α) (hj : l[i]? = some j) :
    ((l.set i j').map Thread.fuel).sum + j.fuel = (l.map Thread.fuel).sum + j'.fuel := by
  induction l generalizing i with
  | nil => simp at hj
  | cons x xs ih =>
    cases i with
    | zero =>
      simp only [List.getElem?_cons_zero, Option.some.injEq] at hj
      subst hj
      simp; omega
    | succ i =>
      have := ih i (by simpa using hj)
      simp only [List.set_cons_succ, List.map_cons, List.sum_cons]
      omega

theorem sum_set_job (l : List (Job R)) (i : ℕ) (j j' : Job R) (hj : l[i]? = some j) :
    ((l.set i j').map Job.fuel).sum + j.fuel = (l.map Job.fuel).sum + j'.fuel := by
  induction l generalizing i with
  | nil => simp at hj
  | cons x xs ih =>
    cases i with
    | zero =>
      simp only [List.getElem?_cons_zero, Option.some.injEq] at hj
      subst hj
      simp; omega
    | succ i =>
      have := ih i (by simpa using hj)
      simp only [List.set_cons_succ, List.map_cons, List.sum_cons]
      omega

/-- Every step brings the end nearer. -/
theorem Config.Step.fuel_lt {m : ℕ} {c c' : Config R α} (h : Config.Step m c c')
    (hall : ∀ (t : ℕ) (th : Thread R α), c.threads[t]? = some th → th.inPool = false ∧ ∃ a fin, th.Follows a fin) : c'.fuel < c.fuel := by
  have key : ∀ (t : ℕ) (th u : Thread R α), c.threads[t]? = some th → u.fuel < th.fuel →
      ((c.threads.set t u).map Thread.fuel).sum < (c.threads.map Thread.fuel).sum := by
    intro t th u ht hlt
    have := sum_set_add c.threads t th u ht
    omega
  cases h with
  | pool t th s ha ht hs hw =>
    obtain ⟨hlen, hf⟩ := hs.frame
    have hcell := map_cell_eq hlen hf hw
    have h1 := C28_terminates rfl hs
    have h2 := sum_set_add c.threads t th { th with jobs := s.jobs } ht
    unfold Config.fuel
    unfold State.fuel at h1
    unfold Thread.fuel at h2
    simp only [hcell, Bool.false_eq_true, if_false] at h1 h2 ⊢
    simp only [ha, Bool.false_eq_true, if_false]
    unfold Thread.fuel
    cases hsa : s.aborted
    · simp only [hsa, Bool.false_eq_true, if_false] at h1 ⊢
      omega
    · simp only [hsa, if_true] at h1 ⊢
      omega
  | compute t th f k ha ht hr hp =>
    obtain ⟨-, a, fin, hfol⟩ := hall t th ht
    obtain ⟨-, r, rfl⟩ := hfol.compute hp
    have := key t th { th with prog := k th.jobs.length, jobs := th.jobs ++ [Job.new (some r)] } ht (by
      unfold Thread.fuel
      rw [hp, Own.weight]
      simp [Job.cell, Job.new, Job.fuel]
      omega)
    unfold Config.fuel
    simp only
    omega
  | unwind t th j ha ht hj hp _ =>
    obtain ⟨-, a, fin, hfol⟩ := hall t th ht
    exact absurd hp (hfol.not_panicked hj)
  | recv t th i k j r ha ht hr hp hn hj hw hc =>
    obtain ⟨-, a, fin, hfol⟩ := hall t th ht
    have hcl : j.closure = some r := (hfol.ok j (List.mem_of_getElem? hj)).1 r hc
    have := key t th { th with prog := k r, jobs := th.jobs.set i { j with chan := none, wait := .got r } } ht (by
      unfold Thread.fuel
      rw [hp, Own.weight]
      have hcell : (th.jobs.map Job.cell)[i]? = some (some r) := by simp [hj, Job.cell, hw, hcl]
      rw [hcell]
      have h2 := sum_set_job th.jobs i j { j with chan := none, wait := .got r } hj
      have h3 : ({ j with chan := none, wait := .got r } : Job R).fuel + 1 = j.fuel := by simp [Job.fuel, hw]
      simp only [map_cell_set, Job.cell] at h2 ⊢
      omega)
    unfold Config.fuel
    simp only
    omega
  | refuse t th i k j ha ht hr hp hn hj hw =>
    obtain ⟨h, -⟩ := hall t th ht
    rw [hn] at h; cases h
  | drop t th b i j ha ht hp hj hr hw =>
    have := key t th { th with jobs := th.jobs.set i { j with wait := .dropped } } ht (by
      unfold Thread.fuel
      rw [hp, Own.weight]
      have h2 := sum_set_job th.jobs i j { j with wait := .dropped } hj
      have h3 : ({ j with wait := .dropped } : Job R).fuel + 1 = j.fuel := by simp [Job.fuel, hw]
      simp only [hp, Own.weight] at h2 ⊢
      omega)
    unfold Config.fuel
    simp only
    omega

/-! ## Schedules that abort -/

theorem Own.seq_none_stays {p : Own R α} {l fin : List (Option R)} {a : Option α} (h : p.seq l = (a, fin)) (i : ℕ)
    (hi : l[i]? = some none) : fin[i]? = some none := by
  induction p generalizing l with
  | ret b =>
    simp only [Own.seq] at h
    rw [← (Prod.mk.inj h).2]; exact hi
  | compute f k ih =>
    cases f with
    | none =>
      simp only [Own.seq] at h
      rw [← (Prod.mk.inj h).2]; exact hi
    | some r =>
      simp only [Own.seq] at h
      refine ih _ h ?_
      have hlt : i < l.length := by
        by_contra hn
        rw [List.getElem?_eq_none (by omega)] at hi; cases hi
      rw [List.getElem?_append_left hlt]; exact hi
  | wait q k ih =>
    rw [Own.seq] at h
    split at h
    · rename_i r hr
      refine ih r h ?_
      by_cases hq : q = i
      · subst hq
        rw [hi] at hr; cases hr
      · rw [List.getElem?_set_ne hq]; exact hi
    · rw [← (Prod.mk.inj h).2]; exact hi

/-- The schedule: computation `i` stays in the queue, every other one runs to its end as soon as it is submitted. -/
structure Parked (i : ℕ) (jobs : List (Job R)) : Prop where
  parked : ∀ j, jobs[i]? = some j → ∃ r, j = ⟨some r, .queued, none, .pending⟩
  others : ∀ q j, q ≠ i → jobs[q]? = some j → ∃ r, j = ⟨some r, .finished, some r, .pending⟩ ∨ j = ⟨some r, .finished, none, .got r⟩

theorem Parked.ready {i : ℕ} {jobs : List (Job R)} (h : Parked i jobs) : ∀ j ∈ jobs, j.phase.returned = true := by
  intro j hj
  obtain ⟨q, hq⟩ := List.mem_iff_getElem?.1 hj
  by_cases hqi : q = i
  · subst hqi
    obtain ⟨r, rfl⟩ := h.parked j hq
    rfl
  · obtain ⟨r, rfl | rfl⟩ := h.others q j hqi hq <;> rfl

private theorem set_last {β : Type} (l : List β) (x y : β) : (l ++ [x]).set l.length y = l ++ [y] := by
  induction l with
  | nil => rfl
  | cons a l ih => simp

private theorem get_last {β : Type} (l : List β) (x : β) : (l ++ [x])[l.length]? = some x := by simp

/-- One step of the pool on the last computation of thread `t`. -/
theorem Config.pool_last {m : ℕ} (ths : List (Thread R α)) (t : ℕ) (ht : t < ths.length) (th : Thread R α) (jobs : List (Job R))
    (n n' : ℕ) (j j' : Job R) (hw : j'.wait = j.wait)
    (hs : Compute.Step m ⟨n, jobs ++ [j], false⟩ ⟨n', (jobs ++ [j]).set jobs.length j', false⟩) :
    Config.Step m ⟨n, false, ths.set t { th with jobs := jobs ++ [j] }⟩ ⟨n', false, ths.set t { th with jobs := jobs ++ [j'] }⟩ := by
  have := Config.Step.pool (c := ⟨n, false, ths.set t { th with jobs := jobs ++ [j] }⟩) t { th with jobs := jobs ++ [j] } _ rfl
    (by simp [ht]) hs (by simp [set_last, hw])
  simpa [set_last] using this

theorem Config.abort_schedule {m : ℕ} (hm : 1 ≤ m) (ths : List (Thread R α)) (t : ℕ) (ht : t < ths.length) (i : ℕ) (p : Own R α) :
    ∀ (jobs : List (Job R)) (n : ℕ) (a : Option α) (fin : List (Option R)) (r : R), p.seq (jobs.map Job.cell) = (a, fin) → a ≠ none →
      fin[i]? = some (some r) → Parked i jobs → n ≤ 1 → (jobs.length ≤ i → n = 0) →
      ∃ c, Relation.ReflTransGen (Config.Step m) ⟨n, false, ths.set t ⟨false, p, jobs⟩⟩ c ∧ c.aborted = true := by
  induction p with
  | ret b =>
    intro jobs n a fin r hseq ha hfin hpk hn hn0
    simp only [Own.seq] at hseq
    rw [← (Prod.mk.inj hseq).2] at hfin
    cases hj : jobs[i]? with
    | none => simp [hj] at hfin
    | some j =>
      obtain ⟨v, rfl⟩ := hpk.parked j hj
      have hlt : i < jobs.length := by
        by_contra hq
        rw [List.getElem?_eq_none (by omega)] at hj; cases hj
      have hget : ∀ x : Job R, (jobs.set i x)[i]? = some x := fun x => by simp [hlt]
      have hset : ∀ x y : Job R, (jobs.set i x).set i y = jobs.set i y := fun x y => by simp
      have hwt : ∀ x y : Job R, x.wait = y.wait → (jobs.set i x).map Job.wait = (jobs.set i y).map Job.wait := fun x y h => by
        simp [List.map_set, h]
      have s1 : Config.Step m ⟨n, false, ths.set t ⟨false, .ret b, jobs⟩⟩
          ⟨n, false, ths.set t ⟨false, .ret b, jobs.set i ⟨some v, .queued, none, .dropped⟩⟩⟩ := by
        have := Config.Step.drop (maxCount := m) (c := ⟨n, false, ths.set t ⟨false, .ret b, jobs⟩⟩) t ⟨false, .ret b, jobs⟩ b i _ rfl (by simp [ht])
          rfl hj rfl rfl
        simpa using this
      have step : ∀ (x y : Job R), x.wait = y.wait → Compute.Step m ⟨n, jobs.set i x, false⟩ ⟨n, jobs.set i y, false⟩ →
          Config.Step m ⟨n, false, ths.set t ⟨false, .ret b, jobs.set i x⟩⟩ ⟨n, false, ths.set t ⟨false, .ret b, jobs.set i y⟩⟩ := by
        intro x y hxy hs
        have := Config.Step.pool (c := ⟨n, false, ths.set t ⟨false, .ret b, jobs.set i x⟩⟩) t ⟨false, .ret b, jobs.set i x⟩ _ rfl
          (by simp [ht]) hs (hwt _ _ hxy.symm)
        simpa using this
      have s2 := step ⟨some v, .queued, none, .dropped⟩ ⟨some v, .running true, none, .dropped⟩ rfl (by
        have := Step.pickUp (maxCount := m) (s := ⟨n, jobs.set i ⟨some v, .queued, none, .dropped⟩, false⟩) i _ (hget _) rfl
        simpa using this)
      have s3 := step ⟨some v, .running true, none, .dropped⟩ ⟨some v, .ran true v, none, .dropped⟩ rfl (by
        have := Step.eval (maxCount := m) (s := ⟨n, jobs.set i ⟨some v, .running true, none, .dropped⟩, false⟩) i _ true v (hget _) rfl rfl
        simpa using this)
      have s4 := Config.Step.pool (c := ⟨n, false, ths.set t ⟨false, .ret b, jobs.set i ⟨some v, .ran true v, none, .dropped⟩⟩⟩) t
        ⟨false, .ret b, jobs.set i ⟨some v, .ran true v, none, .dropped⟩⟩ _ rfl (by simp [ht])
        (Step.sendFail (maxCount := m) (s := ⟨n, jobs.set i ⟨some v, .ran true v, none, .dropped⟩, false⟩) i _ v (hget _) rfl rfl) rfl
      exact ⟨_, ((((Relation.ReflTransGen.refl.tail s1).tail s2).tail s3).tail s4), rfl⟩
  | compute f k ih =>
    intro jobs n a fin r hseq ha hfin hpk hn hn0
    cases f with
    | none => simp only [Own.seq] at hseq; exact absurd (Prod.mk.inj hseq).1.symm ha
    | some v =>
      simp only [Own.seq, List.length_map] at hseq
      have s1 : Config.Step m ⟨n, false, ths.set t ⟨false, .compute (some v) k, jobs⟩⟩
          ⟨n, false, ths.set t ⟨false, k jobs.length, jobs ++ [⟨some v, .called, none, .pending⟩]⟩⟩ := by
        have := Config.Step.compute (maxCount := m) (c := ⟨n, false, ths.set t ⟨false, .compute (some v) k, jobs⟩⟩) t
          ⟨false, .compute (some v) k, jobs⟩ (some v) k rfl (by simp [ht]) hpk.ready rfl
        simpa [Job.new] using this
      have pl := fun n' n'' j j' hw hs => Config.pool_last (m := m) ths t ht ⟨false, k jobs.length, []⟩ jobs n' n'' j j' hw hs
      have s2 := pl n (n + 1) ⟨some v, .called, none, .pending⟩ ⟨some v, .counted n, none, .pending⟩ rfl
        (Step.fetchAdd (maxCount := m) (s := ⟨n, jobs ++ [⟨some v, .called, none, .pending⟩], false⟩) jobs.length _ (get_last _ _) rfl)
      have s3 := pl (n + 1) (n + 1) ⟨some v, .counted n, none, .pending⟩ ⟨some v, .queued, none, .pending⟩ rfl
        (Step.spawn (maxCount := m) (s := ⟨n + 1, jobs ++ [⟨some v, .counted n, none, .pending⟩], false⟩) jobs.length n _ (get_last _ _) rfl
          (by omega))
      have hcell : ∀ ph c, (jobs ++ [⟨some v, ph, c, .pending⟩] : List (Job R)).map Job.cell = jobs.map Job.cell ++ [some v] := by
        intro ph c; simp [Job.cell]
      by_cases hi : jobs.length = i
      · obtain ⟨c, hc, hab⟩ := ih jobs.length (jobs ++ [⟨some v, .queued, none, .pending⟩]) (n + 1) a fin r (by rw [hcell]; exact hseq) ha hfin
          ⟨by
            intro j hj
            rw [← hi, get_last] at hj
            exact ⟨v, (Option.some.inj hj).symm⟩, by
            intro q j hq hj
            by_cases hql : q < jobs.length
            · rw [List.getElem?_append_left hql] at hj
              exact hpk.others q j hq hj
            · by_cases hqe : q = jobs.length
              · exact absurd (hqe.trans hi) hq
              · rw [List.getElem?_eq_none (by simp; omega)] at hj; cases hj⟩
          (by have := hn0 (by omega); omega) (by simp; omega)
        exact ⟨c, (((Relation.ReflTransGen.refl.tail s1).tail s2).tail s3).trans hc, hab⟩
      · have s4 := pl (n + 1) (n + 1) ⟨some v, .queued, none, .pending⟩ ⟨some v, .running true, none, .pending⟩ rfl
          (Step.pickUp (maxCount := m) (s := ⟨n + 1, jobs ++ [⟨some v, .queued, none, .pending⟩], false⟩) jobs.length _ (get_last _ _) rfl)
        have s5 := pl (n + 1) (n + 1) ⟨some v, .running true, none, .pending⟩ ⟨some v, .ran true v, none, .pending⟩ rfl
          (Step.eval (maxCount := m) (s := ⟨n + 1, jobs ++ [⟨some v, .running true, none, .pending⟩], false⟩) jobs.length _ true v (get_last _ _)
            rfl rfl)
        have s6 := pl (n + 1) (n + 1) ⟨some v, .ran true v, none, .pending⟩ ⟨some v, .sent true, some v, .pending⟩ rfl
          (Step.send (maxCount := m) (s := ⟨n + 1, jobs ++ [⟨some v, .ran true v, none, .pending⟩], false⟩) jobs.length _ true v (get_last _ _)
            rfl rfl rfl)
        have s7 := pl (n + 1) n ⟨some v, .sent true, some v, .pending⟩ ⟨some v, .finished, some v, .pending⟩ rfl
          (Step.fetchSub (maxCount := m) (s := ⟨n + 1, jobs ++ [⟨some v, .sent true, some v, .pending⟩], false⟩) jobs.length _ true (get_last _ _)
            rfl)
        obtain ⟨c, hc, hab⟩ := ih jobs.length (jobs ++ [⟨some v, .finished, some v, .pending⟩]) n a fin r (by rw [hcell]; exact hseq) ha hfin
          ⟨by
            intro j hj
            by_cases hql : i < jobs.length
            · rw [List.getElem?_append_left hql] at hj
              exact hpk.parked j hj
            · rw [List.getElem?_eq_none (by simp; omega)] at hj; exact absurd hj (by simp), by
            intro q j hq hj
            by_cases hql : q < jobs.length
            · rw [List.getElem?_append_left hql] at hj
              exact hpk.others q j hq hj
            · by_cases hqe : q = jobs.length
              · rw [hqe, get_last] at hj
                exact ⟨v, .inl (Option.some.inj hj).symm⟩
              · rw [List.getElem?_eq_none (by simp; omega)] at hj; cases hj⟩
          hn (by simp; intro h; exact hn0 (by omega))
        exact ⟨c, (((((((Relation.ReflTransGen.refl.tail s1).tail s2).tail s3).tail s4).tail s5).tail s6).tail s7).trans hc, hab⟩
  | wait q k ih =>
    intro jobs n a fin r hseq ha hfin hpk hn hn0
    rw [Own.seq] at hseq
    split at hseq
    · rename_i v hv
      have hqi : q ≠ i := by
        rintro rfl
        have hlt : q < (jobs.map Job.cell).length := by
          by_contra hq
          rw [List.getElem?_eq_none (by omega)] at hv; cases hv
        have := Own.seq_none_stays hseq q (by simp only [List.getElem?_set, if_true, hlt])
        rw [this] at hfin; cases hfin
      cases hj : jobs[q]? with
      | none => simp [hj] at hv
      | some j =>
        obtain ⟨v', rfl | rfl⟩ := hpk.others q j hqi hj
        · have hvv : v' = v := by simpa [hj, Job.cell] using hv
          subst hvv
          have s1 : Config.Step m ⟨n, false, ths.set t ⟨false, .wait q k, jobs⟩⟩
              ⟨n, false, ths.set t ⟨false, k v', jobs.set q ⟨some v', .finished, none, .got v'⟩⟩⟩ := by
            have := Config.Step.recv (maxCount := m) (c := ⟨n, false, ths.set t ⟨false, .wait q k, jobs⟩⟩) t
              ⟨false, .wait q k, jobs⟩ q k _ v' rfl (by simp [ht]) hpk.ready rfl rfl hj rfl rfl
            simpa using this
          obtain ⟨c, hc, hab⟩ := ih v' (jobs.set q ⟨some v', .finished, none, .got v'⟩) n a fin r
            (by rw [map_cell_set]; exact hseq) ha hfin
            ⟨by
              intro j hj'
              rw [List.getElem?_set_ne hqi] at hj'
              exact hpk.parked j hj', by
              intro q' j hq' hj'
              by_cases hqq : q = q'
              · subst hqq
                rw [List.getElem?_set] at hj'
                simp only [if_true] at hj'
                split at hj'
                · exact ⟨v', .inr (Option.some.inj hj').symm⟩
                · cases hj'
              · rw [List.getElem?_set_ne hqq] at hj'
                exact hpk.others q' j hq' hj'⟩
            hn (by simpa using hn0)
          exact ⟨c, (Relation.ReflTransGen.refl.tail s1).trans hc, hab⟩
        · simp [hj, Job.cell] at hv
    · exact absurd (Prod.mk.inj hseq).1.symm ha

/-! ## Inside the pool -/

/-- The results a program can end with before it waits for the first time. -/
inductive Own.Early : ℕ → Own R α → Option α → Prop where
  | ret (n : ℕ) (a : Option α) : Early n (.ret a) a
  | compute (n : ℕ) (f : Option R) (k : ℕ → Own R α) (a : Option α) : Early (n + 1) (k n) a → Early n (.compute f k) a

theorem Config.Step.early {m : ℕ} {c c' : Config R α} (h : Config.Step m c c') {t : ℕ} {p : Own R α}
    (hf : ∃ th, c.threads[t]? = some th ∧ th.inPool = true ∧ ∀ o, Own.Early th.jobs.length th.prog o → o = none ∨ Own.Early 0 p o) :
    ∃ th, c'.threads[t]? = some th ∧ th.inPool = true ∧ ∀ o, Own.Early th.jobs.length th.prog o → o = none ∨ Own.Early 0 p o := by
  obtain ⟨th, hth, hnp, hfol⟩ := hf
  have hset : ∀ (t' : ℕ) (th' : Thread R α) (u : Thread R α), c.threads[t']? = some th' →
      (t' = t → u.inPool = true ∧ ∀ o, Own.Early u.jobs.length u.prog o → o = none ∨ Own.Early 0 p o) →
      ∃ th, (c.threads.set t' u)[t]? = some th ∧ th.inPool = true ∧ ∀ o, Own.Early th.jobs.length th.prog o → o = none ∨ Own.Early 0 p o := by
    intro t' th' u ht' hu
    by_cases htt : t' = t
    · subst htt
      refine ⟨u, ?_, hu rfl⟩
      have hlt : t' < c.threads.length := by
        by_contra hn
        rw [List.getElem?_eq_none (by omega)] at ht'
        cases ht'
      simp [hlt]
    · exact ⟨th, by rw [List.getElem?_set_ne htt]; exact hth, hnp, hfol⟩
  cases h with
  | pool t' th' s _ ht' hs hw =>
    refine hset t' th' _ ht' fun e => ?_
    subst e; rw [hth] at ht'; cases ht'
    refine ⟨hnp, ?_⟩
    simp only
    rw [hs.frame.1]
    exact hfol
  | compute t' th' f k _ ht' hr hp =>
    refine hset t' th' _ ht' fun e => ?_
    subst e; rw [hth] at ht'; cases ht'
    refine ⟨hnp, fun o ho => hfol o ?_⟩
    rw [hp]
    exact .compute _ _ _ _ (by simpa using ho)
  | unwind t' th' j _ ht' hj hp _ =>
    refine hset t' th' _ ht' fun e => ?_
    subst e; rw [hth] at ht'; cases ht'
    exact ⟨hnp, fun o ho => by cases ho; exact .inl rfl⟩
  | recv t' th' i k j r _ ht' hr hp hn hj hw hc =>
    refine hset t' th' _ ht' fun e => ?_
    subst e; rw [hth] at ht'; cases ht'
    rw [hn] at hnp; cases hnp
  | refuse t' th' i k j _ ht' hr hp hn hj hw =>
    refine hset t' th' _ ht' fun e => ?_
    subst e; rw [hth] at ht'; cases ht'
    exact ⟨hnp, fun o ho => by cases ho; exact .inl rfl⟩
  | drop t' th' b i j _ ht' hp hj hr hw =>
    refine hset t' th' _ ht' fun e => ?_
    subst e; rw [hth] at ht'; cases ht'
    refine ⟨hnp, ?_⟩
    simp only [List.length_set]
    exact hfol

end Compute

end Bellman
