import Verif.DomainOps
import Verif.Proofs.Domain
import Verif.Proofs.Quotient
import Verif.Props.Domain

/-!
# C78: how many operations the transforms take
-/

namespace Bellman

open PrimeField EvaluationDomain

set_option linter.unusedSectionVars false

instance : AddCommMonoid FftOps where
  add_assoc a b c := by ext <;> exact Nat.add_assoc _ _ _
  zero_add a := by ext <;> exact Nat.zero_add _
  add_zero a := by ext <;> exact Nat.add_zero _
  add_comm a b := by ext <;> exact Nat.add_comm _ _
  nsmul := nsmulRec

namespace FftOps

@[simp] theorem add_muls (a b : FftOps) : (a + b).muls = a.muls + b.muls := rfl
@[simp] theorem add_adds (a b : FftOps) : (a + b).adds = a.adds + b.adds := rfl
@[simp] theorem add_scalarMuls (a b : FftOps) : (a + b).scalarMuls = a.scalarMuls + b.scalarMuls := rfl
@[simp] theorem add_pows (a b : FftOps) : (a + b).pows = a.pows + b.pows := rfl
@[simp] theorem add_inverts (a b : FftOps) : (a + b).inverts = a.inverts + b.inverts := rfl
@[simp] theorem zero_muls : (0 : FftOps).muls = 0 := rfl
@[simp] theorem zero_adds : (0 : FftOps).adds = 0 := rfl
@[simp] theorem zero_scalarMuls : (0 : FftOps).scalarMuls = 0 := rfl
@[simp] theorem zero_pows : (0 : FftOps).pows = 0 := rfl
@[simp] theorem zero_inverts : (0 : FftOps).inverts = 0 := rfl

theorem smul_eq (k : ℕ) (a : FftOps) : k • a = ⟨k * a.muls, k * a.adds, k * a.scalarMuls, k * a.pows, k * a.inverts⟩ := by
  induction k with
  | zero => rw [zero_smul]; ext <;> simp
  | succ k ih => rw [succ_nsmul, ih]; ext <;> simp <;> ring

@[simp] theorem smul_muls (k : ℕ) (a : FftOps) : (k • a).muls = k * a.muls := by rw [smul_eq]
@[simp] theorem smul_adds (k : ℕ) (a : FftOps) : (k • a).adds = k * a.adds := by rw [smul_eq]
@[simp] theorem smul_scalarMuls (k : ℕ) (a : FftOps) : (k • a).scalarMuls = k * a.scalarMuls := by rw [smul_eq]
@[simp] theorem smul_pows (k : ℕ) (a : FftOps) : (k • a).pows = k * a.pows := by rw [smul_eq]
@[simp] theorem smul_inverts (k : ℕ) (a : FftOps) : (k • a).inverts = k * a.inverts := by rw [smul_eq]

theorem total_eq (l : List FftOps) : total l = l.sum := by
  induction l with
  | nil => rfl
  | cons a l ih => show a + total l = _; rw [ih, List.sum_cons]

end FftOps

/-- The counted computation has the result of the other and takes `c` operations if it succeeds. -/
def Costs {α : Type} (x : FftC α) (y : Option α) (c : FftOps) : Prop := ∀ o, x.run o = y.map fun r => (r, o + c)

namespace Costs

variable {α β σ : Type}

theorem pure (a : α) : Costs (Pure.pure a) (some a) 0 := fun o => by
  rw [add_zero]; rfl

theorem lift (y : Option α) : Costs (y : FftC α) y 0 := fun o => by
  cases y with
  | none => rfl
  | some a => simp

theorem tick (c : FftOps) : Costs (Bellman.tick c) (some ()) c := fun _ => rfl

theorem bind {x : FftC α} {y : Option α} {c : FftOps} {f : α → FftC β} {g : α → Option β} {d : FftOps} (h : Costs x y c)
    (h' : ∀ a, y = some a → Costs (f a) (g a) d) : Costs (x >>= f) (y.bind g) (c + d) := fun o => by
  rw [StateT.run_bind, h o]
  cases y with
  | none => rfl
  | some a =>
    show (f a).run (o + c) = _
    rw [h' a rfl, add_assoc]
    rfl

theorem tick_bind {c : FftOps} {f : Unit → FftC β} {y : Option β} {d : FftOps} (h : Costs (f ()) y d) :
    Costs (Bellman.tick c >>= f) y (c + d) := (tick c).bind (g := fun _ => y) fun _ _ => h

theorem congr {x : FftC α} {y y' : Option α} {c c' : FftOps} (h : Costs x y c) (hy : y = y') (hc : c = c') : Costs x y' c' := hy ▸ hc ▸ h

theorem of_none {x : FftC α} {y : Option α} {c c' : FftOps} (h : Costs x y c) (hy : y = none) : Costs x y c' := fun o => by
  rw [h o, hy]; rfl

theorem foldlM {l : List β} {f : σ → β → FftC σ} {g : σ → β → Option σ} {c : FftOps} (h : ∀ s, ∀ a ∈ l, Costs (f s a) (g s a) c) (s : σ) :
    Costs (l.foldlM f s) (l.foldlM g s) (l.length • c) := by
  induction l generalizing s with
  | nil => rw [List.length_nil, zero_smul]; exact pure s
  | cons a l ih =>
    rw [List.foldlM_cons, List.foldlM_cons, List.length_cons, succ_nsmul, add_comm]
    exact (h s a List.mem_cons_self).bind fun s' _ => ih (fun s a ha => h s a (List.mem_cons_of_mem _ ha)) s'

end Costs

section Fft

variable {F T : Type} [PrimeField F] [AddCommGroup T] [Module F T]

theorem butterflyC_costs (m k j : ℕ) (w_m : F) (s : List T × F) :
    Costs (butterflyC m k j w_m s) (butterfly m k j w_m s) ⟨1, 2, 1, 0, 0⟩ := by
  unfold butterflyC butterfly
  refine Costs.congr ((Costs.lift _).bind fun t _ => Costs.tick_bind ((Costs.lift _).bind fun tmp _ => Costs.tick_bind
    ((Costs.lift _).bind fun x _ => Costs.tick_bind (Costs.tick_bind (Costs.pure _))))) rfl ?_
  rfl

theorem butterfliesC_costs (m k : ℕ) (w_m : F) (a : List T) :
    Costs (butterfliesC m k w_m a) (butterflies m k w_m a) (m • ⟨1, 2, 1, 0, 0⟩) := by
  unfold butterfliesC butterflies
  have := Costs.foldlM (l := List.range m) (f := fun s j => butterflyC m k j w_m s) (g := fun s j => butterfly m k j w_m s)
    (fun s j _ => butterflyC_costs m k j w_m s) ((a, (1 : F)) : List T × F)
  rw [List.length_range] at this
  refine Costs.congr (this.bind fun r _ => Costs.pure r.1) rfl (add_zero _)

theorem blockLoopC_costs (n m : ℕ) (hm : 0 < m) (w_m : F) (b : ℕ) : ∀ (k : ℕ), n = k + 2 * m * b → ∀ a : List T,
    Costs (blockLoopC n m w_m k a) (blockLoop n m w_m k a) ((b * m) • ⟨1, 2, 1, 0, 0⟩) := by
  induction b with
  | zero =>
    intro k hk a
    rw [blockLoopC, blockLoop, if_neg (by omega), if_neg (by omega), Nat.zero_mul, zero_smul]
    exact Costs.pure a
  | succ b ih =>
    intro k hk a
    have hlt : k < n := by rw [hk]; have : 0 < 2 * m * (b + 1) := by positivity
                           omega
    rw [blockLoopC, blockLoop, if_pos ⟨hlt, hm⟩, if_pos ⟨hlt, hm⟩]
    refine Costs.congr ((butterfliesC_costs m k w_m a).bind fun a' _ => ih (k + 2 * m) (by rw [hk]; ring) a') rfl ?_
    rw [← add_smul]
    congr 1
    ring

/-- Operations of `serial_fft` on `2^l` elements: `l 2^(l-1)` butterflies and a power for each pass. -/
def serialCost (l : ℕ) : FftOps := ⟨l * 2 ^ (l - 1), 2 * (l * 2 ^ (l - 1)), l * 2 ^ (l - 1), l, 0⟩

theorem fftPassesC_costs (omega : F) (p : ℕ) : ∀ (i : ℕ) (a : List T),
    Costs (fftPassesC (2 ^ (i + p)) omega p (2 ^ i) a) (fftPasses (2 ^ (i + p)) omega p (2 ^ i) a)
      (p • ((2 ^ (i + p - 1)) • (⟨1, 2, 1, 0, 0⟩ : FftOps) + ⟨0, 0, 0, 1, 0⟩)) := by
  induction p with
  | zero =>
    intro i a
    rw [zero_smul]
    exact Costs.pure a
  | succ p ih =>
    intro i a
    unfold fftPassesC fftPasses
    have hb := blockLoopC_costs (T := T) (2 ^ (i + (p + 1))) (2 ^ i) (by positivity) (omega ^ (2 ^ (i + (p + 1)) / (2 * 2 ^ i))) (2 ^ p) 0
      (by rw [pow_add, pow_succ]; ring) a
    refine Costs.congr (Costs.tick_bind (hb.bind (d := p • ((2 ^ (i + (p + 1) - 1)) • (⟨1, 2, 1, 0, 0⟩ : FftOps) + ⟨0, 0, 0, 1, 0⟩))
      fun a' _ => ?_)) rfl ?_
    · have := ih (i + 1) a'
      rw [show i + 1 + p = i + (p + 1) by omega, pow_succ] at this
      exact this
    · rw [succ_nsmul, show i + (p + 1) - 1 = i + p by omega, pow_add, mul_comm (2 ^ i)]
      abel

theorem serialCost_eq (l : ℕ) : l • ((2 ^ (0 + l - 1)) • (⟨1, 2, 1, 0, 0⟩ : FftOps) + ⟨0, 0, 0, 1, 0⟩) = serialCost l := by
  rw [Nat.zero_add]
  ext <;> (simp [serialCost]; try ring)

/-- C78: `serial_fft`, counted, returns what it returns, and if it does not panic, whatever the elements and the root are, it takes `l 2^(l-1)`
multiplications of elements, twice as many additions and subtractions, as many multiplications of scalars, and `l` powers. -/
theorem C78_serial (a : List T) (omega : F) (l : ℕ) (o : FftOps) :
    (serialFftC a omega l).run o = (serialFft a omega l).map fun r => (r, o + serialCost l) := by
  have h : Costs (serialFftC a omega l) (serialFft a omega l) (serialCost l) := by
    unfold serialFftC serialFft
    refine Costs.congr (c := 0 + (0 + serialCost l)) ?_ rfl (by rw [zero_add, zero_add])
    refine (Costs.lift _).bind fun u hu => (Costs.lift _).bind fun a' _ => ?_
    have hn : a.length % 2 ^ 32 = 2 ^ l := by
      by_contra hn
      rw [Nat.shiftLeft_eq, Nat.one_mul] at hu
      simp only [guard, hn, and_false, if_false] at hu
      cases hu
    rw [hn]
    have := fftPassesC_costs omega l 0 a'
    rw [serialCost_eq, Nat.zero_add] at this
    exact this
  exact h o

theorem countTask_run {σ : Type} (c : FftOps) (s : σ) (steps : List (σ → FftC σ)) :
    (countTask c s steps).run = (steps.foldlM (fun s f => f s) s : FftC σ).run c := by
  unfold countTask Task.run
  induction steps generalizing s c with
  | nil => rfl
  | cons f fs ih =>
    rw [List.map_cons, List.foldlM_cons, List.foldlM_cons, StateT.run_bind]
    show ((f s).run c).bind _ = ((f s).run c).bind _
    congr 1
    funext r
    exact ih r.2 r.1

/-- Operations of the task for one of the `2^c` parts of a transform of `2^e` elements. -/
def taskCost (e c : ℕ) : FftOps := ⟨2 ^ e, 2 ^ e, 2 ^ e + 2 ^ (e - c), 2, 0⟩ + serialCost (e - c)

theorem subFftTaskC_run (a : List T) (omega newOmega : F) (e c j : ℕ) (hc : c ≤ e) (tmp : List T) (ht : tmp.length = 2 ^ (e - c)) :
    (subFftTaskC a omega newOmega e (e - c) (2 ^ c) j tmp).run =
      (subFftTask a omega newOmega e (e - c) (2 ^ c) j tmp).run.map fun r => (r, taskCost e c) := by
  unfold subFftTaskC
  simp only
  rw [countTask_run]
  unfold subFftTask Task.run
  simp only
  rw [List.foldlM_append, List.foldlM_append, List.foldlM_map, List.foldlM_map]
  have hsh : ∀ (i : ℕ) (s : T × F), Costs (shuffleEltC a (omega ^ (j <<< (e - c))) e (e - c) (2 ^ c) i s)
      (shuffleElt a (omega ^ (j <<< (e - c))) e (e - c) (2 ^ c) i s) ((2 ^ c) • ⟨1, 1, 1, 0, 0⟩) := fun i s => by
    have := Costs.foldlM (l := List.range (2 ^ c)) (σ := T × F) (c := ⟨1, 1, 1, 0, 0⟩)
      (f := fun (s : T × F) k => do
        let idx := (i + (k <<< (e - c))) % (1 <<< e)
        let t ← (a[idx]? : Option T)
        let t := s.2 • t
        tick { muls := 1 }
        let tmp := s.1 + t
        tick { adds := 1 }
        let elt := s.2 * omega ^ (j <<< (e - c))
        tick { scalarMuls := 1 }
        pure (tmp, elt))
      (g := fun (s : T × F) k => do
        let idx := (i + (k <<< (e - c))) % (1 <<< e)
        let t ← a[idx]?
        let t := s.2 • t
        pure (s.1 + t, s.2 * omega ^ (j <<< (e - c))))
      (fun s k _ => Costs.congr ((Costs.lift _).bind fun t _ => Costs.tick_bind (Costs.tick_bind (Costs.tick_bind (Costs.pure _)))) rfl rfl) s
    rw [List.length_range] at this
    exact this
  have h1 := Costs.foldlM (l := List.range tmp.length) (σ := List T × F) (c := (2 ^ c) • (⟨1, 1, 1, 0, 0⟩ : FftOps) + ⟨0, 0, 1, 0, 0⟩)
    (f := fun (s : List T × F) i => do
        let x ← (s.1[i]? : Option T)
        let r ← shuffleEltC a (omega ^ (j <<< (e - c))) e (e - c) (2 ^ c) i (x, s.2)
        let elt := r.2 * omega ^ j
        tick { scalarMuls := 1 }
        pure (s.1.set i r.1, elt))
    (g := fun (s : List T × F) i => do
        let x ← s.1[i]?
        let r ← shuffleElt a (omega ^ (j <<< (e - c))) e (e - c) (2 ^ c) i (x, s.2)
        pure (s.1.set i r.1, r.2 * omega ^ j))
    (fun s i _ => Costs.congr ((Costs.lift _).bind fun x _ => (hsh i (x, s.2)).bind fun r _ => Costs.tick_bind (Costs.pure _)) rfl
      (by rw [zero_add, add_zero])) (tmp, (1 : F))
  rw [List.length_range, ht] at h1
  have h2 : ∀ s : List T × F, Costs ([fun (s : List T × F) => (do
        let t ← serialFftC s.1 newOmega (e - c)
        pure (t, s.2) : FftC (List T × F))].foldlM (fun s f => f s) s)
      ([fun (s : List T × F) => (do
        let t ← serialFft s.1 newOmega (e - c)
        pure (t, s.2) : Option (List T × F))].foldlM (fun s f => f s) s) (serialCost (e - c)) := fun s => by
    simp only [List.foldlM_cons, List.foldlM_nil]
    refine Costs.congr (Costs.bind (Costs.bind (C78_serial s.1 newOmega (e - c)) fun t _ => Costs.pure _) fun t _ => Costs.pure _) rfl ?_
    rw [add_zero, add_zero]
  have := (h1.bind fun s _ => h2 s) { pows := 2 }
  rw [ht]
  refine this.trans ?_
  have hcost : ({ pows := 2 } : FftOps) + (2 ^ (e - c) • ((2 ^ c) • (⟨1, 1, 1, 0, 0⟩ : FftOps) + ⟨0, 0, 1, 0, 0⟩) + serialCost (e - c)) = taskCost e c := by
    have hp : 2 ^ (e - c) * 2 ^ c = 2 ^ e := by rw [← pow_add]; congr 1; omega
    unfold taskCost
    rw [← add_assoc]
    congr 1
    ext <;> simp [hp]
  rw [hcost]
  rfl

/-- A list of computations, counted or not. -/
theorem mapM_costs {α γ W : Type} (f' : α → Option (γ × W)) (f : α → Option γ) (c : α → W) (l : List α)
    (h : ∀ x ∈ l, f' x = (f x).map fun r => (r, c x)) :
    l.mapM f' = (l.mapM f).map fun rs => rs.zip (l.map c) := by
  induction l with
  | nil => rfl
  | cons x l ih =>
    rw [List.mapM_cons, List.mapM_cons, ih fun y hy => h y (List.mem_cons_of_mem _ hy), h x List.mem_cons_self]
    cases f x with
    | none => rfl
    | some r => cases l.mapM f <;> rfl

theorem mapM_length' {α γ : Type} (f : α → Option γ) (l : List α) (rs : List γ) (h : l.mapM f = some rs) : rs.length = l.length := by
  induction l generalizing rs with
  | nil => cases h; rfl
  | cons x l ih =>
    rw [List.mapM_cons] at h
    cases hx : f x with
    | none => rw [hx] at h; cases h
    | some r =>
      cases hl : l.mapM f with
      | none => rw [hx, hl] at h; cases h
      | some rs' =>
        rw [hx, hl] at h
        cases h
        rw [List.length_cons, List.length_cons, ih rs' hl]

/-- The tasks of a scope, counted or not. -/
theorem runTasks_costs {α σ W : Type} (w : Worker) (l : List α) (mk' : ℕ → α → Task (σ × W)) (mk : ℕ → α → Task σ) (c : ℕ → α → W)
    (h : ∀ i, ∀ x ∈ l, (mk' i x).run = (mk i x).run.map fun r => (r, c i x)) :
    (w.runTasks (l.mapIdx mk') = none ∧ w.runTasks (l.mapIdx mk) = none) ∨
    ∃ rs, w.runTasks (l.mapIdx mk') = some rs ∧ w.runTasks (l.mapIdx mk) = some (rs.map Prod.fst) ∧ rs.map Prod.snd = l.mapIdx c := by
  rw [Worker.runTasks_eq, Worker.runTasks_eq, List.mapIdx_eq_zipIdx_map, List.mapIdx_eq_zipIdx_map, List.mapIdx_eq_zipIdx_map, List.mapM_map, List.mapM_map]
  have := mapM_costs (fun x : α × ℕ => (mk' x.2 x.1).run) (fun x => (mk x.2 x.1).run) (fun x => c x.2 x.1) l.zipIdx fun x hx =>
    h x.2 x.1 (List.fst_mem_of_mem_zipIdx hx)
  cases hm : l.zipIdx.mapM fun x : α × ℕ => (mk x.2 x.1).run with
  | none => left; rw [hm] at this; exact ⟨this, hm⟩
  | some rs =>
    right
    rw [hm] at this
    have hl := mapM_length' _ _ _ hm
    refine ⟨_, this, ?_, ?_⟩
    · rw [List.map_fst_zip (by simp [hl])]; exact hm
    · rw [List.map_snd_zip (by simp [hl])]

/-- C78: `parallel_fft` with `2^c` tasks, counted, returns what it returns; each task takes `2^e` multiplications of elements to collect its
part and those of a serial transform of the part. -/
theorem C78_parallel (w : Worker) (a : List T) (omega : F) (e c : ℕ) :
    parallelFftC w a omega e c = (parallelFft w a omega e c).map fun r => (r, { pows := 1 }, List.replicate (2 ^ c) (taskCost e c)) := by
  unfold parallelFftC parallelFft
  by_cases hc : c ≤ e
  swap
  · simp [guard, hc]
  simp only [guard, if_pos hc, Nat.shiftLeft_eq, Nat.one_mul, Option.bind_eq_bind, Option.pure_def, Option.bind_some]
  rcases runTasks_costs (w.site 0) (List.replicate (2 ^ c) (List.replicate (2 ^ (e - c)) (0 : T)))
    (fun j tmp => subFftTaskC a omega (omega ^ 2 ^ c) e (e - c) (2 ^ c) j tmp) (fun j tmp => subFftTask a omega (omega ^ 2 ^ c) e (e - c) (2 ^ c) j tmp)
    (fun _ _ => taskCost e c) (fun i x hx => subFftTaskC_run a omega _ e c i hc x (by rw [List.eq_of_mem_replicate hx, List.length_replicate])) with
    ⟨h1, h2⟩ | ⟨rs, h1, h2, h3⟩
  · rw [h1, h2]; rfl
  · rw [h1, h2]
    simp only [Option.bind_some]
    rw [h3, List.map_map]
    have hr : (List.replicate (2 ^ c) (List.replicate (2 ^ (e - c)) (0 : T))).mapIdx (fun _ _ => taskCost e c) = List.replicate (2 ^ c) (taskCost e c) := by
      rw [mapIdx_eq_map]; simp
    rw [hr]
    show (((w.site 1).forChunks a.length (unshuffleTask (rs.map fun r => r.1.1) c) Prod.fst a).bind _) =
      ((w.site 1).forChunks a.length (unshuffleTask (rs.map fun r => r.1.1) c) Prod.fst a).map _
    cases (w.site 1).forChunks a.length (unshuffleTask (rs.map fun r => r.1.1) c) Prod.fst a <;> rfl

/-- Operations of a transform of `2^e` elements with `2^c ≤ threads < 2^(c+1)`, all threads together. -/
def transformCost (c e : ℕ) : FftOps := if e ≤ c then serialCost e else ⟨0, 0, 0, 1, 0⟩ + 2 ^ c • taskCost e c

/-- The logarithm of the number of threads, rounded down; zero without the `multicore` feature. -/
def Worker.logCpus (w : Worker) : ℕ := if w.multicore then Nat.log 2 w.threads else 0

theorem bestFftC_costs (w : Worker) (a : List T) (omega : F) (e : ℕ) :
    Costs (bestFftC w a omega e) (bestFft w a omega e) (transformCost w.logCpus e) := by
  unfold bestFftC bestFft
  rw [Worker.logNumThreads_some]
  refine Costs.congr (Costs.bind (d := transformCost w.logCpus e) (Costs.lift _) fun c hc => ?_) rfl (zero_add _)
  cases hc
  show Costs (if e ≤ w.logCpus then _ else _) (if e ≤ w.logCpus then _ else _) _
  unfold transformCost
  split
  · exact C78_serial a omega e
  · refine Costs.congr (Costs.bind (Costs.lift (parallelFftC w a omega e w.logCpus))
      (g := fun r => some r.1) (d := ⟨0, 0, 0, 1, 0⟩ + 2 ^ w.logCpus • taskCost e w.logCpus) fun r hr => ?_) ?_ (zero_add _)
    · rw [C78_parallel, Option.map_eq_some_iff] at hr
      obtain ⟨a', -, rfl⟩ := hr
      refine Costs.congr (Costs.tick_bind (Costs.pure _)) rfl ?_
      rw [FftOps.total_eq, List.sum_replicate, add_zero]
    · rw [C78_parallel]
      show _ = parallelFft w a omega e w.logCpus
      cases parallelFft w a omega e w.logCpus <;> rfl

/-- C78: `best_fft`, counted, returns what it returns, and if it does not panic the number of its operations depends only on the number of
elements and of threads: it is that of a serial transform if the logarithm `c` of the number of threads is at least that of the number of elements,
and otherwise `2^c` times that of the task of a thread and one power. -/
theorem C78_best (w : Worker) (a : List T) (omega : F) (e : ℕ) (o : FftOps) :
    (bestFftC w a omega e).run o = (bestFft w a omega e).map fun r => (r, o + transformCost w.logCpus e) :=
  bestFftC_costs w a omega e o

end Fft

/-! ### Scopes over chunks -/

theorem chunksAux_count {α : Type} (n : ℕ) (hn : 0 < n) (fuel : ℕ) (l : List α) (h : l.length ≤ fuel) :
    (chunksAux n fuel l).length = (l.length + (n - 1)) / n := by
  induction fuel generalizing l with
  | zero =>
    have : l = [] := List.length_eq_zero_iff.1 (by omega)
    subst this
    rw [List.length_nil, Nat.zero_add, Nat.div_eq_of_lt (by omega)]
    rfl
  | succ f ih =>
    cases l with
    | nil =>
      rw [List.length_nil, Nat.zero_add, Nat.div_eq_of_lt (by omega)]
      rfl
    | cons x xs =>
      rw [chunksAux, List.length_cons, ih _ (by simp at h ⊢; omega), List.length_drop, List.length_cons]
      by_cases hx : xs.length + 1 ≤ n
      · rw [Nat.sub_eq_zero_of_le hx, Nat.zero_add, Nat.div_eq_of_lt (by omega)]
        rw [show xs.length + 1 + (n - 1) = xs.length + n by omega, Nat.add_div_right _ hn, Nat.div_eq_of_lt (by omega)]
      · rw [show xs.length + 1 + (n - 1) = (xs.length + 1 - n + (n - 1)) + n by omega, Nat.add_div_right _ hn]

/-- The number of chunks into which a worker divides `n` elements. -/
def Worker.pieces (w : Worker) (n : ℕ) : ℕ := (n + (w.chunkSize n - 1)) / w.chunkSize n

theorem sum_chunks {α : Type} (c0 c : FftOps) (cs : List (List α)) :
    (cs.map fun v => c0 + v.length • c).sum = cs.length • c0 + cs.flatten.length • c := by
  induction cs with
  | nil => simp
  | cons v cs ih =>
    rw [List.map_cons, List.sum_cons, ih, List.length_cons, List.flatten_cons, List.length_append]
    simp only [add_smul, one_smul]
    abel

theorem forChunksC_costs {α σ : Type} (w : Worker) (l : List α) (mk' : ℕ → ℕ → List α → Task (σ × FftOps)) (mk : ℕ → ℕ → List α → Task σ)
    (out : σ → List α) (c0 c : FftOps) (h : ∀ k i v, (mk' k i v).run = (mk k i v).run.map fun r => (r, c0 + v.length • c)) :
    Costs (w.forChunksC l.length mk' out l) (w.forChunks l.length mk out l) (w.pieces l.length • c0 + l.length • c) := by
  unfold Worker.forChunksC Worker.forChunks
  refine Costs.congr (Costs.bind (d := w.pieces l.length • c0 + l.length • c) (Costs.lift _) fun cs hcs => ?_) rfl (zero_add _)
  have hs : 0 < w.chunkSize l.length := by
    by_contra h0
    rw [chunks?, if_pos (by omega)] at hcs
    cases hcs
  rw [chunks?, if_neg (by omega)] at hcs
  cases hcs
  set cs := chunksAux (w.chunkSize l.length) l.length l with hcs
  have hcount : cs.length = w.pieces l.length := chunksAux_count _ hs _ _ le_rfl
  have hflat : cs.flatten = l := chunksAux_flatten _ hs _ _ le_rfl
  have hsum := sum_chunks c0 c cs
  rw [hcount, hflat] at hsum
  rcases runTasks_costs w cs (fun i v => mk' (w.chunkSize l.length) i v) (fun i v => mk (w.chunkSize l.length) i v) (fun _ v => c0 + v.length • c)
    (fun i v _ => h _ i v) with ⟨h1, h2⟩ | ⟨rs, h1, h2, h3⟩
  · intro o
    rw [h1, h2]
    rfl
  · rw [h1, h2]
    refine Costs.congr (Costs.bind (Costs.lift (some rs)) (g := fun rs => some (rs.map fun r => out r.1).flatten) fun rs' hrs => ?_) ?_ (zero_add _)
    · cases hrs
      refine Costs.congr (Costs.tick_bind (Costs.pure _)) rfl ?_
      rw [FftOps.total_eq, h3, mapIdx_eq_map, hsum, add_zero]
    · simp [List.map_map, Function.comp_def]

theorem loopTaskC_run {α β : Type} (c0 c : FftOps) (init : β) (f : β → α → α × β) (v : List α) :
    (loopTaskC c0 c init f v).run = (loopTask init f v).run.map fun r => (r, c0 + v.length • c) := by
  unfold loopTaskC
  rw [countTask_run]
  unfold loopTask Task.run
  simp only
  rw [List.foldlM_map, List.foldlM_map]
  have := Costs.foldlM (l := List.range v.length) (σ := List α × β) (c := c)
    (f := fun (s : List α × β) j => do
      let x ← (s.1[j]? : Option α)
      tick c
      pure (s.1.set j (f s.2 x).1, (f s.2 x).2))
    (g := fun s j => match s.1[j]? with
      | some x => some (s.1.set j (f s.2 x).1, (f s.2 x).2)
      | none => none)
    (fun s j _ => by
      refine Costs.congr (Costs.bind (Costs.lift (s.1[j]?)) (g := fun x => some (s.1.set j (f s.2 x).1, (f s.2 x).2))
        fun x _ => Costs.tick_bind (Costs.pure _)) ?_ (by rw [zero_add, add_zero])
      cases s.1[j]? <;> rfl) (v, init)
  rw [List.length_range] at this
  exact this c0

theorem zipTaskC_run {A B : Type} (c : FftOps) (f : A → B → A) (cs : List A × List B) :
    (zipTaskC c f cs).run = (zipTask f cs).run.map fun r => (r, (min cs.1.length cs.2.length) • c) := by
  unfold zipTaskC
  rw [countTask_run]
  unfold zipTask Task.run
  simp only
  rw [List.foldlM_map, List.foldlM_map]
  have := Costs.foldlM (l := List.range (min cs.1.length cs.2.length)) (σ := List A) (c := c)
    (f := fun a j => do
      let x ← (a[j]? : Option A)
      let y ← (cs.2[j]? : Option B)
      tick c
      pure (a.set j (f x y)))
    (g := fun a j => do
      let x ← a[j]?
      let y ← cs.2[j]?
      pure (a.set j (f x y)))
    (fun a j _ => Costs.congr ((Costs.lift _).bind fun x _ => (Costs.lift _).bind fun y _ => Costs.tick_bind (Costs.pure _)) rfl
      (by rw [zero_add, zero_add, add_zero])) cs.1 0
  rw [List.length_range, zero_add] at this
  exact this

theorem zipChunksC_costs {A B : Type} (w : Worker) (c : FftOps) (f : A → B → A) (a : List A) (b : List B) :
    Costs (zipChunksC w c f a b) (zipChunks w f a b) (a.length • c) := by
  unfold zipChunksC zipChunks
  refine Costs.congr (Costs.bind (d := a.length • c) (Costs.lift _) fun u hu => ?_) rfl (zero_add _)
  have hab : a.length = b.length := by
    by_contra hn
    simp only [guard, hn, if_false] at hu
    cases hu
  refine Costs.congr (Costs.bind (d := a.length • c) (Costs.lift _) fun ca hca => ?_) rfl (zero_add _)
  refine Costs.congr (Costs.bind (d := a.length • c) (Costs.lift _) fun cb hcb => ?_) rfl (zero_add _)
  have hs : 0 < w.chunkSize a.length := by
    by_contra h0
    rw [chunks?, if_pos (by omega)] at hca
    cases hca
  rw [chunks?, if_neg (by omega)] at hca hcb
  rw [← hab] at hcb
  cases hca
  cases hcb
  set n := w.chunkSize a.length
  have hsum : (((chunksAux n a.length a).zip (chunksAux n a.length b)).map fun x => (min x.1.length x.2.length) • c).sum = a.length • c := by
    rw [chunksAux_zip n a.length a b hab, List.map_map]
    have := sum_chunks 0 c (chunksAux n a.length (a.zip b))
    rw [chunksAux_flatten n hs _ _ (by simp [hab])] at this
    simp only [zero_add, smul_zero, List.length_zip, ← hab, min_self] at this
    rw [← this]
    congr 2
    funext v
    simp
  rcases runTasks_costs w ((chunksAux n a.length a).zip (chunksAux n a.length b)) (fun _ x => zipTaskC c f x) (fun _ x => zipTask f x)
    (fun _ x => (min x.1.length x.2.length) • c) (fun _ x _ => zipTaskC_run c f x) with ⟨h1, h2⟩ | ⟨rs, h1, h2, h3⟩
  · rw [mapIdx_eq_map] at h1 h2
    intro o
    rw [h1, h2]
    rfl
  · rw [mapIdx_eq_map] at h1 h2 h3
    rw [h1, h2]
    refine Costs.congr (Costs.bind (Costs.lift (some rs))
      (g := fun rs => some (rs.map Prod.fst ++ (chunksAux n a.length a).drop (rs.map Prod.fst).length).flatten) fun rs' hrs => ?_) rfl (zero_add _)
    cases hrs
    refine Costs.congr (Costs.tick_bind (Costs.pure _)) rfl ?_
    rw [FftOps.total_eq, h3, hsum, add_zero]

/-! ### The operations of a domain -/

section Domain

variable {F T : Type} [PrimeField F] [AddCommGroup T] [Module F T]

theorem omegaLoopC_costs (n : ℕ) : ∀ omega : F, Costs (omegaLoopC omega n) (some (omegaLoop omega n)) ⟨0, 0, n, 0, 0⟩ := by
  induction n with
  | zero => exact fun omega => Costs.pure omega
  | succ n ih =>
    intro omega
    refine Costs.congr (Costs.tick_bind (ih (omega * omega))) rfl ?_
    ext <;> simp [add_comm]

theorem invertUnwrapC_costs (x : F) : Costs (invertUnwrapC x) (invertUnwrap x) ⟨0, 0, 0, 0, 1⟩ :=
  Costs.congr (Costs.tick_bind (Costs.lift _)) rfl rfl

theorem fromCoeffsC_costs (l : List T) (e : ℕ) (he : ∀ d : EvaluationDomain F T, fromCoeffs l = some (.ok d) → d.exp = e)
    (hok : ∃ d : EvaluationDomain F T, fromCoeffs l = some (.ok d)) :
    Costs (fromCoeffsC l : FftC (Except SynthesisError (EvaluationDomain F T))) (fromCoeffs l) ⟨0, 0, S F - e, 0, 3⟩ := by
  obtain ⟨d, hd⟩ := hok
  have hexp := he d hd
  unfold fromCoeffsC
  unfold fromCoeffs at hd ⊢
  cases hs : sizeLoop F l.length 1 0 with
  | error er =>
    rw [hs] at hd
    cases hd
  | ok r =>
    obtain ⟨m, exp⟩ := r
    rw [hs] at hd
    simp only at hd ⊢
    have hee : exp = e := by
      rw [← hexp]
      simp only [Option.bind_eq_bind, Option.bind_eq_some_iff] at hd
      obtain ⟨_, _, _, _, _, _, h⟩ := hd
      cases h
      rfl
    rw [hee]
    refine Costs.congr ((omegaLoopC_costs (S F - e) (ROOT_OF_UNITY : F)).bind fun omega ho => (invertUnwrapC_costs omega).bind fun oi _ =>
      (invertUnwrapC_costs _).bind fun gi _ => (invertUnwrapC_costs _).bind fun mi _ => Costs.pure _) ?_ ?_
    · rfl
    · rfl

theorem fftC_costs (w : Worker) (d : EvaluationDomain F T) : Costs (d.fftC w) (d.fft w) (transformCost w.logCpus d.exp) :=
  Costs.congr ((bestFftC_costs w d.coeffs d.omega d.exp).bind fun _ _ => Costs.pure _) rfl (add_zero _)

theorem scaleC_costs (w : Worker) (c : F) (l : List T) :
    Costs (w.forChunksC l.length (fun _ _ v => loopTaskC 0 { muls := 1 } () (fun _ x => (c • x, ())) v) Prod.fst l)
      (w.forChunks l.length (scaleTask c) Prod.fst l) ⟨l.length, 0, 0, 0, 0⟩ := by
  refine Costs.congr (forChunksC_costs w l _ (scaleTask c) Prod.fst 0 { muls := 1 } fun k i v => loopTaskC_run _ _ _ _ v) rfl ?_
  rw [smul_zero, zero_add]
  ext <;> simp

theorem ifftC_costs (w : Worker) (d : EvaluationDomain F T) (hd : d.WF) :
    Costs (d.ifftC w) (d.ifft w) (transformCost w.logCpus d.exp + ⟨2 ^ d.exp, 0, 0, 0, 0⟩) := by
  unfold ifftC ifft
  refine Costs.congr ((bestFftC_costs (w.site 0) d.coeffs d.omegainv d.exp).bind (d := ⟨2 ^ d.exp, 0, 0, 0, 0⟩) fun a ha => ?_) rfl rfl
  have hl : a.length = 2 ^ d.exp := by
    by_cases hf : w.FftFits d.exp
    · rw [bestFft_eq (w.site 0) d.omegainv d.exp d.coeffs hf hd.len hd.prim_inv] at ha
      cases ha
      rw [dftList_length, hd.len]
    · rw [bestFft_none (w.site 0) _ _ _ hf] at ha
      cases ha
  have := scaleC_costs (w.site 1) d.minv a
  rw [hl] at this
  rw [hl]
  exact Costs.congr (this.bind fun a' _ => Costs.pure _) rfl (add_zero _)

theorem distributePowersC_costs (w : Worker) (d : EvaluationDomain F T) (hd : d.WF) (g : F) :
    Costs (d.distributePowersC w g) (d.distributePowers w g) ⟨2 ^ d.exp, 0, 2 ^ d.exp, w.pieces (2 ^ d.exp), 0⟩ := by
  unfold distributePowersC distributePowers
  refine Costs.congr ((forChunksC_costs w d.coeffs _ (fun chunk i v => loopTask (g ^ (i * chunk)) (fun u x => (u • x, u * g)) v) Prod.fst { pows := 1 }
    { muls := 1, scalarMuls := 1 } fun k i v => loopTaskC_run _ _ _ _ v).bind fun a _ => Costs.pure _) rfl ?_
  rw [hd.len]
  ext <;> simp

theorem ifft_keeps {w : Worker} {d d' : EvaluationDomain F T} (hd : d.WF) (h : d.ifft w = some d') : d'.WF ∧ d'.exp = d.exp := by
  by_cases hf : w.FftFits d.exp
  · rw [ifft_eq w d hd hf] at h
    cases h
    exact ⟨hd.with_coeffs _ (by rw [List.length_map, dftList_length]), rfl⟩
  · rw [ifft_none w d hf] at h
    cases h

theorem fft_keeps {w : Worker} {d d' : EvaluationDomain F T} (hd : d.WF) (h : d.fft w = some d') : d'.WF ∧ d'.exp = d.exp := by
  by_cases hf : w.FftFits d.exp
  · rw [fft_eq w d hd hf] at h
    cases h
    exact ⟨hd.with_coeffs _ (dftList_length _ _), rfl⟩
  · unfold fft at h
    rw [bestFft_none w _ _ _ hf] at h
    cases h

theorem distribute_keeps {w : Worker} {d d' : EvaluationDomain F T} (hd : d.WF) {g : F} (h : d.distributePowers w g = some d') :
    d'.WF ∧ d'.exp = d.exp := by
  rw [distribute_eq w d g hd.pos] at h
  cases h
  exact ⟨hd.with_coeffs _ (by rw [List.length_mapIdx]), rfl⟩

theorem cosetFftC_costs (w : Worker) (d : EvaluationDomain F T) (hd : d.WF) :
    Costs (d.cosetFftC w) (d.cosetFft w) (⟨2 ^ d.exp, 0, 2 ^ d.exp, w.pieces (2 ^ d.exp), 0⟩ + transformCost w.logCpus d.exp) := by
  unfold cosetFftC cosetFft
  refine (distributePowersC_costs (w.site 0) d hd _).bind fun d' h => ?_
  rw [← (distribute_keeps hd h).2]
  exact fftC_costs (w.site 1) d'

theorem icosetFftC_costs (w : Worker) (d : EvaluationDomain F T) (hd : d.WF) :
    Costs (d.icosetFftC w) (d.icosetFft w) (transformCost w.logCpus d.exp + ⟨2 ^ d.exp, 0, 0, 0, 0⟩ +
      ⟨2 ^ d.exp, 0, 2 ^ d.exp, w.pieces (2 ^ d.exp), 0⟩) := by
  unfold icosetFftC icosetFft
  refine (ifftC_costs (w.site 0) d hd).bind fun d' h => ?_
  obtain ⟨h1, h2⟩ := ifft_keeps hd h
  rw [← h2]
  exact distributePowersC_costs (w.site 1) d' h1 _

theorem divideC_costs (w : Worker) (d : EvaluationDomain F T) (hd : d.WF) :
    Costs (d.divideByZOnCosetC w) (d.divideByZOnCoset w) ⟨2 ^ d.exp, 0, 0, 1, 1⟩ := by
  unfold divideByZOnCosetC divideByZOnCoset
  have hz : Costs (d.zC (MULTIPLICATIVE_GENERATOR : F)) (some (d.z MULTIPLICATIVE_GENERATOR)) ⟨0, 0, 0, 1, 0⟩ :=
    Costs.congr (Costs.tick_bind (Costs.pure _)) rfl rfl
  have := hz.bind fun z _ => (invertUnwrapC_costs z).bind fun i _ => (scaleC_costs w i d.coeffs).bind fun a' _ =>
    Costs.pure ({ d with coeffs := a' } : EvaluationDomain F T)
  refine Costs.congr this rfl ?_
  rw [hd.len]
  ext <;> simp

theorem mulAssignC_costs (w : Worker) (d : EvaluationDomain F T) (hd : d.WF) (o : EvaluationDomain F F) :
    Costs (d.mulAssignC w o) (d.mulAssign w o) ⟨2 ^ d.exp, 0, 0, 0, 0⟩ := by
  unfold mulAssignC mulAssign
  refine Costs.congr ((zipChunksC_costs w { muls := 1 } (fun (x : T) (y : F) => y • x) d.coeffs o.coeffs).bind fun a _ => Costs.pure _) rfl ?_
  rw [hd.len]
  ext <;> simp

theorem subAssignC_costs (w : Worker) (d : EvaluationDomain F T) (hd : d.WF) (o : EvaluationDomain F T) :
    Costs (d.subAssignC w o) (d.subAssign w o) ⟨0, 2 ^ d.exp, 0, 0, 0⟩ := by
  unfold subAssignC subAssign
  refine Costs.congr ((zipChunksC_costs w { adds := 1 } (fun (x y : T) => x - y) d.coeffs o.coeffs).bind fun a _ => Costs.pure _) rfl ?_
  rw [hd.len]
  ext <;> simp

theorem fromCoeffs_exp (l : List T) {d : EvaluationDomain F T} (h : fromCoeffs l = some (.ok d)) : d.WF ∧ d.exp = Nat.clog 2 l.length := by
  rcases fromCoeffs_cases (F := F) l with ⟨d', h', hw, hle, hmin, -⟩ | ⟨h', -⟩
  · rw [h'] at h
    cases h
    refine ⟨hw, le_antisymm ?_ ((Nat.clog_le_iff_le_pow (by norm_num)).2 hle)⟩
    rcases hmin with h0 | h1
    · rw [h0]; exact Nat.zero_le _
    · have := (Nat.lt_clog_iff_pow_lt (by norm_num : 1 < 2)).2 h1
      omega
  · rw [h'] at h
    cases h

theorem toCosetC_costs (w : Worker) (d : EvaluationDomain F F) (hd : d.WF) :
    Costs (toCosetC w d) (toCoset w d) (2 • transformCost w.logCpus d.exp + ⟨2 * 2 ^ d.exp, 0, 2 ^ d.exp, w.pieces (2 ^ d.exp), 0⟩) := by
  unfold toCosetC toCoset
  refine Costs.congr ((ifftC_costs (w.site 0) d hd).bind (d := ⟨2 ^ d.exp, 0, 2 ^ d.exp, w.pieces (2 ^ d.exp), 0⟩ + transformCost w.logCpus d.exp)
    fun d' h => ?_) rfl ?_
  · obtain ⟨h1, h2⟩ := ifft_keeps hd h
    rw [← h2]
    exact cosetFftC_costs (w.site 1) d' h1
  · show transformCost w.logCpus d.exp + _ + (_ + transformCost w.logCpus d.exp) = _
    ext <;> simp <;> ring

theorem toCoset_keeps {w : Worker} {d d' : EvaluationDomain F F} (hd : d.WF) (h : toCoset w d = some d') : d'.WF ∧ d'.exp = d.exp := by
  unfold toCoset at h
  simp only [Option.bind_eq_bind, Option.bind_eq_some_iff] at h
  obtain ⟨d1, h1, h2⟩ := h
  obtain ⟨hw, he⟩ := ifft_keeps hd h1
  unfold cosetFft at h2
  simp only [Option.bind_eq_bind, Option.bind_eq_some_iff] at h2
  obtain ⟨d2, h2, h3⟩ := h2
  obtain ⟨hw2, he2⟩ := distribute_keeps hw h2
  obtain ⟨hw3, he3⟩ := fft_keeps hw2 h3
  exact ⟨hw3, by rw [he3, he2, he]⟩

/-- C78: computing the coefficients of the quotient, counted, returns what it returns, and for three vectors of the same length that fit a domain, with
`n` the least power of two that is not less than their length, it takes seven transforms of `n` elements, and beside them `10 n` multiplications,
`n` subtractions, `4 n` multiplications for powers of the generator, `3 (S - log n)` squarings of the root, one power per chunk of four distributions
and one for the vanishing polynomial, and ten inversions. -/
theorem C78_quotient (w : Worker) (a b c : List F) (hab : a.length = b.length) (hac : a.length = c.length) (hs : a.length ≤ 2 ^ (S F - 1)) (o : FftOps) :
    (hCoeffsC w a b c).run o = (hCoeffs w a b c).map fun r => (r, o + (7 • transformCost w.logCpus (Nat.clog 2 a.length) +
      ⟨10 * 2 ^ Nat.clog 2 a.length, 2 ^ Nat.clog 2 a.length, 4 * 2 ^ Nat.clog 2 a.length + 3 * (S F - Nat.clog 2 a.length),
        4 * w.pieces (2 ^ Nat.clog 2 a.length) + 1, 10⟩)) := by
  have hfc : ∀ l : List F, l.length = a.length →
      ∃ d : EvaluationDomain F F, fromCoeffs l = some (.ok d) ∧ d.WF ∧ d.exp = Nat.clog 2 a.length := fun l hl => by
    rcases fromCoeffs_cases (F := F) l with ⟨d, h, -⟩ | ⟨-, hgt⟩
    · obtain ⟨h1, h2⟩ := fromCoeffs_exp l h
      exact ⟨d, h, h1, by rw [h2, hl]⟩
    · omega
  set e := Nat.clog 2 a.length with he
  have hcost : ∀ l : List F, l.length = a.length →
      Costs (fromCoeffsC l : FftC (Except SynthesisError (EvaluationDomain F F))) (fromCoeffs l) ⟨0, 0, S F - e, 0, 3⟩ := fun l hl => by
    obtain ⟨d, h, -, h2⟩ := hfc l hl
    refine fromCoeffsC_costs l e (fun d' h' => ?_) ⟨d, h⟩
    rw [h] at h'
    cases h'
    exact h2
  obtain ⟨da, ha, wa, ea⟩ := hfc a rfl
  obtain ⟨db, hb, wb, eb⟩ := hfc b hab.symm
  obtain ⟨dc, hc, wc, ec⟩ := hfc c hac.symm
  set t := transformCost w.logCpus e with ht
  set p := w.pieces (2 ^ e) with hp
  have htc : ∀ (k : ℕ) (d : EvaluationDomain F F), d.WF → d.exp = e →
      Costs (toCosetC (w.site k) d) (toCoset (w.site k) d) (2 • t + ⟨2 * 2 ^ e, 0, 2 ^ e, p, 0⟩) := fun k d hd hde => by
    have := toCosetC_costs (w.site k) d hd
    rw [hde] at this
    exact this
  have key : Costs (hCoeffsC w a b c) (hCoeffs w a b c) ((⟨0, 0, S F - e, 0, 3⟩ : FftOps) + (⟨0, 0, S F - e, 0, 3⟩ + (⟨0, 0, S F - e, 0, 3⟩ +
      ((2 • t + ⟨2 * 2 ^ e, 0, 2 ^ e, p, 0⟩) + ((2 • t + ⟨2 * 2 ^ e, 0, 2 ^ e, p, 0⟩) + ((2 • t + ⟨2 * 2 ^ e, 0, 2 ^ e, p, 0⟩) +
      (⟨2 ^ e, 0, 0, 0, 0⟩ + (⟨0, 2 ^ e, 0, 0, 0⟩ + (⟨2 ^ e, 0, 0, 1, 1⟩ + (t + ⟨2 ^ e, 0, 0, 0, 0⟩ + ⟨2 ^ e, 0, 2 ^ e, p, 0⟩ + 0)))))))))) := by
    unfold hCoeffsC hCoeffs
    refine (hcost a rfl).bind fun r hr => ?_
    rw [ha] at hr; cases hr
    refine (hcost b hab.symm).bind fun r hr => ?_
    rw [hb] at hr; cases hr
    refine (hcost c hac.symm).bind fun r hr => ?_
    rw [hc] at hr; cases hr
    refine (htc 0 da wa ea).bind fun a1 h1 => ?_
    obtain ⟨wa1, ea1⟩ := toCoset_keeps wa h1
    rw [ea] at ea1
    refine (htc 1 db wb eb).bind fun b1 h1 => ?_
    obtain ⟨wb1, eb1⟩ := toCoset_keeps wb h1
    rw [eb] at eb1
    refine (htc 2 dc wc ec).bind fun c1 h1 => ?_
    obtain ⟨wc1, ec1⟩ := toCoset_keeps wc h1
    rw [ec] at ec1
    have hm := mulAssignC_costs (w.site 3) a1 wa1 b1
    rw [ea1] at hm
    refine hm.bind fun a2 h2 => ?_
    have k2 : a2.WF ∧ a2.exp = e := by
      rw [mulAssign_eq _ _ _ (by rw [wa1.len, wb1.len, ea1, eb1]) wa1.pos] at h2
      cases h2
      exact ⟨wa1.with_coeffs _ (by rw [List.length_zipWith, wa1.len, wb1.len, ea1, eb1, min_self]), ea1⟩
    have hsub := subAssignC_costs (w.site 4) a2 k2.1 c1
    rw [k2.2] at hsub
    refine hsub.bind fun a3 h3 => ?_
    have k3 : a3.WF ∧ a3.exp = e := by
      rw [subAssign_eq _ _ _ (by rw [k2.1.len, wc1.len, k2.2, ec1]) k2.1.pos] at h3
      cases h3
      exact ⟨k2.1.with_coeffs _ (by rw [List.length_zipWith, k2.1.len, wc1.len, k2.2, ec1, min_self]), k2.2⟩
    have hd := divideC_costs (w.site 5) a3 k3.1
    rw [k3.2] at hd
    refine hd.bind fun a4 h4 => ?_
    have k4 : a4.WF ∧ a4.exp = e := by
      rw [divideByZ_eq _ _ k3.1] at h4
      cases h4
      exact ⟨k3.1.with_coeffs _ (by rw [List.length_map]), k3.2⟩
    have hi := icosetFftC_costs (w.site 6) a4 k4.1
    rw [k4.2] at hi
    exact hi.bind fun a5 _ => Costs.pure _
  rw [key o]
  congr 1
  funext r
  congr 2
  ext <;> simp <;> ring

end Domain

/-! ### What the parallel transform costs and gains -/

/-- C78: with `2^c` threads, fewer than elements, the threads together take `2^(e+c)` multiplications more than a serial transform, less the
`c 2^(e-1)` of the passes that they need not make. -/
theorem C78_overhead (e c : ℕ) (h : c < e) : (transformCost c e).muls + c * 2 ^ (e - 1) = (serialCost e).muls + 2 ^ (e + c) := by
  obtain ⟨k, rfl⟩ : ∃ k, e = c + k + 1 := ⟨e - c - 1, by omega⟩
  have h1 : c + k + 1 - c = k + 1 := by omega
  simp only [transformCost, if_neg (show ¬c + k + 1 ≤ c by omega), taskCost, serialCost, FftOps.add_muls, FftOps.smul_muls, h1, Nat.add_sub_cancel]
  rw [pow_succ, pow_add, pow_add, pow_add]
  ring

/-- C78: a single thread, or a build without the `multicore` feature, runs the parallel transform with one task as soon as there is more than one
element, which takes `n` multiplications and `n` additions more than the serial transform, `2 n` multiplications of scalars and three powers. -/
theorem C78_one_thread {F T : Type} [PrimeField F] [AddCommGroup T] [Module F T] (w : Worker) (hw : w.multicore = false ∨ w.threads = 1) (a : List T)
    (omega : F) (e : ℕ) (he : 0 < e) (o : FftOps) :
    (bestFftC w a omega e).run o =
      (bestFft w a omega e).map fun r => (r, o + (serialCost e + ⟨2 ^ e, 2 ^ e, 2 * 2 ^ e, 3, 0⟩)) := by
  have h0 : w.logCpus = 0 := by
    unfold Worker.logCpus
    rcases hw with h | h <;> simp [h]
  have := bestFftC_costs w a omega e o
  rw [this, h0]
  congr 1
  funext r
  congr 2
  rw [transformCost, if_neg (by omega)]
  ext <;> simp [taskCost] <;> ring

/-- C78: no number of threads makes a transform faster than `log n / 2` times: a thread takes at least `2 / log n` of the multiplications of a serial
transform, because it reads every element. -/
theorem C78_speedup (e c : ℕ) : 2 * (serialCost e).muls ≤ e * (taskCost e c).muls := by
  cases e with
  | zero => simp [serialCost]
  | succ k =>
    simp only [serialCost, taskCost, FftOps.add_muls, Nat.add_sub_cancel, pow_succ]
    nlinarith [Nat.zero_le ((k + 1) * ((k + 1 - c) * 2 ^ (k + 1 - c - 1)))]

/-- C78: two threads or more take each fewer multiplications than a serial transform from sixteen elements on, if there are more elements than threads. -/
theorem C78_gain (e c : ℕ) (he : 4 ≤ e) (hc : 0 < c) (hce : c < e) : (taskCost e c).muls < (serialCost e).muls := by
  obtain ⟨k, rfl⟩ : ∃ k, e = c + k + 1 := ⟨e - c - 1, by omega⟩
  obtain ⟨d, rfl⟩ : ∃ d, c = d + 1 := ⟨c - 1, by omega⟩
  have h1 : d + 1 + k + 1 - (d + 1) = k + 1 := by omega
  simp only [serialCost, taskCost, FftOps.add_muls, h1, Nat.add_sub_cancel]
  have hd : 1 ≤ 2 ^ d := Nat.one_le_two_pow
  have hk : 1 ≤ 2 ^ k := Nat.one_le_two_pow
  have e1 : 2 ^ (d + 1 + k + 1) = 4 * (2 ^ d * 2 ^ k) := by rw [pow_succ, pow_add, pow_succ]; ring
  have e2 : 2 ^ (d + 1 + k) = 2 * (2 ^ d * 2 ^ k) := by rw [pow_add, pow_succ]; ring
  rw [e1, e2]
  have hle : 2 ^ k ≤ 2 ^ d * 2 ^ k := Nat.le_mul_of_pos_left _ hd
  set q := 2 ^ d * 2 ^ k
  have hq : 0 < q := by positivity
  nlinarith [Nat.mul_le_mul_left (k + 1) hle]

/-- Three threads transform four elements in two tasks, and eight threads serially. -/
example : ∃ (d : EvaluationDomain DummyFr DummyFr) (r : List DummyFr), d.coeffs = [5, 6, 7, 0] ∧
    (bestFftC ⟨true, 3, by norm_num, fun _ => [2, 0, 1]⟩ d.coeffs d.omega d.exp).run 0 = some (r, ⟨10, 12, 14, 7, 0⟩) ∧
    (bestFftC ⟨true, 8, by norm_num, fun _ => []⟩ d.coeffs d.omega d.exp).run 0 = some (r, ⟨4, 8, 4, 2, 0⟩) ∧
    (bestFftC ⟨false, 8, by norm_num, fun _ => []⟩ d.coeffs d.omega d.exp).run 0 = some (r, ⟨8, 12, 12, 5, 0⟩) := by
  obtain ⟨d, h1, h2, h3⟩ := dummy_domain3
  have hb : Built d := ⟨_, d, h1, rfl, rfl⟩
  refine ⟨d, dftList d.omega d.coeffs, h2, ?_, ?_, ?_⟩ <;>
  · rw [C78_best, bestFft_eq _ d.omega d.exp d.coeffs (.inl (by rw [h3]; norm_num)) hb.wf.len hb.wf.prim, h3]
    refine congrArg some (Prod.ext rfl ?_)
    show 0 + transformCost (Worker.logCpus _) 2 = _
    simp only
    ext <;> decide +kernel

/-- The bounds are sharp: eight elements are not transformed with fewer multiplications per thread by two threads. -/
example : (taskCost 3 1).muls = (serialCost 3).muls ∧ (taskCost 4 1).muls = 28 ∧ (serialCost 4).muls = 32 := by
  decide

/-- The hypotheses of `C78_quotient` are met: three constraints, one thread. -/
example (w : Worker) (hw : w.multicore = false) : ∃ h : List DummyFr,
    (hCoeffsC w ([5, 6, 7] : List DummyFr) [2, 3, 4] [10, 18, 28]).run 0 =
      some (.ok h, ⟨7 * 8 + 40, 7 * 12 + 4, 7 * 12 + 16 + 3 * (S DummyFr - 2), 7 * 5 + 5, 10⟩) := by
  obtain ⟨d, h1, h2, _⟩ := dummy_domain3
  have hb : Built d := ⟨_, d, h1, rfl, rfl⟩
  have hl : d.coeffs.length = 4 := by rw [h2]; rfl
  have hp := hb.wf.prim
  rw [← hb.wf.len] at hp
  obtain ⟨A, ⟨hA, va⟩, _⟩ := C23_interpolate d.omega _ hp [5, 6, 7]
  obtain ⟨B, ⟨hB, vb⟩, _⟩ := C23_interpolate d.omega _ hp [2, 3, 4]
  obtain ⟨Cc, ⟨hC, vc⟩, _⟩ := C23_interpolate d.omega _ hp [10, 18, 28]
  obtain ⟨Q, _, _, hQ⟩ := C23_quotient w [5, 6, 7] [2, 3, 4] [10, 18, 28] rfl rfl (by decide +kernel) d h1
    (by rw [hl]; norm_num) A B Cc hA hB hC va vb vc
  refine ⟨(List.range (d.coeffs.length - 1)).map Q.coeff, ?_⟩
  rw [C78_quotient w ([5, 6, 7] : List DummyFr) [2, 3, 4] [10, 18, 28] rfl rfl (by decide +kernel), hQ]
  have hc : Nat.clog 2 ([5, 6, 7] : List DummyFr).length = 2 := by decide +kernel
  rw [hc]
  refine congrArg some (Prod.ext rfl ?_)
  ext <;> simp [Worker.logCpus, hw, transformCost, taskCost, serialCost, Worker.pieces, Worker.chunkSize]
  omega

end Bellman
