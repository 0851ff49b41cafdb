import Verif.Multicore
import Mathlib.Tactic.Ring
import Mathlib.Tactic.Common
import Mathlib.Data.Nat.Log

/-!
# Scheduling and chunking do not matter
-/

namespace Bellman

/-! ## Schedules -/

theorem Task.run_cons {σ : Type} (s : σ) (f : σ → Option σ) (fs : List (σ → Option σ)) :
    Task.run ⟨s, f :: fs⟩ = (f s).bind fun s' => Task.run ⟨s', fs⟩ := rfl

private theorem mapM_set {α β γ : Type} (run : α → Option β) (x : Option γ) (g : γ → α) :
    ∀ (ts : List α) (i : ℕ) (t : α), ts[i]? = some t → run t = x.bind (fun s => run (g s)) →
      (x.bind fun s => (ts.set i (g s)).mapM run) = ts.mapM run
  | [], i, t, h, _ => by simp at h
  | u :: us, 0, t, h, hr => by
    simp only [List.getElem?_cons_zero, Option.some.injEq] at h
    subst h
    simp only [List.set_cons_zero, List.mapM_cons, hr]
    cases x <;> rfl
  | u :: us, i + 1, t, h, hr => by
    simp only [List.getElem?_cons_succ] at h
    have ih := mapM_set run x g us i t h hr
    simp only [List.set_cons_succ, List.mapM_cons]
    rw [← ih]
    cases x with
    | none => cases run u <;> rfl
    | some s => rfl

/-- Whatever the schedule, a scope ends as if its tasks had been run one after the other. -/
theorem runSched_eq {σ : Type} (sch : List ℕ) : ∀ ts : List (Task σ), runSched sch ts = ts.mapM Task.run := by
  induction sch with
  | nil => intro ts; rfl
  | cons i rest ih =>
    intro ts
    rw [runSched]
    split
    · rename_i s f fs h
      simp only [ih]
      exact mapM_set Task.run (f s) (fun s' => ⟨s', fs⟩) ts i _ h (Task.run_cons s f fs)
    · exact ih ts

theorem Worker.runTasks_eq (w : Worker) {σ : Type} (ts : List (Task σ)) : w.runTasks ts = ts.mapM Task.run := by
  unfold Worker.runTasks
  split
  · exact runSched_eq _ _
  · rfl

/-! ## Loops -/

/-- Invariant rule for `for k in 0..n`. -/
theorem foldlM_range_inv {σ : Type} {n : ℕ} {f : σ → ℕ → Option σ} (P : ℕ → σ → Prop) {s : σ} (h0 : P 0 s)
    (hs : ∀ k < n, ∀ s, P k s → ∃ s', f s k = some s' ∧ P (k + 1) s') :
    ∃ s', (List.range n).foldlM f s = some s' ∧ P n s' := by
  induction n with
  | zero => exact ⟨s, rfl, h0⟩
  | succ n ih =>
    obtain ⟨s1, h1, p1⟩ := ih fun k hk => hs k (by omega)
    obtain ⟨s2, h2, p2⟩ := hs n (by omega) s1 p1
    refine ⟨s2, ?_, p2⟩
    rw [List.range_succ, List.foldlM_append, h1]
    simp [h2]

theorem foldl_range_inv {σ : Type} {n : ℕ} {f : σ → ℕ → σ} (P : ℕ → σ → Prop) {s : σ} (h0 : P 0 s)
    (hs : ∀ k < n, ∀ s, P k s → P (k + 1) (f s k)) : P n ((List.range n).foldl f s) := by
  induction n with
  | zero => exact h0
  | succ n ih =>
    rw [List.range_succ, List.foldl_append]
    exact hs n (by omega) _ (ih fun k hk => hs k (by omega))

theorem Task.run_range {σ : Type} (s : σ) (n : ℕ) (g : ℕ → σ → Option σ) :
    Task.run ⟨s, (List.range n).map g⟩ = (List.range n).foldlM (fun s k => g k s) s := by
  unfold Task.run
  simp only [List.foldlM_map]

/-- `mapM` when every element succeeds with a known result. -/
theorem mapM_some {α β : Type} (f : α → Option β) (g : α → β) (l : List α) (h : ∀ x ∈ l, f x = some (g x)) :
    l.mapM f = some (l.map g) := by
  induction l with
  | nil => rfl
  | cons x xs ih =>
    rw [List.mapM_cons, h x (by simp), ih fun y hy => h y (by simp [hy])]
    rfl

theorem mapM_mapIdx_some {α γ β : Type} (mk : ℕ → α → γ) (f : γ → Option β) (g : ℕ → α → β) (l : List α)
    (h : ∀ i, ∀ x ∈ l, f (mk i x) = some (g i x)) : (l.mapIdx mk).mapM f = some (l.mapIdx g) := by
  induction l generalizing mk g with
  | nil => rfl
  | cons x xs ih =>
    rw [List.mapIdx_cons, List.mapIdx_cons, List.mapM_cons, h 0 x (by simp),
      ih (fun i => mk (i + 1)) (fun i => g (i + 1)) fun i y hy => h (i + 1) y (by simp [hy])]
    rfl

/-- One step of updating a list in place from left to right. -/
theorem mapIdx_upto_set {α : Type} (l : List α) (g : ℕ → α → α) (k : ℕ) (hk : k < l.length) :
    (l.mapIdx fun i x => if i < k then g i x else x).set k (g k l[k]) =
      l.mapIdx fun i x => if i < k + 1 then g i x else x := by
  apply List.ext_getElem?
  intro i
  simp only [List.getElem?_set, List.length_mapIdx, List.getElem?_mapIdx]
  by_cases h : k = i
  · subst h
    simp [hk]
  · simp only [h, if_false]
    cases l[i]? with
    | none => rfl
    | some x =>
      simp only [Option.map_some]
      congr 1
      by_cases h1 : i < k
      · simp [h1, show i < k + 1 by omega]
      · simp [h1, show ¬ i < k + 1 by omega]

theorem mapIdx_upto_get {α : Type} (l : List α) (g : ℕ → α → α) (k : ℕ) (hk : k < l.length) :
    (l.mapIdx fun i x => if i < k then g i x else x)[k]? = some l[k] := by
  simp [List.getElem?_mapIdx, hk]

/-- The loop of a task that walks its chunk: if before step `j` the local is `b j`, the chunk ends up as
`c.mapIdx fun j x => (f (b j) x).1`. -/
theorem loopTask_run {α β : Type} (init : β) (f : β → α → α × β) (b : ℕ → β) (h0 : b 0 = init)
    (hb : ∀ j x, (f (b j) x).2 = b (j + 1)) (c : List α) :
    (loopTask init f c).run = some (c.mapIdx fun j x => (f (b j) x).1, b c.length) := by
  unfold loopTask
  rw [Task.run_range]
  obtain ⟨s, hs, hP⟩ := foldlM_range_inv (n := c.length)
    (f := fun (s : List α × β) j => match s.1[j]? with
      | some x => some (s.1.set j (f s.2 x).1, (f s.2 x).2)
      | none => none)
    (fun k s => s = (c.mapIdx (fun i x => if i < k then (f (b i) x).1 else x), b k))
    (s := (c, init)) (by simp only [Nat.not_lt_zero, if_false, h0]; rw [show (List.mapIdx (fun _ x => x) c) = c from List.ext_getElem? fun i => by simp [List.getElem?_mapIdx]]) (by
      rintro k hk _ rfl
      refine ⟨_, ?_, rfl⟩
      dsimp only
      rw [mapIdx_upto_get c (fun i x => (f (b i) x).1) k hk]
      dsimp only
      rw [mapIdx_upto_set c (fun i x => (f (b i) x).1) k hk, hb])
  refine hs.trans ?_
  rw [hP]
  congr 2
  apply List.ext_getElem?
  intro i
  simp only [List.getElem?_mapIdx]
  by_cases hi : i < c.length
  · simp [hi]
  · simp [hi]

/-! ## Chunks -/

/-- Chunk `i` starts at the global position `i * n`. -/
theorem chunksAux_mapIdx {α β : Type} (n : ℕ) (hn : 0 < n) (fuel : ℕ) (l : List α) (h : l.length ≤ fuel) (off : ℕ)
    (g : ℕ → α → β) :
    ((chunksAux n fuel l).mapIdx fun i c => c.mapIdx fun j x => g (off + i * n + j) x).flatten =
      l.mapIdx fun i x => g (off + i) x := by
  induction fuel generalizing l off with
  | zero =>
    have : l = [] := List.length_eq_zero_iff.1 (by omega)
    subst this; rfl
  | succ f ih =>
    cases l with
    | nil => rfl
    | cons x xs =>
      rw [chunksAux]
      set l := x :: xs with hl
      rw [List.mapIdx_cons, List.flatten_cons]
      have hlen : (l.drop n).length ≤ f := by
        rw [List.length_drop]
        have : l.length = xs.length + 1 := by rw [hl]; rfl
        omega
      have ih' := ih (l.drop n) hlen (off + n)
      have e : (fun (i : ℕ) (c : List α) => c.mapIdx fun j x => g (off + (i + 1) * n + j) x) =
          fun (i : ℕ) (c : List α) => c.mapIdx fun j x => g (off + n + i * n + j) x := by
        funext i c
        congr 1
        funext j x
        congr 1
        ring
      rw [e, ih']
      conv_rhs => rw [← List.take_append_drop n l]
      rw [List.mapIdx_append]
      congr 1
      · congr 1
        funext j x
        congr 1
        omega
      · by_cases hle : n ≤ l.length
        · congr 1
          funext j x
          rw [List.length_take]
          congr 1
          omega
        · have : l.drop n = [] := List.drop_eq_nil_of_le (by omega)
          rw [this]; rfl

theorem chunksAux_length (n : ℕ) {α β : Type} (fuel : ℕ) (a : List α) (b : List β)
    (h : a.length = b.length) : (chunksAux n fuel a).map List.length = (chunksAux n fuel b).map List.length := by
  induction fuel generalizing a b with
  | zero => rfl
  | succ f ih =>
    cases a with
    | nil =>
      have : b = [] := List.length_eq_zero_iff.1 (by simpa using h.symm)
      subst this; rfl
    | cons x xs =>
      cases b with
      | nil => simp at h
      | cons y ys =>
        simp only [chunksAux, List.map_cons, List.length_take, h]
        rw [ih]
        rw [List.length_drop, List.length_drop, h]

theorem chunksAux_zip {α β : Type} (n : ℕ) (fuel : ℕ) (a : List α) (b : List β)
    (h : a.length = b.length) :
    (chunksAux n fuel a).zip (chunksAux n fuel b) =
      (chunksAux n fuel (a.zip b)).map fun c => (c.map Prod.fst, c.map Prod.snd) := by
  induction fuel generalizing a b with
  | zero => rfl
  | succ f ih =>
    cases a with
    | nil => rfl
    | cons x xs =>
      cases b with
      | nil => simp at h
      | cons y ys =>
        rw [chunksAux, chunksAux]
        rw [show (x :: xs).zip (y :: ys) = (x, y) :: xs.zip ys from rfl, chunksAux]
        rw [show (x, y) :: xs.zip ys = (x :: xs).zip (y :: ys) from rfl]
        rw [List.zip_cons_cons, List.map_cons, ih _ _ (by rw [List.length_drop, List.length_drop, h])]
        have h1 : (List.take n ((x :: xs).zip (y :: ys))) = (List.take n (x :: xs)).zip (List.take n (y :: ys)) := by
          simp only [List.zip, List.take_zipWith]
        have h2 : (List.drop n ((x :: xs).zip (y :: ys))) = (List.drop n (x :: xs)).zip (List.drop n (y :: ys)) := by
          simp only [List.zip, List.drop_zipWith]
        rw [h1, h2]
        congr 2
        · rw [List.map_fst_zip]
          simp only [List.length_take, h]; omega
        · rw [List.map_snd_zip]
          simp only [List.length_take, h]; omega

theorem Worker.chunkSize_pos (w : Worker) (hw : w.multicore = true) (n : ℕ) : 0 < w.chunkSize n := by
  unfold Worker.chunkSize
  rw [if_pos hw]
  split
  · exact Nat.one_pos
  · exact Nat.div_pos (by omega) w.threads_pos

/-- The chunk size is positive except, without the `multicore` feature, for zero elements. -/
theorem Worker.chunkSize_pos_iff (w : Worker) (n : ℕ) : 0 < w.chunkSize n ↔ w.multicore = true ∨ 0 < n := by
  by_cases hw : w.multicore = true
  · simp [hw, w.chunkSize_pos hw]
  · simp [Worker.chunkSize, hw]

/-- A chunked loop whose tasks apply a position-dependent function computes that function over the whole slice. -/
theorem Worker.forChunks_eq (w : Worker) {α σ : Type} (elements : ℕ) (mk : ℕ → ℕ → List α → Task σ) (out : σ → List α)
    (l : List α) (g : ℕ → α → α) (hpos : 0 < w.chunkSize elements)
    (hmk : ∀ i c, c.length ≤ w.chunkSize elements → i * w.chunkSize elements + c.length ≤ l.length →
      ∃ s, (mk (w.chunkSize elements) i c).run = some s ∧
      out s = c.mapIdx fun j x => g (i * w.chunkSize elements + j) x) :
    w.forChunks elements mk out l = some (l.mapIdx g) := by
  set n := w.chunkSize elements with hn
  unfold Worker.forChunks
  rw [← hn]
  have hc : chunks? n l = some (chunksAux n l.length l) := by
    unfold chunks?
    rw [if_neg (by omega)]
  simp only [hc, Option.bind_eq_bind, Option.bind_some]
  rw [Worker.runTasks_eq]
  -- positions of the chunks
  have hposn : ∀ (fuel : ℕ) (l : List α), l.length ≤ fuel → ∀ i c, (chunksAux n fuel l)[i]? = some c →
      c.length ≤ n ∧ i * n + c.length ≤ l.length := by
    intro fuel
    induction fuel with
    | zero => intro l _ i c h; simp [chunksAux] at h
    | succ f ih =>
      intro l hl i c h
      cases l with
      | nil => simp [chunksAux] at h
      | cons x xs =>
        rw [chunksAux] at h
        cases i with
        | zero =>
          simp only [List.getElem?_cons_zero, Option.some.injEq] at h
          subst h
          simp only [List.length_take, List.length_cons]
          omega
        | succ i =>
          rw [List.getElem?_cons_succ] at h
          have hl' : (List.drop n (x :: xs)).length ≤ f := by
            rw [List.length_drop]; simp only [List.length_cons] at hl ⊢; omega
          obtain ⟨h1, h2⟩ := ih _ hl' i c h
          refine ⟨h1, ?_⟩
          rw [List.length_drop] at h2
          by_cases hx : n ≤ (x :: xs).length
          · rw [Nat.add_mul]; omega
          · have : List.drop n (x :: xs) = [] := List.drop_eq_nil_of_le (by omega)
            rw [this] at h
            cases f <;> simp [chunksAux] at h
  -- run every task
  have key : ∀ (cs : List (List α)) (mk' : ℕ → List α → Task σ) (g' : ℕ → List α → List α),
      (∀ i c, cs[i]? = some c → ∃ s, (mk' i c).run = some s ∧ out s = g' i c) →
      ∃ rs, (cs.mapIdx mk').mapM Task.run = some rs ∧ rs.map out = cs.mapIdx g' := by
    intro cs
    induction cs with
    | nil => intro mk' g' _; exact ⟨[], rfl, rfl⟩
    | cons c cs ih =>
      intro mk' g' h
      obtain ⟨s, hs, ho⟩ := h 0 c rfl
      obtain ⟨rs, hrs, hro⟩ := ih (fun i => mk' (i + 1)) (fun i => g' (i + 1)) fun i c' hi =>
        h (i + 1) c' (by simpa using hi)
      refine ⟨s :: rs, ?_, ?_⟩
      · rw [List.mapIdx_cons, List.mapM_cons, hs, hrs]; rfl
      · rw [List.map_cons, List.mapIdx_cons, ho, hro]
  obtain ⟨rs, hrs, hro⟩ := key (chunksAux n l.length l) (fun i c => mk n i c)
    (fun i c => c.mapIdx fun j x => g (i * n + j) x) (fun i c hi => by
      obtain ⟨h1, h2⟩ := hposn l.length l le_rfl i c hi
      exact hmk i c h1 h2)
  rw [hrs]
  simp only [Option.bind_some, Option.pure_def, Option.some.injEq]
  rw [hro]
  have := chunksAux_mapIdx n hpos l.length l le_rfl 0 g
  simpa only [Nat.zero_add] using this

theorem Worker.forChunks_zero (w : Worker) {α σ : Type} (elements : ℕ) (mk : ℕ → ℕ → List α → Task σ)
    (out : σ → List α) (l : List α) (h0 : w.chunkSize elements = 0) : w.forChunks elements mk out l = none := by
  unfold Worker.forChunks
  simp [h0, chunks?]

/-! ## `log2_floor` -/

theorem log2FloorLoop_spec (num pow : ℕ) (h : 2 ^ pow ≤ num) :
    2 ^ log2FloorLoop num pow ≤ num ∧ num < 2 ^ (log2FloorLoop num pow + 1) := by
  induction hm : num - pow using Nat.strong_induction_on generalizing pow with
  | _ d ih =>
    rw [log2FloorLoop.eq_1]
    simp only [Nat.shiftLeft_eq, Nat.one_mul]
    split
    · rename_i hle
      have : pow + 1 < 2 ^ (pow + 1) := Nat.lt_two_pow_self
      exact ih (num - (pow + 1)) (by omega) (pow + 1) hle rfl
    · exact ⟨h, by omega⟩

theorem log2Floor_spec (num : ℕ) (h : 0 < num) : log2Floor num = some (Nat.log 2 num) := by
  unfold log2Floor
  rw [if_pos h]
  obtain ⟨h1, h2⟩ := log2FloorLoop_spec num 0 (by simp only [pow_zero]; omega)
  rw [Option.some.injEq]
  exact (Nat.log_eq_of_pow_le_of_lt_pow h1 h2).symm

theorem Worker.logNumThreads_some (w : Worker) :
    w.logNumThreads = some (if w.multicore then Nat.log 2 w.threads else 0) := by
  unfold Worker.logNumThreads
  split
  · exact log2Floor_spec _ w.threads_pos
  · rfl

end Bellman
