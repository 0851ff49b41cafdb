import Verif.Proofs.Crs
import Verif.FieldInstances

/-!
# Properties of work splitting: C27
-/

namespace Bellman

open PrimeField EvaluationDomain

set_option linter.unusedSectionVars false

variable {F T G1 G2 : Type} [PrimeField F] [AddCommGroup T] [Module F T] [AddCommGroup G1] [AddCommGroup G2] [Module F G1]
  [Module F G2]

/-- C27: the chunk size is never zero with the `multicore` feature; without it, it is zero only for no elements. -/
theorem C27_chunk_size (w : Worker) (n : ℕ) : (w.multicore = true → 0 < w.chunkSize n) ∧ (0 < n → 0 < w.chunkSize n) :=
  ⟨fun h => w.chunkSize_pos h n, fun h => (w.chunkSize_pos_iff n).2 (.inr h)⟩

/-- C27: the chunks of a slice: chunk `i` consists of the elements from position `i * chunk` on, no chunk is empty or larger than
the chunk size, together they are the slice; the element at position `p` is element `p % chunk` of chunk `p / chunk`. -/
theorem C27_chunks {α : Type} (w : Worker) (l : List α) (h : w.multicore = true ∨ 0 < l.length) :
    ∃ cs, chunks? (w.chunkSize l.length) l = some cs ∧ cs.flatten = l ∧
      (∀ i c, cs[i]? = some c → c = (l.drop (i * w.chunkSize l.length)).take (w.chunkSize l.length) ∧ c ≠ []) ∧
      (∀ p < l.length, ∃ c, cs[p / w.chunkSize l.length]? = some c ∧ c[p % w.chunkSize l.length]? = l[p]?) := by
  have hn : 0 < w.chunkSize l.length := (w.chunkSize_pos_iff _).2 h
  set n := w.chunkSize l.length
  have he := chunksAux_eq' n hn l.length l le_rfl
  refine ⟨chunksAux n l.length l, chunks?_pos hn l, chunksAux_flatten n hn _ l le_rfl, fun i c hc => ?_, fun p hp => ?_⟩
  · rw [he, List.getElem?_map, Option.map_eq_some_iff] at hc
    obtain ⟨j, hj, rfl⟩ := hc
    have hi : i < (l.length + (n - 1)) / n := by
      by_contra hc
      rw [List.getElem?_eq_none (by simpa using hc)] at hj
      cases hj
    · rw [List.getElem?_range hi] at hj
      obtain rfl := Option.some.inj hj
      refine ⟨by rw [Nat.mul_comm], fun hnil => ?_⟩
      have h1 := congrArg List.length hnil
      simp only [List.length_take, List.length_drop, List.length_nil] at h1
      have h2 : (i + 1) * n ≤ l.length + (n - 1) := (Nat.le_div_iff_mul_le hn).1 hi
      rw [Nat.add_mul, Nat.mul_comm i n] at h2
      omega
  · have h1 : p / n < (l.length + (n - 1)) / n := by
      refine (Nat.le_div_iff_mul_le hn).2 ?_
      have := Nat.div_mul_le_self p n
      rw [Nat.succ_mul]
      omega
    refine ⟨(l.drop (n * (p / n))).take n, ?_, ?_⟩
    · rw [he, List.getElem?_map, List.getElem?_range h1]
      rfl
    · rw [List.getElem?_take_of_lt (Nat.mod_lt _ hn), List.getElem?_drop, Nat.div_add_mod]

/-- C27: `log2_floor` is the integer logarithm, and panics for zero only. -/
theorem C27_log2_floor (n : ℕ) : log2Floor 0 = none ∧ (0 < n → ∃ k, log2Floor n = some k ∧ 2 ^ k ≤ n ∧ n < 2 ^ (k + 1)) := by
  refine ⟨rfl, fun h => ⟨_, log2Floor_spec n h, Nat.pow_log_le_self 2 (by omega), Nat.lt_pow_succ_log_self (by norm_num) n⟩⟩

/-- C27: a loop split over the chunks of a slice, whatever each element becomes as a function of its position, is that loop over the
whole slice: for every thread count and every interleaving. -/
theorem C27_loop {α β : Type} (w : Worker) (l : List α) (start : ℕ → β) (f : β → α → α × β)
    (hstart : ∀ p x, (f (start p) x).2 = start (p + 1)) (h : w.multicore = true ∨ 0 < l.length) :
    w.forChunks l.length (fun chunk i c => loopTask (start (i * chunk)) f c) Prod.fst l =
      some (l.mapIdx fun p x => (f (start p) x).1) := by
  have hn : 0 < w.chunkSize l.length := (w.chunkSize_pos_iff _).2 h
  refine w.forChunks_eq l.length _ Prod.fst l (fun p x => (f (start p) x).1) hn fun i c _ _ => ?_
  exact ⟨_, loopTask_run (start (i * w.chunkSize l.length)) f (fun j => start (i * w.chunkSize l.length + j)) rfl
    (fun j x => hstart _ x) c, rfl⟩

/-- C27: `distribute_powers` multiplies element `i` by the `i`-th power of `g`, for every worker. -/
theorem C27_distribute_powers (w : Worker) (d : EvaluationDomain F T) (g : F) (h : d.coeffs ≠ []) :
    d.distributePowers w g = some { d with coeffs := d.coeffs.mapIdx fun i x => g ^ i • x } :=
  distribute_eq w d g (List.length_pos_iff.2 h)

/-- C27: the pointwise operations, for every worker. -/
theorem C27_pointwise (w : Worker) (d o : EvaluationDomain F T) (s : EvaluationDomain F F) (h : d.coeffs ≠ []) :
    (d.coeffs.length = s.coeffs.length →
      d.mulAssign w s = some { d with coeffs := List.zipWith (fun x y => y • x) d.coeffs s.coeffs }) ∧
    (d.coeffs.length = o.coeffs.length →
      d.subAssign w o = some { d with coeffs := List.zipWith (fun x y => x - y) d.coeffs o.coeffs }) :=
  ⟨fun h' => mulAssign_eq w d s h' (List.length_pos_iff.2 h), fun h' => subAssign_eq w d o h' (List.length_pos_iff.2 h)⟩

/-- C27: the powers of tau are its powers, for every worker. -/
theorem C27_powers_of_tau (w : Worker) (tau : F) (l : List F) (h : l ≠ []) :
    w.forChunks l.length (powersTask tau) Prod.fst l = some ((List.range l.length).map fun i => tau ^ i) := by
  rw [powers_eq w tau l (List.length_pos_iff.2 h), mapIdx_pow_eq]

/-- C27: element `i` of the H query is made from power `i`, for every worker; without the `multicore` feature an empty query
panics. -/
theorem C27_h_query (w : Worker) (g1 : G1) (coeff : F) (h : List G1) (powers : List F) (hl : h.length ≤ powers.length) :
    (w.multicore = true ∨ 0 < h.length →
      hQuery w g1 coeff h powers = some ((powers.take h.length).map fun x => (x * coeff) • g1)) ∧
    (¬ (w.multicore = true ∨ 0 < h.length) → hQuery w g1 coeff h powers = none) := by
  refine ⟨hQuery_eq w g1 coeff h powers hl, fun hn => ?_⟩
  have h0 : w.chunkSize h.length = 0 := by
    have := (w.chunkSize_pos_iff h.length).not.2 hn
    omega
  unfold hQuery
  simp only [h0, chunks?, if_true]
  rfl

/-- C27: the query evaluation: position `j` of each output is made from column `j` of the matrices, for every worker; columns
refer to existing Lagrange coefficients. -/
theorem C27_eval (w : Worker) (e : EvalIn F G1 G2) (at_ bt ct : List (List (F × ℕ))) (out : EvalOut G1 G2)
    (hb : bt.length = at_.length) (hc : ct.length = at_.length) (h1 : out.a.length = at_.length)
    (h2 : out.bG1.length = at_.length) (h3 : out.bG2.length = at_.length) (h4 : out.ext.length = at_.length)
    (ha : ∀ p ∈ at_ ++ bt ++ ct, ∀ x ∈ p, x.2 < e.powersOfTau.length) (hw : w.multicore = true ∨ at_ ≠ []) :
    ∃ r, evalQap w e at_ bt ct out = some r ∧ r.a.length = at_.length ∧ r.bG1.length = at_.length ∧
      r.bG2.length = at_.length ∧ r.ext.length = at_.length ∧
      ∀ (j : ℕ) (pa pb pc : List (F × ℕ)), at_[j]? = some pa → bt[j]? = some pb → ct[j]? = some pc →
        ∃ x y z, evalAtTau e.powersOfTau pa = some x ∧ evalAtTau e.powersOfTau pb = some y ∧ evalAtTau e.powersOfTau pc = some z ∧
          r.a[j]? = some (x • e.g1) ∧ r.bG1[j]? = some (y • e.g1) ∧ r.bG2[j]? = some (y • e.g2) ∧
          r.ext[j]? = some (((x * e.beta + y * e.alpha + z) * e.inv) • e.g1) := by
  have ia : InPot e.powersOfTau at_ := fun p hp => ha p (by simp [hp])
  have ib : InPot e.powersOfTau bt := fun p hp => ha p (by simp [hp])
  have ic : InPot e.powersOfTau ct := fun p hp => ha p (by simp [hp])
  refine ⟨_, evalQap_eq w e at_ bt ct out hb hc h1 h2 h3 h4 ia ib ic (hw.imp id List.length_pos_iff.2), ?_, ?_, ?_, ?_, ?_⟩
  · simp [hb, hc]
  · simp [hb, hc]
  · simp [hb, hc]
  · simp [hb, hc]
  · intro j pa pb pc ea eb ec
    have hz : (at_.zip (bt.zip ct))[j]? = some (pa, pb, pc) := by
      rw [List.getElem?_zip_eq_some]
      refine ⟨ea, ?_⟩
      rw [List.getElem?_zip_eq_some]
      exact ⟨eb, ec⟩
    refine ⟨_, _, _, evalAtTau_eq _ pa (ia pa (List.mem_of_getElem? ea)), evalAtTau_eq _ pb (ib pb (List.mem_of_getElem? eb)),
      evalAtTau_eq _ pc (ic pc (List.mem_of_getElem? ec)), ?_, ?_, ?_, ?_⟩ <;>
    · rw [List.getElem?_map, hz]
      rfl

/-- A worker with three threads that runs the tasks in a strange order. -/
def threeThreads : Worker := ⟨true, 3, by norm_num, fun _ => [2, 1, 1, 0, 2, 7, 0, 1]⟩

/-- Seven elements over three threads: chunks of two, two, two and one, with the powers of the whole slice. -/
example : threeThreads.chunkSize 7 = 2 ∧ chunks? 2 [1, 2, 3, 4, 5, 6, 7] = some [[1, 2], [3, 4], [5, 6], [7]] ∧
    threeThreads.forChunks 7 (powersTask (2 : DummyFr)) Prod.fst [0, 0, 0, 0, 0, 0, 0] = some [1, 2, 4, 8, 16, 32, 64] := by
  refine ⟨rfl, rfl, ?_⟩
  have := C27_powers_of_tau threeThreads (2 : DummyFr) [0, 0, 0, 0, 0, 0, 0] (by simp)
  refine this.trans ?_
  decide +kernel

/-- Fewer elements than threads: chunks of one; no elements: chunk size one, nothing to do. -/
example : threeThreads.chunkSize 2 = 1 ∧ threeThreads.chunkSize 0 = 1 ∧
    hQuery threeThreads (1 : DummyFr) (3 : DummyFr) [] [1] = some [] :=
  ⟨rfl, rfl, (C27_h_query threeThreads 1 3 [] [1] (by simp)).1 (.inl rfl)⟩

/-- `C27_eval` on two columns. -/
example : ∃ r, evalQap threeThreads (⟨1, 1, [3, 4], 5, 6, 7⟩ : EvalIn DummyFr DummyFr DummyFr) [[(1, 0)], []] [[], [(2, 1)]] [[], []]
    ⟨[0, 0], [0, 0], [0, 0], [0, 0]⟩ = some r ∧ r.a.length = 2 := by
  obtain ⟨r, hr, h1, _⟩ := C27_eval threeThreads (⟨1, 1, [3, 4], 5, 6, 7⟩ : EvalIn DummyFr DummyFr DummyFr) [[(1, 0)], []] [[], [(2, 1)]]
    [[], []] ⟨[0, 0], [0, 0], [0, 0], [0, 0]⟩ rfl rfl rfl rfl rfl rfl (by simp) (.inl rfl)
  exact ⟨r, hr, h1⟩

end Bellman
