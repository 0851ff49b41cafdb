import Verif.Proofs.Batch
import Mathlib.Algebra.Polynomial.Roots
import Mathlib.Data.Set.Card
import Mathlib.Data.Fintype.Card
import Mathlib.Data.Fintype.BigOperators
import Mathlib.SetTheory.Cardinal.Finite

/-!
# C35, C36: batch verification

`weights tape` are the non-zero values of a tape, in order; in single-threaded verification the `i`-th of them is the weight of the
`i`-th item, in multicore verification the first of chunk `i`'s tape is the weight of the chunk.  A reduction tree fits a batch if it
consumes one accumulator for each of the `⌈n/8⌉` chunks.
-/

namespace Bellman

open PrimeField Polynomial Finset

set_option linter.unusedSectionVars false

variable {F G1 G2 GT : Type} [PrimeField F] [AddCommGroup G1] [AddCommGroup G2] [AddCommGroup GT]
  [Module F G1] [Module F G2] [Module F GT] [DecidableEq GT]

theorem verifySingle_ok (E : Engine F G1 G2 GT) (vk : VerifyingKey G1 G2) (it : Item F G1 G2) :
    it.verifySingle E (prepareVerifyingKey E vk) = some (.ok ()) ↔ it.inputs.length + 1 = vk.ic.length ∧ it.defect E vk = 0 := by
  rw [Item.verifySingle, verifyProof_ok, it.defect_eq_zero E vk]

theorem verifySingle_invalid (E : Engine F G1 G2 GT) (vk : VerifyingKey G1 G2) (it : Item F G1 G2) :
    it.verifySingle E (prepareVerifyingKey E vk) = some (.error .invalidProof) ↔
      it.inputs.length + 1 = vk.ic.length ∧ it.defect E vk ≠ 0 := by
  rw [ne_eq, it.defect_eq_zero E vk, Item.verifySingle]
  rcases verifyProof_cases E vk it.proof it.inputs with ⟨h, e⟩ | ⟨h, h', e⟩ | ⟨h, h', e⟩ <;> rw [e]
  · simp [h]
  · simp [h']
  · simp [h, h']

theorem defectSum_zero (E : Engine F G1 G2 GT) (vk : VerifyingKey G1 G2) (ws : List F) (items : List (Item F G1 G2))
    (h : ∀ it ∈ items, it.defect E vk = 0) : defectSum E vk ws items = 0 := by
  unfold defectSum
  induction items generalizing ws with
  | nil => simp
  | cons it items ih =>
    cases ws with
    | nil => simp
    | cons w ws =>
      rw [List.zipWith_cons_cons, List.sum_cons, ih ws fun i hi => h i (by simp [hi]), h it (by simp), smul_zero, add_zero]

/-! ### C35 -/

/-- C35: a batch of valid items is accepted, for every tape that is long enough. -/
theorem C35_single (E : Engine F G1 G2 GT) (vk : VerifyingKey G1 G2) (v : BatchVerifier F G1 G2) (tape : List F)
    (hv : ∀ it ∈ v.items, it.verifySingle E (prepareVerifyingKey E vk) = some (.ok ()))
    (ht : v.items.length ≤ (weights tape).length) :
    v.verify E tape vk = some (.ok ()) := by
  have hv' := fun it h => (verifySingle_ok E vk it).1 (hv it h)
  rcases batch_cases E vk v tape with ⟨⟨it, h, h'⟩, _⟩ | ⟨_, ⟨h, _⟩ | ⟨_, h⟩⟩
  · exact absurd (hv' it h).1 h'
  · omega
  · rw [h, if_pos (defectSum_zero E vk _ _ fun it h => (hv' it h).2)]

/-- C35: the same for the multicore verifier, for all tapes of the chunks and all reduction trees. -/
theorem C35_multicore (E : Engine F G1 G2 GT) (vk : VerifyingKey G1 G2) (v : BatchVerifier F G1 G2) (tapes : ℕ → List F)
    (tree : ReduceTree) (htree : tree.size = (v.items.length + 7) / 8)
    (hv : ∀ it ∈ v.items, it.verifySingle E (prepareVerifyingKey E vk) = some (.ok ()))
    (ht : ∀ i < (v.items.length + 7) / 8, weights (tapes i) ≠ []) :
    v.verifyMulticore E tapes tree vk = some (.ok ()) := by
  have hv' := fun it h => (verifySingle_ok E vk it).1 (hv it h)
  rcases batch_multicore_cases E vk v tapes tree htree with ⟨⟨it, h, h'⟩, _⟩ | ⟨_, ⟨⟨i, h, h'⟩, _⟩ | ⟨_, h⟩⟩
  · exact absurd (hv' it h).1 h'
  · exact absurd h' (ht i h)
  · rw [h, if_pos]
    refine sum_eq_zero fun i _ => ?_
    exact defectSum_zero E vk _ _ fun it h => (hv' it (List.mem_of_mem_drop (List.mem_of_mem_take h))).2

/-- C35: a batch of valid items is not rejected on any tape whatsoever: when a tape is too short the loop is still drawing. -/
theorem C35_no_error (E : Engine F G1 G2 GT) (vk : VerifyingKey G1 G2) (v : BatchVerifier F G1 G2) (tape : List F) (tapes : ℕ → List F)
    (tree : ReduceTree) (htree : tree.size = (v.items.length + 7) / 8)
    (hv : ∀ it ∈ v.items, it.verifySingle E (prepareVerifyingKey E vk) = some (.ok ())) (e : VerificationError) :
    v.verify E tape vk ≠ some (.error e) ∧ v.verifyMulticore E tapes tree vk ≠ some (.error e) := by
  have hv' := fun it h => (verifySingle_ok E vk it).1 (hv it h)
  constructor
  · intro he
    rcases batch_cases E vk v tape with ⟨⟨it, h, h'⟩, _⟩ | ⟨_, ⟨_, h⟩ | ⟨h, _⟩⟩
    · exact absurd (hv' it h).1 h'
    · rw [h] at he; cases he
    · rw [C35_single E vk v tape hv h] at he; cases he
  · intro he
    rcases batch_multicore_cases E vk v tapes tree htree with ⟨⟨it, h, h'⟩, _⟩ | ⟨_, ⟨_, h⟩ | ⟨h, _⟩⟩
    · exact absurd (hv' it h).1 h'
    · rw [h] at he; cases he
    · rw [C35_multicore E vk v tapes tree htree hv h] at he; cases he

/-- C35: the empty batch is accepted without drawing. -/
theorem C35_empty (E : Engine F G1 G2 GT) (vk : VerifyingKey G1 G2) (tapes : ℕ → List F) (tree : ReduceTree) (htree : tree.size = 0) :
    (BatchVerifier.new : BatchVerifier F G1 G2).verify E [] vk = some (.ok ()) ∧
    (BatchVerifier.new : BatchVerifier F G1 G2).verifyMulticore E tapes tree vk = some (.ok ()) :=
  ⟨C35_single E vk _ _ (by simp [BatchVerifier.new]) (by simp [BatchVerifier.new]),
   C35_multicore E vk _ _ _ (by simpa [BatchVerifier.new] using htree) (by simp [BatchVerifier.new]) (by simp [BatchVerifier.new])⟩

/-- C35: a verifier made by `new` and `queue` holds exactly the queued proofs and inputs, in order. -/
theorem C35_queue (xs : List (Proof G1 G2 × List F)) :
    (xs.foldl (fun (v : BatchVerifier F G1 G2) x => v.queue (Item.ofPair x)) BatchVerifier.new).items =
      xs.map fun x => ⟨x.1, x.2⟩ := by
  have : ∀ (xs : List (Proof G1 G2 × List F)) (v : BatchVerifier F G1 G2),
      (xs.foldl (fun (v : BatchVerifier F G1 G2) x => v.queue (Item.ofPair x)) v).items = v.items ++ xs.map fun x => ⟨x.1, x.2⟩ := by
    intro xs
    induction xs with
    | nil => simp
    | cons x xs ih =>
      intro v
      rw [List.foldl_cons, ih]
      simp [BatchVerifier.queue, Item.ofPair]
  simpa [BatchVerifier.new] using this xs BatchVerifier.new

/-- C35, from the caller's side: if `verify_proof` accepts every pair that was queued, then so does the batch, with enough random
values. -/
theorem C35_queued (E : Engine F G1 G2 GT) (vk : VerifyingKey G1 G2) (xs : List (Proof G1 G2 × List F)) (tape : List F)
    (hv : ∀ x ∈ xs, verifyProof E (prepareVerifyingKey E vk) x.1 x.2 = some (.ok ()))
    (ht : xs.length ≤ (weights tape).length) :
    (xs.foldl (fun (v : BatchVerifier F G1 G2) x => v.queue (Item.ofPair x)) BatchVerifier.new).verify E tape vk = some (.ok ()) := by
  apply C35_single
  · rw [C35_queue]; intro it hit
    obtain ⟨x, hx, rfl⟩ := List.mem_map.1 hit
    exact hv x hx
  · rw [C35_queue]; simpa using ht

/-! ### C36 -/

/-- C36: an item with the wrong number of inputs: always rejected, whatever else is in the batch. -/
theorem C36_length (E : Engine F G1 G2 GT) (vk : VerifyingKey G1 G2) (v : BatchVerifier F G1 G2) (tape : List F) (tapes : ℕ → List F)
    (tree : ReduceTree) (it : Item F G1 G2) (hit : it ∈ v.items) (hl : it.inputs.length + 1 ≠ vk.ic.length) :
    v.verify E tape vk = some (.error .invalidVerifyingKey) ∧
    v.verifyMulticore E tapes tree vk = some (.error .invalidVerifyingKey) :=
  ⟨by rw [BatchVerifier.verify, if_pos ((any_false_iff v vk).2 ⟨it, hit, hl⟩)],
   by rw [BatchVerifier.verifyMulticore, if_pos ((any_false_iff v vk).2 ⟨it, hit, hl⟩)]⟩

theorem powersFrom_length (w z : F) (n : ℕ) : (powersFrom w z n).length = n := by
  induction n generalizing w with
  | zero => rfl
  | succ n ih => simp [powersFrom, ih]

theorem powersFrom_getD (w z : F) (n i : ℕ) (h : i < n) : (powersFrom w z n).getD i 0 = w * z ^ i := by
  induction n generalizing w i with
  | zero => omega
  | succ n ih =>
    cases i with
    | zero => simp [powersFrom]
    | succ i =>
      rw [powersFrom, List.getD_cons_succ, ih _ _ (by omega), pow_succ']
      ring

/-- The weighted sum as a sum over positions. -/
theorem defectSum_eq (E : Engine F G1 G2 GT) (vk : VerifyingKey G1 G2) (ws : List F) (items : List (Item F G1 G2))
    (h : items.length ≤ ws.length) :
    defectSum E vk ws items = ∑ i ∈ range items.length, ws.getD i 0 • ((items.map fun it => it.defect E vk).getD i 0) := by
  unfold defectSum
  induction items generalizing ws with
  | nil => simp
  | cons it items ih =>
    cases ws with
    | nil => simp at h
    | cons w ws =>
      simp only [List.length_cons, add_le_add_iff_right] at h
      rw [List.zipWith_cons_cons, List.sum_cons, ih ws h, List.length_cons, sum_range_succ', add_comm]
      simp

theorem weights_ne_zero {tape : List F} {z : F} (h : z ∈ weights tape) : z ≠ 0 := by
  simpa using (List.mem_filter.1 h).2

theorem getD_defect (E : Engine F G1 G2 GT) (vk : VerifyingKey G1 G2) (items : List (Item F G1 G2)) (k : ℕ) (it : Item F G1 G2)
    (h : items[k]? = some it) : (items.map fun it => it.defect E vk).getD k 0 = it.defect E vk := by
  rw [List.getD_eq_getElem?_getD, List.getElem?_map, h]; rfl

/-- C36: if item `k` fails individually and two tapes with the same weights except for that of item `k` are both accepted, then the
weight of item `k` is the same too: at most one value of it makes the batch pass. -/
theorem C36_single (E : Engine F G1 G2 GT) (vk : VerifyingKey G1 G2) (v : BatchVerifier F G1 G2) (k : ℕ) (it : Item F G1 G2)
    (hk : v.items[k]? = some it) (hbad : it.verifySingle E (prepareVerifyingKey E vk) = some (.error .invalidProof))
    (tape₁ tape₂ : List F) (h₁ : v.verify E tape₁ vk = some (.ok ())) (h₂ : v.verify E tape₂ vk = some (.ok ()))
    (hsame : ∀ j < v.items.length, j ≠ k → (weights tape₁)[j]? = (weights tape₂)[j]?) :
    (weights tape₁)[k]? = (weights tape₂)[k]? := by
  have hkl : k < v.items.length := (List.getElem?_eq_some_iff.1 hk).1
  have key : ∀ tape : List F, v.verify E tape vk = some (.ok ()) → v.items.length ≤ (weights tape).length ∧
      defectSum E vk (weights tape) v.items = 0 := by
    intro tape h
    rcases batch_cases E vk v tape with ⟨_, e⟩ | ⟨_, ⟨_, e⟩ | ⟨hl, e⟩⟩
    · rw [e] at h; cases h
    · rw [e] at h; cases h
    · rw [e] at h
      refine ⟨hl, ?_⟩
      by_contra hn
      rw [if_neg hn] at h; cases h
  obtain ⟨l₁, s₁⟩ := key _ h₁
  obtain ⟨l₂, s₂⟩ := key _ h₂
  have hd := ((verifySingle_invalid E vk it).1 hbad).2
  rw [defectSum_eq E vk _ _ l₁] at s₁
  rw [defectSum_eq E vk _ _ l₂] at s₂
  have hsub := sub_eq_zero.2 (s₁.trans s₂.symm)
  rw [← sum_sub_distrib, sum_eq_single k] at hsub
  · rw [← sub_smul, getD_defect E vk _ k it hk, smul_eq_zero] at hsub
    rcases hsub with h | h
    · rw [List.getD_eq_getElem?_getD, List.getD_eq_getElem?_getD, sub_eq_zero] at h
      rw [List.getElem?_eq_getElem (by omega), List.getElem?_eq_getElem (by omega)] at h ⊢
      simpa using h
    · exact absurd h hd
  · intro j hj hjk
    have : (weights tape₁).getD j 0 = (weights tape₂).getD j 0 := by
      rw [List.getD_eq_getElem?_getD, List.getD_eq_getElem?_getD, hsame j (mem_range.1 hj) hjk]
    rw [this, sub_self]
  · intro h; exact absurd (mem_range.2 hkl) h

/-- C36: a batch with exactly one invalid item is rejected on every tape. -/
theorem C36_one_invalid (E : Engine F G1 G2 GT) (vk : VerifyingKey G1 G2) (v : BatchVerifier F G1 G2) (k : ℕ) (it : Item F G1 G2)
    (hk : v.items[k]? = some it) (hbad : it.verifySingle E (prepareVerifyingKey E vk) = some (.error .invalidProof))
    (hgood : ∀ j it', j ≠ k → v.items[j]? = some it' → it'.verifySingle E (prepareVerifyingKey E vk) = some (.ok ()))
    (tape : List F) (ht : v.items.length ≤ (weights tape).length) :
    v.verify E tape vk = some (.error .invalidProof) := by
  have hkl : k < v.items.length := (List.getElem?_eq_some_iff.1 hk).1
  have hd := (verifySingle_invalid E vk it).1 hbad
  rcases batch_cases E vk v tape with ⟨⟨it', h, h'⟩, _⟩ | ⟨_, ⟨h, _⟩ | ⟨_, e⟩⟩
  · exfalso
    obtain ⟨j, hj⟩ := List.mem_iff_getElem?.1 h
    by_cases hjk : j = k
    · subst hjk; rw [hk] at hj; cases hj; exact h' hd.1
    · exact h' ((verifySingle_ok E vk it').1 (hgood j it' hjk hj)).1
  · omega
  · rw [e, if_neg]
    rw [defectSum_eq E vk _ _ ht, sum_eq_single k]
    · rw [getD_defect E vk _ k it hk, smul_eq_zero]
      rintro (h | h)
      · rw [List.getD_eq_getElem?_getD, List.getElem?_eq_getElem (by omega)] at h
        exact weights_ne_zero (List.getElem_mem _) h
      · exact hd.2 h
    · intro j hj hjk
      obtain ⟨it', hj'⟩ : ∃ it', v.items[j]? = some it' := ⟨_, List.getElem?_eq_getElem (mem_range.1 hj)⟩
      rw [getD_defect E vk _ j it' hj', ((verifySingle_ok E vk it').1 (hgood j it' hjk hj')).2, smul_zero]
    · intro h; exact absurd (mem_range.2 hkl) h

/-- C36, from the caller's side: if `verify_proof` rejects one of the queued pairs and accepts the others, the batch is rejected, with
enough random values. -/
theorem C36_queued (E : Engine F G1 G2 GT) (vk : VerifyingKey G1 G2) (xs ys : List (Proof G1 G2 × List F)) (bad : Proof G1 G2 × List F)
    (tape : List F)
    (hv : ∀ x ∈ xs ++ ys, verifyProof E (prepareVerifyingKey E vk) x.1 x.2 = some (.ok ()))
    (hbad : verifyProof E (prepareVerifyingKey E vk) bad.1 bad.2 = some (.error .invalidProof))
    (ht : (xs ++ bad :: ys).length ≤ (weights tape).length) :
    ((xs ++ bad :: ys).foldl (fun (v : BatchVerifier F G1 G2) x => v.queue (Item.ofPair x)) BatchVerifier.new).verify E tape vk =
      some (.error .invalidProof) := by
  have hq := C35_queue (F := F) (xs ++ bad :: ys)
  refine C36_one_invalid E vk _ xs.length ⟨bad.1, bad.2⟩ ?_ hbad ?_ tape ?_
  · rw [hq]; simp
  · rw [hq]; intro j it hj hit
    rw [List.map_append, List.map_cons] at hit
    rcases lt_or_gt_of_ne hj with h | h
    · rw [List.getElem?_append_left (by simpa using h)] at hit
      obtain ⟨x, hx, rfl⟩ := List.mem_map.1 (List.mem_of_getElem? hit)
      exact hv x (List.mem_append_left _ hx)
    · rw [List.getElem?_append_right (by simpa using h.le), List.length_map,
        show j - xs.length = (j - xs.length - 1) + 1 by omega, List.getElem?_cons_succ] at hit
      obtain ⟨x, hx, rfl⟩ := List.mem_map.1 (List.mem_of_getElem? hit)
      exact hv x (List.mem_append_right _ hx)
  · rw [hq]; simpa using ht

/-- All values of the pairing are multiples of one. -/
theorem Engine.pairing_cyclic (E : Engine F G1 G2 GT) : ∃ T : GT, ∀ P Q, ∃ c : F, E.pairing P Q = c • T := by
  by_cases h : ∃ P Q, E.pairing P Q ≠ 0
  · obtain ⟨P, Q, h⟩ := h
    refine ⟨E.pairing P Q, fun P' Q' => ?_⟩
    have hP : P ≠ 0 := by rintro rfl; simp at h
    have hQ : Q ≠ 0 := by rintro rfl; simp at h
    obtain ⟨a, rfl⟩ := E.g1_cyclic P P' hP
    obtain ⟨b, rfl⟩ := E.g2_cyclic Q Q' hQ
    exact ⟨a * b, by simp [mul_smul, smul_comm a b]⟩
  · push Not at h
    exact ⟨0, fun P Q => ⟨0, by rw [h, smul_zero]⟩⟩

theorem defect_cyclic (E : Engine F G1 G2 GT) (vk : VerifyingKey G1 G2) :
    ∃ T : GT, ∀ it : Item F G1 G2, ∃ c : F, it.defect E vk = c • T := by
  obtain ⟨T, hT⟩ := E.pairing_cyclic
  refine ⟨T, fun it => ?_⟩
  unfold Item.defect
  obtain ⟨a, ha⟩ := hT vk.alphaG1 vk.betaG2
  obtain ⟨b, hb⟩ := hT (∑ i ∈ range vk.ic.length, ((1 : F) :: it.inputs).getD i 0 • vk.ic.getD i 0) vk.gammaG2
  obtain ⟨c, hc⟩ := hT it.proof.c vk.deltaG2
  obtain ⟨d, hd⟩ := hT it.proof.a it.proof.b
  exact ⟨a + b + c - d, by rw [ha, hb, hc, hd]; simp only [add_smul, sub_smul]⟩

theorem chunkSum_eq (E : Engine F G1 G2 GT) (vk : VerifyingKey G1 G2) (z : F) (items : List (Item F G1 G2)) :
    chunkSum E vk z items = ∑ i ∈ range items.length, z ^ (i + 1) • ((items.map fun it => it.defect E vk).getD i 0) := by
  rw [chunkSum, defectSum_eq E vk _ _ (by rw [powersFrom_length])]
  refine sum_congr rfl fun i hi => ?_
  rw [powersFrom_getD _ _ _ _ (mem_range.1 hi), pow_succ']

theorem batchChunk_get (items : List (Item F G1 G2)) (k : ℕ) : (batchChunk items (k / 8))[k % 8]? = items[k]? := by
  unfold batchChunk
  rw [List.getElem?_take_of_lt (Nat.mod_lt _ (by decide)), List.getElem?_drop, Nat.div_add_mod]

/-- A chunk with an invalid item sums to a given value for at most eight weights. -/
theorem chunk_roots (E : Engine F G1 G2 GT) (vk : VerifyingKey G1 G2) (items : List (Item F G1 G2)) (hl : items.length ≤ 8) (j : ℕ)
    (it : Item F G1 G2) (hj : items[j]? = some it) (hd : it.defect E vk ≠ 0) (D : GT) :
    ∃ s : Finset F, s.card ≤ 8 ∧ ∀ z, chunkSum E vk z items = D → z ∈ s := by
  classical
  obtain ⟨T, hT⟩ := defect_cyclic (F := F) E vk
  choose c hc using hT
  have hjl : j < items.length := (List.getElem?_eq_some_iff.1 hj).1
  have hT0 : T ≠ 0 := by
    rintro rfl
    exact hd (by rw [hc it, smul_zero])
  have hcj : c it ≠ 0 := by
    intro h
    exact hd (by rw [hc it, h, zero_smul])
  have hsum : ∀ z, chunkSum E vk z items = (∑ i ∈ range items.length, z ^ (i + 1) * (items.map c).getD i 0) • T := by
    intro z
    rw [chunkSum_eq, sum_smul]
    refine sum_congr rfl fun i hi => ?_
    obtain ⟨it', hi'⟩ : ∃ it', items[i]? = some it' := ⟨_, List.getElem?_eq_getElem (mem_range.1 hi)⟩
    rw [getD_defect E vk _ i it' hi', hc it', mul_smul]
    congr 2
    rw [List.getD_eq_getElem?_getD, List.getElem?_map, hi']; rfl
  by_cases hD : ∃ d : F, D = d • T
  · obtain ⟨d, rfl⟩ := hD
    let f : F[X] := ∑ i ∈ range items.length, C ((items.map c).getD i 0) * X ^ (i + 1) - C d
    have hcoeff : f.coeff (j + 1) = c it := by
      simp only [f, coeff_sub, finset_sum_coeff, coeff_C_mul, coeff_X_pow, coeff_C_succ, sub_zero]
      rw [sum_eq_single j]
      · simp [List.getD_eq_getElem?_getD, List.getElem?_map, hj]
      · intro i _ hij
        rw [if_neg (by omega), mul_zero]
      · intro h; exact absurd (mem_range.2 hjl) h
    have hf0 : f ≠ 0 := by
      intro h
      rw [h, coeff_zero] at hcoeff
      exact hcj hcoeff.symm
    have hdeg : f.natDegree ≤ 8 := by
      refine (natDegree_sub_le _ _).trans (max_le ?_ (by simp))
      refine natDegree_sum_le_of_forall_le _ _ fun i hi => ?_
      have := mem_range.1 hi
      exact (natDegree_C_mul_X_pow_le _ _).trans (by omega)
    refine ⟨f.roots.toFinset, (Multiset.toFinset_card_le _).trans ((card_roots' f).trans hdeg), fun z hz => ?_⟩
    rw [Multiset.mem_toFinset, mem_roots hf0, IsRoot.def]
    rw [hsum, ← sub_eq_zero, ← sub_smul, smul_eq_zero] at hz
    rcases hz with hz | hz
    · simp only [f, eval_sub, eval_finsetSum, eval_mul, eval_C, eval_pow, eval_X]
      refine Eq.trans ?_ hz
      congr 1
      exact sum_congr rfl fun i _ => mul_comm _ _
    · exact absurd hz hT0
  · refine ⟨∅, by simp, fun z hz => ?_⟩
    exact absurd ⟨_, by rw [← hz, hsum]⟩ hD

theorem multicore_ok (E : Engine F G1 G2 GT) (vk : VerifyingKey G1 G2) (v : BatchVerifier F G1 G2) (tapes : ℕ → List F)
    (tree : ReduceTree) (htree : tree.size = (v.items.length + 7) / 8) (h : v.verifyMulticore E tapes tree vk = some (.ok ())) :
    ∑ i ∈ range ((v.items.length + 7) / 8), chunkSum E vk ((weights (tapes i)).headD 0) (batchChunk v.items i) = 0 := by
  rcases batch_multicore_cases E vk v tapes tree htree with ⟨_, e⟩ | ⟨_, ⟨_, e⟩ | ⟨_, e⟩⟩
  · rw [e] at h; cases h
  · rw [e] at h; cases h
  · rw [e] at h
    by_contra hn
    rw [if_neg hn] at h; cases h

/-- C36: if item `k` fails individually, then, with the tapes of the other chunks fixed, at most eight values of the weight of its
chunk make the batch pass. -/
theorem C36_multicore (E : Engine F G1 G2 GT) (vk : VerifyingKey G1 G2) (v : BatchVerifier F G1 G2) (k : ℕ) (it : Item F G1 G2)
    (hk : v.items[k]? = some it) (hbad : it.verifySingle E (prepareVerifyingKey E vk) = some (.error .invalidProof))
    (tapes : ℕ → List F) (tree : ReduceTree) (htree : tree.size = (v.items.length + 7) / 8) :
    ({z | ∃ tape, (weights tape).head? = some z ∧
      v.verifyMulticore E (Function.update tapes (k / 8) tape) tree vk = some (.ok ())} : Set F).encard ≤ 8 := by
  classical
  have hkl : k < v.items.length := (List.getElem?_eq_some_iff.1 hk).1
  have hd := ((verifySingle_invalid E vk it).1 hbad).2
  obtain ⟨s, hs, h⟩ := chunk_roots E vk (batchChunk v.items (k / 8)) (by simp [batchChunk]) (k % 8) it
    (by rw [batchChunk_get, hk]) hd
    (-∑ i ∈ (range ((v.items.length + 7) / 8)).erase (k / 8), chunkSum E vk ((weights (tapes i)).headD 0) (batchChunk v.items i))
  have hsub : ({z | ∃ tape, (weights tape).head? = some z ∧
      v.verifyMulticore E (Function.update tapes (k / 8) tape) tree vk = some (.ok ())} : Set F) ⊆ (s : Set F) := by
    rintro z ⟨tape, hz, hv⟩
    refine h z ?_
    have hsum := multicore_ok E vk v _ tree htree hv
    have hmem : k / 8 ∈ range ((v.items.length + 7) / 8) := mem_range.2 (by omega)
    rw [← Finset.add_sum_erase _ _ hmem] at hsum
    rw [Function.update_self, List.headD_eq_head?_getD, hz, Option.getD_some] at hsum
    rw [eq_neg_iff_add_eq_zero, ← hsum]
    congr 1
    refine sum_congr rfl fun i hi => ?_
    rw [Function.update_of_ne (Finset.ne_of_mem_erase hi)]
  refine (Set.encard_le_encard hsub).trans ?_
  rw [Set.encard_coe_eq_coe_finsetCard]
  exact_mod_cast hs

/-- C36: the multicore verifier, too, rejects a batch with exactly one invalid item, for all tapes and reduction trees. -/
theorem C36_one_invalid_multicore (E : Engine F G1 G2 GT) (vk : VerifyingKey G1 G2) (v : BatchVerifier F G1 G2) (k : ℕ)
    (it : Item F G1 G2)
    (hk : v.items[k]? = some it) (hbad : it.verifySingle E (prepareVerifyingKey E vk) = some (.error .invalidProof))
    (hgood : ∀ j it', j ≠ k → v.items[j]? = some it' → it'.verifySingle E (prepareVerifyingKey E vk) = some (.ok ()))
    (tapes : ℕ → List F) (tree : ReduceTree) (htree : tree.size = (v.items.length + 7) / 8)
    (ht : ∀ i < (v.items.length + 7) / 8, weights (tapes i) ≠ []) :
    v.verifyMulticore E tapes tree vk = some (.error .invalidProof) := by
  have hkl : k < v.items.length := (List.getElem?_eq_some_iff.1 hk).1
  have hd := (verifySingle_invalid E vk it).1 hbad
  have hget : ∀ c j, j < 8 → (batchChunk v.items c)[j]? = v.items[8 * c + j]? := by
    intro c j hj
    unfold batchChunk
    rw [List.getElem?_take_of_lt hj, List.getElem?_drop]
  rcases batch_multicore_cases E vk v tapes tree htree with ⟨⟨it', h, h'⟩, _⟩ | ⟨_, ⟨⟨i, h, h'⟩, _⟩ | ⟨_, e⟩⟩
  · exfalso
    obtain ⟨j, hj⟩ := List.mem_iff_getElem?.1 h
    by_cases hjk : j = k
    · subst hjk; rw [hk] at hj; cases hj; exact h' hd.1
    · exact h' ((verifySingle_ok E vk it').1 (hgood j it' hjk hj)).1
  · exact absurd h' (ht i h)
  · have hmem : k / 8 ∈ range ((v.items.length + 7) / 8) := mem_range.2 (by omega)
    have hlen8 : ∀ c, (batchChunk v.items c).length ≤ 8 := fun c => by simp [batchChunk]
    have hzero : ∀ c j, j < (batchChunk v.items c).length → 8 * c + j ≠ k →
        ((batchChunk v.items c).map fun it => it.defect E vk).getD j 0 = 0 := by
      intro c j hj hne
      obtain ⟨it', hj'⟩ : ∃ it', (batchChunk v.items c)[j]? = some it' := ⟨_, List.getElem?_eq_getElem hj⟩
      rw [getD_defect E vk _ j it' hj']
      rw [hget c j (by have := hlen8 c; omega)] at hj'
      exact ((verifySingle_ok E vk it').1 (hgood _ it' hne hj')).2
    rw [e, if_neg]
    rw [sum_eq_single (k / 8)]
    · have hc : (batchChunk v.items (k / 8))[k % 8]? = some it := by rw [batchChunk_get, hk]
      have hcl : k % 8 < (batchChunk v.items (k / 8)).length := (List.getElem?_eq_some_iff.1 hc).1
      rw [chunkSum_eq, sum_eq_single (k % 8)]
      · rw [getD_defect E vk _ _ it hc, smul_eq_zero]
        rintro (h | h)
        · have hw := ht (k / 8) (mem_range.1 hmem)
          rcases hw' : weights (tapes (k / 8)) with _ | ⟨z, zs⟩
          · exact hw hw'
          · rw [hw', List.headD_cons] at h
            exact weights_ne_zero (by rw [hw']; simp) (pow_eq_zero_iff (by omega) |>.1 h)
        · exact hd.2 h
      · intro j hj hne
        rw [hzero _ j (mem_range.1 hj) (by omega), smul_zero]
      · intro h; exact absurd (mem_range.2 hcl) h
    · intro c _ hne
      rw [chunkSum_eq]
      refine sum_eq_zero fun j hj => ?_
      rw [hzero c j (mem_range.1 hj) (by have := hlen8 c; have := mem_range.1 hj; omega), smul_zero]
    · intro h; exact absurd hmem h

/-! Counting. -/

instance : Finite F := Finite.of_injective (fun x : F => (⟨val x, val_lt x⟩ : Fin (p F)))
  fun x y h => by
    have : val x = val y := by simpa using h
    rw [← cast_val x, ← cast_val y, this]

theorem card_units : Nat.card Fˣ = p F - 1 := by
  have h1 : Nat.card F = p F := by
    have e : F ≃ Fin (p F) :=
      { toFun := fun x => ⟨val x, val_lt x⟩
        invFun := fun i => ((i : ℕ) : F)
        left_inv := fun x => cast_val x
        right_inv := fun i => by
          apply Fin.ext
          exact val_cast_of_lt i.2 }
    rw [Nat.card_congr e, Nat.card_eq_fintype_card, Fintype.card_fin]
  have := Fintype.ofFinite F
  classical
  rw [Nat.card_eq_fintype_card, Fintype.card_units, ← Nat.card_eq_fintype_card, h1]

/-- If, with all other coordinates fixed, at most `B` values of coordinate `k` are good, at most `B · |α|^(m-1)` vectors are good. -/
theorem count_vectors {α : Type} [Finite α] (m : ℕ) (k : Fin m) (P : (Fin m → α) → Prop) (B : ℕ)
    (h : ∀ f, ({a | P (Function.update f k a)} : Set α).ncard ≤ B) :
    Nat.card {f // P f} ≤ B * Nat.card α ^ (m - 1) := by
  classical
  have := Fintype.ofFinite α
  let r : (Fin m → α) → ({j // j ≠ k} → α) := fun f j => f j
  rw [Nat.card_eq_fintype_card, Fintype.card_subtype]
  refine (Finset.card_le_mul_card_image (f := r) (Finset.univ.filter P) B ?_).trans ?_
  · intro g hg
    obtain ⟨f₀, hf₀, rfl⟩ := Finset.mem_image.1 hg
    refine le_trans ?_ (h f₀)
    rw [← Set.ncard_coe_finset]
    refine Set.ncard_le_ncard_of_injOn (fun f => f k) ?_ ?_ (Set.toFinite _)
    · intro f hf
      simp only [Finset.coe_filter, Finset.mem_filter, Finset.mem_univ, true_and, Set.mem_ofPred_eq] at hf ⊢
      have : Function.update f₀ k (f k) = f := by
        funext j
        by_cases hj : j = k
        · subst hj; simp
        · rw [Function.update_of_ne hj]
          exact (congrFun hf.2 ⟨j, hj⟩).symm
      rw [this]; exact hf.1
    · intro f hf f' hf' he
      simp only [Finset.coe_filter, Finset.mem_filter, Finset.mem_univ, true_and, Set.mem_ofPred_eq] at hf hf'
      funext j
      by_cases hj : j = k
      · subst hj; exact he
      · exact (congrFun hf.2 ⟨j, hj⟩).trans (congrFun hf'.2 ⟨j, hj⟩).symm
  · refine Nat.mul_le_mul_left _ ((Finset.card_le_univ _).trans (le_of_eq ?_))
    rw [Fintype.card_fun, Nat.card_eq_fintype_card]
    congr 1
    simp [Fintype.card_subtype_compl]

theorem weights_ofFn {m : ℕ} (zs : Fin m → Fˣ) : weights (List.ofFn fun i => (zs i : F)) = List.ofFn fun i => (zs i : F) := by
  unfold weights
  rw [List.filter_eq_self]
  intro x hx
  obtain ⟨i, rfl⟩ := List.mem_ofFn.1 hx
  simp

/-- C36: of the `(p-1)^n` vectors of weights, at most `(p-1)^(n-1)` let a batch with an invalid item pass. -/
theorem C36_single_count (E : Engine F G1 G2 GT) (vk : VerifyingKey G1 G2) (v : BatchVerifier F G1 G2) (it : Item F G1 G2)
    (hit : it ∈ v.items) (hbad : it.verifySingle E (prepareVerifyingKey E vk) = some (.error .invalidProof)) :
    Nat.card {zs : Fin v.items.length → Fˣ // v.verify E (List.ofFn fun i => (zs i : F)) vk = some (.ok ())} ≤
      (p F - 1) ^ (v.items.length - 1) := by
  obtain ⟨k, hk⟩ := List.mem_iff_getElem?.1 hit
  have hkl : k < v.items.length := (List.getElem?_eq_some_iff.1 hk).1
  rw [← card_units (F := F), ← one_mul (Nat.card Fˣ ^ _)]
  refine count_vectors _ ⟨k, hkl⟩ _ 1 fun f => ?_
  rw [Set.ncard_le_one (Set.toFinite _)]
  intro a ha b hb
  have := C36_single E vk v k it hk hbad _ _ ha hb (by
    intro j hj hjk
    rw [weights_ofFn, weights_ofFn, List.getElem?_ofFn, List.getElem?_ofFn, dif_pos hj, dif_pos hj]
    rw [Function.update_of_ne (by simpa [Fin.ext_iff] using hjk), Function.update_of_ne (by simpa [Fin.ext_iff] using hjk)])
  rw [weights_ofFn, weights_ofFn, List.getElem?_ofFn, List.getElem?_ofFn, dif_pos hkl, dif_pos hkl] at this
  exact Units.ext (by simpa using this)

/-- C36: of the `(p-1)^m` vectors of chunk weights, at most `8 (p-1)^(m-1)` let a batch with an invalid item pass. -/
theorem C36_multicore_count (E : Engine F G1 G2 GT) (vk : VerifyingKey G1 G2) (v : BatchVerifier F G1 G2) (it : Item F G1 G2)
    (hit : it ∈ v.items) (hbad : it.verifySingle E (prepareVerifyingKey E vk) = some (.error .invalidProof))
    (tree : ReduceTree) (htree : tree.size = (v.items.length + 7) / 8) :
    Nat.card {zs : Fin ((v.items.length + 7) / 8) → Fˣ //
      v.verifyMulticore E (fun i => if h : i < (v.items.length + 7) / 8 then [(zs ⟨i, h⟩ : F)] else []) tree vk = some (.ok ())} ≤
      8 * (p F - 1) ^ ((v.items.length + 7) / 8 - 1) := by
  obtain ⟨k, hk⟩ := List.mem_iff_getElem?.1 hit
  have hkl : k < v.items.length := (List.getElem?_eq_some_iff.1 hk).1
  have hkc : k / 8 < (v.items.length + 7) / 8 := by omega
  rw [← card_units (F := F)]
  refine count_vectors _ ⟨k / 8, hkc⟩ _ 8 fun f => ?_
  have h8 := C36_multicore E vk v k it hk hbad
    (fun i => if h : i < (v.items.length + 7) / 8 then [(f ⟨i, h⟩ : F)] else []) tree htree
  have hfin : ({z | ∃ tape, (weights tape).head? = some z ∧
      v.verifyMulticore E (Function.update (fun i => if h : i < (v.items.length + 7) / 8 then [(f ⟨i, h⟩ : F)] else []) (k / 8) tape) tree vk
        = some (.ok ())} : Set F).Finite := Set.toFinite _
  rw [← hfin.cast_ncard_eq] at h8
  refine le_trans ?_ (by exact_mod_cast h8 : _ ≤ 8)
  refine Set.ncard_le_ncard_of_injOn (fun u : Fˣ => (u : F)) ?_ (fun a _ b _ h => Units.ext h) hfin
  intro a ha
  refine ⟨[(a : F)], by simp [weights], ?_⟩
  rw [← ha]
  congr 1
  funext i
  by_cases hi : i = k / 8
  · subst hi
    rw [Function.update_self, dif_pos hkc, Function.update_self]
  · rw [Function.update_of_ne hi]
    split
    · rw [Function.update_of_ne (by simpa [Fin.ext_iff] using hi)]
    · rfl

/-! ### Concrete batches over the trivial engine -/

/-- A key with one public input. -/
def batchKey : VerifyingKey DummyFr DummyFr :=
  { alphaG1 := 2, betaG1 := 5, betaG2 := 5, gammaG2 := 7, deltaG1 := 11, deltaG2 := 11, ic := [3, 4] }

/-- An item; the equation is `b = 2·5 + 7·(3 + 4) + 11`, so `b = 70` is valid and nothing else. -/
def batchItem (b : DummyFr) : Item DummyFr DummyFr DummyFr := { proof := { a := 1, b := b, c := 1 }, inputs := [1] }

theorem batchItem_defect (b : DummyFr) : (batchItem b).defect (fieldEngine DummyFr) batchKey = 70 - b := by
  unfold Item.defect batchItem batchKey
  simp only [fieldEngine, LinearMap.mul_apply', List.length_cons, List.length_nil, sum_range_succ, range_zero, sum_empty,
    List.getD_cons_zero, List.getD_cons_succ, smul_eq_mul]
  ring

theorem batchItem_ok : (batchItem 70).verifySingle (fieldEngine DummyFr) (prepareVerifyingKey (fieldEngine DummyFr) batchKey)
    = some (.ok ()) :=
  (verifySingle_ok _ _ _).2 ⟨rfl, by rw [batchItem_defect]; decide⟩

theorem batchItem_bad (b : DummyFr) (h : b ≠ 70) :
    (batchItem b).verifySingle (fieldEngine DummyFr) (prepareVerifyingKey (fieldEngine DummyFr) batchKey)
      = some (.error .invalidProof) :=
  (verifySingle_invalid _ _ _).2 ⟨rfl, by rw [batchItem_defect]; exact fun e => h (sub_eq_zero.1 e).symm⟩

/-- `C35_single` and `C35_multicore` apply to nine valid items (two chunks), a tape with a zero in it, and a tree with an identity. -/
example : (⟨List.replicate 9 (batchItem 70)⟩ : BatchVerifier DummyFr DummyFr DummyFr).verify (fieldEngine DummyFr)
      [4, 0, 5, 6, 7, 8, 0, 9, 1, 2, 3] batchKey = some (.ok ()) ∧
    (⟨List.replicate 9 (batchItem 70)⟩ : BatchVerifier DummyFr DummyFr DummyFr).verifyMulticore (fieldEngine DummyFr)
      (fun i => [0, (i : DummyFr) + 1]) (.node (.node .identity .item) .item) batchKey = some (.ok ()) := by
  have h : ∀ it ∈ List.replicate 9 (batchItem 70), it.verifySingle (fieldEngine DummyFr)
      (prepareVerifyingKey (fieldEngine DummyFr) batchKey) = some (.ok ()) := by
    intro it hit
    rw [List.eq_of_mem_replicate hit]
    exact batchItem_ok
  refine ⟨C35_single _ _ _ _ h (by decide), C35_multicore _ _ _ _ _ rfl h ?_⟩
  intro i hi
  have : i = 0 ∨ i = 1 := by simp at hi; omega
  rcases this with rfl | rfl <;> decide

/-- `C36_one_invalid` and `C36_one_invalid_multicore` apply to one bad item among nine. -/
example (tape : List DummyFr) (ht : 9 ≤ (weights tape).length) (tapes : ℕ → List DummyFr) (h0 : weights (tapes 0) ≠ [])
    (h1 : weights (tapes 1) ≠ []) :
    (⟨List.replicate 8 (batchItem 70) ++ [batchItem 71]⟩ : BatchVerifier DummyFr DummyFr DummyFr).verify (fieldEngine DummyFr) tape batchKey
      = some (.error .invalidProof) ∧
    (⟨List.replicate 8 (batchItem 70) ++ [batchItem 71]⟩ : BatchVerifier DummyFr DummyFr DummyFr).verifyMulticore (fieldEngine DummyFr)
      tapes (.node .item .item) batchKey = some (.error .invalidProof) := by
  have hgood : ∀ j it', j ≠ 8 → (List.replicate 8 (batchItem 70) ++ [batchItem 71])[j]? = some it' →
      it'.verifySingle (fieldEngine DummyFr) (prepareVerifyingKey (fieldEngine DummyFr) batchKey) = some (.ok ()) := by
    intro j it' hj h
    have hlt : j < 8 := by
      have := (List.getElem?_eq_some_iff.1 h).1
      simp at this; omega
    rw [List.getElem?_append_left (by simpa using hlt)] at h
    rw [List.eq_of_mem_replicate (List.mem_of_getElem? h)]
    exact batchItem_ok
  refine ⟨C36_one_invalid _ _ _ 8 (batchItem 71) rfl (batchItem_bad 71 (by decide)) hgood tape (by simpa using ht),
    C36_one_invalid_multicore _ _ _ 8 (batchItem 71) rfl (batchItem_bad 71 (by decide)) hgood tapes _ rfl ?_⟩
  intro i hi
  have : i = 0 ∨ i = 1 := by simp at hi; omega
  rcases this with rfl | rfl <;> assumption

/-- `C36_single`, `C36_single_count` apply to two bad items whose errors cancel when their weights are equal: the bound is attained. -/
example : (⟨[batchItem 71, batchItem 69]⟩ : BatchVerifier DummyFr DummyFr DummyFr).verify (fieldEngine DummyFr) [5, 5] batchKey
      = some (.ok ()) ∧
    ∀ z, z ≠ 0 → (⟨[batchItem 71, batchItem 69]⟩ : BatchVerifier DummyFr DummyFr DummyFr).verify (fieldEngine DummyFr) [5, z] batchKey
      = some (.ok ()) → z = 5 := by
  have h5 : (⟨[batchItem 71, batchItem 69]⟩ : BatchVerifier DummyFr DummyFr DummyFr).verify (fieldEngine DummyFr) [5, 5] batchKey
      = some (.ok ()) := by decide +kernel
  refine ⟨h5, fun z hz h => ?_⟩
  have hw : weights [5, z] = [5, z] := by simp [weights, hz]; decide
  have hw5 : weights [5, (5 : DummyFr)] = [5, 5] := by decide
  have := C36_single _ _ _ 1 (batchItem 69) rfl (batchItem_bad 69 (by decide)) [5, z] [5, 5] h h5 (by
    intro j hj hj1
    have : j = 0 := by simp at hj; omega
    subst this
    rw [hw, hw5]; rfl)
  rw [hw, hw5] at this
  simpa using this

/-- `C36_multicore` applies to two bad items whose errors cancel when the chunk's weight is 1, and that weight passes. -/
example : (⟨[batchItem 71, batchItem 69]⟩ : BatchVerifier DummyFr DummyFr DummyFr).verifyMulticore (fieldEngine DummyFr)
      (fun _ => [1]) .item batchKey = some (.ok ()) ∧
    ({z | ∃ tape, (weights tape).head? = some z ∧
      (⟨[batchItem 71, batchItem 69]⟩ : BatchVerifier DummyFr DummyFr DummyFr).verifyMulticore (fieldEngine DummyFr)
        (Function.update (fun _ => [1]) 0 tape) .item batchKey = some (.ok ())} : Set DummyFr).encard ≤ 8 :=
  ⟨by decide +kernel, C36_multicore _ _ _ 1 (batchItem 69) rfl (batchItem_bad 69 (by decide)) _ _ rfl⟩

/-- `C36_length` applies to an item without inputs behind a valid one. -/
example (tape : List DummyFr) (tapes : ℕ → List DummyFr) (tree : ReduceTree) :
    (⟨[batchItem 70, { batchItem 70 with inputs := [] }]⟩ : BatchVerifier DummyFr DummyFr DummyFr).verify (fieldEngine DummyFr) tape batchKey
      = some (.error .invalidVerifyingKey) ∧
    (⟨[batchItem 70, { batchItem 70 with inputs := [] }]⟩ : BatchVerifier DummyFr DummyFr DummyFr).verifyMulticore (fieldEngine DummyFr)
      tapes tree batchKey = some (.error .invalidVerifyingKey) :=
  C36_length _ _ _ _ _ _ { batchItem 70 with inputs := [] } (by simp) (by decide)

end Bellman
