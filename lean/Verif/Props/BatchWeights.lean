import Verif.Props.Batch
import Mathlib.RingTheory.RootsOfUnity.PrimitiveRoots

/-!
# C81: the random weights of a batch

Who knows the weights of a batch in advance can make it pass with proofs of nothing; the bounds of C36 on the number of weights that let an
invalid batch pass cannot be improved.
-/

namespace Bellman

open PrimeField Polynomial Finset

set_option linter.unusedSectionVars false

variable {F G1 G2 GT : Type} [PrimeField F] [AddCommGroup G1] [AddCommGroup G2] [AddCommGroup GT]
  [Module F G1] [Module F G2] [Module F GT] [DecidableEq GT]

/-! ### What the attacker computes -/

/-- The element that stands for the public inputs in the equation: `ic[0] + Σ inputs[i] ic[i + 1]`. -/
def icSum (vk : VerifyingKey G1 G2) (xs : List F) : G1 := ∑ i ∈ range vk.ic.length, ((1 : F) :: xs).getD i 0 • vk.ic.getD i 0

/-- Proofs, of any statements whatever, made from the verifying key and the weights that will be used: the first takes care of alpha and
beta, the second of all public inputs, all others are zero. -/
def forgeBatch (vk : VerifyingKey G1 G2) (ws : List F) : List (List F) → List (Item F G1 G2)
  | [] => []
  | [s] => [⟨⟨0, 0, 0⟩, s⟩]
  | s₀ :: s₁ :: ss =>
    ⟨⟨((ws.take (ss.length + 2)).sum / ws.getD 0 0) • vk.alphaG1, vk.betaG2, 0⟩, s₀⟩ ::
    ⟨⟨(1 / ws.getD 1 0) • (List.zipWith (fun w s => w • icSum vk s) ws (s₀ :: s₁ :: ss)).sum, vk.gammaG2, 0⟩, s₁⟩ ::
    ss.map fun s => ⟨⟨0, 0, 0⟩, s⟩

/-- The weights of the items in `verify_multicore`: powers of the weight of the chunk. -/
def multicoreWeights (zs : ℕ → F) (n : ℕ) : List F := (List.range n).map fun k => zs (k / 8) ^ (k % 8 + 1)

/-- `c` replaced by `c + t u` -/
def Item.shift (it : Item F G1 G2) (t : F) (u : G1) : Item F G1 G2 := { it with proof := { it.proof with c := it.proof.c + t • u } }

theorem Item.shift_defect (E : Engine F G1 G2 GT) (vk : VerifyingKey G1 G2) (it : Item F G1 G2) (t : F) (u : G1) :
    (it.shift t u).defect E vk = it.defect E vk + t • E.pairing u vk.deltaG2 := by
  unfold Item.defect Item.shift
  simp only [map_add, map_smul, LinearMap.add_apply, LinearMap.smul_apply]
  abel

theorem forgeBatch_inputs (vk : VerifyingKey G1 G2) (ws : List F) (ss : List (List F)) :
    (forgeBatch vk ws ss).map (·.inputs) = ss := by
  rcases ss with _ | ⟨s₀, _ | ⟨s₁, ss⟩⟩
  · rfl
  · rfl
  · simp [forgeBatch, Function.comp_def]

theorem defectSum_cons (E : Engine F G1 G2 GT) (vk : VerifyingKey G1 G2) (w : F) (ws : List F) (it : Item F G1 G2) (items : List (Item F G1 G2)) :
    defectSum E vk (w :: ws) (it :: items) = w • it.defect E vk + defectSum E vk ws items := rfl

private theorem defect_c0 (E : Engine F G1 G2 GT) (vk : VerifyingKey G1 G2) (a : G1) (b : G2) (s : List F) :
    (⟨⟨a, b, 0⟩, s⟩ : Item F G1 G2).defect E vk =
      E.pairing vk.alphaG1 vk.betaG2 + E.pairing (icSum vk s) vk.gammaG2 - E.pairing a b := by
  simp [Item.defect, icSum]

theorem defectSum_zeroes (E : Engine F G1 G2 GT) (vk : VerifyingKey G1 G2) (ws : List F) (ss : List (List F)) :
    defectSum E vk ws (ss.map fun s => (⟨⟨0, 0, 0⟩, s⟩ : Item F G1 G2)) =
      (ws.take ss.length).sum • E.pairing vk.alphaG1 vk.betaG2 +
        E.pairing (List.zipWith (fun w s => w • icSum vk s) ws ss).sum vk.gammaG2 := by
  induction ss generalizing ws with
  | nil => simp [defectSum]
  | cons s ss ih =>
    cases ws with
    | nil => simp [defectSum]
    | cons w ws =>
      rw [List.map_cons, defectSum_cons, ih ws, defect_c0]
      simp only [List.zipWith_cons_cons, List.sum_cons, List.length_cons, List.take_succ_cons, map_zero,
        map_add, map_smul, LinearMap.add_apply, LinearMap.smul_apply, add_smul, smul_add, sub_zero]
      abel

theorem forgeBatch_sum (E : Engine F G1 G2 GT) (vk : VerifyingKey G1 G2) (ws : List F) (ss : List (List F)) (h2 : 2 ≤ ss.length)
    (hw : ss.length ≤ ws.length) (h0 : ∀ w ∈ ws, w ≠ 0) : defectSum E vk ws (forgeBatch vk ws ss) = 0 := by
  obtain ⟨s₀, s₁, ss, rfl⟩ : ∃ s₀ s₁ ss', ss = s₀ :: s₁ :: ss' := by
    rcases ss with _ | ⟨s₀, _ | ⟨s₁, ss⟩⟩
    · simp at h2
    · simp at h2
    · exact ⟨_, _, _, rfl⟩
  obtain ⟨w₀, w₁, ws, rfl⟩ : ∃ w₀ w₁ ws', ws = w₀ :: w₁ :: ws' := by
    rcases ws with _ | ⟨w₀, _ | ⟨w₁, ws⟩⟩
    · simp at hw
    · simp at hw
    · exact ⟨_, _, _, rfl⟩
  have n0 : w₀ ≠ 0 := h0 _ (by simp)
  have n1 : w₁ ≠ 0 := h0 _ (by simp)
  have e1 : ∀ t, w₁ * (1 / w₁ * t) = t := fun t => by field_simp
  rw [forgeBatch, defectSum_cons, defectSum_cons, defectSum_zeroes, defect_c0, defect_c0]
  simp only [List.getD_cons_zero, List.getD_cons_succ, map_smul, LinearMap.smul_apply, smul_sub, smul_add, smul_smul,
    mul_one_div_cancel n1, mul_div_cancel₀ _ n0, one_smul, List.zipWith_cons_cons, List.sum_cons, List.take_succ_cons, map_add,
    LinearMap.add_apply, add_smul, e1]
  abel

/-- The sum that `verify_multicore` compares with zero, over all items at once. -/
theorem multicore_sum (E : Engine F G1 G2 GT) (vk : VerifyingKey G1 G2) (zs : ℕ → F) (items : List (Item F G1 G2)) :
    ∑ i ∈ range ((items.length + 7) / 8), chunkSum E vk (zs i) (batchChunk items i) =
      defectSum E vk (multicoreWeights zs items.length) items := by
  let d : ℕ → GT := fun k => zs (k / 8) ^ (k % 8 + 1) • (items.map fun it => it.defect E vk).getD k 0
  have h1 : ∀ i, chunkSum E vk (zs i) (batchChunk items i) = ∑ j ∈ range 8, d (8 * i + j) := by
    intro i
    rw [chunkSum_eq]
    have hl : (batchChunk items i).length ≤ 8 := by simp [batchChunk]
    rw [← sum_subset (range_subset_range.2 hl)]
    · refine sum_congr rfl fun j hj => ?_
      have hj8 : j < 8 := lt_of_lt_of_le (mem_range.1 hj) hl
      simp only [d]
      rw [show (8 * i + j) / 8 = i by omega, show (8 * i + j) % 8 = j by omega]
      congr 1
      rw [List.getD_eq_getElem?_getD, List.getD_eq_getElem?_getD, List.getElem?_map, List.getElem?_map, batchChunk,
        List.getElem?_take_of_lt hj8, List.getElem?_drop]
    · intro j hj hj'
      have h8 := mem_range.1 hj
      have h9 : (batchChunk items i).length ≤ j := by simpa using hj'
      have h10 : items.length ≤ 8 * i + j := by
        simp only [batchChunk, List.length_take, List.length_drop] at h9
        omega
      simp only [d]
      rw [List.getD_eq_getElem?_getD, List.getElem?_eq_none (by simpa using h10)]
      simp
  have h2 : ∀ m, ∑ i ∈ range m, ∑ j ∈ range 8, d (8 * i + j) = ∑ k ∈ range (8 * m), d k := by
    intro m
    induction m with
    | zero => simp
    | succ m ih => rw [sum_range_succ, ih, show 8 * (m + 1) = 8 * m + 8 by ring, sum_range_add]
  rw [sum_congr rfl fun i _ => h1 i, h2, defectSum_eq _ _ _ _ (by simp [multicoreWeights])]
  have hsub : range items.length ⊆ range (8 * ((items.length + 7) / 8)) := range_subset_range.2 (by omega)
  rw [← sum_subset hsub]
  · refine sum_congr rfl fun k hk => ?_
    simp only [d]
    congr 1
    rw [List.getD_eq_getElem?_getD, multicoreWeights, List.getElem?_map, List.getElem?_range (mem_range.1 hk)]
    rfl
  · intro k _ hk
    simp only [d]
    rw [List.getD_eq_getElem?_getD, List.getElem?_eq_none (by simpa using hk)]
    simp

private theorem verify_iff (E : Engine F G1 G2 GT) (vk : VerifyingKey G1 G2) (v : BatchVerifier F G1 G2) (tape : List F)
    (hi : ∀ it ∈ v.items, it.inputs.length + 1 = vk.ic.length) (hw : v.items.length ≤ (weights tape).length) :
    v.verify E tape vk = some (.ok ()) ↔ defectSum E vk (weights tape) v.items = 0 := by
  rcases batch_cases E vk v tape with ⟨⟨it, h, h'⟩, _⟩ | ⟨_, ⟨h, _⟩ | ⟨_, h⟩⟩
  · exact absurd (hi it h) h'
  · omega
  · rw [h]
    by_cases h0 : defectSum E vk (weights tape) v.items = 0
    · simp [h0]
    · simp [h0]

private theorem multicore_iff (E : Engine F G1 G2 GT) (vk : VerifyingKey G1 G2) (v : BatchVerifier F G1 G2) (tapes : ℕ → List F)
    (tree : ReduceTree) (htree : tree.size = (v.items.length + 7) / 8)
    (hi : ∀ it ∈ v.items, it.inputs.length + 1 = vk.ic.length) (hw : ∀ i < (v.items.length + 7) / 8, weights (tapes i) ≠ []) :
    v.verifyMulticore E tapes tree vk = some (.ok ()) ↔
      defectSum E vk (multicoreWeights (fun i => (weights (tapes i)).headD 0) v.items.length) v.items = 0 := by
  rcases batch_multicore_cases E vk v tapes tree htree with ⟨⟨it, h, h'⟩, _⟩ | ⟨_, ⟨⟨i, h, h'⟩, _⟩ | ⟨_, h⟩⟩
  · exact absurd (hi it h) h'
  · exact absurd h' (hw i h)
  · rw [h, ← multicore_sum]
    by_cases h0 : ∑ i ∈ range ((v.items.length + 7) / 8), chunkSum E vk ((weights (tapes i)).headD 0) (batchChunk v.items i) = 0
    · rw [if_pos h0]; exact ⟨fun _ => h0, fun _ => rfl⟩
    · rw [if_neg h0]; exact ⟨fun h => (by cases h), fun h => absurd h h0⟩

private theorem weights_self {ws : List F} (h : ∀ w ∈ ws, w ≠ 0) : weights ws = ws := by
  unfold weights
  rw [List.filter_eq_self]
  simpa using h

/-! ### Weights that are known -/

/-- C81: whoever knows the weights that will be drawn makes `verify` accept two or more proofs of any statements, from the verifying key
alone. -/
theorem C81_predictable (E : Engine F G1 G2 GT) (vk : VerifyingKey G1 G2) (tape : List F) (ss : List (List F)) (h2 : 2 ≤ ss.length)
    (hs : ∀ s ∈ ss, s.length + 1 = vk.ic.length) (ht : ss.length ≤ (weights tape).length) :
    ∃ v : BatchVerifier F G1 G2, v = ⟨forgeBatch vk (weights tape) ss⟩ ∧ v.items.map (·.inputs) = ss ∧
      v.verify E tape vk = some (.ok ()) := by
  refine ⟨_, rfl, forgeBatch_inputs vk _ ss, ?_⟩
  have hl : (forgeBatch vk (weights tape) ss).length = ss.length := by
    rw [← List.length_map (f := (·.inputs)), forgeBatch_inputs]
  rw [verify_iff]
  · exact forgeBatch_sum E vk _ ss h2 ht fun w hw => weights_ne_zero hw
  · intro it hit
    exact hs _ (by rw [← forgeBatch_inputs vk (weights tape) ss]; exact List.mem_map_of_mem hit)
  · simpa [hl] using ht

/-- C81: the same for `verify_multicore`. -/
theorem C81_predictable_multicore (E : Engine F G1 G2 GT) (vk : VerifyingKey G1 G2) (tapes : ℕ → List F) (tree : ReduceTree)
    (ss : List (List F)) (h2 : 2 ≤ ss.length) (hs : ∀ s ∈ ss, s.length + 1 = vk.ic.length)
    (ht : ∀ i < (ss.length + 7) / 8, weights (tapes i) ≠ []) (htree : tree.size = (ss.length + 7) / 8) :
    ∃ v : BatchVerifier F G1 G2, v = ⟨forgeBatch vk (multicoreWeights (fun i => (weights (tapes i)).headD 0) ss.length) ss⟩ ∧
      v.items.map (·.inputs) = ss ∧ v.verifyMulticore E tapes tree vk = some (.ok ()) := by
  refine ⟨_, rfl, forgeBatch_inputs vk _ ss, ?_⟩
  have hl : ∀ ws, (forgeBatch vk ws ss).length = ss.length := by
    intro ws
    rw [← List.length_map (f := (·.inputs)), forgeBatch_inputs]
  rw [multicore_iff _ _ _ _ _ (by simpa only [hl] using htree)]
  · simp only [hl]
    refine forgeBatch_sum E vk _ ss h2 (by simp [multicoreWeights]) fun w hw => ?_
    simp only [multicoreWeights, List.mem_map, List.mem_range] at hw
    obtain ⟨k, hk, rfl⟩ := hw
    refine pow_ne_zero _ ?_
    have h := ht (k / 8) (by omega)
    rcases hw' : weights (tapes (k / 8)) with _ | ⟨z, zs⟩
    · exact absurd hw' h
    · exact weights_ne_zero (tape := tapes (k / 8)) (by rw [hw']; simp)
  · intro it hit
    exact hs _ (by rw [← forgeBatch_inputs vk _ ss]; exact List.mem_map_of_mem hit)
  · simpa only [hl] using ht

/-- C81: for a single proof the weight does not matter: the batch is accepted exactly if the proof is. -/
theorem C81_one (E : Engine F G1 G2 GT) (vk : VerifyingKey G1 G2) (it : Item F G1 G2) (tape : List F) (ht : weights tape ≠ [])
    (tapes : ℕ → List F) (ht' : weights (tapes 0) ≠ []) (tree : ReduceTree) (htree : tree.size = 1) :
    ((⟨[it]⟩ : BatchVerifier F G1 G2).verify E tape vk = some (.ok ()) ↔
      it.verifySingle E (prepareVerifyingKey E vk) = some (.ok ())) ∧
    ((⟨[it]⟩ : BatchVerifier F G1 G2).verifyMulticore E tapes tree vk = some (.ok ()) ↔
      it.verifySingle E (prepareVerifyingKey E vk) = some (.ok ())) := by
  by_cases hl : it.inputs.length + 1 = vk.ic.length
  · rw [verifySingle_ok, verify_iff _ _ _ _ (by simpa using hl) (by
      have := List.length_pos_iff.2 ht
      simp only [List.length_cons, List.length_nil]
      omega),
      multicore_iff _ _ _ _ _ (by simpa using htree) (by simpa using hl) (by
        intro i hi
        have : i = 0 := by simpa using hi
        subst this
        exact ht')]
    obtain ⟨z, zs, hz⟩ := List.exists_cons_of_ne_nil ht
    obtain ⟨z', zs', hz'⟩ := List.exists_cons_of_ne_nil ht'
    have n0 : z ≠ 0 := weights_ne_zero (tape := tape) (by rw [hz]; simp)
    have n0' : z' ≠ 0 := weights_ne_zero (tape := tapes 0) (by rw [hz']; simp)
    simp [hz, hz', defectSum, multicoreWeights, n0, n0', hl]
  · have h := C36_length E vk ⟨[it]⟩ tape tapes tree it (by simp) hl
    rw [h.1, h.2, verifySingle_ok]
    simp [hl]

/-- C81: the order of the items does not matter for `verify`, if every item keeps its weight. -/
theorem C81_order (E : Engine F G1 G2 GT) (vk : VerifyingKey G1 G2) {l l' : List (Fˣ × Item F G1 G2)} (h : l.Perm l') :
    (⟨l.map (·.2)⟩ : BatchVerifier F G1 G2).verify E (l.map fun x => (x.1 : F)) vk =
      (⟨l'.map (·.2)⟩ : BatchVerifier F G1 G2).verify E (l'.map fun x => (x.1 : F)) vk := by
  have key : ∀ l : List (Fˣ × Item F G1 G2), (⟨l.map (·.2)⟩ : BatchVerifier F G1 G2).verify E (l.map fun x => (x.1 : F)) vk =
      if ∃ x ∈ l, x.2.inputs.length + 1 ≠ vk.ic.length then some (.error .invalidVerifyingKey)
      else some (if (l.map fun x => (x.1 : F) • x.2.defect E vk).sum = 0 then .ok () else .error .invalidProof) := by
    intro l
    have hw : weights (l.map fun x => (x.1 : F)) = l.map fun x => (x.1 : F) := weights_self (by
      intro w hw
      obtain ⟨x, -, rfl⟩ := List.mem_map.1 hw
      exact x.1.ne_zero)
    have hd : defectSum E vk (l.map fun x => (x.1 : F)) (l.map (·.2)) = (l.map fun x => (x.1 : F) • x.2.defect E vk).sum := by
      unfold defectSum
      rw [List.zipWith_map, List.zipWith_self]
    rcases batch_cases E vk ⟨l.map (·.2)⟩ (l.map fun x => (x.1 : F)) with ⟨⟨it, h, h'⟩, e⟩ | ⟨hi, ⟨h, _⟩ | ⟨_, e⟩⟩
    · obtain ⟨x, hx, rfl⟩ := List.mem_map.1 h
      rw [e, if_pos ⟨x, hx, h'⟩]
    · rw [hw] at h
      simp at h
    · rw [e, hw, hd]
      refine (if_neg ?_).symm
      rintro ⟨x, hx, h'⟩
      exact h' (hi _ (List.mem_map_of_mem hx))
  rw [key, key, (h.map _).sum_eq]
  congr 1
  simp only [h.mem_iff]

/-! ### The bounds of C36 are attained -/

/-- Vectors whose first two entries are equal. -/
private def tailEquiv {α : Type} (n : ℕ) : {z : Fin (n + 2) → α // z 0 = z 1} ≃ (Fin (n + 1) → α) where
  toFun z := Fin.tail z.1
  invFun g := ⟨Fin.cons (g 0) g, rfl⟩
  left_inv z := by
    apply Subtype.ext
    funext i
    refine Fin.cases ?_ (fun j => rfl) i
    exact z.2.symm
  right_inv g := Fin.tail_cons _ _

/-- Pairs with the same eighth power. -/
private def pairEquiv : {z : Fin 2 → Fˣ // z 0 ^ 8 = z 1 ^ 8} ≃ rootsOfUnity 8 F × Fˣ where
  toFun z := (⟨z.1 0 / z.1 1, by rw [mem_rootsOfUnity, div_pow, z.2, div_self']⟩, z.1 1)
  invFun g := ⟨![g.1 * g.2, g.2], by
    have h8 : (g.1 : Fˣ) ^ 8 = 1 := g.1.2
    simp [mul_pow, h8]⟩
  left_inv z := by
    apply Subtype.ext
    funext i
    fin_cases i <;> simp
  right_inv g := by
    refine Prod.ext (Subtype.ext ?_) ?_ <;> simp

/-- C81: the bound of C36 for `verify` is attained for every number of items from two on: spoil two valid items in opposite directions. -/
theorem C81_attained (E : Engine F G1 G2 GT) (vk : VerifyingKey G1 G2) (it : Item F G1 G2)
    (hv : it.verifySingle E (prepareVerifyingKey E vk) = some (.ok ())) (u : G1) (hu : E.pairing u vk.deltaG2 ≠ 0) (n : ℕ) :
    (it.shift 1 u).verifySingle E (prepareVerifyingKey E vk) = some (.error .invalidProof) ∧
    (it.shift (-1) u).verifySingle E (prepareVerifyingKey E vk) = some (.error .invalidProof) ∧
    Nat.card {zs : Fin (n + 2) → Fˣ // (⟨it.shift 1 u :: it.shift (-1) u :: List.replicate n it⟩ : BatchVerifier F G1 G2).verify E
      (List.ofFn fun i => (zs i : F)) vk = some (.ok ())} = (p F - 1) ^ (n + 1) := by
  obtain ⟨hl, hd⟩ := (verifySingle_ok E vk it).1 hv
  have d1 : (it.shift 1 u).defect E vk = E.pairing u vk.deltaG2 := by rw [Item.shift_defect, hd]; simp
  have d2 : (it.shift (-1) u).defect E vk = -E.pairing u vk.deltaG2 := by rw [Item.shift_defect, hd]; simp
  refine ⟨(verifySingle_invalid _ _ _).2 ⟨hl, by rwa [d1]⟩, (verifySingle_invalid _ _ _).2 ⟨hl, by rw [d2]; simpa using hu⟩, ?_⟩
  have key : ∀ zs : Fin (n + 2) → Fˣ, (⟨it.shift 1 u :: it.shift (-1) u :: List.replicate n it⟩ : BatchVerifier F G1 G2).verify E
      (List.ofFn fun i => (zs i : F)) vk = some (.ok ()) ↔ zs 0 = zs 1 := by
    intro zs
    rw [verify_iff]
    · rw [weights_ofFn]
      simp only [List.ofFn_succ]
      rw [defectSum_cons, defectSum_cons, d1, d2, defectSum_zero _ _ _ _ (by
        intro x hx
        rw [List.eq_of_mem_replicate hx]
        exact hd)]
      rw [add_zero, smul_neg, ← sub_eq_add_neg, ← sub_smul, smul_eq_zero, or_iff_left hu, sub_eq_zero, Units.val_inj]
      rfl
    · intro x hx
      simp only [List.mem_cons] at hx
      rcases hx with rfl | rfl | hx
      · exact hl
      · exact hl
      · rw [List.eq_of_mem_replicate hx]
        exact hl
    · rw [weights_ofFn]
      simp
  simp only [key]
  rw [Nat.card_congr (tailEquiv n)]
  have := Fintype.ofFinite Fˣ
  rw [Nat.card_fun, card_units, Nat.card_eq_fintype_card, Fintype.card_fin]

/-- C81: a batch of at most eight items, some of them invalid, is accepted by `verify_multicore` for fewer weights than it has items. -/
theorem C81_few (E : Engine F G1 G2 GT) (vk : VerifyingKey G1 G2) (v : BatchVerifier F G1 G2) (h8 : v.items.length ≤ 8)
    (it : Item F G1 G2) (hit : it ∈ v.items) (hbad : it.verifySingle E (prepareVerifyingKey E vk) = some (.error .invalidProof))
    (tree : ReduceTree) (htree : tree.size = 1) :
    Nat.card {z : Fˣ // v.verifyMulticore E (fun _ => [(z : F)]) tree vk = some (.ok ())} < v.items.length := by
  classical
  obtain ⟨k, hk⟩ := List.mem_iff_getElem?.1 hit
  have hkl : k < v.items.length := (List.getElem?_eq_some_iff.1 hk).1
  have h1 : (v.items.length + 7) / 8 = 1 := by omega
  have hd := (verifySingle_invalid E vk it).1 hbad
  obtain ⟨T, hT⟩ := defect_cyclic (F := F) E vk
  choose c hc using hT
  have hT0 : T ≠ 0 := by
    rintro rfl
    exact hd.2 (by rw [hc it, smul_zero])
  let f : F[X] := ∑ i ∈ range v.items.length, C ((v.items.map c).getD i 0) * X ^ i
  have hcoeff : f.coeff k = c it := by
    simp only [f, finsetSum_coeff, coeff_C_mul, coeff_X_pow]
    rw [sum_eq_single k]
    · simp [List.getD_eq_getElem?_getD, List.getElem?_map, hk]
    · intro i _ hik
      rw [if_neg (by omega), mul_zero]
    · intro h; exact absurd (mem_range.2 hkl) h
  have hf0 : f ≠ 0 := by
    intro h
    rw [h, coeff_zero] at hcoeff
    exact hd.2 (by rw [hc it, ← hcoeff, zero_smul])
  have hdeg : f.natDegree ≤ v.items.length - 1 := by
    refine natDegree_sum_le_of_forall_le _ _ fun i hi => ?_
    have := mem_range.1 hi
    exact (natDegree_C_mul_X_pow_le _ _).trans (by omega)
  have hroot : ∀ z : Fˣ, v.verifyMulticore E (fun _ => [(z : F)]) tree vk = some (.ok ()) → (z : F) ∈ f.roots.toFinset := by
    intro z hz
    have := multicore_ok E vk v _ tree (by rw [htree, h1]) hz
    rw [h1, sum_range_one] at this
    have hw : (weights [(z : F)]).headD 0 = z := by simp [weights]
    have hch : batchChunk v.items 0 = v.items := by simp [batchChunk, List.take_of_length_le h8]
    rw [hw, hch, chunkSum_eq] at this
    rw [Multiset.mem_toFinset, mem_roots hf0, IsRoot.def]
    have he : (∑ i ∈ range v.items.length, (z : F) ^ (i + 1) • (v.items.map fun it => it.defect E vk).getD i 0) =
        ((z : F) * f.eval (z : F)) • T := by
      simp only [f, eval_finsetSum, eval_mul, eval_C, eval_pow, eval_X]
      rw [mul_sum, sum_smul]
      refine sum_congr rfl fun i hi => ?_
      obtain ⟨it', hi'⟩ : ∃ it', v.items[i]? = some it' := ⟨_, List.getElem?_eq_getElem (mem_range.1 hi)⟩
      rw [getD_defect E vk _ i it' hi', hc it', smul_smul]
      congr 1
      rw [List.getD_eq_getElem?_getD, List.getElem?_map, hi']
      simp only [Option.map_some, Option.getD_some]
      ring
    rw [he, smul_eq_zero, or_iff_left hT0, mul_eq_zero] at this
    exact this.resolve_left z.ne_zero
  have hcard : Nat.card {z : Fˣ // v.verifyMulticore E (fun _ => [(z : F)]) tree vk = some (.ok ())} ≤ f.roots.toFinset.card := by
    have hinj : Function.Injective fun z : {z : Fˣ // v.verifyMulticore E (fun _ => [(z : F)]) tree vk = some (.ok ())} =>
        (⟨(z.1 : F), hroot z.1 z.2⟩ : f.roots.toFinset) := by
      intro a b hab
      exact Subtype.ext (Units.ext (by simpa using hab))
    refine (Nat.card_le_card_of_injective _ hinj).trans (le_of_eq ?_)
    rw [Nat.card_eq_fintype_card, Fintype.card_coe]
  have := (Multiset.toFinset_card_le f.roots).trans ((card_roots' f).trans hdeg)
  omega

/-- C81: and it can be accepted for any fewer weights that one likes: given a valid item and up to seven weights, there is a batch with one
item more, all with the statement of the valid one and the last invalid, that is accepted exactly for these weights. -/
theorem C81_chosen (E : Engine F G1 G2 GT) (vk : VerifyingKey G1 G2) (it : Item F G1 G2)
    (hv : it.verifySingle E (prepareVerifyingKey E vk) = some (.ok ())) (u : G1) (hu : E.pairing u vk.deltaG2 ≠ 0)
    (rs : Finset F) (h7 : rs.card ≤ 7) (tree : ReduceTree) (htree : tree.size = 1) :
    ∃ (v : BatchVerifier F G1 G2) (bad : Item F G1 G2), v.items.length = rs.card + 1 ∧ (∀ x ∈ v.items, x.inputs = it.inputs) ∧
      v.items.getLast? = some bad ∧ bad.verifySingle E (prepareVerifyingKey E vk) = some (.error .invalidProof) ∧
      ∀ z : Fˣ, v.verifyMulticore E (fun _ => [(z : F)]) tree vk = some (.ok ()) ↔ (z : F) ∈ rs := by
  obtain ⟨hl, hd⟩ := (verifySingle_ok E vk it).1 hv
  let P : F[X] := ∏ r ∈ rs, (X - C r)
  have hmonic : P.Monic := monic_prod_of_monic _ _ fun r _ => monic_X_sub_C r
  have hdeg : P.natDegree = rs.card := natDegree_finsetProd_X_sub_C_eq_card rs id
  have hdef : ∀ t, (it.shift t u).defect E vk = t • E.pairing u vk.deltaG2 := fun t => by rw [Item.shift_defect, hd, zero_add]
  refine ⟨⟨(List.range (rs.card + 1)).map fun i => it.shift (P.coeff i) u⟩, it.shift 1 u, by simp, ?_, ?_, ?_, ?_⟩
  · intro x hx
    obtain ⟨i, -, rfl⟩ := List.mem_map.1 hx
    rfl
  · rw [List.range_succ, List.map_append, List.map_cons, List.map_nil, List.getLast?_concat, ← hdeg]
    rw [show P.coeff P.natDegree = 1 from hmonic]
  · exact (verifySingle_invalid _ _ _).2 ⟨hl, by rw [hdef, one_smul]; exact hu⟩
  · intro z
    have h1 : (((List.range (rs.card + 1)).map fun i => it.shift (P.coeff i) u).length + 7) / 8 = 1 := by
      simp only [List.length_map, List.length_range]
      omega
    have hz : (weights [(z : F)]).headD 0 = z := by simp [weights]
    rw [multicore_iff _ _ _ _ _ (by rw [htree]; exact h1.symm) (by
      intro x hx
      obtain ⟨i, -, rfl⟩ := List.mem_map.1 hx
      exact hl) (by
      intro i _
      simp [weights])]
    rw [← multicore_sum, h1, sum_range_one, hz, show batchChunk ((List.range (rs.card + 1)).map fun i => it.shift (P.coeff i) u) 0 =
      (List.range (rs.card + 1)).map fun i => it.shift (P.coeff i) u by
        rw [batchChunk, List.drop_zero, List.take_of_length_le (by simp only [List.length_map, List.length_range]; omega)], chunkSum_eq]
    have he : ∀ i ∈ range ((List.range (rs.card + 1)).map fun i => it.shift (P.coeff i) u).length, (z : F) ^ (i + 1) •
        (((List.range (rs.card + 1)).map fun i => it.shift (P.coeff i) u).map fun it => it.defect E vk).getD i 0 =
        ((z : F) * (P.coeff i * (z : F) ^ i)) • E.pairing u vk.deltaG2 := by
      intro i hi
      have hi' : i < rs.card + 1 := by simpa using hi
      rw [List.getD_eq_getElem?_getD, List.getElem?_map, List.getElem?_map, List.getElem?_range hi']
      simp only [Option.map_some, Option.getD_some, hdef, smul_smul]
      congr 1
      ring
    rw [sum_congr rfl he, ← sum_smul, ← mul_sum, List.length_map, List.length_range, ← hdeg, ← eval_eq_sum_range, smul_eq_zero,
      or_iff_left hu, mul_eq_zero, or_iff_right z.ne_zero]
    simp only [P, eval_prod, eval_sub, eval_X, eval_C, prod_eq_zero_iff, sub_eq_zero]
    simp

/-- C81: the bound of C36 for `verify_multicore` is attained too, eight times the one for `verify`, in fields with eight eighth roots of
unity: of two full chunks spoil the last item in opposite directions. -/
theorem C81_multicore_attained (E : Engine F G1 G2 GT) (vk : VerifyingKey G1 G2) (it : Item F G1 G2)
    (hv : it.verifySingle E (prepareVerifyingKey E vk) = some (.ok ())) (u : G1) (hu : E.pairing u vk.deltaG2 ≠ 0) (hS : 3 ≤ S F)
    (tree : ReduceTree) (htree : tree.size = 2) :
    (it.shift 1 u).verifySingle E (prepareVerifyingKey E vk) = some (.error .invalidProof) ∧
    Nat.card {zs : Fin 2 → Fˣ // (⟨List.replicate 7 it ++ it.shift 1 u :: (List.replicate 7 it ++ [it.shift (-1) u])⟩ :
      BatchVerifier F G1 G2).verifyMulticore E (fun i => if h : i < 2 then [(zs ⟨i, h⟩ : F)] else []) tree vk = some (.ok ())} =
      8 * (p F - 1) := by
  obtain ⟨hl, hd⟩ := (verifySingle_ok E vk it).1 hv
  have d1 : (it.shift 1 u).defect E vk = E.pairing u vk.deltaG2 := by rw [Item.shift_defect, hd]; simp
  have d2 : (it.shift (-1) u).defect E vk = -E.pairing u vk.deltaG2 := by rw [Item.shift_defect, hd]; simp
  refine ⟨(verifySingle_invalid _ _ _).2 ⟨hl, by rwa [d1]⟩, ?_⟩
  have key : ∀ zs : Fin 2 → Fˣ, (⟨List.replicate 7 it ++ it.shift 1 u :: (List.replicate 7 it ++ [it.shift (-1) u])⟩ :
      BatchVerifier F G1 G2).verifyMulticore E (fun i => if h : i < 2 then [(zs ⟨i, h⟩ : F)] else []) tree vk = some (.ok ()) ↔
      zs 0 ^ 8 = zs 1 ^ 8 := by
    intro zs
    rw [multicore_iff _ _ _ _ _ (by rw [htree]; simp) (by
      intro x hx
      simp only [List.mem_append, List.mem_cons, List.not_mem_nil, or_false] at hx
      rcases hx with hx | rfl | hx | rfl
      · rw [List.eq_of_mem_replicate hx]; exact hl
      · exact hl
      · rw [List.eq_of_mem_replicate hx]; exact hl
      · exact hl) (by
      intro i hi
      have hi2 : i < 2 := by simpa using hi
      simp [hi2, weights])]
    rw [← multicore_sum]
    have hn : ((List.replicate 7 it ++ it.shift 1 u :: (List.replicate 7 it ++ [it.shift (-1) u])).length + 7) / 8 = 2 := by simp
    have c0 : batchChunk (List.replicate 7 it ++ it.shift 1 u :: (List.replicate 7 it ++ [it.shift (-1) u])) 0 =
      List.replicate 7 it ++ [it.shift 1 u] := rfl
    have c1 : batchChunk (List.replicate 7 it ++ it.shift 1 u :: (List.replicate 7 it ++ [it.shift (-1) u])) 1 =
      List.replicate 7 it ++ [it.shift (-1) u] := rfl
    have hs : ∀ (z : F) (b : Item F G1 G2), chunkSum E vk z (List.replicate 7 it ++ [b]) = z ^ 8 • b.defect E vk := by
      intro z b
      rw [chunkSum_eq]
      simp [sum_range_succ, List.replicate, hd]
    rw [hn, sum_range_succ, sum_range_one, c0, c1, hs, hs, d1, d2, smul_neg, ← sub_eq_add_neg, ← sub_smul, smul_eq_zero,
      or_iff_left hu, sub_eq_zero]
    simp only [Nat.zero_lt_two, Nat.one_lt_two, dite_true]
    have hw : ∀ z : Fˣ, (weights [(z : F)]).headD 0 = z := fun z => by simp [weights]
    rw [hw, hw, ← Units.val_pow_eq_pow_val, ← Units.val_pow_eq_pow_val, Units.val_inj]
    rfl
  simp only [key]
  have hprim : IsPrimitiveRoot ((ROOT_OF_UNITY : F) ^ (2 ^ (S F - 3))) 8 := by
    refine IsPrimitiveRoot.pow (n := 2 ^ S F) (by positivity) root_primitive ?_
    rw [show (8 : ℕ) = 2 ^ 3 by norm_num, ← pow_add]
    congr 1
    omega
  rw [Nat.card_congr (pairEquiv (F := F)), Nat.card_prod, card_units, hprim.card_rootsOfUnity]

/-! ### Examples -/

/-- `C81_predictable`, `C81_predictable_multicore`: three statements, no proofs of any of them, and the forged items are invalid by themselves. -/
example : (⟨forgeBatch batchKey [4, 5, 6] [[1], [2], [3]]⟩ : BatchVerifier DummyFr DummyFr DummyFr).verify (fieldEngine DummyFr) [4, 0, 5, 6] batchKey
      = some (.ok ()) ∧
    (forgeBatch batchKey [4, 5, 6] [[1], [2], [3]] : List (Item DummyFr DummyFr DummyFr)).map
      (fun it => it.verifySingle (fieldEngine DummyFr) (prepareVerifyingKey (fieldEngine DummyFr) batchKey)) =
      List.replicate 3 (some (.error .invalidProof)) ∧
    (⟨forgeBatch batchKey (multicoreWeights (fun _ => 4) 3) [[1], [2], [3]]⟩ : BatchVerifier DummyFr DummyFr DummyFr).verifyMulticore
      (fieldEngine DummyFr) (fun _ => [4]) .item batchKey = some (.ok ()) := by
  refine ⟨?_, by decide +kernel, ?_⟩
  · obtain ⟨v, rfl, -, h⟩ := C81_predictable (fieldEngine DummyFr) batchKey [4, 0, 5, 6] [[1], [2], [3]] (by decide)
      (by simp [batchKey]) (by decide)
    exact h
  · obtain ⟨v, rfl, -, h⟩ := C81_predictable_multicore (fieldEngine DummyFr) batchKey (fun _ => [4]) .item [[1], [2], [3]] (by decide)
      (by simp [batchKey]) (fun _ _ => by decide) (by decide)
    exact h

/-- `C81_attained`, `C81_chosen` and `C81_multicore_attained` apply to the trivial engine. -/
example (n : ℕ) : Nat.card {zs : Fin (n + 2) → DummyFrˣ // (⟨(batchItem 70).shift 1 1 :: (batchItem 70).shift (-1) 1 ::
      List.replicate n (batchItem 70)⟩ : BatchVerifier DummyFr DummyFr DummyFr).verify (fieldEngine DummyFr)
      (List.ofFn fun i => (zs i : DummyFr)) batchKey = some (.ok ())} = (p DummyFr - 1) ^ (n + 1) ∧
    (∃ v : BatchVerifier DummyFr DummyFr DummyFr, v.items.length = 3 ∧ ∀ z : DummyFrˣ, v.verifyMulticore (fieldEngine DummyFr)
      (fun _ => [(z : DummyFr)]) .item batchKey = some (.ok ()) ↔ (z : DummyFr) ∈ ({5, 9} : Finset DummyFr)) ∧
    Nat.card {zs : Fin 2 → DummyFrˣ // (⟨List.replicate 7 (batchItem 70) ++ (batchItem 70).shift 1 1 ::
      (List.replicate 7 (batchItem 70) ++ [(batchItem 70).shift (-1) 1])⟩ : BatchVerifier DummyFr DummyFr DummyFr).verifyMulticore
      (fieldEngine DummyFr) (fun i => if h : i < 2 then [(zs ⟨i, h⟩ : DummyFr)] else []) (.node .item .item) batchKey = some (.ok ())} =
      8 * (p DummyFr - 1) := by
  have hu : (fieldEngine DummyFr).pairing (1 : DummyFr) batchKey.deltaG2 ≠ 0 := by decide +kernel
  refine ⟨(C81_attained _ _ _ batchItem_ok 1 hu n).2.2, ?_, (C81_multicore_attained _ _ _ batchItem_ok 1 hu (by decide) _ rfl).2⟩
  obtain ⟨v, _, h1, -, -, -, h2⟩ := C81_chosen _ _ _ batchItem_ok 1 hu {5, 9} (by decide +kernel) .item rfl
  exact ⟨v, h1, h2⟩

/-- `C81_few` applies: with two items, one of them invalid, at most one weight passes. -/
example : Nat.card {z : DummyFrˣ // (⟨[batchItem 71, batchItem 69]⟩ : BatchVerifier DummyFr DummyFr DummyFr).verifyMulticore
    (fieldEngine DummyFr) (fun _ => [(z : DummyFr)]) .item batchKey = some (.ok ())} < 2 :=
  C81_few _ _ ⟨[batchItem 71, batchItem 69]⟩ (by decide) (batchItem 69) (by simp) (batchItem_bad 69 (by decide)) .item rfl

end Bellman
