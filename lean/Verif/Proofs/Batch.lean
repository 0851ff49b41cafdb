import Verif.Spec.Batch
import Verif.Proofs.Verifier
import Verif.Proofs.Chunks

/-!
# Batch verification computes a weighted sum of defects
-/

namespace Bellman

open PrimeField Finset

set_option linter.unusedSectionVars false

variable {F G1 G2 GT : Type} [PrimeField F] [AddCommGroup G1] [AddCommGroup G2] [AddCommGroup GT]
  [Module F G1] [Module F G2] [Module F GT] [DecidableEq GT]

theorem Item.defect_eq_zero (E : Engine F G1 G2 GT) (vk : VerifyingKey G1 G2) (it : Item F G1 G2) :
    it.defect E vk = 0 ↔ Accepts E vk it.proof it.inputs := by
  unfold Item.defect Accepts
  rw [sub_eq_zero]
  exact eq_comm

theorem drawNonzero_eq (tape : List F) : drawNonzero tape = match weights tape with
    | [] => none
    | z :: _ => some (z, tape.drop (tape.findIdx (· ≠ 0) + 1)) := by
  induction tape with
  | nil => rfl
  | cons z tape ih =>
    by_cases hz : z = 0
    · have hw : weights (z :: tape) = weights tape := by simp [weights, hz]
      rw [hw, drawNonzero, if_pos hz, ih]
      split
      · rfl
      · simp [List.findIdx_cons, hz]
    · have hw : weights (z :: tape) = z :: weights tape := by simp [weights, hz]
      rw [hw, drawNonzero, if_neg hz]
      simp [List.findIdx_cons, hz]

theorem drawNonzero_some {tape rest : List F} {z : F} (h : drawNonzero tape = some (z, rest)) :
    z ≠ 0 ∧ weights tape = z :: weights rest := by
  induction tape with
  | nil => cases h
  | cons y tape ih =>
    rw [drawNonzero] at h
    split at h
    · rename_i hy
      obtain ⟨h1, h2⟩ := ih h
      exact ⟨h1, by rw [← h2]; simp [weights, hy]⟩
    · rename_i hy
      simp only [Option.some.injEq, Prod.mk.injEq] at h
      obtain ⟨rfl, rfl⟩ := h
      exact ⟨hy, by simp [weights, hy]⟩

theorem drawNonzero_none {tape : List F} (h : drawNonzero tape = none) : weights tape = [] := by
  induction tape with
  | nil => rfl
  | cons y tape ih =>
    rw [drawNonzero] at h
    split at h
    · rename_i hy
      rw [← ih h]; simp [weights, hy]
    · cases h

theorem batchPsi_eq (ic : List G1) (gs : List F) (h : gs.length = ic.length) :
    batchPsi ic gs = ∑ i ∈ range ic.length, gs.getD i 0 • ic.getD i 0 := by
  unfold batchPsi
  induction ic generalizing gs with
  | nil => simp
  | cons p ps ih =>
    cases gs with
    | nil => simp at h
    | cons g gs =>
      simp only [List.length_cons, add_left_inj] at h
      rw [List.zip_cons_cons, List.map_cons, List.sum_cons, ih gs h, List.length_cons, sum_range_succ']
      simp only [List.getD_cons_zero, List.getD_cons_succ]
      rw [add_comm]

/-- The value the pairing check of a state computes. -/
def BatchState.val (E : Engine F G1 G2 GT) (vk : VerifyingKey G1 G2) (st : BatchState F G1 G2) : GT :=
  (st.mlTerms.map fun x => E.pairing x.1 x.2).sum + E.pairing st.delta vk.deltaG2 + E.pairing (batchPsi vk.ic st.gammas) vk.gammaG2 +
    E.pairing (st.y • vk.alphaG1) vk.betaG2

theorem addGammas_some (ic : List G1) (z : F) (inputs gs : List F) (hg : gs.length = ic.length) (hi : inputs.length + 1 = ic.length) :
    ∃ gs', addGammas z inputs gs = some gs' ∧ gs'.length = ic.length ∧
      batchPsi ic gs' = batchPsi ic gs + z • ∑ i ∈ range ic.length, ((1 : F) :: inputs).getD i 0 • ic.getD i 0 := by
  cases gs with
  | nil => simp at hg; omega
  | cons g gs =>
    refine ⟨_, rfl, by simpa using hg, ?_⟩
    rw [batchPsi_eq _ _ (by simpa using hg), batchPsi_eq _ _ hg, smul_sum, ← sum_add_distrib]
    refine sum_congr rfl fun i hi' => ?_
    have hi' := mem_range.1 hi'
    rw [← mul_smul, ← add_smul]
    congr 1
    cases i with
    | zero => simp
    | succ i =>
      simp only [List.length_cons] at hg
      have h1 : i < gs.length := by omega
      have h2 : i < inputs.length := by omega
      simp [List.getD_eq_getElem?_getD, h1, h2]

theorem BatchState.add_some (E : Engine F G1 G2 GT) (vk : VerifyingKey G1 G2) (st : BatchState F G1 G2) (z : F) (it : Item F G1 G2)
    (hg : st.gammas.length = vk.ic.length) (hi : it.inputs.length + 1 = vk.ic.length) :
    ∃ st', st.add z it = some st' ∧ st'.gammas.length = vk.ic.length ∧ st'.val E vk = st.val E vk + z • it.defect E vk := by
  obtain ⟨gs', h1, h2, h3⟩ := addGammas_some vk.ic z it.inputs st.gammas hg hi
  refine ⟨_, by rw [BatchState.add, h1]; rfl, h2, ?_⟩
  unfold BatchState.val Item.defect
  simp only [h3, List.map_append, List.map_cons, List.map_nil, List.sum_append, List.sum_cons, List.sum_nil, map_add, map_neg, map_smul,
    LinearMap.add_apply, LinearMap.smul_apply, add_smul, smul_add, smul_sub]
  abel

/-- A weighted sum of defects. -/
def defectSum (E : Engine F G1 G2 GT) (vk : VerifyingKey G1 G2) (ws : List F) (items : List (Item F G1 G2)) : GT :=
  (List.zipWith (fun z it => z • it.defect E vk) ws items).sum

theorem batchLoop_eq (E : Engine F G1 G2 GT) (vk : VerifyingKey G1 G2) (items : List (Item F G1 G2)) (tape : List F)
    (st : BatchState F G1 G2) (hg : st.gammas.length = vk.ic.length) (hi : ∀ it ∈ items, it.inputs.length + 1 = vk.ic.length) :
    ((weights tape).length < items.length ∧ batchLoop items tape st = none) ∨
    (items.length ≤ (weights tape).length ∧ ∃ st', batchLoop items tape st = some st' ∧
      st'.val E vk = st.val E vk + defectSum E vk (weights tape) items) := by
  induction items generalizing tape st with
  | nil => right; exact ⟨by simp, st, rfl, by simp [defectSum]⟩
  | cons it items ih =>
    rcases hd : drawNonzero tape with _ | ⟨z, rest⟩
    · left
      exact ⟨by rw [drawNonzero_none hd]; simp, by rw [batchLoop, hd]; rfl⟩
    · obtain ⟨_, hw⟩ := drawNonzero_some hd
      obtain ⟨st', h1, h2, h3⟩ := st.add_some E vk z it hg (hi it (by simp))
      have e : batchLoop (it :: items) tape st = batchLoop items rest st' := by
        rw [batchLoop, hd]; simp only [Option.bind_some]; rw [h1]; rfl
      rw [e, hw]
      rcases ih rest st' h2 (fun i hi' => hi i (by simp [hi'])) with ⟨a, b⟩ | ⟨a, s, b, c⟩
      · left; exact ⟨by simpa using a, b⟩
      · right; refine ⟨by simpa using a, s, b, ?_⟩
        rw [c, h3]
        simp [defectSum, add_assoc]

theorem any_false_iff (v : BatchVerifier F G1 G2) (vk : VerifyingKey G1 G2) :
    ((v.items.any fun it => decide (it.inputs.length + 1 ≠ vk.ic.length)) = true) ↔ ∃ it ∈ v.items, it.inputs.length + 1 ≠ vk.ic.length := by
  simp

/-- `verify` by cases. -/
theorem batch_cases (E : Engine F G1 G2 GT) (vk : VerifyingKey G1 G2) (v : BatchVerifier F G1 G2) (tape : List F) :
    ((∃ it ∈ v.items, it.inputs.length + 1 ≠ vk.ic.length) ∧ v.verify E tape vk = some (.error .invalidVerifyingKey)) ∨
    ((∀ it ∈ v.items, it.inputs.length + 1 = vk.ic.length) ∧
      (((weights tape).length < v.items.length ∧ v.verify E tape vk = none) ∨
       (v.items.length ≤ (weights tape).length ∧ v.verify E tape vk =
        some (if defectSum E vk (weights tape) v.items = 0 then .ok () else .error .invalidProof)))) := by
  by_cases hl : ∃ it ∈ v.items, it.inputs.length + 1 ≠ vk.ic.length
  · left
    exact ⟨hl, by rw [BatchVerifier.verify, if_pos ((any_false_iff v vk).2 hl)]⟩
  · right
    have hl' : ∀ it ∈ v.items, it.inputs.length + 1 = vk.ic.length := by
      intro it hit; by_contra h; exact hl ⟨it, hit, h⟩
    refine ⟨hl', ?_⟩
    rw [BatchVerifier.verify, if_neg fun h => hl ((any_false_iff v vk).1 h)]
    rcases batchLoop_eq E vk v.items tape { mlTerms := [], gammas := List.replicate vk.ic.length 0, delta := 0, y := 0 } (by simp) hl'
      with ⟨a, b⟩ | ⟨a, s, b, c⟩
    · left; exact ⟨a, by rw [b]; rfl⟩
    · right
      refine ⟨a, ?_⟩
      rw [b]
      simp only [Option.bind_some]
      have h0 : (BatchState.val E vk { mlTerms := [], gammas := List.replicate vk.ic.length 0, delta := 0, y := 0 }) = 0 := by
        unfold BatchState.val
        rw [batchPsi_eq _ _ (by simp)]
        simp [List.getD_eq_getElem?_getD]
      have hv : E.finalExponentiation (E.multiMillerLoop (s.mlTerms ++ [(s.delta, vk.deltaG2)] ++ [(batchPsi vk.ic s.gammas, vk.gammaG2)] ++
          [(s.y • vk.alphaG1, vk.betaG2)])) = defectSum E vk (weights tape) v.items := by
        rw [E.final_miller, ← zero_add (defectSum E vk _ _), ← h0, ← c]
        unfold BatchState.val
        simp [add_assoc]
      rw [hv]
      split <;> rfl

/-! ## Several threads -/

/-- The powers `w, w z, w z², …`. -/
def powersFrom (w z : F) : ℕ → List F
  | 0 => []
  | n + 1 => w :: powersFrom (w * z) z n

theorem chunkLoop_eq (E : Engine F G1 G2 GT) (vk : VerifyingKey G1 G2) (z : F) (items : List (Item F G1 G2)) (w : F)
    (st : BatchState F G1 G2) (hg : st.gammas.length = vk.ic.length) (hi : ∀ it ∈ items, it.inputs.length + 1 = vk.ic.length) :
    ∃ st', chunkLoop z items w st = some st' ∧ st'.gammas.length = vk.ic.length ∧
      st'.val E vk = st.val E vk + defectSum E vk (powersFrom w z items.length) items := by
  induction items generalizing w st with
  | nil => exact ⟨st, rfl, hg, by simp [defectSum]⟩
  | cons it items ih =>
    obtain ⟨st', h1, h2, h3⟩ := st.add_some E vk w it hg (hi it (by simp))
    obtain ⟨s, a, b, c⟩ := ih (w * z) st' h2 (fun i hi' => hi i (by simp [hi']))
    refine ⟨s, by rw [chunkLoop, h1]; exact a, b, ?_⟩
    rw [c, h3]
    simp [defectSum, powersFrom, add_assoc]

/-- The value the final pairing check computes from an accumulator. -/
def BatchAccumulator.val (E : Engine F G1 G2 GT) (vk : VerifyingKey G1 G2) (a : BatchAccumulator F G1 E.MillerResult) : GT :=
  (match a.mlResult with | none => 0 | some r => E.finalExponentiation r) + E.pairing a.delta vk.deltaG2 +
    E.pairing (batchPsi vk.ic a.gammas) vk.gammaG2 + E.pairing (a.y • vk.alphaG1) vk.betaG2

/-- What holds of all accumulators. -/
structure BatchAccumulator.Fine (E : Engine F G1 G2 GT) (vk : VerifyingKey G1 G2) (a : BatchAccumulator F G1 E.MillerResult) : Prop where
  len : a.gammas.length = vk.ic.length
  none : a.mlResult = none → a.val E vk = 0

theorem BatchAccumulator.new_fine (E : Engine F G1 G2 GT) (vk : VerifyingKey G1 G2) :
    (BatchAccumulator.new vk.ic.length : BatchAccumulator F G1 E.MillerResult).Fine E vk ∧
    (BatchAccumulator.new vk.ic.length : BatchAccumulator F G1 E.MillerResult).val E vk = 0 := by
  have h0 : (BatchAccumulator.new vk.ic.length : BatchAccumulator F G1 E.MillerResult).val E vk = 0 := by
    unfold BatchAccumulator.val BatchAccumulator.new
    rw [batchPsi_eq _ _ (by simp), sum_eq_zero]
    · simp
    · intro i hi; simp [List.getD_eq_getElem?_getD, mem_range.1 hi]
  exact ⟨⟨by simp [BatchAccumulator.new], fun _ => h0⟩, h0⟩

theorem BatchAccumulator.combine_fine (E : Engine F G1 G2 GT) (vk : VerifyingKey G1 G2) (a b : BatchAccumulator F G1 E.MillerResult)
    (ha : a.Fine E vk) (hb : b.Fine E vk) :
    (a.combine E b).Fine E vk ∧ (a.combine E b).val E vk = a.val E vk + b.val E vk := by
  have hlen : (a.combine E b).gammas.length = vk.ic.length := by simpa [BatchAccumulator.combine] using ha.len
  have hpsi : batchPsi vk.ic (a.combine E b).gammas = batchPsi vk.ic a.gammas + batchPsi vk.ic b.gammas := by
    rw [batchPsi_eq _ _ hlen, batchPsi_eq _ _ ha.len, batchPsi_eq _ _ hb.len, ← sum_add_distrib]
    refine sum_congr rfl fun i hi => ?_
    have hi := mem_range.1 hi
    rw [← add_smul]
    congr 1
    have h1 : i < a.gammas.length := by rw [ha.len]; exact hi
    have h2 : i < b.gammas.length := by rw [hb.len]; exact hi
    simp [BatchAccumulator.combine, List.getD_eq_getElem?_getD, h1, h2]
  have hval : (a.combine E b).val E vk = a.val E vk + b.val E vk := by
    unfold BatchAccumulator.val
    rw [hpsi]
    unfold BatchAccumulator.combine
    rcases a.mlResult with _ | ra <;> rcases b.mlResult with _ | rb <;>
      simp only [E.final_add, map_add, add_smul, LinearMap.add_apply] <;> abel
  refine ⟨⟨hlen, fun h => ?_⟩, hval⟩
  rw [hval]
  have : a.mlResult = .none ∧ b.mlResult = .none := by
    simp only [BatchAccumulator.combine] at h
    rcases hA : a.mlResult with _ | ra <;> rcases hB : b.mlResult with _ | rb <;> rw [hA, hB] at h <;> simp_all
  rw [ha.none this.1, hb.none this.2, add_zero]

theorem ReduceTree.reduce_fine (E : Engine F G1 G2 GT) (vk : VerifyingKey G1 G2) (t : ReduceTree)
    (xs : List (BatchAccumulator F G1 E.MillerResult)) (hx : ∀ x ∈ xs, x.Fine E vk) (hl : xs.length = t.size) :
    (t.reduce (BatchAccumulator.new vk.ic.length) (BatchAccumulator.combine E) xs).Fine E vk ∧
    (t.reduce (BatchAccumulator.new vk.ic.length) (BatchAccumulator.combine E) xs).val E vk = (xs.map fun x => x.val E vk).sum := by
  induction t generalizing xs with
  | identity =>
    have : xs = [] := List.length_eq_zero_iff.1 hl
    subst this
    exact BatchAccumulator.new_fine E vk
  | item =>
    obtain ⟨x, rfl⟩ := List.length_eq_one_iff.1 hl
    exact ⟨hx x (by simp), by simp [ReduceTree.reduce]⟩
  | node l r ihl ihr =>
    simp only [ReduceTree.size] at hl
    obtain ⟨a, b⟩ := ihl (xs.take l.size) (fun x h => hx x (List.mem_of_mem_take h)) (by simp; omega)
    obtain ⟨c, d⟩ := ihr (xs.drop l.size) (fun x h => hx x (List.mem_of_mem_drop h)) (by simp; omega)
    obtain ⟨e, f⟩ := BatchAccumulator.combine_fine E vk _ _ a c
    refine ⟨e, ?_⟩
    rw [ReduceTree.reduce, f, b, d, ← List.sum_append, ← List.map_append, List.take_append_drop]

/-- The contribution of one chunk with weight `z`. -/
def chunkSum (E : Engine F G1 G2 GT) (vk : VerifyingKey G1 G2) (z : F) (items : List (Item F G1 G2)) : GT :=
  defectSum E vk (powersFrom z z items.length) items

theorem chunkAcc_eq (E : Engine F G1 G2 GT) (vk : VerifyingKey G1 G2) (items : List (Item F G1 G2)) (tape : List F)
    (hi : ∀ it ∈ items, it.inputs.length + 1 = vk.ic.length) :
    (weights tape = [] ∧ chunkAcc E vk.ic.length items tape = none) ∨
    ∃ z rest acc, weights tape = z :: rest ∧ chunkAcc E vk.ic.length items tape = some acc ∧ acc.Fine E vk ∧
      acc.mlResult.isSome ∧ acc.val E vk = chunkSum E vk z items := by
  rcases hd : drawNonzero tape with _ | ⟨z, rest⟩
  · left; exact ⟨drawNonzero_none hd, by rw [chunkAcc, hd]; rfl⟩
  · right
    obtain ⟨hz, hw⟩ := drawNonzero_some hd
    obtain ⟨st', h1, h2, h3⟩ := chunkLoop_eq E vk z items z { mlTerms := [], gammas := List.replicate vk.ic.length 0, delta := 0, y := 0 }
      (by simp) hi
    refine ⟨z, _, _, hw, by rw [chunkAcc, hd]; simp only [Option.bind_some]; rw [h1]; rfl, ⟨h2, by simp⟩, rfl, ?_⟩
    have h0 : (BatchState.val E vk { mlTerms := [], gammas := List.replicate vk.ic.length 0, delta := 0, y := 0 }) = 0 := by
      unfold BatchState.val
      rw [batchPsi_eq _ _ (by simp), sum_eq_zero]
      · simp
      · intro i hi; simp [List.getD_eq_getElem?_getD, mem_range.1 hi]
    rw [h0, zero_add] at h3
    unfold chunkSum
    rw [← h3]
    unfold BatchAccumulator.val BatchState.val
    simp only [E.final_miller]

/-- `mapM` over indexed chunks. -/
theorem chunkAccs_eq (E : Engine F G1 G2 GT) (vk : VerifyingKey G1 G2) (tapes : ℕ → List F) (cs : List (List (Item F G1 G2))) (o : ℕ)
    (hi : ∀ c ∈ cs, ∀ it ∈ c, it.inputs.length + 1 = vk.ic.length) :
    ((∃ i < cs.length, weights (tapes (o + i)) = []) ∧ ((cs.zipIdx o).mapM fun x => chunkAcc E vk.ic.length x.1 (tapes x.2)) = none) ∨
    ((∀ i < cs.length, weights (tapes (o + i)) ≠ []) ∧
      ∃ accs, ((cs.zipIdx o).mapM fun x => chunkAcc E vk.ic.length x.1 (tapes x.2)) = some accs ∧ accs.length = cs.length ∧
        (∀ a ∈ accs, a.Fine E vk ∧ a.mlResult.isSome) ∧
        (accs.map fun a => a.val E vk).sum = ∑ i ∈ range cs.length, chunkSum E vk ((weights (tapes (o + i))).headD 0) (cs.getD i [])) := by
  induction cs generalizing o with
  | nil => right; exact ⟨by simp, [], rfl, rfl, by simp, by simp⟩
  | cons c cs ih =>
    have hcons : ((c :: cs).zipIdx o).mapM (fun x => chunkAcc E vk.ic.length x.1 (tapes x.2)) =
        (chunkAcc E vk.ic.length c (tapes o)).bind fun a => ((cs.zipIdx (o + 1)).mapM fun x => chunkAcc E vk.ic.length x.1 (tapes x.2)).bind
          fun as => some (a :: as) := by
      rw [List.zipIdx_cons, List.mapM_cons]; rfl
    rw [hcons]
    rcases chunkAcc_eq E vk c (tapes o) (hi c (by simp)) with ⟨h1, h2⟩ | ⟨z, rest, acc, h1, h2, h3, h4, h5⟩
    · left; exact ⟨⟨0, by simp, h1⟩, by rw [h2]; rfl⟩
    · rw [h2]
      simp only [Option.bind_some]
      rcases ih (o + 1) (fun d hd => hi d (by simp [hd])) with ⟨⟨i, a, a'⟩, b⟩ | ⟨a, accs, b, c', d, e⟩
      · left
        exact ⟨⟨i + 1, by simpa using a, by rw [← a']; congr 2; omega⟩, by rw [b]; rfl⟩
      · right
        refine ⟨fun i hi' => ?_, acc :: accs, by rw [b]; rfl, by simp [c'], ?_, ?_⟩
        · cases i with
          | zero => rw [Nat.add_zero, h1]; simp
          | succ i =>
            have := a i (by simpa using hi')
            rwa [show o + 1 + i = o + (i + 1) by omega] at this
        · intro x hx
          rcases List.mem_cons.1 hx with rfl | hx
          · exact ⟨h3, h4⟩
          · exact d x hx
        · rw [List.map_cons, List.sum_cons, e, h5, List.length_cons, sum_range_succ']
          simp only [List.getD_cons_zero, List.getD_cons_succ, Nat.add_zero, h1, List.headD_cons]
          rw [add_comm]
          congr 1
          refine sum_congr rfl fun i _ => ?_
          rw [show o + 1 + i = o + (i + 1) by omega]

/-- The chunk with index `i`. -/
def batchChunk (items : List (Item F G1 G2)) (i : ℕ) : List (Item F G1 G2) := (items.drop (8 * i)).take 8

/-- `verify_multicore` by cases. -/
theorem batch_multicore_cases (E : Engine F G1 G2 GT) (vk : VerifyingKey G1 G2) (v : BatchVerifier F G1 G2) (tapes : ℕ → List F)
    (tree : ReduceTree) (ht : tree.size = (v.items.length + 7) / 8) :
    ((∃ it ∈ v.items, it.inputs.length + 1 ≠ vk.ic.length) ∧ v.verifyMulticore E tapes tree vk = some (.error .invalidVerifyingKey)) ∨
    ((∀ it ∈ v.items, it.inputs.length + 1 = vk.ic.length) ∧
      (((∃ i < (v.items.length + 7) / 8, weights (tapes i) = []) ∧ v.verifyMulticore E tapes tree vk = none) ∨
       ((∀ i < (v.items.length + 7) / 8, weights (tapes i) ≠ []) ∧ v.verifyMulticore E tapes tree vk =
        some (if ∑ i ∈ range ((v.items.length + 7) / 8), chunkSum E vk ((weights (tapes i)).headD 0) (batchChunk v.items i) = 0
          then .ok () else .error .invalidProof)))) := by
  by_cases hl : ∃ it ∈ v.items, it.inputs.length + 1 ≠ vk.ic.length
  · left
    exact ⟨hl, by rw [BatchVerifier.verifyMulticore, if_pos ((any_false_iff v vk).2 hl)]⟩
  · right
    have hl' : ∀ it ∈ v.items, it.inputs.length + 1 = vk.ic.length := by
      intro it hit; by_contra h; exact hl ⟨it, hit, h⟩
    refine ⟨hl', ?_⟩
    rw [BatchVerifier.verifyMulticore, if_neg fun h => hl ((any_false_iff v vk).1 h)]
    have hc : chunks? 8 v.items = some ((List.range ((v.items.length + 7) / 8)).map (batchChunk v.items)) := by
      rw [chunks?, if_neg (by decide), chunksAux_eq' 8 (by decide) _ _ le_rfl]
      rfl
    rw [hc]
    simp only [Option.bind_some]
    have hgetD : ∀ i < (v.items.length + 7) / 8, ((List.range ((v.items.length + 7) / 8)).map (batchChunk v.items)).getD i [] =
        batchChunk v.items i := by
      intro i hi
      rw [List.getD_eq_getElem?_getD, List.getElem?_map, List.getElem?_range hi]; rfl
    rcases chunkAccs_eq E vk tapes ((List.range ((v.items.length + 7) / 8)).map (batchChunk v.items)) 0 (by
        intro c hc it hit
        obtain ⟨i, _, rfl⟩ := List.mem_map.1 hc
        exact hl' it (List.mem_of_mem_drop (List.mem_of_mem_take hit))) with ⟨⟨i, a, a'⟩, b⟩ | ⟨a, accs, b, c, d, e⟩
    · left
      rw [Nat.zero_add] at a'
      exact ⟨⟨i, by simpa using a, a'⟩, by rw [b]; rfl⟩
    · right
      simp only [Nat.zero_add, List.length_map, List.length_range] at a c e
      refine ⟨a, ?_⟩
      rw [b]
      simp only [Option.bind_some]
      obtain ⟨f1, f2⟩ := ReduceTree.reduce_fine E vk tree accs (fun x hx => (d x hx).1) (by rw [c, ht])
      have hsum : (tree.reduce (BatchAccumulator.new vk.ic.length) (BatchAccumulator.combine E) accs).val E vk =
          ∑ i ∈ range ((v.items.length + 7) / 8), chunkSum E vk ((weights (tapes i)).headD 0) (batchChunk v.items i) := by
        rw [f2, e]
        exact sum_congr rfl fun i hi => by rw [hgetD i (mem_range.1 hi)]
      rw [← hsum]
      rcases hr : (tree.reduce (BatchAccumulator.new vk.ic.length) (BatchAccumulator.combine E) accs).mlResult with _ | r
      · simp only
        rw [f1.none hr, if_pos rfl]
      · simp only
        have : E.finalExponentiation (E.millerAdd r (E.multiMillerLoop
            [((tree.reduce (BatchAccumulator.new vk.ic.length) (BatchAccumulator.combine E) accs).delta, vk.deltaG2),
             (batchPsi vk.ic (tree.reduce (BatchAccumulator.new vk.ic.length) (BatchAccumulator.combine E) accs).gammas, vk.gammaG2),
             ((tree.reduce (BatchAccumulator.new vk.ic.length) (BatchAccumulator.combine E) accs).y • vk.alphaG1, vk.betaG2)])) =
            (tree.reduce (BatchAccumulator.new vk.ic.length) (BatchAccumulator.combine E) accs).val E vk := by
          rw [E.final_add, E.final_miller]
          unfold BatchAccumulator.val
          rw [hr]
          simp [add_assoc]
        rw [this]
        split <;> rfl

end Bellman
