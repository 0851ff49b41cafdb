import Verif.Examples.Bench
import Verif.Proofs.Ops
import Verif.Proofs.Chunks
import Verif.Props.MimcTest

/-!
# C73: what verification costs, one by one and in batches

The counted verifiers compute what the verifiers of the other properties compute, and the counters depend on nothing but the number of proofs,
the number of inputs and the zeros among the draws.
-/

set_option linter.unusedSectionVars false

namespace Bellman

open PrimeField Mimc

variable {F G1 G2 GT : Type} [PrimeField F] [AddCommGroup G1] [AddCommGroup G2] [AddCommGroup GT]
  [Module F G1] [Module F G2] [Module F GT] [DecidableEq GT]

theorem Runs.mapM_const {α β : Type} (l : List α) (f : α → Counted β) (g : α → Option β) (d : Ops) (h : ∀ x ∈ l, Runs (f x) (g x) d) :
    Runs (l.mapM f) (l.mapM g) ⟨l.length * d.pairings, l.length * d.millerLoops, l.length * d.pairs, l.length * d.millerAdds,
      l.length * d.finalExps, l.length * d.muls, l.length * d.draws⟩ := by
  induction l with
  | nil => exact Runs.of_eq (Runs.pure _) rfl (by simp)
  | cons a l ih =>
    rw [List.mapM_cons, List.mapM_cons]
    refine Runs.of_eq (Runs.bind (h a (by simp)) fun b _ => Runs.bind (ih fun x hx => h x (by simp [hx])) fun bs _ => Runs.pure _) rfl ?_
    simp [Ops.add_def, Nat.add_mul, Nat.add_comm]

/-- C73: preparing a key takes one pairing. -/
theorem C73_prepare (E : Engine F G1 G2 GT) (vk : VerifyingKey G1 G2) (o : Ops) :
    prepareVerifyingKeyC E vk o = some (prepareVerifyingKey E vk, o + { pairings := 1 }) := rfl

/-- C73: `verify_proof` takes three pairs in one Miller loop, one final exponentiation, and one scalar multiplication for each input, whatever
the proof and the inputs are and whether they are accepted or not; a wrong number of inputs is rejected without any of these. -/
theorem C73_single (E : Engine F G1 G2 GT) (pvk : PreparedVerifyingKey G1 G2 GT) (proof : Proof G1 G2) (xs : List F) (o : Ops) :
    verifyProofC E pvk proof xs o = (verifyProof E pvk proof xs).map fun r => (r, o +
      if xs.length + 1 = pvk.ic.length then { millerLoops := 1, pairs := 3, finalExps := 1, muls := xs.length } else {}) := by
  by_cases h : xs.length + 1 = pvk.ic.length
  · rw [if_pos h]; exact Runs.verifyProof E pvk proof xs h o
  · rw [if_neg h]
    unfold verifyProofC verifyProof
    rw [if_pos h, if_pos h]
    rfl

/-- C73: a batch of `n` proofs with `ℓ` inputs each takes `n + 3` pairs in one Miller loop, one final exponentiation, `2n + ℓ + 2` scalar
multiplications, and as many draws as it takes to see `n` values other than zero; it does so whatever the proofs are and whether they are
accepted or not.  A wrong number of inputs is rejected without any of these. -/
theorem C73_batch (E : Engine F G1 G2 GT) (v : BatchVerifier F G1 G2) (tape : List F) (vk : VerifyingKey G1 G2) (ℓ : ℕ) (hℓ : ℓ + 1 = vk.ic.length)
    (h : ∀ it ∈ v.items, it.inputs.length = ℓ) (ht : v.items.length ≤ (weights tape).length) :
    ∃ d, (weights (tape.take d)).length = v.items.length ∧ (∀ d' < d, (weights (tape.take d')).length < v.items.length) ∧
      ∀ o, v.verifyC E tape vk o = (v.verify E tape vk).map fun r => (r, o +
        { millerLoops := 1, pairs := v.items.length + 3, finalExps := 1, muls := 2 * v.items.length + ℓ + 2, draws := d }) := by
  obtain ⟨h1, h2⟩ := firstDraws_spec v.items.length tape ht
  refine ⟨_, h1, h2, fun o => ?_⟩
  rw [Runs.verify E v tape vk (fun it hit => by rw [h it hit, hℓ]) o, ← hℓ]
  rfl

/-- C73: a batch with a wrong number of inputs anywhere is rejected at once. -/
theorem C73_batch_mismatch (E : Engine F G1 G2 GT) (v : BatchVerifier F G1 G2) (tape : List F) (tapes : ℕ → List F) (tree : ReduceTree)
    (vk : VerifyingKey G1 G2) (it : Item F G1 G2) (hit : it ∈ v.items) (h : it.inputs.length + 1 ≠ vk.ic.length) (o : Ops) :
    v.verifyC E tape vk o = some (.error .invalidVerifyingKey, o) ∧
    v.verifyMulticoreC E tapes tree vk o = some (.error .invalidVerifyingKey, o) := by
  have hn : (v.items.any fun it => it.inputs.length + 1 ≠ vk.ic.length) = true := by
    rw [List.any_eq_true]; exact ⟨it, hit, by simpa using h⟩
  unfold BatchVerifier.verifyC BatchVerifier.verifyMulticoreC
  rw [if_pos hn, if_pos hn]
  exact ⟨rfl, rfl⟩

/-- C73: without enough draws both versions hang alike. -/
theorem C73_batch_none (E : Engine F G1 G2 GT) (v : BatchVerifier F G1 G2) (tape : List F) (vk : VerifyingKey G1 G2) (o : Ops) :
    v.verifyC E tape vk o = none ↔ v.verify E tape vk = none := by
  by_cases h : ∀ it ∈ v.items, it.inputs.length + 1 = vk.ic.length
  · rw [Runs.verify E v tape vk h o, Option.map_eq_none_iff]
  · push Not at h
    obtain ⟨it, hit, h⟩ := h
    rw [(C73_batch_mismatch E v tape (fun _ => []) .identity vk it hit h o).1]
    have hn : (v.items.any fun it => it.inputs.length + 1 ≠ vk.ic.length) = true := by
      rw [List.any_eq_true]; exact ⟨it, hit, by simpa using h⟩
    unfold BatchVerifier.verify
    rw [if_pos hn]
    simp

theorem chunkAccs_run (E : Engine F G1 G2 GT) (icLen : ℕ) (tapes : ℕ → List F) (cs : List (List (Item F G1 G2))) (k : ℕ) :
    Runs ((cs.zipIdx k).mapM fun x => chunkAccC E icLen x.1 (tapes x.2)) ((cs.zipIdx k).mapM fun x => chunkAcc E icLen x.1 (tapes x.2))
      { millerLoops := cs.length, pairs := cs.flatten.length, muls := 2 * cs.flatten.length
        draws := ((List.range cs.length).map fun i => firstDraws 1 (tapes (k + i))).sum } ∧
    ∀ accs, ((cs.zipIdx k).mapM fun x => chunkAcc E icLen x.1 (tapes x.2)) = some accs → accs.length = cs.length ∧
      (∀ x ∈ accs, x.gammas.length = icLen ∧ x.mlResult.isSome = true) ∧ ∀ i < cs.length, weights (tapes (k + i)) ≠ [] := by
  induction cs generalizing k with
  | nil =>
    refine ⟨Runs.pure _, fun accs h => ?_⟩
    cases h
    exact ⟨rfl, by simp, by simp⟩
  | cons c cs ih =>
    obtain ⟨i1, i2⟩ := ih (k + 1)
    rw [List.zipIdx_cons, List.mapM_cons, List.mapM_cons]
    refine ⟨?_, fun accs h => ?_⟩
    · refine Runs.of_eq (Runs.bind (Runs.chunkAcc E icLen c (tapes k)) fun b _ => Runs.bind i1 fun bs _ => Runs.pure _) rfl ?_
      have e : ∀ x, k + 1 + x = k + (x + 1) := fun x => by omega
      simp [Ops.add_def, List.range_succ_eq_map, Function.comp_def, e]
      omega
    · rcases ha : chunkAcc E icLen c (tapes k) with _ | a
      · rw [ha] at h; cases h
      rcases hb : (cs.zipIdx (k + 1)).mapM fun x => chunkAcc E icLen x.1 (tapes x.2) with _ | bs
      · rw [ha, hb] at h; cases h
      rw [ha, hb] at h
      cases h
      obtain ⟨j1, j2, j3⟩ := i2 bs hb
      obtain ⟨s1, s2, s3⟩ := chunkAcc_sizes ha
      refine ⟨by simp [j1], ?_, ?_⟩
      · intro x hx
        rcases List.mem_cons.1 hx with rfl | hx
        · exact ⟨s1, s2⟩
        · exact j2 x hx
      · intro i hi
        cases i with
        | zero => exact s3
        | succ i => rw [Nat.add_comm i, ← Nat.add_assoc]; exact j3 i (by simpa using hi)

/-- C73: the multicore version takes, for `n > 0` proofs in `c = ⌈n/8⌉` chunks, `n + 3` pairs in `c + 1` Miller loops whose results are added
`c` times, one final exponentiation, `2n + ℓ + 2` scalar multiplications, and in each chunk draws until a value is not zero, whatever the
proofs, the threads and the reduction tree are; for an empty batch nothing. -/
theorem C73_multicore (E : Engine F G1 G2 GT) (v : BatchVerifier F G1 G2) (tapes : ℕ → List F) (tree : ReduceTree) (vk : VerifyingKey G1 G2) (ℓ : ℕ)
    (hℓ : ℓ + 1 = vk.ic.length) (h : ∀ it ∈ v.items, it.inputs.length = ℓ) (htree : tree.size = (v.items.length + 7) / 8)
    (ht : ∀ i < (v.items.length + 7) / 8, weights (tapes i) ≠ []) :
    ∃ d : ℕ → ℕ, (∀ i < (v.items.length + 7) / 8, (weights ((tapes i).take (d i))).length = 1 ∧ ∀ d' < d i, weights ((tapes i).take d') = []) ∧
      ∀ o, v.verifyMulticoreC E tapes tree vk o = (v.verifyMulticore E tapes tree vk).map fun r => (r, o +
        if v.items.length = 0 then {} else
          { millerLoops := (v.items.length + 7) / 8 + 1, pairs := v.items.length + 3, millerAdds := (v.items.length + 7) / 8, finalExps := 1
            muls := 2 * v.items.length + ℓ + 2, draws := ((List.range ((v.items.length + 7) / 8)).map d).sum }) := by
  refine ⟨fun i => firstDraws 1 (tapes i), fun i hi => ?_, fun o => ?_⟩
  · obtain ⟨h1, h2⟩ := firstDraws_spec 1 (tapes i) (List.length_pos_iff.2 (ht i hi))
    exact ⟨h1, fun d hd => List.length_eq_zero_iff.1 (by have := h2 d hd; omega)⟩
  have hn : ¬ (v.items.any fun it => it.inputs.length + 1 ≠ vk.ic.length) = true := by
    simp only [List.any_eq_true, not_exists, not_and, ne_eq, decide_eq_true_eq, not_not]
    exact fun it hit => by rw [h it hit, hℓ]
  have hc : chunks? 8 v.items = some (chunksAux 8 v.items.length v.items) := rfl
  have hcl : (chunksAux 8 v.items.length v.items).length = (v.items.length + 7) / 8 := by
    rw [chunksAux_eq' 8 (by omega) _ _ le_rfl, List.length_map, List.length_range]
  have hcf : (chunksAux 8 v.items.length v.items).flatten = v.items := chunksAux_flatten 8 (by omega) _ _ le_rfl
  unfold BatchVerifier.verifyMulticoreC BatchVerifier.verifyMulticore
  rw [if_neg hn, if_neg hn, hc]
  generalize chunksAux 8 v.items.length v.items = cs at hcl hcf
  obtain ⟨r1, r2⟩ := chunkAccs_run E vk.ic.length tapes cs 0
  refine (Runs.of_eq (Runs.bind (Runs.lift _) (d' := if v.items.length = 0 then {} else
          { millerLoops := (v.items.length + 7) / 8 + 1, pairs := v.items.length + 3, millerAdds := (v.items.length + 7) / 8, finalExps := 1
            muls := 2 * v.items.length + ℓ + 2, draws := ((List.range ((v.items.length + 7) / 8)).map fun i => firstDraws 1 (tapes i)).sum })
    fun cs' hcs' => ?_) rfl ?_ : Runs _ _ _) o
  swap
  · simp [Ops.add_def]
  cases hcs'
  refine Runs.of_eq (Runs.bind r1 (d' := if v.items.length = 0 then {} else
      { millerLoops := 1, pairs := 3, millerAdds := (v.items.length + 7) / 8, finalExps := 1, muls := ℓ + 2 }) fun accs haccs => ?_) rfl ?_
  swap
  · rw [hcf, hcl]
    simp only [Nat.zero_add, Ops.add_def]
    split
    · next h0 => rw [h0]; simp
    · simp only [Nat.add_zero, Ops.mk.injEq, true_and, and_true]
      omega
  obtain ⟨l1, l2, -⟩ := r2 accs haccs
  obtain ⟨t1, t2, t3⟩ := Runs.reduce E vk.ic.length tree accs (by rw [htree, l1, hcl]) l2
  generalize tree.reduce (BatchAccumulator.new vk.ic.length) (BatchAccumulator.combine E) accs = acc at t1 t2 t3
  refine Runs.of_eq (Runs.bind' t1 (d' := if v.items.length = 0 then {} else
      { millerLoops := 1, pairs := 3, millerAdds := 1, finalExps := 1, muls := ℓ + 2 }) ?_) rfl ?_
  swap
  · rw [l1, hcl]
    simp only [Ops.add_def]
    split
    · next h0 => rw [h0]; simp
    · simp only [Nat.zero_add, Nat.add_zero, Ops.mk.injEq, true_and, and_true]
      omega
  rcases acc with ⟨ag, ad, ay, _ | ml⟩
  · have : accs = [] := by simpa using t3
    rw [this, List.length_nil, hcl] at l1
    rw [if_pos (by omega)]
    exact Runs.pure _
  · have : accs ≠ [] := by simpa using t3
    have := List.length_pos_iff.2 this
    rw [l1, hcl] at this
    rw [if_neg (by omega)]
    refine Runs.of_eq (Runs.bind' (Runs.psi _ _) (Runs.bind' (Runs.mul _ _) (Runs.bind' (Runs.millerLoop E _) (Runs.bind' (Runs.millerAdd E _ _)
      (Runs.bind' (Runs.finalExp E _) (Runs.ite (fun _ => Runs.pure _) fun _ => Runs.pure _)))))) rfl ?_
    simp only at t2
    simp [Ops.add_def, t2, ← hℓ]

/-- C73: verifying the same `n` items one by one with `verify_single` takes `3n` pairs, `n` final exponentiations and `nℓ` scalar
multiplications. -/
theorem C73_one_by_one (E : Engine F G1 G2 GT) (items : List (Item F G1 G2)) (pvk : PreparedVerifyingKey G1 G2 GT) (ℓ : ℕ)
    (hℓ : ℓ + 1 = pvk.ic.length) (h : ∀ it ∈ items, it.inputs.length = ℓ) (o : Ops) :
    (items.mapM fun it : Item F G1 G2 => it.verifySingleC E pvk) o = (items.mapM fun it : Item F G1 G2 => it.verifySingle E pvk).map fun r => (r, o +
      { millerLoops := items.length, pairs := 3 * items.length, finalExps := items.length, muls := items.length * ℓ }) := by
  refine Runs.of_eq (Runs.mapM_const items _ (fun it => it.verifySingle E pvk) { millerLoops := 1, pairs := 3, finalExps := 1, muls := ℓ }
    fun it hit => ?_) rfl ?_ o
  · have := Runs.verifyProof E pvk it.proof it.inputs (by rw [h it hit, hℓ])
    rw [h it hit] at this
    exact this
  · simp [Nat.mul_comm]

/-- C73, the comparison: a batch takes fewer pairs in Miller loops, and fewer final exponentiations, exactly from two proofs on; it takes fewer
scalar multiplications only if there are three inputs or more, and not even for three inputs with up to five proofs. -/
theorem C73_comparison (E : Engine F G1 G2 GT) (v : BatchVerifier F G1 G2) (tape : List F) (vk : VerifyingKey G1 G2) (ℓ : ℕ)
    (hℓ : ℓ + 1 = vk.ic.length) (h : ∀ it ∈ v.items, it.inputs.length = ℓ) (ht : v.items.length ≤ (weights tape).length) :
    ∃ rs r, ∃ one batch : Ops, (v.items.mapM fun it : Item F G1 G2 => it.verifySingleC E (prepareVerifyingKey E vk)) {} = some (rs, one) ∧
      v.verifyC E tape vk {} = some (r, batch) ∧
      (batch.pairs < one.pairs ↔ 2 ≤ v.items.length) ∧ (batch.finalExps < one.finalExps ↔ 2 ≤ v.items.length) ∧
      (batch.muls < one.muls ↔ 2 * v.items.length + ℓ + 2 < v.items.length * ℓ) ∧ (ℓ ≤ 2 → one.muls < batch.muls) ∧
      (ℓ = 3 → (batch.muls < one.muls ↔ 6 ≤ v.items.length)) := by
  obtain ⟨d, -, -, hb⟩ := C73_batch E v tape vk ℓ hℓ h ht
  have h1 : ∃ rs, (v.items.mapM fun it : Item F G1 G2 => it.verifySingle E (prepareVerifyingKey E vk)) = some rs := by
    have key : ∀ l : List (Item F G1 G2), ∃ rs, (l.mapM fun it : Item F G1 G2 => it.verifySingle E (prepareVerifyingKey E vk)) = some rs := by
      intro l
      induction l with
      | nil => exact ⟨[], rfl⟩
      | cons a l ih =>
        obtain ⟨rs, e⟩ := ih
        rw [List.mapM_cons, e]
        rcases verifyProof_cases E vk a.proof a.inputs with ⟨-, e'⟩ | ⟨-, -, e'⟩ | ⟨-, -, e'⟩ <;>
          exact ⟨_, by rw [show a.verifySingle E (prepareVerifyingKey E vk) = _ from e']; rfl⟩
    exact key _
  have h2 : ∃ r, v.verify E tape vk = some r := by
    rcases batch_cases E vk v tape with ⟨-, e⟩ | ⟨-, ⟨h', -⟩ | ⟨-, e⟩⟩
    · exact ⟨_, e⟩
    · omega
    · rw [e]; split <;> exact ⟨_, rfl⟩
  obtain ⟨rs, e1⟩ := h1
  obtain ⟨r, e2⟩ := h2
  refine ⟨rs, r, _, _, by rw [C73_one_by_one E v.items (prepareVerifyingKey E vk) ℓ hℓ h, e1]; rfl, by rw [hb, e2]; rfl, ?_⟩
  simp only [Ops.add_def, Nat.zero_add]
  refine ⟨by omega, by omega, trivial, fun hl => ?_, fun hl => ?_⟩
  · have : v.items.length * ℓ ≤ v.items.length * 2 := Nat.mul_le_mul_left _ hl
    omega
  · subst hl; omega

/-! ## The benchmark -/

/-- C73, the benchmark `bench_batch_verify`: except for a fraction `1985269 / |F|` of the trapdoors, setup succeeds, and then for all samples
drawn, `n` proofs are made, every turn of the unbatched benchmark verifies `n` valid proofs with `3n` pairs, `n` final exponentiations and `n`
scalar multiplications, and every turn of the batched benchmark accepts with `n + 3` pairs, one final exponentiation and `2n + 3` scalar
multiplications. -/
theorem C73_bench [DecidableEq G1] [DecidableEq G2] (E : Engine F G1 G2 GT) (cs : List F) (h : cs.length = 322) (hS : 11 ≤ S F) (w : Worker)
    (g1 : G1) (g2 : G2) (hg1 : g1 ≠ 0) (hg2 : g2 ≠ 0) :
    ({x : F × F × F × F × F | ¬ ∃ params, generateParameters w (Demo.mk none none cs).synthesize g1 g2 x.1 x.2.1 x.2.2.1 x.2.2.2.1 x.2.2.2.2 =
        Res.ok params ∧ ∀ (w' : Worker) (samples : List (Sample F)), ∃ proofs, benchProofs w' cs params samples = some proofs ∧
          ∀ o, benchUnbatched E (prepareVerifyingKey E params.vk) proofs o = some (samples.map fun _ => .ok (), o +
            { millerLoops := samples.length, pairs := 3 * samples.length, finalExps := samples.length, muls := samples.length }) ∧
          ∀ tape, samples.length ≤ (tape.filter (· ≠ 0)).length → ∃ d, benchBatched E params.vk proofs tape o = some (.ok (), o +
            { millerLoops := 1, pairs := samples.length + 3, finalExps := 1, muls := 2 * samples.length + 3, draws := d })} : Set _).ncard ≤
      1985269 * p F ^ 4 := by
  classical
  have := PrimeField.finite (F := F)
  refine (Set.ncard_le_ncard ?_ (Set.toFinite _)).trans (C48_pipeline E cs h hS w g1 g2 hg1 hg2)
  rintro x hx
  refine fun hx' => hx ?_
  obtain ⟨params, hk, hall⟩ := hx'
  refine ⟨params, hk, fun w' samples => ?_⟩
  have hp : ∃ proofs : List (Proof G1 G2 × F), benchProofs w' cs params samples = some proofs ∧ proofs.length = samples.length ∧
      ∀ y ∈ proofs, verifyProof E (prepareVerifyingKey E params.vk) y.1 [y.2] = some (.ok ()) := by
    induction samples with
    | nil => exact ⟨[], rfl, rfl, by simp⟩
    | cons a l ih =>
      obtain ⟨ps, e1, e2, e3⟩ := ih
      obtain ⟨pf, image, q1, q2, q3⟩ := hall w' a.xl a.xr a.r a.s
      refine ⟨(pf, image) :: ps, ?_, by rw [List.length_cons, e2, List.length_cons], ?_⟩
      · unfold benchProofs at e1 ⊢
        rw [List.mapM_cons, e1, q1, q2]
        rfl
      · intro y hy
        rcases List.mem_cons.1 hy with rfl | hy
        · exact q3
        · exact e3 y hy
  obtain ⟨proofs, e1, e2, e3⟩ := hp
  have hic : 1 + 1 = params.vk.ic.length := by
    obtain ⟨pf, image, -, -, q3⟩ := hall w' 0 0 0 0
    exact ((verifyProof_ok E params.vk pf [image]).1 q3).1
  have hq : ∀ (l : List (Proof G1 G2 × F)) (b : BatchVerifier F G1 G2),
      (l.foldl (fun (b : BatchVerifier F G1 G2) x => b.queue (Item.ofPair (x.1, [x.2]))) b).items = b.items ++ l.map fun x => ⟨x.1, [x.2]⟩ := by
    intro l
    induction l with
    | nil => simp
    | cons a l ih => intro b; rw [List.foldl_cons, ih]; simp [BatchVerifier.queue, Item.ofPair]
  refine ⟨proofs, e1, fun o => ⟨?_, fun tape ht => ?_⟩⟩
  · have hr := Runs.mapM_const proofs (fun x => verifyProofC E (prepareVerifyingKey E params.vk) x.1 [x.2])
      (fun x => verifyProof E (prepareVerifyingKey E params.vk) x.1 [x.2]) { millerLoops := 1, pairs := 3, finalExps := 1, muls := 1 }
      (fun x _ => Runs.verifyProof E _ x.1 [x.2] hic) o
    have hm : (proofs.mapM fun x => verifyProof E (prepareVerifyingKey E params.vk) x.1 [x.2]) = some (samples.map fun _ => .ok ()) := by
      have key : ∀ l : List (Proof G1 G2 × F), (∀ y ∈ l, verifyProof E (prepareVerifyingKey E params.vk) y.1 [y.2] = some (.ok ())) →
          (l.mapM fun x => verifyProof E (prepareVerifyingKey E params.vk) x.1 [x.2]) = some (List.replicate l.length (.ok ())) := by
        intro l hl
        induction l with
        | nil => rfl
        | cons a l ih => rw [List.mapM_cons, hl a (by simp), ih fun y hy => hl y (by simp [hy])]; rfl
      rw [key proofs e3, e2, List.map_const']
    unfold benchUnbatched
    rw [hr, hm, e2]
    simp [Nat.mul_comm]
  · unfold benchBatched
    have hi := hq proofs BatchVerifier.new
    generalize proofs.foldl (fun (b : BatchVerifier F G1 G2) x => b.queue (Item.ofPair (x.1, [x.2]))) BatchVerifier.new = v at hi
    have hi : v.items = proofs.map fun x => ⟨x.1, [x.2]⟩ := by simpa [BatchVerifier.new] using hi
    have hl : v.items.length = samples.length := by rw [hi, List.length_map, e2]
    have ht : v.items.length ≤ (weights tape).length := by rw [hl]; exact ht
    obtain ⟨d, -, -, hb⟩ := C73_batch E v tape params.vk 1 hic (by
      rw [hi]; intro it hit
      obtain ⟨y, -, rfl⟩ := List.mem_map.1 hit
      rfl) ht
    refine ⟨d, ?_⟩
    rw [hb o, C35_single E params.vk v tape (by
      rw [hi]; intro it hit
      obtain ⟨y, hy, rfl⟩ := List.mem_map.1 hit
      exact e3 y hy) ht, hl]
    rfl

/-! ## The hypotheses can be met -/

/-- Nine items with one input each, as in the examples of C35: the counters of the batch, for valid and for invalid proofs. -/
example (x : DummyFr) : ∃ d, ∀ o, (⟨List.replicate 9 (batchItem x)⟩ : BatchVerifier DummyFr DummyFr DummyFr).verifyC (fieldEngine DummyFr)
      [4, 0, 5, 6, 7, 8, 0, 9, 1, 2, 3] batchKey o =
    ((⟨List.replicate 9 (batchItem x)⟩ : BatchVerifier DummyFr DummyFr DummyFr).verify (fieldEngine DummyFr)
      [4, 0, 5, 6, 7, 8, 0, 9, 1, 2, 3] batchKey).map fun r => (r, o + { millerLoops := 1, pairs := 12, finalExps := 1, muls := 21, draws := d }) := by
  obtain ⟨d, -, -, h⟩ := C73_batch (fieldEngine DummyFr) ⟨List.replicate 9 (batchItem x)⟩ [4, 0, 5, 6, 7, 8, 0, 9, 1, 2, 3] batchKey 1 rfl
    (fun it hit => by rw [List.eq_of_mem_replicate hit]; rfl) (by
      rw [show (weights ([4, 0, 5, 6, 7, 8, 0, 9, 1, 2, 3] : List DummyFr)).length = 9 by decide]; simp)
  exact ⟨d, h⟩

/-- The same by running the code: the two zeros cost two more draws. -/
example :
    (⟨List.replicate 9 (batchItem 70)⟩ : BatchVerifier DummyFr DummyFr DummyFr).verifyC (fieldEngine DummyFr)
      [4, 0, 5, 6, 7, 8, 0, 9, 1, 2, 3] batchKey {} =
      some (.ok (), { millerLoops := 1, pairs := 12, finalExps := 1, muls := 21, draws := 11 }) ∧
    (⟨List.replicate 9 (batchItem 71)⟩ : BatchVerifier DummyFr DummyFr DummyFr).verifyC (fieldEngine DummyFr)
      [4, 0, 5, 6, 7, 8, 0, 9, 1, 2, 3] batchKey {} =
      some (.error .invalidProof, { millerLoops := 1, pairs := 12, finalExps := 1, muls := 21, draws := 11 }) ∧
    (⟨List.replicate 9 (batchItem 70)⟩ : BatchVerifier DummyFr DummyFr DummyFr).verifyMulticoreC (fieldEngine DummyFr)
      (fun i => [0, (i : DummyFr) + 1]) (.node (.node .identity .item) .item) batchKey {} =
      some (.ok (), { millerLoops := 3, pairs := 12, millerAdds := 2, finalExps := 1, muls := 21, draws := 4 }) ∧
    (List.replicate 9 (batchItem 70)).mapM (fun it : Item DummyFr DummyFr DummyFr => it.verifySingleC (fieldEngine DummyFr)
      (prepareVerifyingKey (fieldEngine DummyFr) batchKey)) {} =
      some (List.replicate 9 (.ok ()), { millerLoops := 9, pairs := 27, finalExps := 9, muls := 9 }) := by
  decide +kernel

/-- `C73_multicore` and `C73_comparison` apply to these nine items. -/
example (x : DummyFr) : (∃ d : ℕ → ℕ, ∀ o, (⟨List.replicate 9 (batchItem x)⟩ : BatchVerifier DummyFr DummyFr DummyFr).verifyMulticoreC
      (fieldEngine DummyFr) (fun i => [0, (i : DummyFr) + 1]) (.node (.node .identity .item) .item) batchKey o =
    ((⟨List.replicate 9 (batchItem x)⟩ : BatchVerifier DummyFr DummyFr DummyFr).verifyMulticore (fieldEngine DummyFr)
      (fun i => [0, (i : DummyFr) + 1]) (.node (.node .identity .item) .item) batchKey).map fun r => (r, o +
      { millerLoops := 3, pairs := 12, millerAdds := 2, finalExps := 1, muls := 21, draws := d 0 + d 1 })) ∧
    ∃ rs r, ∃ one batch : Ops, (List.replicate 9 (batchItem x)).mapM (fun it : Item DummyFr DummyFr DummyFr => it.verifySingleC
      (fieldEngine DummyFr) (prepareVerifyingKey (fieldEngine DummyFr) batchKey)) {} = some (rs, one) ∧
      (⟨List.replicate 9 (batchItem x)⟩ : BatchVerifier DummyFr DummyFr DummyFr).verifyC (fieldEngine DummyFr) [4, 5, 6, 7, 8, 9, 1, 2, 3] batchKey {} =
        some (r, batch) ∧ batch.pairs < one.pairs ∧ one.muls < batch.muls := by
  have hin : ∀ it ∈ (⟨List.replicate 9 (batchItem x)⟩ : BatchVerifier DummyFr DummyFr DummyFr).items, it.inputs.length = 1 :=
    fun it hit => by rw [List.eq_of_mem_replicate hit]; rfl
  constructor
  · obtain ⟨d, -, h⟩ := C73_multicore (fieldEngine DummyFr) ⟨List.replicate 9 (batchItem x)⟩ (fun i => [0, (i : DummyFr) + 1])
      (.node (.node .identity .item) .item) batchKey 1 rfl hin (by simp [ReduceTree.size]) (by
        intro i hi
        have : i = 0 ∨ i = 1 := by simp at hi; omega
        rcases this with rfl | rfl <;> decide)
    exact ⟨d, fun o => (h o).trans (by simp [List.range_succ])⟩
  · obtain ⟨rs, r, one, batch, h1, h2, h3, -, -, h4, -⟩ := C73_comparison (fieldEngine DummyFr) ⟨List.replicate 9 (batchItem x)⟩
      [4, 5, 6, 7, 8, 9, 1, 2, 3] batchKey 1 rfl hin (by
      rw [show (weights ([4, 5, 6, 7, 8, 9, 1, 2, 3] : List DummyFr)).length = 9 by decide]; simp)
    exact ⟨rs, r, one, batch, h1, h2, h3.2 (by simp), h4 (by omega)⟩

/-- The hypotheses of `C73_bench` hold for the scalars of BLS12-381 with 322 different constants; the sizes of the benchmark all fill whole
chunks of eight. -/
example : counting.length = 322 ∧ 11 ≤ S BlsScalar ∧ (1 : BlsScalar) ≠ 0 ∧ ∀ n ∈ benchSizes, 8 ∣ n :=
  ⟨by rw [counting, List.length_map, List.length_range], by decide, one_ne_zero, by decide⟩

end Bellman
