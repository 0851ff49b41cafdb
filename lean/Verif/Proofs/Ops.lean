import Verif.Groth16.Ops
import Verif.Proofs.Batch

/-!
# The counted verifiers: results and counters
-/

set_option linter.unusedSectionVars false

namespace Bellman

open PrimeField

variable {F G1 G2 GT : Type} [PrimeField F] [AddCommGroup G1] [AddCommGroup G2] [AddCommGroup GT]
  [Module F G1] [Module F G2] [Module F GT] [DecidableEq GT]

theorem Ops.add_def (a b : Ops) : a + b = ⟨a.pairings + b.pairings, a.millerLoops + b.millerLoops, a.pairs + b.pairs, a.millerAdds + b.millerAdds,
    a.finalExps + b.finalExps, a.muls + b.muls, a.draws + b.draws⟩ := rfl

theorem Ops.add_assoc (a b c : Ops) : a + b + c = a + (b + c) := by
  simp [Ops.add_def, Nat.add_assoc]

theorem Ops.add_zero (a : Ops) : a + {} = a := rfl

theorem Counted.bind_run {α β : Type} (x : Counted α) (f : α → Counted β) (o : Ops) : (x >>= f) o = (x o).bind fun r => f r.1 r.2 := rfl

theorem Counted.pure_run {α : Type} (a : α) (o : Ops) : (pure a : Counted α) o = some (a, o) := rfl

theorem Counted.lift_run {α : Type} (x : Option α) (o : Ops) : (liftM x : Counted α) o = x.map fun a => (a, o) := by
  cases x <;> rfl

theorem mulC_run (x : F) (g : G1) (o : Ops) : mulC x g o = some (x • g, o + { muls := 1 }) := rfl

/-- The counted computation gives what `x` gives, with the operations `d` added. -/
def Runs {α : Type} (c : Counted α) (x : Option α) (d : Ops) : Prop := ∀ o, c o = x.map fun a => (a, o + d)

theorem Runs.pure {α : Type} (a : α) : Runs (Pure.pure a : Counted α) (some a) {} := fun _ => rfl

theorem Runs.lift {α : Type} (x : Option α) : Runs (liftM x : Counted α) x {} := fun o => by rw [Counted.lift_run]; rfl

theorem Runs.bind {α β : Type} {c : Counted α} {x : Option α} {d d' : Ops} {f : α → Counted β} {g : α → Option β} (h : Runs c x d)
    (h' : ∀ a, x = some a → Runs (f a) (g a) d') : Runs (c >>= f) (x.bind g) (d + d') := by
  intro o
  rw [Counted.bind_run, h o]
  cases x with
  | none => rfl
  | some a =>
    simp only [Option.map_some, Option.bind_some]
    rw [h' a rfl, Ops.add_assoc]

theorem Runs.bind' {α β : Type} {c : Counted α} {a : α} {d d' : Ops} {f : α → Counted β} {y : Option β} (h : Runs c (some a) d)
    (h' : Runs (f a) y d') : Runs (c >>= f) y (d + d') :=
  h.bind (g := fun _ => y) (fun a' e => by cases e; exact h')

theorem Runs.of_eq {α : Type} {c : Counted α} {x y : Option α} {d d' : Ops} (h : Runs c x d) (hx : x = y) (hd : d = d') : Runs c y d' := by
  subst hx hd; exact h

theorem Runs.mul (x : F) (g : G1) : Runs (mulC x g) (some (x • g)) { muls := 1 } := fun _ => rfl

theorem Runs.millerLoop (E : Engine F G1 G2 GT) (ts : List (G1 × G2)) :
    Runs (E.multiMillerLoopC ts) (some (E.multiMillerLoop ts)) { millerLoops := 1, pairs := ts.length } := fun _ => rfl

theorem Runs.millerAdd (E : Engine F G1 G2 GT) (a b : E.MillerResult) :
    Runs (E.millerAddC a b) (some (E.millerAdd a b)) { millerAdds := 1 } := fun _ => rfl

theorem Runs.finalExp (E : Engine F G1 G2 GT) (a : E.MillerResult) :
    Runs (E.finalExponentiationC a) (some (E.finalExponentiation a)) { finalExps := 1 } := fun _ => rfl

theorem Runs.ite {α : Type} {p : Prop} [Decidable p] {c c' : Counted α} {x x' : Option α} {d : Ops} (h : p → Runs c x d) (h' : ¬ p → Runs c' x' d) :
    Runs (if p then c else c') (if p then x else x') d := by
  by_cases hp : p
  · rw [if_pos hp, if_pos hp]; exact h hp
  · rw [if_neg hp, if_neg hp]; exact h' hp

theorem Runs.foldMul (l : List (F × G1)) (acc : G1) :
    Runs (l.foldlM (fun acc x => do return acc + (← mulC x.1 x.2)) acc) (some (l.foldl (fun acc x => acc + x.1 • x.2) acc)) { muls := l.length } := by
  induction l generalizing acc with
  | nil => exact Runs.pure _
  | cons a l ih =>
    rw [List.foldlM_cons, List.foldl_cons]
    refine Runs.of_eq (Runs.bind' (Runs.bind' (Runs.mul a.1 a.2) (Runs.pure _)) (ih _)) rfl ?_
    simp [Ops.add_def, Nat.add_comm]

theorem Runs.mapMul (l : List (G1 × F)) : Runs (l.mapM fun x => mulC x.2 x.1) (some (l.map fun x => x.2 • x.1)) { muls := l.length } := by
  induction l with
  | nil => exact Runs.pure _
  | cons a l ih =>
    rw [List.mapM_cons]
    refine Runs.of_eq (Runs.bind' (Runs.mul a.2 a.1) (Runs.bind' ih (Runs.pure _))) rfl ?_
    simp [Ops.add_def, Nat.add_comm]

theorem Runs.psi (ic : List G1) (gs : List F) : Runs (batchPsiC ic gs) (some (batchPsi ic gs)) { muls := min ic.length gs.length } :=
  Runs.of_eq (Runs.bind' (Runs.mapMul (ic.zip gs)) (Runs.pure _)) rfl (by simp [Ops.add_def])

theorem Runs.draw (tape : List F) (o : Ops) :
    drawNonzeroC tape o = (drawNonzero tape).map fun zt => (zt, o + { draws := tape.findIdx (· ≠ 0) + 1 }) := by
  induction tape generalizing o with
  | nil => rfl
  | cons z tape ih =>
    rw [drawNonzero, drawNonzeroC]
    have : ((do
        modify fun o => { o with draws := o.draws + 1 }
        if z = 0 then drawNonzeroC tape else return (z, tape)) : Counted (F × List F)) o =
        (if z = 0 then drawNonzeroC tape else return (z, tape) : Counted (F × List F)) { o with draws := o.draws + 1 } := rfl
    rw [this]
    by_cases hz : z = 0
    · rw [if_pos hz, if_pos hz, ih]
      congr 1
      funext zt
      simp [List.findIdx_cons, hz, Ops.add_def]
      omega
    · rw [if_neg hz, if_neg hz]
      simp [List.findIdx_cons, hz, Ops.add_def, Counted.pure_run]

theorem Runs.add (st : BatchState F G1 G2) (z : F) (it : Item F G1 G2) : Runs (st.addC z it) (st.add z it) { muls := 2 } :=
  Runs.of_eq (Runs.bind' (Runs.mul z it.proof.a) (Runs.bind (Runs.lift (addGammas z it.inputs st.gammas)) fun _ _ =>
    Runs.bind' (Runs.mul z it.proof.c) (Runs.pure _))) rfl rfl

/-- How many values are drawn until `n` of them are not zero. -/
def firstDraws : ℕ → List F → ℕ
  | 0, _ => 0
  | n + 1, tape => (tape.findIdx (· ≠ 0) + 1) + firstDraws n (tape.drop (tape.findIdx (· ≠ 0) + 1))

theorem drawNonzero_drop {tape rest : List F} {z : F} (h : drawNonzero tape = some (z, rest)) : rest = tape.drop (tape.findIdx (· ≠ 0) + 1) := by
  rw [drawNonzero_eq] at h
  split at h
  · cases h
  · cases h; rfl

theorem firstDraws_spec (n : ℕ) (tape : List F) (h : n ≤ (weights tape).length) :
    (weights (tape.take (firstDraws n tape))).length = n ∧ ∀ d < firstDraws n tape, (weights (tape.take d)).length < n := by
  induction n generalizing tape with
  | zero => exact ⟨by simp [firstDraws, weights], fun d hd => absurd hd (by simp [firstDraws])⟩
  | succ n ih =>
    induction tape with
    | nil => simp [weights] at h
    | cons z tape iht =>
      by_cases hz : z = 0
      · have hw : weights (z :: tape) = weights tape := by simp [weights, hz]
        have hf : firstDraws (n + 1) (z :: tape) = firstDraws (n + 1) tape + 1 := by
          simp only [firstDraws, List.findIdx_cons, hz, ne_eq, not_true_eq_false, decide_false, cond_false, List.drop_succ_cons]
          omega
        rw [hw] at h
        obtain ⟨h1, h2⟩ := iht h
        have ht : ∀ d, weights ((z :: tape).take (d + 1)) = weights (tape.take d) := fun d => by simp [weights, hz]
        rw [hf, ht]
        refine ⟨h1, fun d hd => ?_⟩
        cases d with
        | zero => simp [weights]
        | succ d => rw [ht]; exact h2 d (by omega)
      · have hw : weights (z :: tape) = z :: weights tape := by simp [weights, hz]
        have hf : firstDraws (n + 1) (z :: tape) = firstDraws n tape + 1 := by
          simp [firstDraws, List.findIdx_cons, hz, Nat.add_comm]
        rw [hw, List.length_cons] at h
        obtain ⟨h1, h2⟩ := ih tape (by omega)
        have ht : ∀ d, (weights ((z :: tape).take (d + 1))).length = (weights (tape.take d)).length + 1 := fun d => by simp [weights, hz]
        rw [hf, ht]
        refine ⟨by rw [h1], fun d hd => ?_⟩
        cases d with
        | zero => simp [weights]
        | succ d => rw [ht]; have := h2 d (by omega); omega

theorem batchLoop_weights {items : List (Item F G1 G2)} {tape : List F} {st st' : BatchState F G1 G2} (h : batchLoop items tape st = some st') :
    items.length ≤ (weights tape).length := by
  induction items generalizing tape st with
  | nil => exact Nat.zero_le _
  | cons it items ih =>
    rw [batchLoop] at h
    rcases hd : drawNonzero tape with _ | ⟨z, rest⟩
    · rw [hd] at h; cases h
    · rw [hd, Option.bind_some] at h
      rcases ha : st.add z it with _ | s
      · rw [ha] at h; cases h
      · rw [ha, Option.bind_some] at h
        rw [(drawNonzero_some hd).2, List.length_cons, List.length_cons]
        exact Nat.succ_le_succ (ih h)

theorem Runs.batchLoop (items : List (Item F G1 G2)) (tape : List F) (st : BatchState F G1 G2) :
    Runs (batchLoopC items tape st) (Bellman.batchLoop items tape st) { muls := 2 * items.length, draws := firstDraws items.length tape } := by
  induction items generalizing tape st with
  | nil => exact Runs.pure _
  | cons it items ih =>
    refine Runs.of_eq (Runs.bind (fun o => Runs.draw tape o : Runs (drawNonzeroC tape) _ _) 
      (d' := { muls := 2 * (items.length + 1), draws := firstDraws items.length (tape.drop (tape.findIdx (· ≠ 0) + 1)) }) fun zt hzt => ?_) rfl ?_
    · refine Runs.of_eq (Runs.bind (Runs.add st zt.1 it) fun s _ => ih zt.2 s) rfl ?_
      rw [drawNonzero_drop (z := zt.1) (rest := zt.2) hzt]
      simp [Ops.add_def]; omega
    · simp [Ops.add_def, firstDraws]

theorem add_gammas {st st' : BatchState F G1 G2} {z : F} {it : Item F G1 G2} (h : st.add z it = some st') :
    st'.gammas.length = st.gammas.length ∧ st'.mlTerms.length = st.mlTerms.length + 1 := by
  unfold BatchState.add at h
  rcases hg : st.gammas with _ | ⟨g, gs⟩
  · rw [hg] at h; cases h
  · rw [hg] at h
    simp only [addGammas, Option.bind_some, Option.some.injEq] at h
    subst h
    simp

theorem batchLoop_sizes {items : List (Item F G1 G2)} {tape : List F} {st st' : BatchState F G1 G2} (h : Bellman.batchLoop items tape st = some st') :
    st'.gammas.length = st.gammas.length ∧ st'.mlTerms.length = st.mlTerms.length + items.length := by
  induction items generalizing tape st with
  | nil => cases h; exact ⟨rfl, rfl⟩
  | cons it items ih =>
    rw [Bellman.batchLoop] at h
    rcases hd : drawNonzero tape with _ | ⟨z, rest⟩
    · rw [hd] at h; cases h
    · rw [hd, Option.bind_some] at h
      rcases ha : st.add z it with _ | s
      · rw [ha] at h; cases h
      · rw [ha, Option.bind_some] at h
        obtain ⟨h1, h2⟩ := ih h
        obtain ⟨h3, h4⟩ := add_gammas ha
        refine ⟨h1.trans h3, ?_⟩
        rw [h2, h4, List.length_cons]; omega

theorem Runs.verifyProof (E : Engine F G1 G2 GT) (pvk : PreparedVerifyingKey G1 G2 GT) (proof : Proof G1 G2) (xs : List F)
    (h : xs.length + 1 = pvk.ic.length) :
    Runs (verifyProofC E pvk proof xs) (Bellman.verifyProof E pvk proof xs) { millerLoops := 1, pairs := 3, finalExps := 1, muls := xs.length } := by
  unfold verifyProofC Bellman.verifyProof
  rw [if_neg (not_not.2 h), if_neg (not_not.2 h)]
  refine Runs.of_eq (Runs.bind (Runs.lift _) (d' := { millerLoops := 1, pairs := 3, finalExps := 1, muls := xs.length }) fun acc _ => ?_) rfl ?_
  · refine Runs.of_eq (Runs.bind' (Runs.foldMul _ _) (Runs.bind' (Runs.millerLoop E _) (Runs.bind'
      (Runs.finalExp E _) (Runs.ite (fun _ => Runs.pure _) fun _ => Runs.pure _)))) rfl ?_
    simp [Ops.add_def]
    omega
  · simp [Ops.add_def]

theorem Runs.verify (E : Engine F G1 G2 GT) (v : BatchVerifier F G1 G2) (tape : List F) (vk : VerifyingKey G1 G2)
    (h : ∀ it ∈ v.items, it.inputs.length + 1 = vk.ic.length) :
    Runs (v.verifyC E tape vk) (v.verify E tape vk) { millerLoops := 1, pairs := v.items.length + 3, finalExps := 1
                                                      muls := 2 * v.items.length + vk.ic.length + 1, draws := firstDraws v.items.length tape } := by
  unfold BatchVerifier.verifyC BatchVerifier.verify
  have hn : ¬ (v.items.any fun it => it.inputs.length + 1 ≠ vk.ic.length) = true := by
    simp only [List.any_eq_true, not_exists, not_and, ne_eq, decide_eq_true_eq, not_not]
    exact h
  rw [if_neg hn, if_neg hn]
  refine Runs.of_eq (Runs.bind (Runs.batchLoop _ _ _) (d' := { millerLoops := 1, pairs := v.items.length + 3, finalExps := 1, muls := vk.ic.length + 1 })
    fun st hst => ?_) rfl ?_
  · obtain ⟨h1, h2⟩ := batchLoop_sizes hst
    refine Runs.of_eq (Runs.bind' (Runs.psi _ _) (Runs.bind' (Runs.mul _ _) (Runs.bind' (Runs.millerLoop E _) (Runs.bind' (Runs.finalExp E _)
      (Runs.ite (fun _ => Runs.pure _) fun _ => Runs.pure _))))) rfl ?_
    simp [Ops.add_def, h1, h2]
  · simp [Ops.add_def, Nat.add_assoc]

theorem Runs.chunkLoop (z : F) (items : List (Item F G1 G2)) (curZ : F) (st : BatchState F G1 G2) :
    Runs (chunkLoopC z items curZ st) (Bellman.chunkLoop z items curZ st) { muls := 2 * items.length } := by
  induction items generalizing curZ st with
  | nil => exact Runs.pure _
  | cons it items ih =>
    refine Runs.of_eq (Runs.bind (Runs.add st curZ it) fun s _ => ih (curZ * z) s) rfl ?_
    simp [Ops.add_def]; omega

theorem chunkLoop_sizes {z : F} {items : List (Item F G1 G2)} {curZ : F} {st st' : BatchState F G1 G2}
    (h : Bellman.chunkLoop z items curZ st = some st') :
    st'.gammas.length = st.gammas.length ∧ st'.mlTerms.length = st.mlTerms.length + items.length := by
  induction items generalizing curZ st with
  | nil => cases h; exact ⟨rfl, rfl⟩
  | cons it items ih =>
    rw [Bellman.chunkLoop] at h
    rcases ha : st.add curZ it with _ | s
    · rw [ha] at h; cases h
    · rw [ha, Option.bind_some] at h
      obtain ⟨h1, h2⟩ := ih h
      obtain ⟨h3, h4⟩ := add_gammas ha
      refine ⟨h1.trans h3, ?_⟩
      rw [h2, h4, List.length_cons]; omega

theorem Runs.chunkAcc (E : Engine F G1 G2 GT) (icLen : ℕ) (items : List (Item F G1 G2)) (tape : List F) :
    Runs (chunkAccC E icLen items tape) (Bellman.chunkAcc E icLen items tape)
      { millerLoops := 1, pairs := items.length, muls := 2 * items.length, draws := firstDraws 1 tape } := by
  refine Runs.of_eq (Runs.bind (fun o => Runs.draw tape o : Runs (drawNonzeroC tape) _ _)
    (d' := { millerLoops := 1, pairs := items.length, muls := 2 * items.length }) fun zt hzt => ?_) rfl ?_
  · refine Runs.of_eq (Runs.bind (Runs.chunkLoop zt.1 items zt.1 _) (d' := { millerLoops := 1, pairs := items.length }) fun st hst => ?_) rfl ?_
    · refine Runs.of_eq (Runs.bind' (Runs.millerLoop E _) (Runs.pure _)) rfl ?_
      obtain ⟨-, h2⟩ := chunkLoop_sizes hst
      simp [Ops.add_def, h2]
    · simp [Ops.add_def]
  · simp [Ops.add_def, firstDraws]

theorem chunkAcc_sizes {E : Engine F G1 G2 GT} {icLen : ℕ} {items : List (Item F G1 G2)} {tape : List F}
    {acc : BatchAccumulator F G1 E.MillerResult} (h : Bellman.chunkAcc E icLen items tape = some acc) :
    acc.gammas.length = icLen ∧ acc.mlResult.isSome = true ∧ weights tape ≠ [] := by
  unfold Bellman.chunkAcc at h
  rcases hd : drawNonzero tape with _ | ⟨z, rest⟩
  · rw [hd] at h; cases h
  · rw [hd, Option.bind_some] at h
    simp only at h
    rcases hl : Bellman.chunkLoop z items z { mlTerms := [], gammas := List.replicate icLen 0, delta := 0, y := 0 } with _ | st
    · rw [hl] at h; cases h
    · rw [hl, Option.bind_some] at h
      cases h
      refine ⟨by rw [(chunkLoop_sizes hl).1]; simp, rfl, ?_⟩
      rw [(drawNonzero_some hd).2]; simp

theorem Runs.combine (E : Engine F G1 G2 GT) (a b : BatchAccumulator F G1 E.MillerResult) :
    Runs (a.combineC E b) (some (a.combine E b)) { millerAdds := if a.mlResult.isSome ∧ b.mlResult.isSome then 1 else 0 } := by
  rcases a with ⟨ag, ad, ay, _ | am⟩ <;> rcases b with ⟨bg, bd, bY, _ | bm⟩
  · exact fun o => rfl
  · exact fun o => rfl
  · exact fun o => rfl
  · exact fun o => rfl

theorem combine_sizes (E : Engine F G1 G2 GT) (a b : BatchAccumulator F G1 E.MillerResult) :
    (a.combine E b).gammas.length = a.gammas.length ∧ ((a.combine E b).mlResult.isSome = (a.mlResult.isSome || b.mlResult.isSome)) := by
  rcases a with ⟨ag, ad, ay, _ | am⟩ <;> rcases b with ⟨bg, bd, bY, _ | bm⟩ <;> simp [BatchAccumulator.combine]

theorem Runs.reduce (E : Engine F G1 G2 GT) (icLen : ℕ) (tree : ReduceTree) (xs : List (BatchAccumulator F G1 E.MillerResult)) (hl : tree.size = xs.length)
    (hx : ∀ x ∈ xs, x.gammas.length = icLen ∧ x.mlResult.isSome = true) :
    Runs (tree.reduceC (BatchAccumulator.new icLen) (BatchAccumulator.combineC E) xs)
      (some (tree.reduce (BatchAccumulator.new icLen) (BatchAccumulator.combine E) xs)) { millerAdds := xs.length - 1 } ∧
    (tree.reduce (BatchAccumulator.new icLen) (BatchAccumulator.combine E) xs).gammas.length = icLen ∧
    ((tree.reduce (BatchAccumulator.new icLen) (BatchAccumulator.combine E) xs).mlResult.isSome = true ↔ xs ≠ []) := by
  induction tree generalizing xs with
  | identity =>
    have : xs = [] := List.length_eq_zero_iff.1 hl.symm
    subst this
    exact ⟨Runs.pure _, by simp [ReduceTree.reduce, BatchAccumulator.new], by simp [ReduceTree.reduce, BatchAccumulator.new]⟩
  | item =>
    obtain ⟨x, rfl⟩ := List.length_eq_one_iff.1 hl.symm
    obtain ⟨h1, h2⟩ := hx x (by simp)
    exact ⟨Runs.pure _, h1, by simp [ReduceTree.reduce, h2]⟩
  | node l r ihl ihr =>
    have hl : l.size + r.size = xs.length := hl
    obtain ⟨a1, a2, a3⟩ := ihl (xs.take l.size) (by rw [List.length_take]; omega) fun x h => hx x (List.mem_of_mem_take h)
    obtain ⟨b1, b2, b3⟩ := ihr (xs.drop l.size) (by rw [List.length_drop]; omega) fun x h => hx x (List.mem_of_mem_drop h)
    rw [ReduceTree.reduce]
    obtain ⟨c1, c2⟩ := combine_sizes E (l.reduce (BatchAccumulator.new icLen) (BatchAccumulator.combine E) (xs.take l.size))
      (r.reduce (BatchAccumulator.new icLen) (BatchAccumulator.combine E) (xs.drop l.size))
    refine ⟨?_, c1.trans a2, ?_⟩
    · refine Runs.of_eq (Runs.bind' a1 (Runs.bind' b1 (Runs.combine E _ _))) rfl ?_
      have ha : (xs.take l.size ≠ []) ↔ 0 < l.size := by
        rw [← List.length_pos_iff, List.length_take]; omega
      have hb : (xs.drop l.size ≠ []) ↔ 0 < r.size := by
        rw [← List.length_pos_iff, List.length_drop]; omega
      simp only [a3, b3, ha, hb, Ops.add_def, List.length_take, List.length_drop]
      congr 1
      split <;> omega
    · rw [c2, Bool.or_eq_true, a3, b3, ← List.length_pos_iff, ← List.length_pos_iff, ← List.length_pos_iff, List.length_take, List.length_drop]
      omega

end Bellman
