import Verif.Groth16.Batch

/-!
# The verifiers with the expensive operations counted

The functions of `Verif/Groth16/Verifier.lean` and `Verif/Groth16/Batch.lean` once more, written with counters for the operations that take
the time: Miller loops, final exponentiations, scalar multiplications and draws from the generator.  C73 shows that the results are the same.
-/

namespace Bellman

/-- What is counted. Model device, no counterpart in the code. -/
structure Ops where
  /-- calls of `E::pairing` -/
  pairings : ℕ := 0
  /-- calls of `E::multi_miller_loop` -/
  millerLoops : ℕ := 0
  /-- pairs of points given to `E::multi_miller_loop`, all calls together -/
  pairs : ℕ := 0
  /-- additions of results of Miller loops -/
  millerAdds : ℕ := 0
  /-- calls of `final_exponentiation` -/
  finalExps : ℕ := 0
  /-- multiplications of a point of `G1` by a scalar -/
  muls : ℕ := 0
  /-- calls of `E::Fr::random` -/
  draws : ℕ := 0
deriving DecidableEq, Repr

/-- Operations of two computations together. Model device, no counterpart in the code. -/
instance : Add Ops where
  add a b := ⟨a.pairings + b.pairings, a.millerLoops + b.millerLoops, a.pairs + b.pairs, a.millerAdds + b.millerAdds, a.finalExps + b.finalExps,
    a.muls + b.muls, a.draws + b.draws⟩

/-- A computation that counts; `none` as elsewhere. Model device, no counterpart in the code. -/
abbrev Counted (α : Type) := StateT Ops Option α

variable {F G1 G2 GT : Type} [PrimeField F] [AddCommGroup G1] [AddCommGroup G2] [AddCommGroup GT]
  [Module F G1] [Module F G2] [Module F GT] [DecidableEq GT]

/-- `E::pairing` (external), counted. groth16/src/verifier.rs:16. -/
def Engine.pairingC (E : Engine F G1 G2 GT) (a : G1) (b : G2) : Counted GT := do
  modify fun o => { o with pairings := o.pairings + 1 }
  return E.pairing a b

/-- `E::multi_miller_loop` (external), counted. groth16/src/verifier.rs:47, groth16/src/verifier/batch.rs:168, 239, 270. -/
def Engine.multiMillerLoopC (E : Engine F G1 G2 GT) (terms : List (G1 × G2)) : Counted E.MillerResult := do
  modify fun o => { o with millerLoops := o.millerLoops + 1, pairs := o.pairs + terms.length }
  return E.multiMillerLoop terms

/-- The addition of results of Miller loops (external), counted. groth16/src/verifier/batch.rs:251, 270. -/
def Engine.millerAddC (E : Engine F G1 G2 GT) (a b : E.MillerResult) : Counted E.MillerResult := do
  modify fun o => { o with millerAdds := o.millerAdds + 1 }
  return E.millerAdd a b

/-- `final_exponentiation` (external), counted. groth16/src/verifier.rs:52, groth16/src/verifier/batch.rs:168, 279. -/
def Engine.finalExponentiationC (E : Engine F G1 G2 GT) (x : E.MillerResult) : Counted GT := do
  modify fun o => { o with finalExps := o.finalExps + 1 }
  return E.finalExponentiation x

/-- Multiplication of a point by a scalar (external), counted. E.g. groth16/src/verifier.rs:35. -/
def mulC (x : F) (g : G1) : Counted G1 := do
  modify fun o => { o with muls := o.muls + 1 }
  return x • g

/-- groth16/src/verifier.rs:11-21 `prepare_verifying_key`, counted. -/
def prepareVerifyingKeyC (E : Engine F G1 G2 GT) (vk : VerifyingKey G1 G2) : Counted (PreparedVerifyingKey G1 G2 GT) := do
  let gamma := -vk.gammaG2
  let delta := -vk.deltaG2
  let ab ← E.pairingC vk.alphaG1 vk.betaG2
  return { alphaG1BetaG2 := ab, negGammaG2 := gamma, negDeltaG2 := delta, ic := vk.ic }

/-- groth16/src/verifier.rs:23-58 `verify_proof`, counted. -/
def verifyProofC (E : Engine F G1 G2 GT) (pvk : PreparedVerifyingKey G1 G2 GT) (proof : Proof G1 G2) (publicInputs : List F) :
    Counted (Except VerificationError Unit) :=
  if publicInputs.length + 1 ≠ pvk.ic.length then return .error .invalidVerifyingKey
  else do
    let acc ← (pvk.ic[0]? : Option G1)
    let acc ← (publicInputs.zip (pvk.ic.drop 1)).foldlM (fun acc x => do return acc + (← mulC x.1 x.2)) acc
    let ml ← E.multiMillerLoopC [(proof.a, proof.b), (acc, pvk.negGammaG2), (proof.c, pvk.negDeltaG2)]
    let res ← E.finalExponentiationC ml
    if pvk.alphaG1BetaG2 = res then return .ok () else return .error .invalidProof

/-- groth16/src/verifier/batch.rs:62-64 `Item::verify_single`, counted. -/
def Item.verifySingleC (E : Engine F G1 G2 GT) (it : Item F G1 G2) (pvk : PreparedVerifyingKey G1 G2 GT) :
    Counted (Except VerificationError Unit) :=
  verifyProofC E pvk it.proof it.inputs

/-- groth16/src/verifier/batch.rs:124-129,218-223, counted. -/
def drawNonzeroC : List F → Counted (F × List F)
  | [] => fun _ => none
  | z :: tape => do
    modify fun o => { o with draws := o.draws + 1 }
    if z = 0 then drawNonzeroC tape else return (z, tape)

/-- groth16/src/verifier/batch.rs:131-138,225-237: the effect of one item with weight `z`, counted. -/
def BatchState.addC (st : BatchState F G1 G2) (z : F) (it : Item F G1 G2) : Counted (BatchState F G1 G2) := do
  let az ← mulC z it.proof.a
  let gammas ← (addGammas z it.inputs st.gammas : Option (List F))
  let cz ← mulC z it.proof.c
  return { mlTerms := st.mlTerms ++ [(az, -it.proof.b)], gammas := gammas, delta := st.delta + cz, y := st.y + z }

/-- groth16/src/verifier/batch.rs:118-139: the loop over the items, counted. -/
def batchLoopC : List (Item F G1 G2) → List F → BatchState F G1 G2 → Counted (BatchState F G1 G2)
  | [], _, st => return st
  | it :: items, tape, st => do
    let zt ← drawNonzeroC tape
    let st ← st.addC zt.1 it
    batchLoopC items zt.2 st

/-- groth16/src/verifier/batch.rs:143-148,263-268: `Psi`, counted. -/
def batchPsiC (ic : List G1) (gammas : List F) : Counted G1 := do
  return (← (ic.zip gammas).mapM fun x => mulC x.2 x.1).sum

/-- groth16/src/verifier/batch.rs:100-173 `Verifier::verify`, counted. -/
def BatchVerifier.verifyC (E : Engine F G1 G2 GT) (v : BatchVerifier F G1 G2) (tape : List F) (vk : VerifyingKey G1 G2) :
    Counted (Except VerificationError Unit) :=
  if v.items.any fun it => it.inputs.length + 1 ≠ vk.ic.length then return .error .invalidVerifyingKey
  else do
    let st ← batchLoopC v.items tape { mlTerms := [], gammas := List.replicate vk.ic.length 0, delta := 0, y := 0 }
    let mlTerms := st.mlTerms ++ [(st.delta, vk.deltaG2)]
    let psi ← batchPsiC vk.ic st.gammas
    let mlTerms := mlTerms ++ [(psi, vk.gammaG2)]
    let ya ← mulC st.y vk.alphaG1
    let mlTerms := mlTerms ++ [(ya, vk.betaG2)]
    let ml ← E.multiMillerLoopC mlTerms
    let res ← E.finalExponentiationC ml
    if res = 0 then return .ok () else return .error .invalidProof

/-- groth16/src/verifier/batch.rs:225-237: the loop over the items of one chunk, counted. -/
def chunkLoopC (z : F) : List (Item F G1 G2) → F → BatchState F G1 G2 → Counted (BatchState F G1 G2)
  | [], _, st => return st
  | it :: items, curZ, st => do
    let st ← st.addC curZ it
    chunkLoopC z items (curZ * z) st

/-- groth16/src/verifier/batch.rs:215-241: the accumulator of one chunk, counted. -/
def chunkAccC (E : Engine F G1 G2 GT) (icLen : ℕ) (items : List (Item F G1 G2)) (tape : List F) :
    Counted (BatchAccumulator F G1 E.MillerResult) := do
  let zt ← drawNonzeroC tape
  let z := zt.1
  let st ← chunkLoopC z items z { mlTerms := [], gammas := List.replicate icLen 0, delta := 0, y := 0 }
  let ml ← E.multiMillerLoopC st.mlTerms
  return { gammas := st.gammas, delta := st.delta, y := st.y, mlResult := some ml }

/-- groth16/src/verifier/batch.rs:244-256: the reduction operation, counted. -/
def BatchAccumulator.combineC (E : Engine F G1 G2 GT) (a b : BatchAccumulator F G1 E.MillerResult) :
    Counted (BatchAccumulator F G1 E.MillerResult) := do
  let mlResult ← match a.mlResult, b.mlResult with
    | some a, some b => do pure (some (← E.millerAddC a b))
    | some a, none => pure (some a)
    | none, some a => pure (some a)
    | none, none => pure none
  let gammas := a.gammas.mapIdx fun i x => match b.gammas[i]? with
    | some y => x + y
    | none => x
  return { gammas := gammas, delta := a.delta + b.delta, y := a.y + b.y, mlResult := mlResult }

/-- `ParallelIterator::reduce` of rayon (external) along a tree, with an operation that counts.
groth16/src/verifier/batch.rs:242-257. -/
def ReduceTree.reduceC {α : Type} (id : α) (op : α → α → Counted α) : ReduceTree → List α → Counted α
  | .identity, _ => return id
  | .item, xs => return xs.headD id
  | .node l r, xs => do
    let a ← l.reduceC id op (xs.take l.size)
    let b ← r.reduceC id op (xs.drop l.size)
    op a b

/-- groth16/src/verifier/batch.rs:182-286 `Verifier::verify_multicore`, counted. -/
def BatchVerifier.verifyMulticoreC (E : Engine F G1 G2 GT) (v : BatchVerifier F G1 G2) (tapes : ℕ → List F) (tree : ReduceTree)
    (vk : VerifyingKey G1 G2) : Counted (Except VerificationError Unit) :=
  if v.items.any fun it => it.inputs.length + 1 ≠ vk.ic.length then return .error .invalidVerifyingKey
  else do
    let icLen := vk.ic.length
    let chunks ← (chunks? 8 v.items : Option (List (List (Item F G1 G2))))
    let accs ← chunks.zipIdx.mapM fun x => chunkAccC E icLen x.1 (tapes x.2)
    let acc ← tree.reduceC (BatchAccumulator.new icLen) (BatchAccumulator.combineC E) accs
    match acc.mlResult with
    | none => return .ok ()
    | some mlResult => do
      let psi ← batchPsiC vk.ic acc.gammas
      let ya ← mulC acc.y vk.alphaG1
      let ml ← E.multiMillerLoopC [(acc.delta, vk.deltaG2), (psi, vk.gammaG2), (ya, vk.betaG2)]
      let mlResult ← E.millerAddC mlResult ml
      let res ← E.finalExponentiationC mlResult
      if res = 0 then return .ok () else return .error .invalidProof

end Bellman
