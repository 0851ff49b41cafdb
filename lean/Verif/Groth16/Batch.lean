import Verif.Groth16.Verifier
import Verif.Chunks

/-!
# Model of batch verification (groth16/src/verifier/batch.rs)

Random field elements are read from a tape: the list of the values that successive calls of `Field::random` return.  `none` stands
for a panic, or for a rejection loop that has not ended when the tape ends.
-/

namespace Bellman

/-- groth16/src/verifier/batch.rs:40-43 `struct Item`. -/
structure Item (F G1 G2 : Type) where
  proof : Proof G1 G2
  inputs : List F

/-- groth16/src/verifier/batch.rs:72-74 `struct Verifier`. -/
structure BatchVerifier (F G1 G2 : Type) where
  items : List (Item F G1 G2)

variable {F G1 G2 GT : Type} [PrimeField F] [AddCommGroup G1] [AddCommGroup G2] [AddCommGroup GT]
  [Module F G1] [Module F G2] [Module F GT] [DecidableEq GT]

/-- groth16/src/verifier/batch.rs:45-55 `From<(&Proof, &[Fr])>` and `From<(Proof, Vec<Fr>)>` for `Item`; the clones are the same value
here. -/
def Item.ofPair (x : Proof G1 G2 × List F) : Item F G1 G2 := { proof := x.1, inputs := x.2 }

/-- groth16/src/verifier/batch.rs:62-64 `Item::verify_single`. -/
def Item.verifySingle (E : Engine F G1 G2 GT) (it : Item F G1 G2) (pvk : PreparedVerifyingKey G1 G2 GT) :
    Option (Except VerificationError Unit) :=
  verifyProof E pvk it.proof it.inputs

/-- groth16/src/verifier/batch.rs:78-80,88-90 `Verifier::default`, `Verifier::new`. -/
def BatchVerifier.new : BatchVerifier F G1 G2 := { items := [] }

/-- groth16/src/verifier/batch.rs:93-95 `Verifier::queue`. -/
def BatchVerifier.queue (v : BatchVerifier F G1 G2) (it : Item F G1 G2) : BatchVerifier F G1 G2 :=
  { items := v.items ++ [it] }

/-- groth16/src/verifier/batch.rs:124-129,218-223: draw until the value is not zero; the rest of the tape is returned too. -/
def drawNonzero : List F → Option (F × List F)
  | [] => none
  | z :: tape => if z = 0 then drawNonzero tape else some (z, tape)

/-- groth16/src/verifier/batch.rs:133-136,226-231: `acc_Gammas[0] += z` (panics on an empty vector), then `+= z * a_i` over the zip of
the inputs with the remaining entries. -/
def addGammas (z : F) (inputs : List F) : List F → Option (List F)
  | [] => none
  | g :: gs => some ((g + z) :: gs.mapIdx fun i x => match inputs[i]? with
      | some a => x + z * a
      | none => x)

/-- groth16/src/verifier/batch.rs:113-116: the local variables of `verify`. -/
structure BatchState (F G1 G2 : Type) where
  mlTerms : List (G1 × G2)
  gammas : List F
  delta : G1
  y : F

/-- groth16/src/verifier/batch.rs:131-138: the effect of one item with weight `z`. -/
def BatchState.add (st : BatchState F G1 G2) (z : F) (it : Item F G1 G2) : Option (BatchState F G1 G2) :=
  (addGammas z it.inputs st.gammas).bind fun gammas =>
  some { mlTerms := st.mlTerms ++ [(z • it.proof.a, -it.proof.b)]
         gammas := gammas
         delta := st.delta + z • it.proof.c
         y := st.y + z }

/-- groth16/src/verifier/batch.rs:118-139: the loop over the items. -/
def batchLoop : List (Item F G1 G2) → List F → BatchState F G1 G2 → Option (BatchState F G1 G2)
  | [], _, st => some st
  | it :: items, tape, st =>
    (drawNonzero tape).bind fun zt =>
    (st.add zt.1 it).bind fun st =>
    batchLoop items zt.2 st

/-- groth16/src/verifier/batch.rs:143-148,263-268: `Psi`. -/
def batchPsi (ic : List G1) (gammas : List F) : G1 := ((ic.zip gammas).map fun x => x.2 • x.1).sum

/-- groth16/src/verifier/batch.rs:100-173 `Verifier::verify`. -/
def BatchVerifier.verify (E : Engine F G1 G2 GT) (v : BatchVerifier F G1 G2) (tape : List F) (vk : VerifyingKey G1 G2) :
    Option (Except VerificationError Unit) :=
  if v.items.any fun it => it.inputs.length + 1 ≠ vk.ic.length then some (.error .invalidVerifyingKey)
  else
    (batchLoop v.items tape { mlTerms := [], gammas := List.replicate vk.ic.length 0, delta := 0, y := 0 }).bind fun st =>
    let mlTerms := st.mlTerms ++ [(st.delta, vk.deltaG2)]
    let mlTerms := mlTerms ++ [(batchPsi vk.ic st.gammas, vk.gammaG2)]
    let mlTerms := mlTerms ++ [(st.y • vk.alphaG1, vk.betaG2)]
    if E.finalExponentiation (E.multiMillerLoop mlTerms) = 0 then some (.ok ())
    else some (.error .invalidProof)

/-- groth16/src/verifier/batch.rs:191-196 `struct Accumulator`. -/
structure BatchAccumulator (F G1 R : Type) where
  gammas : List F
  delta : G1
  y : F
  mlResult : Option R

/-- groth16/src/verifier/batch.rs:199-206 `Accumulator::new`. -/
def BatchAccumulator.new {R : Type} (icLen : ℕ) : BatchAccumulator F G1 R :=
  { gammas := List.replicate icLen 0, delta := 0, y := 0, mlResult := none }

/-- groth16/src/verifier/batch.rs:225-237: the loop over the items of one chunk; the weight is multiplied by `z` after each item. -/
def chunkLoop (z : F) : List (Item F G1 G2) → F → BatchState F G1 G2 → Option (BatchState F G1 G2)
  | [], _, st => some st
  | it :: items, curZ, st =>
    (st.add curZ it).bind fun st =>
    chunkLoop z items (curZ * z) st

/-- groth16/src/verifier/batch.rs:215-241: the accumulator of one chunk, with the tape its draws read. -/
def chunkAcc (E : Engine F G1 G2 GT) (icLen : ℕ) (items : List (Item F G1 G2)) (tape : List F) :
    Option (BatchAccumulator F G1 E.MillerResult) :=
  (drawNonzero tape).bind fun zt =>
  let z := zt.1
  (chunkLoop z items z { mlTerms := [], gammas := List.replicate icLen 0, delta := 0, y := 0 }).bind fun st =>
  some { gammas := st.gammas, delta := st.delta, y := st.y, mlResult := some (E.multiMillerLoop st.mlTerms) }

/-- groth16/src/verifier/batch.rs:244-256: the reduction operation. -/
def BatchAccumulator.combine (E : Engine F G1 G2 GT) (a b : BatchAccumulator F G1 E.MillerResult) :
    BatchAccumulator F G1 E.MillerResult :=
  { gammas := a.gammas.mapIdx fun i x => match b.gammas[i]? with
      | some y => x + y
      | none => x
    delta := a.delta + b.delta
    y := a.y + b.y
    mlResult := match a.mlResult, b.mlResult with
      | some a, some b => some (E.millerAdd a b)
      | some a, none => some a
      | none, some a => some a
      | none, none => none }

/-- The shape of a rayon reduction (external): any binary tree over the items in order, in which the identity may appear anywhere.
Used at groth16/src/verifier/batch.rs:242. -/
inductive ReduceTree where
  | identity
  | item
  | node (l r : ReduceTree)

/-- The number of items a reduction tree consumes. Used at groth16/src/verifier/batch.rs:242. -/
def ReduceTree.size : ReduceTree → ℕ
  | .identity => 0
  | .item => 1
  | .node l r => l.size + r.size

/-- `ParallelIterator::reduce` of rayon (external) along a tree. Used at groth16/src/verifier/batch.rs:242-257. -/
def ReduceTree.reduce {α : Type} (id : α) (op : α → α → α) : ReduceTree → List α → α
  | .identity, _ => id
  | .item, xs => xs.headD id
  | .node l r, xs => op (l.reduce id op (xs.take l.size)) (r.reduce id op (xs.drop l.size))

/-- groth16/src/verifier/batch.rs:182-286 `Verifier::verify_multicore`.  `OsRng` is shared by the threads, so every chunk is given its
own arbitrary tape (`tapes i` for chunk `i`); `tree` is the reduction tree rayon happens to use. -/
def BatchVerifier.verifyMulticore (E : Engine F G1 G2 GT) (v : BatchVerifier F G1 G2) (tapes : ℕ → List F) (tree : ReduceTree)
    (vk : VerifyingKey G1 G2) : Option (Except VerificationError Unit) :=
  if v.items.any fun it => it.inputs.length + 1 ≠ vk.ic.length then some (.error .invalidVerifyingKey)
  else
    let icLen := vk.ic.length
    (chunks? 8 v.items).bind fun chunks =>
    ((chunks.zipIdx).mapM fun x => chunkAcc E icLen x.1 (tapes x.2)).bind fun accs =>
    let acc := tree.reduce (BatchAccumulator.new icLen) (BatchAccumulator.combine E) accs
    match acc.mlResult with
    | none => some (.ok ())
    | some mlResult =>
      let psi := batchPsi vk.ic acc.gammas
      let mlResult := E.millerAdd mlResult (E.multiMillerLoop
        [(acc.delta, vk.deltaG2), (psi, vk.gammaG2), (acc.y • vk.alphaG1, vk.betaG2)])
      if E.finalExponentiation mlResult = 0 then some (.ok ())
      else some (.error .invalidProof)

end Bellman
