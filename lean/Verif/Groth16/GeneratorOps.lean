import Verif.Groth16.Generator
import Verif.DomainOps

/-!
# `generate_parameters` with the operations counted

`Verif/Groth16/Generator.lean` once more, with the counted domain of `Verif/DomainOps.lean` and counters for multiplications of group elements.
C80 shows that the results are the same.
-/

namespace Bellman

open PrimeField EvaluationDomain

/-- What is counted.  Not counted: additions of scalars (except inside the transform), copies, `batch_normalize` and `to_affine`, and how a
multiplication through a window table is done. Model device, no counterpart in the code. -/
@[ext] structure GenOps where
  /-- field operations -/
  field : FftOps := {}
  /-- `g1_wnaf.scalar` -/
  tableG1 : ℕ := 0
  /-- `g2_wnaf.scalar` -/
  tableG2 : ℕ := 0
  /-- the numbers of multiplications announced when the window table for `g1` is made -/
  announcedG1 : ℕ := 0
  /-- the numbers of multiplications announced when the window table for `g2` is made -/
  announcedG2 : ℕ := 0
  /-- `g1 * x` -/
  mulsG1 : ℕ := 0
  /-- `g2 * x` -/
  mulsG2 : ℕ := 0
deriving DecidableEq, Repr

/-- Operations of two computations together. Model device, no counterpart in the code. -/
instance : Add GenOps where
  add a b := ⟨a.field + b.field, a.tableG1 + b.tableG1, a.tableG2 + b.tableG2, a.announcedG1 + b.announcedG1, a.announcedG2 + b.announcedG2,
    a.mulsG1 + b.mulsG1, a.mulsG2 + b.mulsG2⟩

/-- Nothing counted. Model device, no counterpart in the code. -/
instance : Zero GenOps where
  zero := ⟨0, 0, 0, 0, 0, 0, 0⟩

/-- Operations of several computations together. Model device, no counterpart in the code. -/
def GenOps.total (l : List GenOps) : GenOps := l.foldr (· + ·) 0

/-- A computation that counts; `none` is a panic. Model device, no counterpart in the code. -/
abbrev GenC (α : Type) := StateT GenOps Option α

/-- Counting some operations. Model device, no counterpart in the code. -/
def gtick (c : GenOps) : GenC Unit := modify (· + c)

/-- A spawned task whose steps count; see `Task`. Model device, no counterpart in the code. -/
def countTaskG {σ : Type} (state : σ) (steps : List (σ → GenC σ)) : Task (σ × GenOps) :=
  { state := (state, 0)
    steps := steps.map fun f s => (f s.1).run s.2 }

variable {F : Type} [PrimeField F]

/-- `eval_at_tau` (groth16/src/generator.rs:376-389), counted. -/
def evalAtTauC (powersOfTau : List F) (p : List (F × ℕ)) : GenC F :=
  p.foldlM (fun acc x => do
    let n ← (powersOfTau[x.2]? : Option F)
    let n := n * x.1
    gtick { field := { scalarMuls := 1 } }
    pure (acc + n)) 0

section

variable {G1 G2 : Type} [AddCommGroup G1] [AddCommGroup G2] [Module F G1] [Module F G2]

/-- The scope computing the powers of tau (groth16/src/generator.rs:250-264), counted; see `powersTask`. -/
def powersC (w : Worker) (tau : F) (l : List F) : FftC (List F) :=
  w.forChunksC l.length (fun chunk i c => loopTaskC { pows := 1 } { scalarMuls := 1 } (tau ^ (i * chunk)) (fun cur _ => (cur, cur * tau)) c) Prod.fst l

/-- The task computing one chunk of the H query (groth16/src/generator.rs:278-294), counted; see `hTask`. -/
def hTaskC (g1 : G1) (coeff : F) (cs : List G1 × List F) : Task ((List G1 × List G1) × GenOps) :=
  countTaskG (cs.1, [])
    (((List.range cs.1.length).map fun j (s : List G1 × List G1) => do
        let _ ← (guard (cs.1.length ≤ cs.2.length) : Option Unit)
        let p ← (cs.2[j]? : Option F)
        let exp := p * coeff
        gtick { field := { scalarMuls := 1 } }
        gtick { tableG1 := 1 }
        pure (s.1, s.2 ++ [exp • g1]))
      ++ [fun (s : List G1 × List G1) => pure (s.2, s.2)])

/-- The scope computing the H query (groth16/src/generator.rs:271-296), counted. -/
def hQueryC (w : Worker) (g1 : G1) (coeff : F) (h : List G1) (powers : List F) : GenC (List G1) := do
  let chunk := w.chunkSize h.length
  let ch ← (chunks? chunk h : Option (List (List G1)))
  let cp ← (chunks? chunk powers : Option (List (List F)))
  let rs ← (w.runTasks ((ch.zip cp).map (hTaskC g1 coeff)) : Option (List ((List G1 × List G1) × GenOps)))
  gtick (GenOps.total (rs.map Prod.snd))
  let rs := rs.map fun r => r.1.1
  pure (rs ++ ch.drop rs.length).flatten

/-- The body of the loop of `eval` for element `j` (groth16/src/generator.rs:391-415), counted. -/
def evalBodyC (e : EvalIn F G1 G2) (at_ bt ct : List (F × ℕ)) (j : ℕ) (o : EvalOut G1 G2) : GenC (EvalOut G1 G2) := do
  let at_ ← evalAtTauC e.powersOfTau at_
  let bt ← evalAtTauC e.powersOfTau bt
  let ct ← evalAtTauC e.powersOfTau ct
  let o ← if at_ ≠ 0 then do
      gtick { tableG1 := 1 }
      pure { o with a := o.a.set j (at_ • e.g1) }
    else pure o
  let o ← if bt ≠ 0 then do
      gtick { tableG1 := 1 }
      gtick { tableG2 := 1 }
      pure { o with bG1 := o.bG1.set j (bt • e.g1), bG2 := o.bG2.set j (bt • e.g2) }
    else pure o
  let at_ := at_ * e.beta
  gtick { field := { scalarMuls := 1 } }
  let bt := bt * e.alpha
  gtick { field := { scalarMuls := 1 } }
  let x := (at_ + bt + ct) * e.inv
  gtick { field := { scalarMuls := 1 } }
  gtick { tableG1 := 1 }
  pure { o with ext := o.ext.set j (x • e.g1) }

/-- The task spawned by `eval` for a chunk (groth16/src/generator.rs:361-423), counted; see `evalTask`. -/
def evalTaskC (e : EvalIn F G1 G2) (c : EvalChunk F G1 G2) : Task (EvalOut G1 G2 × GenOps) :=
  countTaskG
    { a := List.replicate c.out.a.length 0
      bG1 := List.replicate c.out.bG1.length 0
      bG2 := List.replicate c.out.bG2.length 0
      ext := List.replicate c.out.ext.length 0 }
    ((c.at_.zip (c.bt.zip c.ct)).mapIdx fun j x o => evalBodyC e x.1 x.2.1 x.2.2 j o)

/-- The nested function `eval` (groth16/src/generator.rs:310-426), counted; see `evalQap`. -/
def evalQapC (w : Worker) (e : EvalIn F G1 G2) (at_ bt ct : List (List (F × ℕ))) (out : EvalOut G1 G2) :
    GenC (EvalOut G1 G2) := do
  let _ ← (guard (out.a.length = at_.length) : Option Unit)
  let _ ← (guard (out.a.length = bt.length) : Option Unit)
  let _ ← (guard (out.a.length = ct.length) : Option Unit)
  let _ ← (guard (out.a.length = out.bG1.length) : Option Unit)
  let _ ← (guard (out.a.length = out.bG2.length) : Option Unit)
  let _ ← (guard (out.a.length = out.ext.length) : Option Unit)
  let chunk := w.chunkSize out.a.length
  let ca ← (chunks? chunk out.a : Option (List (List G1)))
  let cb1 ← (chunks? chunk out.bG1 : Option (List (List G1)))
  let cb2 ← (chunks? chunk out.bG2 : Option (List (List G2)))
  let ce ← (chunks? chunk out.ext : Option (List (List G1)))
  let cat ← (chunks? chunk at_ : Option (List (List (List (F × ℕ)))))
  let cbt ← (chunks? chunk bt : Option (List (List (List (F × ℕ)))))
  let cct ← (chunks? chunk ct : Option (List (List (List (F × ℕ)))))
  let zipped := ca.zip (cb1.zip (cb2.zip (ce.zip (cat.zip (cbt.zip cct)))))
  let rs ← (w.runTasks (zipped.map fun x =>
    evalTaskC e ⟨⟨x.1, x.2.1, x.2.2.1, x.2.2.2.1⟩, x.2.2.2.2.1, x.2.2.2.2.2.1, x.2.2.2.2.2.2⟩) : Option (List (EvalOut G1 G2 × GenOps)))
  gtick (GenOps.total (rs.map Prod.snd))
  let rs := rs.map Prod.fst
  pure
    { a := (rs.map EvalOut.a).flatten
      bG1 := (rs.map EvalOut.bG1).flatten
      bG2 := (rs.map EvalOut.bG2).flatten
      ext := (rs.map EvalOut.ext).flatten }

/-- A part of `generate_parameters` that counts. Model device, no counterpart in the code. -/
abbrev GenResC (α : Type) := StateT GenOps Res α

/-- Counting some operations. Model device, no counterpart in the code. -/
def rtick (c : GenOps) : GenResC Unit := modify (· + c)

/-- A part that can panic but not return an error. Model device, no counterpart in the code. -/
def GenC.inRes {α : Type} (x : GenC α) : GenResC α := fun o => Res.lift (x.run o)

/-- A part with field operations only. Model device, no counterpart in the code. -/
def FftC.inGen {α : Type} (x : FftC α) : GenResC α := do
  let r ← StateT.lift (Res.lift (x.run 0))
  rtick { field := r.2 }
  pure r.1

/-- Inverting a trapdoor (groth16/src/generator.rs:228-235, 236-243), counted. -/
def invertOrIdentityC (x : F) : GenResC F := do
  rtick { field := { inverts := 1 } }
  StateT.lift (invertOrIdentity x)

/-- `g1 * x` (groth16/src/generator.rs:476, 477, 480), counted. -/
def timesG1C (x : F) (g : G1) : GenResC G1 := do
  rtick { mulsG1 := 1 }
  pure (x • g)

/-- `g2 * x` (groth16/src/generator.rs:478, 479, 481), counted. -/
def timesG2C (x : F) (g : G2) : GenResC G2 := do
  rtick { mulsG2 := 1 }
  pure (x • g)

variable [DecidableEq G1] [DecidableEq G2]

/-- `generate_parameters` (groth16/src/generator.rs:159-507), counted; otherwise as `generateParameters`. -/
def generateParametersC (w : Worker) (circuit : Synth F Unit) (g1 : G1) (g2 : G2) (alpha beta gamma delta tau : F) :
    GenResC (Parameters G1 G2) := do
  let assembly ← StateT.lift (assemble circuit)
  -- 205-206
  let pot ← FftC.inGen (fromCoeffsC (List.replicate assembly.numConstraints (0 : F)) : FftC (Except SynthesisError (EvaluationDomain F F)))
  let pot ← StateT.lift (Res.ofExcept pot)
  -- 209-226
  rtick { announcedG1 := (pot.coeffs.length - 1) + assembly.numInputs + assembly.numAux + assembly.numInputs + assembly.numAux +
    assembly.numInputs + assembly.numAux }
  rtick { announcedG2 := assembly.numInputs + assembly.numAux }
  -- 228-243
  let gammaInverse ← invertOrIdentityC gamma
  let deltaInverse ← invertOrIdentityC delta
  -- 247
  let h : List G1 := List.replicate (pot.coeffs.length - 1) 0
  -- 250-264
  let powers ← FftC.inGen (powersC (w.site 0) tau pot.coeffs)
  let pot := { pot with coeffs := powers }
  -- 267-268
  let coeff ← FftC.inGen (pot.zC tau)
  let coeff := coeff * deltaInverse
  rtick { field := { scalarMuls := 1 } }
  -- 271-296
  let h ← GenC.inRes (hQueryC (w.site 1) g1 coeff h pot.coeffs)
  -- 300-301
  let pot ← FftC.inGen (pot.ifftC (w.site 2))
  let lagrange := pot.intoCoeffs
  -- 303-307
  let n := assembly.numInputs
  let k := assembly.numAux
  let a : List G1 := List.replicate (n + k) 0
  let bG1 : List G1 := List.replicate (n + k) 0
  let bG2 : List G2 := List.replicate (n + k) 0
  let ic : List G1 := List.replicate n 0
  let l : List G1 := List.replicate k 0
  -- 429-444
  let outI ← GenC.inRes (evalQapC (w.site 3) ⟨g1, g2, lagrange, gammaInverse, alpha, beta⟩
    assembly.atInputs assembly.btInputs assembly.ctInputs ⟨a.take n, bG1.take n, bG2.take n, ic⟩)
  -- 447-462
  let outA ← GenC.inRes (evalQapC (w.site 4) ⟨g1, g2, lagrange, deltaInverse, alpha, beta⟩
    assembly.atAux assembly.btAux assembly.ctAux ⟨a.drop n, bG1.drop n, bG2.drop n, l⟩)
  let a := outI.a ++ outA.a
  let bG1 := outI.bG1 ++ outA.bG1
  let bG2 := outI.bG2 ++ outA.bG2
  let ic := outI.ext
  let l := outA.ext
  -- 466-470
  if l.any (· = 0) then StateT.lift (Res.err .unconstrainedVariable)
  else do
    -- 475-483
    let alphaG1 ← timesG1C alpha g1
    let betaG1 ← timesG1C beta g1
    let betaG2 ← timesG2C beta g2
    let gammaG2 ← timesG2C gamma g2
    let deltaG1 ← timesG1C delta g1
    let deltaG2 ← timesG2C delta g2
    -- 485-506
    pure
      { vk := { alphaG1, betaG1, betaG2, gammaG2, deltaG1, deltaG2, ic }
        h := h
        l := l
        a := a.filter (· ≠ 0)
        bG1 := bG1.filter (· ≠ 0)
        bG2 := bG2.filter (· ≠ 0) }

end

end Bellman
