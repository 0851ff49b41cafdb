import Verif.Groth16.Keys
import Verif.Groth16.Assembly
import Verif.Domain

/-!
# Model of `generate_parameters` (groth16/src/generator.rs:159-507)

Window tables (`Wnaf`, external crate `group`) are modelled by their contract: `wnaf.scalar(&x)` is `x • base`.
`batch_normalize` and `to_affine` do not change the group element.
-/

namespace Bellman

open PrimeField EvaluationDomain

variable {F : Type} [PrimeField F]

/-- The loop adding the constraints `x * 0 = 0` for the inputs (groth16/src/generator.rs:195-202). -/
def inputConstraints (s : KeypairAssembly F) : Option (KeypairAssembly F) :=
  (List.range s.numInputs).foldlM (fun s i => s.enforce ((LC.zero : LC F) + Var.input i) LC.zero LC.zero) s

/-- Lines groth16/src/generator.rs:175-202: allocate the constant one, synthesize, add the input constraints. -/
def assemble (circuit : Synth F Unit) : Res (KeypairAssembly F) := do
  let s := (KeypairAssembly.new : KeypairAssembly F).allocInput.2
  let r ← synthesizeWith KeypairAssembly.impl circuit s
  Res.lift (inputConstraints r.2)

/-- `eval_at_tau` (groth16/src/generator.rs:376-389); indexing panics out of range. -/
def evalAtTau (powersOfTau : List F) (p : List (F × ℕ)) : Option F :=
  p.foldlM (fun acc x => do
    let n ← powersOfTau[x.2]?
    pure (acc + n * x.1)) 0

/-- Inverting a trapdoor (groth16/src/generator.rs:228-235, 236-243). -/
def invertOrIdentity (x : F) : Res F := if x = 0 then Res.err .unexpectedIdentity else Res.ok x⁻¹

section

variable {G1 G2 : Type} [AddCommGroup G1] [AddCommGroup G2] [Module F G1] [Module F G2]

/-- The task computing one chunk of powers of tau (groth16/src/generator.rs:254-261). -/
def powersTask (tau : F) (chunk i : ℕ) (c : List F) : Task (List F × F) :=
  loopTask (tau ^ (i * chunk)) (fun cur _ => (cur, cur * tau)) c

/-- The task computing one chunk of the H query (groth16/src/generator.rs:278-294): one step per exponentiation, collected in
`h_proj`; `p[..h.len()]` panics if the chunk of powers is shorter than that of `h`; the last step normalizes into `h`. -/
def hTask (g1 : G1) (coeff : F) (cs : List G1 × List F) : Task (List G1 × List G1) :=
  { state := (cs.1, [])
    steps := ((List.range cs.1.length).map fun j (s : List G1 × List G1) => do
        guard (cs.1.length ≤ cs.2.length)
        let p ← cs.2[j]?
        pure (s.1, s.2 ++ [(p * coeff) • g1]))
      ++ [fun (s : List G1 × List G1) => pure (s.2, s.2)] }

/-- The scope computing the H query (groth16/src/generator.rs:271-296). -/
def hQuery (w : Worker) (g1 : G1) (coeff : F) (h : List G1) (powers : List F) : Option (List G1) := do
  let chunk := w.chunkSize h.length
  let ch ← chunks? chunk h
  let cp ← chunks? chunk powers
  let rs ← w.runTasks ((ch.zip cp).map (hTask g1 coeff))
  let rs := rs.map Prod.fst
  pure (rs ++ ch.drop rs.length).flatten

/-- The four slices filled by `eval` (groth16/src/generator.rs:324-327). -/
structure EvalOut (G1 G2 : Type) where
  a : List G1
  bG1 : List G1
  bG2 : List G2
  ext : List G1

/-- Shared read-only inputs of `eval`: the bases of the window tables, the Lagrange coefficients, the inverse and the trapdoors
(groth16/src/generator.rs:312-316, 330-334). -/
structure EvalIn (F G1 G2 : Type) where
  g1 : G1
  g2 : G2
  powersOfTau : List F
  inv : F
  alpha : F
  beta : F

/-- The body of the loop of `eval` for element `j` (groth16/src/generator.rs:391-415). -/
def evalBody (e : EvalIn F G1 G2) (at_ bt ct : List (F × ℕ)) (j : ℕ) (o : EvalOut G1 G2) : Option (EvalOut G1 G2) := do
  let at_ ← evalAtTau e.powersOfTau at_
  let bt ← evalAtTau e.powersOfTau bt
  let ct ← evalAtTau e.powersOfTau ct
  let o := if at_ ≠ 0 then { o with a := o.a.set j (at_ • e.g1) } else o
  let o := if bt ≠ 0 then { o with bG1 := o.bG1.set j (bt • e.g1), bG2 := o.bG2.set j (bt • e.g2) } else o
  let at_ := at_ * e.beta
  let bt := bt * e.alpha
  let x := (at_ + bt + ct) * e.inv
  pure { o with ext := o.ext.set j (x • e.g1) }

/-- One element of the zip of seven chunk iterators (groth16/src/generator.rs:349-357). -/
structure EvalChunk (F G1 G2 : Type) where
  out : EvalOut G1 G2
  at_ : List (List (F × ℕ))
  bt : List (List (F × ℕ))
  ct : List (List (F × ℕ))

/-- The task spawned by `eval` for a chunk (groth16/src/generator.rs:361-423): the projective vectors start as identities, each
loop step fills one position, and normalization copies them over the chunk. -/
def evalTask (e : EvalIn F G1 G2) (c : EvalChunk F G1 G2) : Task (EvalOut G1 G2) :=
  { state :=
      { a := List.replicate c.out.a.length 0
        bG1 := List.replicate c.out.bG1.length 0
        bG2 := List.replicate c.out.bG2.length 0
        ext := List.replicate c.out.ext.length 0 }
    steps := (c.at_.zip (c.bt.zip c.ct)).mapIdx fun j x o => evalBody e x.1 x.2.1 x.2.2 j o }

/-- The nested function `eval` (groth16/src/generator.rs:310-426). The assertions make all lengths equal, so the zips of chunks
and of elements stop together. -/
def evalQap (w : Worker) (e : EvalIn F G1 G2) (at_ bt ct : List (List (F × ℕ))) (out : EvalOut G1 G2) :
    Option (EvalOut G1 G2) := do
  guard (out.a.length = at_.length)
  guard (out.a.length = bt.length)
  guard (out.a.length = ct.length)
  guard (out.a.length = out.bG1.length)
  guard (out.a.length = out.bG2.length)
  guard (out.a.length = out.ext.length)
  let chunk := w.chunkSize out.a.length
  let ca ← chunks? chunk out.a
  let cb1 ← chunks? chunk out.bG1
  let cb2 ← chunks? chunk out.bG2
  let ce ← chunks? chunk out.ext
  let cat ← chunks? chunk at_
  let cbt ← chunks? chunk bt
  let cct ← chunks? chunk ct
  let zipped := ca.zip (cb1.zip (cb2.zip (ce.zip (cat.zip (cbt.zip cct)))))
  let rs ← w.runTasks (zipped.map fun x =>
    evalTask e ⟨⟨x.1, x.2.1, x.2.2.1, x.2.2.2.1⟩, x.2.2.2.2.1, x.2.2.2.2.2.1, x.2.2.2.2.2.2⟩)
  pure
    { a := (rs.map EvalOut.a).flatten
      bG1 := (rs.map EvalOut.bG1).flatten
      bG2 := (rs.map EvalOut.bG2).flatten
      ext := (rs.map EvalOut.ext).flatten }

variable [DecidableEq G1] [DecidableEq G2]

/-- `generate_parameters` (groth16/src/generator.rs:159-507). The worker stands for `Worker::new()` with the environment it finds
at run time. -/
def generateParameters (w : Worker) (circuit : Synth F Unit) (g1 : G1) (g2 : G2) (alpha beta gamma delta tau : F) :
    Res (Parameters G1 G2) := do
  let assembly ← assemble circuit
  -- 205-206
  let pot ← (fromCoeffs (List.replicate assembly.numConstraints (0 : F)) : Res (EvaluationDomain F F))
  -- 228-243
  let gammaInverse ← invertOrIdentity gamma
  let deltaInverse ← invertOrIdentity delta
  -- 247
  let h : List G1 := List.replicate (pot.coeffs.length - 1) 0
  -- 250-264
  let powers ← Res.lift ((w.site 0).forChunks pot.coeffs.length (powersTask tau) Prod.fst pot.coeffs)
  let pot := { pot with coeffs := powers }
  -- 267-268
  let coeff := pot.z tau * deltaInverse
  -- 271-296
  let h ← Res.lift (hQuery (w.site 1) g1 coeff h pot.coeffs)
  -- 300-301
  let pot ← Res.lift (pot.ifft (w.site 2))
  let lagrange := pot.intoCoeffs
  -- 303-307
  let n := assembly.numInputs
  let k := assembly.numAux
  let a : List G1 := List.replicate (n + k) 0
  let bG1 : List G1 := List.replicate (n + k) 0
  let bG2 : List G2 := List.replicate (n + k) 0
  let ic : List G1 := List.replicate n 0
  let l : List G1 := List.replicate k 0
  -- 429-444
  let outI ← Res.lift (evalQap (w.site 3) ⟨g1, g2, lagrange, gammaInverse, alpha, beta⟩
    assembly.atInputs assembly.btInputs assembly.ctInputs ⟨a.take n, bG1.take n, bG2.take n, ic⟩)
  -- 447-462
  let outA ← Res.lift (evalQap (w.site 4) ⟨g1, g2, lagrange, deltaInverse, alpha, beta⟩
    assembly.atAux assembly.btAux assembly.ctAux ⟨a.drop n, bG1.drop n, bG2.drop n, l⟩)
  let a := outI.a ++ outA.a
  let bG1 := outI.bG1 ++ outA.bG1
  let bG2 := outI.bG2 ++ outA.bG2
  let ic := outI.ext
  let l := outA.ext
  -- 466-470, 475-506
  if l.any (· = 0) then Res.err .unconstrainedVariable
  else
    Res.ok
      { vk :=
          { alphaG1 := alpha • g1
            betaG1 := beta • g1
            betaG2 := beta • g2
            gammaG2 := gamma • g2
            deltaG1 := delta • g1
            deltaG2 := delta • g2
            ic := ic }
        h := h
        l := l
        a := a.filter (· ≠ 0)
        bG1 := bG1.filter (· ≠ 0)
        bG2 := bG2.filter (· ≠ 0) }

end

end Bellman
