import Verif.Domain
import Verif.Groth16.Quotient

/-!
# src/domain.rs with the operations counted

The functions of `Verif/Domain.lean` and of `Verif/Groth16/Quotient.lean` once more, with counters.  C78 shows that the results are the same.
Copies, index arithmetic and the additions of scalars (one subtraction in `z`) are not counted.
-/

namespace Bellman

open PrimeField

/-- What is counted. Model device, no counterpart in the code. -/
@[ext] structure FftOps where
  /-- `group_mul_assign`: multiplications of an element by a scalar -/
  muls : ℕ := 0
  /-- `group_add_assign` and `group_sub_assign` -/
  adds : ℕ := 0
  /-- multiplications and squarings of two scalars -/
  scalarMuls : ℕ := 0
  /-- `pow_vartime` -/
  pows : ℕ := 0
  /-- `invert` -/
  inverts : ℕ := 0
deriving DecidableEq, Repr

/-- Operations of two computations together. Model device, no counterpart in the code. -/
instance : Add FftOps where
  add a b := ⟨a.muls + b.muls, a.adds + b.adds, a.scalarMuls + b.scalarMuls, a.pows + b.pows, a.inverts + b.inverts⟩

/-- Nothing counted. Model device, no counterpart in the code. -/
instance : Zero FftOps where
  zero := ⟨0, 0, 0, 0, 0⟩

/-- Operations of several computations together. Model device, no counterpart in the code. -/
def FftOps.total (l : List FftOps) : FftOps := l.foldr (· + ·) 0

/-- A computation that counts; `none` is a panic. Model device, no counterpart in the code. -/
abbrev FftC (α : Type) := StateT FftOps Option α

/-- Counting some operations. Model device, no counterpart in the code. -/
def tick (c : FftOps) : FftC Unit := modify (· + c)

/-- A spawned task whose steps count, starting from `c`; see `Task`. Model device, no counterpart in the code. -/
def countTask {σ : Type} (c : FftOps) (state : σ) (steps : List (σ → FftC σ)) : Task (σ × FftOps) :=
  { state := (state, c)
    steps := steps.map fun f s => (f s.1).run s.2 }

section Fft

variable {F T : Type} [PrimeField F] [AddCommGroup T] [Module F T]

/-- One butterfly (src/domain.rs:300-306), counted. -/
def butterflyC (m k j : ℕ) (w_m : F) (s : List T × F) : FftC (List T × F) := do
  let (a, w) := s
  let t ← (a[k + j + m]? : Option T)
  let t := w • t
  tick { muls := 1 }
  let tmp ← (a[k + j]? : Option T)
  let tmp := tmp - t
  tick { adds := 1 }
  let a := a.set (k + j + m) tmp
  let x ← (a[k + j]? : Option T)
  let a := a.set (k + j) (x + t)
  tick { adds := 1 }
  let w := w * w_m
  tick { scalarMuls := 1 }
  pure (a, w)

/-- `for j in 0..m` (src/domain.rs:298-307), counted. -/
def butterfliesC (m k : ℕ) (w_m : F) (a : List T) : FftC (List T) := do
  let r ← (List.range m).foldlM (fun s j => butterflyC m k j w_m s) (a, (1 : F))
  pure r.1

/-- `while k < n { …; k += 2 * m }` (src/domain.rs:296-310), counted; see `blockLoop`. -/
def blockLoopC (n m : ℕ) (w_m : F) (k : ℕ) (a : List T) : FftC (List T) :=
  if k < n ∧ 0 < m then do
    let a ← butterfliesC m k w_m a
    blockLoopC n m w_m (k + 2 * m) a
  else pure a
termination_by n - k

/-- The outer loop (src/domain.rs:292-313), counted. -/
def fftPassesC (n : ℕ) (omega : F) : ℕ → ℕ → List T → FftC (List T)
  | 0, _, a => pure a
  | passes + 1, m, a => do
    let w_m := omega ^ (n / (2 * m))
    tick { pows := 1 }
    let a ← blockLoopC n m w_m 0 a
    fftPassesC n omega passes (m * 2) a

/-- `serial_fft` (src/domain.rs:272-314), counted. -/
def serialFftC (a : List T) (omega : F) (logN : ℕ) : FftC (List T) := do
  let n := a.length % 2 ^ 32
  let _ ← (guard (logN < 32 ∧ n = 1 <<< logN) : Option Unit)
  let a ← (bitrevLoop a n logN : Option (List T))
  fftPassesC n omega logN 1 a

/-- The inner loop of the shuffle for one output element (src/domain.rs:341-347), counted. -/
def shuffleEltC (a : List T) (omegaStep : F) (logN logNewN numCpus i : ℕ) (s : T × F) : FftC (T × F) :=
  (List.range numCpus).foldlM (fun (s : T × F) k => do
    let idx := (i + (k <<< logNewN)) % (1 <<< logN)
    let t ← (a[idx]? : Option T)
    let t := s.2 • t
    tick { muls := 1 }
    let tmp := s.1 + t
    tick { adds := 1 }
    let elt := s.2 * omegaStep
    tick { scalarMuls := 1 }
    pure (tmp, elt)) s

/-- The task spawned for sub-FFT `j` (src/domain.rs:334-353), counted; it starts with the two powers `omega_j` and `omega_step`. -/
def subFftTaskC (a : List T) (omega newOmega : F) (logN logNewN numCpus j : ℕ) (tmp : List T) : Task ((List T × F) × FftOps) :=
  let omegaJ := omega ^ j
  let omegaStep := omega ^ (j <<< logNewN)
  countTask { pows := 2 } (tmp, 1)
    ((List.range tmp.length).map (fun i (s : List T × F) => do
        let x ← (s.1[i]? : Option T)
        let r ← shuffleEltC a omegaStep logN logNewN numCpus i (x, s.2)
        let elt := r.2 * omegaJ
        tick { scalarMuls := 1 }
        pure (s.1.set i r.1, elt))
      ++ [fun (s : List T × F) => do
        let t ← serialFftC s.1 newOmega logNewN
        pure (t, s.2)])

/-- `parallel_fft` (src/domain.rs:316-372), counted: the result, what the calling thread does and what each spawned task does. Copying back
counts nothing. -/
def parallelFftC (w : Worker) (a : List T) (omega : F) (logN logCpus : ℕ) : Option (List T × FftOps × List FftOps) := do
  guard (logCpus ≤ logN)
  let numCpus := 1 <<< logCpus
  let logNewN := logN - logCpus
  let tmp := List.replicate numCpus (List.replicate (1 <<< logNewN) (0 : T))
  let newOmega := omega ^ numCpus
  let rs ← (w.site 0).runTasks
    (tmp.mapIdx fun j tmp => subFftTaskC a omega newOmega logN logNewN numCpus j tmp)
  let tmp := rs.map fun r => r.1.1
  let a ← (w.site 1).forChunks a.length (unshuffleTask tmp logCpus) Prod.fst a
  pure (a, { pows := 1 }, rs.map Prod.snd)

/-- `best_fft` (src/domain.rs:261-269), counted. -/
def bestFftC (w : Worker) (a : List T) (omega : F) (logN : ℕ) : FftC (List T) := do
  let logCpus ← (w.logNumThreads : Option ℕ)
  if logN ≤ logCpus then serialFftC a omega logN
  else do
    let r ← (parallelFftC w a omega logN logCpus : Option (List T × FftOps × List FftOps))
    tick (r.2.1 + FftOps.total r.2.2)
    pure r.1

end Fft

/-- `worker.scope` over chunks with tasks that count; see `Worker.forChunks`. src/domain.rs:88-98. -/
def Worker.forChunksC (w : Worker) {α σ : Type} (elements : ℕ) (mk : ℕ → ℕ → List α → Task (σ × FftOps)) (out : σ → List α)
    (l : List α) : FftC (List α) := do
  let chunk := w.chunkSize elements
  let cs ← (chunks? chunk l : Option (List (List α)))
  let rs ← (w.runTasks (cs.mapIdx fun i c => mk chunk i c) : Option (List (σ × FftOps)))
  tick (FftOps.total (rs.map Prod.snd))
  pure (rs.map fun r => out r.1).flatten

/-- The loop over a chunk (see `loopTask`) with `c` operations for each element after `c0` operations.
src/domain.rs:91-97, 104-110, 143-149. -/
def loopTaskC {α β : Type} (c0 c : FftOps) (init : β) (f : β → α → α × β) (v : List α) : Task ((List α × β) × FftOps) :=
  countTask c0 (v, init) ((List.range v.length).map fun j s => do
    let x ← (s.1[j]? : Option α)
    tick c
    pure (s.1.set j (f s.2 x).1, (f s.2 x).2))

namespace EvaluationDomain

variable {F T : Type} [PrimeField F] [AddCommGroup T] [Module F T]

/-- The squarings in `from_coeffs` (src/domain.rs:63-66), counted. -/
def omegaLoopC (omega : F) : ℕ → FftC F
  | 0 => pure omega
  | n + 1 => do
    tick { scalarMuls := 1 }
    omegaLoopC (omega * omega) n

/-- `invert().unwrap()`, counted. src/domain.rs:75-77, 140. -/
def invertUnwrapC (x : F) : FftC F := do
  tick { inverts := 1 }
  (invertUnwrap x : Option F)

/-- `EvaluationDomain::from_coeffs` (src/domain.rs:47-79), counted. -/
def fromCoeffsC (coeffs : List T) : FftC (Except SynthesisError (EvaluationDomain F T)) :=
  match sizeLoop F coeffs.length 1 0 with
  | .error e => pure (.error e)
  | .ok (m, exp) => do
    let omega : F ← omegaLoopC (ROOT_OF_UNITY : F) (S F - exp)
    let coeffs := coeffs ++ List.replicate (m - coeffs.length) 0
    let omegainv ← invertUnwrapC omega
    let geninv ← invertUnwrapC (MULTIPLICATIVE_GENERATOR : F)
    let minv ← invertUnwrapC ((m : ℕ) : F)
    pure (.ok { coeffs, exp, omega, omegainv, geninv, minv })

/-- `fft` (src/domain.rs:81-83), counted. -/
def fftC (w : Worker) (d : EvaluationDomain F T) : FftC (EvaluationDomain F T) := do
  let a ← bestFftC w d.coeffs d.omega d.exp
  pure { d with coeffs := a }

/-- `ifft` (src/domain.rs:85-99), counted. -/
def ifftC (w : Worker) (d : EvaluationDomain F T) : FftC (EvaluationDomain F T) := do
  let a ← bestFftC (w.site 0) d.coeffs d.omegainv d.exp
  let a ← (w.site 1).forChunksC a.length (fun _ _ v => loopTaskC 0 { muls := 1 } () (fun _ x => (d.minv • x, ())) v) Prod.fst a
  pure { d with coeffs := a }

/-- `distribute_powers` (src/domain.rs:101-113), counted. -/
def distributePowersC (w : Worker) (d : EvaluationDomain F T) (g : F) : FftC (EvaluationDomain F T) := do
  let a ← w.forChunksC d.coeffs.length
    (fun chunk i v => loopTaskC { pows := 1 } { muls := 1, scalarMuls := 1 } (g ^ (i * chunk)) (fun u x => (u • x, u * g)) v) Prod.fst d.coeffs
  pure { d with coeffs := a }

/-- `coset_fft` (src/domain.rs:115-118), counted. -/
def cosetFftC (w : Worker) (d : EvaluationDomain F T) : FftC (EvaluationDomain F T) := do
  let d ← distributePowersC (w.site 0) d MULTIPLICATIVE_GENERATOR
  fftC (w.site 1) d

/-- `icoset_fft` (src/domain.rs:120-125), counted. -/
def icosetFftC (w : Worker) (d : EvaluationDomain F T) : FftC (EvaluationDomain F T) := do
  let geninv := d.geninv
  let d ← ifftC (w.site 0) d
  distributePowersC (w.site 1) d geninv

/-- `z` (src/domain.rs:129-134), counted. -/
def zC (d : EvaluationDomain F T) (tau : F) : FftC F := do
  tick { pows := 1 }
  pure (tau ^ d.coeffs.length - 1)

/-- `divide_by_z_on_coset` (src/domain.rs:139-151), counted. -/
def divideByZOnCosetC (w : Worker) (d : EvaluationDomain F T) : FftC (EvaluationDomain F T) := do
  let z ← d.zC (MULTIPLICATIVE_GENERATOR : F)
  let i ← invertUnwrapC z
  let a ← w.forChunksC d.coeffs.length (fun _ _ v => loopTaskC 0 { muls := 1 } () (fun _ x => (i • x, ())) v) Prod.fst d.coeffs
  pure { d with coeffs := a }

/-- The loop over a pair of chunks (src/domain.rs:163-167, 182-186) with `c` operations for each pair. -/
def zipTaskC {A B : Type} (c : FftOps) (f : A → B → A) (cs : List A × List B) : Task (List A × FftOps) :=
  countTask 0 cs.1 ((List.range (min cs.1.length cs.2.length)).map fun j a => do
    let x ← (a[j]? : Option A)
    let y ← (cs.2[j]? : Option B)
    tick c
    pure (a.set j (f x y)))

/-- The common shape of `mul_assign` and `sub_assign` (src/domain.rs:154-170, 173-189), counted; see `zipChunks`. -/
def zipChunksC {A B : Type} (w : Worker) (c : FftOps) (f : A → B → A) (a : List A) (b : List B) : FftC (List A) := do
  let _ ← (guard (a.length = b.length) : Option Unit)
  let chunk := w.chunkSize a.length
  let ca ← (chunks? chunk a : Option (List (List A)))
  let cb ← (chunks? chunk b : Option (List (List B)))
  let rs ← (w.runTasks ((ca.zip cb).map (zipTaskC c f)) : Option (List (List A × FftOps)))
  tick (FftOps.total (rs.map Prod.snd))
  pure (rs.map Prod.fst ++ ca.drop (rs.map Prod.fst).length).flatten

/-- `mul_assign` (src/domain.rs:154-170), counted. -/
def mulAssignC (w : Worker) (d : EvaluationDomain F T) (other : EvaluationDomain F F) : FftC (EvaluationDomain F T) := do
  let a ← zipChunksC w { muls := 1 } (fun (x : T) (y : F) => y • x) d.coeffs other.coeffs
  pure { d with coeffs := a }

/-- `sub_assign` (src/domain.rs:173-189), counted. -/
def subAssignC (w : Worker) (d other : EvaluationDomain F T) : FftC (EvaluationDomain F T) := do
  let a ← zipChunksC w { adds := 1 } (fun (x y : T) => x - y) d.coeffs other.coeffs
  pure { d with coeffs := a }

end EvaluationDomain

open EvaluationDomain

/-- `a.ifft(); a.coset_fft()` for one of the three vectors (groth16/src/prover.rs:225-226), counted. -/
def toCosetC {F : Type} [PrimeField F] (w : Worker) (d : EvaluationDomain F F) : FftC (EvaluationDomain F F) := do
  let d ← d.ifftC (w.site 0)
  d.cosetFftC (w.site 1)

/-- groth16/src/prover.rs:221-240: the coefficients of `h`, counted. -/
def hCoeffsC {F : Type} [PrimeField F] (w : Worker) (a b c : List F) : FftC (Except SynthesisError (List F)) := do
  match ← (fromCoeffsC a : FftC (Except SynthesisError (EvaluationDomain F F))) with
  | .error e => pure (.error e)
  | .ok a =>
  match ← (fromCoeffsC b : FftC (Except SynthesisError (EvaluationDomain F F))) with
  | .error e => pure (.error e)
  | .ok b =>
  match ← (fromCoeffsC c : FftC (Except SynthesisError (EvaluationDomain F F))) with
  | .error e => pure (.error e)
  | .ok c =>
  let a ← toCosetC (w.site 0) a
  let b ← toCosetC (w.site 1) b
  let c ← toCosetC (w.site 2) c
  let a ← a.mulAssignC (w.site 3) b
  let a ← a.subAssignC (w.site 4) c
  let a ← a.divideByZOnCosetC (w.site 5)
  let a ← a.icosetFftC (w.site 6)
  let a := a.intoCoeffs
  let aLen := a.length - 1
  pure (.ok (a.take aLen))

end Bellman
