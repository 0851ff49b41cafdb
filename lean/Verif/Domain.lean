import Verif.Field
import Verif.Circ
import Verif.Multicore
import Mathlib.Algebra.Module.Basic

/-!
# src/domain.rs

Slices are lists; an out-of-range index, a failed `assert!` or an `unwrap` of `None` is a panic
(`none`).  `Group<S>` (src/domain.rs:192-197) is the interface of a module over the scalar field:
both implementations (`Point<G>`, 199-228, and `Scalar<S>`, 230-259) are instances, `Scalar<S>` being
the field itself.  `ff`'s `pow_vartime` is `^`, `square` is `x * x`, `invert` fails on zero only.
-/

namespace Bellman

open PrimeField

/-- `Field::invert().unwrap()` (external), used at src/domain.rs:75-77, 140: panics on zero. -/
def invertUnwrap {F : Type} [PrimeField F] (x : F) : Option F := if x = 0 then none else some x⁻¹

/-- `EvaluationDomain` (src/domain.rs:21-28). -/
structure EvaluationDomain (F T : Type) where
  coeffs : List T
  exp : ℕ
  omega : F
  omegainv : F
  geninv : F
  minv : F

section Fft

variable {F T : Type} [PrimeField F] [AddCommGroup T] [Module F T]

/-- `bitreverse` (src/domain.rs:273-280) on unbounded integers: with `l ≤ 32` nothing overflows a `u32`. -/
def bitreverse (n l : ℕ) : ℕ :=
  ((List.range l).foldl (fun (s : ℕ × ℕ) _ => ((s.1 <<< 1) ||| (s.2 &&& 1), s.2 >>> 1)) (0, n)).1

/-- `a.swap(i, j)` of std (src/domain.rs:288): panics out of range. -/
def swap? {α : Type} (a : List α) (i j : ℕ) : Option (List α) := do
  let x ← a[i]?
  let y ← a[j]?
  pure ((a.set i y).set j x)

/-- The bit-reversal permutation loop (src/domain.rs:285-290). -/
def bitrevLoop {α : Type} (a : List α) (n logN : ℕ) : Option (List α) :=
  (List.range n).foldlM (fun a k =>
    let rk := bitreverse k logN
    if k < rk then swap? a rk k else some a) a

/-- One butterfly (src/domain.rs:300-306). -/
def butterfly (m k j : ℕ) (w_m : F) (s : List T × F) : Option (List T × F) := do
  let (a, w) := s
  let t ← a[k + j + m]?
  let t := w • t
  let tmp ← a[k + j]?
  let tmp := tmp - t
  let a := a.set (k + j + m) tmp
  let x ← a[k + j]?
  let a := a.set (k + j) (x + t)
  pure (a, w * w_m)

/-- `for j in 0..m` (src/domain.rs:298-307). -/
def butterflies (m k : ℕ) (w_m : F) (a : List T) : Option (List T) := do
  let r ← (List.range m).foldlM (fun s j => butterfly m k j w_m s) (a, (1 : F))
  pure r.1

/-- `while k < n { …; k += 2 * m }` (src/domain.rs:296-310). The test `0 < m` only makes the definition total; `m` is a power
of two. -/
def blockLoop (n m : ℕ) (w_m : F) (k : ℕ) (a : List T) : Option (List T) :=
  if k < n ∧ 0 < m then
    (butterflies m k w_m a).bind fun a => blockLoop n m w_m (k + 2 * m) a
  else some a
termination_by n - k

/-- The outer loop (src/domain.rs:292-313), `m` being the loop-carried variable. -/
def fftPasses (n : ℕ) (omega : F) : ℕ → ℕ → List T → Option (List T)
  | 0, _, a => some a
  | passes + 1, m, a => do
    let w_m := omega ^ (n / (2 * m))
    let a ← blockLoop n m w_m 0 a
    fftPasses n omega passes (m * 2) a

/-- `serial_fft` (src/domain.rs:272-314). `n` is the length truncated to 32 bits; for `log_n ≥ 32` and a slice of `2^log_n`
elements the truncated length is zero and the assertion fails (or the shift overflows), hence the panic. -/
def serialFft (a : List T) (omega : F) (logN : ℕ) : Option (List T) := do
  let n := a.length % 2 ^ 32
  guard (logN < 32 ∧ n = 1 <<< logN)
  let a ← bitrevLoop a n logN
  fftPasses n omega logN 1 a

/-- The inner loop of the shuffle for one output element (src/domain.rs:341-347). The state is (`tmp`, `elt`). -/
def shuffleElt (a : List T) (omegaStep : F) (logN logNewN numCpus i : ℕ) (s : T × F) : Option (T × F) :=
  (List.range numCpus).foldlM (fun (s : T × F) k => do
    let idx := (i + (k <<< logNewN)) % (1 <<< logN)
    let t ← a[idx]?
    let t := s.2 • t
    pure (s.1 + t, s.2 * omegaStep)) s

/-- The task spawned for sub-FFT `j` (src/domain.rs:334-353): a step for each element of `tmp` (shuffle), then the sub-FFT as
one step. The private state is (`tmp`, `elt`); the input slice is shared read-only. -/
def subFftTask (a : List T) (omega newOmega : F) (logN logNewN numCpus j : ℕ) (tmp : List T) : Task (List T × F) :=
  let omegaJ := omega ^ j
  let omegaStep := omega ^ (j <<< logNewN)
  { state := (tmp, 1)
    steps := (List.range tmp.length).map (fun i (s : List T × F) => do
        let x ← s.1[i]?
        let r ← shuffleElt a omegaStep logN logNewN numCpus i (x, s.2)
        pure (s.1.set i r.1, r.2 * omegaJ))
      ++ [fun (s : List T × F) => do
        let t ← serialFft s.1 newOmega logNewN
        pure (t, s.2)] }

/-- The task copying one chunk of the result back (src/domain.rs:362-369). -/
def unshuffleTask (tmp : List (List T)) (logCpus chunk i : ℕ) (c : List T) : Task (List T × ℕ) :=
  { state := (c, i * chunk)
    steps := (List.range c.length).map fun j (s : List T × ℕ) => do
      let mask := (1 <<< logCpus) - 1
      let row ← tmp[s.2 &&& mask]?
      let x ← row[s.2 >>> logCpus]?
      let _ ← s.1[j]?
      pure (s.1.set j x, s.2 + 1) }

/-- `parallel_fft` (src/domain.rs:316-372). -/
def parallelFft (w : Worker) (a : List T) (omega : F) (logN logCpus : ℕ) : Option (List T) := do
  guard (logCpus ≤ logN)
  let numCpus := 1 <<< logCpus
  let logNewN := logN - logCpus
  let tmp := List.replicate numCpus (List.replicate (1 <<< logNewN) (0 : T))
  let newOmega := omega ^ numCpus
  let rs ← (w.site 0).runTasks
    (tmp.mapIdx fun j tmp => subFftTask a omega newOmega logN logNewN numCpus j tmp)
  let tmp := rs.map Prod.fst
  (w.site 1).forChunks a.length (unshuffleTask tmp logCpus) Prod.fst a

/-- `best_fft` (src/domain.rs:261-269). -/
def bestFft (w : Worker) (a : List T) (omega : F) (logN : ℕ) : Option (List T) := do
  let logCpus ← w.logNumThreads
  if logN ≤ logCpus then serialFft a omega logN else parallelFft w a omega logN logCpus

end Fft

namespace EvaluationDomain

variable {F T : Type} [PrimeField F] [AddCommGroup T] [Module F T]

/-- The sizing loop of `from_coeffs` (src/domain.rs:49-60): the final (`m`, `exp`). -/
def sizeLoop (F : Type) [PrimeField F] (len m exp : ℕ) : Except SynthesisError (ℕ × ℕ) :=
  if m < len then
    if S F ≤ exp + 1 then .error .polynomialDegreeTooLarge
    else sizeLoop F len (m * 2) (exp + 1)
  else .ok (m, exp)
termination_by S F - exp

/-- `for _ in exp..S::S { omega = omega.square(); }` (src/domain.rs:63-66). -/
def omegaLoop (omega : F) : ℕ → F
  | 0 => omega
  | n + 1 => omegaLoop (omega * omega) n

/-- `EvaluationDomain::from_coeffs` (src/domain.rs:47-79); `none` is a panic (an `unwrap` of a failed inversion). -/
def fromCoeffs (coeffs : List T) : Option (Except SynthesisError (EvaluationDomain F T)) :=
  match sizeLoop F coeffs.length 1 0 with
  | .error e => some (.error e)
  | .ok (m, exp) => do
    let omega : F := omegaLoop (ROOT_OF_UNITY : F) (S F - exp)
    let coeffs := coeffs ++ List.replicate (m - coeffs.length) 0
    let omegainv ← invertUnwrap omega
    let geninv ← invertUnwrap (MULTIPLICATIVE_GENERATOR : F)
    let minv ← invertUnwrap ((m : ℕ) : F)
    pure (.ok { coeffs, exp, omega, omegainv, geninv, minv })

/-- `fft` (src/domain.rs:81-83). -/
def fft (w : Worker) (d : EvaluationDomain F T) : Option (EvaluationDomain F T) := do
  let a ← bestFft w d.coeffs d.omega d.exp
  pure { d with coeffs := a }

/-- The loop `for v in v { v.group_mul_assign(&c) }` spawned for each chunk (src/domain.rs:91-97, 143-149). -/
def scaleTask (c : F) (_chunk _i : ℕ) (v : List T) : Task (List T × Unit) :=
  loopTask () (fun _ x => (c • x, ())) v

/-- `ifft` (src/domain.rs:85-99). -/
def ifft (w : Worker) (d : EvaluationDomain F T) : Option (EvaluationDomain F T) := do
  let a ← bestFft (w.site 0) d.coeffs d.omegainv d.exp
  let a ← (w.site 1).forChunks a.length (scaleTask d.minv) Prod.fst a
  pure { d with coeffs := a }

/-- `distribute_powers` (src/domain.rs:101-113). -/
def distributePowers (w : Worker) (d : EvaluationDomain F T) (g : F) : Option (EvaluationDomain F T) := do
  let a ← w.forChunks d.coeffs.length
    (fun chunk i v => loopTask (g ^ (i * chunk)) (fun u x => (u • x, u * g)) v) Prod.fst d.coeffs
  pure { d with coeffs := a }

/-- `coset_fft` (src/domain.rs:115-118). -/
def cosetFft (w : Worker) (d : EvaluationDomain F T) : Option (EvaluationDomain F T) := do
  let d ← distributePowers (w.site 0) d MULTIPLICATIVE_GENERATOR
  fft (w.site 1) d

/-- `icoset_fft` (src/domain.rs:120-125). -/
def icosetFft (w : Worker) (d : EvaluationDomain F T) : Option (EvaluationDomain F T) := do
  let geninv := d.geninv
  let d ← ifft (w.site 0) d
  distributePowers (w.site 1) d geninv

/-- `z` (src/domain.rs:129-134). -/
def z (d : EvaluationDomain F T) (tau : F) : F := tau ^ d.coeffs.length - 1

/-- `divide_by_z_on_coset` (src/domain.rs:139-151). -/
def divideByZOnCoset (w : Worker) (d : EvaluationDomain F T) : Option (EvaluationDomain F T) := do
  let i ← invertUnwrap (d.z (MULTIPLICATIVE_GENERATOR : F))
  let a ← w.forChunks d.coeffs.length (scaleTask i) Prod.fst d.coeffs
  pure { d with coeffs := a }

/-- `for (a, b) in a.iter_mut().zip(b.iter()) { … }` spawned for each pair of chunks (src/domain.rs:163-167, 182-186). -/
def zipTask {A B : Type} (f : A → B → A) (cs : List A × List B) : Task (List A) :=
  { state := cs.1
    steps := (List.range (min cs.1.length cs.2.length)).map fun j a => do
      let x ← a[j]?
      let y ← cs.2[j]?
      pure (a.set j (f x y)) }

/-- The common shape of `mul_assign` and `sub_assign` (src/domain.rs:154-170, 173-189): an assertion on the lengths and one
task per pair of chunks. -/
def zipChunks {A B : Type} (w : Worker) (f : A → B → A) (a : List A) (b : List B) : Option (List A) := do
  guard (a.length = b.length)
  let chunk := w.chunkSize a.length
  let ca ← chunks? chunk a
  let cb ← chunks? chunk b
  let rs ← w.runTasks ((ca.zip cb).map (zipTask f))
  -- chunks of `a` beyond the shorter zip would be left alone; the lengths are equal
  pure (rs ++ ca.drop rs.length).flatten

/-- `mul_assign` (src/domain.rs:154-170). -/
def mulAssign (w : Worker) (d : EvaluationDomain F T) (other : EvaluationDomain F F) : Option (EvaluationDomain F T) := do
  let a ← zipChunks w (fun (x : T) (y : F) => y • x) d.coeffs other.coeffs
  pure { d with coeffs := a }

/-- `sub_assign` (src/domain.rs:173-189). -/
def subAssign (w : Worker) (d other : EvaluationDomain F T) : Option (EvaluationDomain F T) := do
  let a ← zipChunks w (fun (x y : T) => x - y) d.coeffs other.coeffs
  pure { d with coeffs := a }

/-- `into_coeffs` (src/domain.rs:43-45). -/
def intoCoeffs (d : EvaluationDomain F T) : List T := d.coeffs

end EvaluationDomain

end Bellman
