import Verif.Domain
import Verif.Multiexp
import Verif.Gadgets.UInt32

/-!
# Machine integers

`Verif/Domain.lean`, `Verif/Multicore.lean`, `Verif/Multiexp.lean` and `UInt32.addmany` compute sizes and indices with unbounded numbers.  This file has the
same functions with the integer types of the code: `u32`, `u64` and a `usize` of 64 bits.  An operation that overflows panics in a debug
build and wraps around in a release build (The Rust Reference, "Overflow").  A loop that does not end has the result `none`, as a panic has.
-/

namespace Bellman

open PrimeField

/-- The two kinds of builds (profiles of cargo): with overflow checks and without.
Semantics of the language, no counterpart in the code. -/
inductive Build where
  | debug
  | release
deriving DecidableEq

namespace Build

/-- The result `x` of an operation on words of `w` bits (Rust semantics of `+` and `*`).
Semantics of the language, no counterpart in the code. -/
def fit (b : Build) (w x : ℕ) : Option ℕ :=
  if x < 2 ^ w then some x
  else match b with
    | debug => none
    | release => some (x % 2 ^ w)

/-- `x + y` on words of `w` bits. Semantics of the language, no counterpart in the code. -/
def add (b : Build) (w x y : ℕ) : Option ℕ := b.fit w (x + y)

/-- `x * y` on words of `w` bits. Semantics of the language, no counterpart in the code. -/
def mul (b : Build) (w x y : ℕ) : Option ℕ := b.fit w (x * y)

/-- `x - y` on words of `w` bits. Semantics of the language, no counterpart in the code. -/
def sub (b : Build) (w x y : ℕ) : Option ℕ :=
  if y ≤ x then some (x - y)
  else match b with
    | debug => none
    | release => some ((x + 2 ^ w - y) % 2 ^ w)

/-- `x << s` on words of `w` bits: bits shifted out are lost without a check, a distance of `w` or more is an overflow.
Semantics of the language, no counterpart in the code. -/
def shl (b : Build) (w x s : ℕ) : Option ℕ :=
  if s < w then some ((x <<< s) % 2 ^ w)
  else match b with
    | debug => none
    | release => some ((x <<< (s % w)) % 2 ^ w)

/-- `x >> s` on words of `w` bits. Semantics of the language, no counterpart in the code. -/
def shr (b : Build) (w x s : ℕ) : Option ℕ :=
  if s < w then some (x >>> s)
  else match b with
    | debug => none
    | release => some (x >>> (s % w))

/-- `x / y`: division by zero panics in every build. Semantics of the language, no counterpart in the code. -/
def div (_ : Build) (x y : ℕ) : Option ℕ := if y = 0 then none else some (x / y)

/-- `x % y`: so does the remainder. Semantics of the language, no counterpart in the code. -/
def rem (_ : Build) (x y : ℕ) : Option ℕ := if y = 0 then none else some (x % y)

end Build

/-- A task whose closure begins with a computation that panics unless `ok` holds (as src/domain.rs:105, 363): it panics at its first step. -/
def Task.guarded {σ : Type} (ok : Bool) (t : Task σ) : Task σ :=
  { t with steps := t.steps.map fun f s => if ok then f s else none }

/-! ## src/multicore.rs -/

/-- The loop of `log2_floor` (src/multicore.rs:123-129); `1` is a `usize`, `pow` a `u32`. -/
def log2FloorLoopW (b : Build) (num pow : ℕ) : Option ℕ := do
  let p ← b.add 32 pow 1
  let x ← b.shl 64 1 p
  if x ≤ num then do
    let pow ← b.add 32 pow 1
    log2FloorLoopW b num pow
  else some pow
partial_fixpoint

/-- `log2_floor` (src/multicore.rs:120-130). -/
def log2FloorW (b : Build) (num : ℕ) : Option ℕ := if 0 < num then log2FloorLoopW b num 0 else none

/-- `Worker::log_num_threads` (src/multicore.rs:29-31; 155-157 without the feature). -/
def Worker.logNumThreadsW (b : Build) (w : Worker) : Option ℕ := if w.multicore then log2FloorW b w.threads else some 0

/-! ## src/domain.rs -/

section Fft

variable {F T : Type} [PrimeField F] [AddCommGroup T] [Module F T]

/-- `bitreverse` (src/domain.rs:273-280) on `u32`. A shift by one cannot overflow, but may lose the highest bit. -/
def bitreverseW (n l : ℕ) : ℕ :=
  ((List.range l).foldl (fun (s : ℕ × ℕ) _ => (((s.1 <<< 1) % 2 ^ 32) ||| (s.2 &&& 1), s.2 >>> 1)) (0, n)).1

/-- The bit-reversal permutation loop (src/domain.rs:285-290). -/
def bitrevLoopW {α : Type} (a : List α) (n logN : ℕ) : Option (List α) :=
  (List.range n).foldlM (fun a k =>
    let rk := bitreverseW k logN
    if k < rk then swap? a rk k else some a) a

/-- One butterfly (src/domain.rs:300-306). The indices are written out several times in the code; here they are computed once. -/
def butterflyW (b : Build) (m k j : ℕ) (w_m : F) (s : List T × F) : Option (List T × F) := do
  let (a, w) := s
  let kj ← b.add 32 k j
  let kjm ← b.add 32 kj m
  let t ← a[kjm]?
  let t := w • t
  let tmp ← a[kj]?
  let tmp := tmp - t
  let a := a.set kjm tmp
  let x ← a[kj]?
  let a := a.set kj (x + t)
  pure (a, w * w_m)

/-- `for j in 0..m` (src/domain.rs:298-307). -/
def butterfliesW (b : Build) (m k : ℕ) (w_m : F) (a : List T) : Option (List T) := do
  let r ← (List.range m).foldlM (fun s j => butterflyW b m k j w_m s) (a, (1 : F))
  pure r.1

/-- `while k < n { …; k += 2 * m }` (src/domain.rs:296-310). -/
def blockLoopW (b : Build) (n m : ℕ) (w_m : F) (k : ℕ) (a : List T) : Option (List T) :=
  if k < n then do
    let a ← butterfliesW b m k w_m a
    let d ← b.mul 32 2 m
    let k ← b.add 32 k d
    blockLoopW b n m w_m k a
  else some a
partial_fixpoint

/-- The outer loop (src/domain.rs:292-313). -/
def fftPassesW (b : Build) (n : ℕ) (omega : F) : ℕ → ℕ → List T → Option (List T)
  | 0, _, a => some a
  | passes + 1, m, a => do
    let d ← b.mul 32 2 m
    let e ← b.div n d
    let a ← blockLoopW b n m (omega ^ e) 0 a
    let m ← b.mul 32 m 2
    fftPassesW b n omega passes m a

/-- `serial_fft` (src/domain.rs:272-314). -/
def serialFftW (b : Build) (a : List T) (omega : F) (logN : ℕ) : Option (List T) := do
  let n := a.length % 2 ^ 32
  let size ← b.shl 32 1 logN
  guard (n = size)
  let a ← bitrevLoopW a n logN
  fftPassesW b n omega logN 1 a

/-- The inner loop of the shuffle for one output element (src/domain.rs:341-347). -/
def shuffleEltW (b : Build) (a : List T) (omegaStep : F) (logN logNewN numCpus i : ℕ) (s : T × F) : Option (T × F) :=
  (List.range numCpus).foldlM (fun (s : T × F) k => do
    let x ← b.shl 64 k logNewN
    let x ← b.add 64 i x
    let size ← b.shl 64 1 logN
    let idx ← b.rem x size
    let t ← a[idx]?
    let t := s.2 • t
    pure (s.1 + t, s.2 * omegaStep)) s

/-- The task spawned for sub-FFT `j` (src/domain.rs:334-353). `omega_step` is computed once in the code, here for every element. -/
def subFftTaskW (b : Build) (a : List T) (omega newOmega : F) (logN logNewN numCpus j : ℕ) (tmp : List T) : Task (List T × F) :=
  let omegaJ := omega ^ j
  { state := (tmp, 1)
    steps := (List.range tmp.length).map (fun i (s : List T × F) => do
        let e ← b.shl 64 j logNewN
        let x ← s.1[i]?
        let r ← shuffleEltW b a (omega ^ e) logN logNewN numCpus i (x, s.2)
        pure (s.1.set i r.1, r.2 * omegaJ))
      ++ [fun (s : List T × F) => do
        let t ← serialFftW b s.1 newOmega logNewN
        pure (t, s.2)] }

/-- The task copying one chunk of the result back (src/domain.rs:362-369). -/
def unshuffleTaskW (b : Build) (tmp : List (List T)) (logCpus chunk i : ℕ) (c : List T) : Task (List T × ℕ) :=
  Task.guarded (b.mul 64 i chunk).isSome
  { state := (c, i * chunk % 2 ^ 64)
    steps := (List.range c.length).map fun j (s : List T × ℕ) => do
      let mask ← b.shl 64 1 logCpus
      let mask ← b.sub 64 mask 1
      let row ← tmp[s.2 &&& mask]?
      let q ← b.shr 64 s.2 logCpus
      let x ← row[q]?
      let _ ← s.1[j]?
      let idx ← b.add 64 s.2 1
      pure (s.1.set j x, idx) }

/-- `parallel_fft` (src/domain.rs:316-372). -/
def parallelFftW (b : Build) (w : Worker) (a : List T) (omega : F) (logN logCpus : ℕ) : Option (List T) := do
  guard (logCpus ≤ logN)
  let numCpus ← b.shl 64 1 logCpus
  let logNewN ← b.sub 32 logN logCpus
  let size ← b.shl 64 1 logNewN
  let tmp := List.replicate numCpus (List.replicate size (0 : T))
  let newOmega := omega ^ numCpus
  let rs ← (w.site 0).runTasks
    (tmp.mapIdx fun j tmp => subFftTaskW b a omega newOmega logN logNewN numCpus j tmp)
  let tmp := rs.map Prod.fst
  (w.site 1).forChunks a.length (unshuffleTaskW b tmp logCpus) Prod.fst a

/-- `best_fft` (src/domain.rs:261-269). -/
def bestFftW (b : Build) (w : Worker) (a : List T) (omega : F) (logN : ℕ) : Option (List T) := do
  let logCpus ← w.logNumThreadsW b
  if logN ≤ logCpus then serialFftW b a omega logN else parallelFftW b w a omega logN logCpus

end Fft

namespace EvaluationDomain

variable {F T : Type} [PrimeField F] [AddCommGroup T] [Module F T]

/-- The sizing loop of `from_coeffs` (src/domain.rs:49-60): `m` is a `usize`, `exp` a `u32`. -/
def sizeLoopW (F : Type) [PrimeField F] (b : Build) (len m exp : ℕ) : Option (Except SynthesisError (ℕ × ℕ)) :=
  if m < len then do
    let m ← b.mul 64 m 2
    let exp ← b.add 32 exp 1
    if S F ≤ exp then some (.error .polynomialDegreeTooLarge)
    else sizeLoopW F b len m exp
  else some (.ok (m, exp))
partial_fixpoint

/-- `EvaluationDomain::from_coeffs` (src/domain.rs:47-79). -/
def fromCoeffsW (b : Build) (coeffs : List T) : Option (Except SynthesisError (EvaluationDomain F T)) :=
  (sizeLoopW F b coeffs.length 1 0).bind fun
  | .error e => some (.error e)
  | .ok (m, exp) => do
    let omega : F := omegaLoop (ROOT_OF_UNITY : F) (S F - exp)
    let coeffs := coeffs ++ List.replicate (m - coeffs.length) 0
    let omegainv ← invertUnwrap omega
    let geninv ← invertUnwrap (MULTIPLICATIVE_GENERATOR : F)
    let minv ← invertUnwrap ((m : ℕ) : F)
    pure (.ok { coeffs, exp, omega, omegainv, geninv, minv })

/-- `fft` (src/domain.rs:81-83). -/
def fftW (b : Build) (w : Worker) (d : EvaluationDomain F T) : Option (EvaluationDomain F T) := do
  let a ← bestFftW b w d.coeffs d.omega d.exp
  pure { d with coeffs := a }

/-- `ifft` (src/domain.rs:85-99). -/
def ifftW (b : Build) (w : Worker) (d : EvaluationDomain F T) : Option (EvaluationDomain F T) := do
  let a ← bestFftW b (w.site 0) d.coeffs d.omegainv d.exp
  let a ← (w.site 1).forChunks a.length (scaleTask d.minv) Prod.fst a
  pure { d with coeffs := a }

/-- `distribute_powers` (src/domain.rs:101-113). -/
def distributePowersW (b : Build) (w : Worker) (d : EvaluationDomain F T) (g : F) : Option (EvaluationDomain F T) := do
  let a ← w.forChunks d.coeffs.length
    (fun chunk i v => Task.guarded (b.mul 64 i chunk).isSome
      (loopTask (g ^ (i * chunk % 2 ^ 64)) (fun u x => (u • x, u * g)) v)) Prod.fst d.coeffs
  pure { d with coeffs := a }

/-- `coset_fft` (src/domain.rs:115-118). -/
def cosetFftW (b : Build) (w : Worker) (d : EvaluationDomain F T) : Option (EvaluationDomain F T) := do
  let d ← distributePowersW b (w.site 0) d MULTIPLICATIVE_GENERATOR
  fftW b (w.site 1) d

/-- `icoset_fft` (src/domain.rs:120-125). -/
def icosetFftW (b : Build) (w : Worker) (d : EvaluationDomain F T) : Option (EvaluationDomain F T) := do
  let geninv := d.geninv
  let d ← ifftW b (w.site 0) d
  distributePowersW b (w.site 1) d geninv

end EvaluationDomain

/-! ## src/multiexp.rs -/

/-- The fold turning the bits of one window into a `u64` (src/multiexp.rs:199-203). -/
def windowValW (b : Build) (chunk : List Bool) : Option ℕ :=
  (chunk.zipIdx).foldlM (fun acc (x : Bool × ℕ) => do
    let y ← b.shl 64 x.1.toNat x.2
    b.add 64 acc y) 0

/-- `Exponent::chunks` (src/multiexp.rs:190-208). -/
def Exponent.chunksW (e : Exponent) (b : Build) (c : ℕ) : Option ChunkedExponent :=
  match e with
  | .zero => some .zero
  | .one => some .one
  | .bits bs => do
    let cs ← chunks? c bs
    let vs ← cs.mapM (windowValW b)
    pure (.chunks vs)

section Multiexp

variable {G : Type} [AddCommGroup G] [DecidableEq G]

/-- The number of buckets, `(1 << c) - 1` (src/multiexp.rs:236). -/
def bucketsW (b : Build) (c : ℕ) : Option ℕ := do
  let x ← b.shl 64 1 c
  b.sub 64 x 1

/-- The closure `this` for one window (src/multiexp.rs:224-278). The position of the source (`self.1 += 1`, src/multiexp.rs:68, 82) is
left unbounded: it is at most the length of a `Vec`. -/
def windowTaskW (b : Build) (bases : BaseSource G) (pairs : List (ChunkedExponent × Bool)) (c chunk : ℕ) :
    Task (Except SynthesisError (MeState G)) :=
  Task.guarded (bucketsW b c).isSome
  { state := .ok { acc := 0, buckets := List.replicate ((bucketsW b c).getD 0) 0, bases := bases }
    steps := pairs.map fun ed s =>
      match s with
      | .error e => some (.error e)
      | .ok s => meStep chunk s ed }

/-- `multiexp_inner` (src/multiexp.rs:210-301). -/
def multiexpInnerW (F : Type) [PrimeField F] (b : Build) (w : Worker) (bases : BaseSource G) (density : QueryDensity)
    (exponents : List Exponent) (c : ℕ) : Option (Except SynthesisError G) := do
  let exps ← exponents.mapM fun e => e.chunksW b c
  guard (0 < c)
  let parts ← w.runTasks ((List.range ((NUM_BITS F + (c - 1)) / c)).map fun chunk =>
    windowTaskW b bases (density.zip exps) c chunk)
  pure (combineWindows c 0 (parts.map fun p => p.map MeState.finish).reverse)

/-- `multiexp` (src/multiexp.rs:305-332). -/
noncomputable def multiexpW (F : Type) [PrimeField F] (b : Build) (w : Worker) (bases : BaseSource G) (density : QueryDensity)
    (exponents : List Exponent) : Option (Except SynthesisError G) := do
  let c := windowSize exponents.length
  match density.querySize with
  | some n => guard (n = exponents.length)
  | none => pure ()
  multiexpInnerW F b w bases density exponents c

end Multiexp

/-! ## src/gadgets/uint32.rs -/

namespace UInt32

variable {F : Type} [PrimeField F]

/-- src/gadgets/uint32.rs:324-359, the loop over the operands with its sum in a `u64`. -/
def addOperandsW (b : Build) (value : Option ℕ) (lc : LC F) (allConst : Bool) : List UInt32 → Option (Option ℕ × LC F × Bool)
  | [] => some (value, lc, allConst)
  | op :: ops => do
    let value ← match op.value, value with
      | some val, some v => (b.add 64 v val.toNat).map some
      | some _, none => some none
      | none, _ => some none
    let r := addBits lc allConst 1 op.bits
    addOperandsW b value r.1 r.2 ops

/-- src/gadgets/uint32.rs:378-396, the loop that allocates the bits of the sum: `result_value` and `max_value` are `u64`s, `i` is a
`usize`. -/
def resultLoopW (b : Build) (value : Option ℕ) (maxValue i : ℕ) (coeff : F) (bits : List Boolean) (lc : LC F) :
    Synth F (List Boolean × LC F × ℕ) :=
  if maxValue = 0 then pure (bits, lc, i)
  else do
    let x ← Synth.inNs s!"result bit {i}" (match value with
      | none => AllocatedBit.alloc none
      | some v => match b.shr 64 v i with
        | some y => AllocatedBit.alloc (some (y &&& 1 == 1))
        | none => Synth.panic "attempt to shift right with overflow")
    match b.add 64 i 1 with
    | some i => resultLoopW b value (maxValue >>> 1) i (coeff + coeff) (bits ++ [.is x]) (lc + (coeff, x.var))
    | none => Synth.panic "attempt to add with overflow"
termination_by maxValue
decreasing_by simp only [Nat.shiftRight_one]; omega

/-- src/gadgets/uint32.rs:308-408 `addmany`. -/
def addmanyW (b : Build) (operands : List UInt32) : MSynth F UInt32 :=
  if NUM_BITS F ≥ 64 then
    if operands.length ≥ 2 then
      if operands.length ≤ 10 then
        match b.mul 64 operands.length (2 ^ 32 - 1), addOperandsW b (some 0) (LC.zero : LC F) true operands with
        | some maxValue, some r =>
          let modularValue : Option (BitVec 32) := r.1.map fun v => BitVec.ofNat 32 v
          match r.2.2, modularValue with
          | true, some result => pure (UInt32.constant result)
          | _, _ => do
            let q ← MSynth.lift (resultLoopW b r.1 maxValue 0 (1 : F) [] (LC.zero : LC F))
            MEq.enforceEqual q.2.2 r.2.1 q.2.1
            pure ⟨q.1.take 32, modularValue⟩
        | _, _ => MSynth.lift (Synth.panic "attempt to compute with overflow")
      else MSynth.lift (Synth.panic "assert!(operands.len() <= 10)")
    else MSynth.lift (Synth.panic "assert!(operands.len() >= 2)")
  else MSynth.lift (Synth.panic "assert!(Scalar::NUM_BITS >= 64)")

end UInt32

end Bellman
