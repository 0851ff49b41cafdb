import Verif.Domain
import Verif.Multiexp
import Verif.Groth16.Generator
import Verif.Groth16.Prover
import Verif.Groth16.Verifier
import Verif.Groth16.Serialize

/-!
# The unit tests of src/domain.rs, src/multiexp.rs, src/multicore.rs, src/lib.rs and groth16/src/lib.rs

`none` is a failed assertion, a failed `unwrap` or a panic further down.  What a test draws from its generator is an argument, and so are
the sizes that its loops run through, of which a function here models one turn.
-/

namespace Bellman.CoreTests

open EvaluationDomain

variable {F : Type} [PrimeField F]

/-- `assert!` (and `assert_eq!`). -/
def check (p : Prop) [Decidable p] : Option Unit := if p then some () else none

/-- `Result::unwrap` on what may have panicked before. -/
def unwrap {ε α : Type} : Option (Except ε α) → Option α
  | some (.ok a) => some a
  | _ => none

/-! ## src/domain.rs -/

/-- src/domain.rs:394-402, the multiplication by the school method: `naive[i1 + i2]` panics out of bounds. -/
def naiveMul (a b : List F) : Option (List F) :=
  a.zipIdx.foldlM (fun naive x => b.zipIdx.foldlM (fun naive y =>
    (naive[x.2 + y.2]?).map fun c => naive.set (x.2 + y.2) (c + y.1 • x.1)) naive) (List.replicate (a.length + b.length) 0)

/-- src/domain.rs:374-425 `polynomial_arith`, one turn of the two loops, for the coefficients drawn. -/
def polynomialArith [DecidableEq F] (worker : Worker) (a b : List F) : Option Unit := do
  let naive ← naiveMul a b
  let n := a.length + b.length
  let a ← unwrap (fromCoeffs (F := F) (a ++ List.replicate (n - a.length) 0))
  let b ← unwrap (fromCoeffs (F := F) (b ++ List.replicate (n - b.length) 0))
  let a ← a.fft worker
  let b ← b.fft worker
  let a ← a.mulAssign worker b
  let a ← a.ifft worker
  (naive.zip a.coeffs).forM fun x => check (x.1 = x.2)

/-- src/domain.rs:427-463 `fft_composition`, one turn of the loop. -/
def fftComposition [DecidableEq F] (worker : Worker) (v : List F) : Option Unit := do
  let domain ← unwrap (fromCoeffs (F := F) v)
  let domain ← domain.ifft worker
  let domain ← domain.fft worker
  check (v = domain.coeffs)
  let domain ← domain.fft worker
  let domain ← domain.ifft worker
  check (v = domain.coeffs)
  let domain ← domain.icosetFft worker
  let domain ← domain.cosetFft worker
  check (v = domain.coeffs)
  let domain ← domain.cosetFft worker
  let domain ← domain.icosetFft worker
  check (v = domain.coeffs)

/-- src/domain.rs:465-498 `parallel_fft_consistency`, one turn of the two outer loops: `v` are the `2^log_d` coefficients drawn. The function
under test is a parameter (`parallelFft` in the code), so that one can say what the test notices. -/
def parallelFftConsistency [DecidableEq F] (par : List F → F → ℕ → ℕ → Option (List F)) (v : List F) (logD : ℕ) : Option Unit := do
  let v1 ← unwrap (fromCoeffs (F := F) v)
  let v2 ← unwrap (fromCoeffs (F := F) v1.coeffs)
  let _ ← (List.range' logD (min (logD + 1) 3 - logD)).foldlM (fun (s : List F × List F) logCpus => do
    let c1 ← par s.1 v1.omega logD logCpus
    let c2 ← serialFft s.2 v2.omega logD
    check (c1 = c2)
    return (c1, c2)) (v1.coeffs, v2.coeffs)
  return ()

/-! ## src/multiexp.rs -/

/-- src/multiexp.rs:337-350 `naive_multiexp`; the assertion on the lengths is kept. -/
def naiveMultiexp {G : Type} [AddCommGroup G] [Module F G] (bases : List G) (exponents : List F) : Option G := do
  check (bases.length = exponents.length)
  return (bases.zip exponents).foldl (fun acc x => acc + x.2 • x.1) 0

/-- src/multiexp.rs:334-378 `test_with_bls12`, for the exponents and bases drawn. -/
noncomputable def testWithBls12 {G : Type} [AddCommGroup G] [Module F G] [DecidableEq G] (pool : Worker) (v : List F) (g : List G) : Option Unit := do
  let naive ← naiveMultiexp g v
  let fast ← unwrap (multiexp F pool ⟨g, 0⟩ .full (v.map Exponent.ofField))
  check (naive = fast)

/-! ## src/multicore.rs -/

/-- src/multicore.rs:132-142 `test_log2_floor`: a list of pairs of an argument and the value that is expected. -/
def testLog2Floor (cases : List (ℕ × ℕ)) : Option Unit :=
  cases.forM fun c => do
    let r ← log2Floor c.1
    check (r = c.2)

/-- src/multicore.rs:134-141, the pairs of the test. -/
def log2FloorCases : List (ℕ × ℕ) := [(1, 0), (2, 1), (3, 1), (4, 2), (5, 2), (6, 2), (7, 2), (8, 3)]

/-! ## src/lib.rs -/

/-- src/lib.rs:329-349 `fmt::Display for SynthesisError`; `io` is what the operating system's error displays as. -/
def displaySynthesisError (io : IoKind → String) : SynthesisError → String
  | .assignmentMissing => "an assignment for a variable could not be computed"
  | .divisionByZero => "division by zero"
  | .unsatisfiable => "unsatisfiable constraint system"
  | .polynomialDegreeTooLarge => "polynomial degree is too large"
  | .unexpectedIdentity => "encountered an identity element in the CRS"
  | .ioError e => "I/O error: " ++ io e
  | .unconstrainedVariable => "auxiliary variable was unconstrained"

/-- src/lib.rs:362-370 `fmt::Display for VerificationError`. -/
def displayVerificationError : VerificationError → String
  | .invalidVerifyingKey => "malformed verifying key"
  | .invalidProof => "proof verification failed"

/-- src/lib.rs:572-578 `verification_error_string`, for the error `err`. -/
def verificationErrorString (err : VerificationError) : Option Unit := check (displayVerificationError err ≠ "")

/-- src/lib.rs:580-593 `synthesis_error_string`, first half, for the error `err`. -/
def synthesisErrorString (io : IoKind → String) (err : SynthesisError) : Option Unit := check (displaySynthesisError io err ≠ "")

/-- src/lib.rs:587-592 `synthesis_error_string`, second half: the string contains that of the underlying error. -/
def ioErrorString (io : IoKind → String) (e : IoKind) : Option Unit :=
  check ((io e).toList <:+: (displaySynthesisError io (.ioError e)).toList)

/-! ## groth16/src/lib.rs -/

/-- groth16/src/lib.rs:488-491 `MySillyCircuit`. -/
structure MySillyCircuit (F : Type) where
  a : Option F
  b : Option F

/-- groth16/src/lib.rs:493-515 `MySillyCircuit::synthesize`. -/
def MySillyCircuit.synthesize (self : MySillyCircuit F) : Synth F Unit := do
  let a ← Synth.alloc "a" (match self.a with
    | some a => .ok a
    | none => .error .assignmentMissing)
  let b ← Synth.alloc "b" (match self.b with
    | some b => .ok b
    | none => .error .assignmentMissing)
  let c ← Synth.allocInput "c" (match self.a, self.b with
    | some a, some b => .ok (a * b)
    | _, _ => .error .assignmentMissing)
  Synth.enforce "a*b=c" (fun lc => lc + a.1) (fun lc => lc + b.1) (fun lc => lc + c.1)

variable {G1 G2 GT : Type} [AddCommGroup G1] [AddCommGroup G2] [AddCommGroup GT] [Module F G1] [Module F G2]
  [Module F GT] [DecidableEq G1] [DecidableEq G2] [DecidableEq GT]

open Classical in
/-- groth16/src/lib.rs:525-536, the first part of `serialization`: the parameters are written and read, with and without checks. -/
noncomputable def serializationParams (c1 : PointCodec G1) (c2 : PointCodec G2) (params : Parameters G1 G2) : Option Unit :=
  match params.write c1 c2 ⟨[], none⟩ with
  | (.ok (), v) => do
    check (v.out.length = 2136)
    let r ← unwrap (Parameters.read c1 c2 true v.out)
    check (params = r.1)
    let r ← unwrap (Parameters.read c1 c2 false v.out)
    check (params = r.1)
  | _ => none

/-- What one turn of the loop of `serialization` draws: groth16/src/lib.rs:541-542, 546-554. -/
structure Draw (F : Type) where
  a : F
  b : F
  r : F
  s : F

open Classical in
/-- groth16/src/lib.rs:540-566, one turn of the loop of `serialization`. -/
noncomputable def serializationProof (E : Engine F G1 G2 GT) (c1 : PointCodec G1) (c2 : PointCodec G2) (worker : Worker)
    (params : Parameters G1 G2) (x : Draw F) : Option Unit := do
  let pvk := prepareVerifyingKey E params.vk
  let c := x.a * x.b
  let proof ← unwrap (createProof worker (MySillyCircuit.mk (some x.a) (some x.b)).synthesize params x.r x.s :
    Option (Except SynthesisError (Proof G1 G2)))
  match proof.write c1 c2 ⟨[], none⟩ with
  | (.ok (), v) => do
    check (v.out.length = 192)
    let deProof ← unwrap (Proof.read c1 c2 v.out)
    check (proof = deProof.1)
    let ok ← verifyProof E pvk proof [c]
    check (∃ u, ok = .ok u)
    let err ← verifyProof E pvk proof [x.a]
    check (∃ e, err = .error e)
  | _ => none

/-- groth16/src/lib.rs:486-567 `serialization`, after the parameters are made. -/
noncomputable def serialization (E : Engine F G1 G2 GT) (c1 : PointCodec G1) (c2 : PointCodec G2) (worker : Worker)
    (params : Parameters G1 G2) (draws : List (Draw F)) : Option Unit := do
  serializationParams c1 c2 params
  draws.forM (serializationProof E c1 c2 worker params)

end Bellman.CoreTests
