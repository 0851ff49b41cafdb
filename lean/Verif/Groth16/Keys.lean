import Verif.Field
import Verif.Circ
import Verif.CS
import Verif.Multiexp
import Mathlib.Algebra.Module.LinearMap.Defs
import Mathlib.Algebra.Module.LinearMap.Basic
import Mathlib.Algebra.Algebra.Bilinear

/-!
# Groth16: outcomes, the pairing engine, keys and proofs (groth16/src/lib.rs)
-/

namespace Bellman

/-- The outcome of a Rust function returning `Result<_, SynthesisError>`: `none` is a panic.
Model device, no counterpart in the code. -/
def Res (α : Type) := Option (Except SynthesisError α)

namespace Res

variable {α β : Type}

/-- `Ok(a)` -/
def ok (a : α) : Res α := some (.ok a)
/-- `Err(e)` -/
def err (e : SynthesisError) : Res α := some (.error e)
/-- a panic -/
def panic : Res α := none
/-- Sequencing with `?`. Model device, no counterpart in the code. -/
def bind (x : Res α) (f : α → Res β) : Res β :=
  match x with
  | none => none
  | some (.error e) => some (.error e)
  | some (.ok a) => f a

instance : Monad Res where
  pure := ok
  bind := bind

/-- Code that cannot return an error but may panic. Model device, no counterpart in the code. -/
def lift (x : Option α) : Res α :=
  match x with
  | none => panic
  | some a => ok a

/-- A `Result` at hand, with `?`. Model device, no counterpart in the code. -/
def ofExcept (x : Except SynthesisError α) : Res α := some x

@[simp] theorem pure_eq (a : α) : (pure a : Res α) = ok a := rfl
@[simp] theorem ok_bind (a : α) (f : α → Res β) : (ok a >>= f) = f a := rfl
@[simp] theorem err_bind (e : SynthesisError) (f : α → Res β) : ((err e : Res α) >>= f) = err e := rfl
@[simp] theorem panic_bind (f : α → Res β) : ((panic : Res α) >>= f) = panic := rfl
@[simp] theorem lift_some (a : α) : lift (some a) = ok a := rfl
@[simp] theorem lift_none : lift (none : Option α) = panic := rfl

theorem bind_eq_ok {x : Res α} {f : α → Res β} {b : β} : (x >>= f) = ok b ↔ ∃ a, x = ok a ∧ f a = ok b := by
  constructor
  · intro h
    rcases x with _ | (e | a)
    · cases h
    · cases h
    · exact ⟨a, rfl, h⟩
  · rintro ⟨a, rfl, h⟩; exact h

theorem lift_eq_ok {x : Option α} {a : α} : lift x = ok a ↔ x = some a := by
  cases x with
  | none => exact ⟨fun h => (by cases h), fun h => (by cases h)⟩
  | some b => exact ⟨fun h => (by cases h; rfl), fun h => (by cases h; rfl)⟩

theorem ok_inj {a b : α} : (ok a : Res α) = ok b ↔ a = b := ⟨fun h => (by cases h; rfl), fun h => by rw [h]⟩

end Res

/-- Running a program against an implementation of `ConstraintSystem`, e.g. `circuit.synthesize(&mut cs)?`
(groth16/src/generator.rs:191, groth16/src/prover.rs:206). -/
def synthesizeWith {F σ α : Type} (I : CSImpl F σ) (c : Synth F α) (s : σ) : Res (α × σ) :=
  match Circ.run I c.run s with
  | none => none
  | some (.error e, _) => some (.error e)
  | some (.ok a, s') => some (.ok (a, s'))

section
variable (F G1 G2 GT : Type) [PrimeField F] [AddCommGroup G1] [AddCommGroup G2] [AddCommGroup GT]
  [Module F G1] [Module F G2] [Module F GT]

/-- The contract of `pairing::Engine` and `pairing::MultiMillerLoop` (external crates `group` and `pairing`, used throughout
groth16/src). `G1`, `G2` are the prime-order groups (affine and projective forms are not distinguished), `GT` the target group,
written additively as in `pairing`. `MillerResult` is `E::Result`; `multi_miller_loop` followed by `final_exponentiation` is the
sum of the pairings, and `final_exponentiation` is additive. Used at groth16/src/verifier.rs:16, 47, 52. -/
structure Engine where
  /-- `E::pairing`: bilinear -/
  pairing : G1 →ₗ[F] G2 →ₗ[F] GT
  /-- non-degenerate -/
  nondegenerate : ∀ P Q, pairing P Q = 0 → P = 0 ∨ Q = 0
  /-- cyclic of prime order: every element is a multiple of every non-zero element -/
  g1_cyclic : ∀ P Q : G1, P ≠ 0 → ∃ a : F, Q = a • P
  g2_cyclic : ∀ P Q : G2, P ≠ 0 → ∃ a : F, Q = a • P
  /-- `E::Result` -/
  MillerResult : Type
  /-- `E::multi_miller_loop` -/
  multiMillerLoop : List (G1 × G2) → MillerResult
  /-- `Add for E::Result` -/
  millerAdd : MillerResult → MillerResult → MillerResult
  /-- `MillerLoopResult::final_exponentiation` -/
  finalExponentiation : MillerResult → GT
  final_miller : ∀ l, finalExponentiation (multiMillerLoop l) = (l.map fun x => pairing x.1 x.2).sum
  final_add : ∀ a b, finalExponentiation (millerAdd a b) = finalExponentiation a + finalExponentiation b

end

/-- The trivial engine: all groups are the scalar field and the pairing is multiplication, as in the test engine
`DummyEngine` (groth16/src/tests/dummy_engine.rs:336-370). Shows that the contract can be met; used in examples. -/
def fieldEngine (F : Type) [PrimeField F] : Engine F F F F where
  pairing := LinearMap.mul F F
  nondegenerate P Q h := by simpa using h
  g1_cyclic P Q h := ⟨Q * P⁻¹, by rw [smul_eq_mul, mul_assoc, inv_mul_cancel₀ h, mul_one]⟩
  g2_cyclic P Q h := ⟨Q * P⁻¹, by rw [smul_eq_mul, mul_assoc, inv_mul_cancel₀ h, mul_one]⟩
  MillerResult := F
  multiMillerLoop l := (l.map fun x => x.1 * x.2).sum
  millerAdd := (· + ·)
  finalExponentiation := id
  final_miller _ := rfl
  final_add _ _ := rfl

/-- groth16/src/lib.rs:25-30 `struct Proof`. -/
structure Proof (G1 G2 : Type) where
  a : G1
  b : G2
  c : G1
deriving DecidableEq

/-- groth16/src/lib.rs:102-128 `struct VerifyingKey`. -/
structure VerifyingKey (G1 G2 : Type) where
  alphaG1 : G1
  betaG1 : G1
  betaG2 : G2
  gammaG2 : G2
  deltaG1 : G1
  deltaG2 : G2
  ic : List G1
deriving DecidableEq

/-- groth16/src/lib.rs:221-244 `struct Parameters` (`Arc` is erased). -/
structure Parameters (G1 G2 : Type) where
  vk : VerifyingKey G1 G2
  h : List G1
  l : List G1
  a : List G1
  bG1 : List G1
  bG2 : List G2
deriving DecidableEq

namespace Parameters

variable {G1 G2 : Type}

/-- groth16/src/lib.rs:439-441 `ParameterSource::get_vk` for `&Parameters` (the number of inputs is ignored, here and below). -/
def getVk (p : Parameters G1 G2) (_ : ℕ) : Except SynthesisError (VerifyingKey G1 G2) := .ok p.vk

/-- groth16/src/lib.rs:443-445 `get_h`. -/
def getH (p : Parameters G1 G2) (_ : ℕ) : Except SynthesisError (BaseSource G1) := .ok ⟨p.h, 0⟩

/-- groth16/src/lib.rs:447-449 `get_l`. -/
def getL (p : Parameters G1 G2) (_ : ℕ) : Except SynthesisError (BaseSource G1) := .ok ⟨p.l, 0⟩

/-- groth16/src/lib.rs:451-457 `get_a`. -/
def getA (p : Parameters G1 G2) (numInputs _numAux : ℕ) : Except SynthesisError (BaseSource G1 × BaseSource G1) :=
  .ok (⟨p.a, 0⟩, ⟨p.a, numInputs⟩)

/-- groth16/src/lib.rs:459-465 `get_b_g1`. -/
def getBG1 (p : Parameters G1 G2) (numInputs _numAux : ℕ) : Except SynthesisError (BaseSource G1 × BaseSource G1) :=
  .ok (⟨p.bG1, 0⟩, ⟨p.bG1, numInputs⟩)

/-- groth16/src/lib.rs:467-473 `get_b_g2`. -/
def getBG2 (p : Parameters G1 G2) (numInputs _numAux : ℕ) : Except SynthesisError (BaseSource G2 × BaseSource G2) :=
  .ok (⟨p.bG2, 0⟩, ⟨p.bG2, numInputs⟩)

end Parameters

end Bellman
