import Verif.Spec.Groth16

/-!
# Algebraic provers (specification)

An algebraic prover computes every element of a proof as a linear combination of the group elements it is given: those of the
parameters (verifying key included) and the two generators.  The coefficients are chosen without knowing the trapdoors.
-/

namespace Bellman

open Finset PrimeField

/-- Coefficients of an element of the first group. -/
structure Coeffs1 (F : Type) where
  /-- of the generator -/
  gen : F
  alpha : F
  beta : F
  delta : F
  /-- of the `i`-th element of `ic`, … -/
  ic : ℕ → F
  h : ℕ → F
  l : ℕ → F
  a : ℕ → F
  b : ℕ → F

/-- Coefficients of an element of the second group. -/
structure Coeffs2 (F : Type) where
  /-- of the generator -/
  gen : F
  beta : F
  gamma : F
  delta : F
  b : ℕ → F

/-- Coefficients of the three elements of a proof. -/
structure Strategy (F : Type) where
  a : Coeffs1 F
  b : Coeffs2 F
  c : Coeffs1 F

/-- `Σ cᵢ xᵢ`. -/
def linSum {F G : Type} [PrimeField F] [AddCommGroup G] [Module F G] (c : ℕ → F) (xs : List G) : G :=
  ∑ i ∈ range xs.length, c i • xs.getD i 0

variable {F G1 G2 : Type} [PrimeField F] [AddCommGroup G1] [AddCommGroup G2] [Module F G1] [Module F G2]

/-- The combination of the parameters' elements in the first group. -/
def Coeffs1.apply (c : Coeffs1 F) (g1 : G1) (p : Parameters G1 G2) : G1 :=
  c.gen • g1 + c.alpha • p.vk.alphaG1 + c.beta • p.vk.betaG1 + c.delta • p.vk.deltaG1 + linSum c.ic p.vk.ic + linSum c.h p.h +
    linSum c.l p.l + linSum c.a p.a + linSum c.b p.bG1

/-- The combination of the parameters' elements in the second group. -/
def Coeffs2.apply (c : Coeffs2 F) (g2 : G2) (p : Parameters G1 G2) : G2 :=
  c.gen • g2 + c.beta • p.vk.betaG2 + c.gamma • p.vk.gammaG2 + c.delta • p.vk.deltaG2 + linSum c.b p.bG2

/-- The proof the strategy outputs for given parameters. -/
def Strategy.proof (σ : Strategy F) (g1 : G1) (g2 : G2) (p : Parameters G1 G2) : Proof G1 G2 where
  a := σ.a.apply g1 p
  b := σ.b.apply g2 p
  c := σ.c.apply g1 p

/-- The assignment read off a strategy: the public inputs, and the coefficients with which the auxiliary elements `l` enter the
third proof element. -/
def Strategy.extract (σ : Strategy F) (xs : List F) : Var → F
  | .input i => ((1 : F) :: xs).getD i 0
  | .aux i => σ.c.l i

end Bellman
