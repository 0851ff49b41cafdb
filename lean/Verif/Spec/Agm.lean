import Verif.Proofs.Agm

/-!
# The reduction to discrete logarithms (specification)

A prover who sees the parameters may choose the public inputs and the coefficients of the proof elements depending on them.  The reduction
receives the powers `zⁱ g₁`, `zⁱ g₂` of an unknown `z`, makes parameters for trapdoors `aᵢ z + bᵢ` out of them, runs the prover once on these
and looks for `z` among the roots of a polynomial.  It uses the group elements only in linear combinations, in comparisons with the identity
and as the prover's input.
-/

namespace Bellman

open Polynomial Finset

variable {F : Type} [PrimeField F] {G1 G2 : Type} [AddCommGroup G1] [AddCommGroup G2] [Module F G1] [Module F G2]

/-- An algebraic prover who sees the generators and the parameters: public inputs and coefficients. -/
abbrev AdaptiveProver (F G1 G2 : Type) := G1 → G2 → Parameters G1 G2 → List F × Strategy F

/-- `f(z) g` from the powers `zⁱ g`. -/
noncomputable def powerSum {G : Type} [AddCommGroup G] [Module F G] (powers : ℕ → G) (f : F[X]) : G :=
  ∑ i ∈ range (f.natDegree + 1), f.coeff i • powers i

/-- The parameters for trapdoors `aᵢ z + bᵢ` and generators `γδ g₁`, `g₂`, from the powers of `z`. -/
noncomputable def Qap.simulate [DecidableEq G1] [DecidableEq G2] (q : Qap F) (powers1 : ℕ → G1) (powers2 : ℕ → G2) (a b : Fin 5 → F) :
    Parameters G1 G2 :=
  let α : F[X] := C (a 0) * X + C (b 0)
  let β : F[X] := C (a 1) * X + C (b 1)
  let γ : F[X] := C (a 2) * X + C (b 2)
  let δ : F[X] := C (a 3) * X + C (b 3)
  let τ : F[X] := C (a 4) * X + C (b 4)
  let comb (x : Var) : F[X] := β * (q.u x).comp τ + α * (q.v x).comp τ + (q.w x).comp τ
  { vk :=
      { alphaG1 := powerSum powers1 (α * (γ * δ)), betaG1 := powerSum powers1 (β * (γ * δ)), betaG2 := powerSum powers2 β
        gammaG2 := powerSum powers2 γ, deltaG1 := powerSum powers1 (δ * (γ * δ)), deltaG2 := powerSum powers2 δ
        ic := (List.range q.n).map fun i => powerSum powers1 (comb (.input i) * δ) }
    h := (List.range (q.m - 1)).map fun i => powerSum powers1 (τ ^ i * q.Z.comp τ * γ)
    l := (List.range q.k).map fun i => powerSum powers1 (comb (.aux i) * γ)
    a := (q.vars.map fun x => powerSum powers1 ((q.u x).comp τ * (γ * δ))).filter (· ≠ 0)
    bG1 := (q.vars.map fun x => powerSum powers1 ((q.v x).comp τ * (γ * δ))).filter (· ≠ 0)
    bG2 := (q.vars.map fun x => powerSum powers2 ((q.v x).comp τ)).filter (· ≠ 0) }

/-- The candidates for `z` found by the reduction: the roots of the polynomial that betrays the trapdoors, restricted to the line on which
they were chosen. -/
noncomputable def Qap.candidates [DecidableEq G1] [DecidableEq G2] [DecidableEq F] (q : Qap F) (prover : AdaptiveProver F G1 G2)
    (powers1 : ℕ → G1) (powers2 : ℕ → G2) (a b : Fin 5 → F) : Finset F :=
  let params := q.simulate powers1 powers2 a b
  let g1 := powerSum powers1 ((C (a 2) * X + C (b 2)) * (C (a 3) * X + C (b 3)))
  let out := prover g1 (powers2 0) params
  (onLine (out.2.refutation q out.1) a b).roots.toFinset

/-- Provers who hand in a batch of `n` proofs: public inputs and coefficients of each. -/
abbrev AdaptiveBatchProver (F G1 G2 : Type) (n : ℕ) := G1 → G2 → Parameters G1 G2 → Fin n → List F × Strategy F

open Classical in
/-- The prover who runs a batch prover and hands in the first proof that is not made from a witness. -/
noncomputable def AdaptiveBatchProver.pick {n : ℕ} (prover : AdaptiveBatchProver F G1 G2 n) (t : List (Ev F)) : AdaptiveProver F G1 G2 :=
  fun g1 g2 params =>
    match (List.ofFn (prover g1 g2 params)).find? fun x => ¬ Sat (x.2.extract x.1) t with
    | some x => x
    | none => ([], ⟨⟨0, 0, 0, 0, 0, 0, 0, 0, 0⟩, ⟨0, 0, 0, 0, 0⟩, ⟨0, 0, 0, 0, 0, 0, 0, 0, 0⟩⟩)

end Bellman
