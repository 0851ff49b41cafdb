import Verif.Spec.Qap
import Mathlib.Algebra.Polynomial.Div

/-!
# Groth16 proofs (specification)

Independent of the code: proofs are described by the discrete logarithms of their elements.
-/

namespace Bellman

open Polynomial PrimeField Finset

/-- The pairing equation of Groth16: `e(A, B) = e(α, β) + e(Σ xᵢ icᵢ, γ) + e(C, δ)` with `x₀ = 1`. -/
def Accepts {F G1 G2 GT : Type} [PrimeField F] [AddCommGroup G1] [AddCommGroup G2] [AddCommGroup GT] [Module F G1] [Module F G2]
    [Module F GT] (E : Engine F G1 G2 GT) (vk : VerifyingKey G1 G2) (pf : Proof G1 G2) (xs : List F) : Prop :=
  E.pairing pf.a pf.b = E.pairing vk.alphaG1 vk.betaG2 +
    E.pairing (∑ i ∈ range vk.ic.length, ((1 : F) :: xs).getD i 0 • vk.ic.getD i 0) vk.gammaG2 + E.pairing pf.c vk.deltaG2

namespace Qap

variable {F : Type} [PrimeField F] (q : Qap F)

/-- `Σ zₓ uₓ`. -/
noncomputable def A (z : Var → F) : F[X] :=
  ∑ i ∈ Finset.range q.n, C (z (.input i)) * q.u (.input i) + ∑ i ∈ Finset.range q.k, C (z (.aux i)) * q.u (.aux i)

/-- `Σ zₓ vₓ`. -/
noncomputable def B (z : Var → F) : F[X] :=
  ∑ i ∈ Finset.range q.n, C (z (.input i)) * q.v (.input i) + ∑ i ∈ Finset.range q.k, C (z (.aux i)) * q.v (.aux i)

/-- `Σ zₓ wₓ`. -/
noncomputable def Cc (z : Var → F) : F[X] :=
  ∑ i ∈ Finset.range q.n, C (z (.input i)) * q.w (.input i) + ∑ i ∈ Finset.range q.k, C (z (.aux i)) * q.w (.aux i)

/-- The assignment satisfies all constraints. -/
def SatBy (z : Var → F) : Prop := ∀ r ∈ q.rows, r.1.eval z * r.2.1.eval z = r.2.2.eval z

/-- The public part `Σ xᵢ (β uᵢ + α vᵢ + wᵢ)(τ)` of the verification equation. -/
noncomputable def pub (α β τ : F) (z : Var → F) : F := ∑ i ∈ Finset.range q.n, z (.input i) * q.comb α β τ (.input i)

/-- The secret part of the verification equation. -/
noncomputable def priv (α β τ : F) (z : Var → F) : F := ∑ i ∈ Finset.range q.k, z (.aux i) * q.comb α β τ (.aux i)

/-- The Groth16 proof for assignment `z`, blinding `r`, `s` and quotient polynomial `h`. -/
noncomputable def proof {G1 G2 : Type} [AddCommGroup G1] [AddCommGroup G2] [Module F G1] [Module F G2] (g1 : G1) (g2 : G2)
    (α β δ τ : F) (z : Var → F) (h : F[X]) (r s : F) : Proof G1 G2 :=
  let a := α + (q.A z).eval τ + r * δ
  let b := β + (q.B z).eval τ + s * δ
  { a := a • g1
    b := b • g2
    c := ((q.priv α β τ z + h.eval τ * q.Z.eval τ) / δ + s * a + r * b - r * s * δ) • g1 }

/-- Variable `x` is written with a non-zero coefficient in the selected part of some constraint. -/
def Uses (sel : Row F → LC F) (x : Var) : Prop := ∃ r ∈ q.rows, ∃ c, c ≠ 0 ∧ (x, c) ∈ (sel r).terms

/-- What the prover needs of the parameters: every variable used in an `a` (`b`) part has an element in the `a` (`b`) queries, and
`h` and `l` elements that are the identity are multiplied by zero. -/
structure Ready {G1 G2 : Type} [AddCommGroup G1] [AddCommGroup G2] [Module F G1] [Module F G2] (g1 : G1) (g2 : G2)
    (α β δ τ : F) (z : Var → F) (h : F[X]) : Prop where
  a : ∀ x ∈ q.vars, q.Uses (·.1) x → (q.u x).eval τ • g1 ≠ 0
  b1 : ∀ x ∈ q.vars, q.Uses (·.2.1) x → (q.v x).eval τ • g1 ≠ 0
  b2 : ∀ x ∈ q.vars, q.Uses (·.2.1) x → (q.v x).eval τ • g2 ≠ 0
  h : ∀ i < q.m - 1, (τ ^ i * q.Z.eval τ / δ) • g1 = 0 → h.coeff i = 0
  l : ∀ i < q.k, (q.comb α β τ (.aux i) / δ) • g1 = 0 → z (.aux i) = 0
  δ1 : δ • g1 ≠ 0
  δ2 : δ • g2 ≠ 0

/-- No variable's coefficients cancel: whoever is written in an `a` (`b`) part has a non-zero total coefficient in the `a` (`b`)
part of some constraint. -/
def NoCancel : Prop := ∀ x ∈ q.vars,
  (q.Uses (·.1) x → ∃ r ∈ q.rows, r.1.coeffOf x ≠ 0) ∧ (q.Uses (·.2.1) x → ∃ r ∈ q.rows, r.2.1.coeffOf x ≠ 0)

end Qap

end Bellman
