import Verif.CS
import Verif.Groth16.Keys
import Mathlib.LinearAlgebra.Lagrange

/-!
# The quadratic arithmetic program of a circuit and the Groth16 common reference string (specification)

Independent of the code: polynomials are those of Mathlib, given by interpolation.
-/

namespace Bellman

open Polynomial PrimeField

/-- Coefficient of a variable in a linear combination: the sum over its occurrences. -/
def LC.coeffOf {F : Type} [PrimeField F] (l : LC F) (v : Var) : F := (l.terms.map fun t => if t.1 = v then t.2 else 0).sum

/-- A constraint `⟨a,z⟩·⟨b,z⟩ = ⟨c,z⟩`. -/
abbrev Row (F : Type) := LC F × LC F × LC F

/-- The extra constraints `xᵢ · 0 = 0`, one for each of `n` inputs. -/
def inputRows {F : Type} [PrimeField F] (n : ℕ) : List (Row F) := (List.range n).map fun i => (⟨[(.input i, 1)]⟩, ⟨[]⟩, ⟨[]⟩)

/-- A quadratic arithmetic program: constraints over `n` inputs (the first is the constant one) and `k` auxiliary variables,
placed on a domain of `m` points `1, ω, ω², …`. -/
structure Qap (F : Type) where
  n : ℕ
  k : ℕ
  rows : List (Row F)
  m : ℕ
  ω : F

namespace Qap

variable {F : Type} [PrimeField F]

/-- The program for `n` inputs, `k` auxiliaries and the given constraints: input constraints are appended, the domain is the
smallest power of two that holds all constraints, `ω` the corresponding power of the field's root of unity. -/
def ofRows (n k : ℕ) (rows : List (Row F)) : Qap F :=
  let all := rows ++ inputRows n
  let e := Nat.clog 2 all.length
  { n, k, rows := all, m := 2 ^ e, ω := ROOT_OF_UNITY ^ (2 ^ (S F - e)) }

/-- The program of a trace of calls made by `Circuit::synthesize`; the constant one precedes the circuit's own inputs. -/
def ofTrace (t : List (Ev F)) : Qap F := ofRows (numIn t + 1) (numAux t) (consOf t)

variable (q : Qap F)

/-- All variables, inputs first. -/
def vars : List Var := (List.range q.n).map Var.input ++ (List.range q.k).map Var.aux

/-- The polynomial of degree below `m` with the given values on the domain. -/
noncomputable def interp (f : ℕ → F) : F[X] := Lagrange.interpolate (Finset.range q.m) (fun j => q.ω ^ j) f

/-- Entry of a constraint matrix: coefficient of variable `x` in the selected part of constraint `j`. -/
def entry (sel : Row F → LC F) (x : Var) (j : ℕ) : F :=
  match q.rows[j]? with
  | some r => (sel r).coeffOf x
  | none => 0

/-- `uₓ`: interpolates the column of `x` in the `a` matrix. -/
noncomputable def u (x : Var) : F[X] := q.interp (q.entry (·.1) x)
/-- `vₓ`: interpolates the column of `x` in the `b` matrix. -/
noncomputable def v (x : Var) : F[X] := q.interp (q.entry (·.2.1) x)
/-- `wₓ`: interpolates the column of `x` in the `c` matrix. -/
noncomputable def w (x : Var) : F[X] := q.interp (q.entry (·.2.2) x)
/-- The vanishing polynomial of the domain. -/
noncomputable def Z : F[X] := X ^ q.m - 1

/-- `β uₓ(τ) + α vₓ(τ) + wₓ(τ)`. -/
noncomputable def comb (α β τ : F) (x : Var) : F := β * (q.u x).eval τ + α * (q.v x).eval τ + (q.w x).eval τ

/-- The Groth16 common reference string for trapdoors `α, β, γ, δ, τ` and generators `g₁, g₂`; elements that are the identity
are left out of the `a` and `b` queries. -/
noncomputable def crs {G1 G2 : Type} [AddCommGroup G1] [AddCommGroup G2] [Module F G1] [Module F G2] [DecidableEq G1]
    [DecidableEq G2] (g1 : G1) (g2 : G2) (α β γ δ τ : F) : Parameters G1 G2 where
  vk :=
    { alphaG1 := α • g1, betaG1 := β • g1, betaG2 := β • g2, gammaG2 := γ • g2, deltaG1 := δ • g1, deltaG2 := δ • g2
      ic := (List.range q.n).map fun i => (q.comb α β τ (.input i) / γ) • g1 }
  h := (List.range (q.m - 1)).map fun i => (τ ^ i * q.Z.eval τ / δ) • g1
  l := (List.range q.k).map fun i => (q.comb α β τ (.aux i) / δ) • g1
  a := (q.vars.map fun x => (q.u x).eval τ • g1).filter (· ≠ 0)
  bG1 := (q.vars.map fun x => (q.v x).eval τ • g1).filter (· ≠ 0)
  bG2 := (q.vars.map fun x => (q.v x).eval τ • g2).filter (· ≠ 0)

end Qap

end Bellman
