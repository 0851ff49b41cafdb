import Verif.Groth16.Keys

/-!
# Model of the `PartialEq` impls of keys and proofs (groth16/src/lib.rs:32-36,130-140,246-255)

Equality of points is equality of group elements (as everywhere in the model, forms of one element are identified).
-/

namespace Bellman

variable {G1 G2 : Type} [DecidableEq G1] [DecidableEq G2]

/-- `Vec<T> == Vec<T>` (std): equal lengths, then element by element. Used at groth16/src/lib.rs:138, 249-253. -/
def vecEq {G : Type} [DecidableEq G] : List G → List G → Bool
  | [], [] => true
  | x :: xs, y :: ys => decide (x = y) && vecEq xs ys
  | _, _ => false

/-- groth16/src/lib.rs:32-36 `PartialEq for Proof`. -/
def Proof.eq (p q : Proof G1 G2) : Bool := decide (p.a = q.a) && decide (p.b = q.b) && decide (p.c = q.c)

/-- groth16/src/lib.rs:130-140 `PartialEq for VerifyingKey`. -/
def VerifyingKey.eq (k k' : VerifyingKey G1 G2) : Bool :=
  decide (k.alphaG1 = k'.alphaG1) && decide (k.betaG1 = k'.betaG1) && decide (k.betaG2 = k'.betaG2) && decide (k.gammaG2 = k'.gammaG2) &&
    decide (k.deltaG1 = k'.deltaG1) && decide (k.deltaG2 = k'.deltaG2) && vecEq k.ic k'.ic

/-- groth16/src/lib.rs:246-255 `PartialEq for Parameters` (`Arc<Vec<T>>` compares the vectors). -/
def Parameters.eq (p q : Parameters G1 G2) : Bool :=
  p.vk.eq q.vk && vecEq p.h q.h && vecEq p.l q.l && vecEq p.a q.a && vecEq p.bG1 q.bG1 && vecEq p.bG2 q.bG2

end Bellman
