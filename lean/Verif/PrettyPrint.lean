import Verif.TestCS

/-!
# Model of `TestConstraintSystem::pretty_print` (src/gadgets/test/mod.rs:166-227)

The string is built up as a list of characters.  `{:?}` of a field element (external) is a parameter `dbg`.
-/

namespace Bellman

variable {F : Type} [PrimeField F]

/-- src/gadgets/test/mod.rs:171-173 `powers_of_two`. -/
def powersOfTwo (F : Type) [PrimeField F] : List F := (List.range (PrimeField.NUM_BITS F)).map fun i => (2 : F) ^ i

/-- src/gadgets/test/mod.rs:187-192: the first power of two that equals the coefficient, if there is one. -/
def ppPower (coeff : F) : List Char :=
  match (powersOfTwo F).findIdx? (fun x => decide (x = coeff)) with
  | some i => "2^".toList ++ (toString i).toList ++ " . ".toList
  | none => []

/-- src/gadgets/test/mod.rs:179-195: sign and coefficient of one term. -/
def ppCoeff (dbg : F → List Char) (isFirst : Bool) (coeff : F) : List Char :=
  (if coeff = -1 then " - ".toList else if !isFirst then " + ".toList else []) ++
  (if coeff ≠ 1 ∧ coeff ≠ -1 then ppPower coeff ++ dbg coeff ++ " . ".toList else [])

namespace TestCS

/-- `self.inputs[i].1` or `self.aux[i].1` (src/gadgets/test/mod.rs:198-203); panics out of range. -/
def varName (s : TestCS F) : Var → Option String
  | .input i => (s.inputs[i]?).map (·.2)
  | .aux i => (s.aux[i]?).map (·.2)

/-- src/gadgets/test/mod.rs:178-205: the loop over the terms, with the final value of `is_first`. -/
def ppTerms (dbg : F → List Char) (s : TestCS F) : Bool → List (Var × F) → Option (List Char × Bool)
  | isFirst, [] => some ([], isFirst)
  | isFirst, (v, coeff) :: m =>
    (s.varName v).bind fun name =>
    (ppTerms dbg s false m).map fun rest =>
      (ppCoeff dbg isFirst coeff ++ "`".toList ++ name.toList ++ "`".toList ++ rest.1, rest.2)

/-- src/gadgets/test/mod.rs:175-211 the closure `pp`. -/
def ppLc (dbg : F → List Char) (s : TestCS F) (lc : LC F) : Option (List Char) :=
  (ppTerms dbg s true (procLc lc.terms)).map fun r => "(".toList ++ r.1 ++ (if r.2 then "0".toList else []) ++ ")".toList

/-- src/gadgets/test/mod.rs:214-221: one constraint. -/
def ppConstraint (dbg : F → List Char) (s : TestCS F) (k : LC F × LC F × LC F × String) : Option (List Char) :=
  (s.ppLc dbg k.1).bind fun a => (s.ppLc dbg k.2.1).bind fun b => (s.ppLc dbg k.2.2.1).map fun c =>
    "\n".toList ++ k.2.2.2.toList ++ ": ".toList ++ a ++ " * ".toList ++ b ++ " = ".toList ++ c

/-- src/gadgets/test/mod.rs:166-227 `pretty_print`; `none` is a panic. -/
def prettyPrint (dbg : F → List Char) (s : TestCS F) : Option String :=
  (s.constraints.mapM (s.ppConstraint dbg)).map fun ks => String.ofList (ks.flatten ++ "\n".toList)

end TestCS

end Bellman
