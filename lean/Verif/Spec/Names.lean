import Verif.Proofs.TestCS

/-!
# The names a program uses (specification)

A name has a path: the names of the namespaces open when it is used, followed by the name.
-/

namespace Bellman

variable {F α : Type}

/-- The paths used along a trace that starts in the namespaces `ns` (outermost first): one for each variable, constraint
and namespace. -/
def pathsOf : List String → List (Ev F) → List (List String)
  | _, [] => []
  | ns, .alloc _ n _ _ :: t => (ns ++ [n]) :: pathsOf ns t
  | ns, .enforce n _ _ _ :: t => (ns ++ [n]) :: pathsOf ns t
  | ns, .push n :: t => (ns ++ [n]) :: pathsOf (ns ++ [n]) t
  | ns, .pop :: t => pathsOf ns.dropLast t

/-- The number of open namespaces after a trace that starts with `d` open ones; `none` if the trace closes more. -/
def depthAfter : ℕ → List (Ev F) → Option ℕ
  | d, [] => some d
  | d, .alloc _ _ _ _ :: t => depthAfter d t
  | d, .enforce _ _ _ _ :: t => depthAfter d t
  | d, .push _ :: t => depthAfter (d + 1) t
  | 0, .pop :: _ => none
  | d + 1, .pop :: t => depthAfter d t

/-- Whatever the constraint system answers, and wherever the program stops: it uses no path twice and no name with a
slash, the names it uses in the namespace it is called in are among `N`, it closes only namespaces it opened, and it has
closed all of them when it returns (a value or an error). -/
def UsesNames (N : Set String) (c : Circ F α) : Prop := ∀ t r, Exec c t r →
  (pathsOf [] t).Nodup ∧ (∀ p ∈ pathsOf [] t, (∃ n rest, p = n :: rest ∧ n ∈ N) ∧ ∀ n ∈ p, '/' ∉ n.toList) ∧
    (∃ d, depthAfter 0 t = some d) ∧ (r ≠ none → depthAfter 0 t = some 0)

end Bellman
