import Verif.Proofs.GadgetTests

/-! `test_cs`, for all values. -/

namespace Bellman.GadgetTests
open PrimeField
set_option linter.unusedSectionVars false
set_option linter.unusedSimpArgs false
set_option maxHeartbeats 1000000
variable {F : Type} [PrimeField F] {α β : Type}

/-- The system of `test_cs` with its product constraint. -/
def csMult (a b prod : F) : TestCS F where
  named := [("mult", .constraint 0), ("product", .var (.aux 2)), ("b/var", .var (.aux 1)), ("b", .namespace), ("a/var", .var (.aux 0)), ("a", .namespace), ("ONE", .var (.input 0))]
  ns := []
  constraints := [(LC.addVar ⟨[]⟩ (.aux 0), LC.addVar ⟨[]⟩ (.aux 1), LC.addVar ⟨[]⟩ (.aux 2), "mult")]
  inputs := [(1, "ONE")]
  aux := [(a, "a/var"), (b, "b/var"), (prod, "product")]

theorem testCs_mult (a b prod a' prod' h : F) : testCs a b prod a' prod' h .new = (do
    assert (← isSatisfied)
    assert ((← numConstraints) = 1)
    set "a/var" a'
    call (Synth.enforce "eq" (fun lc => lc + Var.aux 0) (fun lc => lc + Var.one) (fun lc => lc + Var.aux 1))
    assert (!(← isSatisfied))
    assert ((← whichIsUnsatisfied) = some "mult")
    assert ((← get "product") = prod)
    set "product" prod'
    assert (← isSatisfied)
    let _ ← call (Synth.inNs "test1" (Synth.inNs "test2" (Synth.alloc "hehe" (.ok h))))
    assert ((← get "test1/test2/hehe") = h) : UTest F Unit) (csMult a b prod) := by
  unfold testCs
  have e0 : isSatisfied (.new : TestCS F) = some (true, .new) := by eval_test []
  have e1 : numConstraints (.new : TestCS F) = some (0, .new) := rfl
  rw [bind_some e0, assert_true rfl, bind_some e1, assert_true (by simp)]
  have e2 : call (Synth.inNs "a" (Synth.alloc "var" (.ok a))) (.new : TestCS F) = some ((.aux 0, some a), { named := [("a/var", .var (.aux 0)), ("a", .namespace), ("ONE", .var (.input 0))], ns := [], constraints := [], inputs := [(1, "ONE")], aux := [(a, "a/var")] }) := by
    eval_test []
  rw [bind_some e2]
  have e3 : call (Synth.inNs "b" (Synth.alloc "var" (.ok b))) { named := [("a/var", .var (.aux 0)), ("a", .namespace), ("ONE", .var (.input 0))], ns := [], constraints := [], inputs := [(1, "ONE")], aux := [(a, "a/var")] } = some ((.aux 1, some b), { named := [("b/var", .var (.aux 1)), ("b", .namespace), ("a/var", .var (.aux 0)), ("a", .namespace), ("ONE", .var (.input 0))], ns := [], constraints := [], inputs := [(1, "ONE")], aux := [(a, "a/var"), (b, "b/var")] }) := by
    eval_test []
  rw [bind_some e3]
  have e4 : call (Synth.alloc "product" (.ok prod)) { named := [("b/var", .var (.aux 1)), ("b", .namespace), ("a/var", .var (.aux 0)), ("a", .namespace), ("ONE", .var (.input 0))], ns := [], constraints := [], inputs := [(1, "ONE")], aux := [(a, "a/var"), (b, "b/var")] } = some ((.aux 2, some prod), { named := [("product", .var (.aux 2)), ("b/var", .var (.aux 1)), ("b", .namespace), ("a/var", .var (.aux 0)), ("a", .namespace), ("ONE", .var (.input 0))], ns := [], constraints := [], inputs := [(1, "ONE")], aux := [(a, "a/var"), (b, "b/var"), (prod, "product")] }) := by
    eval_test []
  rw [bind_some e4]
  have e5 : call (Synth.enforce "mult" (fun lc => lc + Var.aux 0) (fun lc => lc + Var.aux 1) (fun lc => lc + Var.aux 2)) { named := [("product", .var (.aux 2)), ("b/var", .var (.aux 1)), ("b", .namespace), ("a/var", .var (.aux 0)), ("a", .namespace), ("ONE", .var (.input 0))], ns := [], constraints := [], inputs := [(1, "ONE")], aux := [(a, "a/var"), (b, "b/var"), (prod, "product")] } = some ((), csMult a b prod) := by
    rw [csMult]
    eval_test []
    exact ⟨rfl, rfl, rfl⟩
  rw [bind_some e5]

/-- The system of `test_cs` with both constraints. -/
def csEq (a b prod : F) : TestCS F where
  named := ("eq", .constraint 1) :: (csMult a b prod).named
  ns := []
  constraints := (csMult a b prod).constraints ++ [(LC.addVar ⟨[]⟩ (.aux 0), LC.addVar ⟨[]⟩ (.input 0), LC.addVar ⟨[]⟩ (.aux 1), "eq")]
  inputs := [(1, "ONE")]
  aux := [(a, "a/var"), (b, "b/var"), (prod, "product")]

theorem testCs_iff (a b prod a' prod' h : F) :
    Passes (testCs a b prod a' prod' h) ↔ a * b = prod ∧ a' = b ∧ a' * b ≠ prod ∧ a' * b = prod' := by
  unfold Passes
  rw [testCs_mult]
  have e0 : isSatisfied (csMult a b prod) = some (decide (a * b = prod), csMult a b prod) := by
    by_cases h1 : a * b = prod <;> eval_test [csMult, LC.addVar, LC.addTerm, h1]
  have e1 : numConstraints (csMult a b prod) = some (1, csMult a b prod) := rfl
  rw [bind_some e0]
  by_cases h1 : a * b = prod
  · rw [assert_true (by simpa using h1), bind_some e1, assert_true (by simp)]
    have e2 : set "a/var" a' (csMult a b prod) = some ((), csMult a' b prod) := by eval_test [csMult]
    have e3 : call (Synth.enforce "eq" (fun lc => lc + Var.aux 0) (fun lc => lc + Var.one) (fun lc => lc + Var.aux 1)) (csMult a' b prod) =
        some ((), csEq a' b prod) := by
      rw [csMult, csEq]
      eval_test [csMult]
      exact ⟨rfl, rfl, rfl⟩
    have sat : ∀ x, isSatisfied (csEq a' b x) = some (decide (a' * b = x ∧ a' = b), csEq a' b x) := fun x => by
      by_cases h2 : a' * b = x <;> by_cases h3 : a' = b
      · subst h3; eval_test [csEq, csMult, LC.addVar, LC.addTerm, h2]
      · eval_test [csEq, csMult, LC.addVar, LC.addTerm, h2, h3]
      · subst h3; eval_test [csEq, csMult, LC.addVar, LC.addTerm, h2]
      · eval_test [csEq, csMult, LC.addVar, LC.addTerm, h2, h3]
    rw [bind_some e2, bind_some e3, bind_some (sat _)]
    have e4 : whichIsUnsatisfied (csEq a' b prod) = some (if a' * b = prod then (if a' = b then none else some "eq") else some "mult", csEq a' b prod) := by
      by_cases h2 : a' * b = prod <;> by_cases h3 : a' = b
      · subst h3; eval_test [csEq, csMult, LC.addVar, LC.addTerm, h2]
      · eval_test [csEq, csMult, LC.addVar, LC.addTerm, h2, h3]
      · subst h3; eval_test [csEq, csMult, LC.addVar, LC.addTerm, h2]
      · eval_test [csEq, csMult, LC.addVar, LC.addTerm, h2, h3]
    have e5 : get "product" (csEq a' b prod) = some (prod, csEq a' b prod) := by eval_test [csEq, csMult]
    have e6 : set "product" prod' (csEq a' b prod) = some ((), csEq a' b prod') := by eval_test [csEq, csMult]
    have e7 : ∃ s, (do
        let _ ← call (Synth.inNs "test1" (Synth.inNs "test2" (Synth.alloc "hehe" (.ok h))))
        assert ((← get "test1/test2/hehe") = h) : UTest F Unit) (csEq a' b prod') = some ((), s) := by eval_test [csEq, csMult]
    by_cases h2 : a' * b = prod
    · by_cases h3 : a' = b
      · rw [bind_eval, assert_eval, if_neg (by simp only [h2]; simp [h3])]
        simp [h2]
      · rw [assert_true (by simp [h3]), bind_some e4, bind_eval, assert_eval, if_neg (by simp [h2, h3])]
        simp [h3]
    · rw [assert_true (by simp [h2]), bind_some e4, assert_true (by simp [h2]), bind_some e5, assert_true (by simp), bind_some e6, bind_some (sat _)]
      by_cases h4 : a' * b = prod' ∧ a' = b
      · rw [assert_true (by simpa using h4)]
        exact ⟨fun _ => ⟨h1, h4.2, h2, h4.1⟩, fun _ => e7⟩
      · rw [bind_eval, assert_eval, if_neg (by simpa using h4)]
        simp only [Option.bind_none]
        exact ⟨fun ⟨_, h⟩ => (by cases h), fun h => absurd ⟨h.2.2.2, h.2.1⟩ h4⟩
  · rw [bind_eval, assert_eval, if_neg (by simpa using h1)]
    simp [h1]
