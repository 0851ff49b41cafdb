import Verif.Props.Handles
import Verif.Props.PrettyPrint
import Verif.Props.Threads
import Verif.Props.MachineGadgets

/-!
# Further concrete cases
-/

namespace Bellman.Cases

open Bellman Compute PrimeField

/-! ### C57: an inner `MultiEq` keeps its state -/

private def logger : CSImpl DummyFr (List String) where
  alloc i n _ s := some (.ok (if i then .input 1 else .aux 0, none), s ++ [(if i then "input " else "aux ") ++ n])
  enforce n _ _ _ s := some (s ++ ["enforce " ++ n])
  push n s := some (s ++ ["push " ++ n])
  pop s := some (s ++ ["pop"])

/-- A `MultiEq` around a `MultiEq`: the outer one is full and flushes, the inner one, with three bits pending, is not touched. -/
example : let n : Nesting DummyFr (List String) true _ _ := .multiEq .innermost
    let inner : MEq DummyFr := ⟨2, 3, LC.zero, LC.zero⟩
    ∃ s' x', (Prog.enforceEqual 4 LC.zero LC.zero (.ret ()) : Prog DummyFr true Unit).run (n.multiEq.handle logger)
        (([], inner), ⟨7, 13, LC.zero, LC.zero⟩) = some ((), (s', x')) ∧ s'.1 = ["enforce multieq 7"] ∧ n.meq s' = inner := by
  intro n inner
  have h : ((Prog.enforceEqual 4 LC.zero LC.zero (.ret ()) : Prog DummyFr true Unit).run (n.multiEq.handle logger)
      (([], inner), ⟨7, 13, LC.zero, LC.zero⟩)).map (fun r => r.2.1.1) = some ["enforce multieq 7"] := by decide +kernel
  obtain ⟨⟨u, s', x'⟩, h1, h2⟩ := Option.map_eq_some_iff.1 h
  exact ⟨s', x', h1, h2, C57_frame logger n _ _ _ _ _ _ h1⟩

/-! ### C60: `create_proof` inside the pool -/

/-- A call in the pool may end, with an error: here the circuit fails before anything is submitted. -/
example (w : Worker) (params : Parameters DummyFr DummyFr) :
    let x : ProveCall DummyFr DummyFr DummyFr := ⟨w, throw .assignmentMissing, params, 3, 4⟩
    ∃ c th, Config.Reachable 1 [(true, x.thread.2)] c ∧ c.threads[0]? = some th ∧ th.finished (Res.err .assignmentMissing) := by
  intro x
  refine ⟨Config.init [(true, x.thread.2)], ⟨true, x.thread.2, []⟩, .refl, rfl, ?_, by simp⟩
  rfl

/-! ### C63: printing identifies the constraints -/

private def once : Synth DummyFr Unit := do
  let (x, _) ← Synth.alloc "x" (.ok 2)
  Synth.enforce "c" (fun l => l + ((2 : DummyFr), x)) (fun l => l + Var.one) (fun l => l + x + x)

private def twice : Synth DummyFr Unit := do
  let (x, _) ← Synth.alloc "x" (.ok 7)
  Synth.enforce "c" (fun l => l + x + x) (fun l => l + Var.one) (fun l => l + ((3 : DummyFr), x))

private def stateOf (c : Synth DummyFr Unit) : TestCS DummyFr := ((c.run.run TestCS.impl .new).map (·.2)).getD .new

private theorem reach (c : Synth DummyFr Unit) : (stateOf c).Reachable := by
  unfold stateOf
  cases h : c.run.run TestCS.impl .new with
  | none => exact .new
  | some r => exact .run _ .new h

private def binary (x : DummyFr) : List Char := (List.range 16).reverse.map fun i => if (val x).testBit i then '1' else '0'

private theorem binary_injective : Function.Injective binary := by
  intro x y h
  apply val_injective
  apply Nat.eq_of_testBit_eq
  intro i
  have hx : val x < 2 ^ 16 := (val_lt x).trans (by decide)
  have hy : val y < 2 ^ 16 := (val_lt y).trans (by decide)
  by_cases hi : i < 16
  · have := List.map_inj_left.1 h i (by simpa using hi)
    cases h1 : (val x).testBit i <;> cases h2 : (val y).testBit i <;> simp [h1, h2] at this <;> rfl
  · have hp : 2 ^ 16 ≤ 2 ^ i := Nat.pow_le_pow_right (by norm_num) (by omega)
    rw [Nat.testBit_lt_two_pow (hx.trans_le hp), Nat.testBit_lt_two_pow (hy.trans_le hp)]

private theorem binary_clean (c : DummyFr) : ' ' ∉ binary c ∧ '`' ∉ binary c ∧ '\n' ∉ binary c := by
  have h : ∀ x ∈ binary c, x = '1' ∨ x = '0' := by
    intro x hx
    obtain ⟨i, -, rfl⟩ := List.mem_map.1 hx
    split <;> simp
  refine ⟨fun hm => ?_, fun hm => ?_, fun hm => ?_⟩ <;> rcases h _ hm with h | h <;> simp at h

/-- `2 x` and `x + x` print alike, `2 x` and `3 x` do not: the two circuits differ on the right-hand side only. -/
example : (stateOf once).prettyPrint binary ≠ (stateOf twice).prettyPrint binary := by
  rw [Ne, C63_identifies binary_injective binary_clean (reach once) (by decide +kernel) (by decide +kernel) (by
    intro u hu
    simp only [List.mem_cons, List.not_mem_nil, or_false] at hu
    rcases hu with rfl | rfl <;> decide +kernel) (by decide +kernel)]
  intro h
  have e1 : (stateOf once).constraints = [(⟨[(.aux 0, 2)]⟩, ⟨[(.one, 1)]⟩, ⟨[(.aux 0, 1), (.aux 0, 1)]⟩, "c")] := rfl
  have e2 : (stateOf twice).constraints = [(⟨[(.aux 0, 1), (.aux 0, 1)]⟩, ⟨[(.one, 1)]⟩, ⟨[(.aux 0, 3)]⟩, "c")] := rfl
  rw [e1, e2] at h
  cases h with
  | cons h _ => exact absurd (h.2 (.aux 0) _ (.tail _ (.tail _ (.head _)))) (by decide +kernel)

end Bellman.Cases
