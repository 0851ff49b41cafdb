import Verif.Props.Core
import Verif.Props.TestCS
import Verif.Props.TestHash
import Verif.Props.Names
import Verif.Props.Boolean
import Verif.Props.Scope

/-!
# Concrete cases of the theorems on constraint systems (C01 to C05, C26, C40, C43, C49)

Each theorem is applied to a state or circuit that meets its hypotheses.
-/

set_option linter.unusedSectionVars false

namespace Bellman.Cases

open PrimeField List

variable {F : Type} [PrimeField F]

/-! ### C01 -/

/-- `aux0 - 5 (aux0 - 3 one) + 0 aux1` with values 7 and 9. -/
private abbrev expr : LExpr DummyFr :=
  .subScaled (.addTerm (.addVar .zero (.aux 0)) 0 (.aux 1)) 5 (.subTerm (.addVar .zero (.aux 0)) 3 (.input 0))

example : (∃ di da, proverEval [1] [7, 9] expr.build.terms 0 none none = some ((-13 : DummyFr), di, da)) ∧
    evalLc [(1, "ONE")] [(7, "a"), (9, "b")] expr.build.terms 0 = some (-13 : DummyFr) := by
  have h := C01_evaluators expr [1] [7, 9] ⟨[], [], [], [(1, "ONE")], [(7, "a"), (9, "b")]⟩
    (by show ∀ x ∈ [(Var.aux 0, _), (Var.aux 1, _), (Var.aux 0, _), (Var.input 0, _)], _; simp [Var.InRange]) ⟨rfl, rfl⟩
  rwa [show expr.value (assign [1] [7, 9]) = -13 by decide +kernel] at h

/-! ### C02 -/

/-- A prover with the constant one and an auxiliary variable holding 5. -/
private abbrev five : ProvingAssignment DummyFr := ((proverStart DummyFr).allocAux (.ok 5)).2

private theorem five_wf : five.WF := ⟨rfl, rfl, rfl⟩

/-- `aux0 · aux0 = 25 one`: the recorded values, and the densities. -/
example : ∃ s', five.enforce ⟨[(.aux 0, 1)]⟩ ⟨[(.aux 0, 1)]⟩ ⟨[(.input 0, 25)]⟩ = some s' ∧ s'.a = [5] ∧
    s'.aAuxDensity.Has 0 ∧ ¬ s'.bInputDensity.Has 0 := by
  obtain ⟨s', hs⟩ : ∃ s', five.enforce ⟨[(.aux 0, 1)]⟩ ⟨[(.aux 0, 1)]⟩ ⟨[(.input 0, 25)]⟩ = some s' := ⟨_, rfl⟩
  obtain ⟨-, -, ha, -, -, hd, hi, -⟩ := C02_enforce five_wf hs
  refine ⟨s', hs, ha.trans (by decide +kernel), (hd 0).2 (.inr ?_), fun h => ?_⟩
  · exact ⟨1, by simp, by decide +kernel⟩
  · rcases (hi 0).1 h with h | ⟨c, h⟩
    · exact absurd (show five.bInputDensity.bv[0]? = some true from h) (by decide +kernel)
    · exact absurd h.2 (by simp)

/-- A variable that was never allocated: the call panics. -/
example : five.enforce ⟨[(.aux 3, 1)]⟩ ⟨[(.aux 0, 1)]⟩ ⟨[]⟩ = none :=
  (C02_enforce_panics five_wf).2 ⟨.aux 3, .inl ⟨1, by simp, by decide +kernel⟩, not_lt.2 (by decide)⟩

/-- Allocating an input with value 8. -/
example : ∃ s', ProvingAssignment.impl.alloc true "y" (.ok 8) five = some (.ok (.input 1, some 8), s') ∧
    s'.inputAssignment = [1, 8] ∧ s'.auxAssignment = [5] := by
  obtain ⟨r, s', h⟩ : ∃ r s', ProvingAssignment.impl.alloc true "y" (.ok 8) five = some (r, s') := ⟨_, _, rfl⟩
  obtain ⟨-, -, -, -, -, -, -, hv⟩ := C02_alloc true "y" (.ok 8) h
  obtain ⟨hi, ha, rfl⟩ := hv 8 rfl
  exact ⟨s', h, hi, ha⟩

/-- A whole circuit. -/
example : ∃ s' t, (squareCircuit (some 5)).run.run ProvingAssignment.impl (proverStart DummyFr) = some (.ok (), s') ∧
    Honest (squareCircuit (some 5)).run t (some (.ok ())) ∧ s'.inputAssignment = [1] ++ inVals t ∧ s'.WF := by
  obtain ⟨s', h⟩ : ∃ s', (squareCircuit (some 5)).run.run ProvingAssignment.impl (proverStart DummyFr) = some (.ok (), s') :=
    ⟨_, rfl⟩
  obtain ⟨t, he, hi, -, -, -, -, -, -, -, hw⟩ := C02_run _ proverStart_WF h
  exact ⟨s', t, h, he, hi, hw⟩

/-! ### C03 -/

private theorem kgen : ∃ s', (squareCircuit none).run.run KeypairAssembly.impl
    (KeypairAssembly.new : KeypairAssembly DummyFr).allocInput.2 = some (.ok (), s') := ⟨_, rfl⟩

private theorem wit : WitnessOk (squareCircuit (some 5)).run := ⟨5, rfl, fun _ => ⟨25, by decide, fun _ => trivial⟩⟩

/-- Key generation without a witness succeeds; so the prover with one does, and both see the same circuit. -/
example : ∃ s' p' t₁ t₂, (squareCircuit (some 5)).run.run ProvingAssignment.impl (proverStart DummyFr) = some (.ok (), p') ∧
    SameCircuit (F := DummyFr) s' p' t₁ t₂ := by
  obtain ⟨s', hk⟩ := kgen
  obtain ⟨b, p', t₁, t₂, h, -, -, -, -, -, hs⟩ := C03_prover_follows_keygen (squareCircuit_shape none (some 5)) start_WF
    proverStart_WF rfl rfl ⟨rfl, rfl, rfl⟩ hk wit
  exact ⟨s', p', t₁, t₂, h, hs⟩

example : ∃ s' p' t₁ t₂, Exec (squareCircuit none).run t₁ (some (.ok ())) ∧ Honest (squareCircuit (some 5)).run t₂ (some (.ok ())) ∧
    SameCircuit (F := DummyFr) s' p' t₁ t₂ := by
  obtain ⟨s', hk⟩ := kgen
  obtain ⟨p', hp⟩ : ∃ p', (squareCircuit (some 5)).run.run ProvingAssignment.impl (proverStart DummyFr) = some (.ok (), p') :=
    ⟨_, rfl⟩
  obtain ⟨t₁, t₂, h₁, h₂, -, -, hs, -⟩ := C03_keygen_and_prover (squareCircuit_shape none (some 5)) start_WF
    proverStart_WF rfl rfl ⟨rfl, rfl, rfl⟩ hk hp
  exact ⟨s', p', t₁, t₂, h₁, h₂, hs⟩

private theorem tested : ∃ p', (squareCircuit (some 5)).run.run TestCS.impl (TestCS.new : TestCS DummyFr) = some (.ok (), p') := by
  have h : ((squareCircuit (some 5)).run.run TestCS.impl (TestCS.new : TestCS DummyFr)).map (fun x => x.1.toOption) =
      some (some ()) := by decide +kernel
  obtain ⟨⟨r, s⟩, e, hr⟩ := Option.map_eq_some_iff.1 h
  cases r with
  | error e => simp [Except.toOption] at hr
  | ok u => exact ⟨s, e⟩

example : ∃ (s' : KeypairAssembly DummyFr) (p' : TestCS DummyFr), s'.numInputs = p'.inputs.length ∧
    s'.numAux = p'.aux.length ∧ s'.numConstraints = p'.constraints.length ∧ s'.numConstraints = 2 := by
  obtain ⟨s', hk⟩ := kgen
  obtain ⟨p', hp⟩ := tested
  obtain ⟨t₁, t₂, -, -, -, -, -, -, h₁, h₂, h₃, -⟩ := C03_keygen_and_test (squareCircuit_shape none (some 5)) start_WF
    TestCS.WF_new rfl rfl rfl hk hp
  cases hk
  exact ⟨_, p', h₁, h₂, h₃, rfl⟩

/-! ### C26 -/

example : ∃ d : DensityTracker, DOp.runAll [.add, .add, .inc 1, .add, .inc 1, .inc 0] .new = some d ∧
    d.bv.length = 3 ∧ d.getTotalDensity = 2 := by
  obtain ⟨d, h⟩ : ∃ d, DOp.runAll [.add, .add, .inc 1, .add, .inc 1, .inc 0] .new = some d := ⟨_, rfl⟩
  obtain ⟨h1, -, h2⟩ := C26_tracker _ h
  exact ⟨d, h, h1.trans (by decide), h2.trans (by decide)⟩

/-! ### C04 -/

private theorem square_reachable {s : TestCS DummyFr}
    (h : (squareCircuit (some 5)).run.run TestCS.impl (TestCS.new : TestCS DummyFr) = some (.ok (), s)) : s.Reachable :=
  .run _ .new h

example : ∃ s' t, (squareCircuit (some 5)).run.run TestCS.impl (TestCS.new : TestCS DummyFr) = some (.ok (), s') ∧
    Honest (squareCircuit (some 5)).run t (some (.ok ())) ∧
    (s'.constraints.map fun k => (k.1, k.2.1, k.2.2.1)) = [] ++ consOf t := by
  obtain ⟨s', h⟩ := tested
  obtain ⟨t, he, hc, -⟩ := C04_constraints .new _ h
  exact ⟨s', t, h, he, hc⟩

/-- The state after the circuit: a witness 5 and an input 25. -/
private abbrev sq : TestCS DummyFr := (((squareCircuit (some 5)).run.run TestCS.impl .new).map (·.2)).getD .new

private theorem sq_reachable : sq.Reachable := by
  obtain ⟨s', h⟩ := tested
  have : sq = s' := by simp only [sq, h, Option.map_some, Option.getD_some]
  exact this ▸ square_reachable h

/-- Setting the witness to 6 and the input to 36. -/
example : ∃ s', TestCS.setAll [("x", 6), ("y", 36)] sq = some s' ∧ s'.constraints = sq.constraints ∧
    s'.rho = Function.update (Function.update sq.rho (.aux 0) 6) (.input 1) 36 := by
  obtain ⟨s', h, -, hc, hr, -⟩ := C04_setAll sq_reachable.wf [(.aux 0, "x", 6), (.input 1, "y", 36)]
    (by intro e he
        rcases List.mem_cons.1 he with rfl | he
        · decide +kernel
        rcases List.mem_singleton.1 he with rfl
        decide +kernel)
  exact ⟨s', h, hc, hr⟩

example : sq.get "x" = some (sq.rho (.aux 0)) ∧ sq.get "z" = none :=
  ⟨(C04_get_set sq_reachable.wf "x" 0).2.2.1 (.aux 0) (by decide +kernel),
    (C04_get_set sq_reachable.wf "z" 0).1.2 fun v => by
      rw [show sq.named.lookup "z" = none by decide +kernel]; simp⟩

example : sq.getInput 1 "y" = sq.get "y" ∧ sq.getInput 0 "y" = none :=
  ⟨((C04_get_input sq_reachable.wf 1 "y").1 (by decide +kernel)).1, (C04_get_input sq_reachable.wf 0 "y").2 (by decide +kernel)⟩

/-- A bit allocated in the test constraint system: satisfied, so it is 0 or 1. -/
example : ∃ (a : AllocatedBit) (s' : TestCS DummyFr),
    (AllocatedBit.alloc (some true) : Synth DummyFr _).run.run TestCS.impl .new = some (.ok a, s') ∧
    s'.isSatisfied = some true ∧ (s'.rho a.var = 0 ∨ s'.rho a.var = 1) := by
  have h : ((AllocatedBit.alloc (some true) : Synth DummyFr _).run.run TestCS.impl .new).map
      (fun x => (x.1.toOption.isSome, x.2.isSatisfied, x.2.rho .one)) = some (true, some true, 1) := by decide +kernel
  obtain ⟨⟨r, s⟩, e, hr⟩ := Option.map_eq_some_iff.1 h
  simp only [Prod.mk.injEq] at hr
  cases r with
  | error e => simp [Except.toOption] at hr
  | ok a => 
    exact ⟨a, s, e, hr.2.1, C04_sound_adequate (Q := fun a => s.rho a.var = 0 ∨ s.rho a.var = 1) TestCS.WF_new e hr.2.1
      (C06_alloc_sound hr.2.2 _)⟩

/-! ### C05 -/

/-- Two scopes and names with the same path are the same (here: any that give `a/b/c` from slash-free parts). -/
example {ns : List String} {n : String} (h : ∀ x ∈ ns, '/' ∉ x.toList) (hp : computePath ns n = some "a/b/c") :
    ns = ["a", "b"] ∧ n = "c" :=
  C05_path_inj h (by decide) hp (by decide +kernel)

example : ∀ x ∈ sq.ns, '/' ∉ x.toList := C05_stack_clean sq_reachable

/-- The name `x` is taken in the state above. -/
example : TestCS.impl.alloc true "x" (.ok 1) sq = none ∧ TestCS.impl.push "x" sq = none :=
  have h := C05_reuse_panics sq "x" "x" (by decide +kernel) (by decide +kernel)
  ⟨h.1 1, h.2.2.2⟩

example : ∃ t, Honest (squareCircuit (some 5)).run t (some (.ok ())) ∧
    ((objsOf (TestCS.new : TestCS DummyFr).ns 0 t).map (·.1)).Nodup := by
  obtain ⟨s', h⟩ := tested
  obtain ⟨t, he, hn, -⟩ := C05_run_distinct _ TestCS.WF_new h
  exact ⟨t, he, hn⟩

/-- A circuit with two nested scopes, the inner of which fails. -/
private def failing2 : Synth DummyFr Unit := Synth.inNs "outer" (Synth.inNs "inner" (throw .unsatisfiable))

private theorem failing2_nested : Nested failing2.run :=
  have h := (C05_nested (F := DummyFr) (pure () : Synth DummyFr Unit) (fun _ => (pure () : Synth DummyFr Unit)) "x" (.ret _)
    fun _ => .ret _).2.2 .unsatisfiable
  (C05_nested _ (fun _ => (pure () : Synth DummyFr Unit)) "outer"
    (C05_nested _ (fun _ => (pure () : Synth DummyFr Unit)) "inner" h fun _ => .ret _).2.1 fun _ => .ret _).2.1

example : ∃ a s', failing2.run.run TestCS.impl (TestCS.new : TestCS DummyFr) = some (a, s') ∧ s'.ns = [] := by
  have h : (failing2.run.run TestCS.impl (TestCS.new : TestCS DummyFr)).isSome = true := by decide +kernel
  obtain ⟨⟨r, s⟩, e⟩ := Option.isSome_iff_exists.1 h
  exact ⟨r, s, e, C05_scopes_restored failing2_nested e⟩

/-! ### C40 -/

/-- A 32-byte representation of the dummy field. -/
private def reprD (x : DummyFr) : List UInt8 :=
  UInt8.ofNat (ZMod.val x) :: UInt8.ofNat (ZMod.val x / 256) :: List.replicate 30 0

private theorem reprD_inj : Function.Injective reprD := fun x y h => by
  simp only [reprD, cons.injEq, and_true] at h
  have h1 := congrArg UInt8.toNat h.1
  have h2 := congrArg UInt8.toNat h.2
  simp only [UInt8.toNat_ofNat'] at h1 h2
  have : NeZero dummyP := ⟨by decide⟩
  have hd : dummyP = 64513 := rfl
  have lx := ZMod.val_lt x
  have ly := ZMod.val_lt y
  exact ZMod.val_injective _ (by omega)

/-- Two states with one constraint each, the terms written differently, with other names and values. -/
private abbrev one1 : TestCS DummyFr where
  named := []
  ns := []
  constraints := [(⟨[(.aux 0, 2), (.aux 0, 3)]⟩, ⟨[]⟩, ⟨[(.input 0, 0)]⟩, "c")]
  inputs := [(1, "ONE")]
  aux := [(4, "a")]
private abbrev one2 : TestCS DummyFr where
  named := []
  ns := []
  constraints := [(⟨[(.aux 0, 5)]⟩, ⟨[]⟩, ⟨[]⟩, "d")]
  inputs := [(1, "ONE")]
  aux := [(9, "b")]
/-- One coefficient differs. -/
private abbrev one3 : TestCS DummyFr where
  named := []
  ns := []
  constraints := [(⟨[(.aux 0, 6)]⟩, ⟨[]⟩, ⟨[]⟩, "d")]
  inputs := [(1, "ONE")]
  aux := [(9, "b")]

private theorem same12 : SameNormalForm one1 one2 :=
  ⟨rfl, rfl, .cons ⟨by decide +kernel, by decide +kernel, by decide +kernel⟩ .nil⟩
private theorem not_same23 : ¬ SameNormalForm one2 one3 := fun h => by
  cases h.2.2 with
  | cons h _ => exact absurd h.1 (by decide +kernel)

example : one1.hashInput reprD = one2.hashInput reprD := C40_hash_congr reprD same12
example : one1.hash reprD = one2.hash reprD := (C40_hash reprD reprD_inj one1 one2).2.1 same12

private theorem small23 : ∀ u ∈ [one2, one3], u.inputs.length < 2 ^ 64 ∧ u.aux.length < 2 ^ 64 ∧ u.constraints.length < 2 ^ 64 ∧
    ∀ k ∈ u.constraints, ∀ l ∈ [k.1, k.2.1, k.2.2.1], (procLc l.terms).length < 2 ^ 64 ∧ ∀ e ∈ procLc l.terms, e.1.Small := by
  have e5 : procLc [(Var.aux 0, (5 : DummyFr))] = [(.aux 0, 5)] := by decide +kernel
  have e6 : procLc [(Var.aux 0, (6 : DummyFr))] = [(.aux 0, 6)] := by decide +kernel
  have e0 : procLc ([] : List (Var × DummyFr)) = [] := by decide +kernel
  intro u hu
  simp only [List.mem_cons, List.not_mem_nil, or_false] at hu
  rcases hu with rfl | rfl
  all_goals
    refine ⟨by decide, by decide, by decide, fun k hk l hl => ?_⟩
    rw [List.mem_singleton] at hk
    subst hk
    simp only [List.mem_cons, List.not_mem_nil, or_false] at hl
    rcases hl with rfl | rfl | rfl
    all_goals simp [e5, e6, e0, Var.Small]

/-- The states have bytes to hash, and different ones. -/
example : (one2.hashInput reprD).isSome ∧ one2.hashInput reprD ≠ one3.hashInput reprD := by
  have h2 : (one2.hashInput reprD).isSome := by decide +kernel
  obtain ⟨h, e⟩ := Option.isSome_iff_exists.1 h2
  refine ⟨h2, fun h' => ?_⟩
  exact not_same23 (C40_hash_inj reprD reprD_inj small23 e (h' ▸ e))

/-! ### C49 -/

/-- A bit in a namespace `a`, then a second one in `b`. -/
private def twoNs : Synth DummyFr AllocatedBit := do
  let _ ← Synth.inNs "a" (AllocatedBit.alloc (some true))
  Synth.inNs "b" (AllocatedBit.alloc (some false))

private theorem twoNs_names : UsesNames ({"a"} ∪ {"b"}) twoNs.run :=
  C49_seq (C49_namespace (by decide) (C49_bits (some true) ⟨.one, none⟩ ⟨.one, none⟩).1) (by simp)
    fun _ => C49_namespace (by decide) (C49_bits (some false) ⟨.one, none⟩ ⟨.one, none⟩).1

/-- A gadget that panics of itself: a lookup in a table of the wrong length. -/
private abbrev badLookup : Synth DummyFr (AllocatedNum DummyFr × AllocatedNum DummyFr) :=
  lookup3xy [.constant true, .constant true, .constant true] []

/-- `badLookup` panics in the test constraint system, for the reason the theorems allow: it panics of itself. -/
example : (Synth.inNs "l" badLookup).run.run TestCS.impl (TestCS.new : TestCS DummyFr) = none ∧
    ∃ t, Honest badLookup.run t none ∧ Numbered 1 0 t := by
  have h : (Synth.inNs "l" badLookup).run.run TestCS.impl (TestCS.new : TestCS DummyFr) = none := by
    have : ((Synth.inNs "l" badLookup).run.run TestCS.impl (TestCS.new : TestCS DummyFr)).isNone = true := by decide +kernel
    exact Option.isNone_iff_eq_none.1 this
  exact ⟨h, C49_fresh_namespace .new (C49_lookup_pack [.constant true, .constant true, .constant true] []).1 (by decide)
    (by decide +kernel) h⟩

example : (badLookup.run.run TestCS.impl (TestCS.new : TestCS DummyFr)) = none ∧
    ∃ t, Honest badLookup.run t none ∧ Numbered 1 0 t := by
  have h : badLookup.run.run TestCS.impl (TestCS.new : TestCS DummyFr) = none := by
    have : (badLookup.run.run TestCS.impl (TestCS.new : TestCS DummyFr)).isNone = true := by decide +kernel
    exact Option.isNone_iff_eq_none.1 this
  exact ⟨h, C49_no_name_panic .new (C49_lookup_pack [.constant true, .constant true, .constant true] []).1 (by
    intro n hn
    simp only [Set.mem_insert_iff, Set.mem_singleton_iff] at hn
    rcases hn with rfl | rfl | rfl | rfl | rfl <;> decide +kernel) h⟩

/-! ### C43 -/

private theorem k0 : Known 1 3 (⟨.aux 0, none⟩ : AllocatedBit) := (by decide : 0 < 3)
private theorem kb : Known 1 3 (Boolean.is ⟨.aux 0, none⟩) := (by decide : 0 < 3)
private theorem kn : Known 1 3 (Boolean.not ⟨.aux 2, none⟩) := (by decide : 2 < 3)
private theorem kc : Known 1 3 (Boolean.constant true) := trivial
private theorem kx : Known 1 3 (⟨none, .aux 1⟩ : AllocatedNum F) := (by decide : 1 < 3)
private theorem kl : Known 1 3 [Boolean.is ⟨.aux 0, none⟩, .not ⟨.aux 2, none⟩, .constant true] := by
  intro x hx
  simp only [List.mem_cons, List.not_mem_nil, or_false] at hx
  rcases hx with rfl | rfl | rfl
  exacts [kb, kn, kc]
/-- A word of 32 copies of a variable. -/
private abbrev word0 : UInt32 := ⟨List.replicate 32 (.is ⟨.aux 0, none⟩), none⟩
private theorem kw : Known 1 3 word0 := fun x hx => by
  rw [List.eq_of_mem_replicate hx]
  exact kb
private theorem kws : Known 1 3 [word0, word0] := fun x hx => by
  simp only [List.mem_cons, List.not_mem_nil, or_false, or_self] at hx
  exact hx ▸ kw

example : Closed 1 3 (MSynth.withMultiEq (UInt32.addmany [word0, word0]) : Synth F _) :=
  (C43_words (by decide) kw kw kw kws 7).2.2.2.1
example : Closed 1 3 (AllocatedBit.allocConditionally none ⟨.aux 0, none⟩ : Synth F _) :=
  (C43_alloc (K := F) (by decide) none none none none (.error .assignmentMissing) _ k0).2.1
example : Closed 1 3 (Boolean.sha256Maj (.is ⟨.aux 0, none⟩) (.not ⟨.aux 2, none⟩) (.constant true) : Synth F _) :=
  (C43_booleans (by decide) kb kn kc).2.2.2.2
example : Closed 1 3 (AllocatedNum.conditionallyReverse (⟨none, .aux 1⟩ : AllocatedNum F) ⟨none, .aux 1⟩ (.not ⟨.aux 2, none⟩)) :=
  (C43_num (by decide) kx kx kn).2.2.2.2.2
example (coords : List (F × F)) : Closed 1 3 (lookup3xy [.is ⟨.aux 0, none⟩, .not ⟨.aux 2, none⟩, .constant true] coords) :=
  (C43_lookup (by decide) kl coords).1
example : Closed 1 3 (Sha256.sha256 [.is ⟨.aux 0, none⟩, .not ⟨.aux 2, none⟩, .constant true] : Synth F _) :=
  (C43_hashes (by decide) kl []).1
example : ∃ t r, Exec (AllocatedNum.inputize (⟨none, .aux 1⟩ : AllocatedNum F)).run t r ∧ Scoped 1 3 t := by
  obtain ⟨t, r, he, hn⟩ := (AllocatedNum.inputize (⟨none, .aux 1⟩ : AllocatedNum F)).run.exists_blind 1 3
  exact ⟨t, r, he.exec, (C43_inputize kx he.exec hn).1⟩
example : ∃ t r, Exec (packIntoInputs [Boolean.is ⟨.aux 0, none⟩, .not ⟨.aux 2, none⟩, .constant true] : Synth F _).run t r ∧
    Scoped 1 3 t := by
  obtain ⟨t, r, he, hn⟩ :=
    (packIntoInputs [Boolean.is ⟨.aux 0, none⟩, .not ⟨.aux 2, none⟩, .constant true] : Synth F _).run.exists_blind 1 3
  exact ⟨t, r, he.exec, (C43_pack kl he.exec hn).1⟩
example : Closed 1 3 (do let b ← AllocatedBit.alloc none; AllocatedBit.and b ⟨.aux 0, none⟩ : Synth F _) :=
  C43_seq (C43_alloc (K := F) (by decide) none none none none (.error .assignmentMissing) _ k0).1
    fun _ _ h hb => (C43_bits (by decide) hb (Handle.mono le_rfl h k0)).2.1

/-- A circuit that panics of itself: key generation and the prover panic, as the theorems allow. -/
private def bad : Synth DummyFr Unit := do
  let _ ← badLookup

private theorem bad_scoped : ∀ t r, Exec bad.run t r → Numbered 1 0 t → Scoped 1 0 t := fun t r he hn =>
  ((C43_seq (C43_lookup one_pos (bits := [.constant true, .constant true, .constant true]) (by
    intro x hx
    simp only [List.mem_cons, List.not_mem_nil, or_false] at hx
    rcases hx with rfl | rfl | rfl <;> trivial) []).1 fun n k _ _ => (SLocal.pure (a := ()) trivial).closed) t r he hn).1

example : ∃ t, Blind bad.run t none ∧ Numbered 1 0 t := C43_keygen bad_scoped rfl
example : ∃ t, Honest bad.run t none ∧ Numbered 1 0 t := C43_prover bad_scoped rfl

end Bellman.Cases
