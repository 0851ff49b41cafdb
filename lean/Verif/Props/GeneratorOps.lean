import Verif.Groth16.GeneratorOps
import Verif.Props.DomainOps
import Verif.Props.UnitTests

/-!
# C80: how many operations making parameters takes
-/

namespace Bellman

open PrimeField EvaluationDomain

set_option linter.unusedSectionVars false

namespace GenOps

instance : AddCommMonoid GenOps where
  add_assoc a b c := by ext : 1 <;> exact add_assoc _ _ _
  zero_add a := by ext : 1 <;> exact zero_add _
  add_zero a := by ext : 1 <;> exact add_zero _
  add_comm a b := by ext : 1 <;> exact add_comm _ _
  nsmul := nsmulRec

@[simp] theorem add_field (a b : GenOps) : (a + b).field = a.field + b.field := rfl
@[simp] theorem add_tableG1 (a b : GenOps) : (a + b).tableG1 = a.tableG1 + b.tableG1 := rfl
@[simp] theorem add_tableG2 (a b : GenOps) : (a + b).tableG2 = a.tableG2 + b.tableG2 := rfl
@[simp] theorem add_announcedG1 (a b : GenOps) : (a + b).announcedG1 = a.announcedG1 + b.announcedG1 := rfl
@[simp] theorem add_announcedG2 (a b : GenOps) : (a + b).announcedG2 = a.announcedG2 + b.announcedG2 := rfl
@[simp] theorem add_mulsG1 (a b : GenOps) : (a + b).mulsG1 = a.mulsG1 + b.mulsG1 := rfl
@[simp] theorem add_mulsG2 (a b : GenOps) : (a + b).mulsG2 = a.mulsG2 + b.mulsG2 := rfl
@[simp] theorem zero_field : (0 : GenOps).field = 0 := rfl
@[simp] theorem zero_tableG1 : (0 : GenOps).tableG1 = 0 := rfl
@[simp] theorem zero_tableG2 : (0 : GenOps).tableG2 = 0 := rfl
@[simp] theorem zero_announcedG1 : (0 : GenOps).announcedG1 = 0 := rfl
@[simp] theorem zero_announcedG2 : (0 : GenOps).announcedG2 = 0 := rfl
@[simp] theorem zero_mulsG1 : (0 : GenOps).mulsG1 = 0 := rfl
@[simp] theorem zero_mulsG2 : (0 : GenOps).mulsG2 = 0 := rfl

theorem smul_eq (k : ℕ) (a : GenOps) : k • a = ⟨k • a.field, k * a.tableG1, k * a.tableG2, k * a.announcedG1, k * a.announcedG2, k * a.mulsG1,
    k * a.mulsG2⟩ := by
  induction k with
  | zero => rw [zero_smul]; ext : 1 <;> simp
  | succ k ih => rw [succ_nsmul, ih]; ext : 1 <;> simp [succ_nsmul, Nat.succ_mul]

theorem total_eq (l : List GenOps) : total l = l.sum := by
  induction l with
  | nil => rfl
  | cons a l ih => show a + total l = _; rw [ih, List.sum_cons]

end GenOps

/-- The counted computation has the result of the other and takes `c` operations if it succeeds. -/
def GCosts {α : Type} (x : GenC α) (y : Option α) (c : GenOps) : Prop := ∀ o, x.run o = y.map fun r => (r, o + c)

namespace GCosts

variable {α β σ : Type}

theorem pure (a : α) : GCosts (Pure.pure a) (some a) 0 := fun o => by
  rw [add_zero]; rfl

theorem lift (y : Option α) : GCosts (y : GenC α) y 0 := fun o => by
  cases y with
  | none => rfl
  | some a => simp

theorem bind {x : GenC α} {y : Option α} {c : GenOps} {f : α → GenC β} {g : α → Option β} {d : GenOps} (h : GCosts x y c)
    (h' : ∀ a, y = some a → GCosts (f a) (g a) d) : GCosts (x >>= f) (y.bind g) (c + d) := fun o => by
  rw [StateT.run_bind, h o]
  cases y with
  | none => rfl
  | some a =>
    show (f a).run (o + c) = _
    rw [h' a rfl, add_assoc]
    rfl

theorem lift_bind {y : Option α} {f : α → GenC β} {g : α → Option β} {d : GenOps} (h' : ∀ a, y = some a → GCosts (f a) (g a) d) :
    GCosts ((y : GenC α) >>= f) (y.bind g) d := fun o => by
  have := (lift y).bind h' o
  rwa [zero_add] at this

theorem tick (c : GenOps) : GCosts (gtick c) (some ()) c := fun _ => rfl

theorem tick_bind {c : GenOps} {f : Unit → GenC β} {y : Option β} {d : GenOps} (h : GCosts (f ()) y d) :
    GCosts (gtick c >>= f) y (c + d) := (tick c).bind (g := fun _ => y) fun _ _ => h

theorem congr {x : GenC α} {y y' : Option α} {c c' : GenOps} (h : GCosts x y c) (hy : y = y') (hc : c = c') : GCosts x y' c' := hy ▸ hc ▸ h

theorem foldlM {l : List β} {f : σ → β → GenC σ} {g : σ → β → Option σ} {c : β → GenOps} (h : ∀ s, ∀ a ∈ l, GCosts (f s a) (g s a) (c a)) (s : σ) :
    GCosts (l.foldlM f s) (l.foldlM g s) (l.map c).sum := by
  induction l generalizing s with
  | nil => exact pure s
  | cons a l ih =>
    rw [List.foldlM_cons, List.foldlM_cons, List.map_cons, List.sum_cons]
    exact (h s a List.mem_cons_self).bind fun s' _ => ih (fun s a ha => h s a (List.mem_cons_of_mem _ ha)) s'

end GCosts

theorem countTaskG_run {σ : Type} (s : σ) (steps : List (σ → GenC σ)) :
    (countTaskG s steps).run = (steps.foldlM (fun s f => f s) s : GenC σ).run 0 := by
  unfold countTaskG Task.run
  generalize (0 : GenOps) = c
  induction steps generalizing s c with
  | nil => rfl
  | cons f fs ih =>
    rw [List.map_cons, List.foldlM_cons, List.foldlM_cons, StateT.run_bind]
    show ((f s).run c).bind _ = ((f s).run c).bind _
    congr 1
    funext r
    exact ih r.1 r.2

variable {F : Type} [PrimeField F]

theorem evalAtTauC_costs (pot : List F) (p : List (F × ℕ)) :
    GCosts (evalAtTauC pot p) (evalAtTau pot p) { field := { scalarMuls := p.length } } := by
  have := GCosts.foldlM (l := p) (σ := F) (c := fun _ => { field := { scalarMuls := 1 } })
    (f := fun acc x => do
      let n ← (pot[x.2]? : Option F)
      let n := n * x.1
      gtick { field := { scalarMuls := 1 } }
      pure (acc + n))
    (g := fun acc x => do
      let n ← pot[x.2]?
      pure (acc + n * x.1))
    (fun acc x _ => GCosts.congr (GCosts.lift_bind fun n _ => GCosts.tick_bind (GCosts.pure _)) rfl (add_zero _)) 0
  refine GCosts.congr this rfl ?_
  rw [List.map_const', List.sum_replicate, GenOps.smul_eq]
  ext <;> simp

section

variable {G1 G2 : Type} [AddCommGroup G1] [AddCommGroup G2] [Module F G1] [Module F G2]

theorem powersC_costs (w : Worker) (tau : F) (l : List F) :
    Costs (powersC w tau l) (w.forChunks l.length (powersTask tau) Prod.fst l) ⟨0, 0, l.length, w.pieces l.length, 0⟩ := by
  refine Costs.congr (forChunksC_costs w l _ (powersTask tau) Prod.fst { pows := 1 } { scalarMuls := 1 } fun k i v => loopTaskC_run _ _ _ _ v) rfl ?_
  ext <;> simp

/-- One multiplication of scalars and one through the window table. -/
def hStep : GenOps := { field := { scalarMuls := 1 }, tableG1 := 1 }

theorem hTaskC_run (g1 : G1) (coeff : F) (cs : List G1 × List F) :
    (hTaskC g1 coeff cs).run = (hTask g1 coeff cs).run.map fun r => (r, cs.1.length • hStep) := by
  unfold hTaskC
  rw [countTaskG_run]
  unfold hTask Task.run
  simp only
  rw [List.foldlM_append, List.foldlM_append, List.foldlM_map, List.foldlM_map]
  have h1 := GCosts.foldlM (l := List.range cs.1.length) (σ := List G1 × List G1) (c := fun _ => hStep)
    (f := fun (s : List G1 × List G1) j => do
        let _ ← (guard (cs.1.length ≤ cs.2.length) : Option Unit)
        let p ← (cs.2[j]? : Option F)
        let exp := p * coeff
        gtick { field := { scalarMuls := 1 } }
        gtick { tableG1 := 1 }
        pure (s.1, s.2 ++ [exp • g1]))
    (g := fun (s : List G1 × List G1) j => do
        guard (cs.1.length ≤ cs.2.length)
        let p ← cs.2[j]?
        pure (s.1, s.2 ++ [(p * coeff) • g1]))
    (fun s j _ => GCosts.congr (GCosts.lift_bind fun _ _ => GCosts.lift_bind fun p _ => GCosts.tick_bind (GCosts.tick_bind (GCosts.pure _))) rfl
      (by rw [add_zero]; rfl)) (cs.1, [])
  rw [List.map_const', List.length_range, List.sum_replicate] at h1
  have := (h1.bind (f := fun s => [fun (s : List G1 × List G1) => (pure (s.2, s.2) : GenC (List G1 × List G1))].foldlM (fun s f => f s) s)
    (g := fun s => [fun (s : List G1 × List G1) => (pure (s.2, s.2) : Option (List G1 × List G1))].foldlM (fun s f => f s) s) (d := 0)
    fun s _ => by
      simp only [List.foldlM_cons, List.foldlM_nil]
      exact GCosts.congr (GCosts.bind (GCosts.pure _) fun t _ => GCosts.pure _) rfl (add_zero _)) 0
  rw [add_zero, zero_add] at this
  exact this

theorem hQueryC_costs (w : Worker) (g1 : G1) (coeff : F) (h : List G1) (powers : List F) (hl : h.length ≤ powers.length) :
    GCosts (hQueryC w g1 coeff h powers) (hQuery w g1 coeff h powers) (h.length • hStep) := by
  unfold hQueryC hQuery
  refine GCosts.lift_bind fun ch hch => GCosts.lift_bind fun cp hcp => ?_
  have hs : 0 < w.chunkSize h.length := by
    by_contra h0
    rw [chunks?, if_pos (by omega)] at hch
    cases hch
  rw [chunks?, if_neg (by omega)] at hch hcp
  cases hch
  cases hcp
  set n := w.chunkSize h.length
  set ch := chunksAux n h.length h with hch
  set cp := chunksAux n powers.length powers with hcp
  have hfst : (ch.zip cp).map Prod.fst = ch := List.map_fst_zip (by
    rw [hch, hcp, chunksAux_count n hs _ _ le_rfl, chunksAux_count n hs _ _ le_rfl]
    exact Nat.div_le_div_right (by omega))
  have hsum : ((ch.zip cp).map fun x => x.1.length • hStep).sum = h.length • hStep := by
    have e : (ch.zip cp).map (fun x => x.1.length • hStep) = ((ch.zip cp).map Prod.fst).map fun v => v.length • hStep := by
      rw [List.map_map]; rfl
    rw [e, hfst]
    have key : ∀ cs : List (List G1), (cs.map fun v => v.length • hStep).sum = cs.flatten.length • hStep := by
      intro cs
      induction cs with
      | nil => simp
      | cons v cs ih => rw [List.map_cons, List.sum_cons, ih, List.flatten_cons, List.length_append, add_smul]
    rw [key, hch, chunksAux_flatten n hs _ _ le_rfl]
  rcases runTasks_costs w (ch.zip cp) (fun _ x => hTaskC g1 coeff x) (fun _ x => hTask g1 coeff x)
    (fun _ x => x.1.length • hStep) (fun _ x _ => hTaskC_run g1 coeff x) with ⟨h1, h2⟩ | ⟨rs, h1, h2, h3⟩
  · rw [mapIdx_eq_map] at h1 h2
    intro o
    rw [h1, h2]
    rfl
  · rw [mapIdx_eq_map] at h1 h2 h3
    rw [h1, h2]
    refine GCosts.congr (GCosts.lift_bind (y := some rs)
      (g := fun rs => some (rs.map (fun r => r.1.1) ++ ch.drop (rs.map fun r => r.1.1).length).flatten) fun rs' hrs => ?_) ?_ rfl
    · cases hrs
      refine GCosts.congr (GCosts.tick_bind (GCosts.pure _)) rfl ?_
      rw [GenOps.total_eq, h3, hsum, add_zero]
    · simp [List.map_map, Function.comp_def]

/-- The operations of `eval` for one variable. -/
def bodyCost (pot : List F) (x : List (F × ℕ) × List (F × ℕ) × List (F × ℕ)) : GenOps :=
  { field := { scalarMuls := x.1.length + x.2.1.length + x.2.2.length + 3 }
    tableG1 := (if (evalAtTau pot x.1).getD 0 ≠ 0 then 1 else 0) + (if (evalAtTau pot x.2.1).getD 0 ≠ 0 then 1 else 0) + 1
    tableG2 := if (evalAtTau pot x.2.1).getD 0 ≠ 0 then 1 else 0 }

theorem evalBodyC_costs (e : EvalIn F G1 G2) (at_ bt ct : List (F × ℕ)) (j : ℕ) (o : EvalOut G1 G2) :
    GCosts (evalBodyC e at_ bt ct j o) (evalBody e at_ bt ct j o) (bodyCost e.powersOfTau (at_, bt, ct)) := by
  unfold evalBodyC evalBody
  let D : GenOps :=
    { field := { scalarMuls := 3 }
      tableG1 := (if (evalAtTau e.powersOfTau at_).getD 0 ≠ 0 then 1 else 0) + (if (evalAtTau e.powersOfTau bt).getD 0 ≠ 0 then 1 else 0) + 1
      tableG2 := if (evalAtTau e.powersOfTau bt).getD 0 ≠ 0 then 1 else 0 }
  refine GCosts.congr (GCosts.bind (d := { field := { scalarMuls := bt.length } } + ({ field := { scalarMuls := ct.length } } + D))
    (evalAtTauC_costs e.powersOfTau at_) fun a ha => GCosts.bind (d := { field := { scalarMuls := ct.length } } + D)
    (evalAtTauC_costs e.powersOfTau bt) fun b hb => GCosts.bind (d := D) (evalAtTauC_costs e.powersOfTau ct) fun c _ => ?_) rfl ?_
  · simp only [D, ha, hb, Option.getD_some]
    intro o
    by_cases ca : a = 0 <;> by_cases cb : b = 0
    all_goals
      simp only [ca, cb, ne_eq, not_true_eq_false, not_false_eq_true, if_true, if_false]
      refine congrArg some (Prod.ext rfl ?_)
      ext <;> rfl
  · ext <;> (simp [bodyCost, D]; try ring)

theorem evalTaskC_run (e : EvalIn F G1 G2) (c : EvalChunk F G1 G2) :
    (evalTaskC e c).run = (evalTask e c).run.map fun r => (r, ((c.at_.zip (c.bt.zip c.ct)).map (bodyCost e.powersOfTau)).sum) := by
  unfold evalTaskC
  rw [countTaskG_run]
  unfold evalTask Task.run
  simp only
  rw [List.mapIdx_eq_zipIdx_map, List.mapIdx_eq_zipIdx_map, List.foldlM_map, List.foldlM_map]
  have := GCosts.foldlM (l := (c.at_.zip (c.bt.zip c.ct)).zipIdx) (σ := EvalOut G1 G2) (c := fun x => bodyCost e.powersOfTau x.1)
    (f := fun o x => evalBodyC e x.1.1 x.1.2.1 x.1.2.2 x.2 o) (g := fun o x => evalBody e x.1.1 x.1.2.1 x.1.2.2 x.2 o)
    (fun o x _ => evalBodyC_costs e x.1.1 x.1.2.1 x.1.2.2 x.2 o)
    ⟨List.replicate c.out.a.length 0, List.replicate c.out.bG1.length 0, List.replicate c.out.bG2.length 0, List.replicate c.out.ext.length 0⟩ 0
  rw [zero_add] at this
  refine this.trans ?_
  have e2 : ((c.at_.zip (c.bt.zip c.ct)).zipIdx.map fun x => bodyCost e.powersOfTau x.1) = (c.at_.zip (c.bt.zip c.ct)).map (bodyCost e.powersOfTau) := by
    conv_rhs => rw [← List.zipIdx_map_fst 0 (c.at_.zip (c.bt.zip c.ct)), List.map_map]
    rfl
  rw [e2]

/-- The operations of `eval` for all variables. -/
def qapCost (pot : List F) (at_ bt ct : List (List (F × ℕ))) : GenOps := ((at_.zip (bt.zip ct)).map (bodyCost pot)).sum

theorem sum_flatten {α : Type} (f : α → GenOps) (cs : List (List α)) : (cs.map fun v => (v.map f).sum).sum = (cs.flatten.map f).sum := by
  induction cs with
  | nil => rfl
  | cons v cs ih => rw [List.map_cons, List.sum_cons, ih, List.flatten_cons, List.map_append, List.sum_append]

theorem guard_some {P : Prop} [Decidable P] {u : Unit} (h : (guard P : Option Unit) = some u) : P := by
  by_contra hn
  rw [guard, if_neg hn] at h
  cases h

theorem evalQapC_costs (w : Worker) (e : EvalIn F G1 G2) (at_ bt ct : List (List (F × ℕ))) (out : EvalOut G1 G2) :
    GCosts (evalQapC w e at_ bt ct out) (evalQap w e at_ bt ct out) (qapCost e.powersOfTau at_ bt ct) := by
  unfold evalQapC evalQap
  refine GCosts.lift_bind fun _ g1 => GCosts.lift_bind fun _ g2 => GCosts.lift_bind fun _ g3 => GCosts.lift_bind fun _ g4 =>
    GCosts.lift_bind fun _ g5 => GCosts.lift_bind fun _ g6 => GCosts.lift_bind fun ca h1 => GCosts.lift_bind fun cb1 h2 =>
    GCosts.lift_bind fun cb2 h3 => GCosts.lift_bind fun ce h4 => GCosts.lift_bind fun cat h5 => GCosts.lift_bind fun cbt h6 =>
    GCosts.lift_bind fun cct h7 => ?_
  have g1 := guard_some g1
  have g2 := guard_some g2
  have g3 := guard_some g3
  have g4 := guard_some g4
  have g5 := guard_some g5
  have g6 := guard_some g6
  have hs : 0 < w.chunkSize out.a.length := by
    by_contra h0
    rw [chunks?, if_pos (by omega)] at h1
    cases h1
  rw [chunks?_pos hs] at h1 h2 h3 h4 h5 h6 h7
  cases h1; cases h2; cases h3; cases h4; cases h5; cases h6; cases h7
  set n := w.chunkSize out.a.length with hn
  have cnt : ∀ {X : Type} (l : List X), l.length = out.a.length → (chunksAux n l.length l).length = (out.a.length + (n - 1)) / n := by
    intro X l hl
    rw [chunksAux_count n hs _ _ le_rfl, hl]
  have c1 := cnt out.a rfl
  have c2 := cnt out.bG1 g4.symm
  have c3 := cnt out.bG2 g5.symm
  have c4 := cnt out.ext g6.symm
  have c5 := cnt at_ g1.symm
  have c6 := cnt bt g2.symm
  have c7 := cnt ct g3.symm
  set ca := chunksAux n out.a.length out.a
  set cb1 := chunksAux n out.bG1.length out.bG1
  set cb2 := chunksAux n out.bG2.length out.bG2
  set ce := chunksAux n out.ext.length out.ext
  set cat := chunksAux n at_.length at_ with hcat
  set cbt := chunksAux n bt.length bt with hcbt
  set cct := chunksAux n ct.length ct with hcct
  set Z := ca.zip (cb1.zip (cb2.zip (ce.zip (cat.zip (cbt.zip cct))))) with hZ
  have hsum : (Z.map fun x => ((x.2.2.2.2.1.zip (x.2.2.2.2.2.1.zip x.2.2.2.2.2.2)).map (bodyCost e.powersOfTau)).sum).sum =
      qapCost e.powersOfTau at_ bt ct := by
    have e1 : Z.map Prod.snd = _ := List.map_snd_zip (by simp only [List.length_zip]; omega)
    have e2 : (cb1.zip (cb2.zip (ce.zip (cat.zip (cbt.zip cct))))).map Prod.snd = _ := List.map_snd_zip (by simp only [List.length_zip]; omega)
    have e3 : (cb2.zip (ce.zip (cat.zip (cbt.zip cct)))).map Prod.snd = _ := List.map_snd_zip (by simp only [List.length_zip]; omega)
    have e4 : (ce.zip (cat.zip (cbt.zip cct))).map Prod.snd = _ := List.map_snd_zip (by simp only [List.length_zip]; omega)
    have e5 : Z.map (fun x => x.2.2.2.2) = cat.zip (cbt.zip cct) := by
      rw [← e4, ← e3, ← e2, ← e1]
      simp only [List.map_map]
      rfl
    have e6 : Z.map (fun x => ((x.2.2.2.2.1.zip (x.2.2.2.2.2.1.zip x.2.2.2.2.2.2)).map (bodyCost e.powersOfTau)).sum) =
        (cat.zip (cbt.zip cct)).map fun y => ((y.1.zip (y.2.1.zip y.2.2)).map (bodyCost e.powersOfTau)).sum := by
      rw [← e5, List.map_map]; rfl
    have lb : bt.length = at_.length := by omega
    have lc : ct.length = at_.length := by omega
    rw [e6, hcat, hcbt, hcct, lb, lc, chunksAux_zip n at_.length bt ct (by omega), List.zip_map_right,
      chunksAux_zip n at_.length at_ (bt.zip ct) (by simp [lb, lc]), List.map_map, List.map_map, qapCost]
    have hfl := chunksAux_flatten n hs at_.length (at_.zip (bt.zip ct)) (by simp)
    rw [← hfl, ← sum_flatten, hfl]
    congr 1
    refine List.map_congr_left fun v _ => ?_
    have hv : (v.map Prod.fst).zip ((v.map (Prod.snd)).map Prod.fst |>.zip ((v.map Prod.snd).map Prod.snd)) = v := by
      simp only [List.map_map, zip_map_prod, Function.comp_def, List.map_id']
    simp only [Function.comp_def, Prod.map, id]
    rw [hv]
  dsimp only
  rcases runTasks_costs w Z
    (fun _ x => evalTaskC e ⟨⟨x.1, x.2.1, x.2.2.1, x.2.2.2.1⟩, x.2.2.2.2.1, x.2.2.2.2.2.1, x.2.2.2.2.2.2⟩)
    (fun _ x => evalTask e ⟨⟨x.1, x.2.1, x.2.2.1, x.2.2.2.1⟩, x.2.2.2.2.1, x.2.2.2.2.2.1, x.2.2.2.2.2.2⟩)
    (fun _ x => ((x.2.2.2.2.1.zip (x.2.2.2.2.2.1.zip x.2.2.2.2.2.2)).map (bodyCost e.powersOfTau)).sum) (fun _ x _ => evalTaskC_run e _) with
    ⟨h1, h2⟩ | ⟨rs, h1, h2, h3⟩
  · rw [mapIdx_eq_map] at h1 h2
    intro o
    rw [h1, h2]
    rfl
  · rw [mapIdx_eq_map] at h1 h2 h3
    rw [h1, h2]
    refine GCosts.congr (GCosts.lift_bind (y := some rs)
      (g := fun rs => some ⟨((rs.map Prod.fst).map EvalOut.a).flatten, ((rs.map Prod.fst).map EvalOut.bG1).flatten,
        ((rs.map Prod.fst).map EvalOut.bG2).flatten, ((rs.map Prod.fst).map EvalOut.ext).flatten⟩) fun rs' hrs => ?_) rfl rfl
    cases hrs
    refine GCosts.congr (GCosts.tick_bind (GCosts.pure _)) rfl ?_
    rw [GenOps.total_eq, h3, hsum, add_zero]

end

/-! ### Parts that can return errors -/

/-- The counted part ends as the other and takes `c` operations if it succeeds. -/
def RCosts {α : Type} (x : GenResC α) (y : Res α) (c : GenOps) : Prop := ∀ o, x.run o = y >>= fun a => Res.ok (a, o + c)

namespace RCosts

variable {α β : Type}

theorem pure (a : α) : RCosts (Pure.pure a) (Res.ok a) 0 := fun o => by
  rw [Res.ok_bind, add_zero]; rfl

theorem lift (y : Res α) : RCosts (StateT.lift y) y 0 := fun o => by
  simp only [add_zero]; rfl

theorem bind {x : GenResC α} {y : Res α} {c : GenOps} {f : α → GenResC β} {g : α → Res β} {d : GenOps} (h : RCosts x y c)
    (h' : ∀ a, y = Res.ok a → RCosts (f a) (g a) d) : RCosts (x >>= f) (y >>= g) (c + d) := fun o => by
  rw [StateT.run_bind, h o]
  rcases y with _ | (e | a)
  · rfl
  · rfl
  · show (f a).run (o + c) = g a >>= _
    rw [h' a rfl, add_assoc]

theorem lift_bind {y : Res α} {f : α → GenResC β} {g : α → Res β} {d : GenOps} (h' : ∀ a, y = Res.ok a → RCosts (f a) (g a) d) :
    RCosts (StateT.lift y >>= f) (y >>= g) d := fun o => by
  have := (lift y).bind h' o
  rwa [zero_add] at this

theorem tick_bind {c : GenOps} {f : Unit → GenResC β} {y : Res β} {d : GenOps} (h : RCosts (f ()) y d) :
    RCosts (rtick c >>= f) y (c + d) := fun o => by
  show (f ()).run (o + c) = _
  rw [h, add_assoc]

theorem got {x : GenResC α} {a : α} {c : GenOps} {f : α → GenResC β} {y : Res β} {d : GenOps} (h : RCosts x (Res.ok a) c) (h' : RCosts (f a) y d) :
    RCosts (x >>= f) y (c + d) := fun o => by
  rw [StateT.run_bind, h o, Res.ok_bind, Res.ok_bind, h', add_assoc]

theorem congr {x : GenResC α} {y : Res α} {c c' : GenOps} (h : RCosts x y c) (hc : c = c') : RCosts x y c' := hc ▸ h

theorem ofG {x : GenC α} {y : Option α} {c : GenOps} (h : GCosts x y c) : RCosts (GenC.inRes x) (Res.lift y) c := fun o => by
  show Res.lift (x.run o) = _
  rw [h o]
  cases y <;> rfl

theorem ofFft {x : FftC α} {y : Option α} {c : FftOps} (h : Costs x y c) : RCosts (FftC.inGen x) (Res.lift y) { field := c } := fun o => by
  unfold FftC.inGen
  rw [StateT.run_bind, h 0, zero_add]
  cases y <;> rfl

theorem fails {x : GenResC α} {y : Res α} {c c' : GenOps} (h : RCosts x y c) (hy : ∀ a, y ≠ Res.ok a) : RCosts x y c' := fun o => by
  rw [h o]
  rcases y with _ | (e | a)
  · rfl
  · rfl
  · exact absurd rfl (hy a)

end RCosts

theorem invertOrIdentityC_costs (x : F) : RCosts (invertOrIdentityC x) (invertOrIdentity x) { field := { inverts := 1 } } :=
  RCosts.congr (RCosts.tick_bind (RCosts.lift _)) (add_zero _)

/-! ### The numbers -/

open Polynomial

/-- The terms of all linear combinations of the constraints of a circuit. -/
def termCount (t : List (Ev F)) : ℕ := ((consOf t).map fun k => k.1.terms.length + k.2.1.terms.length + k.2.2.terms.length).sum

/-- The variables whose left polynomial does not vanish at `τ`. -/
noncomputable def leftCount (t : List (Ev F)) (τ : F) : ℕ := (Qap.ofTrace t).vars.countP fun x => ((Qap.ofTrace t).u x).eval τ ≠ 0

/-- The variables whose right polynomial does not vanish at `τ`. -/
noncomputable def rightCount (t : List (Ev F)) (τ : F) : ℕ := (Qap.ofTrace t).vars.countP fun x => ((Qap.ofTrace t).v x).eval τ ≠ 0

/-- The operations of `generate_parameters`. -/
noncomputable def genCost (w : Worker) (t : List (Ev F)) (τ : F) : GenOps :=
  let q := Qap.ofTrace t
  let e := Nat.clog 2 q.rows.length
  { field := transformCost w.logCpus e +
      ⟨q.m, 0, (S F - e) + 2 * q.m + termCount t + (numIn t + 1) + 3 * (numIn t + 1 + numAux t), w.pieces q.m + 1, 5⟩
    tableG1 := (q.m - 1) + (numIn t + 1 + numAux t) + leftCount t τ + rightCount t τ
    tableG2 := rightCount t τ
    announcedG1 := (q.m - 1) + 3 * (numIn t + 1 + numAux t)
    announcedG2 := numIn t + 1 + numAux t
    mulsG1 := 3
    mulsG2 := 3 }

theorem vars_nodup (q : Qap F) : q.vars.Nodup := by
  unfold Qap.vars
  rw [List.nodup_append]
  refine ⟨List.Nodup.map (fun _ _ h => by cases h; rfl) List.nodup_range, List.Nodup.map (fun _ _ h => by cases h; rfl) List.nodup_range, ?_⟩
  intro a ha b hb
  obtain ⟨i, -, rfl⟩ := List.mem_map.1 ha
  obtain ⟨j, -, rfl⟩ := List.mem_map.1 hb
  simp

theorem mem_vars (q : Qap F) (x : Var) (h : x.InRange q.n q.k) : x ∈ q.vars := by
  unfold Qap.vars
  cases x with
  | input i => exact List.mem_append_left _ (List.mem_map_of_mem (List.mem_range.2 h))
  | aux i => exact List.mem_append_right _ (List.mem_map_of_mem (List.mem_range.2 h))

theorem occurrences (xs : List Var) (hx : xs.Nodup) (j : ℕ) (ts : List (Var × F)) (h : ∀ y ∈ ts, y.1 ∈ xs) :
    (xs.map fun x => (ts.filterMap fun t => if t.1 = x then some (t.2, j) else none).length).sum = ts.length := by
  induction ts with
  | nil => simp
  | cons y ts ih =>
    have e : (xs.map fun x => ((y :: ts).filterMap fun t => if t.1 = x then some (t.2, j) else none).length) =
        xs.map fun x => (if x = y.1 then 1 else 0) + (ts.filterMap fun t => if t.1 = x then some (t.2, j) else none).length := by
      refine List.map_congr_left fun x _ => ?_
      by_cases hxy : y.1 = x
      · simp [hxy, add_comm]
      · simp [hxy, Ne.symm hxy]
    rw [e, List.sum_map_add, ih fun z hz => h z (List.mem_cons_of_mem _ hz), List.length_cons, add_comm]
    congr 1
    have hc := List.count_eq_one_of_mem hx (h y List.mem_cons_self)
    refine Eq.trans ?_ hc
    clear e ih h hc hx
    induction xs with
    | nil => rfl
    | cons x xs ih =>
      rw [List.map_cons, List.sum_cons, ih, List.count_cons]
      by_cases hxy : x = y.1 <;> simp [hxy, add_comm]

theorem column_lengths (xs : List Var) (hx : xs.Nodup) (sel : Row F → LC F) (rows : List (Row F)) (h : ∀ r ∈ rows, ∀ y ∈ (sel r).terms, y.1 ∈ xs)
    (j : ℕ) : (xs.map fun x => (column sel x j rows).length).sum = (rows.map fun r => (sel r).terms.length).sum := by
  induction rows generalizing j with
  | nil => simp [column]
  | cons r rows ih =>
    simp only [column, List.length_append, List.sum_map_add, List.map_cons, List.sum_cons]
    rw [occurrences xs hx j _ (h r List.mem_cons_self), ih (fun r' hr => h r' (List.mem_cons_of_mem _ hr))]

theorem sum_bodyCost (pot : List F) (a b c : Var → List (F × ℕ)) (u v : Var → F) (xs : List Var) (hu : ∀ x, evalAtTau pot (a x) = some (u x))
    (hv : ∀ x, evalAtTau pot (b x) = some (v x)) :
    (xs.map fun x => bodyCost pot (a x, b x, c x)).sum =
      { field := { scalarMuls := (xs.map fun x => (a x).length).sum + (xs.map fun x => (b x).length).sum + (xs.map fun x => (c x).length).sum +
          3 * xs.length }
        tableG1 := (xs.countP fun x => u x ≠ 0) + (xs.countP fun x => v x ≠ 0) + xs.length
        tableG2 := xs.countP fun x => v x ≠ 0 } := by
  induction xs with
  | nil => rfl
  | cons x xs ih =>
    rw [List.map_cons, List.sum_cons, ih, bodyCost]
    simp only [hu, hv, Option.getD_some, List.map_cons, List.sum_cons, List.countP_cons, List.length_cons]
    by_cases h1 : u x = 0 <;> by_cases h2 : v x = 0 <;> simp only [h1, h2, ne_eq, not_true_eq_false, not_false_eq_true, if_true, if_false, decide_true,
      decide_false, Bool.false_eq_true] <;> ext <;> simp <;> ring

section

variable {G1 G2 : Type} [AddCommGroup G1] [AddCommGroup G2] [Module F G1] [Module F G2] [DecidableEq G1] [DecidableEq G2]

theorem fromCoeffsC_fails (l : List F) (h : fromCoeffs (F := F) l = some (.error .polynomialDegreeTooLarge)) (o : FftOps) :
    (fromCoeffsC l : FftC (Except SynthesisError (EvaluationDomain F F))).run o = some (.error .polynomialDegreeTooLarge, o) := by
  unfold fromCoeffs at h
  unfold fromCoeffsC
  cases hz : sizeLoop F l.length 1 0 with
  | error e =>
    rw [hz] at h
    cases h
    rfl
  | ok r =>
    rw [hz] at h
    simp only [Option.bind_eq_bind, Option.bind_eq_some_iff] at h
    obtain ⟨_, _, _, _, _, _, h⟩ := h
    cases h

set_option maxHeartbeats 1000000 in
theorem generateParametersC_costs (w : Worker) (circuit : Synth F Unit) (g1 : G1) (g2 : G2) (α β γ δ τ : F) (t : List (Ev F))
    (ht : KeyTrace circuit t) :
    RCosts (generateParametersC w circuit g1 g2 α β γ δ τ) (generateParameters w circuit g1 g2 α β γ δ τ) (genCost w t τ) := by
  obtain ⟨s, ha, hs⟩ := ht.assemble
  set q := Qap.ofTrace t with hqdef
  have hrows : q.rows = consOf t ++ inputRows (numIn t + 1) := rfl
  have hnc : s.numConstraints = q.rows.length := hs.constraints
  unfold generateParametersC generateParameters
  refine RCosts.lift_bind fun s' hs' => ?_
  cases ha.symm.trans hs'
  rcases fromCoeffs_cases (F := F) (List.replicate s.numConstraints (0 : F)) with ⟨d, e1, wd, hle, hmin, hco, hom⟩ | ⟨e1, hgt⟩
  swap
  · intro o
    rw [StateT.run_bind]
    unfold FftC.inGen
    rw [StateT.run_bind, fromCoeffsC_fails _ e1]
    have e1' : (fromCoeffs (List.replicate s.numConstraints (0 : F)) : Res (EvaluationDomain F F)) = Res.err .polynomialDegreeTooLarge := e1
    rw [e1']
    rfl
  rw [List.length_replicate, hnc] at hle hmin
  have e1' : (fromCoeffs (List.replicate s.numConstraints (0 : F)) : Res (EvaluationDomain F F)) = Res.ok d := e1
  rw [e1', Res.ok_bind]
  obtain ⟨hq, hω⟩ := ofRows_good (k := numAux t) wd hle hmin hom
  have hq : q.Good d.exp := hq
  have hω : q.ω = d.omega := hω
  have hm := hq.m
  have hclen := wd.len
  have hclog := clog_of_bounds hle hmin
  have hc1 := RCosts.ofFft (fromCoeffsC_costs (F := F) (List.replicate s.numConstraints (0 : F)) d.exp
    (fun d' hd' => by cases e1.symm.trans hd'; rfl) ⟨d, e1⟩)
  rw [e1] at hc1
  have hdlen : d.coeffs.length = 2 ^ d.exp := wd.len
  -- Lagrange coefficients
  set pw := (List.range (2 ^ d.exp)).map fun i => τ ^ i with hpw
  have hwd : ({ d with coeffs := pw } : EvaluationDomain F F).WF := wd.with_coeffs _ (by simp [hpw, hclen])
  set pot := (dftList d.omegainv pw).map fun x => d.minv • x with hpot
  have hplen : pot.length = 2 ^ d.exp := by simp [hpot, hpw, dftList_length]
  have hpg : ∀ j < 2 ^ d.exp, pot.getD j 0 = d.minv * valAt (2 ^ d.exp) (fun t => τ ^ t) (q.ω⁻¹ ^ j) := by
    intro j hj
    rw [hpot, getD_map_smul, dftList_getD _ _ _ (by simpa [hpw] using hj), hω, ← wd.omegainv_eq, smul_eq_mul]
    congr 1
    simp only [hpw, List.length_map, List.length_range]
    exact valAt_congr _ fun i hi => by simp [hi]
  have hev : ∀ (sel : Row F → LC F) (x : Var), evalAtTau pot (column sel x 0 q.rows) = some ((q.interp (q.entry sel x)).eval τ) := by
    intro sel x
    rw [evalAtTau_eq _ _ fun y hy => by
      have := column_lt sel x q.rows 0 y hy
      have := hq.len
      omega]
    rw [Qap.sumAt_eq hq d.minv τ wd.minv pot hpg sel x]
  obtain ⟨ai, aa⟩ := inputs_eq hs.at_
  obtain ⟨bi, ba⟩ := inputs_eq hs.bt_
  obtain ⟨ci, ca⟩ := inputs_eq hs.ct_
  rw [hs.wf.ai, hs.inputs] at ai
  rw [hs.wf.bi, hs.inputs] at bi
  rw [hs.wf.ci, hs.inputs] at ci
  rw [hs.wf.aa, hs.aux] at aa
  rw [hs.wf.ba, hs.aux] at ba
  rw [hs.wf.ca, hs.aux] at ca
  let A := fun x => column (·.1) x 0 q.rows
  let B := fun x => column (·.2.1) x 0 q.rows
  let C := fun x => column (·.2.2) x 0 q.rows
  have hI : qapCost pot s.atInputs s.btInputs s.ctInputs =
      (((List.range (numIn t + 1)).map Var.input).map fun x => bodyCost pot (A x, B x, C x)).sum := by
    rw [qapCost, ai, bi, ci]
    simp only [zip_map_prod, List.map_map]
    rfl
  have hA : qapCost pot s.atAux s.btAux s.ctAux = (((List.range (numAux t)).map Var.aux).map fun x => bodyCost pot (A x, B x, C x)).sum := by
    rw [qapCost, aa, ba, ca]
    simp only [zip_map_prod, List.map_map]
    rfl
  have hIA : qapCost pot s.atInputs s.btInputs s.ctInputs + qapCost pot s.atAux s.btAux s.ctAux =
      (q.vars.map fun x => bodyCost pot (A x, B x, C x)).sum := by
    rw [hI, hA, Qap.vars, List.map_append, List.sum_append]
    rfl
  have hvl : q.vars.length = numIn t + 1 + numAux t := by
    simp [Qap.vars]
    rfl
  have hscope : ∀ (sel : Row F → LC F), (∀ r ∈ q.rows, ∀ y ∈ (sel r).terms, y ∈ r.1.terms ++ r.2.1.terms ++ r.2.2.terms) →
      (q.vars.map fun x => (column sel x 0 q.rows).length).sum = (q.rows.map fun r => (sel r).terms.length).sum := fun sel hsel =>
    column_lengths q.vars (vars_nodup q) sel q.rows (fun r hr y hy => mem_vars q y.1 (ht.qapScope r hr y (hsel r hr y hy))) 0
  have hterms : (q.vars.map fun x => (A x).length).sum + (q.vars.map fun x => (B x).length).sum + (q.vars.map fun x => (C x).length).sum =
      termCount t + (numIn t + 1) := by
    rw [hscope (·.1) (by intro r _ y hy; simp [hy]), hscope (·.2.1) (by intro r _ y hy; simp [hy]), hscope (·.2.2) (by intro r _ y hy; simp [hy]),
      ← List.sum_map_add, ← List.sum_map_add, hrows, List.map_append, List.sum_append, termCount]
    congr 1
    rw [inputRows, List.map_map]
    show ((List.range (numIn t + 1)).map fun _ => 1).sum = _
    simp
  have hbody := sum_bodyCost pot A B C (fun x => (q.u x).eval τ) (fun x => (q.v x).eval τ) q.vars (hev (·.1)) (hev (·.2.1))
  rw [← hIA, hterms, hvl] at hbody
  -- the steps
  let K8 := qapCost pot s.atInputs s.btInputs s.ctInputs
  let K9 := qapCost pot s.atAux s.btAux s.ctAux
  let K10 : GenOps := { mulsG1 := 1 } + ({ mulsG1 := 1 } + ({ mulsG2 := 1 } + ({ mulsG2 := 1 } + ({ mulsG1 := 1 } + ({ mulsG2 := 1 } + 0)))))
  let K7 : GenOps := { field := transformCost w.logCpus d.exp + ⟨2 ^ d.exp, 0, 0, 0, 0⟩ }
  let K6 : GenOps := (2 ^ d.exp - 1) • hStep
  let K5 : GenOps := { field := ⟨0, 0, 2 ^ d.exp, w.pieces (2 ^ d.exp), 0⟩ } + ({ field := { pows := 1 } } +
      ({ field := { scalarMuls := 1 } } + (K6 + (K7 + (K8 + (K9 + K10))))))
  refine RCosts.congr (c := { field := ⟨0, 0, S F - d.exp, 0, 3⟩ } + (0 + ({ announcedG1 := (d.coeffs.length - 1) + s.numInputs + s.numAux + s.numInputs +
    s.numAux + s.numInputs + s.numAux } + ({ announcedG2 := s.numInputs + s.numAux } + ({ field := { inverts := 1 } } +
    ({ field := { inverts := 1 } } + K5)))))) ?_ ?_
  · refine RCosts.got hc1 ?_
    refine RCosts.got (RCosts.lift (Res.ok d)) ?_
    refine RCosts.tick_bind ?_
    refine RCosts.tick_bind ?_
    refine RCosts.bind (invertOrIdentityC_costs γ) fun gi _ => ?_
    refine RCosts.bind (invertOrIdentityC_costs δ) fun di _ => ?_
    have hp1 := RCosts.ofFft (powersC_costs (w.site 0) τ d.coeffs)
    have hpow : (w.site 0).forChunks d.coeffs.length (powersTask τ) Prod.fst d.coeffs = some pw := by
      rw [powers_eq _ _ _ wd.pos, mapIdx_pow_eq, hclen]
    rw [hdlen] at hp1
    rw [hdlen] at hpow
    rw [hdlen]
    refine RCosts.bind hp1 fun pw' hpw' => ?_
    rw [hpow] at hpw'
    cases hpw'
    refine RCosts.got (a := ({ d with coeffs := pw } : EvaluationDomain F F).z τ) (c := { field := { pows := 1 } }) ?_ ?_
    · exact RCosts.ofFft (y := some (({ d with coeffs := pw } : EvaluationDomain F F).z τ)) fun o => rfl
    refine RCosts.tick_bind ?_
    have hh := RCosts.ofG (hQueryC_costs (w.site 1) g1 (({ d with coeffs := pw } : EvaluationDomain F F).z τ * di) (List.replicate (2 ^ d.exp - 1) (0 : G1)) pw
      (by simp [hpw]))
    rw [List.length_replicate] at hh
    refine RCosts.bind hh fun h _ => ?_
    refine RCosts.bind (RCosts.ofFft (ifftC_costs (w.site 2) ({ d with coeffs := pw } : EvaluationDomain F F) hwd)) fun d' hd' => ?_
    have hf : (w.site 2).FftFits d.exp := by
      by_contra hn
      rw [ifft_none (w.site 2) { d with coeffs := pw } hn] at hd'
      cases hd'
    rw [ifft_eq (w.site 2) _ hwd hf] at hd'
    cases hd'
    refine RCosts.bind (RCosts.ofG (evalQapC_costs (w.site 3) _ _ _ _ _)) fun oI _ => ?_
    refine RCosts.bind (RCosts.ofG (evalQapC_costs (w.site 4) _ _ _ _ _)) fun oA _ => ?_
    by_cases hany : oA.ext.any (· = 0) = true
    · simp only [hany, if_true]
      exact RCosts.fails (RCosts.lift _) (by intro a h; cases h)
    · simp only [hany]
      intro o
      rfl
  · have e89 : K8 + (K9 + K10) = (K8 + K9) + K10 := (add_assoc _ _ _).symm
    have hm0 : 0 < 2 ^ d.exp := by positivity
    have hm2 : 2 ^ d.exp = 2 ^ d.exp - 1 + 1 := by omega
    simp only [K5]
    rw [e89, show K8 + K9 = _ from hbody]
    unfold genCost
    simp only [← hqdef, hclog, hm, hdlen, hs.inputs, hs.aux, K6, K7, K10, GenOps.smul_eq, hStep]
    ext
    · simp
    · simp
    · simp
      omega
    · simp
      omega
    · simp
      omega
    · simp [leftCount, rightCount, ← hqdef]
      omega
    · simp [rightCount, ← hqdef]
    · simp
      omega
    · simp
    · simp
    · simp

/-- C80: counting changes nothing, whatever the circuit and the outcome. -/
theorem C80_same (w : Worker) (circuit : Synth F Unit) (g1 : G1) (g2 : G2) (α β γ δ τ : F) (o : GenOps) :
    (Prod.fst <$> (generateParametersC w circuit g1 g2 α β γ δ τ).run o : Res (Parameters G1 G2)) =
      generateParameters w circuit g1 g2 α β γ δ τ := by
  rcases assemble_cases circuit with ⟨t, s, ht, -⟩ | ⟨e, -, h⟩ | ⟨-, h⟩
  · rw [generateParametersC_costs w circuit g1 g2 α β γ δ τ t ht o]
    rcases generateParameters w circuit g1 g2 α β γ δ τ with _ | (e | a) <;> rfl
  · unfold generateParametersC generateParameters
    rw [StateT.run_bind, StateT.run_lift, h]
    rfl
  · unfold generateParametersC generateParameters
    rw [StateT.run_bind, StateT.run_lift, h]
    rfl

/-- C80: what `generate_parameters` does when it succeeds, for a circuit with `n` inputs (the constant one among them), `k` auxiliary variables,
constraints with `termCount` terms, and a domain of size `m`.  One multiplication of scalars goes with every term and every extra constraint, three
with every variable; there is one transform.  Through the window table for `g1` go `m - 1` multiplications for `h`, one for every variable for `ic`
and `l`, and one for every variable whose left polynomial does not vanish at `τ`, and one for every variable whose right polynomial does not
vanish at `τ`; through the other table go the latter again.  There are three more multiplications in each group. -/
theorem C80_count (w : Worker) (circuit : Synth F Unit) (g1 : G1) (g2 : G2) (α β γ δ τ : F) (t : List (Ev F)) (ht : KeyTrace circuit t)
    (params : Parameters G1 G2) (hk : generateParameters w circuit g1 g2 α β γ δ τ = Res.ok params) :
    (generateParametersC w circuit g1 g2 α β γ δ τ).run {} = Res.ok (params, {
      field := transformCost w.logCpus (Nat.clog 2 (Qap.ofTrace t).rows.length) +
        ⟨(Qap.ofTrace t).m, 0, (S F - Nat.clog 2 (Qap.ofTrace t).rows.length) + 2 * (Qap.ofTrace t).m + termCount t + (numIn t + 1) +
          3 * (numIn t + 1 + numAux t), w.pieces (Qap.ofTrace t).m + 1, 5⟩
      tableG1 := ((Qap.ofTrace t).m - 1) + (numIn t + 1 + numAux t) + leftCount t τ + rightCount t τ
      tableG2 := rightCount t τ
      announcedG1 := ((Qap.ofTrace t).m - 1) + 3 * (numIn t + 1 + numAux t)
      announcedG2 := numIn t + 1 + numAux t
      mulsG1 := 3
      mulsG2 := 3 }) := by
  rw [generateParametersC_costs w circuit g1 g2 α β γ δ τ t ht {}, hk, Res.ok_bind]
  exact congrArg Res.ok (congrArg (Prod.mk params) (zero_add _))

theorem length_filter_smul {G : Type} [AddCommGroup G] [Module F G] [DecidableEq G] (g : G) (hg : g ≠ 0) (f : Var → F) (xs : List Var) :
    ((xs.map fun x => f x • g).filter (· ≠ 0)).length = xs.countP fun x => f x ≠ 0 := by
  rw [← List.countP_eq_length_filter, List.countP_map]
  refine List.countP_congr fun x _ => ?_
  simp [smul_eq_zero, hg]

/-- C80: with proper generators, `generate_parameters` multiplies through the window tables once for each element of the parameters, other than six
of the verifying key, and never for elements that it leaves out.  In neither group are these more multiplications than those announced when the tables are
made; they are as many exactly if no left or right polynomial, or in `G2` no right polynomial, vanishes at `τ`. -/
theorem C80_queries (w : Worker) (circuit : Synth F Unit) (g1 : G1) (g2 : G2) (α β γ δ τ : F) (hg1 : g1 ≠ 0) (hg2 : g2 ≠ 0) (t : List (Ev F))
    (ht : KeyTrace circuit t) (params : Parameters G1 G2) (hk : generateParameters w circuit g1 g2 α β γ δ τ = Res.ok params) : ∃ o : GenOps,
    (generateParametersC w circuit g1 g2 α β γ δ τ).run {} = Res.ok (params, o) ∧
    o.tableG1 = params.h.length + params.vk.ic.length + params.l.length + params.a.length + params.bG1.length ∧
    o.tableG2 = params.bG2.length ∧ o.mulsG1 = 3 ∧ o.mulsG2 = 3 ∧
    o.tableG1 ≤ o.announcedG1 ∧ o.tableG2 ≤ o.announcedG2 ∧
    (o.tableG1 = o.announcedG1 ↔
      ∀ x ∈ (Qap.ofTrace t).vars, ((Qap.ofTrace t).u x).eval τ ≠ 0 ∧ ((Qap.ofTrace t).v x).eval τ ≠ 0) ∧
    (o.tableG2 = o.announcedG2 ↔ ∀ x ∈ (Qap.ofTrace t).vars, ((Qap.ofTrace t).v x).eval τ ≠ 0) := by
  refine ⟨_, C80_count w circuit g1 g2 α β γ δ τ t ht params hk, ?_⟩
  obtain ⟨t0, ht0, -, hpar, -⟩ := C29_crs w circuit g1 g2 α β γ δ τ params hk
  cases ht.unique ht0
  have hvl : (Qap.ofTrace t).vars.length = numIn t + 1 + numAux t := by
    simp [Qap.vars]
    rfl
  have hn : (Qap.ofTrace t).n = numIn t + 1 := rfl
  have hk : (Qap.ofTrace t).k = numAux t := rfl
  have l1 : leftCount t τ ≤ numIn t + 1 + numAux t := hvl ▸ List.countP_le_length
  have r1 : rightCount t τ ≤ numIn t + 1 + numAux t := hvl ▸ List.countP_le_length
  have l2 : leftCount t τ = numIn t + 1 + numAux t ↔ ∀ x ∈ (Qap.ofTrace t).vars, ((Qap.ofTrace t).u x).eval τ ≠ 0 := by
    rw [← hvl, leftCount, List.countP_eq_length]
    simp
  have r2 : rightCount t τ = numIn t + 1 + numAux t ↔ ∀ x ∈ (Qap.ofTrace t).vars, ((Qap.ofTrace t).v x).eval τ ≠ 0 := by
    rw [← hvl, rightCount, List.countP_eq_length]
    simp
  have ha : params.a.length = leftCount t τ := by rw [hpar]; exact length_filter_smul g1 hg1 _ _
  have hb1 : params.bG1.length = rightCount t τ := by rw [hpar]; exact length_filter_smul g1 hg1 _ _
  have hb2 : params.bG2.length = rightCount t τ := by rw [hpar]; exact length_filter_smul g2 hg2 _ _
  have hh : params.h.length = (Qap.ofTrace t).m - 1 := by rw [hpar]; simp [Qap.crs]
  have hl : params.l.length = numAux t := by rw [hpar]; simp [Qap.crs, hk]
  have hic : params.vk.ic.length = numIn t + 1 := by rw [hpar]; simp [Qap.crs, hn]
  refine ⟨?_, hb2.symm, rfl, rfl, ?_, r1, ?_, r2⟩
  · rw [ha, hb1, hh, hl, hic]
    show _ + _ + _ + _ = _
    omega
  · show _ + _ + _ + _ ≤ _ + _
    omega
  · rw [forall₂_and, ← l2, ← r2]
    show _ + _ + _ + _ = _ + _ ↔ _
    omega

/-- C80: two runs for the same circuit and the same number of threads, with whatever generators and trapdoors, differ only in the number of
multiplications through the window tables; and not even in these if `τ` is the same.  So the time of key generation does not depend on `α`, `β`, `γ`
and `δ`, as far as it depends on the number of operations. -/
theorem C80_fixed (w w' : Worker) (hm : w.multicore = w'.multicore) (hth : w.threads = w'.threads) (circuit : Synth F Unit) (g1 g1' : G1) (g2 g2' : G2)
    (α β γ δ τ α' β' γ' δ' τ' : F) (params params' : Parameters G1 G2) (hk : generateParameters w circuit g1 g2 α β γ δ τ = Res.ok params)
    (hk' : generateParameters w' circuit g1' g2' α' β' γ' δ' τ' = Res.ok params') : ∃ o o' : GenOps,
    (generateParametersC w circuit g1 g2 α β γ δ τ).run {} = Res.ok (params, o) ∧
    (generateParametersC w' circuit g1' g2' α' β' γ' δ' τ').run {} = Res.ok (params', o') ∧
    o' = { o with tableG1 := o'.tableG1, tableG2 := o'.tableG2 } ∧ (τ = τ' → o = o') := by
  obtain ⟨t, ht, -⟩ := C29_crs w circuit g1 g2 α β γ δ τ params hk
  have hlog : w'.logCpus = w.logCpus := by unfold Worker.logCpus; rw [hm, hth]
  have hpc : ∀ n, w'.pieces n = w.pieces n := fun n => by unfold Worker.pieces Worker.chunkSize; rw [hm, hth]
  refine ⟨_, _, C80_count w circuit g1 g2 α β γ δ τ t ht params hk, C80_count w' circuit g1' g2' α' β' γ' δ' τ' t ht params' hk', ?_, ?_⟩
  · simp only [hlog, hpc]
  · rintro rfl
    simp only [hlog, hpc]

end

open UnitTests in
/-- C80, in the setup of the unit test `test_xordemo`: 17 multiplications through the table for `g1`, of 19 announced, and 2 of 4 through that for `g2`. -/
theorem C80_xor (w : Worker) : ∃ (params : Parameters DummyFr DummyFr) (o : GenOps),
    (generateParametersC w ((XorDemo.mk none none).synthesize (F := DummyFr)) (1 : DummyFr) (1 : DummyFr) 48577 22580 53332 5481 3673).run {} =
      Res.ok (params, o) ∧ o.tableG1 = 17 ∧ o.announcedG1 = 19 ∧ o.tableG2 = 2 ∧ o.announcedG2 = 4 := by
  obtain ⟨⟨u0, u1, u2, u3⟩, ⟨v0, v1, v2, v3⟩, -⟩ := xq_values
  refine ⟨_, _, C80_count w _ _ _ _ _ _ _ _ _ (xor_key (F := DummyFr)) _ (xq_generate w), ?_⟩
  have hv : (Qap.ofTrace (xorTrace (F := DummyFr) none none none)).vars = [.input 0, .input 1, .aux 0, .aux 1] := rfl
  have hl : leftCount (xorTrace (F := DummyFr) none none none) 3673 = 4 := by
    rw [leftCount, hv]
    change List.countP (fun x => decide ((xq.u x).eval 3673 ≠ 0)) _ = 4
    simp only [List.countP_cons, List.countP_nil, u0, u1, u2, u3]
    decide +kernel
  have hr : rightCount (xorTrace (F := DummyFr) none none none) 3673 = 2 := by
    rw [rightCount, hv]
    change List.countP (fun x => decide ((xq.v x).eval 3673 ≠ 0)) _ = 2
    simp only [List.countP_cons, List.countP_nil, v0, v1, v2, v3]
    decide +kernel
  have hm : (Qap.ofTrace (xorTrace (F := DummyFr) none none none)).m = 8 := xor_m
  have hn : numIn (xorTrace (F := DummyFr) none none none) = 1 := rfl
  have hk : numAux (xorTrace (F := DummyFr) none none none) = 2 := rfl
  refine ⟨?_, ?_, hr, rfl⟩
  · show _ + _ + _ + _ = _
    rw [hl, hr, hm, hn, hk]
  · show _ + _ = _
    rw [hm, hn, hk]

open UnitTests in
/-- The hypotheses of `C80_count`, `C80_queries` and `C80_fixed` in the setup of the unit test `test_xordemo`. -/
example (w w' : Worker) : ∃ params : Parameters DummyFr DummyFr, (1 : DummyFr) ≠ 0 ∧
    KeyTrace (F := DummyFr) (XorDemo.mk none none).synthesize (xorTrace none none none) ∧ termCount (xorTrace (F := DummyFr) none none none) = 12 ∧
    generateParameters w ((XorDemo.mk none none).synthesize (F := DummyFr)) (1 : DummyFr) (1 : DummyFr) 48577 22580 53332 5481 3673 = Res.ok params ∧
    generateParameters w' ((XorDemo.mk none none).synthesize (F := DummyFr)) (1 : DummyFr) (1 : DummyFr) 48577 22580 53332 5481 3673 = Res.ok params :=
  ⟨_, one_ne_zero, xor_key, rfl, xq_generate w, xq_generate w'⟩

end Bellman
