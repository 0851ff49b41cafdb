import Verif.Groth16.ProverOps
import Verif.Props.DomainOps
import Verif.Props.MultiexpOps
import Verif.Props.Blinding

/-!
# C79: how much work `create_proof` does, and what that betrays
-/

namespace Bellman

open PrimeField Finset UnitTests Polynomial EvaluationDomain

set_option linter.unusedSectionVars false

variable {F : Type} [PrimeField F]

/-! ### Counting changes nothing -/

/-- The same outcome, with values in a relation. -/
def RelRes {α β : Type} (R : α → β → Prop) : Res α → Res β → Prop
  | none, none => True
  | some (.error e), some (.error e') => e = e'
  | some (.ok a), some (.ok b) => R a b
  | _, _ => False

/-- The counted part ends as the other one. -/
def Follows {α β : Type} (R : α → β → Prop) (x : ProverC α) (y : Res β) : Prop := ∀ o, RelRes (fun a b => R a.1 b) (x.run o) y

section Follows

variable {α β γ δ : Type}

theorem Follows.lift {R : α → β → Prop} {x : Res α} {y : Res β} (h : RelRes R x y) : Follows R (StateT.lift x) y := by
  intro o
  rcases x with _ | (e | a) <;> rcases y with _ | (e' | b) <;> first | exact h.elim | exact h

theorem Follows.same (x : Res α) : Follows Eq (StateT.lift x) x :=
  Follows.lift (by rcases x with _ | (e | a) <;> trivial)

theorem Follows.bind {R : α → β → Prop} {Q : γ → δ → Prop} {x : ProverC α} {y : Res β} {f : α → ProverC γ} {g : β → Res δ}
    (h : Follows R x y) (hf : ∀ a b, y = Res.ok b → R a b → Follows Q (f a) (g b)) : Follows Q (x >>= f) (y >>= g) := by
  intro o
  have h := h o
  show RelRes _ (x.run o >>= fun p => (f p.1).run p.2) _
  generalize x.run o = z at h
  rcases z with _ | (e | ⟨a, o'⟩) <;> rcases y with _ | (e' | b)
  · trivial
  · exact h.elim
  · exact h.elim
  · exact h.elim
  · exact h
  · exact h.elim
  · exact h.elim
  · exact h.elim
  · exact hf a b rfl h o'

theorem Follows.pure {R : α → β → Prop} {a : α} {b : β} (h : R a b) : Follows R (Pure.pure a) (Pure.pure b) := fun _ => h

theorem Follows.tick {R : α → β → Prop} {u : ProverOps → ProverOps} {f : PUnit → ProverC α} {y : Res β} (h : Follows R (f ⟨⟩) y) :
    Follows R (modify u >>= f) y := fun o => h (u o)

theorem Follows.got {R : γ → β → Prop} {a : α} {f : α → ProverC γ} {y : Res β} (h : Follows R (f a) y) :
    Follows R (StateT.lift (Res.lift (some a)) >>= f) y := fun o => h o

variable {G1 G2 : Type} [AddCommGroup G1] [AddCommGroup G2] [Module F G1] [Module F G2]

theorem Follows.add1 {R : α → β → Prop} {a b : G1} {f : G1 → ProverC α} {y : Res β} (h : Follows R (f (a + b)) y) :
    Follows R (addG1C a b >>= f) y := fun o => h { o with addsG1 := o.addsG1 + 1 }
theorem Follows.add2 {R : α → β → Prop} {a b : G2} {f : G2 → ProverC α} {y : Res β} (h : Follows R (f (a + b)) y) :
    Follows R (addG2C a b >>= f) y := fun o => h { o with addsG2 := o.addsG2 + 1 }
theorem Follows.mul1 {R : α → β → Prop} {x : F} {a : G1} {f : G1 → ProverC α} {y : Res β} (h : Follows R (f (x • a)) y) :
    Follows R (mulG1C x a >>= f) y := fun o => h { o with mulsG1 := o.mulsG1 + 1 }
theorem Follows.mul2 {R : α → β → Prop} {x : F} {a : G2} {f : G2 → ProverC α} {y : Res β} (h : Follows R (f (x • a)) y) :
    Follows R (mulG2C x a >>= f) y := fun o => h { o with mulsG2 := o.mulsG2 + 1 }

/-- The counted result of a multiexponentiation and the uncounted one. -/
def SameSum {G : Type} (x : Except SynthesisError (G × MeOps)) (y : Except SynthesisError G) : Prop := x.map Prod.fst = y

theorem Follows.wait1 {x : Except SynthesisError (G1 × MeOps)} {y : Except SynthesisError G1} (h : SameSum x y) :
    Follows Eq (waitG1C x) (Res.ofExcept y) := by
  intro o
  cases h
  rcases x with e | ⟨g, m⟩ <;> exact rfl

theorem Follows.wait2 {x : Except SynthesisError (G2 × MeOps)} {y : Except SynthesisError G2} (h : SameSum x y) :
    Follows Eq (waitG2C x) (Res.ofExcept y) := by
  intro o
  cases h
  rcases x with e | ⟨g, m⟩ <;> exact rfl

theorem Follows.sum {G : Type} [AddCommGroup G] [Module F G] [DecidableEq G] (w : Worker) (src : BaseSource G) (q : QueryDensity) (exps : List Exponent) :
    Follows SameSum (StateT.lift (Res.lift (multiexpC F w src q exps))) (Res.lift (multiexp F w src q exps)) := by
  refine Follows.lift ?_
  rw [← C74_same (F := F)]
  rcases multiexpC F w src q exps with _ | x
  · trivial
  · exact (rfl : x.map Prod.fst = _)

end Follows

theorem hCoeffsC_fst (w : Worker) (a b c : List F) (hab : a.length = b.length) (hac : a.length = c.length) (o : FftOps) :
    ((hCoeffsC w a b c).run o).map Prod.fst = hCoeffs w a b c := by
  by_cases hs : a.length ≤ 2 ^ (S F - 1)
  · rw [C78_quotient w a b c hab hac hs]
    cases hCoeffs w a b c <;> rfl
  · rcases fromCoeffs_cases (F := F) a with ⟨d, hd, wd, hle, -⟩ | ⟨hd, -⟩
    · exfalso
      have := wd.exp_lt
      have : 2 ^ d.exp ≤ 2 ^ (S F - 1) := Nat.pow_le_pow_right (by norm_num) (by omega)
      omega
    · have h1 : (fromCoeffsC a : FftC (Except SynthesisError (EvaluationDomain F F))).run o = some (.error .polynomialDegreeTooLarge, o) := by
        unfold fromCoeffs at hd
        unfold fromCoeffsC
        cases hz : sizeLoop F a.length 1 0 with
        | error e =>
          rw [hz] at hd
          cases hd
          rfl
        | ok r =>
          rw [hz] at hd
          simp only [Option.bind_eq_bind, Option.bind_eq_some_iff] at hd
          obtain ⟨_, _, _, _, _, _, h⟩ := hd
          cases h
      unfold hCoeffsC hCoeffs
      rw [hd, StateT.run_bind, h1]
      rfl

section

variable {G1 G2 : Type} [AddCommGroup G1] [AddCommGroup G2] [Module F G1] [Module F G2] [DecidableEq G1] [DecidableEq G2]

/-- C79: counting changes nothing, whatever the outcome. -/
theorem C79_same (w : Worker) (pc : Synth F Unit) (params : Parameters G1 G2) (r s : F) (o : ProverOps) :
    (Prod.fst <$> (createProofC w pc params r s).run o : Res (Proof G1 G2)) = createProof w pc params r s := by
  have key : Follows Eq (createProofC w pc params r s) (createProof w pc params r s) := by
    unfold createProofC createProof
    refine (Follows.same _).bind fun p p' hp hpp => ?_
    cases hpp
    have hlen : p.a.length = p.b.length ∧ p.a.length = p.c.length := by
      rcases assign?_cases pc with ⟨t, _, -, -, p', hp', ha⟩ | ⟨e, _, he⟩ | ⟨_, he⟩
      · cases hp.symm.trans hp'
        rw [ha.a, ha.b, ha.c]
        simp
      · cases hp.symm.trans he
      · cases hp.symm.trans he
    simp only [Parameters.getVk, Parameters.getH, Parameters.getL, Parameters.getA, Parameters.getBG1, Parameters.getBG2]
    refine (Follows.same _).bind fun vk vk' _ hvk => ?_
    cases hvk
    have hq := hCoeffsC_fst (w.site 0) p.a p.b p.c hlen.1 hlen.2 {}
    rw [← hq]
    cases hz : (hCoeffsC (w.site 0) p.a p.b p.c).run {} with
    | none => exact fun o => trivial
    | some z =>
      obtain ⟨z, zo⟩ := z
      refine Follows.got (Follows.tick ?_)
      refine (Follows.same (Res.ofExcept z)).bind fun hc hc' _ hhc => ?_
      cases hhc
      refine (Follows.same _).bind fun hS hS' _ h => ?_
      cases h
      refine (Follows.sum _ _ _ _).bind fun h h' _ hh => ?_
      refine (Follows.same _).bind fun lS lS' _ e => ?_
      cases e
      refine (Follows.sum _ _ _ _).bind fun l l' _ hl => ?_
      refine (Follows.same _).bind fun aS aS' _ e => ?_
      cases e
      refine (Follows.sum _ _ _ _).bind fun a1 a1' _ ha1 => ?_
      refine (Follows.sum _ _ _ _).bind fun a2 a2' _ ha2 => ?_
      refine (Follows.same _).bind fun bS bS' _ e => ?_
      cases e
      refine (Follows.sum _ _ _ _).bind fun b1 b1' _ hb1 => ?_
      refine (Follows.sum _ _ _ _).bind fun b2 b2' _ hb2 => ?_
      refine (Follows.same _).bind fun cS cS' _ e => ?_
      cases e
      refine (Follows.sum _ _ _ _).bind fun c1 c1' _ hc1 => ?_
      refine (Follows.sum _ _ _ _).bind fun c2 c2' _ hc2 => ?_
      split
      · exact Follows.same _
      · refine Follows.mul1 (Follows.add1 (Follows.mul2 (Follows.add2 (Follows.mul1 (Follows.mul1 (Follows.add1 (Follows.mul1 (Follows.add1 ?_))))))))
        refine (Follows.wait1 ha1).bind fun x x' _ e => ?_
        cases e
        refine (Follows.wait1 ha2).bind fun y y' _ e => ?_
        cases e
        refine Follows.add1 (Follows.add1 (Follows.mul1 (Follows.add1 ?_)))
        refine (Follows.wait1 hb1).bind fun x x' _ e => ?_
        cases e
        refine (Follows.wait1 hb2).bind fun y y' _ e => ?_
        cases e
        refine Follows.add1 ?_
        refine (Follows.wait2 hc1).bind fun x x' _ e => ?_
        cases e
        refine (Follows.wait2 hc2).bind fun y y' _ e => ?_
        cases e
        refine Follows.add2 (Follows.add2 (Follows.mul1 (Follows.add1 ?_)))
        refine (Follows.wait1 hh).bind fun x x' _ e => ?_
        cases e
        refine Follows.add1 ?_
        refine (Follows.wait1 hl).bind fun x x' _ e => ?_
        cases e
        exact Follows.add1 (Follows.pure rfl)
  have := key o
  generalize (createProofC w pc params r s).run o = x at this
  generalize createProof w pc params r s = y at this
  rcases x with _ | (e | ⟨a, o'⟩) <;> rcases y with _ | (e' | b) <;>
    first | exact this.elim | rfl | (cases (this : e = e'); rfl) | (cases (this : a = b); rfl)

/-! ### The numbers -/

/-- Additions other than of bases, in a multiexponentiation of `n` exponents. -/
noncomputable def sumAdds (F : Type) [PrimeField F] (n : ℕ) : ℕ := windows F (windowSize n) * (2 * (2 ^ windowSize n - 1) + 1)

/-- Doublings in a multiexponentiation of `n` exponents. -/
noncomputable def sumDoubles (F : Type) [PrimeField F] (n : ℕ) : ℕ := windows F (windowSize n) * windowSize n

open Classical in
/-- The digits other than zero of the values of the inputs (and the constant one) with property `P`. -/
noncomputable def inputDigits (t : List (Ev F)) (P : Var → Prop) : ℕ :=
  ∑ i ∈ (range (numIn t + 1)).filter (fun i => P (.input i)), nonzeroDigits (windowSize (numIn t + 1)) (witness t (.input i))

open Classical in
/-- The digits other than zero of the values of the auxiliary variables with property `P`. -/
noncomputable def auxDigits (t : List (Ev F)) (P : Var → Prop) : ℕ :=
  ∑ i ∈ (range (numAux t)).filter (fun i => P (.aux i)), nonzeroDigits (windowSize (numAux t)) (witness t (.aux i))

/-- The digits other than zero of the coefficients of the quotient. -/
noncomputable def quotientDigits (t : List (Ev F)) : ℕ :=
  ∑ i ∈ range ((Qap.ofTrace t).m - 1), nonzeroDigits (windowSize ((Qap.ofTrace t).m - 1)) (((Qap.ofTrace t).proverH (witness t)).coeff i)

/-- The variable occurs, with a coefficient other than zero, in a left factor. -/
def InLeft (t : List (Ev F)) (x : Var) : Prop := ∃ k ∈ consOf t, Occurs k.1.terms x

/-- The variable occurs, with a coefficient other than zero, in a right factor. -/
def InRight (t : List (Ev F)) (x : Var) : Prop := ∃ k ∈ consOf t, Occurs k.2.1.terms x

theorem sum_map_getD (f : F → ℕ) (l : List F) : (l.map f).sum = ∑ i ∈ range l.length, f (l.getD i 0) := by
  induction l with
  | nil => rfl
  | cons x l ih => rw [List.map_cons, List.sum_cons, List.length_cons, sum_range_succ', ih, add_comm]; rfl

open Classical in
theorem queried_sum (d : DensityTracker) (f : F → ℕ) (l : List F) :
    ((queried (.tracker d) l).map f).sum = ∑ i ∈ (range l.length).filter d.Has, f (l.getD i 0) := by
  obtain ⟨bv⟩ := d
  rw [sum_filter]
  show (((l.zip bv).filterMap fun x => if x.2 then some x.1 else none).map f).sum = _
  induction l generalizing bv with
  | nil => rfl
  | cons x l ih =>
    cases bv with
    | nil =>
      simp [DensityTracker.Has]
    | cons b bv =>
      rw [List.length_cons, sum_range_succ']
      have h := ih bv
      have e : ∑ k ∈ range l.length, (if (⟨b :: bv⟩ : DensityTracker).Has (k + 1) then f ((x :: l).getD (k + 1) 0) else 0) =
          ∑ k ∈ range l.length, (if (⟨bv⟩ : DensityTracker).Has k then f (l.getD k 0) else 0) := rfl
      rw [e, ← h]
      cases b
      · simp [DensityTracker.Has]
      · simp [DensityTracker.Has, add_comm]

theorem createProofC_ok_of (w : Worker) (circuit : Synth F Unit) (params : Parameters G1 G2) (r s : F) (p : ProvingAssignment F) (hc : List F)
    (fo : FftOps) (h l a1 a2 b1 b2 : G1 × MeOps) (c1 c2 : G2 × MeOps) (hp : assign? circuit = Res.ok p)
    (e0 : (hCoeffsC (w.site 0) p.a p.b p.c).run {} = some (.ok hc, fo))
    (e1 : multiexpC F (w.site 1) ⟨params.h, 0⟩ .full (hc.map Exponent.ofField) = some (.ok h))
    (e2 : multiexpC F (w.site 2) ⟨params.l, 0⟩ .full (p.auxAssignment.map Exponent.ofField) = some (.ok l))
    (e3 : multiexpC F (w.site 3) ⟨params.a, 0⟩ .full (p.inputAssignment.map Exponent.ofField) = some (.ok a1))
    (e4 : multiexpC F (w.site 4) ⟨params.a, p.inputAssignment.length⟩ (.tracker p.aAuxDensity) (p.auxAssignment.map Exponent.ofField) = some (.ok a2))
    (e5 : multiexpC F (w.site 5) ⟨params.bG1, 0⟩ (.tracker p.bInputDensity) (p.inputAssignment.map Exponent.ofField) = some (.ok b1))
    (e6 : multiexpC F (w.site 6) ⟨params.bG1, p.bInputDensity.getTotalDensity⟩ (.tracker p.bAuxDensity)
      (p.auxAssignment.map Exponent.ofField) = some (.ok b2))
    (e7 : multiexpC F (w.site 7) ⟨params.bG2, 0⟩ (.tracker p.bInputDensity) (p.inputAssignment.map Exponent.ofField) = some (.ok c1))
    (e8 : multiexpC F (w.site 8) ⟨params.bG2, p.bInputDensity.getTotalDensity⟩ (.tracker p.bAuxDensity)
      (p.auxAssignment.map Exponent.ofField) = some (.ok c2))
    (hδ1 : params.vk.deltaG1 ≠ 0) (hδ2 : params.vk.deltaG2 ≠ 0) : ∃ pf,
    (createProofC w circuit params r s).run {} = Res.ok (pf,
      { field := fo, g1 := (((((a1.2.plus a2.2).plus b1.2).plus b2.2).plus h.2).plus l.2), g2 := c1.2.plus c2.2
        mulsG1 := 6, addsG1 := 10, mulsG2 := 1, addsG2 := 3 }) := by
  unfold createProofC
  simp only [StateT.run_bind, StateT.run_lift, hp, Res.ok_bind, Parameters.getVk, Parameters.getH, Parameters.getL, Parameters.getA, Parameters.getBG1,
    Parameters.getBG2, Res.ofExcept_ok, e0, e1, e2, e3, e4, e5, e6, e7, e8, Res.lift_some, List.length_map, hδ1, hδ2, or_self, if_false, Res.pure_eq,
    StateT.run_modify, addG1C, addG2C, mulG1C, mulG2C, waitG1C, waitG2C, StateT.run_pure]
  refine ⟨_, congrArg Res.ok (congrArg (Prod.mk _) ?_)⟩
  simp [MeOps.plus]
  exact zero_add fo

/-- C79: what `create_proof` does when it succeeds, for a circuit with `n` inputs (the constant one among them), `k` auxiliary variables, and
`m` the size of the domain: the operations of the quotient, and multiexponentiations of `m - 1` exponents, three times `k` and twice `n` in
`G1`, and of `n` and `k` exponents in `G2`.  They add one base for every digit other than zero of the coefficients of the quotient, of every variable
for `l`, of the variables in left factors for `a` (all inputs), and of the variables in right factors for `b`, in both groups.  Besides there are seven
multiplications by scalars and thirteen additions.  Except for those digits nothing depends on the witness. -/
theorem C79_count (w : Worker) (pc : Synth F Unit) (params : Parameters G1 G2) (r s : F) (t : List (Ev F)) (ht : ProverTrace pc t)
    (hs : (Qap.ofTrace t).InScope) (pf : Proof G1 G2) (hp : createProof w pc params r s = Res.ok pf) :
    (createProofC w pc params r s).run {} = Res.ok (pf, {
      field := 7 • transformCost w.logCpus (Nat.clog 2 (Qap.ofTrace t).rows.length) +
        ⟨10 * (Qap.ofTrace t).m, (Qap.ofTrace t).m, 4 * (Qap.ofTrace t).m + 3 * (S F - Nat.clog 2 (Qap.ofTrace t).rows.length),
          4 * w.pieces (Qap.ofTrace t).m + 1, 10⟩
      g1 := ⟨inputDigits t (fun _ => True) + auxDigits t (InLeft t) + inputDigits t (InRight t) + auxDigits t (InRight t) +
          quotientDigits t + auxDigits t (fun _ => True),
        2 * sumAdds F (numIn t + 1) + 3 * sumAdds F (numAux t) + sumAdds F ((Qap.ofTrace t).m - 1),
        2 * sumDoubles F (numIn t + 1) + 3 * sumDoubles F (numAux t) + sumDoubles F ((Qap.ofTrace t).m - 1)⟩
      g2 := ⟨inputDigits t (InRight t) + auxDigits t (InRight t), sumAdds F (numIn t + 1) + sumAdds F (numAux t),
        sumDoubles F (numIn t + 1) + sumDoubles F (numAux t)⟩
      mulsG1 := 6, addsG1 := 10, mulsG2 := 1, addsG2 := 3 }) := by
  classical
  obtain ⟨p, h, l, a1, a2, b1, b2, c1, c2, hass, hA, hδ1, hδ2⟩ := createProof_ok_inv hp
  obtain ⟨hc, e0, e1⟩ := hA.h
  have ha := ht.assigned hass
  have la : p.a.length = (Qap.ofTrace t).rows.length := by rw [ha.a, List.length_map]; rfl
  have lb : p.a.length = p.b.length := by rw [ha.a, ha.b, List.length_map, List.length_map]
  have lc : p.a.length = p.c.length := by rw [ha.a, ha.c, List.length_map, List.length_map]
  have lin : p.inputAssignment.length = numIn t + 1 := by rw [ha.inputs, List.length_cons, ha.nIn]
  have laux : p.auxAssignment.length = numAux t := by rw [ha.aux, ha.nAux]
  obtain ⟨hsm, hhc⟩ : (Qap.ofTrace t).rows.length ≤ 2 ^ (S F - 1) ∧
      hc = (List.range ((Qap.ofTrace t).m - 1)).map ((Qap.ofTrace t).proverH (witness t)).coeff := by
    rcases hCoeffs_assigned (w.site 0) ha hs with ⟨-, h⟩ | ⟨-, -, h⟩ | ⟨h1, -, h⟩
    · cases e0.symm.trans h
    · cases e0.symm.trans h
    · cases e0.symm.trans h
      exact ⟨h1, rfl⟩
  have hq := C78_quotient (w.site 0) p.a p.b p.c lb lc (by rw [la]; exact hsm) {}
  rw [e0, Option.map_some, la] at hq
  obtain ⟨pf', hC⟩ := createProofC_ok_of w pc params r s p hc _ _ _ _ _ _ _ _ _ hass hq (C74_count _ _ _ _ _ e1) (C74_count _ _ _ _ _ hA.l)
    (C74_count _ _ _ _ _ hA.a1) (C74_count _ _ _ _ _ hA.a2) (C74_count _ _ _ _ _ hA.b1) (C74_count _ _ _ _ _ hA.b2) (C74_count _ _ _ _ _ hA.c1)
    (C74_count _ _ _ _ _ hA.c2) hδ1 hδ2
  have hpf : pf' = pf := by
    have := C79_same w pc params r s {}
    rw [hC, hp] at this
    cases this
    rfl
  rw [hC, hpf]
  have din : ∀ (d : DensityTracker) (P : Var → Prop), (∀ i, d.Has i ↔ P (.input i)) →
      ((queried (.tracker d) p.inputAssignment).map (nonzeroDigits (windowSize p.inputAssignment.length))).sum = inputDigits t P := by
    intro d P hP
    rw [queried_sum, lin, inputDigits]
    refine sum_congr (filter_congr fun i _ => hP i) fun i _ => ?_
    rw [ha.inputs]
    rfl
  have daux : ∀ (d : DensityTracker) (P : Var → Prop), (∀ i, d.Has i ↔ P (.aux i)) →
      ((queried (.tracker d) p.auxAssignment).map (nonzeroDigits (windowSize p.auxAssignment.length))).sum = auxDigits t P := by
    intro d P hP
    rw [queried_sum, laux, auxDigits]
    refine sum_congr (filter_congr fun i _ => hP i) fun i _ => ?_
    rw [ha.aux]
    rfl
  have fin : ((queried .full p.inputAssignment).map (nonzeroDigits (windowSize p.inputAssignment.length))).sum = inputDigits t fun _ => True := by
    show (p.inputAssignment.map _).sum = _
    rw [sum_map_getD, lin, inputDigits]
    refine sum_congr (by simp) fun i _ => ?_
    rw [ha.inputs]
    rfl
  have faux : ((queried .full p.auxAssignment).map (nonzeroDigits (windowSize p.auxAssignment.length))).sum = auxDigits t fun _ => True := by
    show (p.auxAssignment.map _).sum = _
    rw [sum_map_getD, laux, auxDigits]
    refine sum_congr (by simp) fun i _ => ?_
    rw [ha.aux]
    rfl
  have lhc : hc.length = (Qap.ofTrace t).m - 1 := by rw [hhc]; simp
  have fh : ((queried .full hc).map (nonzeroDigits (windowSize hc.length))).sum = quotientDigits t := by
    show (hc.map _).sum = _
    rw [sum_map_getD, lhc, quotientDigits]
    refine sum_congr rfl fun i hi => ?_
    rw [hhc, List.getD_eq_getElem _ _ (by simpa using hi)]
    simp
  simp only [MeOps.plus]
  rw [fin, faux, fh, daux p.aAuxDensity (InLeft t) ha.aAux, din p.bInputDensity (InRight t) ha.bInput, daux p.bAuxDensity (InRight t) ha.bAux, lin,
    laux, lhc]
  refine congrArg Res.ok (congrArg (Prod.mk pf) ?_)
  have hm : (Qap.ofTrace t).m = 2 ^ Nat.clog 2 (Qap.ofTrace t).rows.length := rfl
  have z : (({} : FftOps) = 0) := rfl
  rw [z, zero_add, ← hm]
  congr 2
  · show _ = 2 * sumAdds F _ + _ + _
    unfold sumAdds
    ring
  · show _ = 2 * sumDoubles F _ + _ + _
    unfold sumDoubles
    ring

/-- C79: two proofs made with the same parameters and the same number of threads, of whatever statements, with whatever witnesses and blinding factors, take the same operations
except for additions of bases; and the additions of bases in `G2` differ exactly as the digits of the variables in right factors do. -/
theorem C79_fixed (w w' w'' : Worker) (hm : w'.multicore = w''.multicore) (hth : w'.threads = w''.threads) {R R' : Unit → Unit → Prop}
    {kc pc pc' : Synth F Unit} (h : SShape R kc pc) (h' : SShape R' kc pc') (g1 : G1) (g2 : G2) (α β γ δ τ r r' s s' : F)
    (params : Parameters G1 G2) (hk : generateParameters w kc g1 g2 α β γ δ τ = Res.ok params) (pf pf' : Proof G1 G2)
    (hp : createProof w' pc params r s = Res.ok pf) (hp' : createProof w'' pc' params r' s' = Res.ok pf') (t t' : List (Ev F)) (ht : ProverTrace pc t)
    (ht' : ProverTrace pc' t') : ∃ o o' : ProverOps, (createProofC w' pc params r s).run {} = Res.ok (pf, o) ∧
    (createProofC w'' pc' params r' s').run {} = Res.ok (pf', o') ∧
    o' = { o with g1 := { o.g1 with baseAdds := o'.g1.baseAdds }, g2 := { o.g2 with baseAdds := o'.g2.baseAdds } } ∧
    (o.g2.baseAdds = o'.g2.baseAdds ↔
      inputDigits t (InRight t) + auxDigits t (InRight t) = inputDigits t' (InRight t) + auxDigits t' (InRight t)) := by
  obtain ⟨t0, t1, ht0, ht1, hsame, hsc, -⟩ := prove_spec h hk hp
  cases ht.unique ht1
  obtain ⟨t0', t1', ht0', ht1', hsame', hsc', -⟩ := prove_spec h' hk hp'
  cases ht'.unique ht1'
  rw [← ht0.unique ht0'] at hsame'
  have hqq : Qap.ofTrace t' = Qap.ofTrace t := (ofTrace_same hsame').symm.trans (ofTrace_same hsame)
  have hcons : consOf t' = consOf t := by rw [← Ev.Same.consOf hsame', Ev.Same.consOf hsame]
  have hni : numIn t' = numIn t := by rw [← Ev.Same.numIn hsame', Ev.Same.numIn hsame]
  have hna : numAux t' = numAux t := by rw [← Ev.Same.numAux hsame', Ev.Same.numAux hsame]
  have hlog : w''.logCpus = w'.logCpus := by unfold Worker.logCpus; rw [hm, hth]
  have hpc : ∀ n, w''.pieces n = w'.pieces n := fun n => by unfold Worker.pieces Worker.chunkSize; rw [hm, hth]
  have hR : InRight t' = InRight t := by unfold InRight; rw [hcons]
  refine ⟨_, _, C79_count w' pc params r s t ht hsc pf hp, C79_count w'' pc' params r' s' t' ht' hsc' pf' hp', ?_, ?_⟩
  · simp only [hqq, hni, hna, hlog, hpc]
  · simp only [hR]

end

theorem nonzeroDigits_zero (c : ℕ) : nonzeroDigits c (0 : F) = 0 := by
  have : val (0 : F) = 0 := val_zero
  simp [nonzeroDigits, this]

theorem nonzeroDigits_one (c : ℕ) (hc : 0 < c) : nonzeroDigits c (1 : F) = 1 := by
  have : val (1 : F) = 1 := val_one
  have h2 : 1 < 2 ^ c := Nat.one_lt_two_pow (by omega)
  simp [nonzeroDigits, this, Nat.digits_of_lt (2 ^ c) 1 one_ne_zero h2]

open UnitTests in
/-- C79, in the setup of the unit test `test_xordemo`: the number of additions of bases in `G2` is the number of private bits that are set.
So the time that a proof of the statement `[0]` takes tells whether the bits are `0, 0` or `1, 1`, although the proof itself does not (C34). -/
theorem C79_xor (w : Worker) : ∃ params : Parameters DummyFr DummyFr,
    generateParameters w ((XorDemo.mk none none).synthesize (F := DummyFr)) (1 : DummyFr) (1 : DummyFr) 48577 22580 53332 5481 3673 = Res.ok params ∧
    ∀ (w' : Worker) (a b : Bool) (r s : DummyFr), ∃ pf o,
      (createProofC w' ((XorDemo.mk (some a) (some b)).synthesize (F := DummyFr)) params r s).run {} = Res.ok (pf, o) ∧
      verifyProof (fieldEngine DummyFr) (prepareVerifyingKey (fieldEngine DummyFr) params.vk) pf [bit (a ^^ b)] = some (.ok ()) ∧
      o.g2.baseAdds = a.toNat + b.toNat := by
  classical
  refine ⟨_, xq_generate w, fun w' a b r s => ?_⟩
  have hq : Qap.ofTrace (xorTrace (F := DummyFr) (some (bit a)) (some (bit b)) (some (bit (a ^^ b)))) = xq := rfl
  obtain ⟨pf, hp⟩ := (C31_outcome w' (xor_shape (F := DummyFr) none none (some a) (some b)) (1 : DummyFr) (1 : DummyFr) 48577 22580 53332 5481 3673
    r s _ _ xor_key (xor_prover a b) (show 1 + 1 < 2 ^ 32 by norm_num) (show 2 < 2 ^ 32 by norm_num)
    (by rw [hq, xor_m]; norm_num)).2
    ⟨by rw [hq]; exact xq_ready _ _, by rw [hq, xor_rows]; decide, by rw [hq, xor_rows, clog_five]; exact .inl (by norm_num)⟩
  obtain ⟨t0, t1, -, ht1, -, hsc, -⟩ := prove_spec (xor_shape none none (some a) (some b)) (xq_generate w) hp
  cases (xor_prover a b).unique ht1
  refine ⟨pf, _, C79_count w' _ _ r s _ (xor_prover a b) hsc pf hp, ?_, ?_⟩
  · exact C30_completeness (fieldEngine DummyFr) w w' (xor_shape none none (some a) (some b)) _ _ _ _ _ _ _ r s _ pf (xq_generate w) hp _
      (xor_prover a b) ((xor_sat rfl).2 ⟨a, b, rfl, rfl, rfl⟩)
  · have h0 : ∀ i, ¬ InRight (xorTrace (F := DummyFr) (some (bit a)) (some (bit b)) (some (bit (a ^^ b)))) (.input i) := by
      intro i; simp [InRight, xorTrace, consOf, Occurs]
    have h1 : ∀ i < 2, InRight (xorTrace (F := DummyFr) (some (bit a)) (some (bit b)) (some (bit (a ^^ b)))) (.aux i) := by
      intro i hi; simp [InRight, xorTrace, consOf, Occurs]; omega
    have hb : ∀ c : Bool, nonzeroDigits (windowSize 2) (bit c : DummyFr) = c.toNat := by
      intro c
      have hw : windowSize 2 = 3 := by simp [windowSize]
      rw [hw]
      cases c
      · exact nonzeroDigits_zero 3
      · exact nonzeroDigits_one 3 (by norm_num)
    have e0 : inputDigits (xorTrace (F := DummyFr) (some (bit a)) (some (bit b)) (some (bit (a ^^ b))))
        (InRight (xorTrace (F := DummyFr) (some (bit a)) (some (bit b)) (some (bit (a ^^ b))))) = 0 := by
      unfold inputDigits
      rw [filter_false_of_mem (fun i _ => h0 i), sum_empty]
    have e1 : auxDigits (xorTrace (F := DummyFr) (some (bit a)) (some (bit b)) (some (bit (a ^^ b))))
        (InRight (xorTrace (F := DummyFr) (some (bit a)) (some (bit b)) (some (bit (a ^^ b))))) = a.toNat + b.toNat := by
      unfold auxDigits
      show ∑ i ∈ (range 2).filter _, _ = _
      rw [filter_true_of_mem (fun i hi => h1 i (mem_range.1 hi))]
      rw [sum_range_succ, sum_range_succ, sum_range_zero, zero_add]
      exact congrArg₂ (· + ·) (hb a) (hb b)
    show _ + _ = _
    rw [e0, e1, zero_add]

open UnitTests in
/-- The hypotheses of `C79_same`, `C79_count` and `C79_fixed` in the setup of the unit test `test_xordemo`: any two pairs of private bits. -/
example (w w' : Worker) (a b a' b' : Bool) (r r' s s' : DummyFr) : ∃ (params : Parameters DummyFr DummyFr) (pf pf' : Proof DummyFr DummyFr),
    generateParameters w ((XorDemo.mk none none).synthesize (F := DummyFr)) (1 : DummyFr) (1 : DummyFr) 48577 22580 53332 5481 3673 = Res.ok params ∧
    createProof w' ((XorDemo.mk (some a) (some b)).synthesize (F := DummyFr)) params r s = Res.ok pf ∧
    createProof w' ((XorDemo.mk (some a') (some b')).synthesize (F := DummyFr)) params r' s' = Res.ok pf' := by
  obtain ⟨params, hk, h, -⟩ := C76_xor w
  obtain ⟨pf, hp⟩ := h w' a b r s
  obtain ⟨pf', hp'⟩ := h w' a' b' r' s'
  exact ⟨params, pf, pf', hk, hp, hp'⟩

/-- A value with digits other than zero in windows of three bits: `73 = 1 + 1·8 + 1·64`; and one, `64`, with a single such digit. -/
example : nonzeroDigits 3 (73 : DummyFr) = 3 ∧ nonzeroDigits 3 (64 : DummyFr) = 1 := by
  constructor <;> decide +kernel

end Bellman
