import Verif.Examples.UnitTests
import Verif.Props.Mimc

/-!
# C53: circuits that constrain everything and cancel nothing work; the circuits of the unit tests
-/

set_option linter.unusedSectionVars false

namespace Bellman

open PrimeField Polynomial UnitTests

variable {F : Type} [PrimeField F] {G1 G2 GT : Type} [AddCommGroup G1] [AddCommGroup G2] [AddCommGroup GT] [Module F G1] [Module F G2]
  [Module F GT] [DecidableEq G1] [DecidableEq G2] [DecidableEq GT]

/-- C53, the general statement: a circuit in which every auxiliary variable is constrained and no variable's coefficients cancel works
for all but a few trapdoors: `generate_parameters` succeeds, and then for every satisfying witness, all blinding factors and workers
`create_proof` succeeds and `verify_proof` accepts. `ι` names the witnesses. -/
theorem C53_pipeline {ι : Type} {R : Unit → Unit → Prop} (E : Engine F G1 G2 GT) (w : Worker) (kc : Synth F Unit) (pc : ι → Synth F Unit)
    (hsh : ∀ i, SShape R kc (pc i)) (hsat : ∀ i, ∃ t, ProverTrace (pc i) t ∧ Sat (witness t) t) (g1 : G1) (g2 : G2) (hg1 : g1 ≠ 0)
    (hg2 : g2 ≠ 0) (t : List (Ev F)) (ht : KeyTrace kc t) (hc : ∀ i < numAux t, Constrained (consOf t) (.aux i))
    (hnc : (Qap.ofTrace t).NoCancel) (hsm : (consOf t).length + (numIn t + 1) ≤ 2 ^ (S F - 1)) (hm : (Qap.ofTrace t).m ≤ 2 ^ 31)
    (hk : numAux t < 2 ^ 32) (hw : w.multicore = true ∨ 0 < numAux t) :
    ({x : F × F × F × F × F | ¬ ∃ params, generateParameters w kc g1 g2 x.1 x.2.1 x.2.2.1 x.2.2.2.1 x.2.2.2.2 = Res.ok params ∧
        ∀ (i : ι) (w' : Worker) (r s : F), ∃ pf t', createProof w' (pc i) params r s = Res.ok pf ∧ ProverTrace (pc i) t' ∧
          verifyProof E (prepareVerifyingKey E params.vk) pf (inVals t') = some (.ok ())} : Set _).ncard ≤
      (numAux t * (Qap.ofTrace t).m + 2 * (numIn t + 1 + numAux t) * ((Qap.ofTrace t).m - 1) + (Qap.ofTrace t).m + 3) * p F ^ 4 := by
  have := PrimeField.finite (F := F)
  have hcard : Nat.card F = p F := PrimeField.card_eq
  have hlen : (Qap.ofTrace t).rows.length = (consOf t).length + (numIn t + 1) := by simp [Qap.ofTrace, Qap.ofRows, inputRows]
  have hmc : (Qap.ofTrace t).m = 2 ^ Nat.clog 2 ((consOf t).length + (numIn t + 1)) := by
    show 2 ^ Nat.clog 2 (Qap.ofTrace t).rows.length = _
    rw [hlen]
  have hcl : Nat.clog 2 ((consOf t).length + (numIn t + 1)) ≤ 31 := by
    rw [hmc] at hm
    exact (Nat.pow_le_pow_iff_right (by norm_num)).1 hm
  have hA := C46_constrained (G2 := G2) w _ g1 g2 hg1 t ht hc hsm (.inl (by omega)) hw
  obtain ⟨bad, hb1, hb2⟩ := C31_regular_trace (G1 := G1) (G2 := G2) (R := R) t ht hnc
    (by have := Nat.le_pow_clog (b := 2) (by norm_num) ((consOf t).length + (numIn t + 1)); omega) hk hm
  refine (Set.ncard_le_ncard (t := _ ∪ {x : F × F × F × F × F | x.2.2.2.2 ∈ bad}) ?_ (Set.toFinite _)).trans
    ((Set.ncard_union_le _ _).trans (le_trans (add_le_add hA (b := _) (d := (2 * (numIn t + 1 + numAux t) * ((Qap.ofTrace t).m - 1) +
      (Qap.ofTrace t).m + 1) * p F ^ 4) ?_) ?_))
  · rintro x hx
    by_contra hno
    rw [Set.mem_union, not_or] at hno
    obtain ⟨n1, n2⟩ := hno
    rw [Set.mem_ofPred_eq, not_not] at n1
    obtain ⟨params, hkk⟩ := n1
    refine hx ⟨params, hkk, fun i w' r s => ?_⟩
    obtain ⟨t', h1, h2⟩ := hsat i
    obtain ⟨pf, hp⟩ := hb2 _ (fun hh => n2 hh) w w' _ g1 g2 _ _ _ _ r s params (hsh i) ⟨t', h1⟩ hg1 hg2 hkk
    exact ⟨pf, t', hp, h1, C30_completeness E w w' (hsh i) g1 g2 _ _ _ _ _ r s params pf hkk hp t' h1 h2⟩
  · rw [ncard_last, hcard]
    exact Nat.mul_le_mul_right _ hb1
  · rw [← Nat.add_mul]
    refine Nat.mul_le_mul_right _ (le_of_eq ?_)
    ring

/-! ### `XorDemo` -/

namespace UnitTests

/-- The calls of `XorDemo::synthesize`, with the values of the variables if there are any. -/
def xorTrace (va vb vc : Option F) : List (Ev F) :=
  [.alloc false "a" (.aux 0) va, .enforce "a_boolean_constraint" ⟨[(.one, 1), (.aux 0, -1)]⟩ ⟨[(.aux 0, 1)]⟩ ⟨[]⟩,
   .alloc false "b" (.aux 1) vb, .enforce "b_boolean_constraint" ⟨[(.one, 1), (.aux 1, -1)]⟩ ⟨[(.aux 1, 1)]⟩ ⟨[]⟩,
   .alloc true "c" (.input 1) vc,
   .enforce "c_xor_constraint" ⟨[(.aux 0, 1), (.aux 0, 1)]⟩ ⟨[(.aux 1, 1)]⟩ ⟨[(.aux 0, 1), (.aux 1, 1), (.input 1, -1)]⟩]

/-- The values of the variables of a witness. -/
def bit (b : Bool) : F := if b then 1 else 0

theorem xor_key : KeyTrace (F := F) (XorDemo.mk none none).synthesize (xorTrace none none none) where
  exec := .allocSkip _ (.enforce (.allocSkip _ (.enforce (.allocSkip _ (.enforce (.ret _))))))
  numbered := ⟨rfl, rfl, rfl, trivial⟩
  inScope := by simp [xorTrace, Scoped, Var.InRange, Var.one]

theorem xor_prover (a b : Bool) : ProverTrace (F := F) (XorDemo.mk (some a) (some b)).synthesize
    (xorTrace (some (bit a)) (some (bit b)) (some (bit (a ^^ b)))) where
  exec := .allocRun _ _ (by cases a <;> rfl) (.enforce (.allocRun _ _ (by cases b <;> rfl) (.enforce
    (.allocRun _ _ (by cases a <;> cases b <;> rfl) (.enforce (.ret _))))))
  numbered := ⟨rfl, rfl, rfl, trivial⟩

theorem xor_shape (a b a' b' : Option Bool) :
    SShape (F := F) (fun _ _ => True) (XorDemo.mk a b).synthesize (XorDemo.mk a' b').synthesize := by
  refine SShape.bind (SShape.alloc _) fun x x' hx => ?_
  refine SShape.bind (SShape.enforce _ (by rw [hx]) (by rw [hx]) rfl) fun _ _ _ => ?_
  refine SShape.bind (SShape.alloc _) fun y y' hy => ?_
  refine SShape.bind (SShape.enforce _ (by rw [hy]) (by rw [hy]) rfl) fun _ _ _ => ?_
  refine SShape.bind (SShape.allocInput _) fun z z' hz => ?_
  exact (SShape.enforce _ (by rw [hx]) (by rw [hy]) (by rw [hx, hy, hz])).mono fun _ _ _ => trivial

theorem xor_sat {va vb vc : Option F} {ρ : Var → F} (h1 : ρ .one = 1) :
    Sat ρ (xorTrace va vb vc) ↔ ∃ a b : Bool, ρ (.aux 0) = bit a ∧ ρ (.aux 1) = bit b ∧ ρ (.input 1) = bit (a ^^ b) := by
  have h2 := two_ne_zero' (F := F)
  simp only [xorTrace, Sat_alloc, Sat_enforce, Sat_nil, LC.eval, List.map_cons, List.map_nil, List.sum_cons, List.sum_nil, h1, and_true]
  have hb : ∀ x : F, (1 * 1 + (-1 * x + 0)) * (1 * x + 0) = 0 ↔ ∃ b : Bool, x = bit b := by
    intro x
    constructor
    · intro h
      rcases mul_eq_zero.1 h with h | h
      · exact ⟨true, by unfold bit; rw [if_pos rfl]; linear_combination -h⟩
      · exact ⟨false, by unfold bit; rw [if_neg (by simp)]; linear_combination h⟩
    · rintro ⟨b, rfl⟩
      cases b <;> simp [bit]
  rw [hb, hb]
  constructor
  · rintro ⟨⟨a, ha⟩, ⟨b, hb⟩, h⟩
    refine ⟨a, b, ha, hb, ?_⟩
    rw [ha, hb] at h
    cases a <;> cases b <;> simp [bit] at h ⊢ <;> linear_combination (norm := ring_nf) h
  · rintro ⟨a, b, ha, hb, hc⟩
    refine ⟨⟨a, ha⟩, ⟨b, hb⟩, ?_⟩
    rw [ha, hb, hc]
    cases a <;> cases b <;> simp [bit] <;> ring

theorem xor_rows : (Qap.ofTrace (xorTrace (F := F) none none none)).rows.length = 5 := rfl

theorem clog_five : Nat.clog 2 5 = 3 := by decide

theorem xor_m : (Qap.ofTrace (xorTrace (F := F) none none none)).m = 8 := by
  show 2 ^ Nat.clog 2 5 = 8
  rw [clog_five]
  norm_num

theorem xor_constrained (i : ℕ) (hi : i < numAux (xorTrace (F := F) none none none)) :
    Constrained (consOf (xorTrace (F := F) none none none)) (.aux i) := by
  replace hi : i < 2 := hi
  have hmem : ∀ r ∈ consOf (xorTrace (F := F) none none none),
      r.1.coeffOf (.aux i) ≠ 0 ∨ r.2.1.coeffOf (.aux i) ≠ 0 ∨ r.2.2.coeffOf (.aux i) ≠ 0 →
      Constrained (consOf (xorTrace (F := F) none none none)) (.aux i) := fun r hr h => ⟨r, hr, h⟩
  interval_cases i
  · exact hmem (⟨[(.one, 1), (.aux 0, -1)]⟩, ⟨[(.aux 0, 1)]⟩, ⟨[]⟩) (by simp [xorTrace, consOf]) (by simp [LC.coeffOf])
  · exact hmem (⟨[(.one, 1), (.aux 1, -1)]⟩, ⟨[(.aux 1, 1)]⟩, ⟨[]⟩) (by simp [xorTrace, consOf]) (by simp [LC.coeffOf])

theorem xor_noCancel : (Qap.ofTrace (xorTrace (F := F) none none none)).NoCancel := by
  have hr : (Qap.ofTrace (xorTrace (F := F) none none none)).rows =
      [(⟨[(.one, 1), (.aux 0, -1)]⟩, ⟨[(.aux 0, 1)]⟩, ⟨[]⟩), (⟨[(.one, 1), (.aux 1, -1)]⟩, ⟨[(.aux 1, 1)]⟩, ⟨[]⟩),
       (⟨[(.aux 0, 1), (.aux 0, 1)]⟩, ⟨[(.aux 1, 1)]⟩, ⟨[(.aux 0, 1), (.aux 1, 1), (.input 1, -1)]⟩),
       (⟨[(.input 0, 1)]⟩, ⟨[]⟩, ⟨[]⟩), (⟨[(.input 1, 1)]⟩, ⟨[]⟩, ⟨[]⟩)] := rfl
  intro x hx
  have hx : x ∈ [Var.input 0, .input 1, .aux 0, .aux 1] := hx
  unfold Qap.Uses
  rw [hr]
  simp only [List.mem_cons, List.not_mem_nil, or_false] at hx
  rcases hx with rfl | rfl | rfl | rfl <;> constructor <;> simp [LC.coeffOf, Var.one]

end UnitTests

/-- C53, `XorDemo` proves what it says: whatever satisfies its constraints has bits in the auxiliary variables and their exclusive or in
the public input. -/
theorem C53_xor_sound {t : List (Ev F)} (ht : KeyTrace (XorDemo.mk none none).synthesize t) (ρ : Var → F) (h1 : ρ .one = 1)
    (hs : Sat ρ t) : ∃ a b : Bool, ρ (.aux 0) = (if a then 1 else 0) ∧ ρ (.aux 1) = (if b then 1 else 0) ∧
      ρ (.input 1) = if a ^^ b then 1 else 0 := by
  cases ht.unique xor_key
  exact (xor_sat h1).1 hs

/-- C53, the test `test_xordemo` for all values: except for a fraction `83 / |F|` of the trapdoors, `generate_parameters` succeeds for
`XorDemo` and then all bits can be proved, and the proof verifies for their exclusive or. -/
theorem C53_xor_pipeline (E : Engine F G1 G2 GT) (hS : 4 ≤ S F) (w : Worker) (g1 : G1) (g2 : G2) (hg1 : g1 ≠ 0) (hg2 : g2 ≠ 0) :
    ({x : F × F × F × F × F | ¬ ∃ params, generateParameters w (XorDemo.mk none none).synthesize g1 g2
          x.1 x.2.1 x.2.2.1 x.2.2.2.1 x.2.2.2.2 = Res.ok params ∧
        ∀ (w' : Worker) (a b : Bool) (r s : F), ∃ pf, createProof w' (XorDemo.mk (some a) (some b)).synthesize params r s = Res.ok pf ∧
          verifyProof E (prepareVerifyingKey E params.vk) pf [if a ^^ b then 1 else 0] = some (.ok ())} : Set _).ncard ≤ 83 * p F ^ 4 := by
  have := PrimeField.finite (F := F)
  have h := C53_pipeline (R := fun _ _ => True) E w (XorDemo.mk none none).synthesize
    (fun i : Bool × Bool => (XorDemo.mk (some i.1) (some i.2)).synthesize) (fun i => xor_shape _ _ _ _)
    (fun i => ⟨_, xor_prover i.1 i.2, (xor_sat rfl).2 ⟨i.1, i.2, rfl, rfl, rfl⟩⟩) g1 g2 hg1 hg2 _ xor_key xor_constrained xor_noCancel
    (le_trans (show 5 ≤ 2 ^ 3 by norm_num) (Nat.pow_le_pow_right (by norm_num) (show 3 ≤ S F - 1 by omega))) (by rw [xor_m]; norm_num)
    (show 2 < 2 ^ 32 by norm_num) (.inr (show 0 < 2 by norm_num))
  rw [xor_m] at h
  refine le_trans (Set.ncard_le_ncard ?_ (Set.toFinite _)) h
  rintro x hx ⟨params, hk, hp⟩
  refine hx ⟨params, hk, fun w' a b r s => ?_⟩
  obtain ⟨pf, t', h1, h2, h3⟩ := hp (a, b) w' r s
  cases h2.unique (xor_prover a b)
  exact ⟨pf, h1, h3⟩

/-- C53, knowledge: an algebraic prover that convinces the verifier has two bits with that exclusive or, or is rejected for all but a
fraction `81 / |F|` of the trapdoors; in particular public inputs other than 0 and 1 are rejected. -/
theorem C53_xor_knowledge (E : Engine F G1 G2 GT) (c : F) (σ : Strategy F) :
    (∃ a b : Bool, σ.extract [c] (.aux 0) = (if a then 1 else 0) ∧ σ.extract [c] (.aux 1) = (if b then 1 else 0) ∧
      c = if a ^^ b then 1 else 0) ∨
    ({x : F × F × F × F × F | ∃ (w : Worker) (g1 : G1) (g2 : G2) (params : Parameters G1 G2), g1 ≠ 0 ∧ g2 ≠ 0 ∧
        generateParameters w (XorDemo.mk none none).synthesize g1 g2 x.1 x.2.1 x.2.2.1 x.2.2.2.1 x.2.2.2.2 = Res.ok params ∧
        verifyProof E (prepareVerifyingKey E params.vk) (σ.proof g1 g2 params) [c] = some (.ok ())} : Set _).ncard ≤ 81 * p F ^ 4 := by
  rcases C42_knowledge (G1 := G1) (G2 := G2) E xor_key [c] σ with hh | hh
  · exact .inl (C53_xor_sound xor_key _ rfl hh)
  · right
    rw [xor_m] at hh
    exact hh

/-! ### `MultWithZeroCoeffs` -/

namespace UnitTests

/-- The calls of `MultWithZeroCoeffs::synthesize`. -/
def zeroTrace (oneVar : Bool) (va vb vc : Option F) : List (Ev F) :=
  [.alloc false "a" (.aux 0) va, .alloc false "b" (.aux 1) vb, .alloc false "c" (.aux 2) vc,
   .enforce "cs" ⟨[(.aux 0, 1)]⟩ ⟨[(if oneVar then .one else .aux 0, 0), (.aux 1, 1)]⟩ ⟨[(.aux 2, 1)]⟩]

theorem zero_key (m : MultWithZeroCoeffs F) : KeyTrace m.synthesize (zeroTrace m.oneVar none none none) where
  exec := by
    obtain ⟨a, b, c, o⟩ := m
    cases o <;> exact .allocSkip _ (.allocSkip _ (.allocSkip _ (.enforce (.ret _))))
  numbered := ⟨rfl, rfl, rfl, trivial⟩
  inScope := by cases m.oneVar <;> simp [zeroTrace, Scoped, Var.InRange, Var.one]

theorem zero_prover (m : MultWithZeroCoeffs F) : ProverTrace m.synthesize (zeroTrace m.oneVar (some m.a) (some m.b) (some m.c)) where
  exec := by
    obtain ⟨a, b, c, o⟩ := m
    cases o <;> exact .allocRun _ _ rfl (.allocRun _ _ rfl (.allocRun _ _ rfl (.enforce (.ret _))))
  numbered := ⟨rfl, rfl, rfl, trivial⟩

theorem zero_shape (a b c a' b' c' : F) (o : Bool) :
    SShape (F := F) (fun _ _ => True) (MultWithZeroCoeffs.mk a b c o).synthesize (MultWithZeroCoeffs.mk a' b' c' o).synthesize := by
  refine SShape.bind (SShape.alloc _) fun x x' hx => ?_
  refine SShape.bind (SShape.alloc _) fun y y' hy => ?_
  refine SShape.bind (SShape.alloc _) fun z z' hz => ?_
  cases o <;> simp only [Bool.false_eq_true, if_false, if_true]
  · exact (SShape.enforce _ (by rw [hx]) (by rw [hx, hy]) (by rw [hz])).mono fun _ _ _ => trivial
  · exact (SShape.enforce _ (by rw [hx]) (by rw [hy]) (by rw [hz])).mono fun _ _ _ => trivial

theorem zero_sat {o : Bool} {va vb vc : Option F} {ρ : Var → F} : Sat ρ (zeroTrace o va vb vc) ↔ ρ (.aux 0) * ρ (.aux 1) = ρ (.aux 2) := by
  simp [zeroTrace, LC.eval]

theorem zero_m (o : Bool) : (Qap.ofTrace (zeroTrace (F := F) o none none none)).m = 2 := by
  show 2 ^ Nat.clog 2 2 = 2
  decide

theorem zero_constrained (o : Bool) (i : ℕ) (hi : i < numAux (zeroTrace (F := F) o none none none)) :
    Constrained (consOf (zeroTrace (F := F) o none none none)) (.aux i) := by
  replace hi : i < 3 := hi
  refine ⟨_, .head _, ?_⟩
  cases o <;> interval_cases i <;> simp [LC.coeffOf, Var.one]

theorem zero_noCancel (o : Bool) : (Qap.ofTrace (zeroTrace (F := F) o none none none)).NoCancel := by
  have hr : (Qap.ofTrace (zeroTrace (F := F) o none none none)).rows =
      [(⟨[(.aux 0, 1)]⟩, ⟨[(if o then .one else .aux 0, 0), (.aux 1, 1)]⟩, ⟨[(.aux 2, 1)]⟩), (⟨[(.input 0, 1)]⟩, ⟨[]⟩, ⟨[]⟩)] := rfl
  intro x hx
  replace hx : x ∈ [Var.input 0, .aux 0, .aux 1, .aux 2] := hx
  unfold Qap.Uses
  rw [hr]
  simp only [List.mem_cons, List.not_mem_nil, or_false] at hx
  cases o <;> rcases hx with rfl | rfl | rfl | rfl <;> constructor <;> simp [LC.coeffOf, Var.one]

end UnitTests

/-- C53, the tests `zero_coeff_one_var` and `zero_coeff_non_one_var` for all values: a term with coefficient zero does no harm.  Except for
a fraction `19 / |F|` of the trapdoors, setup succeeds (whatever the values it is given) and then all products can be proved. -/
theorem C53_zero_pipeline (E : Engine F G1 G2 GT) (hS : 2 ≤ S F) (w : Worker) (g1 : G1) (g2 : G2) (hg1 : g1 ≠ 0) (hg2 : g2 ≠ 0)
    (oneVar : Bool) (a₀ b₀ c₀ : F) :
    ({x : F × F × F × F × F | ¬ ∃ params, generateParameters w (MultWithZeroCoeffs.mk a₀ b₀ c₀ oneVar).synthesize g1 g2
          x.1 x.2.1 x.2.2.1 x.2.2.2.1 x.2.2.2.2 = Res.ok params ∧
        ∀ (w' : Worker) (a b r s : F), ∃ pf, createProof w' (MultWithZeroCoeffs.mk a b (a * b) oneVar).synthesize params r s = Res.ok pf ∧
          verifyProof E (prepareVerifyingKey E params.vk) pf [] = some (.ok ())} : Set _).ncard ≤ 19 * p F ^ 4 := by
  have := PrimeField.finite (F := F)
  have h := C53_pipeline (R := fun _ _ => True) E w (MultWithZeroCoeffs.mk a₀ b₀ c₀ oneVar).synthesize
    (fun i : F × F => (MultWithZeroCoeffs.mk i.1 i.2 (i.1 * i.2) oneVar).synthesize) (fun i => zero_shape _ _ _ _ _ _ _)
    (fun i => ⟨_, zero_prover _, zero_sat.2 rfl⟩) g1 g2 hg1 hg2 _ (zero_key _) (zero_constrained _) (zero_noCancel _)
    (le_trans (show 2 ≤ 2 ^ 1 by norm_num) (Nat.pow_le_pow_right (by norm_num) (show 1 ≤ S F - 1 by omega))) (by rw [zero_m]; norm_num)
    (show 3 < 2 ^ 32 by norm_num) (.inr (show 0 < 3 by norm_num))
  rw [zero_m] at h
  refine le_trans (Set.ncard_le_ncard ?_ (Set.toFinite _)) h
  rintro x hx ⟨params, hk, hp⟩
  refine hx ⟨params, hk, fun w' a b r s => ?_⟩
  obtain ⟨pf, t', h1, h2, h3⟩ := hp (a, b) w' r s
  cases h2.unique (zero_prover _)
  exact ⟨pf, h1, h3⟩

/-! ### The numbers of the tests -/

namespace UnitTests

/-- The program of `XorDemo` over the field of the tests. -/
noncomputable abbrev xq : Qap DummyFr := Qap.ofTrace (xorTrace none none none)

theorem xq_good : xq.Good 3 := by
  have h := Qap.ofTrace_good (xorTrace (F := DummyFr) none none none) (by rw [xor_rows]; decide)
  rwa [xor_rows, clog_five] at h

theorem xq_ω : xq.ω = 20201 := by
  show (ROOT_OF_UNITY : DummyFr) ^ (2 ^ (S DummyFr - Nat.clog 2 5)) = _
  rw [clog_five]
  decide +kernel

/-- The Lagrange basis of the eight-point domain at `τ = 3673`. -/
theorem xq_interp (f : ℕ → DummyFr) : (xq.interp f).eval 3673 =
    60619 * f 0 + 54111 * f 1 + 41193 * f 2 + 8941 * f 3 + 48317 * f 4 + 23015 * f 5 + 8133 * f 6 + 13724 * f 7 := by
  rw [Qap.interp_eval_sum xq_good 56449 3673 (by decide +kernel), xq_ω]
  simp only [Finset.sum_range_succ, Finset.sum_range_zero, zero_add, valAt, show (2 : ℕ) ^ 3 = 8 from rfl]
  refine congrArg₂ (· + ·) (congrArg₂ (· + ·) (congrArg₂ (· + ·) (congrArg₂ (· + ·) (congrArg₂ (· + ·) (congrArg₂ (· + ·) (congrArg₂ (· + ·) (congrArg (· * f 0) ?_) (congrArg (· * f 1) ?_)) (congrArg (· * f 2) ?_)) (congrArg (· * f 3) ?_)) 
    (congrArg (· * f 4) ?_)) (congrArg (· * f 5) ?_)) (congrArg (· * f 6) ?_)) (congrArg (· * f 7) ?_) <;> decide +kernel

/-- groth16/src/tests/mod.rs:217-228: the values `u_i`, `v_i`, `w_i` of the test. -/
theorem xq_values :
    ((xq.u (.input 0)).eval 3673 = 59158 ∧ (xq.u (.input 1)).eval 3673 = 48317 ∧ (xq.u (.aux 0)).eval 3673 = 21767 ∧
      (xq.u (.aux 1)).eval 3673 = 10402) ∧
    ((xq.v (.input 0)).eval 3673 = 0 ∧ (xq.v (.input 1)).eval 3673 = 0 ∧ (xq.v (.aux 0)).eval 3673 = 60619 ∧
      (xq.v (.aux 1)).eval 3673 = 30791) ∧
    ((xq.w (.input 0)).eval 3673 = 0 ∧ (xq.w (.input 1)).eval 3673 = 23320 ∧ (xq.w (.aux 0)).eval 3673 = 41193 ∧
      (xq.w (.aux 1)).eval 3673 = 41193) := by
  unfold Qap.u Qap.v Qap.w
  simp only [xq_interp]
  decide +kernel

theorem xq_Z : xq.Z.eval 3673 = 3673 ^ 8 - 1 := by
  unfold Qap.Z
  rw [xor_m, eval_sub, eval_pow, eval_X, eval_one]

theorem xq_vars {x : Var} (hx : x ∈ xq.vars) : x = .input 0 ∨ x = .input 1 ∨ x = .aux 0 ∨ x = .aux 1 := by
  have : x ∈ [Var.input 0, .input 1, .aux 0, .aux 1] := hx
  simpa using this

theorem xq_noUse (x : Var) (h : x = .input 0 ∨ x = .input 1) : ¬ xq.Uses (·.2.1) x := by
  rintro ⟨r, hr, c, -, hm⟩
  have hr : r ∈ [((⟨[(.one, 1), (.aux 0, -1)]⟩, ⟨[(.aux 0, 1)]⟩, ⟨[]⟩) : Row DummyFr), (⟨[(.one, 1), (.aux 1, -1)]⟩, ⟨[(.aux 1, 1)]⟩, ⟨[]⟩),
       (⟨[(.aux 0, 1), (.aux 0, 1)]⟩, ⟨[(.aux 1, 1)]⟩, ⟨[(.aux 0, 1), (.aux 1, 1), (.input 1, -1)]⟩),
       (⟨[(.input 0, 1)]⟩, ⟨[]⟩, ⟨[]⟩), (⟨[(.input 1, 1)]⟩, ⟨[]⟩, ⟨[]⟩)] := hr
  simp only [List.mem_cons, List.not_mem_nil, or_false] at hr
  rcases hr with rfl | rfl | rfl | rfl | rfl <;> rcases h with rfl | rfl <;> simp at hm

/-- The secrets of the test are regular. -/
theorem xq_ready (z : Var → DummyFr) (h : DummyFr[X]) : xq.Ready (1 : DummyFr) (1 : DummyFr) 48577 22580 5481 3673 z h := by
  obtain ⟨⟨u0, u1, u2, u3⟩, ⟨v0, v1, v2, v3⟩, ⟨w0, w1, w2, w3⟩⟩ := xq_values
  refine ⟨?_, ?_, ?_, ?_, ?_, by decide +kernel, by decide +kernel⟩
  · intro x hx _
    rcases xq_vars hx with rfl | rfl | rfl | rfl
    · rw [u0]; decide +kernel
    · rw [u1]; decide +kernel
    · rw [u2]; decide +kernel
    · rw [u3]; decide +kernel
  · intro x hx hux
    rcases xq_vars hx with rfl | rfl | rfl | rfl
    · exact absurd hux (xq_noUse _ (.inl rfl))
    · exact absurd hux (xq_noUse _ (.inr rfl))
    · rw [v2]; decide +kernel
    · rw [v3]; decide +kernel
  · intro x hx hux
    rcases xq_vars hx with rfl | rfl | rfl | rfl
    · exact absurd hux (xq_noUse _ (.inl rfl))
    · exact absurd hux (xq_noUse _ (.inr rfl))
    · rw [v2]; decide +kernel
    · rw [v3]; decide +kernel
  · intro i _ h0
    rw [xq_Z, smul_eq_mul, mul_one, div_eq_zero_iff, mul_eq_zero] at h0
    rcases h0 with (h0 | h0) | h0
    · exact absurd h0 (pow_ne_zero _ (by decide +kernel))
    · exact absurd h0 (by decide +kernel)
    · exact absurd h0 (by decide +kernel)
  · intro i hi h0
    replace hi : i < 2 := hi
    unfold Qap.comb at h0
    interval_cases i
    · rw [u2, v2, w2] at h0
      exact absurd h0 (by decide +kernel)
    · rw [u3, v3, w3] at h0
      exact absurd h0 (by decide +kernel)

theorem xq_generate (w : Worker) : generateParameters w ((XorDemo.mk none none).synthesize (F := DummyFr)) (1 : DummyFr) (1 : DummyFr) 48577 22580 53332 5481 3673 =
    Res.ok (xq.crs (1 : DummyFr) (1 : DummyFr) 48577 22580 53332 5481 3673) := by
  rcases C29_outcome w ((XorDemo.mk none none).synthesize (F := DummyFr)) (1 : DummyFr) (1 : DummyFr) 48577 22580 53332 5481 3673 _ (xor_key (F := DummyFr))
    (by rw [xor_rows, clog_five]; exact .inl (by norm_num)) (.inr ⟨by rw [xor_m]; norm_num, show 0 < 2 by norm_num⟩) with
    ⟨h, _⟩ | ⟨_, h, _⟩ | ⟨_, _, _, ⟨i, hi, h⟩, _⟩ | ⟨_, _, _, _, h⟩
  · rw [xor_rows] at h
    exact absurd h (by decide)
  · exact absurd h (by decide +kernel)
  · have := (xq_ready (fun _ => 1) 0).l i hi h
    exact absurd this (by decide +kernel)
  · exact h

end UnitTests

/-- C53, the assertions of the test `test_xordemo` (groth16/src/tests/mod.rs:89-370), number by number: the model computes what the test
expects of the code, for every worker. -/
theorem C53_xor_test (w w' : Worker) : ∃ (params : Parameters DummyFr DummyFr) (pf : Proof DummyFr DummyFr),
    generateParameters w ((XorDemo.mk none none).synthesize (F := DummyFr)) (1 : DummyFr) (1 : DummyFr) 48577 22580 53332 5481 3673 = Res.ok params ∧
    params.h = (List.range 7).map (fun i => 3673 ^ i * (5481⁻¹ * (3673 ^ 8 - 1))) ∧
    params.a = [59158, 48317, 21767, 10402] ∧ params.bG1 = [60619, 30791] ∧ params.bG2 = [60619, 30791] ∧
    params.vk.ic = [(22580 * 59158 + 48577 * 0 + 0) * 53332⁻¹, (22580 * 48317 + 48577 * 0 + 23320) * 53332⁻¹] ∧
    params.l = [(22580 * 21767 + 48577 * 60619 + 41193) * 5481⁻¹, (22580 * 10402 + 48577 * 30791 + 41193) * 5481⁻¹] ∧
    params.vk.alphaG1 = 48577 ∧ params.vk.betaG1 = 22580 ∧ params.vk.betaG2 = 22580 ∧ params.vk.gammaG2 = 53332 ∧
    params.vk.deltaG1 = 5481 ∧ params.vk.deltaG2 = 5481 ∧
    createProof w' ((XorDemo.mk (some true) (some false)).synthesize (F := DummyFr)) params 27134 17146 = Res.ok pf ∧
    pf.a = 5481 * 27134 + 48577 + 59158 + 48317 + 21767 ∧ pf.b = 5481 * 17146 + 22580 + 0 + 0 + 60619 ∧
    pf.c = pf.a * 17146 + pf.b * 27134 - 5481 * 27134 * 17146 + params.l.headD 0 +
      (List.zipWith (· * ·) params.h [5040, 11763, 10755, 63633, 128, 9747, 8739]).sum ∧
    verifyProof (fieldEngine DummyFr) (prepareVerifyingKey (fieldEngine DummyFr) params.vk) pf [1] = some (.ok ()) := by
  obtain ⟨⟨u0, u1, u2, u3⟩, ⟨v0, v1, v2, v3⟩, ⟨w0, w1, w2, w3⟩⟩ := xq_values
  have hk := xq_generate w
  have hq : Qap.ofTrace (xorTrace (F := DummyFr) (some (bit true)) (some (bit false)) (some (bit (true ^^ false)))) = xq := rfl
  obtain ⟨pf, hp⟩ := (C31_outcome w' (xor_shape (F := DummyFr) none none (some true) (some false)) (1 : DummyFr) (1 : DummyFr) 48577 22580 53332 5481 3673
    27134 17146 _ _ xor_key (xor_prover true false) (show 1 + 1 < 2 ^ 32 by norm_num) (show 2 < 2 ^ 32 by norm_num)
    (by rw [hq, xor_m]; norm_num)).2
    ⟨by rw [hq]; exact xq_ready _ _, by rw [hq, xor_rows]; decide, by rw [hq, xor_rows, clog_five]; exact .inl (by norm_num)⟩
  obtain ⟨t0, t, ht0, ht, -, hs, -, -, -, -, -, hpf⟩ := prove_spec (xor_shape (F := DummyFr) none none (some true) (some false)) hk hp
  cases ht.unique (xor_prover true false)
  rw [hq] at hpf hs
  set z := witness (xorTrace (F := DummyFr) (some (bit true)) (some (bit false)) (some (bit (true ^^ false)))) with hz
  have hsat : Sat z (xorTrace none none none) :=
    (xor_sat rfl).2 ⟨true, false, rfl, rfl, rfl⟩
  have hA : (xq.A z).eval 3673 = 59158 + 48317 + 21767 := by
    rw [Qap.A_eval_sum]
    show (∑ i ∈ Finset.range 2, z (.input i) * (xq.u (.input i)).eval 3673) + ∑ i ∈ Finset.range 2, z (.aux i) * (xq.u (.aux i)).eval 3673 = _
    simp only [Finset.sum_range_succ, Finset.sum_range_zero, u0, u1, u2, u3]
    decide +kernel
  have hB : (xq.B z).eval 3673 = 60619 := by
    rw [Qap.B_eval_sum]
    show (∑ i ∈ Finset.range 2, z (.input i) * (xq.v (.input i)).eval 3673) + ∑ i ∈ Finset.range 2, z (.aux i) * (xq.v (.aux i)).eval 3673 = _
    simp only [Finset.sum_range_succ, Finset.sum_range_zero, v0, v1, v2, v3]
    decide +kernel
  have hC : (xq.Cc z).eval 3673 = 23320 + 41193 := by
    unfold Qap.Cc
    simp only [eval_add, eval_finsetSum, eval_mul, eval_C]
    show (∑ i ∈ Finset.range 2, z (.input i) * (xq.w (.input i)).eval 3673) + ∑ i ∈ Finset.range 2, z (.aux i) * (xq.w (.aux i)).eval 3673 = _
    simp only [Finset.sum_range_succ, Finset.sum_range_zero, w0, w1, w2, w3]
    decide +kernel
  have hH : (xq.proverH z).eval 3673 * (3673 ^ 8 - 1) = (59158 + 48317 + 21767) * 60619 - (23320 + 41193) := by
    have := congrArg (eval 3673) (Qap.proverH_sat xq_good hs z (satBy_of_sat.2 hsat))
    rwa [eval_mul, eval_sub, eval_mul, hA, hB, hC, xq_Z] at this
  have hl : xq.priv 48577 22580 3673 z / 5481 = (22580 * 21767 + 48577 * 60619 + 41193) * 5481⁻¹ := by
    show (∑ i ∈ Finset.range 2, z (.aux i) * xq.comb 48577 22580 3673 (.aux i)) / 5481 = _
    unfold Qap.comb
    simp only [Finset.sum_range_succ, Finset.sum_range_zero, u2, u3, v2, v3, w2, w3]
    decide +kernel
  have hZ : (3673 ^ 8 - 1 : DummyFr) ≠ 0 := by decide +kernel
  have hh : (xq.crs (1 : DummyFr) (1 : DummyFr) 48577 22580 53332 5481 3673).h =
      (List.range 7).map (fun i => 3673 ^ i * (5481⁻¹ * (3673 ^ 8 - 1))) := by
    unfold Qap.crs
    dsimp only
    rw [xor_m, xq_Z]
    refine List.map_congr_left fun i _ => ?_
    rw [smul_eq_mul, mul_one, div_eq_mul_inv]
    ring
  have hll : (xq.crs (1 : DummyFr) (1 : DummyFr) 48577 22580 53332 5481 3673).l =
      [(22580 * 21767 + 48577 * 60619 + 41193) * 5481⁻¹, (22580 * 10402 + 48577 * 30791 + 41193) * 5481⁻¹] := by
    unfold Qap.crs Qap.comb
    dsimp only
    rw [show xq.k = 2 from rfl]
    simp only [List.range_succ, List.range_zero, List.nil_append, List.cons_append, List.map_cons, List.map_nil, u2, u3, v2, v3, w2, w3]
    decide +kernel
  refine ⟨_, pf, hk, hh, ?_, ?_, ?_, ?_, hll, ?_, ?_, ?_, ?_, ?_, ?_, hp, ?_, ?_, ?_, ?_⟩
  · unfold Qap.crs
    dsimp only
    rw [show xq.vars = [.input 0, .input 1, .aux 0, .aux 1] from rfl]
    simp only [List.map_cons, List.map_nil, u0, u1, u2, u3]
    decide +kernel
  · unfold Qap.crs
    dsimp only
    rw [show xq.vars = [.input 0, .input 1, .aux 0, .aux 1] from rfl]
    simp only [List.map_cons, List.map_nil, v0, v1, v2, v3]
    decide +kernel
  · unfold Qap.crs
    dsimp only
    rw [show xq.vars = [.input 0, .input 1, .aux 0, .aux 1] from rfl]
    simp only [List.map_cons, List.map_nil, v0, v1, v2, v3]
    decide +kernel
  · unfold Qap.crs Qap.comb
    dsimp only
    rw [show xq.n = 2 from rfl]
    simp only [List.range_succ, List.range_zero, List.nil_append, List.cons_append, List.map_cons, List.map_nil, u0, u1, v0, v1, w0, w1]
    decide +kernel
  · show (48577 : DummyFr) • (1 : DummyFr) = _; decide +kernel
  · show (22580 : DummyFr) • (1 : DummyFr) = _; decide +kernel
  · show (22580 : DummyFr) • (1 : DummyFr) = _; decide +kernel
  · show (53332 : DummyFr) • (1 : DummyFr) = _; decide +kernel
  · show (5481 : DummyFr) • (1 : DummyFr) = _; decide +kernel
  · show (5481 : DummyFr) • (1 : DummyFr) = _; decide +kernel
  · rw [hpf]
    show (48577 + (xq.A z).eval 3673 + 27134 * 5481) • (1 : DummyFr) = _
    rw [hA]; decide +kernel
  · rw [hpf]
    show (22580 + (xq.B z).eval 3673 + 17146 * 5481) • (1 : DummyFr) = _
    rw [hB]; decide +kernel
  · rw [hpf, hh, hll]
    show ((xq.priv 48577 22580 3673 z + (xq.proverH z).eval 3673 * xq.Z.eval 3673) / 5481 + 17146 * (48577 + (xq.A z).eval 3673 + 27134 * 5481) +
      27134 * (22580 + (xq.B z).eval 3673 + 17146 * 5481) - 27134 * 17146 * 5481) • (1 : DummyFr) =
      (48577 + (xq.A z).eval 3673 + 27134 * 5481) • (1 : DummyFr) * 17146 + (22580 + (xq.B z).eval 3673 + 17146 * 5481) • (1 : DummyFr) * 27134 - _ + _ + _
    rw [xq_Z, hH, add_div, hl, hA, hB]
    decide +kernel
  · have hi : inVals (xorTrace (F := DummyFr) (some (bit true)) (some (bit false)) (some (bit (true ^^ false)))) = [1] := by decide +kernel
    have := C30_completeness (fieldEngine DummyFr) w w' (xor_shape (F := DummyFr) none none (some true) (some false)) _ _ _ _ _ _ _ _ _ _ pf hk hp _
      (xor_prover true false) ((xor_sat rfl).2 ⟨true, false, rfl, rfl, rfl⟩)
    rwa [hi] at this

namespace UnitTests

/-- The program of `MultWithZeroCoeffs` over the field of the tests. -/
noncomputable abbrev zq (o : Bool) : Qap DummyFr := Qap.ofTrace (zeroTrace o none none none)

theorem clog_two : Nat.clog 2 2 = 1 := by decide

theorem zq_rows (o : Bool) : (zq o).rows.length = 2 := rfl

theorem zq_good (o : Bool) : (zq o).Good 1 := by
  have h := Qap.ofTrace_good (zeroTrace (F := DummyFr) o none none none) (by rw [zq_rows]; decide)
  rwa [zq_rows, clog_two] at h

theorem zq_ω (o : Bool) : (zq o).ω = 64512 := by
  show (ROOT_OF_UNITY : DummyFr) ^ (2 ^ (S DummyFr - Nat.clog 2 2)) = _
  rw [clog_two]
  decide +kernel

theorem zq_interp (o : Bool) (f : ℕ → DummyFr) : ((zq o).interp f).eval 3673 = 1837 * f 0 + 62677 * f 1 := by
  rw [Qap.interp_eval_sum (zq_good o) 32257 3673 (by decide +kernel), zq_ω]
  simp only [Finset.sum_range_succ, Finset.sum_range_zero, zero_add, valAt, show (2 : ℕ) ^ 1 = 2 from rfl]
  refine congrArg₂ (· + ·) (congrArg (· * f 0) ?_) (congrArg (· * f 1) ?_) <;> decide +kernel

theorem zq_values (o : Bool) :
    (((zq o).u (.input 0)).eval 3673 = 62677 ∧ ((zq o).u (.aux 0)).eval 3673 = 1837 ∧ ((zq o).u (.aux 1)).eval 3673 = 0 ∧
      ((zq o).u (.aux 2)).eval 3673 = 0) ∧
    (((zq o).v (.input 0)).eval 3673 = 0 ∧ ((zq o).v (.aux 0)).eval 3673 = 0 ∧ ((zq o).v (.aux 1)).eval 3673 = 1837 ∧
      ((zq o).v (.aux 2)).eval 3673 = 0) ∧
    (((zq o).w (.input 0)).eval 3673 = 0 ∧ ((zq o).w (.aux 0)).eval 3673 = 0 ∧ ((zq o).w (.aux 1)).eval 3673 = 0 ∧
      ((zq o).w (.aux 2)).eval 3673 = 1837) := by
  unfold Qap.u Qap.v Qap.w
  simp only [zq_interp]
  cases o <;> decide +kernel

theorem zq_ready (o : Bool) (z : Var → DummyFr) (h : DummyFr[X]) : (zq o).Ready (1 : DummyFr) (1 : DummyFr) 48577 22580 5481 3673 z h := by
  obtain ⟨⟨u0, u1, u2, u3⟩, ⟨v0, v1, v2, v3⟩, ⟨w0, w1, w2, w3⟩⟩ := zq_values o
  have hZ : (zq o).Z.eval 3673 = 3673 ^ 2 - 1 := by
    unfold Qap.Z
    rw [zero_m, eval_sub, eval_pow, eval_X, eval_one]
  have hnc := zero_noCancel (F := DummyFr) o
  have hr : (zq o).rows = [(⟨[(.aux 0, 1)]⟩, ⟨[(if o then .one else .aux 0, 0), (.aux 1, 1)]⟩, ⟨[(.aux 2, 1)]⟩), (⟨[(.input 0, 1)]⟩, ⟨[]⟩, ⟨[]⟩)] := rfl
  have hvars : ∀ x ∈ (zq o).vars, x = .input 0 ∨ x = .aux 0 ∨ x = .aux 1 ∨ x = .aux 2 := by
    intro x hx
    have : x ∈ [Var.input 0, .aux 0, .aux 1, .aux 2] := hx
    simpa using this
  have hb : ∀ x ∈ (zq o).vars, (zq o).Uses (·.2.1) x → x = .aux 1 := by
    intro x hx hu
    obtain ⟨r, hrm, hne⟩ := (hnc x hx).2 hu
    rw [hr] at hrm
    simp only [List.mem_cons, List.not_mem_nil, or_false] at hrm
    rcases hrm with rfl | rfl <;> rcases hvars x hx with rfl | rfl | rfl | rfl <;> cases o <;> simp [LC.coeffOf, Var.one] at hne ⊢
  have ha : ∀ x ∈ (zq o).vars, (zq o).Uses (·.1) x → x = .input 0 ∨ x = .aux 0 := by
    intro x hx hu
    obtain ⟨r, hrm, hne⟩ := (hnc x hx).1 hu
    rw [hr] at hrm
    simp only [List.mem_cons, List.not_mem_nil, or_false] at hrm
    rcases hrm with rfl | rfl <;> rcases hvars x hx with rfl | rfl | rfl | rfl <;> simp [LC.coeffOf] at hne ⊢
  refine ⟨?_, ?_, ?_, ?_, ?_, by decide +kernel, by decide +kernel⟩
  · intro x hx hu
    rcases ha x hx hu with rfl | rfl
    · rw [u0]; decide +kernel
    · rw [u1]; decide +kernel
  · intro x hx hu
    rw [hb x hx hu, v2]; decide +kernel
  · intro x hx hu
    rw [hb x hx hu, v2]; decide +kernel
  · intro i _ h0
    rw [hZ, smul_eq_mul, mul_one, div_eq_zero_iff, mul_eq_zero] at h0
    rcases h0 with (h0 | h0) | h0
    · exact absurd h0 (pow_ne_zero _ (by decide +kernel))
    · exact absurd h0 (by decide +kernel)
    · exact absurd h0 (by decide +kernel)
  · intro i hi h0
    replace hi : i < 3 := hi
    unfold Qap.comb at h0
    interval_cases i
    · rw [u1, v1, w1] at h0
      exact absurd h0 (by decide +kernel)
    · rw [u2, v2, w2] at h0
      exact absurd h0 (by decide +kernel)
    · rw [u3, v3, w3] at h0
      exact absurd h0 (by decide +kernel)

theorem zq_generate (w : Worker) (m : MultWithZeroCoeffs DummyFr) : generateParameters w m.synthesize (1 : DummyFr) (1 : DummyFr) 48577 22580 53332 5481 3673 =
    Res.ok ((zq m.oneVar).crs (1 : DummyFr) (1 : DummyFr) 48577 22580 53332 5481 3673) := by
  rcases C29_outcome w m.synthesize (1 : DummyFr) (1 : DummyFr) 48577 22580 53332 5481 3673 _ (zero_key m)
    (by rw [zq_rows, clog_two]; exact .inl (by norm_num)) (.inr ⟨by rw [zero_m]; norm_num, show 0 < 3 by norm_num⟩) with
    ⟨h, _⟩ | ⟨_, h, _⟩ | ⟨_, _, _, ⟨i, hi, h⟩, _⟩ | ⟨_, _, _, _, h⟩
  · rw [zq_rows] at h
    exact absurd h (by decide)
  · exact absurd h (by decide +kernel)
  · have := (zq_ready m.oneVar (fun _ => 1) 0).l i hi h
    exact absurd this (by decide +kernel)
  · exact h

end UnitTests

/-- C53, the tests `zero_coeff_one_var` and `zero_coeff_non_one_var` (groth16/src/tests/mod.rs:408-440) with their numbers. -/
theorem C53_zero_test (w w' : Worker) (oneVar : Bool) : ∃ (pk : Parameters DummyFr DummyFr) (pf : Proof DummyFr DummyFr),
    generateParameters w (MultWithZeroCoeffs.mk (5 : DummyFr) 6 30 oneVar).synthesize (1 : DummyFr) (1 : DummyFr) 48577 22580 53332 5481 3673 =
      Res.ok pk ∧
    createProof w' (MultWithZeroCoeffs.mk (5 : DummyFr) 6 30 oneVar).synthesize pk 27134 17146 = Res.ok pf ∧
    verifyProof (fieldEngine DummyFr) (prepareVerifyingKey (fieldEngine DummyFr) pk.vk) pf [] = some (.ok ()) := by
  set m := MultWithZeroCoeffs.mk (5 : DummyFr) 6 30 oneVar
  have hk := zq_generate w m
  have hq : Qap.ofTrace (zeroTrace m.oneVar (some m.a) (some m.b) (some m.c)) = zq m.oneVar := rfl
  have hsh := zero_shape (F := DummyFr) 5 6 30 5 6 30 oneVar
  obtain ⟨pf, hp⟩ := (C31_outcome w' hsh (1 : DummyFr) (1 : DummyFr) 48577 22580 53332 5481 3673
    27134 17146 _ _ (zero_key m) (zero_prover m) (show 0 + 1 < 2 ^ 32 by norm_num) (show 3 < 2 ^ 32 by norm_num)
    (by rw [hq, zero_m]; norm_num)).2
    ⟨by rw [hq]; exact zq_ready _ _ _, by rw [hq, zq_rows]; decide, by rw [hq, zq_rows, clog_two]; exact .inl (by norm_num)⟩
  refine ⟨_, pf, hk, hp, ?_⟩
  exact C30_completeness (fieldEngine DummyFr) w w' hsh _ _ _ _ _ _ _ _ _ _ pf hk hp _ (zero_prover m) (zero_sat.2 (show (5 : DummyFr) * 6 = 30 by decide +kernel))

/-- The hypotheses of `C53_pipeline` are met by `XorDemo` (that is `C53_xor_pipeline`), over the BLS12-381 scalar field as over the field of
the tests. -/
example (w : Worker) := C53_xor_pipeline (F := BlsScalar) (G1 := BlsScalar) (G2 := BlsScalar) (fieldEngine BlsScalar) (by decide) w 1 1
  one_ne_zero one_ne_zero

example (w : Worker) := C53_zero_pipeline (G1 := DummyFr) (G2 := DummyFr) (fieldEngine DummyFr) (by decide) w 1 1 one_ne_zero one_ne_zero
  true 5 6 30

/-- A witness that meets the hypotheses of `C53_xor_sound`. -/
example : Sat (witness (xorTrace (F := F) (some (bit true)) (some (bit true)) (some (bit false)))) (xorTrace none none none) :=
  (xor_sat rfl).2 ⟨true, true, rfl, rfl, rfl⟩

end Bellman
