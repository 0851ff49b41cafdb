import Verif.Props.WrongKey
import Verif.Props.UnitTests

/-!
# C72: `create_proof` trusts its parameters
-/

namespace Bellman

open PrimeField Finset UnitTests

set_option linter.unusedSectionVars false

variable {F G1 G2 GT : Type} [PrimeField F] [AddCommGroup G1] [AddCommGroup G2] [AddCommGroup GT] [Module F G1] [Module F G2]
  [Module F GT] [DecidableEq G1] [DecidableEq G2] [DecidableEq GT]

/-- Parameters whose elements `l` somebody has shifted by known multiples of the generator. -/
def Parameters.shiftL (params : Parameters G1 G2) (g1 : G1) (d : ℕ → F) : Parameters G1 G2 :=
  { params with l := params.l.mapIdx fun i x => x + d i • g1 }

/-- C72: with the parameters shifted in `l`, whatever their origin, `create_proof` returns the same proof with `Σ dᵢ zᵢ` times the
generator added to its third element, `zᵢ` being the auxiliary variables. -/
theorem C72_shifted {pc : Synth F Unit} {t : List (Ev F)} (ht : ProverTrace pc t) (k32 : numAux t < 2 ^ 32) (w : Worker)
    (params : Parameters G1 G2) (r s : F) (pf : Proof G1 G2) (hp : createProof w pc params r s = Res.ok pf) (g1 : G1) (d : ℕ → F)
    (hid : ∀ i < numAux t, params.l.getD i 0 + d i • g1 ≠ 0) :
    createProof w pc (params.shiftL g1 d) r s =
      Res.ok { pf with c := pf.c + (∑ i ∈ range (numAux t), d i * witness t (.aux i)) • g1 } := by
  obtain ⟨p, h, l, a1, a2, b1, b2, c1, c2, hass, hA, hδ1, hδ2⟩ := createProof_ok_inv hp
  have ha := ht.assigned hass
  have hpf := createProof_ok_of w pc params r s p h l a1 a2 b1 b2 c1 c2 hass hA hδ1 hδ2
  rw [hp] at hpf
  cases hpf
  obtain ⟨-, hs, -, hl⟩ := C24_ok _ _ _ _ _ hA.l
  simp only [Short, queried, not_lt, Nat.sub_zero] at hs hl
  have haux : p.auxAssignment.length = numAux t := by rw [ha.aux, ha.nAux]
  have hget : ∀ i < numAux t, (params.l.mapIdx fun i x => x + d i • g1).getD i 0 = params.l.getD i 0 + d i • g1 := by
    intro i hi
    have : i < params.l.length := by omega
    simp [this]
  have hl' := C24_full (w.site 2) (params.shiftL g1 d).l p.auxAssignment 0 (by omega)
    (by show 0 + _ ≤ (params.l.mapIdx _).length; rw [List.length_mapIdx]; omega)
    (fun i hi => by
      rw [Nat.zero_add]
      show (params.l.mapIdx _).getD i 0 ≠ 0
      rw [hget i (by omega)]
      exact hid i (by omega))
  have hA' : Answers w p (params.shiftL g1 d) h (l + (∑ i ∈ range (numAux t), d i * witness t (.aux i)) • g1) a1 a2 b1 b2 c1 c2 := by
    refine ⟨hA.h, ?_, hA.a1, hA.a2, hA.b1, hA.b2, hA.c1, hA.c2⟩
    rw [hl', hl, haux, sum_smul, ← sum_add_distrib]
    congr 2
    refine sum_congr rfl fun i hi => ?_
    rw [Nat.zero_add]
    show _ • (params.l.mapIdx _).getD i 0 = _
    rw [hget i (mem_range.1 hi), smul_add, ← mul_smul, ha.aux, mul_comm]
    rfl
  have := createProof_ok_of w pc (params.shiftL g1 d) r s p h _ a1 a2 b1 b2 c1 c2 hass hA' hδ1 hδ2
  rw [this]
  congr 2
  exact (add_assoc _ _ _).symm

/-- C72: with the verifying key alone, anybody can test a guess `y` for `Σ dᵢ zᵢ` of a proof made with the shifted parameters: they
subtract `y` times the generator and call `verify_proof`. -/
theorem C72_guess (E : Engine F G1 G2 GT) (w w' : Worker) {R : Unit → Unit → Prop} {kc pc : Synth F Unit} (h : SShape R kc pc) (g1 : G1)
    (g2 : G2) (hg1 : g1 ≠ 0) (α β γ δ τ r s : F) (params : Parameters G1 G2) (hk : generateParameters w kc g1 g2 α β γ δ τ = Res.ok params)
    {t : List (Ev F)} (ht : ProverTrace pc t) (k32 : numAux t < 2 ^ 32) (hsat : Sat (witness t) t) (pf : Proof G1 G2)
    (hp : createProof w' pc params r s = Res.ok pf) (d : ℕ → F) (hid : ∀ i < numAux t, params.l.getD i 0 + d i • g1 ≠ 0) :
    ∃ pf', createProof w' pc (params.shiftL g1 d) r s = Res.ok pf' ∧
      ∀ y : F, verifyProof E (prepareVerifyingKey E params.vk) { pf' with c := pf'.c - y • g1 } (inVals t) = some (.ok ()) ↔
        y = ∑ i ∈ range (numAux t), d i * witness t (.aux i) := by
  refine ⟨_, C72_shifted ht k32 w' params r s pf hp g1 d hid, fun y => ?_⟩
  set v := ∑ i ∈ range (numAux t), d i * witness t (.aux i)
  have hok := C30_completeness E w w' h g1 g2 α β γ δ τ r s params pf hk hp t ht hsat
  obtain ⟨p, _, _, _, _, _, _, _, _, hass, hA, hδ1, hδ2⟩ := createProof_ok_inv hp
  have hlen : (inVals t).length + 1 = params.vk.ic.length := ((C32_verify E params.vk pf (inVals t)).2.1.1 hok).1
  constructor
  · intro hv
    have := (C32_unique_c E params.vk pf.a pf.b (inVals t) hlen hδ2).unique hv hok
    have h0 : (v - y) • g1 = 0 := by
      rw [sub_smul]
      have h1 : pf.c + v • g1 - y • g1 = pf.c := this
      rw [add_sub_assoc, add_eq_left] at h1
      exact h1
    rcases smul_eq_zero.1 h0 with h0 | h0
    · exact (sub_eq_zero.1 h0).symm
    · exact absurd h0 hg1
  · rintro rfl
    show verifyProof E _ ⟨pf.a, pf.b, pf.c + v • g1 - v • g1⟩ _ = _
    rw [add_sub_cancel_right]
    exact hok

/-- C72: so the proof itself is accepted exactly if the shifts cancel, and whoever shifts `l` in one place by the generator learns whether
that variable is zero from the answer of `verify_proof`. -/
theorem C72_detected (E : Engine F G1 G2 GT) (w w' : Worker) {R : Unit → Unit → Prop} {kc pc : Synth F Unit} (h : SShape R kc pc) (g1 : G1)
    (g2 : G2) (hg1 : g1 ≠ 0) (α β γ δ τ r s : F) (params : Parameters G1 G2) (hk : generateParameters w kc g1 g2 α β γ δ τ = Res.ok params)
    {t : List (Ev F)} (ht : ProverTrace pc t) (k32 : numAux t < 2 ^ 32) (hsat : Sat (witness t) t) (pf : Proof G1 G2)
    (hp : createProof w' pc params r s = Res.ok pf) (j : ℕ) (hj : j < numAux t) (hid : params.l.getD j 0 + g1 ≠ 0) :
    ∃ pf', createProof w' pc (params.shiftL g1 (Pi.single j (1 : F))) r s = Res.ok pf' ∧
      (verifyProof E (prepareVerifyingKey E params.vk) pf' (inVals t) = some (.ok ()) ↔ witness t (.aux j) = 0) := by
  obtain ⟨t0, ht0, _, hpar, _, _, hl, _⟩ := C29_crs w kc g1 g2 α β γ δ τ params hk
  obtain ⟨pf', h1, h2⟩ := C72_guess E w w' h g1 g2 hg1 α β γ δ τ r s params hk ht k32 hsat pf hp (Pi.single j (1 : F)) (fun i hi => by
    by_cases hij : i = j
    · subst hij
      rwa [Pi.single_eq_same, one_smul]
    · rw [Pi.single_eq_of_ne hij, zero_smul, add_zero]
      have hlen : params.l.length = numAux t := by
        rw [(C29_lengths t0 g1 g2 α β γ δ τ params hpar).2.1]
        have := ofTrace_same (pair_traces h ht0 ht)
        exact congrArg Qap.k this
      have hi' : i < params.l.length := by omega
      rw [List.getD_eq_getElem?_getD, List.getElem?_eq_getElem hi']
      exact hl _ (List.getElem_mem hi'))
  refine ⟨pf', h1, ?_⟩
  have h3 := h2 0
  rw [zero_smul, sub_zero] at h3
  rw [h3, sum_eq_single j (fun i _ hij => by rw [Pi.single_eq_of_ne hij, zero_mul]) (fun hn => absurd (mem_range.2 hj) hn),
    Pi.single_eq_same, one_mul]
  exact eq_comm

/-- C72, in the setup of the unit test `test_xordemo`: with the key shifted in one place, the answer of `verify_proof` tells the two witnesses of the
same statement apart, for all blinding factors. -/
theorem C72_xor (w w' : Worker) : ∃ params : Parameters DummyFr DummyFr,
    generateParameters w ((XorDemo.mk none none).synthesize (F := DummyFr)) (1 : DummyFr) (1 : DummyFr) 48577 22580 53332 5481 3673 = Res.ok params ∧
    ∀ (a b : Bool) (r s : DummyFr), ∃ pf,
      createProof w' ((XorDemo.mk (some a) (some b)).synthesize (F := DummyFr)) (params.shiftL 1 (Pi.single 0 (1 : DummyFr))) r s = Res.ok pf ∧
      (verifyProof (fieldEngine DummyFr) (prepareVerifyingKey (fieldEngine DummyFr) params.vk) pf [bit (a ^^ b)] = some (.ok ()) ↔ a = false) := by
  obtain ⟨params, _, hk, _, _, _, _, _, hl, _⟩ := C53_xor_test w w'
  refine ⟨params, hk, fun a b r s => ?_⟩
  cases hk.symm.trans (xq_generate w)
  have hq : Qap.ofTrace (xorTrace (F := DummyFr) (some (bit a)) (some (bit b)) (some (bit (a ^^ b)))) = xq := rfl
  obtain ⟨pf, hp⟩ := (C31_outcome w' (xor_shape (F := DummyFr) none none (some a) (some b)) (1 : DummyFr) (1 : DummyFr) 48577 22580 53332 5481 3673
    r s _ _ xor_key (xor_prover a b) (show 1 + 1 < 2 ^ 32 by norm_num) (show 2 < 2 ^ 32 by norm_num)
    (by rw [hq, xor_m]; norm_num)).2
    ⟨by rw [hq]; exact xq_ready _ _, by rw [hq, xor_rows]; decide, by rw [hq, xor_rows, clog_five]; exact .inl (by norm_num)⟩
  have hsat : Sat (witness (xorTrace (F := DummyFr) (some (bit a)) (some (bit b)) (some (bit (a ^^ b)))))
      (xorTrace (some (bit a)) (some (bit b)) (some (bit (a ^^ b)))) := (xor_sat rfl).2 ⟨a, b, rfl, rfl, rfl⟩
  obtain ⟨pf', h1, h2⟩ := C72_detected (fieldEngine DummyFr) w w' (xor_shape none none (some a) (some b)) (1 : DummyFr) (1 : DummyFr) one_ne_zero
    48577 22580 53332 5481 3673 r s _ hk (xor_prover a b) (show 2 < 2 ^ 32 by norm_num) hsat pf hp 0 (show 0 < 2 by norm_num)
    (by rw [hl]; decide +kernel)
  refine ⟨pf', h1, h2.trans ?_⟩
  show bit a = (0 : DummyFr) ↔ _
  cases a <;> simp [bit]

end Bellman
