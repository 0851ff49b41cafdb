import Verif.Props.Groth16
import Verif.Props.Batch
import Verif.Props.BatchWeights
import Verif.Props.Malleable
import Verif.Props.Tampered
import Verif.Props.WeakKeys
import Verif.Props.WrongKey
import Verif.Props.Blinding
import Verif.Props.Knowledge
import Verif.Props.Seeing
import Verif.Props.Source
import Verif.Props.Ops
import Verif.Props.Keygen

/-! # Concrete cases: parameters, proofs and verification

The parameters are those of the circuit `y = x²` over the dummy field with `α = 2`, `β = 5`, `γ = 7`, `δ = 11`, `τ = 3`; the proofs are for
`x = 5`, `y = 25`.  Each example applies one theorem to them. -/

namespace Bellman.Cases

open Finset Polynomial

abbrev FE := fieldEngine DummyFr

/-- A key with one public input, and a proof that it accepts for `[2]`. -/
abbrev oneKey : VerifyingKey DummyFr DummyFr := ⟨2, 5, 5, 7, 11, 11, [3, 4]⟩

theorem oneKey_ok : verifyProof FE (prepareVerifyingKey FE oneKey) ⟨1, 109, 2⟩ [2] = some (.ok ()) := by
  exact (C32_verify _ _ _ _).2.1.2 (by decide +kernel)

/-! ### C32 -/

example : verifyProof FE (prepareVerifyingKey FE oneKey) ⟨1, 109, 2⟩ [9] = some (.error .invalidProof) :=
  C32_other_inputs FE oneKey ⟨1, 109, 2⟩ [2] [9] (by decide) oneKey_ok rfl (by decide +kernel)

example : verifyProof FE (prepareVerifyingKey FE oneKey) ⟨1, 109, 2⟩ ([2].set 0 17) = some (.error .invalidProof) :=
  C32_changed_input FE oneKey ⟨1, 109, 2⟩ [2] 0 17 (by decide) (by decide) (by decide) (by decide) oneKey_ok

example : ∃! C : DummyFr, verifyProof FE (prepareVerifyingKey FE oneKey) ⟨1, 109, C⟩ [2] = some (.ok ()) :=
  C32_unique_c FE oneKey 1 109 [2] rfl (by decide)

/-! ### C34 and C76: two witnesses for one statement -/

/-- Parameters and, for both roots of 25, proofs under them. -/
theorem two_proofs (w w' w'' : Worker) (r s r' s' : DummyFr) : ∃ params pf pf',
    generateParameters w (squareCircuit none) (1 : DummyFr) (1 : DummyFr) 2 5 7 11 3 = Res.ok params ∧
    createProof w' (claimCircuit (some 5) (some 25)) params r s = Res.ok pf ∧
    createProof w'' (claimCircuit (some (-5)) (some 25)) params r' s' = Res.ok pf' := by
  obtain ⟨params, pf, hk, hp⟩ := claim_proof w w' 5 25 r s
  obtain ⟨params', pf', hk', hp'⟩ := claim_proof w w'' (-5) 25 r' s'
  cases Res.ok_inj.1 (hk.symm.trans hk')
  exact ⟨params, pf, pf', hk, hp, hp'⟩

theorem sat5 : Sat (witness (claimTrace 5 25)) (claimTrace 5 25) := (claimTrace_sat 5 25).2 (by decide)
theorem satm5 : Sat (witness (claimTrace (-5) 25)) (claimTrace (-5) 25) := (claimTrace_sat (-5) 25).2 (by decide)

example (w w' w'' : Worker) : ∃ params, generateParameters w (squareCircuit none) (1 : DummyFr) (1 : DummyFr) 2 5 7 11 3 = Res.ok params ∧
    ∃ e : DummyFr × DummyFr ≃ DummyFr × DummyFr, ∀ x : DummyFr × DummyFr,
      createProof w' (claimCircuit (some 5) (some 25)) params x.1 x.2 = createProof w'' (claimCircuit (some (-5)) (some 25)) params (e x).1 (e x).2 := by
  obtain ⟨params, pf, pf', hk, hp, hp'⟩ := two_proofs w w' w'' 0 0 0 0
  exact ⟨params, hk, C34_bijection w w' w'' (claimCircuit_shape none (some 5) (some 25)) (claimCircuit_shape none (some (-5)) (some 25))
    1 1 2 5 7 11 3 params hk _ _ (claimTrace_prover 5 25) (claimTrace_prover (-5) 25) sat5 satm5 rfl ⟨0, 0, pf, hp⟩ ⟨0, 0, pf', hp'⟩⟩

example (w w' : Worker) (A B C : DummyFr) : ∃ params, generateParameters w (squareCircuit none) (1 : DummyFr) (1 : DummyFr) 2 5 7 11 3 = Res.ok params ∧
    ((∃! x : DummyFr × DummyFr, createProof w' (claimCircuit (some 5) (some 25)) params x.1 x.2 = Res.ok ⟨A, B, C⟩) ↔
      verifyProof FE (prepareVerifyingKey FE params.vk) ⟨A, B, C⟩ [25] = some (.ok ())) := by
  obtain ⟨params, pf, hk, hp⟩ := claim_proof w w' 5 25 0 0
  exact ⟨params, hk, C34_simulation FE w w' (claimCircuit_shape none (some 5) (some 25)) 1 1 2 5 7 11 3 params hk _
    (claimTrace_prover 5 25) sat5 ⟨0, 0, pf, hp⟩ A B C⟩

example (w w' w'' : Worker) (r s : DummyFr) : ∃ params pf,
    generateParameters w (squareCircuit none) (1 : DummyFr) (1 : DummyFr) 2 5 7 11 3 = Res.ok params ∧
    createProof w' (claimCircuit (some 5) (some 25)) params r s = Res.ok pf ∧
    ∃! x : DummyFr × DummyFr, createProof w'' (claimCircuit (some (-5)) (some 25)) params x.1 x.2 = Res.ok pf := by
  obtain ⟨params, pf, pf', hk, hp, hp'⟩ := two_proofs w w' w'' r s 0 0
  exact ⟨params, pf, hk, hp, C76_hidden FE w w' w'' (claimCircuit_shape none (some 5) (some 25)) (claimCircuit_shape none (some (-5)) (some 25))
    1 1 2 5 7 11 3 r s params pf hk hp ⟨0, 0, pf', hp'⟩ _ _ (claimTrace_prover 5 25) (claimTrace_prover (-5) 25) sat5 satm5 rfl⟩

/-! ### C54 -/

example (z s : DummyFr) (hz : z ≠ 0) : verifyProof FE (prepareVerifyingKey FE oneKey) ((⟨1, 109, 2⟩ : Proof _ _).rerandomize oneKey z s) [2]
    = some (.ok ()) :=
  (C54_rerandomize FE oneKey ⟨1, 109, 2⟩ [2] z s hz).trans oneKey_ok

/-- Another proof for the same input comes from the first by exactly one rerandomisation. -/
example : ∃! x : DummyFr × DummyFr, x.1 ≠ 0 ∧
    (⟨1, 109, 2⟩ : Proof DummyFr DummyFr).rerandomize oneKey x.1 x.2 = (⟨1, 120, 3⟩ : Proof DummyFr DummyFr) :=
  (C54_unique FE oneKey ⟨1, 109, 2⟩ ⟨1, 120, 3⟩ [2] (by decide) oneKey_ok (by decide)).2
    ⟨(C32_verify _ _ _ _).2.1.2 (by decide +kernel), by decide⟩

example (w w' : Worker) (r s z s' : DummyFr) (hz : z ≠ 0) : ∃ params pf,
    generateParameters w (squareCircuit none) (1 : DummyFr) (1 : DummyFr) 2 5 7 11 3 = Res.ok params ∧
    createProof w' (claimCircuit (some 5) (some 25)) params r s = Res.ok pf ∧
    ∃! x : DummyFr × DummyFr, createProof w' (claimCircuit (some 5) (some 25)) params x.1 x.2 = Res.ok (pf.rerandomize params.vk z s') := by
  obtain ⟨params, pf, hk, hp⟩ := claim_proof w w' 5 25 r s
  exact ⟨params, pf, hk, hp, C54_honest FE w w' (claimCircuit_shape none (some 5) (some 25)) 1 1 2 5 7 11 3 r s params pf hk hp _
    (claimTrace_prover 5 25) sat5 z s' hz⟩

/-- With two public inputs there are inputs that share their proofs. -/
example : ∃ ys : List DummyFr, ys.length = 2 ∧ ys ≠ [2, 6] ∧ ∀ pf,
    verifyProof FE (prepareVerifyingKey FE ⟨2, 5, 5, 7, 11, 11, [3, 4, 8]⟩) pf ys =
    verifyProof FE (prepareVerifyingKey FE ⟨2, 5, 5, 7, 11, 11, [3, 4, 8]⟩) pf [2, 6] :=
  C54_collision FE ⟨2, 5, 5, 7, 11, 11, [3, 4, 8]⟩ [2, 6] rfl le_rfl

example (pf : Proof DummyFr DummyFr) : verifyProof FE (prepareVerifyingKey FE ⟨2, 5, 5, 7, 11, 11, [3, 4, 8]⟩) pf [0, 7] =
    verifyProof FE (prepareVerifyingKey FE ⟨2, 5, 5, 7, 11, 11, [3, 4, 8]⟩) pf [2, 6] :=
  C54_inputs FE ⟨2, 5, 5, 7, 11, 11, [3, 4, 8]⟩ [2, 6] [0, 7] rfl (by decide +kernel) pf

example (ys : List DummyFr) (h : verifyProof FE (prepareVerifyingKey FE oneKey) ⟨1, 109, 2⟩ ys = some (.ok ())) : [2] = ys :=
  C54_single_input FE oneKey 3 4 rfl (by decide) (by decide) ⟨1, 109, 2⟩ [2] ys oneKey_ok h

/-! ### C72: shifted parameters -/

/-- The element of `l` for the one auxiliary variable. -/
theorem square_l (w : Worker) (params : Parameters DummyFr DummyFr)
    (hk : generateParameters w (squareCircuit none) (1 : DummyFr) (1 : DummyFr) 2 5 7 11 3 = Res.ok params) :
    params.l.getD 0 0 + 1 ≠ 0 := by
  obtain ⟨params', hk', rfl⟩ := square_generate w
  cases Res.ok_inj.1 (hk.symm.trans hk')
  obtain ⟨_, _, _, _, _, _, u2, v2, w2⟩ := square_values
  show ((Qap.ofTrace squareTrace).comb 2 5 3 (.aux 0) / 11) • (1 : DummyFr) + 1 ≠ 0
  unfold Qap.comb
  rw [u2, v2, w2]
  decide +kernel

/-- One added to the element of the auxiliary variable: proofs are off by the witness, so proving `25 = 5²` reveals itself. -/
example (w w' : Worker) (r s : DummyFr) : ∃ params pf pf',
    generateParameters w (squareCircuit none) (1 : DummyFr) (1 : DummyFr) 2 5 7 11 3 = Res.ok params ∧
    createProof w' (claimCircuit (some 5) (some 25)) params r s = Res.ok pf ∧
    createProof w' (claimCircuit (some 5) (some 25)) (params.shiftL (1 : DummyFr) fun _ => (1 : DummyFr)) r s = Res.ok pf' ∧
    pf'.c = pf.c + 5 := by
  obtain ⟨params, pf, hk, hp⟩ := claim_proof w w' 5 25 r s
  have hl := square_l w params hk
  refine ⟨params, pf, _, hk, hp, C72_shifted (claimTrace_prover 5 25) (by show 1 < _; norm_num) w' params r s pf hp 1 (fun _ => 1) ?_, ?_⟩
  · intro i hi
    obtain rfl : i = 0 := by have : i < 1 := hi; omega
    simpa using hl
  · show pf.c + (∑ i ∈ range 1, 1 * witness (claimTrace 5 25) (.aux i)) • (1 : DummyFr) = pf.c + 5
    rw [sum_range_one]
    congr 1

example (w w' : Worker) (r s : DummyFr) : ∃ params pf',
    generateParameters w (squareCircuit none) (1 : DummyFr) (1 : DummyFr) 2 5 7 11 3 = Res.ok params ∧
    createProof w' (claimCircuit (some 5) (some 25)) (params.shiftL (1 : DummyFr) fun _ => (1 : DummyFr)) r s = Res.ok pf' ∧
    ∀ y : DummyFr, verifyProof FE (prepareVerifyingKey FE params.vk) { pf' with c := pf'.c - y • (1 : DummyFr) } [25] = some (.ok ()) ↔ y = 5 := by
  obtain ⟨params, pf, hk, hp⟩ := claim_proof w w' 5 25 r s
  have hl := square_l w params hk
  obtain ⟨pf', h1, h2⟩ := C72_guess FE w w' (claimCircuit_shape none (some 5) (some 25)) (1 : DummyFr) (1 : DummyFr) (by decide) 2 5 7 11 3 r s params hk
    (claimTrace_prover 5 25) (by show 1 < _; norm_num) sat5 pf hp (fun _ => 1) fun i hi => by
      obtain rfl : i = 0 := by have : i < 1 := hi; omega
      simpa using hl
  refine ⟨params, pf', hk, h1, fun y => (h2 y).trans ?_⟩
  show y = ∑ i ∈ range 1, 1 * witness (claimTrace 5 25) (.aux i) ↔ _
  rw [sum_range_one, one_mul]
  rfl

example (w w' : Worker) (r s : DummyFr) : ∃ params pf',
    generateParameters w (squareCircuit none) (1 : DummyFr) (1 : DummyFr) 2 5 7 11 3 = Res.ok params ∧
    createProof w' (claimCircuit (some 5) (some 25)) (params.shiftL (1 : DummyFr) (Pi.single 0 (1 : DummyFr))) r s = Res.ok pf' ∧
    verifyProof FE (prepareVerifyingKey FE params.vk) pf' [25] ≠ some (.ok ()) := by
  obtain ⟨params, pf, hk, hp⟩ := claim_proof w w' 5 25 r s
  obtain ⟨pf', h1, h2⟩ := C72_detected FE w w' (claimCircuit_shape none (some 5) (some 25)) (1 : DummyFr) (1 : DummyFr) (by decide) 2 5 7 11 3 r s
    params hk (claimTrace_prover 5 25) (by show 1 < _; norm_num) sat5 pf hp 0 (by show 0 < 1; norm_num) (square_l w params hk)
  exact ⟨params, pf', hk, h1, fun h => absurd (h2.1 h) (by decide)⟩

/-! ### C77: weak keys -/

example (w : Worker) : ∃ weak : Parameters DummyFr DummyFr,
    generateParameters w (squareCircuit none) (1 : DummyFr) (1 : DummyFr) 2 5 11 11 3 = Res.ok weak ∧
    ∀ x : DummyFr, verifyProof FE (prepareVerifyingKey FE weak.vk)
      { a := weak.vk.alphaG1, b := weak.vk.betaG2, c := -weak.vk.inputSum [x] } [x] = some (.ok ()) := by
  obtain ⟨params, hk, he⟩ := square_generate w
  obtain ⟨weak, h1, h2, h3⟩ := C77_equal FE w (squareCircuit none) (1 : DummyFr) (1 : DummyFr) 2 5 7 11 3 params hk
  refine ⟨weak, h1, fun x => h3 [x] ?_⟩
  rw [h2, he]
  rfl

example (w : Worker) (x z : DummyFr) : ∃ params : Parameters DummyFr DummyFr,
    generateParameters w (squareCircuit none) (1 : DummyFr) (1 : DummyFr) 2 5 7 11 3 = Res.ok params ∧
    ∃ pf, verifyProof FE (prepareVerifyingKey FE params.vk) pf [x] = some (.ok ()) := by
  obtain ⟨params, hk, he⟩ := square_generate w
  refine ⟨params, hk, _, C77_tau FE w (squareCircuit none) (1 : DummyFr) (1 : DummyFr) 2 5 7 11 3 params hk _ squareTrace_key
    (by rw [square_good.m]; norm_num) (by rw [square_good.m]; decide +kernel) [x] ?_ fun _ => z⟩
  rw [he]
  rfl

/-- Key generation also succeeds with `α = 0`, and then every input can be proved. -/
example (w : Worker) (params : Parameters DummyFr DummyFr) (hk : generateParameters w (squareCircuit none) (1 : DummyFr) (1 : DummyFr) 0 5 7 11 3 = Res.ok params)
    (x : DummyFr) (hl : params.vk.ic.length = 2) :
    verifyProof FE (prepareVerifyingKey FE params.vk)
      { a := params.vk.inputSum [x], b := params.vk.gammaG2 + (4 : DummyFr) • params.vk.deltaG2, c := (4 : DummyFr) • params.vk.inputSum [x] } [x]
      = some (.ok ()) :=
  C77_zero FE w (squareCircuit none) (1 : DummyFr) (1 : DummyFr) 0 5 7 11 3 params hk (.inl rfl) 4 [x] hl.symm

/-- Those hypotheses hold. -/
example (w : Worker) : ∃ params : Parameters DummyFr DummyFr,
    generateParameters w (squareCircuit none) (1 : DummyFr) (1 : DummyFr) 0 5 7 11 3 = Res.ok params ∧ params.vk.ic.length = 2 := by
  have hm : (Qap.ofTrace squareTrace).m = 4 := square_good.m
  obtain ⟨_, _, _, _, _, _, u2, v2, w2⟩ := square_values
  have hc : (Qap.ofTrace squareTrace).comb 0 5 3 (.aux 0) / 11 * 1 ≠ 0 := by
    unfold Qap.comb
    rw [u2, v2, w2]
    decide +kernel
  rcases C29_outcome w (squareCircuit none) (1 : DummyFr) (1 : DummyFr) 0 5 7 11 3 squareTrace squareTrace_key
    (by rw [square_clog]; exact .inl (by norm_num)) (.inr ⟨by rw [hm]; norm_num, by decide⟩) with
    ⟨h, _⟩ | ⟨_, h, _⟩ | ⟨_, _, _, ⟨i, hi, h⟩, _⟩ | ⟨_, _, _, _, h⟩
  · rw [squareTrace_rows] at h
    exact absurd h (by decide)
  · rcases h with h | h <;> exact absurd h (by decide)
  · obtain rfl : i = 0 := by
      have : i < 1 := hi
      omega
    exact absurd h hc
  · exact ⟨_, h, rfl⟩

/-! ### C71, C42, C75: strategies -/

example (r s : DummyFr) : ∃ σ : Strategy DummyFr, (∀ xs, σ.extract xs = assign (1 :: xs) [5]) ∧
    ∀ (w : Worker) (params : Parameters DummyFr DummyFr) (pf : Proof DummyFr DummyFr),
      createProof w (claimCircuit (some 5) (some 25)) params r s = Res.ok pf → ∀ g1 g2 : DummyFr, pf = σ.proof g1 g2 params :=
  C71_algebraic (claimTrace_prover 5 25) r s

/-- A proof exists under the parameters of the circuit, which have room for it. -/
example (w w' : Worker) (r s : DummyFr) : ∃ params : Parameters DummyFr DummyFr,
    generateParameters w (squareCircuit none) (1 : DummyFr) (1 : DummyFr) 2 5 7 11 3 = Res.ok params ∧
    1 ≤ params.l.length ∧ 2 ≤ params.a.length ∧ 4 ≤ params.h.length + 1 := by
  obtain ⟨params, pf, hk, hp⟩ := claim_proof w w' 5 25 r s
  have h := C71_room (claimTrace_prover 5 25) hp
  rw [claimTrace_qap, square_good.m] at h
  exact ⟨params, hk, h⟩

/-- The strategy of the honest prover with `x = 5`: its assignment satisfies the circuit, as `C42_knowledge` says for all but few parameters. -/
example (σ : Strategy DummyFr) : Sat (σ.extract [25]) squareTrace ∨
    ({x : DummyFr × DummyFr × DummyFr × DummyFr × DummyFr | ∃ (w : Worker) (g1 g2 : DummyFr) (params : Parameters DummyFr DummyFr),
        g1 ≠ 0 ∧ g2 ≠ 0 ∧ generateParameters w (squareCircuit none) g1 g2 x.1 x.2.1 x.2.2.1 x.2.2.2.1 x.2.2.2.2 = Res.ok params ∧
        verifyProof FE (prepareVerifyingKey FE params.vk) (σ.proof g1 g2 params) [25] = some (.ok ())} : Set _).ncard ≤ 31 * 64513 ^ 4 := by
  have h := C42_knowledge FE (G1 := DummyFr) (G2 := DummyFr) squareTrace_key [25] σ
  rw [show (Qap.ofTrace squareTrace).m = 4 from square_good.m] at h
  exact h

example (w w' : Worker) (σ : SeeingStrategy DummyFr 1) : Sat (σ.extract [36]) squareTrace ∨
    ({x : (DummyFr × DummyFr × DummyFr × DummyFr × DummyFr) × (Fin 1 → DummyFr × DummyFr) |
        ∃ (params : Parameters DummyFr DummyFr) (seen : Fin 1 → Proof DummyFr DummyFr),
        generateParameters w (squareCircuit none) 1 1 x.1.1 x.1.2.1 x.1.2.2.1 x.1.2.2.2.1 x.1.2.2.2.2 = Res.ok params ∧
        (∀ k, createProof w' (claimCircuit (some 5) (some 25)) params (x.2 k).1 (x.2 k).2 = Res.ok (seen k)) ∧
        verifyProof FE (prepareVerifyingKey FE params.vk) (σ.proof 1 1 params seen) [36] = some (.ok ())} : Set _).ncard ≤ 34 * 64513 ^ 6 := by
  have h := C75_knowledge FE w w' squareTrace_key 1 1 one_ne_zero one_ne_zero (fun _ : Fin 1 => claimCircuit (some 5) (some 25))
    (fun _ => ⟨_, claimCircuit_shape none (some 5) (some 25)⟩) (fun _ => claimTrace 5 25) (fun _ => claimTrace_prover 5 25) (fun _ => sat5) [36]
    (fun _ => by decide) σ
  rw [show (Qap.ofTrace squareTrace).m = 4 from square_good.m] at h
  exact h

/-! ### C46 and C29 -/

example : ({x : DummyFr × DummyFr × DummyFr × DummyFr × DummyFr | ∃ (w : Worker) (g1 g2 : DummyFr) (params : Parameters DummyFr DummyFr),
      g1 ≠ 0 ∧ g2 ≠ 0 ∧ generateParameters w (squareCircuit none) g1 g2 x.1 x.2.1 x.2.2.1 x.2.2.2.1 x.2.2.2.2 = Res.ok params ∧
      ¬ ((∀ v ∈ [params.vk.ic, params.h, params.l, params.a, params.bG1], ∀ g ∈ v, g ≠ 0) ∧ ∀ g ∈ params.bG2, g ≠ 0)} : Set _).ncard ≤
    13 * 64513 ^ 4 := by
  have h := C46_storable (G1 := DummyFr) (G2 := DummyFr) _ _ squareTrace_key
  rw [show (Qap.ofTrace squareTrace).m = 4 from square_good.m] at h
  exact h

example : IsPrimitiveRoot (Qap.ofTrace squareTrace).ω (Qap.ofTrace squareTrace).m ∧ (Qap.ofTrace squareTrace).rows.length ≤ (Qap.ofTrace squareTrace).m :=
  have h := C29_polynomials squareTrace (by rw [squareTrace_rows]; decide)
  ⟨h.1, h.2.2.1⟩

/-! ### C35, C36, C73, C81: batches -/

theorem pair_ok : verifyProof FE (prepareVerifyingKey FE batchKey) (⟨1, 70, 1⟩ : Proof DummyFr DummyFr) [1] = some (.ok ()) :=
  (C32_verify _ _ _ _).2.1.2 (by decide +kernel)

theorem pair_bad : verifyProof FE (prepareVerifyingKey FE batchKey) (⟨1, 71, 1⟩ : Proof DummyFr DummyFr) [1] = some (.error .invalidProof) :=
  (C32_verify _ _ _ _).2.2.2 (by decide +kernel)

/-- Whatever the tapes: two valid items never make the batch fail. -/
example (tape : List DummyFr) (tapes : ℕ → List DummyFr) (e : VerificationError) :
    (⟨[batchItem 70, batchItem 70]⟩ : BatchVerifier DummyFr DummyFr DummyFr).verify FE tape batchKey ≠ some (.error e) ∧
    (⟨[batchItem 70, batchItem 70]⟩ : BatchVerifier DummyFr DummyFr DummyFr).verifyMulticore FE tapes (.node .identity .item) batchKey ≠ some (.error e) :=
  C35_no_error FE batchKey ⟨[batchItem 70, batchItem 70]⟩ tape tapes (.node .identity .item) rfl
    (by intro it hit; simp at hit; rw [hit]; exact batchItem_ok) e

example (tapes : ℕ → List DummyFr) : (BatchVerifier.new : BatchVerifier DummyFr DummyFr DummyFr).verify FE [] batchKey = some (.ok ()) ∧
    (BatchVerifier.new : BatchVerifier DummyFr DummyFr DummyFr).verifyMulticore FE tapes (.node .identity .identity) batchKey = some (.ok ()) :=
  C35_empty FE batchKey tapes (.node .identity .identity) rfl

example : (([(⟨1, 70, 1⟩, [1]), (⟨1, 70, 1⟩, [1])] : List (Proof DummyFr DummyFr × List DummyFr)).foldl
    (fun (v : BatchVerifier DummyFr DummyFr DummyFr) x => v.queue (Item.ofPair x)) BatchVerifier.new).verify FE [6, 0, 8] batchKey = some (.ok ()) :=
  C35_queued FE batchKey _ [6, 0, 8] (by intro x hx; simp at hx; rw [hx]; exact pair_ok) (by decide)

example : (([] ++ (⟨1, 71, 1⟩, [1]) :: [(⟨1, 70, 1⟩, [1])] : List (Proof DummyFr DummyFr × List DummyFr)).foldl
    (fun (v : BatchVerifier DummyFr DummyFr DummyFr) x => v.queue (Item.ofPair x)) BatchVerifier.new).verify FE [6, 0, 8] batchKey =
      some (.error .invalidProof) :=
  C36_queued FE batchKey [] [((⟨1, 70, 1⟩ : Proof DummyFr DummyFr), [1])] ((⟨1, 71, 1⟩ : Proof DummyFr DummyFr), [1]) [6, 0, 8] (by intro x hx; simp at hx; rw [hx]; exact pair_ok) pair_bad (by decide)

/-- An invalid item in a batch of one chunk. -/
example :=
  C36_multicore_count FE batchKey ⟨[batchItem 71, batchItem 69]⟩ (batchItem 71) (by simp) (batchItem_bad 71 (by decide)) .item rfl

example (o : Ops) : (⟨[batchItem 70, { batchItem 70 with inputs := [] }]⟩ : BatchVerifier DummyFr DummyFr DummyFr).verifyC FE [3, 4] batchKey o =
      some (.error .invalidVerifyingKey, o) :=
  (C73_batch_mismatch FE ⟨[batchItem 70, { batchItem 70 with inputs := [] }]⟩ [3, 4] (fun _ => [1]) .item batchKey { batchItem 70 with inputs := [] }
    (by simp) (by decide) o).1

/-- Two items one by one: two Miller loops, six pairs, two final exponentiations, two multiplications. -/
example (o : Ops) : ([batchItem 70, batchItem 71].mapM fun it : Item DummyFr DummyFr DummyFr => it.verifySingleC FE (prepareVerifyingKey FE batchKey)) o =
    ([batchItem 70, batchItem 71].mapM fun it : Item DummyFr DummyFr DummyFr => it.verifySingle FE (prepareVerifyingKey FE batchKey)).map fun r =>
      (r, o + { millerLoops := 2, pairs := 6, finalExps := 2, muls := 2 }) :=
  C73_one_by_one FE [batchItem 70, batchItem 71] (prepareVerifyingKey FE batchKey) 1 rfl
    (by intro it hit; simp at hit; rcases hit with rfl | rfl <;> rfl) o

/-- Whatever the weight, a batch of one item is accepted exactly if the item is. -/
example (z : DummyFr) (hz : z ≠ 0) : (⟨[batchItem 71]⟩ : BatchVerifier DummyFr DummyFr DummyFr).verify FE [z] batchKey ≠ some (.ok ()) := by
  have hw : weights [z] ≠ [] := by simp [weights, hz]
  rw [Ne, (C81_one FE batchKey (batchItem 71) [z] hw (fun _ => [z]) hw .item rfl).1, batchItem_bad 71 (by decide)]
  simp

example (a b : DummyFrˣ) : (⟨[batchItem 71, batchItem 69]⟩ : BatchVerifier DummyFr DummyFr DummyFr).verify FE [(a : DummyFr), b] batchKey =
    (⟨[batchItem 69, batchItem 71]⟩ : BatchVerifier DummyFr DummyFr DummyFr).verify FE [(b : DummyFr), a] batchKey :=
  C81_order FE batchKey (l := [(a, batchItem 71), (b, batchItem 69)]) (l' := [(b, batchItem 69), (a, batchItem 71)]) (.swap _ _ _)

end Bellman.Cases
