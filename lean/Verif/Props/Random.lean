import Verif.Groth16.Random
import Verif.Props.Preimage

/-!
# C45: the entry points that draw their own randomness
-/

namespace Bellman

open PrimeField

set_option linter.unusedSectionVars false

variable {F : Type} [PrimeField F] {G1 G2 GT σ : Type} [AddCommGroup G1] [AddCommGroup G2] [AddCommGroup GT] [Module F G1] [Module F G2]
  [Module F GT] [DecidableEq G1] [DecidableEq G2] [DecidableEq GT]

/-- What successive calls of `Field::random` return. -/
def Rng.fields (rng : Rng σ F G1 G2) : ℕ → σ → List F
  | 0, _ => []
  | n + 1, s => (rng.field s).1 :: rng.fields n (rng.field s).2

/-- The next `n` field elements are uniform and independent when the state is uniform: every list of `n` elements is returned from
the same number of states. -/
def Rng.Uniform (rng : Rng σ F G1 G2) (n : ℕ) : Prop :=
  ∀ xs : List F, xs.length = n → {s | rng.fields n s = xs}.ncard * p F ^ n = Nat.card σ

/-- The same, after two group elements have been drawn. -/
def Rng.UniformAfterGroups (rng : Rng σ F G1 G2) (n : ℕ) : Prop :=
  ∀ xs : List F, xs.length = n → {s | rng.fields n (rng.g2 (rng.g1 s).2).2 = xs}.ncard * p F ^ n = Nat.card σ

/-- C45, completeness: whatever the generator returns, a proof of a satisfied circuit verifies. -/
theorem C45_complete {R : Unit → Unit → Prop} {kc pc : Synth F Unit} (h : SShape R kc pc) (E : Engine F G1 G2 GT)
    (rng : Rng σ F G1 G2) (w w' : Worker) (s1 s2 : σ) (params : Parameters G1 G2) (pf : Proof G1 G2)
    (hk : (generateRandomParameters rng w kc s1).1 = Res.ok params) (hp : (createRandomProof rng w' pc params s2).1 = Res.ok pf)
    (t : List (Ev F)) (ht : ProverTrace pc t) (hsat : Sat (witness t) t) :
    verifyProof E (prepareVerifyingKey E params.vk) pf (inVals t) = some (.ok ()) :=
  C30_completeness E w w' h _ _ _ _ _ _ _ _ _ params pf hk hp t ht hsat

/-- Counting the states by the value of a map with equally large fibres. -/
theorem ncard_fibres {X : Type} [Finite σ] [Finite X] (f : σ → X) (k N : ℕ) (hf : ∀ x, {s | f s = x}.ncard * k = N) (A : Set X) :
    {s | f s ∈ A}.ncard * k = A.ncard * N := by
  classical
  have := Fintype.ofFinite σ
  have := Fintype.ofFinite X
  have h1 : {s | f s ∈ A}.ncard = ∑ x ∈ A.toFinset, {s | f s = x}.ncard := by
    rw [Set.ncard_eq_toFinset_card', Finset.card_eq_sum_card_fiberwise (f := f) (t := A.toFinset) (fun s hs => by simpa using hs)]
    refine Finset.sum_congr rfl fun x hx => ?_
    rw [Set.ncard_eq_toFinset_card']
    congr 1
    ext s
    simp only [Finset.mem_filter, Set.mem_toFinset, Set.mem_ofPred_eq]
    constructor
    · exact fun h => h.2
    · rintro rfl; exact ⟨by simpa using hx, rfl⟩
  rw [h1, Finset.sum_mul, Finset.sum_congr rfl (fun x _ => hf x), Finset.sum_const, Set.ncard_eq_toFinset_card' A, smul_eq_mul]

/-- C45, knowledge soundness in terms of the states of the generator: of all states, at most a fraction `D / |F|` lead
`generate_random_parameters` to parameters for which the prover convinces the verifier without having a satisfying assignment. -/
theorem C45_knowledge [Finite σ] (E : Engine F G1 G2 GT) {kc : Synth F Unit} {t : List (Ev F)} (ht : KeyTrace kc t) (xs : List F)
    (st : Strategy F) (rng : Rng σ F G1 G2) (hu : rng.UniformAfterGroups 5) (hno : ¬ Sat (st.extract xs) t) :
    {s | ∃ (w : Worker) (params : Parameters G1 G2), (rng.g1 s).1 ≠ 0 ∧ (rng.g2 (rng.g1 s).2).1 ≠ 0 ∧
        (generateRandomParameters rng w kc s).1 = Res.ok params ∧
        verifyProof E (prepareVerifyingKey E params.vk) (st.proof (rng.g1 s).1 (rng.g2 (rng.g1 s).2).1 params) xs =
          some (.ok ())}.ncard * p F ≤
      (3 * (Qap.ofTrace t).m + 1 + 2 * (numIn t + 1 + numAux t) * ((Qap.ofTrace t).m - 1)) * Nat.card σ := by
  have := PrimeField.finite (F := F)
  set D := 3 * (Qap.ofTrace t).m + 1 + 2 * (numIn t + 1 + numAux t) * ((Qap.ofTrace t).m - 1) with hD
  have hb := (C42_knowledge (G1 := G1) (G2 := G2) E ht xs st).resolve_left hno
  rw [← hD] at hb
  set A : Set (F × F × F × F × F) := {x | ∃ (w : Worker) (g1 : G1) (g2 : G2) (params : Parameters G1 G2), g1 ≠ 0 ∧ g2 ≠ 0 ∧
        generateParameters w kc g1 g2 x.1 x.2.1 x.2.2.1 x.2.2.2.1 x.2.2.2.2 = Res.ok params ∧
        verifyProof E (prepareVerifyingKey E params.vk) (st.proof g1 g2 params) xs = some (.ok ())} with hA
  let f : σ → F × F × F × F × F := fun s =>
    let s := (rng.g2 (rng.g1 s).2).2
    let a := rng.field s
    let b := rng.field a.2
    let c := rng.field b.2
    let d := rng.field c.2
    let e := rng.field d.2
    (a.1, b.1, c.1, d.1, e.1)
  have hf : ∀ x, {s | f s = x}.ncard * p F ^ 5 = Nat.card σ := by
    rintro ⟨a, b, c, d, e⟩
    rw [← hu [a, b, c, d, e] rfl]
    congr 2
    ext s
    simp [f, Rng.fields]
  have h1 := ncard_fibres f _ _ hf A
  have hle : {s | ∃ (w : Worker) (params : Parameters G1 G2), (rng.g1 s).1 ≠ 0 ∧ (rng.g2 (rng.g1 s).2).1 ≠ 0 ∧
        (generateRandomParameters rng w kc s).1 = Res.ok params ∧
        verifyProof E (prepareVerifyingKey E params.vk) (st.proof (rng.g1 s).1 (rng.g2 (rng.g1 s).2).1 params) xs =
          some (.ok ())}.ncard ≤ {s | f s ∈ A}.ncard := by
    refine Set.ncard_le_ncard ?_ (Set.toFinite _)
    rintro s ⟨w, params, z1, z2, hk, hv⟩
    exact ⟨w, _, _, params, z1, z2, hk, hv⟩
  have hp : 0 < p F ^ 4 := Nat.pow_pos (p_pos (F := F))
  refine Nat.le_of_mul_le_mul_right ?_ hp
  calc _ ≤ {s | f s ∈ A}.ncard * p F * p F ^ 4 := Nat.mul_le_mul_right _ (Nat.mul_le_mul_right _ hle)
    _ = A.ncard * Nat.card σ := by rw [← h1]; ring
    _ ≤ D * p F ^ 4 * Nat.card σ := Nat.mul_le_mul_right _ hb
    _ = _ := by ring

/-- C45, perfect zero knowledge: over a uniform generator `create_random_proof` returns each proof that the verifier accepts for the
public inputs with the same probability `1 / |F|²`, and no other; the witness plays no role. -/
theorem C45_zero_knowledge [Finite σ] (E : Engine F G1 G2 GT) (w w' : Worker) {R : Unit → Unit → Prop} {kc pc : Synth F Unit}
    (h : SShape R kc pc) (g1 : G1) (g2 : G2) (α β γ δ τ : F) (params : Parameters G1 G2)
    (hk : generateParameters w kc g1 g2 α β γ δ τ = Res.ok params)
    (t : List (Ev F)) (ht : ProverTrace pc t) (hs : Sat (witness t) t) (hok : ∃ (r s : F) (pf : Proof G1 G2), createProof w' pc params r s = Res.ok pf)
    (rng : Rng σ F G1 G2) (hu : rng.Uniform 2) (pf : Proof G1 G2) :
    {s | (createRandomProof rng w' pc params s).1 = Res.ok pf}.ncard * p F ^ 2 =
      if verifyProof E (prepareVerifyingKey E params.vk) pf (inVals t) = some (.ok ()) then Nat.card σ else 0 := by
  have := PrimeField.finite (F := F)
  have hf : ∀ x : F × F, {s | ((rng.field s).1, (rng.field (rng.field s).2).1) = x}.ncard * p F ^ 2 = Nat.card σ := by
    rintro ⟨a, b⟩
    rw [← hu [a, b] rfl]
    congr 2
    ext s
    simp [Rng.fields]
  have h1 := ncard_fibres _ _ _ hf {x : F × F | createProof w' pc params x.1 x.2 = Res.ok pf}
  have h2 := C34_simulation E w w' h g1 g2 α β γ δ τ params hk t ht hs hok pf.a pf.b pf.c
  change {s | createProof w' pc params (rng.field s).1 (rng.field (rng.field s).2).1 = Res.ok pf}.ncard * _ = _
  change {s | createProof w' pc params (rng.field s).1 (rng.field (rng.field s).2).1 = Res.ok pf}.ncard * _ = _ at h1
  rw [h1]
  split
  · rename_i hv
    obtain ⟨x, hx, hun⟩ := h2.2 hv
    have : {x : F × F | createProof w' pc params x.1 x.2 = Res.ok pf} = {x} := by
      ext y
      exact ⟨fun hy => hun y hy, fun hy => by rw [Set.mem_singleton_iff] at hy; rw [hy]; exact hx⟩
    rw [this, Set.ncard_singleton, Nat.one_mul]
  · rename_i hv
    have : {x : F × F | createProof w' pc params x.1 x.2 = Res.ok pf} = ∅ := by
      ext y
      refine ⟨fun hy => hv ?_, fun hy => hy.elim⟩
      exact C30_completeness E w w' h g1 g2 α β γ δ τ y.1 y.2 params _ hk hy t ht hs
    rw [this, Set.ncard_empty, Nat.zero_mul]

theorem generateRandomParameters_fst (rng : Rng σ F G1 G2) (w : Worker) (kc : Synth F Unit) (s : σ) :
    ∃ (g1 : G1) (g2 : G2) (α β γ δ τ : F), (generateRandomParameters rng w kc s).1 = generateParameters w kc g1 g2 α β γ δ τ :=
  ⟨_, _, _, _, _, _, _, rfl⟩

theorem createRandomProof_fst (rng : Rng σ F G1 G2) (w : Worker) (pc : Synth F Unit) (params : Parameters G1 G2) (st : σ) :
    ∃ r s : F, (createRandomProof rng w pc params st).1 = createProof w pc params r s := ⟨_, _, rfl⟩

/-- C45: the program of the crate documentation, with one generator that serves both calls. -/
theorem C45_documentation (h64 : 64 ≤ NUM_BITS F) (E : Engine F G1 G2 GT) (rng : Rng σ F G1 G2) (w w' : Worker) (s s' s'' : σ)
    (params : Parameters G1 G2) (pf : Proof G1 G2) (m : List (BitVec 8)) (hm : m.length = 80)
    (hk : generateRandomParameters rng w (Preimage.MyCircuit.mk none).synthesize s = (Res.ok params, s'))
    (hp : createRandomProof rng w' (Preimage.MyCircuit.mk (some m)).synthesize params s' = (Res.ok pf, s'')) :
    ∃ xs, computeMultipacking F (bytesToBitsLe (Spec.sha256d m)) = some xs ∧
      verifyProof E (prepareVerifyingKey E params.vk) pf xs = some (.ok ()) := by
  obtain ⟨g1, g2, α, β, γ, δ, τ, e⟩ := generateRandomParameters_fst rng w (Preimage.MyCircuit.mk none).synthesize s
  obtain ⟨r, s, e'⟩ := createRandomProof_fst rng w' (Preimage.MyCircuit.mk (some m)).synthesize params s'
  rw [hk] at e
  rw [hp] at e'
  exact C44_accept h64 E w w' g1 g2 α β γ δ τ r s params pf m hm e.symm e'.symm

/-! ### The hypotheses are met -/

/-- A generator that reads a tape of two elements round and round. -/
def tape2 : Rng (F × F) F F F where
  field s := (s.1, (s.2, s.1))
  g1 s := (1, s)
  g2 s := (1, s)

theorem tape2_uniform : (tape2 (F := F)).Uniform 2 := by
  intro xs hx
  match xs, hx with
  | [a, b], _ =>
    have : {s | (tape2 (F := F)).fields 2 s = [a, b]} = {(a, b)} := by
      ext ⟨x, y⟩
      simp [Rng.fields, tape2]
    rw [this, Set.ncard_singleton, Nat.card_prod, PrimeField.card_eq]
    ring

/-- A generator that reads a tape of five elements round and round. -/
def tape5 : Rng (F × F × F × F × F) F F F where
  field s := (s.1, (s.2.1, s.2.2.1, s.2.2.2.1, s.2.2.2.2, s.1))
  g1 s := (1, s)
  g2 s := (1, s)

theorem tape5_uniform : (tape5 (F := F)).UniformAfterGroups 5 := by
  intro xs hx
  match xs, hx with
  | [a, b, c, d, e], _ =>
    have : {s | (tape5 (F := F)).fields 5 ((tape5 (F := F)).g2 ((tape5 (F := F)).g1 s).2).2 = [a, b, c, d, e]} = {(a, b, c, d, e)} := by
      ext ⟨x, y, z, u, v⟩
      simp [Rng.fields, tape5]
    rw [this, Set.ncard_singleton]
    simp only [Nat.card_prod, PrimeField.card_eq]
    ring

/-- `C45_zero_knowledge` applies to the witness 5 for the public input 25. -/
example (w w' : Worker) (pf : Proof DummyFr DummyFr) : ∃ params,
    generateParameters w (squareCircuit none) (1 : DummyFr) (1 : DummyFr) 2 5 7 11 3 = Res.ok params ∧
    {s | (createRandomProof tape2 w' (claimCircuit (some 5) (some 25)) params s).1 = Res.ok pf}.ncard * p DummyFr ^ 2 =
      if verifyProof (fieldEngine DummyFr) (prepareVerifyingKey (fieldEngine DummyFr) params.vk) pf [25] = some (.ok ())
      then Nat.card (DummyFr × DummyFr) else 0 := by
  have := PrimeField.finite (F := DummyFr)
  obtain ⟨params, pf', hk, hp⟩ := claim_proof w w' 5 25 0 0
  exact ⟨params, hk, C45_zero_knowledge (fieldEngine DummyFr) w w' (claimCircuit_shape none (some 5) (some 25)) _ _ _ _ _ _ _ params hk _
    (claimTrace_prover 5 25) ((claimTrace_sat 5 25).2 (by decide)) ⟨_, _, _, hp⟩ tape2 tape2_uniform pf⟩

/-- `C45_knowledge` applies to the claim that a non-square has a root. -/
example (st : Strategy DummyFr) : {s | ∃ (w : Worker) (params : Parameters DummyFr DummyFr), (1 : DummyFr) ≠ 0 ∧ (1 : DummyFr) ≠ 0 ∧
        (generateRandomParameters tape5 w (squareCircuit none) s).1 = Res.ok params ∧
        verifyProof (fieldEngine DummyFr) (prepareVerifyingKey (fieldEngine DummyFr) params.vk) (st.proof 1 1 params)
          [MULTIPLICATIVE_GENERATOR] = some (.ok ())}.ncard * 64513 ≤ 31 * Nat.card (DummyFr × DummyFr × DummyFr × DummyFr × DummyFr) := by
  have := PrimeField.finite (F := DummyFr)
  have h := C45_knowledge (fieldEngine DummyFr) squareTrace_key [MULTIPLICATIVE_GENERATOR] st (tape5 (F := DummyFr)) tape5_uniform
    (fun hsat => ?_)
  · rw [show (Qap.ofTrace squareTrace).m = 4 from square_good.m] at h
    exact h
  · have h1 := ((Sat_iff_consOf _ _).1 hsat) (⟨[(.aux 0, 1)]⟩, ⟨[(.aux 0, 1), (.input 1, 0)]⟩, ⟨[(.input 1, 1)]⟩) (by
      simp [squareTrace, consOf])
    simp [LC.eval, Strategy.extract] at h1
    exact gen_not_square _ h1

end Bellman
