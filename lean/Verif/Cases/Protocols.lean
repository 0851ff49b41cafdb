import Verif.Props.Mimc
import Verif.Props.Adaptive
import Verif.Props.Tested
import Verif.Props.Unique
import Verif.Props.HashProof
import Verif.Props.Preimage
import Verif.Props.Blinding
import Verif.Props.Random
import Verif.Props.Cancel
import Verif.Props.PrettyPrint

/-! # Concrete cases: the circuits of the tests, the benchmarks and the documentation

Over the scalars of BLS12-381, with the pairing of exponents.  The bounds on the trapdoors for which set-up or proving fails are far
below the number of trapdoors, so parameters and proofs exist: these are the keys and proofs to which the theorems apply. -/

namespace Bellman.Cases

open PrimeField Preimage Mimc

abbrev BE := fieldEngine BlsScalar

/-- Some trapdoor lies outside a small set. -/
theorem exists_trapdoor (N : ℕ) (hN : N < p BlsScalar) (bad : Set (BlsScalar × BlsScalar × BlsScalar × BlsScalar × BlsScalar))
    (h : bad.ncard ≤ N * p BlsScalar ^ 4) : ∃ x, x ∉ bad := by
  have := PrimeField.finite (F := BlsScalar)
  by_contra hc
  push Not at hc
  have hu : bad = Set.univ := Set.eq_univ_of_forall hc
  rw [hu, Set.ncard_univ] at h
  simp only [Nat.card_prod, PrimeField.card_eq] at h
  have h0 : 0 < p BlsScalar := by omega
  have : p BlsScalar * p BlsScalar ^ 4 ≤ N * p BlsScalar ^ 4 := by
    calc p BlsScalar * p BlsScalar ^ 4 = p BlsScalar * (p BlsScalar * (p BlsScalar * (p BlsScalar * p BlsScalar))) := by ring
      _ ≤ _ := h
  exact absurd (Nat.le_of_mul_le_mul_right this (by positivity)) (by omega)

theorem counting_length : counting.length = 322 := by rw [counting, List.length_map, List.length_range]

/-! ### C48, C50, C64, C65, C66, C76: MiMC -/

/-- Parameters of the MiMC circuit under which all proofs can be made. -/
theorem mimc_setup (w : Worker) : ∃ (x : BlsScalar × BlsScalar × BlsScalar × BlsScalar × BlsScalar) (params : Parameters BlsScalar BlsScalar),
    generateParameters w (Demo.mk none none counting).synthesize 1 1 x.1 x.2.1 x.2.2.1 x.2.2.2.1 x.2.2.2.2 = Res.ok params ∧
    ∀ (w' : Worker) (xl xr r s : BlsScalar), ∃ pf, createProof w' (Demo.mk (some xl) (some xr) counting).synthesize params r s = Res.ok pf := by
  obtain ⟨x, hx⟩ := exists_trapdoor 1985269 (by decide +kernel) _
    (C48_pipeline BE counting counting_length (by decide) w (1 : BlsScalar) (1 : BlsScalar) one_ne_zero one_ne_zero)
  simp only [Set.mem_ofPred_eq, not_not] at hx
  obtain ⟨params, h1, h2⟩ := hx
  exact ⟨x, params, h1, fun w' xl xr r s => let ⟨pf, _, h, _⟩ := h2 w' xl xr r s; ⟨pf, h⟩⟩

/-- The assignment of the prover satisfies the constraints, and the first input is the hash. -/
example (xl xr : BlsScalar) : ∃ t, ProverTrace (Demo.mk (some xl) (some xr) counting).synthesize t ∧ Sat (witness t) t ∧
    inVals t = [Spec.mimc counting xl xr] ∧ witness t (.aux 0) = xl ∧ witness t (.aux 1) = xr :=
  C48_complete counting counting_length xl xr

/-- An assignment as `C48_sound` assumes it, made by the prover. -/
example (xl xr : BlsScalar) : ∃ (t : List (Ev BlsScalar)) (ρ : Var → BlsScalar), KeyTrace (Demo.mk none none counting).synthesize t ∧ ρ .one = 1 ∧ Sat ρ t ∧
    ρ (.input 1) = Spec.mimc counting (ρ (.aux 0)) (ρ (.aux 1)) ∧ ρ (.aux 0) = xl := by
  obtain ⟨t0, h0, -⟩ := C48_key counting counting_length
  obtain ⟨t, ht, hs, hi, h1, h2⟩ := C48_complete counting counting_length xl xr
  obtain ⟨as, ⟨hl, hsat⟩, he⟩ := (C66_mimc_bijection counting counting_length h0 (Spec.mimc counting xl xr)).surjOn
    (show (xl, xr) ∈ {x : BlsScalar × BlsScalar | Spec.mimc counting x.1 x.2 = Spec.mimc counting xl xr} from rfl)
  exact ⟨t0, _, h0, rfl, hsat, C48_sound counting counting_length h0 _ rfl hsat, congrArg Prod.fst he⟩

example (image : BlsScalar) (σ : Strategy BlsScalar) := C48_knowledge BE counting counting_length image σ

example (r s : BlsScalar) := C48_other_image BE counting counting_length 1 2 (Spec.mimc counting 1 2 + 1) (by simp) r s

/-- Two proofs of one preimage on different machines. -/
example (w w' w'' : Worker) (xl xr : BlsScalar) : ∃ params : Parameters BlsScalar BlsScalar, ∀ out,
    Nat.card {x : BlsScalar × BlsScalar // createProof w' (Demo.mk (some xl) (some xr) counting).synthesize params x.1 x.2 = out} =
    Nat.card {x : BlsScalar × BlsScalar // createProof w'' (Demo.mk (some xl) (some xr) counting).synthesize params x.1 x.2 = out} := by
  obtain ⟨x, params, hk, hp⟩ := mimc_setup w
  exact ⟨params, fun out => C48_hiding counting counting_length w w' w'' 1 1 _ _ _ _ _ params hk xl xr xl xr rfl ⟨0, 0, hp w' xl xr 0 0⟩
    ⟨0, 0, hp w'' xl xr 0 0⟩ out⟩

example (w : Worker) (params : Parameters BlsScalar BlsScalar) :=
  C48_incomplete counting counting_length w (1 : BlsScalar) (1 : BlsScalar) 2 3 5 7 11 params 13 0 0

example := C50_mimc counting counting_length 1 2

example (w : Worker) := C65_mimc BE counting counting_length (by decide) w 1 1 one_ne_zero one_ne_zero

/-- `C48_key` provides the trace. -/
example {t : List (Ev BlsScalar)} (ht : KeyTrace (Demo.mk none none counting).synthesize t) (w : Worker)
    (prover : AdaptiveProver BlsScalar BlsScalar BlsScalar) (z : BlsScalar) :=
  C64_mimc BE counting counting_length ht w prover 1 1 one_ne_zero one_ne_zero z

example : ({τ : BlsScalar | ∃ (w w' w'' : Worker) (g1 g2 α β γ δ r s s' : BlsScalar) (params : Parameters BlsScalar BlsScalar)
      (pf pf' : Proof BlsScalar BlsScalar), generateParameters w (Demo.mk none none counting).synthesize g1 g2 α β γ δ τ = Res.ok params ∧
        createProof w' (Demo.mk (some 1) (some 2) counting).synthesize params r s = Res.ok pf ∧
        createProof w'' (Demo.mk (some 3) (some 4) counting).synthesize params r s' = Res.ok pf' ∧ pf.a = pf'.a} : Set BlsScalar).ncard ≤ 1023 :=
  C76_mimc counting counting_length 1 2 3 4 (by decide +kernel)

/-! ### C44, C45, C50, C66: the example of the documentation -/

/-- Eighty bytes. -/
abbrev msg80 : List (BitVec 8) := List.replicate 80 42#8

theorem bls64 : 64 ≤ NUM_BITS BlsScalar := by decide

theorem doc_setup (w : Worker) : ∃ (x : BlsScalar × BlsScalar × BlsScalar × BlsScalar × BlsScalar) (params : Parameters BlsScalar BlsScalar),
    generateParameters w (MyCircuit.mk none).synthesize 1 1 x.1 x.2.1 x.2.2.1 x.2.2.2.1 x.2.2.2.2 = Res.ok params ∧
    ∀ (w' : Worker) (m : List (BitVec 8)) (r s : BlsScalar), m.length = 80 → ∃ pf, createProof w' (MyCircuit.mk (some m)).synthesize params r s = Res.ok pf := by
  obtain ⟨x, hx⟩ := exists_trapdoor 31938642312 (by decide +kernel) _
    (C52_pipeline bls64 (by decide) BE w (1 : BlsScalar) (1 : BlsScalar) one_ne_zero one_ne_zero)
  simp only [Set.mem_ofPred_eq, not_not] at hx
  obtain ⟨params, h1, h2⟩ := hx
  exact ⟨x, params, h1, fun w' m r s hm => let ⟨pf, _, h, _⟩ := h2 w' m r s hm; ⟨pf, h⟩⟩

example (w w' : Worker) (r s : BlsScalar) : ∃ (params : Parameters BlsScalar BlsScalar) (pf : Proof BlsScalar BlsScalar) (xs : List BlsScalar),
    createProof w' (MyCircuit.mk (some msg80)).synthesize params r s = Res.ok pf ∧
    computeMultipacking BlsScalar (bytesToBitsLe (Spec.sha256d msg80)) = some xs ∧
    verifyProof BE (prepareVerifyingKey BE params.vk) pf xs = some (.ok ()) := by
  obtain ⟨x, params, hk, hp⟩ := doc_setup w
  obtain ⟨pf, hp⟩ := hp w' msg80 r s List.length_replicate
  obtain ⟨xs, h1, h2⟩ := C44_accept bls64 BE w w' 1 1 _ _ _ _ _ r s params pf msg80 List.length_replicate hk hp
  exact ⟨params, pf, xs, hp, h1, h2⟩

/-- `C44_sound` and `C66_documentation` apply to an assignment made by the prover. -/
example : ∃ (t : List (Ev BlsScalar)) (xs as : List BlsScalar), KeyTrace (MyCircuit.mk none).synthesize t ∧ Sat (assign (1 :: xs) as) t ∧
    Spec.sha256d (preimageOf (assign (1 :: xs) as)) = Spec.sha256d msg80 ∧
    ∀ ρ : Var → BlsScalar, ρ .one = 1 → Sat ρ t → preimageOf ρ = preimageOf (assign (1 :: xs) as) → ∀ j < numAux t, ρ (.aux j) = assign (1 :: xs) as (.aux j) := by
  obtain ⟨t, ht, -, -⟩ := C44_key (F := BlsScalar) bls64
  have hl : (Spec.sha256d msg80).length = 32 := by simp [Spec.sha256d, Spec.digest]
  obtain ⟨xs, hx, -⟩ := computeMultipacking_some (F := BlsScalar) (bytesToBitsLe (Spec.sha256d msg80))
  obtain ⟨as, ⟨hn, hs⟩, he⟩ := (C66_documentation_bijection bls64 ht _ hl xs hx).surjOn
    (show msg80 ∈ {m : List (BitVec 8) | m.length = 80 ∧ Spec.sha256d m = Spec.sha256d msg80} from ⟨List.length_replicate, rfl⟩)
  exact ⟨t, xs, as, ht, hs, C44_sound ht _ hl xs hx _ (fun i => rfl) hs, fun ρ h1 hs' hm =>
    (C66_documentation ht ρ _ h1 rfl hs' hs hm).2⟩

example (σ : Strategy BlsScalar) (hash : List (BitVec 8)) (hh : hash.length = 32) : True :=
  let ⟨_, ht, _⟩ := C44_key (F := BlsScalar) bls64
  let ⟨xs, hx, _⟩ := computeMultipacking_some (F := BlsScalar) (bytesToBitsLe hash)
  have _ := C44_knowledge (G1 := BlsScalar) (G2 := BlsScalar) BE ht hash hh xs hx σ
  trivial

/-- Some hash that is not the one of the message. -/
example (r s : BlsScalar) : ∃ (hash : List (BitVec 8)) (xs : List BlsScalar) (B : ℕ), Spec.sha256d msg80 ≠ hash ∧
    ({x : BlsScalar × BlsScalar × BlsScalar × BlsScalar × BlsScalar | ∃ (w w' : Worker) (g1 g2 : BlsScalar) (params : Parameters BlsScalar BlsScalar)
        (pf : Proof BlsScalar BlsScalar), g1 ≠ 0 ∧ g2 ≠ 0 ∧
        generateParameters w (MyCircuit.mk none).synthesize g1 g2 x.1 x.2.1 x.2.2.1 x.2.2.2.1 x.2.2.2.2 = Res.ok params ∧
        createProof w' (MyCircuit.mk (some msg80)).synthesize params r s = Res.ok pf ∧
        verifyProof BE (prepareVerifyingKey BE params.vk) pf xs = some (.ok ())} : Set _).ncard ≤ B := by
  obtain ⟨t, ht, -, -⟩ := C44_key (F := BlsScalar) bls64
  obtain ⟨hash, hh, hne⟩ : ∃ hash : List (BitVec 8), hash.length = 32 ∧ Spec.sha256d msg80 ≠ hash := by
    by_cases e : Spec.sha256d msg80 = List.replicate 32 0#8
    · refine ⟨List.replicate 32 1#8, List.length_replicate, fun h => ?_⟩
      rw [e] at h
      exact absurd h (by decide)
    · exact ⟨_, List.length_replicate, e⟩
  obtain ⟨xs, hx, -⟩ := computeMultipacking_some (F := BlsScalar) (bytesToBitsLe hash)
  exact ⟨hash, xs, _, hne, C44_other_hash bls64 BE ht msg80 List.length_replicate hash hh hne xs hx r s⟩

example (w w' w'' : Worker) : ∃ params : Parameters BlsScalar BlsScalar, ∀ out,
    Nat.card {x : BlsScalar × BlsScalar // createProof w' (MyCircuit.mk (some msg80)).synthesize params x.1 x.2 = out} =
    Nat.card {x : BlsScalar × BlsScalar // createProof w'' (MyCircuit.mk (some msg80)).synthesize params x.1 x.2 = out} := by
  obtain ⟨x, params, hk, hp⟩ := doc_setup w
  exact ⟨params, fun out => C44_hiding bls64 w w' w'' 1 1 _ _ _ _ _ params hk msg80 msg80 List.length_replicate List.length_replicate rfl
    ⟨0, 0, hp w' _ 0 0 List.length_replicate⟩ ⟨0, 0, hp w'' _ 0 0 List.length_replicate⟩ out⟩

example (t : List (Ev BlsScalar)) (r) (he : Exec (MyCircuit.mk (some (List.replicate 79 42#8))).synthesize.run t r) : t = [] ∧ r = none :=
  C44_length _ (by rw [List.length_replicate]; decide) t r he

example := C50_preimage (F := BlsScalar) bls64 msg80 List.length_replicate

/-- A generator whose state is the list of what it returns next. -/
example (w w' : Worker) : ∃ (rng : Rng (List BlsScalar) BlsScalar BlsScalar BlsScalar) (s s' s'' : List BlsScalar)
    (params : Parameters BlsScalar BlsScalar) (pf : Proof BlsScalar BlsScalar) (xs : List BlsScalar),
    generateRandomParameters rng w (MyCircuit.mk none).synthesize s = (Res.ok params, s') ∧
    createRandomProof rng w' (MyCircuit.mk (some msg80)).synthesize params s' = (Res.ok pf, s'') ∧
    computeMultipacking BlsScalar (bytesToBitsLe (Spec.sha256d msg80)) = some xs ∧
    verifyProof BE (prepareVerifyingKey BE params.vk) pf xs = some (.ok ()) := by
  obtain ⟨x, params, hk, hp⟩ := doc_setup w
  obtain ⟨pf, hp⟩ := hp w' msg80 17 19 List.length_replicate
  let rng : Rng (List BlsScalar) BlsScalar BlsScalar BlsScalar := ⟨fun l => (l.headD 0, l.tail), fun l => (1, l), fun l => (1, l)⟩
  have h1 : generateRandomParameters rng w (MyCircuit.mk none).synthesize [x.1, x.2.1, x.2.2.1, x.2.2.2.1, x.2.2.2.2, 17, 19] = (Res.ok params, [17, 19]) := by
    rw [← hk]; rfl
  have h2 : createRandomProof rng w' (MyCircuit.mk (some msg80)).synthesize params [17, 19] = (Res.ok pf, []) := by
    rw [← hp]; rfl
  obtain ⟨xs, h3, h4⟩ := C45_documentation bls64 BE rng w w' _ _ _ params pf msg80 List.length_replicate h1 h2
  exact ⟨rng, _, _, _, params, pf, xs, h1, h2, h3, h4⟩

/-- Sixty-four bytes. -/
abbrev msg64 : List (BitVec 8) := List.replicate 64 42#8

/-- The personalization of the tests. -/
abbrev person8 : List (BitVec 8) := [0x31, 0x32, 0x33, 0x34, 0x35, 0x36, 0x37, 0x38]

/-- There is always another hash. -/
theorem other_hash (h : List (BitVec 8)) : ∃ hash : List (BitVec 8), hash.length = 32 ∧ h ≠ hash := by
  by_cases e : h = List.replicate 32 0#8
  · refine ⟨List.replicate 32 1#8, List.length_replicate, fun h' => ?_⟩
    rw [e] at h'
    exact absurd h' (by decide)
  · exact ⟨_, List.length_replicate, e⟩

/-! ### C61, C66: SHA-256 proofs -/

theorem sha256_setup (w : Worker) : ∃ (x : BlsScalar × BlsScalar × BlsScalar × BlsScalar × BlsScalar) (params : Parameters BlsScalar BlsScalar),
    generateParameters w (sha256Circuit 64 none) 1 1 x.1 x.2.1 x.2.2.1 x.2.2.2.1 x.2.2.2.2 = Res.ok params ∧
    ∀ (w' : Worker) (m : List (BitVec 8)) (r s : BlsScalar), m.length = 64 → ∃ pf, createProof w' (sha256Circuit 64 (some m)) params r s = Res.ok pf := by
  obtain ⟨x, hx⟩ := exists_trapdoor (3 * (8 * 64 + 26860 * ((64 + 72) / 64) + 7) * 2 ^ 16) (by decide +kernel) _
    (C61_sha256_accept bls64 BE w (1 : BlsScalar) (1 : BlsScalar) one_ne_zero one_ne_zero 64 16 (by decide) (by decide) (by decide) (by decide))
  simp only [Set.mem_ofPred_eq, not_not] at hx
  obtain ⟨params, h1, h2⟩ := hx
  exact ⟨x, params, h1, fun w' m r s hm => let ⟨pf, _, h, _⟩ := h2 w' m r s hm; ⟨pf, h⟩⟩

/-- `C61_sha256_sound` applies to the one assignment that `C66_sha256_one_witness` provides for sixty-four bytes. -/
example : ∃ (t : List (Ev BlsScalar)) (xs as : List BlsScalar) (m : List (BitVec 8)), KeyTrace (sha256Circuit 64 none) t ∧ Sat (assign (1 :: xs) as) t ∧
    m.length = 64 ∧ HoldsBits (assign (1 :: xs) as) (bytesToBits m) ∧ Spec.digest m = Spec.digest msg64 := by
  obtain ⟨t, ht, -, -⟩ := C61_sha256_inputs (F := BlsScalar) bls64 64
  have hl : (Spec.digest msg64).length = 32 := by simp [Spec.digest]
  obtain ⟨xs, hx, -⟩ := computeMultipacking_some (F := BlsScalar) (bytesToBits (Spec.digest msg64))
  obtain ⟨as, ⟨hn, hs, -⟩, -⟩ := C66_sha256_one_witness bls64 ht (m := msg64) List.length_replicate xs hx
  obtain ⟨m, h1, h2, h3⟩ := C61_sha256_sound ht _ hl xs hx _ (fun i => rfl) hs
  exact ⟨t, xs, as, m, ht, hs, h1, h2, h3⟩

example (σ : Strategy BlsScalar) (hash : List (BitVec 8)) (hh : hash.length = 32) {t : List (Ev BlsScalar)}
    (ht : KeyTrace (sha256Circuit 64 none) t) (xs : List BlsScalar) (hx : computeMultipacking BlsScalar (bytesToBits hash) = some xs) :=
  C61_sha256_knowledge (G1 := BlsScalar) (G2 := BlsScalar) BE ht hash hh xs hx σ

example (hash : List (BitVec 8)) (hh : hash.length = 32) (hne : Spec.digest msg64 ≠ hash) {t : List (Ev BlsScalar)}
    (ht : KeyTrace (sha256Circuit 64 none) t) (xs : List BlsScalar) (hx : computeMultipacking BlsScalar (bytesToBits hash) = some xs) (r s : BlsScalar) :=
  C61_sha256_other_hash (G1 := BlsScalar) (G2 := BlsScalar) bls64 BE ht msg64 List.length_replicate hash hh hne xs hx r s

/-- Those hypotheses hold. -/
example : ∃ (hash : List (BitVec 8)) (t : List (Ev BlsScalar)) (xs : List BlsScalar), hash.length = 32 ∧ Spec.digest msg64 ≠ hash ∧
    KeyTrace (sha256Circuit 64 none) t ∧ computeMultipacking BlsScalar (bytesToBits hash) = some xs := by
  obtain ⟨t, ht, -, -⟩ := C61_sha256_inputs (F := BlsScalar) bls64 64
  obtain ⟨hash, hh, hne⟩ := other_hash (Spec.digest msg64)
  obtain ⟨xs, hx, -⟩ := computeMultipacking_some (F := BlsScalar) (bytesToBits hash)
  exact ⟨hash, t, xs, hh, hne, ht, hx⟩

example (w w' w'' : Worker) : ∃ params : Parameters BlsScalar BlsScalar, ∀ out,
    Nat.card {x : BlsScalar × BlsScalar // createProof w' (sha256Circuit 64 (some msg64)) params x.1 x.2 = out} =
    Nat.card {x : BlsScalar × BlsScalar // createProof w'' (sha256Circuit 64 (some msg64)) params x.1 x.2 = out} := by
  obtain ⟨x, params, hk, hp⟩ := sha256_setup w
  exact ⟨params, fun out => C61_sha256_hiding bls64 w w' w'' 1 1 _ _ _ _ _ params hk msg64 msg64 List.length_replicate List.length_replicate rfl
    ⟨0, 0, hp w' _ 0 0 List.length_replicate⟩ ⟨0, 0, hp w'' _ 0 0 List.length_replicate⟩ out⟩

example (t : List (Ev BlsScalar)) (r) (he : Exec (sha256Circuit 64 (some msg80)).run t r) : t = [] ∧ r = none :=
  C61_sha256_length 64 msg80 (by rw [List.length_replicate]; decide) t r he

/-! ### C61, C66: BLAKE2s proofs -/

theorem blake2s_setup (w : Worker) : ∃ (x : BlsScalar × BlsScalar × BlsScalar × BlsScalar × BlsScalar) (params : Parameters BlsScalar BlsScalar),
    generateParameters w (blake2sCircuit person8 64 none) 1 1 x.1 x.2.1 x.2.2.1 x.2.2.2.1 x.2.2.2.2 = Res.ok params ∧
    ∀ (w' : Worker) (m : List (BitVec 8)) (r s : BlsScalar), m.length = 64 → ∃ pf, createProof w' (blake2sCircuit person8 64 (some m)) params r s = Res.ok pf := by
  obtain ⟨x, hx⟩ := exists_trapdoor (3 * (8 * 64 + 21568 * max 1 ((64 + 63) / 64) + 7) * 2 ^ 15) (by decide +kernel) _
    (C61_blake2s_accept bls64 BE w (1 : BlsScalar) (1 : BlsScalar) one_ne_zero one_ne_zero person8 rfl 64 15 (by decide) (by decide) (by decide) (by decide))
  simp only [Set.mem_ofPred_eq, not_not] at hx
  obtain ⟨params, h1, h2⟩ := hx
  exact ⟨x, params, h1, fun w' m r s hm => let ⟨pf, _, h, _⟩ := h2 w' m r s hm; ⟨pf, h⟩⟩

/-- `C61_blake2s_sound` applies to the one assignment that `C66_blake2s_one_witness` provides for sixty-four bytes. -/
example : ∃ (t : List (Ev BlsScalar)) (xs as : List BlsScalar) (m : List (BitVec 8)), KeyTrace (blake2sCircuit person8 64 none) t ∧ Sat (assign (1 :: xs) as) t ∧
    m.length = 64 ∧ HoldsBits (assign (1 :: xs) as) (bytesToBitsLe m) ∧ Spec.Blake2s.blake2s person8 m = Spec.Blake2s.blake2s person8 msg64 := by
  obtain ⟨t, ht, -, -⟩ := C61_blake2s_inputs (F := BlsScalar) bls64 person8 rfl 64
  have hl : (Spec.Blake2s.blake2s person8 msg64).length = 32 := by
    have h8 : (Spec.Blake2s.final person8 msg64).length = 8 := by simp [Spec.Blake2s.final, Spec.Blake2s.compress]
    unfold Spec.Blake2s.blake2s
    rw [List.length_flatMap]
    simp [Spec.Blake2s.leBytes, h8]
  obtain ⟨xs, hx, -⟩ := computeMultipacking_some (F := BlsScalar) (bytesToBitsLe (Spec.Blake2s.blake2s person8 msg64))
  obtain ⟨as, ⟨hn, hs, -⟩, -⟩ := C66_blake2s_one_witness bls64 person8 rfl ht (m := msg64) List.length_replicate xs hx
  obtain ⟨m, h1, h2, h3⟩ := C61_blake2s_sound person8 rfl ht _ hl xs hx _ (fun i => rfl) hs
  exact ⟨t, xs, as, m, ht, hs, h1, h2, h3⟩

example (σ : Strategy BlsScalar) (hash : List (BitVec 8)) (hh : hash.length = 32) {t : List (Ev BlsScalar)}
    (ht : KeyTrace (blake2sCircuit person8 64 none) t) (xs : List BlsScalar) (hx : computeMultipacking BlsScalar (bytesToBitsLe hash) = some xs) :=
  C61_blake2s_knowledge (G1 := BlsScalar) (G2 := BlsScalar) BE person8 rfl ht hash hh xs hx σ

example (hash : List (BitVec 8)) (hh : hash.length = 32) (hne : Spec.Blake2s.blake2s person8 msg64 ≠ hash) {t : List (Ev BlsScalar)}
    (ht : KeyTrace (blake2sCircuit person8 64 none) t) (xs : List BlsScalar) (hx : computeMultipacking BlsScalar (bytesToBitsLe hash) = some xs) (r s : BlsScalar) :=
  C61_blake2s_other_hash (G1 := BlsScalar) (G2 := BlsScalar) bls64 BE person8 rfl ht msg64 List.length_replicate hash hh hne xs hx r s

/-- Those hypotheses hold. -/
example : ∃ (hash : List (BitVec 8)) (t : List (Ev BlsScalar)) (xs : List BlsScalar), hash.length = 32 ∧ Spec.Blake2s.blake2s person8 msg64 ≠ hash ∧
    KeyTrace (blake2sCircuit person8 64 none) t ∧ computeMultipacking BlsScalar (bytesToBitsLe hash) = some xs := by
  obtain ⟨t, ht, -, -⟩ := C61_blake2s_inputs (F := BlsScalar) bls64 person8 rfl 64
  obtain ⟨hash, hh, hne⟩ := other_hash (Spec.Blake2s.blake2s person8 msg64)
  obtain ⟨xs, hx, -⟩ := computeMultipacking_some (F := BlsScalar) (bytesToBitsLe hash)
  exact ⟨hash, t, xs, hh, hne, ht, hx⟩

example (w w' w'' : Worker) : ∃ params : Parameters BlsScalar BlsScalar, ∀ out,
    Nat.card {x : BlsScalar × BlsScalar // createProof w' (blake2sCircuit person8 64 (some msg64)) params x.1 x.2 = out} =
    Nat.card {x : BlsScalar × BlsScalar // createProof w'' (blake2sCircuit person8 64 (some msg64)) params x.1 x.2 = out} := by
  obtain ⟨x, params, hk, hp⟩ := blake2s_setup w
  exact ⟨params, fun out => C61_blake2s_hiding bls64 w w' w'' 1 1 _ _ _ _ _ params person8 rfl hk msg64 msg64 List.length_replicate List.length_replicate rfl
    ⟨0, 0, hp w' _ 0 0 List.length_replicate⟩ ⟨0, 0, hp w'' _ 0 0 List.length_replicate⟩ out⟩

example (t : List (Ev BlsScalar)) (r) (he : Exec (blake2sCircuit person8 64 (some msg80)).run t r) : t = [] ∧ r = none :=
  C61_blake2s_length person8 rfl 64 msg80 (by rw [List.length_replicate]; decide) t r he

/-! ### C65, C50 -/

/-- The prover who shows each time that 25 is a square, with the root 5 first and then, once a proof has been seen, with -5. -/
example (w w' : Worker) : ∃ params, generateParameters w (squareCircuit none) (1 : DummyFr) (1 : DummyFr) 2 5 7 11 3 = Res.ok params ∧
    ∃ prove : List (Proof DummyFr DummyFr) → DummyFr × DummyFr → Proof DummyFr DummyFr,
      (∀ seen x, createProof w' (claimCircuit (some (if seen = [] then 5 else -5)) (some 25)) params x.1 x.2 = Res.ok (prove seen x)) ∧
      ∃ f : List (DummyFr × DummyFr) ≃ List (DummyFr × DummyFr), (∀ l, (f l).length = l.length) ∧
        ∀ l, transcript prove [] l = transcript (fun _ => simulateProof 1 1 2 5 7 11 params.vk [25]) [] (f l) := by
  obtain ⟨params, -, hk, -⟩ := claim_proof w w' 5 25 0 0
  have hp : ∀ (seen : List (Proof DummyFr DummyFr)) (x : DummyFr × DummyFr), ∃ pf,
      createProof w' (claimCircuit (some (if seen = [] then 5 else -5)) (some 25)) params x.1 x.2 = Res.ok pf := by
    intro seen x
    obtain ⟨params', pf, hk', hp⟩ := claim_proof w w' (if seen = [] then 5 else -5) 25 x.1 x.2
    cases Res.ok_inj.1 (hk.symm.trans hk')
    exact ⟨pf, hp⟩
  choose prove hprove using hp
  refine ⟨params, hk, prove, hprove, C65_adaptive (fieldEngine DummyFr) w w' 1 1 2 5 7 11 3 params hk
    (fun seen => claimCircuit (some (if seen = [] then 5 else -5)) (some 25)) (fun _ => [25]) (fun seen => ?_) prove fun seen x pf h => ?_⟩
  · refine ⟨_, claimTrace (if seen = [] then 5 else -5) 25, claimCircuit_shape none _ _, claimTrace_prover _ _, (claimTrace_sat _ _).2 ?_, rfl,
      0, 0, _, hprove seen (0, 0)⟩
    split <;> decide
  · exact Res.ok_inj.1 ((hprove seen x).symm.trans h)

/-- The run of `claimCircuit` in the test constraint system. -/
theorem claim_test_run : ∃ s, (claimCircuit (some 5) (some 25)).run.run TestCS.impl .new = some (.ok (), s) := by
  have h : ((claimCircuit (some 5) (some 25)).run.run TestCS.impl .new).map (fun x => x.1.toOption) = some (some ()) := by decide +kernel
  cases e : (claimCircuit (some 5) (some 25)).run.run TestCS.impl .new with
  | none => rw [e] at h; cases h
  | some p =>
    obtain ⟨r, s⟩ := p
    rw [e] at h
    cases r with
    | error e => simp [Except.toOption] at h
    | ok u => exact ⟨s, rfl⟩

example : ∃ s t, (claimCircuit (some 5) (some 25)).run.run TestCS.impl .new = some (.ok (), s) ∧ ProverTrace (claimCircuit (some 5) (some 25)) t ∧
    s.rho = witness t := by
  obtain ⟨s, h⟩ := claim_test_run
  obtain ⟨t, h1, -, -, -, h2⟩ := C50_same_run h
  exact ⟨s, t, h, h1, h2⟩

example : ∃ s b, (claimCircuit (some 5) (some 25)).run.run TestCS.impl .new = some (.ok (), s) ∧ s.isSatisfied = some b := by
  obtain ⟨s, h⟩ := claim_test_run
  obtain ⟨b, hb⟩ := C50_answers (fun t ht => by
    rw [ht.unique (claimTrace_prover 5 25)]
    simp [claimTrace, Scoped, Var.InRange]) h
  exact ⟨s, b, h, hb⟩

/-! ### C63 -/

/-- Setting a variable does not change what is printed. -/
example (dbg : DummyFr → List Char) (s' : TestCS DummyFr) :
    ∃ s, (claimCircuit (some 5) (some 25)).run.run TestCS.impl .new = some (.ok (), s) ∧ (s.set "x" 6 = some s' → s'.prettyPrint dbg = s.prettyPrint dbg) := by
  obtain ⟨s, h⟩ := claim_test_run
  exact ⟨s, h, C63_set dbg (.run _ .new h) "x" 6⟩

/-- `2 x` and `x + x` are printed alike, whatever the values. -/
example (dbg : DummyFr → List Char) :
    (⟨[], [], [(⟨[(.aux 0, 2)]⟩, ⟨[]⟩, ⟨[]⟩, "c")], [], [(3, "x")]⟩ : TestCS DummyFr).prettyPrint dbg =
    (⟨[], [], [(⟨[(.aux 0, 1), (.aux 0, 1)]⟩, ⟨[]⟩, ⟨[]⟩, "c")], [], [(4, "x")]⟩ : TestCS DummyFr).prettyPrint dbg := by
  refine C63_values dbg rfl rfl (.cons ⟨rfl, fun v l hl => ?_⟩ .nil)
  simp only [List.mem_cons, List.not_mem_nil, or_false] at hl
  rcases hl with rfl | rfl | rfl
  · by_cases h : Var.aux 0 = v
    · simp [h]; decide
    · simp [h]
  · rfl
  · rfl

example (dbg : DummyFr → List Char) : ppCoeff dbg false 8 = " + ".toList ++ ("2^" ++ toString 3 ++ " . ").toList ++ dbg 8 ++ " . ".toList :=
  (C63_power dbg false 8 (by decide) (by decide)).1 3 (by decide +kernel)

end Bellman.Cases
