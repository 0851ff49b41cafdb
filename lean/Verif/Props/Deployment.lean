import Verif.Props.Streams
import Verif.Props.MimcTest
import Verif.Props.MachineAssignment

/-!
# C89: from key generation to verification across machines

One party generates a key with words of 64 bits and writes it; another reads it from a stream, proves, and writes the proof; a third reads
the verifying key and the proof and verifies.  Nothing is assumed about the elements that are stored: an identity among them would not
have been read.
-/

namespace Bellman

theorem StreamWrites.arrived {bs : List UInt8} {evs : List OutEvent} {w' : OutStream} (h : StreamWrites bs [] evs (.ok (), w')) :
    w'.out = bs := by
  unfold StreamWrites at h
  split at h
  · exact h.2.1
  · split at h
    · exact h.2.1
    · cases h.1

theorem StreamAgrees.not_ok {α : Type} {evs : List InEvent} {msg : String} {y : α} {s : InStream}
    (h : StreamAgrees evs (some (.error (.invalidData msg))) (some (.ok y, s))) : False := h

section streams

variable {G1 G2 : Type} [Zero G1] [Zero G2] [DecidableEq G1] [DecidableEq G2] (c1 : PointCodec G1) (c2 : PointCodec G2)

/-- C89: a proof that is read from what was written is the proof that was written, whatever its points. -/
theorem C89_proof (p p' : Proof G1 G2) (hv : p.Valid c1 c2) (w : List OutEvent) (w' : OutStream)
    (hw : p.writeStream c1 c2 ⟨[], w⟩ = (.ok (), w')) (evs : List InEvent) (rest : List UInt8) (he : InEvent.avail evs = w'.out ++ rest)
    (s : InStream) (hr : Proof.readStream c1 c2 ⟨evs, 0⟩ = some (.ok p', s)) :
    p' = p ∧ p.a ≠ 0 ∧ p.b ≠ 0 ∧ p.c ≠ 0 ∧ InEvent.avail s.events = rest := by
  by_cases h0 : p.a = 0 ∨ p.b = 0 ∨ p.c = 0
  · exfalso
    obtain ⟨bytes, h1, h2⟩ := C38_proof_identity c1 c2 p hv h0
    have ho := (show StreamWrites _ _ _ _ from hw ▸ C83_write_proof c1 c2 p [] w).arrived
    have hb : bytes = p.encoding c1 c2 := by
      have := h1 []
      rw [p.write_eq, writeAll_room] at this
      simpa using this.symm
    have h := C83_read_proof c1 c2 evs 0
    rw [he, ho, ← hb, h2, hr] at h
    exact h.not_ok
  · push Not at h0
    obtain ⟨s', h1, h2⟩ := C83_transport_proof c1 c2 p hv h0.1 h0.2.1 h0.2.2 w w' hw evs rest he
    rw [hr] at h1
    cases h1
    exact ⟨rfl, h0.1, h0.2.1, h0.2.2, h2⟩

/-- C89: the same for verifying keys. -/
theorem C89_vk (vk vk' : VerifyingKey G1 G2) (hv : vk.Valid c1 c2) (hl : vk.ic.length < 2 ^ 32) (w : List OutEvent) (w' : OutStream)
    (hw : vk.writeStream c1 c2 ⟨[], w⟩ = (.ok (), w')) (evs : List InEvent) (rest : List UInt8) (he : InEvent.avail evs = w'.out ++ rest)
    (s : InStream) (hr : VerifyingKey.readStream c1 c2 ⟨evs, 0⟩ = some (.ok vk', s)) :
    vk' = vk ∧ (0 : G1) ∉ vk.ic ∧ InEvent.avail s.events = rest := by
  by_cases h0 : (0 : G1) ∈ vk.ic
  · exfalso
    obtain ⟨bytes, h1, h2⟩ := C38_vk_identity c1 c2 vk hv hl h0
    have ho := (show StreamWrites _ _ _ _ from hw ▸ C83_write_vk c1 c2 vk [] w).arrived
    have hb : bytes = vk.encoding c1 c2 := by
      have := h1 []
      rw [vk.write_eq, writeAll_room] at this
      simpa using this.symm
    have h := C83_read_vk c1 c2 evs 0
    rw [he, ho, ← hb, h2, hr] at h
    exact h.not_ok
  · obtain ⟨s', h1, h2⟩ := C83_transport_vk c1 c2 vk hv (fun g hg e => h0 (e ▸ hg)) hl w w' hw evs rest he
    rw [hr] at h1
    cases h1
    exact ⟨rfl, h0, h2⟩

/-- C89: the same for parameters, read with and without checks. -/
theorem C89_parameters (checked : Bool) (p p' : Parameters G1 G2) (hk : p.vk.Valid c1 c2) (hv : checked = true → p.Valid c1 c2)
    (hl : ∀ v ∈ [p.vk.ic, p.h, p.l, p.a, p.bG1], v.length < 2 ^ 32) (hl2 : p.bG2.length < 2 ^ 32) (w : List OutEvent) (w' : OutStream)
    (hw : p.writeStream c1 c2 ⟨[], w⟩ = (.ok (), w')) (evs : List InEvent) (rest : List UInt8) (he : InEvent.avail evs = w'.out ++ rest)
    (s : InStream) (hr : Parameters.readStream c1 c2 checked ⟨evs, 0⟩ = some (.ok p', s)) :
    p' = p ∧ (∀ v ∈ [p.vk.ic, p.h, p.l, p.a, p.bG1], (0 : G1) ∉ v) ∧ (0 : G2) ∉ p.bG2 ∧ InEvent.avail s.events = rest := by
  by_cases h0 : (∃ v ∈ [p.vk.ic, p.h, p.l, p.a, p.bG1], (0 : G1) ∈ v) ∨ (0 : G2) ∈ p.bG2
  · exfalso
    obtain ⟨bytes, h1, h2⟩ := C38_parameters_identity c1 c2 checked p hk hv hl hl2 h0
    have ho := (show StreamWrites _ _ _ _ from hw ▸ C83_write_parameters c1 c2 p [] w).arrived
    have hb : bytes = p.encoding c1 c2 := by
      have := h1 []
      rw [p.write_eq, writeAll_room] at this
      simpa using this.symm
    have h := C83_read_parameters c1 c2 checked evs 0
    rw [he, ho, ← hb, h2, hr] at h
    exact h.not_ok
  · rw [not_or] at h0
    have hn : ∀ v ∈ [p.vk.ic, p.h, p.l, p.a, p.bG1], (0 : G1) ∉ v := fun v hv hz => h0.1 ⟨v, hv, hz⟩
    obtain ⟨s', h1, h2⟩ := C83_transport_parameters c1 c2 checked p hk hv
      (fun v hv => ⟨fun g hg e => hn v hv (e ▸ hg), hl v hv⟩) ⟨fun g hg e => h0.2 (e ▸ hg), hl2⟩ w w' hw evs rest he
    rw [hr] at h1
    cases h1
    exact ⟨rfl, hn, h0.2, h2⟩

end streams

variable {F G1 G2 GT : Type} [PrimeField F] [AddCommGroup G1] [AddCommGroup G2] [AddCommGroup GT] [Module F G1] [Module F G2]
  [Module F GT] [DecidableEq G1] [DecidableEq G2] [DecidableEq GT]

/-- A generated key consists of valid points. -/
theorem generated_valid (c1 : PointCodec G1) (c2 : PointCodec G2) {w : Worker} {kc : Synth F Unit} {g1 : G1} {g2 : G2}
    (hv1 : ∀ a : F, c1.Valid (a • g1)) (hv2 : ∀ a : F, c2.Valid (a • g2)) {α β γ δ τ : F} {params : Parameters G1 G2}
    (hk : generateParameters w kc g1 g2 α β γ δ τ = Res.ok params) : params.vk.Valid c1 c2 ∧ params.Valid c1 c2 := by
  obtain ⟨t0, _, _, he, _⟩ := C29_crs w kc g1 g2 α β γ δ τ params hk
  rw [he]
  refine ⟨⟨hv1 _, hv1 _, hv2 _, hv2 _, hv1 _, hv2 _, fun g hg => ?_⟩, fun g hg => ?_, fun g hg => ?_, fun g hg => ?_, fun g hg => ?_,
    fun g hg => ?_⟩
  · obtain ⟨i, _, rfl⟩ := List.mem_map.1 hg
    exact hv1 _
  · obtain ⟨i, _, rfl⟩ := List.mem_map.1 hg
    exact hv1 _
  · obtain ⟨i, _, rfl⟩ := List.mem_map.1 hg
    exact hv1 _
  · obtain ⟨i, _, rfl⟩ := List.mem_map.1 (List.mem_filter.1 hg).1
    exact hv1 _
  · obtain ⟨i, _, rfl⟩ := List.mem_map.1 (List.mem_filter.1 hg).1
    exact hv1 _
  · obtain ⟨i, _, rfl⟩ := List.mem_map.1 (List.mem_filter.1 hg).1
    exact hv2 _

/-- A key for a circuit whose sizes can be written with 32 bits can be written with 32-bit lengths. -/
theorem generated_lengths {w : Worker} {kc : Synth F Unit} {g1 : G1} {g2 : G2} {α β γ δ τ : F} {params : Parameters G1 G2}
    (hk : generateParameters w kc g1 g2 α β γ δ τ = Res.ok params)
    (hsz : ∀ t, KeyTrace kc t → (consOf t).length + numIn t + 1 ≤ 2 ^ 32 ∧ numIn t + 1 + numAux t < 2 ^ 32) :
    (∀ v ∈ [params.vk.ic, params.h, params.l, params.a, params.bG1], v.length < 2 ^ 32) ∧ params.bG2.length < 2 ^ 32 := by
  obtain ⟨t, ht, _, he, _⟩ := C29_crs w kc g1 g2 α β γ δ τ params hk
  obtain ⟨hc, hn⟩ := hsz t ht
  obtain ⟨l1, l2, ⟨e, l3, -, l3'⟩, l4, l5, l6, -⟩ := C29_lengths t g1 g2 α β γ δ τ params he
  have he32 : e ≤ 32 := by
    by_contra hgt
    have h1 := l3' (by omega)
    have h2 : 2 ^ 32 ≤ 2 ^ (e - 1) := Nat.pow_le_pow_right (by norm_num) (by omega)
    omega
  have hh : 2 ^ e ≤ 2 ^ 32 := Nat.pow_le_pow_right (by norm_num) he32
  have hpos : 0 < 2 ^ e := by positivity
  refine ⟨fun v hv => ?_, by omega⟩
  simp only [List.mem_cons, List.not_mem_nil, or_false] at hv
  rcases hv with rfl | rfl | rfl | rfl | rfl <;> omega

/-- What happens between the parties: a key is generated, written with and without the queries, and read from streams that begin with what
arrived; a proof is made with the key that was read, written, and read.  Every step succeeds; nothing else is asked.
Specification of a scenario; the functions called are those of groth16/src/generator.rs:159-507, groth16/src/prover.rs:182-361 and the
readers and writers of groth16/src/lib.rs:39-99,143-218,258-397. -/
structure Deployment (c1 : PointCodec G1) (c2 : PointCodec G2) (size : ℕ) (kc pc : Synth F Unit) (g1 : G1) (g2 : G2) (α β γ δ τ r s : F)
    (vk' : VerifyingKey G1 G2) (params' : Parameters G1 G2) (pf' : Proof G1 G2) where
  build : Build
  build' : Build
  worker : Worker
  worker' : Worker
  checked : Bool
  params : Parameters G1 G2
  pf : Proof G1 G2
  generated : generateParametersV build worker kc g1 g2 α β γ δ τ = Res.ok params
  keyWriter : List OutEvent
  keyWritten : OutStream
  writeKey : params.writeStream c1 c2 ⟨[], keyWriter⟩ = (.ok (), keyWritten)
  keyReader : List InEvent
  keyRest : List UInt8
  keyArrives : InEvent.avail keyReader = keyWritten.out ++ keyRest
  keyLeft : InStream
  readKey : Parameters.readStream c1 c2 checked ⟨keyReader, 0⟩ = some (.ok params', keyLeft)
  vkWriter : List OutEvent
  vkWritten : OutStream
  writeVk : params.vk.writeStream c1 c2 ⟨[], vkWriter⟩ = (.ok (), vkWritten)
  vkReader : List InEvent
  vkRest : List UInt8
  vkArrives : InEvent.avail vkReader = vkWritten.out ++ vkRest
  vkLeft : InStream
  readVk : VerifyingKey.readStream c1 c2 ⟨vkReader, 0⟩ = some (.ok vk', vkLeft)
  proved : createProofV size build' worker' pc params' r s = Res.ok pf
  proofWriter : List OutEvent
  proofWritten : OutStream
  writeProof : pf.writeStream c1 c2 ⟨[], proofWriter⟩ = (.ok (), proofWritten)
  proofReader : List InEvent
  proofRest : List UInt8
  proofArrives : InEvent.avail proofReader = proofWritten.out ++ proofRest
  proofLeft : InStream
  readProof : Proof.readStream c1 c2 ⟨proofReader, 0⟩ = some (.ok pf', proofLeft)

variable {c1 : PointCodec G1} {c2 : PointCodec G2} {size : ℕ} {R : Unit → Unit → Prop} {kc pc : Synth F Unit} {g1 : G1} {g2 : G2}
  {α β γ δ τ r s : F} {vk' : VerifyingKey G1 G2} {params' : Parameters G1 G2} {pf' : Proof G1 G2}

/-- C89: what the prover and the verifier have read is what was generated and proved, and it is what unlimited numbers give. -/
theorem C89_genuine (hsize : 0 < size) (h : SShape R kc pc) (hv1 : ∀ a : F, c1.Valid (a • g1)) (hv2 : ∀ a : F, c2.Valid (a • g2))
    (hsz : ∀ t, KeyTrace kc t → (consOf t).length + numIn t + 1 ≤ 2 ^ 32 ∧ numIn t + 1 + numAux t < 2 ^ 32)
    (d : Deployment c1 c2 size kc pc g1 g2 α β γ δ τ r s vk' params' pf') :
    vk' = params'.vk ∧ generateParameters d.worker kc g1 g2 α β γ δ τ = Res.ok params' ∧
      createProof d.worker' pc params' r s = Res.ok pf' := by
  have hk : generateParameters d.worker kc g1 g2 α β γ δ τ = Res.ok d.params := by
    rcases C87_generate d.build d.worker (C88_generate_threads d.generated) kc g1 g2 α β γ δ τ
      (fun t ht => (hsz t ht).1.trans (by norm_num)) with hg | hg
    · cases d.generated.symm.trans hg
    · rw [← hg, d.generated]
  obtain ⟨hvk, hv⟩ := generated_valid c1 c2 hv1 hv2 hk
  obtain ⟨hl, hl2⟩ := generated_lengths hk hsz
  obtain ⟨e1, -⟩ := C89_parameters c1 c2 d.checked d.params params' hvk (fun _ => hv) hl hl2 _ _ d.writeKey _ _ d.keyArrives _ d.readKey
  obtain ⟨e2, -⟩ := C89_vk c1 c2 d.params.vk vk' hvk (hl _ (by simp)) _ _ d.writeVk _ _ d.vkArrives _ d.readVk
  have hg := d.generated
  rw [← e1] at hk e2 hg
  have hp := (C88_genuine hsize h hg d.proved).2
  obtain ⟨_, _, _, _, _, _, _, _, _, _, _, hpf⟩ := prove_spec h hk hp
  have hpv : d.pf.Valid c1 c2 := by
    rw [hpf]
    exact ⟨hv1 _, hv2 _, hv1 _⟩
  obtain ⟨e3, -⟩ := C89_proof c1 c2 d.pf pf' hpv _ _ d.writeProof _ _ d.proofArrives _ d.readProof
  exact ⟨e2, hk, hp.trans (congrArg Res.ok e3.symm)⟩

/-- C89: the verifier accepts the proof of a satisfied circuit, under the key written on its own and under the one in the parameters. -/
theorem C89_completeness (E : Engine F G1 G2 GT) (hsize : 0 < size) (h : SShape R kc pc) (hv1 : ∀ a : F, c1.Valid (a • g1))
    (hv2 : ∀ a : F, c2.Valid (a • g2))
    (hsz : ∀ t, KeyTrace kc t → (consOf t).length + numIn t + 1 ≤ 2 ^ 32 ∧ numIn t + 1 + numAux t < 2 ^ 32)
    (d : Deployment c1 c2 size kc pc g1 g2 α β γ δ τ r s vk' params' pf') (t : List (Ev F)) (ht : ProverTrace pc t)
    (hsat : Sat (witness t) t) :
    verifyProof E (prepareVerifyingKey E vk') pf' (inVals t) = some (.ok ()) ∧
      verifyProof E (prepareVerifyingKey E params'.vk) pf' (inVals t) = some (.ok ()) := by
  obtain ⟨rfl, hk, hp⟩ := C89_genuine hsize h hv1 hv2 hsz d
  have := C30_completeness E d.worker d.worker' h g1 g2 α β γ δ τ r s params' pf' hk hp t ht hsat
  exact ⟨this, this⟩

/-- C89: the verifier rejects a proof made from an unsatisfied assignment, unless `τ` is one of at most `2m - 2` values, which depend on
the assignment only. -/
theorem C89_unsatisfied {pc : Synth F Unit} (t : List (Ev F)) (ht : ProverTrace pc t) (hunsat : ¬ Sat (witness t) t) :
    ∃ bad : Finset F, bad.card ≤ 2 * (Qap.ofTrace t).m - 2 ∧
      ∀ (E : Engine F G1 G2 GT) (c1 : PointCodec G1) (c2 : PointCodec G2) (size : ℕ) (R : Unit → Unit → Prop) (kc : Synth F Unit) (g1 : G1)
        (g2 : G2) (α β γ δ τ r s : F) (vk' : VerifyingKey G1 G2) (params' : Parameters G1 G2) (pf' : Proof G1 G2), 0 < size →
        SShape R kc pc → g1 ≠ 0 → g2 ≠ 0 → (∀ a : F, c1.Valid (a • g1)) → (∀ a : F, c2.Valid (a • g2)) →
        (∀ t, KeyTrace kc t → (consOf t).length + numIn t + 1 ≤ 2 ^ 32 ∧ numIn t + 1 + numAux t < 2 ^ 32) →
        Deployment c1 c2 size kc pc g1 g2 α β γ δ τ r s vk' params' pf' → τ ∉ bad →
        verifyProof E (prepareVerifyingKey E vk') pf' (inVals t) = some (.error .invalidProof) := by
  obtain ⟨bad, h1, h2⟩ := C33_unsatisfied (G1 := G1) (G2 := G2) (GT := GT) t ht hunsat
  refine ⟨bad, h1, fun E c1 c2 size R kc g1 g2 α β γ δ τ r s vk' params' pf' hsize h hg1 hg2 hv1 hv2 hsz d hτ => ?_⟩
  obtain ⟨rfl, hk, hp⟩ := C89_genuine hsize h hv1 hv2 hsz d
  exact h2 E d.worker d.worker' R kc g1 g2 α β γ δ τ r s params' pf' h hg1 hg2 hk hp hτ

/-! ### The hypotheses are met -/

/-- A stream that delivers `bs` byte by byte, interrupted before each. Example only, no counterpart in the code. -/
def trickle (bs : List UInt8) : List InEvent := bs.flatMap fun b => [.interrupted, .data [b]]

theorem trickle_avail (bs : List UInt8) : InEvent.avail (trickle bs) = bs := by
  induction bs with
  | nil => rfl
  | cons b bs ih => simpa [trickle, InEvent.avail] using ih

/-- A writer that is interrupted, takes three bytes, and then takes everything succeeds. -/
theorem StreamWrites.slow {bs : List UInt8} {r : Except StreamError Unit × OutStream}
    (h : StreamWrites bs [] [.interrupted, .take 3] r) : r = (.ok (), r.2) := by
  have h : r.1 = .ok () ∧ _ := h
  exact Prod.ext h.1 rfl

/-- The square of a number, true or claimed, is proved and passed around in small pieces. -/
theorem claim_deployment (w : Worker) (hw : w.multicore = true → w.threads < 2 ^ 63) (x y : DummyFr) :
    ∃ r s vk' params' pf', Nonempty (Deployment fieldCodec fieldCodec 32 (squareCircuit none) (claimCircuit (some x) (some y))
      (1 : DummyFr) (1 : DummyFr) 2 5 7 11 3 r s vk' params' pf') := by
  have hfin := PrimeField.finite (F := DummyFr)
  obtain ⟨params, hk, -, hs1, hs2, hs3, -⟩ := square_storable w
  have hshape := claimCircuit_shape none (some x) (some y)
  obtain ⟨r, s, pf, hp, ha, hb, hc⟩ : ∃ r s pf, createProof w (claimCircuit (some x) (some y)) params r s = Res.ok pf ∧
      pf.a ≠ 0 ∧ pf.b ≠ 0 ∧ pf.c ≠ 0 := by
    have hcount := C46_proof_storable hshape w w (1 : DummyFr) (1 : DummyFr) 2 5 7 11 3 params hk
    by_contra hno
    push Not at hno
    have huniv : ({z : DummyFr × DummyFr | ∃ pf, createProof w (claimCircuit (some x) (some y)) params z.1 z.2 = Res.ok pf ∧
        (pf.a = 0 ∨ pf.b = 0 ∨ pf.c = 0)} : Set _) = Set.univ := by
      refine Set.eq_univ_of_forall fun z => ?_
      obtain ⟨params2, pf, h1, h2⟩ := claim_proof w w x y z.1 z.2
      cases h1.symm.trans hk
      refine ⟨pf, h2, ?_⟩
      by_contra h0
      rw [not_or, not_or] at h0
      exact h0.2.2 (hno z.1 z.2 pf h2 h0.1 h0.2.1)
    rw [huniv, Set.ncard_univ, Nat.card_prod, PrimeField.card_eq] at hcount
    exact absurd hcount (by decide +kernel)
  obtain ⟨params2, pf2, g1, g2⟩ := claim_proofV .release .debug w w hw hw x y r s
  obtain ⟨k1, k2⟩ := C88_genuine (by norm_num) hshape g1 g2
  cases hk.symm.trans k1
  cases hp.symm.trans k2
  obtain ⟨hvk, hv⟩ := generated_valid fieldCodec fieldCodec (fun _ => trivial) (fun _ => trivial) hk
  have w1 := (C83_write_parameters fieldCodec fieldCodec params [] [.interrupted, .take 3]).slow
  have w2 := (C83_write_vk fieldCodec fieldCodec params.vk [] [.interrupted, .take 3]).slow
  have w3 := (C83_write_proof fieldCodec fieldCodec pf [] [.interrupted, .take 3]).slow
  obtain ⟨s1, r1, -⟩ := C83_transport_parameters fieldCodec fieldCodec true params hvk (fun _ => hv) hs1 ⟨hs2, hs3⟩ _ _ w1 (trickle _) []
    (by rw [trickle_avail, List.append_nil])
  obtain ⟨s2, r2, -⟩ := C83_transport_vk fieldCodec fieldCodec params.vk hvk (hs1 _ (by simp)).1 (hs1 _ (by simp)).2 _ _ w2 (trickle _) []
    (by rw [trickle_avail, List.append_nil])
  obtain ⟨s3, r3, -⟩ := C83_transport_proof fieldCodec fieldCodec pf ⟨trivial, trivial, trivial⟩ ha hb hc _ _ w3 (trickle _) []
    (by rw [trickle_avail, List.append_nil])
  exact ⟨r, s, params.vk, params, pf, ⟨{
    build := .release, build' := .debug, worker := w, worker' := w, checked := true, params := params, pf := pf
    generated := g1
    keyWriter := _, keyWritten := _, writeKey := w1, keyReader := _, keyRest := []
    keyArrives := by rw [trickle_avail, List.append_nil]
    keyLeft := _, readKey := r1
    vkWriter := _, vkWritten := _, writeVk := w2, vkReader := _, vkRest := []
    vkArrives := by rw [trickle_avail, List.append_nil]
    vkLeft := _, readVk := r2
    proved := g2
    proofWriter := _, proofWritten := _, writeProof := w3, proofReader := _, proofRest := []
    proofArrives := by rw [trickle_avail, List.append_nil]
    proofLeft := _, readProof := r3 }⟩⟩

theorem square_small (t : List (Ev DummyFr)) (ht : KeyTrace (squareCircuit none) t) :
    (consOf t).length + numIn t + 1 ≤ 2 ^ 32 ∧ numIn t + 1 + numAux t < 2 ^ 32 := by
  cases ht.unique squareTrace_key
  decide

/-- The proof that 25 is the square of 5, passed around, is accepted (`C89_completeness`, with `C89_genuine` and the transports). -/
example (E : Engine DummyFr DummyFr DummyFr DummyFr) (w : Worker) (hw : w.multicore = true → w.threads < 2 ^ 63) :
    ∃ r s vk' params' pf', Nonempty (Deployment fieldCodec fieldCodec 32 (squareCircuit none) (claimCircuit (some 5) (some 25))
      (1 : DummyFr) (1 : DummyFr) 2 5 7 11 3 r s vk' params' pf') ∧
      verifyProof E (prepareVerifyingKey E vk') pf' [25] = some (.ok ()) := by
  obtain ⟨r, s, vk', params', pf', ⟨d⟩⟩ := claim_deployment w hw 5 25
  exact ⟨r, s, vk', params', pf', ⟨d⟩, (C89_completeness E (by norm_num) (claimCircuit_shape none (some 5) (some 25))
    (fun _ => trivial) (fun _ => trivial) square_small d (claimTrace 5 25) (claimTrace_prover 5 25)
    ((claimTrace_sat 5 25).2 (by decide +kernel))).1⟩

/-- The hypotheses of `C89_unsatisfied` hold for the false claim that the square of 5 is 24. -/
example (w : Worker) (hw : w.multicore = true → w.threads < 2 ^ 63) :
    (∃ r s vk' params' pf', Nonempty (Deployment fieldCodec fieldCodec 32 (squareCircuit none) (claimCircuit (some 5) (some 24))
      (1 : DummyFr) (1 : DummyFr) 2 5 7 11 3 r s vk' params' pf')) ∧ ¬ Sat (witness (claimTrace 5 24)) (claimTrace 5 24) :=
  ⟨claim_deployment w hw 5 24, fun h => absurd ((claimTrace_sat 5 24).1 h) (by decide +kernel)⟩

end Bellman
