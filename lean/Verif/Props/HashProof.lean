import Verif.Proofs.HashProof

/-!
# C61: proofs of knowledge of hash preimages, of any length, for SHA-256 and BLAKE2s
-/

namespace Bellman

open PrimeField
open Preimage

set_option linter.unusedSectionVars false

variable {F : Type} [PrimeField F] {G1 G2 GT : Type} [AddCommGroup G1] [AddCommGroup G2] [AddCommGroup GT] [Module F G1] [Module F G2]
  [Module F GT] [DecidableEq G1] [DecidableEq G2] [DecidableEq GT]

/-- The first auxiliary variables hold the given bits, as zero and one. -/
def HoldsBits (ρ : Var → F) (bits : List Bool) : Prop := ∀ j, ∀ h : j < bits.length, ρ (.aux j) = if bits[j] then 1 else 0

theorem messageIn_iff (H : HashFn F) (ρ : Var → F) (m : List (BitVec 8)) : H.MessageIn ρ m ↔ HoldsBits ρ (H.enc m) := by
  unfold HashFn.MessageIn HoldsBits
  rw [← H.enc_len]
  exact forall_congr' fun j => forall_congr' fun h => by rw [List.getD_eq_getElem _ _ h]

/-! ### SHA-256 -/

/-- C61, SHA-256: for messages of `len ≥ 1` bytes that fit the field, except for a small fraction of the trapdoors `generate_parameters`
succeeds for the circuit without a message, and then for every message of `len` bytes, all blinding factors and all workers `create_proof`
succeeds and `verify_proof` accepts the proof for the packed hash. -/
theorem C61_sha256_accept (h64 : 64 ≤ NUM_BITS F) (E : Engine F G1 G2 GT) (w : Worker) (g1 : G1) (g2 : G2) (hg1 : g1 ≠ 0) (hg2 : g2 ≠ 0)
    (len M : ℕ) (hlen : 0 < len) (hM : 8 * len + 27045 * ((len + 72) / 64) + 11 ≤ 2 ^ M) (hS : M < S F) (hM32 : M < 32) :
    ({x : F × F × F × F × F | ¬ ∃ params, generateParameters w (sha256Circuit len none) g1 g2
          x.1 x.2.1 x.2.2.1 x.2.2.2.1 x.2.2.2.2 = Res.ok params ∧
        ∀ (w' : Worker) (m : List (BitVec 8)) (r s : F), m.length = len → ∃ pf inputs,
          createProof w' (sha256Circuit len (some m)) params r s = Res.ok pf ∧
          computeMultipacking F (bytesToBits (Spec.digest m)) = some inputs ∧
          verifyProof E (prepareVerifyingKey E params.vk) pf inputs = some (.ok ())} : Set _).ncard ≤
      3 * (8 * len + 26860 * ((len + 72) / 64) + 7) * 2 ^ M * p F ^ 4 := by
  have e1 : (sha256Fn F).rows (8 * len) = 27045 * ((len + 72) / 64) := by
    show 27045 * ((8 * len + 576) / 512) = _
    congr 1
    omega
  have e2 : (sha256Fn F).vars (8 * len) = 26860 * ((len + 72) / 64) := by
    show 26860 * ((8 * len + 576) / 512) = _
    congr 1
    omega
  have h31 : 2 ^ M ≤ 2 ^ 31 := Nat.pow_le_pow_right (by norm_num) (by omega)
  have h := (sha256Fn F).pipeline (G1 := G1) (G2 := G2) h64 E w g1 g2 hg1 hg2 len M hlen (by rw [e1]; exact hM)
    (by rw [e2]; omega) hS hM32
  rw [e2] at h
  exact h

/-- C61, SHA-256: the parameters have one public input per `CAPACITY` bits of the hash. -/
theorem C61_sha256_inputs (h64 : 64 ≤ NUM_BITS F) (len : ℕ) :
    ∃ t : List (Ev F), KeyTrace (sha256Circuit len none) t ∧ (∀ t', KeyTrace (sha256Circuit len none) t' → t' = t) ∧
      numIn t = (256 + CAPACITY F - 1) / CAPACITY F := by
  obtain ⟨t, h1, h2, h3, -⟩ := (sha256Fn F).key_circuit h64 len
  exact ⟨t, h1, h2, h3⟩

/-- C61, SHA-256: whatever satisfies the constraints with the packed hash as public inputs holds the bits of a message with this hash in
its first auxiliary variables. -/
theorem C61_sha256_sound {len : ℕ} {t : List (Ev F)} (ht : KeyTrace (sha256Circuit len none) t)
    (hash : List (BitVec 8)) (hh : hash.length = 32) (xs : List F) (hx : computeMultipacking F (bytesToBits hash) = some xs) (ρ : Var → F)
    (hin : ∀ i, ρ (.input i) = ((1 : F) :: xs).getD i 0) (hs : Sat ρ t) :
    ∃ m, m.length = len ∧ HoldsBits ρ (bytesToBits m) ∧ Spec.digest m = hash := by
  obtain ⟨m, h1, h2, h3⟩ := (sha256Fn F).sound_circuit ht hash hh xs hx ρ hin hs
  exact ⟨m, h1, (messageIn_iff _ ρ m).1 h2, h3⟩

/-- C61, SHA-256: an algebraic prover either has the bits of a message with this hash among its coefficients, or is rejected for all
but a small fraction of the trapdoors. -/
theorem C61_sha256_knowledge (E : Engine F G1 G2 GT) {len : ℕ} {t : List (Ev F)} (ht : KeyTrace (sha256Circuit len none) t)
    (hash : List (BitVec 8)) (hh : hash.length = 32) (xs : List F) (hx : computeMultipacking F (bytesToBits hash) = some xs)
    (σ : Strategy F) :
    (∃ m, m.length = len ∧ HoldsBits (σ.extract xs) (bytesToBits m) ∧ Spec.digest m = hash) ∨
    ({x : F × F × F × F × F | ∃ (w : Worker) (g1 : G1) (g2 : G2) (params : Parameters G1 G2), g1 ≠ 0 ∧ g2 ≠ 0 ∧
        generateParameters w (sha256Circuit len none) g1 g2 x.1 x.2.1 x.2.2.1 x.2.2.2.1 x.2.2.2.2 = Res.ok params ∧
        verifyProof E (prepareVerifyingKey E params.vk) (σ.proof g1 g2 params) xs = some (.ok ())} : Set _).ncard ≤
      (3 * (Qap.ofTrace t).m + 1 + 2 * (numIn t + 1 + numAux t) * ((Qap.ofTrace t).m - 1)) * p F ^ 4 :=
  ((sha256Fn F).knowledge (G1 := G1) (G2 := G2) E ht hash hh xs hx σ).imp_left
    fun ⟨m, h1, h2, h3⟩ => ⟨m, h1, (messageIn_iff _ _ m).1 h2, h3⟩

/-- C61, SHA-256: an honest proof for one message is rejected for every hash but its own, for all but a small fraction of the trapdoors. -/
theorem C61_sha256_other_hash (h64 : 64 ≤ NUM_BITS F) (E : Engine F G1 G2 GT) {len : ℕ} {t : List (Ev F)}
    (ht : KeyTrace (sha256Circuit len none) t) (m : List (BitVec 8)) (hm : m.length = len) (hash : List (BitVec 8))
    (hh : hash.length = 32) (hne : Spec.digest m ≠ hash) (xs : List F) (hx : computeMultipacking F (bytesToBits hash) = some xs) (r s : F) :
    ({x : F × F × F × F × F | ∃ (w w' : Worker) (g1 : G1) (g2 : G2) (params : Parameters G1 G2) (pf : Proof G1 G2), g1 ≠ 0 ∧ g2 ≠ 0 ∧
        generateParameters w (sha256Circuit len none) g1 g2 x.1 x.2.1 x.2.2.1 x.2.2.2.1 x.2.2.2.2 = Res.ok params ∧
        createProof w' (sha256Circuit len (some m)) params r s = Res.ok pf ∧
        verifyProof E (prepareVerifyingKey E params.vk) pf xs = some (.ok ())} : Set _).ncard ≤
      (3 * (Qap.ofTrace t).m + 1 + 2 * (numIn t + 1 + numAux t) * ((Qap.ofTrace t).m - 1)) * p F ^ 4 :=
  (sha256Fn F).other_hash (G1 := G1) (G2 := G2) h64 E ht m hm hash hh hne xs hx r s

/-- C61, SHA-256: two messages with the same hash give the same distribution of proofs. -/
theorem C61_sha256_hiding (h64 : 64 ≤ NUM_BITS F) (w w' w'' : Worker) (g1 : G1) (g2 : G2) (α β γ δ τ : F)
    (params : Parameters G1 G2) {len : ℕ}
    (hk : generateParameters w (sha256Circuit len none) g1 g2 α β γ δ τ = Res.ok params) (m m' : List (BitVec 8))
    (hm : m.length = len) (hm' : m'.length = len) (heq : Spec.digest m = Spec.digest m')
    (hok : ∃ (r s : F) (pf : Proof G1 G2), createProof w' (sha256Circuit len (some m)) params r s = Res.ok pf)
    (hok' : ∃ (r s : F) (pf : Proof G1 G2), createProof w'' (sha256Circuit len (some m')) params r s = Res.ok pf) (out : Res (Proof G1 G2)) :
    Nat.card {x : F × F // createProof w' (sha256Circuit len (some m)) params x.1 x.2 = out} =
      Nat.card {x : F × F // createProof w'' (sha256Circuit len (some m')) params x.1 x.2 = out} :=
  (sha256Fn F).same_hash h64 w w' w'' g1 g2 α β γ δ τ params hk m m' hm hm' heq hok hok' out

/-- C61, SHA-256: a message of another length than the circuit is for makes `synthesize` panic before anything is allocated. -/
theorem C61_sha256_length (len : ℕ) (m : List (BitVec 8)) (hm : m.length ≠ len) (t : List (Ev F)) (r)
    (he : Exec (sha256Circuit len (some m)).run t r) : t = [] ∧ r = none :=
  (sha256Fn F).length_mismatch hm he

/-! ### BLAKE2s -/

/-- C61, BLAKE2s: for messages of `len ≥ 1` bytes that fit the field, except for a small fraction of the trapdoors `generate_parameters`
succeeds for the circuit without a message, and then for every message of `len` bytes, all blinding factors and all workers `create_proof`
succeeds and `verify_proof` accepts the proof for the packed hash. -/
theorem C61_blake2s_accept (h64 : 64 ≤ NUM_BITS F) (E : Engine F G1 G2 GT) (w : Worker) (g1 : G1) (g2 : G2) (hg1 : g1 ≠ 0) (hg2 : g2 ≠ 0)
    (pers : List (BitVec 8)) (hp : pers.length = 8) (len M : ℕ) (hlen : 0 < len) (hM : 8 * len + 21889 * max 1 ((len + 63) / 64) + 11 ≤ 2 ^ M) (hS : M < S F) (hM32 : M < 32) :
    ({x : F × F × F × F × F | ¬ ∃ params, generateParameters w (blake2sCircuit pers len none) g1 g2
          x.1 x.2.1 x.2.2.1 x.2.2.2.1 x.2.2.2.2 = Res.ok params ∧
        ∀ (w' : Worker) (m : List (BitVec 8)) (r s : F), m.length = len → ∃ pf inputs,
          createProof w' (blake2sCircuit pers len (some m)) params r s = Res.ok pf ∧
          computeMultipacking F (bytesToBitsLe (Spec.Blake2s.blake2s pers m)) = some inputs ∧
          verifyProof E (prepareVerifyingKey E params.vk) pf inputs = some (.ok ())} : Set _).ncard ≤
      3 * (8 * len + 21568 * max 1 ((len + 63) / 64) + 7) * 2 ^ M * p F ^ 4 := by
  have e1 : (blake2sFn F pers hp).rows (8 * len) = 21889 * max 1 ((len + 63) / 64) := by
    show 21889 * max 1 ((8 * len + 511) / 512) = _
    congr 1
    omega
  have e2 : (blake2sFn F pers hp).vars (8 * len) = 21568 * max 1 ((len + 63) / 64) := by
    show 21568 * max 1 ((8 * len + 511) / 512) = _
    congr 1
    omega
  have h31 : 2 ^ M ≤ 2 ^ 31 := Nat.pow_le_pow_right (by norm_num) (by omega)
  have h := (blake2sFn F pers hp).pipeline (G1 := G1) (G2 := G2) h64 E w g1 g2 hg1 hg2 len M hlen (by rw [e1]; exact hM)
    (by rw [e2]; omega) hS hM32
  rw [e2] at h
  exact h

/-- C61, BLAKE2s: the parameters have one public input per `CAPACITY` bits of the hash. -/
theorem C61_blake2s_inputs (h64 : 64 ≤ NUM_BITS F) (pers : List (BitVec 8)) (hp : pers.length = 8) (len : ℕ) :
    ∃ t : List (Ev F), KeyTrace (blake2sCircuit pers len none) t ∧ (∀ t', KeyTrace (blake2sCircuit pers len none) t' → t' = t) ∧
      numIn t = (256 + CAPACITY F - 1) / CAPACITY F := by
  obtain ⟨t, h1, h2, h3, -⟩ := (blake2sFn F pers hp).key_circuit h64 len
  exact ⟨t, h1, h2, h3⟩

/-- C61, BLAKE2s: whatever satisfies the constraints with the packed hash as public inputs holds the bits of a message with this hash in
its first auxiliary variables. -/
theorem C61_blake2s_sound (pers : List (BitVec 8)) (hp : pers.length = 8) {len : ℕ} {t : List (Ev F)} (ht : KeyTrace (blake2sCircuit pers len none) t)
    (hash : List (BitVec 8)) (hh : hash.length = 32) (xs : List F) (hx : computeMultipacking F (bytesToBitsLe hash) = some xs) (ρ : Var → F)
    (hin : ∀ i, ρ (.input i) = ((1 : F) :: xs).getD i 0) (hs : Sat ρ t) :
    ∃ m, m.length = len ∧ HoldsBits ρ (bytesToBitsLe m) ∧ Spec.Blake2s.blake2s pers m = hash := by
  obtain ⟨m, h1, h2, h3⟩ := (blake2sFn F pers hp).sound_circuit ht hash hh xs hx ρ hin hs
  exact ⟨m, h1, (messageIn_iff _ ρ m).1 h2, h3⟩

/-- C61, BLAKE2s: an algebraic prover either has the bits of a message with this hash among its coefficients, or is rejected for all
but a small fraction of the trapdoors. -/
theorem C61_blake2s_knowledge (E : Engine F G1 G2 GT) (pers : List (BitVec 8)) (hp : pers.length = 8) {len : ℕ} {t : List (Ev F)} (ht : KeyTrace (blake2sCircuit pers len none) t)
    (hash : List (BitVec 8)) (hh : hash.length = 32) (xs : List F) (hx : computeMultipacking F (bytesToBitsLe hash) = some xs)
    (σ : Strategy F) :
    (∃ m, m.length = len ∧ HoldsBits (σ.extract xs) (bytesToBitsLe m) ∧ Spec.Blake2s.blake2s pers m = hash) ∨
    ({x : F × F × F × F × F | ∃ (w : Worker) (g1 : G1) (g2 : G2) (params : Parameters G1 G2), g1 ≠ 0 ∧ g2 ≠ 0 ∧
        generateParameters w (blake2sCircuit pers len none) g1 g2 x.1 x.2.1 x.2.2.1 x.2.2.2.1 x.2.2.2.2 = Res.ok params ∧
        verifyProof E (prepareVerifyingKey E params.vk) (σ.proof g1 g2 params) xs = some (.ok ())} : Set _).ncard ≤
      (3 * (Qap.ofTrace t).m + 1 + 2 * (numIn t + 1 + numAux t) * ((Qap.ofTrace t).m - 1)) * p F ^ 4 :=
  ((blake2sFn F pers hp).knowledge (G1 := G1) (G2 := G2) E ht hash hh xs hx σ).imp_left
    fun ⟨m, h1, h2, h3⟩ => ⟨m, h1, (messageIn_iff _ _ m).1 h2, h3⟩

/-- C61, BLAKE2s: an honest proof for one message is rejected for every hash but its own, for all but a small fraction of the trapdoors. -/
theorem C61_blake2s_other_hash (h64 : 64 ≤ NUM_BITS F) (E : Engine F G1 G2 GT) (pers : List (BitVec 8)) (hp : pers.length = 8) {len : ℕ} {t : List (Ev F)}
    (ht : KeyTrace (blake2sCircuit pers len none) t) (m : List (BitVec 8)) (hm : m.length = len) (hash : List (BitVec 8))
    (hh : hash.length = 32) (hne : Spec.Blake2s.blake2s pers m ≠ hash) (xs : List F) (hx : computeMultipacking F (bytesToBitsLe hash) = some xs) (r s : F) :
    ({x : F × F × F × F × F | ∃ (w w' : Worker) (g1 : G1) (g2 : G2) (params : Parameters G1 G2) (pf : Proof G1 G2), g1 ≠ 0 ∧ g2 ≠ 0 ∧
        generateParameters w (blake2sCircuit pers len none) g1 g2 x.1 x.2.1 x.2.2.1 x.2.2.2.1 x.2.2.2.2 = Res.ok params ∧
        createProof w' (blake2sCircuit pers len (some m)) params r s = Res.ok pf ∧
        verifyProof E (prepareVerifyingKey E params.vk) pf xs = some (.ok ())} : Set _).ncard ≤
      (3 * (Qap.ofTrace t).m + 1 + 2 * (numIn t + 1 + numAux t) * ((Qap.ofTrace t).m - 1)) * p F ^ 4 :=
  (blake2sFn F pers hp).other_hash (G1 := G1) (G2 := G2) h64 E ht m hm hash hh hne xs hx r s

/-- C61, BLAKE2s: two messages with the same hash give the same distribution of proofs. -/
theorem C61_blake2s_hiding (h64 : 64 ≤ NUM_BITS F) (w w' w'' : Worker) (g1 : G1) (g2 : G2) (α β γ δ τ : F)
    (params : Parameters G1 G2) (pers : List (BitVec 8)) (hp : pers.length = 8) {len : ℕ}
    (hk : generateParameters w (blake2sCircuit pers len none) g1 g2 α β γ δ τ = Res.ok params) (m m' : List (BitVec 8))
    (hm : m.length = len) (hm' : m'.length = len) (heq : Spec.Blake2s.blake2s pers m = Spec.Blake2s.blake2s pers m')
    (hok : ∃ (r s : F) (pf : Proof G1 G2), createProof w' (blake2sCircuit pers len (some m)) params r s = Res.ok pf)
    (hok' : ∃ (r s : F) (pf : Proof G1 G2), createProof w'' (blake2sCircuit pers len (some m')) params r s = Res.ok pf) (out : Res (Proof G1 G2)) :
    Nat.card {x : F × F // createProof w' (blake2sCircuit pers len (some m)) params x.1 x.2 = out} =
      Nat.card {x : F × F // createProof w'' (blake2sCircuit pers len (some m')) params x.1 x.2 = out} :=
  (blake2sFn F pers hp).same_hash h64 w w' w'' g1 g2 α β γ δ τ params hk m m' hm hm' heq hok hok' out

/-- C61, BLAKE2s: a message of another length than the circuit is for makes `synthesize` panic before anything is allocated. -/
theorem C61_blake2s_length (pers : List (BitVec 8)) (hp : pers.length = 8) (len : ℕ) (m : List (BitVec 8)) (hm : m.length ≠ len) (t : List (Ev F)) (r)
    (he : Exec (blake2sCircuit pers len (some m)).run t r) : t = [] ∧ r = none :=
  (blake2sFn F pers hp).length_mismatch hm he

/-! ### The hypotheses are met -/

/-- A message of a megabyte over the scalar field of BLS12-381: `2²⁹` rows. -/
example (w : Worker) := C61_sha256_accept (F := BlsScalar) (G1 := BlsScalar) (G2 := BlsScalar) (GT := BlsScalar) (by decide)
  (fieldEngine BlsScalar) w 1 1 one_ne_zero one_ne_zero 1048576 29 (by decide) (by decide) (by decide) (by decide)

/-- Sixty-four bytes hashed with BLAKE2s and the personalization of the tests: `2¹⁵` rows. -/
example (w : Worker) := C61_blake2s_accept (F := BlsScalar) (G1 := BlsScalar) (G2 := BlsScalar) (GT := BlsScalar) (by decide)
  (fieldEngine BlsScalar) w 1 1 one_ne_zero one_ne_zero [0x31, 0x32, 0x33, 0x34, 0x35, 0x36, 0x37, 0x38] rfl 64 15
  (by decide) (by decide) (by decide) (by decide)

/-- The hash of any message is packed as in the theorems. -/
example (len : ℕ) : ∃ (t : List (Ev BlsScalar)) (xs : List BlsScalar), KeyTrace (sha256Circuit len none) t ∧
    computeMultipacking BlsScalar (bytesToBits (Spec.digest (List.replicate len 42#8))) = some xs ∧ xs.length = numIn t := by
  obtain ⟨t, h1, -, h2⟩ := C61_sha256_inputs (F := BlsScalar) (by decide) len
  obtain ⟨xs, h3, h4⟩ := computeMultipacking_some (F := BlsScalar) (bytesToBits (Spec.digest (List.replicate len 42#8)))
  exact ⟨t, xs, h1, h3, by rw [h4, h2, length_be]; simp [Spec.digest]⟩

/-- Assignments as in `C61_blake2s_sound` exist for every message. -/
example (pers : List (BitVec 8)) (hp : pers.length = 8) (m : List (BitVec 8)) :
    ∃ t : List (Ev BlsScalar), ProverTrace (blake2sCircuit pers m.length (some m)) t ∧ Sat (witness t) t ∧
      HoldsBits (witness t) (bytesToBitsLe m) := by
  obtain ⟨t, h1, h2, h3, -⟩ := (blake2sFn BlsScalar pers hp).prover_circuit (by decide) (m := m) rfl
  exact ⟨t, h1, h2, (messageIn_iff _ _ _).1 h3⟩

end Bellman
