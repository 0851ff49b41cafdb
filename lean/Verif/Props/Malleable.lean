import Verif.Props.Groth16

/-!
# C54: which proofs and inputs the verifier does not tell apart

Anyone can turn an accepted proof into another one for the same public inputs; every accepted proof arises in this way.  The public
inputs enter verification only through one group element, so that a key with two or more inputs accepts the same proofs for different
inputs; they are hard to find, but they exist for every key.
-/

set_option linter.unusedSectionVars false

namespace Bellman

open PrimeField Finset

variable {F : Type} [PrimeField F] {G1 G2 GT : Type} [AddCommGroup G1] [AddCommGroup G2] [AddCommGroup GT] [Module F G1] [Module F G2]
  [Module F GT] [DecidableEq G1] [DecidableEq G2] [DecidableEq GT]

/-- Re-randomisation of a proof: `(z⁻¹ A, z B + z s δ, C + s A)`; it takes the verifying key only. -/
def Proof.rerandomize (vk : VerifyingKey G1 G2) (z s : F) (pf : Proof G1 G2) : Proof G1 G2 where
  a := z⁻¹ • pf.a
  b := z • pf.b + (z * s) • vk.deltaG2
  c := pf.c + s • pf.a

/-- C54: the verifier gives the same answer, whatever the key, the proof and the inputs. -/
theorem C54_rerandomize (E : Engine F G1 G2 GT) (vk : VerifyingKey G1 G2) (pf : Proof G1 G2) (xs : List F) (z s : F) (hz : z ≠ 0) :
    verifyProof E (prepareVerifyingKey E vk) (pf.rerandomize vk z s) xs = verifyProof E (prepareVerifyingKey E vk) pf xs := by
  have key : Accepts E vk (pf.rerandomize vk z s) xs ↔ Accepts E vk pf xs := by
    unfold Accepts Proof.rerandomize
    simp only [map_add, map_smul, LinearMap.add_apply, LinearMap.smul_apply, smul_add, smul_smul]
    rw [mul_inv_cancel₀ hz, mul_right_comm, mul_inv_cancel₀ hz, one_mul, one_smul, ← add_assoc]
    exact add_left_inj _
  rcases verifyProof_cases E vk pf xs with ⟨h, e⟩ | ⟨h, h', e⟩ | ⟨h, h', e⟩ <;> rw [e] <;>
    rcases verifyProof_cases E vk (pf.rerandomize vk z s) xs with ⟨k, e'⟩ | ⟨k, k', e'⟩ | ⟨k, k', e'⟩ <;> rw [e']
  · exact absurd k h
  · exact absurd k h
  · exact absurd h k
  · exact absurd (key.2 h') k'
  · exact absurd h k
  · exact absurd (key.1 k') h'

/-- C54: every accepted proof for the same inputs arises from any accepted one, in exactly one way (if the first elements are not the
identity).  So with `z` and `s` drawn at random the result is uniform among these proofs: nothing about the original is left. -/
theorem C54_unique (E : Engine F G1 G2 GT) (vk : VerifyingKey G1 G2) (pf pf' : Proof G1 G2) (xs : List F) (hδ : vk.deltaG2 ≠ 0)
    (h : verifyProof E (prepareVerifyingKey E vk) pf xs = some (.ok ())) (ha : pf.a ≠ 0) :
    (∃! x : F × F, x.1 ≠ 0 ∧ pf.rerandomize vk x.1 x.2 = pf') ↔
      verifyProof E (prepareVerifyingKey E vk) pf' xs = some (.ok ()) ∧ pf'.a ≠ 0 := by
  have hd : ∀ a b : F, a • vk.deltaG2 = b • vk.deltaG2 → a = b := fun a b hab => by
    by_contra hne
    rw [← sub_eq_zero, ← sub_smul] at hab
    exact ((smul_eq_zero.1 hab).resolve_left (sub_ne_zero.2 hne) |> hδ).elim
  constructor
  · rintro ⟨⟨z, s⟩, ⟨hz, rfl⟩, -⟩
    exact ⟨by rw [C54_rerandomize E vk pf xs z s hz]; exact h, smul_ne_zero (inv_ne_zero hz) ha⟩
  · rintro ⟨h', ha'⟩
    obtain ⟨a, hae⟩ := E.g1_cyclic pf.a pf'.a ha
    have ha0 : a ≠ 0 := fun h0 => ha' (by rw [hae, h0, zero_smul])
    obtain ⟨d, hd'⟩ := E.g2_cyclic vk.deltaG2 (pf'.b - a⁻¹ • pf.b) hδ
    have hz : a⁻¹ ≠ 0 := inv_ne_zero ha0
    refine ⟨(a⁻¹, a * d), ⟨hz, ?_⟩, ?_⟩
    · have h1 := C54_rerandomize E vk pf xs a⁻¹ (a * d) hz
      rw [h] at h1
      have e1 : (pf.rerandomize vk a⁻¹ (a * d)).a = pf'.a := by
        show a⁻¹⁻¹ • pf.a = _
        rw [inv_inv, hae]
      have e2 : (pf.rerandomize vk a⁻¹ (a * d)).b = pf'.b := by
        show a⁻¹ • pf.b + (a⁻¹ * (a * d)) • vk.deltaG2 = _
        rw [← mul_assoc, inv_mul_cancel₀ ha0, one_mul, ← hd']
        abel
      have e3 := (C32_unique_c E vk pf'.a pf'.b xs ((verifyProof_ok E vk pf xs).1 h).1 hδ).unique (y₁ := (pf.rerandomize vk a⁻¹ (a * d)).c)
        (y₂ := pf'.c) (by rw [← e1, ← e2]; exact h1) h'
      obtain ⟨a', b', c'⟩ := pf'
      unfold Proof.rerandomize at e1 e2 e3 ⊢
      dsimp only at e1 e2 e3 ⊢
      rw [e1, e2, e3]
    · rintro ⟨z, s⟩ ⟨hz', rfl⟩
      dsimp only at hz'
      have hza : z⁻¹ = a := by
        by_contra hne
        have : (z⁻¹ - a) • pf.a = 0 := by
          rw [sub_smul, sub_eq_zero]
          exact hae
        exact ((smul_eq_zero.1 this).resolve_left (sub_ne_zero.2 hne) |> ha).elim
      have hz2 : z = a⁻¹ := by rw [← hza, inv_inv]
      have hds : z * s = d := hd _ _ (by
        rw [← hd', ← hz2]
        show _ = (z • pf.b + (z * s) • vk.deltaG2) - z • pf.b
        abel)
      rw [← hz2, ← hds, ← mul_assoc, ← hza, inv_mul_cancel₀ hz', one_mul]

/-- C54: a proof whose first element is the identity says nothing about its second element. -/
theorem C54_identity (E : Engine F G1 G2 GT) (vk : VerifyingKey G1 G2) (B B' : G2) (C : G1) (xs : List F) :
    verifyProof E (prepareVerifyingKey E vk) ⟨0, B, C⟩ xs = verifyProof E (prepareVerifyingKey E vk) ⟨0, B', C⟩ xs := by
  have key : Accepts E vk ⟨0, B, C⟩ xs ↔ Accepts E vk ⟨0, B', C⟩ xs := by
    unfold Accepts
    simp only [map_zero, LinearMap.zero_apply]
  rcases verifyProof_cases E vk ⟨0, B, C⟩ xs with ⟨h, e⟩ | ⟨h, h', e⟩ | ⟨h, h', e⟩ <;> rw [e] <;>
    rcases verifyProof_cases E vk ⟨0, B', C⟩ xs with ⟨k, e'⟩ | ⟨k, k', e'⟩ | ⟨k, k', e'⟩ <;> rw [e']
  · exact absurd k h
  · exact absurd k h
  · exact absurd h k
  · exact absurd (key.1 h') k'
  · exact absurd h k
  · exact absurd (key.2 k') h'

/-- C54: what comes out of re-randomising an honest proof could have come out of `create_proof` with the same witness, for exactly one pair
of blinding factors. -/
theorem C54_honest (E : Engine F G1 G2 GT) (w w' : Worker) {R : Unit → Unit → Prop} {kc pc : Synth F Unit} (h : SShape R kc pc)
    (g1 : G1) (g2 : G2) (α β γ δ τ r s : F) (params : Parameters G1 G2) (pf : Proof G1 G2)
    (hk : generateParameters w kc g1 g2 α β γ δ τ = Res.ok params) (hp : createProof w' pc params r s = Res.ok pf)
    (t : List (Ev F)) (ht : ProverTrace pc t) (hs : Sat (witness t) t) (z s' : F) (hz : z ≠ 0) :
    ∃! x : F × F, createProof w' pc params x.1 x.2 = Res.ok (pf.rerandomize params.vk z s') :=
  (C34_simulation E w w' h g1 g2 α β γ δ τ params hk t ht hs ⟨r, s, pf, hp⟩ _ _ _).2
    ((C54_rerandomize E params.vk pf (inVals t) z s' hz).trans
      (C30_completeness E w w' h g1 g2 α β γ δ τ r s params pf hk hp t ht hs))

/-- C54: two input vectors that give the same group element are never told apart. -/
theorem C54_inputs (E : Engine F G1 G2 GT) (vk : VerifyingKey G1 G2) (xs ys : List F) (hl : ys.length = xs.length)
    (he : ∑ i ∈ range vk.ic.length, ((1 : F) :: ys).getD i 0 • vk.ic.getD i 0 = ∑ i ∈ range vk.ic.length, ((1 : F) :: xs).getD i 0 • vk.ic.getD i 0)
    (pf : Proof G1 G2) :
    verifyProof E (prepareVerifyingKey E vk) pf ys = verifyProof E (prepareVerifyingKey E vk) pf xs := by
  have key : Accepts E vk pf ys ↔ Accepts E vk pf xs := by
    unfold Accepts
    rw [he]
  rcases verifyProof_cases E vk pf xs with ⟨h, e⟩ | ⟨h, h', e⟩ | ⟨h, h', e⟩ <;> rw [e] <;>
    rcases verifyProof_cases E vk pf ys with ⟨k, e'⟩ | ⟨k, k', e'⟩ | ⟨k, k', e'⟩ <;> rw [e'] <;> rw [hl] at k
  · exact absurd k h
  · exact absurd k h
  · exact absurd h k
  · exact absurd (key.2 h') k'
  · exact absurd h k
  · exact absurd (key.1 k') h'

/-- C54: with a single public input whose element is not the identity, no proof is accepted for two inputs. -/
theorem C54_single_input (E : Engine F G1 G2 GT) (vk : VerifyingKey G1 G2) (ic₀ ic₁ : G1) (hic : vk.ic = [ic₀, ic₁]) (h1 : ic₁ ≠ 0)
    (hγ : vk.gammaG2 ≠ 0) (pf : Proof G1 G2) (xs ys : List F) (hx : verifyProof E (prepareVerifyingKey E vk) pf xs = some (.ok ()))
    (hy : verifyProof E (prepareVerifyingKey E vk) pf ys = some (.ok ())) : xs = ys := by
  obtain ⟨lx, -⟩ := (verifyProof_ok E vk pf xs).1 hx
  obtain ⟨ly, -⟩ := (verifyProof_ok E vk pf ys).1 hy
  rw [hic] at lx ly
  obtain ⟨x, rfl⟩ := List.length_eq_one_iff.1 (show xs.length = 1 by simpa using lx)
  obtain ⟨y, rfl⟩ := List.length_eq_one_iff.1 (show ys.length = 1 by simpa using ly)
  by_contra hne
  have := C32_changed_input E vk pf [x] 0 y (by simp) hγ (by rw [hic]; exact h1) (fun h => hne (by rw [h]; rfl)) hx
  rw [List.set_cons_zero, hy] at this
  cases this

/-- C54: with two or more public inputs there are, for every key and every input vector, different inputs of the same number for which
exactly the same proofs are accepted. -/
theorem C54_collision (E : Engine F G1 G2 GT) (vk : VerifyingKey G1 G2) (xs : List F) (hl : xs.length + 1 = vk.ic.length) (h2 : 2 ≤ xs.length) :
    ∃ ys : List F, ys.length = xs.length ∧ ys ≠ xs ∧
      ∀ pf, verifyProof E (prepareVerifyingKey E vk) pf ys = verifyProof E (prepareVerifyingKey E vk) pf xs := by
  obtain ⟨x, y, l, rfl⟩ : ∃ x y l, xs = x :: y :: l := by
    rcases xs with _ | ⟨x, _ | ⟨y, l⟩⟩
    · simp at h2
    · simp at h2
    · exact ⟨x, y, l, rfl⟩
  obtain ⟨i0, i1, i2, ics, hic⟩ : ∃ i0 i1 i2 l, vk.ic = i0 :: i1 :: i2 :: l := by
    rcases hv : vk.ic with _ | ⟨i0, _ | ⟨i1, _ | ⟨i2, l⟩⟩⟩
    · rw [hv] at hl; simp at hl
    · rw [hv] at hl; simp at hl
    · rw [hv] at hl; simp at hl
    · exact ⟨_, _, _, _, rfl⟩
  obtain ⟨u, v, huv, hne⟩ : ∃ u v : F, u • i1 + v • i2 = 0 ∧ (u ≠ 0 ∨ v ≠ 0) := by
    by_cases h0 : i1 = 0
    · exact ⟨1, 0, by rw [h0, smul_zero, zero_smul, add_zero], .inl one_ne_zero⟩
    · obtain ⟨a, ha⟩ := E.g1_cyclic i1 i2 h0
      exact ⟨-a, 1, by rw [ha, one_smul, neg_smul, neg_add_cancel], .inr one_ne_zero⟩
  refine ⟨(x + u) :: (y + v) :: l, rfl, fun h => ?_, C54_inputs E vk _ _ rfl ?_⟩
  · simp only [List.cons.injEq, add_eq_left, and_true] at h
    rcases hne with h' | h'
    · exact h' h.1
    · exact h' h.2
  · rw [hic]
    simp only [List.length_cons, sum_range_succ', List.getD_cons_succ, List.getD_cons_zero, add_smul, zero_add]
    have : u • i1 = - (v • i2) := eq_neg_of_add_eq_zero_left huv
    rw [this]
    abel

/-! ### The hypotheses are met -/

/-- A key with two public inputs, a proof, its re-randomisation by `z = 3`, `s = 4`, and a second input vector. -/
example : let E := fieldEngine DummyFr
    let vk : VerifyingKey DummyFr DummyFr := ⟨2, 5, 5, 7, 11, 11, [3, 4, 8]⟩
    verifyProof E (prepareVerifyingKey E vk) ⟨1, 165, 2⟩ [2, 1] = some (.ok ()) ∧ vk.deltaG2 ≠ 0 ∧
    (Proof.mk (1 : DummyFr) (165 : DummyFr) 2).rerandomize vk (3 : DummyFr) 4 = ⟨43009, 627, 6⟩ ∧
    verifyProof E (prepareVerifyingKey E vk) ⟨43009, 627, 6⟩ [2, 1] = some (.ok ()) ∧
    verifyProof E (prepareVerifyingKey E vk) ⟨1, 165, 2⟩ [4, 0] = some (.ok ()) := by
  simp only [C32_verify]
  decide +kernel

end Bellman
