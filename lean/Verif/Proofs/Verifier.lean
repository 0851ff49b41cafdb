import Verif.Groth16.Verifier
import Verif.Proofs.Proof

/-!
# `verify_proof` decides the pairing equation
-/

namespace Bellman

open PrimeField Polynomial Finset

set_option linter.unusedSectionVars false

variable {F G1 G2 GT : Type} [PrimeField F] [AddCommGroup G1] [AddCommGroup G2] [AddCommGroup GT]
  [Module F G1] [Module F G2] [Module F GT] [DecidableEq GT]

/-- The combination of public inputs. -/
theorem foldl_inputs (xs : List F) (ps : List G1) (acc : G1) (h : xs.length = ps.length) :
    (xs.zip ps).foldl (fun acc x => acc + x.1 • x.2) acc = acc + ∑ i ∈ range ps.length, xs.getD i 0 • ps.getD i 0 := by
  induction ps generalizing xs acc with
  | nil => simp
  | cons p ps ih =>
    cases xs with
    | nil => simp at h
    | cons x xs =>
      simp only [List.length_cons, add_left_inj] at h
      rw [List.zip_cons_cons, List.foldl_cons, ih xs _ h, List.length_cons, sum_range_succ']
      simp only [List.getD_cons_zero, List.getD_cons_succ]
      abel

theorem verifyProof_cases (E : Engine F G1 G2 GT) (vk : VerifyingKey G1 G2) (pf : Proof G1 G2) (xs : List F) :
    (xs.length + 1 ≠ vk.ic.length ∧ verifyProof E (prepareVerifyingKey E vk) pf xs = some (.error .invalidVerifyingKey)) ∨
    (xs.length + 1 = vk.ic.length ∧ Accepts E vk pf xs ∧ verifyProof E (prepareVerifyingKey E vk) pf xs = some (.ok ())) ∨
    (xs.length + 1 = vk.ic.length ∧ ¬ Accepts E vk pf xs ∧
      verifyProof E (prepareVerifyingKey E vk) pf xs = some (.error .invalidProof)) := by
  unfold verifyProof prepareVerifyingKey
  simp only
  by_cases hl : xs.length + 1 = vk.ic.length
  · right
    rw [if_neg (not_not.2 hl)]
    rcases hic : vk.ic with _ | ⟨p, ps⟩
    · rw [hic] at hl; simp at hl
    · rw [hic] at hl
      simp only [List.length_cons, add_left_inj] at hl
      simp only [List.getElem?_cons_zero, Option.bind_some, List.drop_succ_cons, List.drop_zero]
      rw [foldl_inputs xs ps p hl, E.final_miller]
      have key : Accepts E vk pf xs ↔ E.pairing vk.alphaG1 vk.betaG2 = (List.map (fun x => E.pairing x.1 x.2)
          [(pf.a, pf.b), (p + ∑ i ∈ range ps.length, xs.getD i 0 • ps.getD i 0, -vk.gammaG2), (pf.c, -vk.deltaG2)]).sum := by
        unfold Accepts
        have e1 : ∑ i ∈ range vk.ic.length, ((1 : F) :: xs).getD i 0 • vk.ic.getD i 0 =
            p + ∑ i ∈ range ps.length, xs.getD i 0 • ps.getD i 0 := by
          rw [hic, List.length_cons, sum_range_succ']
          simp only [List.getD_cons_zero, List.getD_cons_succ, one_smul]
          abel
        rw [e1]
        simp only [List.map_cons, List.map_nil, List.sum_cons, List.sum_nil, map_neg]
        constructor
        · intro h; rw [h]; abel
        · intro h; rw [h]; abel
      by_cases hA : Accepts E vk pf xs
      · left
        exact ⟨by simp [hl], hA, if_pos (key.1 hA)⟩
      · right
        exact ⟨by simp [hl], hA, if_neg fun h => hA (key.2 h)⟩
  · left
    exact ⟨hl, if_pos hl⟩

theorem verifyProof_ok (E : Engine F G1 G2 GT) (vk : VerifyingKey G1 G2) (pf : Proof G1 G2) (xs : List F) :
    verifyProof E (prepareVerifyingKey E vk) pf xs = some (.ok ()) ↔ xs.length + 1 = vk.ic.length ∧ Accepts E vk pf xs := by
  rcases verifyProof_cases E vk pf xs with ⟨h, e⟩ | ⟨h, h', e⟩ | ⟨h, h', e⟩
  · rw [e]; exact ⟨fun h => (by cases h), fun h' => absurd h'.1 h⟩
  · rw [e]; exact ⟨fun _ => ⟨h, h'⟩, fun _ => rfl⟩
  · rw [e]; exact ⟨fun h => (by cases h), fun h'' => absurd h''.2 h'⟩

variable [DecidableEq G1] [DecidableEq G2]

theorem Qap.pub_add_priv (q : Qap F) (α β τ : F) (z : Var → F) :
    q.pub α β τ z + q.priv α β τ z = β * (q.A z).eval τ + α * (q.B z).eval τ + (q.Cc z).eval τ := by
  rw [Qap.A_eval_sum, Qap.B_eval_sum]
  have : (q.Cc z).eval τ =
      ∑ i ∈ range q.n, z (.input i) * (q.w (.input i)).eval τ + ∑ i ∈ range q.k, z (.aux i) * (q.w (.aux i)).eval τ := by
    unfold Qap.Cc; simp [eval_finsetSum]
  rw [this]
  unfold Qap.pub Qap.priv Qap.comb
  simp only [mul_add, sum_add_distrib, mul_sum]
  have e : ∀ (a b c : F), a * (b * c) = b * (a * c) := fun a b c => by ring
  simp only [e]
  ring

/-- The pairing equation of a Groth16 proof against the key of the same circuit, in the exponent. -/
theorem accepts_iff (E : Engine F G1 G2 GT) (q : Qap F) (g1 : G1) (g2 : G2) (α β γ δ τ : F) (hγ : γ ≠ 0) (hδ : δ ≠ 0) (z x : Var → F)
    (h : F[X]) (r s : F) (xs : List F) (hx : ∀ i < q.n, ((1 : F) :: xs).getD i 0 = x (.input i)) :
    Accepts E (q.crs g1 g2 α β γ δ τ).vk (q.proof g1 g2 α β δ τ z h r s) xs ↔
      ((q.A z * q.B z - q.Cc z - h * q.Z).eval τ + (q.pub α β τ z - q.pub α β τ x)) • E.pairing g1 g2 = 0 := by
  unfold Accepts
  have hic : ∑ i ∈ range (q.crs g1 g2 α β γ δ τ).vk.ic.length, ((1 : F) :: xs).getD i 0 • (q.crs g1 g2 α β γ δ τ).vk.ic.getD i 0 =
      (q.pub α β τ x / γ) • g1 := by
    have hlen : (q.crs g1 g2 α β γ δ τ).vk.ic.length = q.n := by simp [Qap.crs]
    rw [hlen, Qap.pub, sum_div, sum_smul]
    refine sum_congr rfl fun i hi => ?_
    have hi := mem_range.1 hi
    rw [hx i hi]
    simp only [Qap.crs]
    rw [List.getD_eq_getElem?_getD, List.getElem?_map, List.getElem?_range hi]
    simp only [Option.map_some, Option.getD_some, ← mul_smul]
    rw [mul_div_assoc]
  rw [hic]
  unfold Qap.proof Qap.crs
  simp only [map_smul, LinearMap.smul_apply, ← mul_smul, ← add_smul]
  rw [← sub_eq_zero, ← sub_smul]
  have hp := Qap.pub_add_priv q α β τ z
  have hpr : q.priv α β τ z = β * (q.A z).eval τ + α * (q.B z).eval τ + (q.Cc z).eval τ - q.pub α β τ z := by rw [← hp]; ring
  rw [hpr, eval_sub, eval_sub, eval_mul, eval_mul]
  have : ∀ a b : F, a = b → (a • E.pairing g1 g2 = 0 ↔ b • E.pairing g1 g2 = 0) := fun a b h => by rw [h]
  apply this
  field_simp
  ring

end Bellman
