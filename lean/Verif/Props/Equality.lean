import Verif.Groth16.Equality
import Verif.Props.Serialize
import Verif.Props.UnitTests

/-!
# C59: equal keys and proofs are those that are written as the same bytes, and how many bytes that are
-/

set_option linter.unusedSectionVars false

namespace Bellman

variable {G1 G2 : Type} [Zero G1] [Zero G2] [DecidableEq G1] [DecidableEq G2] {c1 : PointCodec G1} {c2 : PointCodec G2}

/-- What a value writes to an empty writer that takes everything (specification). -/
def written (m : WriteM) : List UInt8 := (m ⟨[], none⟩).2.out

/-! ## Proofs -/

theorem vecEq_iff {G : Type} [DecidableEq G] (x y : List G) : vecEq x y = true ↔ x = y := by
  induction x generalizing y with
  | nil => cases y <;> simp [vecEq]
  | cons a x ih => cases y <;> simp [vecEq, ih]

theorem Proof.eq_iff (p q : Proof G1 G2) : p.eq q = true ↔ p = q := by
  obtain ⟨a, b, c⟩ := p
  obtain ⟨a', b', c'⟩ := q
  simp [Proof.eq, and_assoc]

theorem VerifyingKey.eq_iff (k k' : VerifyingKey G1 G2) : k.eq k' = true ↔ k = k' := by
  obtain ⟨a, b, c, d, e, f, g⟩ := k
  obtain ⟨a', b', c', d', e', f', g'⟩ := k'
  simp [VerifyingKey.eq, and_assoc, vecEq_iff]

theorem Parameters.eq_iff (p q : Parameters G1 G2) : p.eq q = true ↔ p = q := by
  obtain ⟨a, b, c, d, e, f⟩ := p
  obtain ⟨a', b', c', d', e', f'⟩ := q
  simp [Parameters.eq, and_assoc, vecEq_iff, VerifyingKey.eq_iff]

theorem toUncompressed_inj {G : Type} (c : PointCodec G) {g g' : G} (h : c.toUncompressed g = c.toUncompressed g') : g = g' :=
  Option.some.inj (by rw [← c.unchecked_toUncompressed g, ← c.unchecked_toUncompressed g', h])

theorem point_inj {G : Type} (c : PointCodec G) {g g' : G} {x y : List UInt8} (h : c.toUncompressed g ++ x = c.toUncompressed g' ++ y) :
    g = g' ∧ x = y := by
  obtain ⟨h1, h2⟩ := List.append_inj h (by rw [c.toUncompressed_length, c.toUncompressed_length])
  exact ⟨toUncompressed_inj c h1, h2⟩

theorem flatMap_inj {G : Type} (c : PointCodec G) {v v' : List G} {x y : List UInt8} (hl : v.length = v'.length)
    (h : v.flatMap c.toUncompressed ++ x = v'.flatMap c.toUncompressed ++ y) : v = v' ∧ x = y := by
  induction v generalizing v' with
  | nil =>
    cases v' with
    | nil => exact ⟨rfl, h⟩
    | cons g v' => cases hl
  | cons g v ih =>
    cases v' with
    | nil => cases hl
    | cons g' v' =>
      rw [List.flatMap_cons, List.flatMap_cons, List.append_assoc, List.append_assoc] at h
      obtain ⟨rfl, h2⟩ := point_inj c h
      obtain ⟨rfl, h3⟩ := ih (by simpa using hl) h2
      exact ⟨rfl, h3⟩

theorem vec_inj {G : Type} (c : PointCodec G) {v v' : List G} {x y : List UInt8} (hv : v.length < 2 ^ 32) (hv' : v'.length < 2 ^ 32)
    (h : vecEncoding c v ++ x = vecEncoding c v' ++ y) : v = v' ∧ x = y := by
  unfold vecEncoding at h
  rw [List.append_assoc, List.append_assoc] at h
  obtain ⟨h1, h2⟩ := List.append_inj h rfl
  have h3 := congrArg ofBE32 h1
  rw [ofBE32_be32, ofBE32_be32, Nat.mod_eq_of_lt hv, Nat.mod_eq_of_lt hv'] at h3
  exact flatMap_inj c (Option.some.inj h3) h2

theorem written_proof (p : Proof G1 G2) : written (p.write c1 c2) = p.encoding c1 c2 := by rw [p.write_eq]; rfl
theorem written_vk (k : VerifyingKey G1 G2) : written (k.write c1 c2) = k.encoding c1 c2 := by rw [k.write_eq]; rfl
theorem written_parameters (p : Parameters G1 G2) : written (p.write c1 c2) = p.encoding c1 c2 := by rw [p.write_eq]; rfl

theorem vk_inj {k k' : VerifyingKey G1 G2} {x y : List UInt8} (hl : k.ic.length < 2 ^ 32) (hl' : k'.ic.length < 2 ^ 32)
    (h : k.encoding c1 c2 ++ x = k'.encoding c1 c2 ++ y) : k = k' ∧ x = y := by
  unfold VerifyingKey.encoding at h
  simp only [List.append_assoc] at h
  obtain ⟨h1, h⟩ := point_inj c1 h
  obtain ⟨h2, h⟩ := point_inj c1 h
  obtain ⟨h3, h⟩ := point_inj c2 h
  obtain ⟨h4, h⟩ := point_inj c2 h
  obtain ⟨h5, h⟩ := point_inj c1 h
  obtain ⟨h6, h⟩ := point_inj c2 h
  obtain ⟨h7, hx⟩ := vec_inj c1 hl hl' h
  clear h
  obtain ⟨a, b, c, d, e, f, g⟩ := k
  obtain ⟨a', b', c', d', e', f', g'⟩ := k'
  simp only at h1 h2 h3 h4 h5 h6 h7
  subst h1 h2 h3 h4 h5 h6 h7
  exact ⟨rfl, hx⟩

/-! ## Theorems -/

/-- C59. Two proofs compare equal exactly if all their parts agree, and exactly if they are written as the same bytes. -/
theorem C59_proof (p q : Proof G1 G2) (hp : p.Valid c1 c2) (hq : q.Valid c1 c2) :
    (p.eq q = true ↔ p.a = q.a ∧ p.b = q.b ∧ p.c = q.c) ∧
    (p.eq q = true ↔ written (p.write c1 c2) = written (q.write c1 c2)) := by
  rw [Proof.eq_iff, written_proof, written_proof]
  refine ⟨⟨fun h => by rw [h]; exact ⟨rfl, rfl, rfl⟩, fun ⟨h1, h2, h3⟩ => ?_⟩, fun h => by rw [h], fun h => ?_⟩
  · obtain ⟨a, b, c⟩ := p
    obtain ⟨a', b', c'⟩ := q
    cases h1; cases h2; cases h3; rfl
  · unfold Proof.encoding at h
    obtain ⟨h12, h3⟩ := List.append_inj h (by simp [c1.toBytes_length, c2.toBytes_length])
    obtain ⟨h1, h2⟩ := List.append_inj h12 (by simp [c1.toBytes_length])
    have e1 : p.a = q.a := Option.some.inj (by rw [← c1.fromBytes_toBytes _ hp.a, ← c1.fromBytes_toBytes _ hq.a, h1])
    have e2 : p.b = q.b := Option.some.inj (by rw [← c2.fromBytes_toBytes _ hp.b, ← c2.fromBytes_toBytes _ hq.b, h2])
    have e3 : p.c = q.c := Option.some.inj (by rw [← c1.fromBytes_toBytes _ hp.c, ← c1.fromBytes_toBytes _ hq.c, h3])
    obtain ⟨a, b, c⟩ := p
    obtain ⟨a', b', c'⟩ := q
    simp only at e1 e2 e3
    subst e1 e2 e3; rfl

/-- C59. The same for verifying keys, with identities and points outside the subgroup allowed. -/
theorem C59_vk (k k' : VerifyingKey G1 G2) (hl : k.ic.length < 2 ^ 32) (hl' : k'.ic.length < 2 ^ 32) :
    (k.eq k' = true ↔ k.alphaG1 = k'.alphaG1 ∧ k.betaG1 = k'.betaG1 ∧ k.betaG2 = k'.betaG2 ∧ k.gammaG2 = k'.gammaG2 ∧
      k.deltaG1 = k'.deltaG1 ∧ k.deltaG2 = k'.deltaG2 ∧ k.ic = k'.ic) ∧
    (k.eq k' = true ↔ written (k.write c1 c2) = written (k'.write c1 c2)) := by
  constructor
  · obtain ⟨a, b, c, d, e, f, g⟩ := k
    obtain ⟨a', b', c', d', e', f', g'⟩ := k'
    simp [VerifyingKey.eq_iff]
  · rw [VerifyingKey.eq_iff, written_vk, written_vk]
    exact ⟨fun h => by rw [h], fun h => (vk_inj (x := []) (y := []) hl hl' (by rw [h])).1⟩

/-- C59. The same for proving keys. -/
theorem C59_parameters (p q : Parameters G1 G2) (hp : ∀ v ∈ [p.vk.ic, p.h, p.l, p.a, p.bG1], v.length < 2 ^ 32)
    (hp2 : p.bG2.length < 2 ^ 32) (hq : ∀ v ∈ [q.vk.ic, q.h, q.l, q.a, q.bG1], v.length < 2 ^ 32) (hq2 : q.bG2.length < 2 ^ 32) :
    (p.eq q = true ↔ p.vk.eq q.vk = true ∧ p.h = q.h ∧ p.l = q.l ∧ p.a = q.a ∧ p.bG1 = q.bG1 ∧ p.bG2 = q.bG2) ∧
    (p.eq q = true ↔ written (p.write c1 c2) = written (q.write c1 c2)) := by
  constructor
  · obtain ⟨a, b, c, d, e, f⟩ := p
    obtain ⟨a', b', c', d', e', f'⟩ := q
    simp [Parameters.eq_iff, VerifyingKey.eq_iff]
  · rw [Parameters.eq_iff, written_parameters, written_parameters]
    refine ⟨fun h => by rw [h], fun h => ?_⟩
    unfold Parameters.encoding at h
    simp only [List.append_assoc] at h
    obtain ⟨h1, h⟩ := vk_inj (hp _ (by simp)) (hq _ (by simp)) h
    obtain ⟨h2, h⟩ := vec_inj c1 (hp _ (by simp)) (hq _ (by simp)) h
    obtain ⟨h3, h⟩ := vec_inj c1 (hp _ (by simp)) (hq _ (by simp)) h
    obtain ⟨h4, h⟩ := vec_inj c1 (hp _ (by simp)) (hq _ (by simp)) h
    obtain ⟨h5, h⟩ := vec_inj c1 (hp _ (by simp)) (hq _ (by simp)) h
    obtain ⟨h6, -⟩ := vec_inj c2 (x := []) (y := []) hp2 hq2 (by simpa using h)
    obtain ⟨a, b, c, d, e, f⟩ := p
    obtain ⟨a', b', c', d', e', f'⟩ := q
    simp only at h1 h2 h3 h4 h5 h6
    subst h1 h2 h3 h4 h5 h6; rfl

/-! ## Sizes -/

theorem vecEncoding_length {G : Type} (c : PointCodec G) (v : List G) : (vecEncoding c v).length = 4 + v.length * c.usize := by
  unfold vecEncoding
  rw [List.length_append, be32_length]
  congr 1
  induction v with
  | nil => simp
  | cons g v ih => rw [List.flatMap_cons, List.length_append, ih, c.toUncompressed_length, List.length_cons, Nat.add_mul, Nat.one_mul, Nat.add_comm]

/-- C59. How many bytes are written: a proof is three compressed points; a verifying key six uncompressed points, a length of four bytes
and the elements of `ic`; a proving key adds five vectors, each with its length. -/
theorem C59_size (pf : Proof G1 G2) (k : VerifyingKey G1 G2) (p : Parameters G1 G2) :
    (written (pf.write c1 c2)).length = 2 * c1.size + c2.size ∧
    (written (k.write c1 c2)).length = 3 * c1.usize + 3 * c2.usize + 4 + k.ic.length * c1.usize ∧
    (written (p.write c1 c2)).length = (written (p.vk.write c1 c2)).length + 20 +
      (p.h.length + p.l.length + p.a.length + p.bG1.length) * c1.usize + p.bG2.length * c2.usize := by
  have hk : ∀ k : VerifyingKey G1 G2, (k.encoding c1 c2).length = 3 * c1.usize + 3 * c2.usize + 4 + k.ic.length * c1.usize := by
    intro k
    simp only [VerifyingKey.encoding, List.length_append, c1.toUncompressed_length, c2.toUncompressed_length, vecEncoding_length]
    ring
  refine ⟨?_, ?_, ?_⟩
  · rw [written_proof]
    simp only [Proof.encoding, List.length_append, c1.toBytes_length, c2.toBytes_length]
    ring
  · rw [written_vk, hk]
  · rw [written_parameters, written_vk]
    simp only [Parameters.encoding, List.length_append, vecEncoding_length]
    ring

example : Proof.eq (⟨3, 5, 7⟩ : Proof UInt8 UInt8) ⟨3, 5, 8⟩ = false ∧
    VerifyingKey.eq byteKey { byteKey with ic := byteKey.ic ++ [1] } = false ∧ byteKey.eq byteKey = true := by decide +kernel

end Bellman
