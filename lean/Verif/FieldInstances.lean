import Verif.Field
import Mathlib.NumberTheory.LucasPrimality
import Mathlib.Tactic.NormNum.Prime

/-!
# The contract of `ff::PrimeField` is inhabited

Two instances: the 16-bit field of groth16/src/tests/dummy_engine.rs, and the scalar field of BLS12-381, the field
bellman is used with (external crate `bls12_381`, a dev-dependency of /repo).
-/

namespace Bellman

/-- Square-and-multiply modulo `m`, for kernel computation. Model device, no counterpart in the code. -/
def powModAux (m : ℕ) : ℕ → ℕ → ℕ → ℕ → ℕ
  | 0, _, _, acc => acc
  | f + 1, b, e, acc => powModAux m f (b * b % m) (e / 2) (if e % 2 = 1 then acc * b % m else acc)

theorem powModAux_eq (m f b e acc : ℕ) (he : e < 2 ^ f) :
    ((powModAux m f b e acc : ℕ) : ZMod m) = acc * (b : ZMod m) ^ e := by
  induction f generalizing b e acc with
  | zero =>
    have : e = 0 := by simpa using he
    subst this; simp [powModAux]
  | succ f ih =>
    rw [powModAux, ih _ _ _ (by rw [pow_succ] at he; omega)]
    have h2 : ((b * b % m : ℕ) : ZMod m) = (b : ZMod m) ^ 2 := by
      rw [ZMod.natCast_mod]; push_cast; ring
    rw [h2, ← pow_mul]
    split
    · rename_i h
      rw [ZMod.natCast_mod]
      push_cast
      rw [mul_assoc, ← pow_succ']
      congr 2; omega
    · congr 2; omega

theorem pow_eq_of_powMod {m f b e r : ℕ} (he : e < 2 ^ f) (h : powModAux m f b e 1 = r) :
    (b : ZMod m) ^ e = (r : ZMod m) := by
  rw [← h, powModAux_eq m f b e 1 he]; simp

/-- The contract for `ZMod p`, with the modulus' constants. -/
@[reducible] def zmodPrimeField (p : ℕ) (hp : p.Prime) (h2 : p ≠ 2) (nb : ℕ) (hnb : nb = Nat.size p) (rb : ℕ)
    (hrb : nb ≤ rb) (s : ℕ) (hs : 2 ^ s ∣ p - 1) (hs' : ¬ 2 ^ (s + 1) ∣ p - 1) (root : ZMod p)
    (hroot : IsPrimitiveRoot root (2 ^ s)) (gen : ZMod p) (hgen : orderOf gen = p - 1) : PrimeField (ZMod p) :=
  haveI : Fact p.Prime := ⟨hp⟩
  { (inferInstance : Field (ZMod p)) with
    decEq := inferInstance
    p := p
    prime := hp
    charP := inferInstance
    p_ne_two := h2
    val := ZMod.val
    val_lt := ZMod.val_lt
    cast_val := ZMod.natCast_zmod_val
    NUM_BITS := nb
    NUM_BITS_eq := hnb
    CAPACITY := nb - 1
    CAPACITY_eq := rfl
    REPR_BITS := rb
    NUM_BITS_le := hrb
    S := s
    S_dvd := hs
    S_max := hs'
    ROOT_OF_UNITY := root
    root_primitive := hroot
    MULTIPLICATIVE_GENERATOR := gen
    gen_order := hgen }

theorem size_eq {n k : ℕ} (h1 : 2 ^ k ≤ n) (h2 : n < 2 ^ (k + 1)) : k + 1 = Nat.size n :=
  le_antisymm (Nat.lt_size.2 h1) (Nat.size_le.2 h2)

/-! ## The dummy field -/

/-- groth16/src/tests/dummy_engine.rs:15 `MODULUS_R`. -/
def dummyP : ℕ := 64513

/-- groth16/src/tests/dummy_engine.rs:17-18 `struct Fr`. -/
abbrev DummyFr := ZMod dummyP

theorem dummyP_prime : dummyP.Prime := by unfold dummyP; norm_num

theorem natCast_ne {p a b : ℕ} (ha : a < p) (hb : b < p) (h : a ≠ b) : (a : ZMod p) ≠ (b : ZMod p) := by
  intro e
  rw [ZMod.natCast_eq_natCast_iff'] at e
  rw [Nat.mod_eq_of_lt ha, Nat.mod_eq_of_lt hb] at e
  exact h e

theorem prime_dvd_list {q : ℕ} (hq : q.Prime) {l : List ℕ} (h : q ∣ l.prod) (hl : ∀ x ∈ l, x.Prime) : q ∈ l := by
  obtain ⟨a, ha, hqa⟩ := (Prime.dvd_prod_iff hq.prime).1 h
  rwa [(Nat.prime_dvd_prime_iff_eq hq (hl a ha)).1 hqa]

theorem dummy_gen_order : orderOf (5 : DummyFr) = dummyP - 1 := by
  have hfac : dummyP - 1 = (List.replicate 10 2 ++ [3, 3, 7]).prod := by decide
  refine orderOf_eq_of_pow_and_pow_div_prime (by decide) ?_ ?_
  · have := pow_eq_of_powMod (m := dummyP) (f := 16) (b := 5) (e := dummyP - 1) (r := 1) (by decide) (by decide +kernel)
    simpa using this
  · intro q hq hd
    rw [hfac] at hd
    have := prime_dvd_list hq hd (by decide)
    have h3 : q = 2 ∨ q = 3 ∨ q = 7 := by simpa using this
    have key : ∀ e r : ℕ, e < 2 ^ 16 → powModAux dummyP 16 5 e 1 = r → r < dummyP → r ≠ 1 → (5 : DummyFr) ^ e ≠ 1 := by
      intro e r he hr hlt hne h
      have h1 := pow_eq_of_powMod he hr
      have h2 : (r : DummyFr) = ((1 : ℕ) : DummyFr) := by rw [← h1]; push_cast; exact h
      exact natCast_ne hlt (by decide) hne h2
    rcases h3 with rfl | rfl | rfl
    · exact key _ _ (by decide) rfl (by decide +kernel) (by decide +kernel)
    · exact key _ _ (by decide) rfl (by decide +kernel) (by decide +kernel)
    · exact key _ _ (by decide) rfl (by decide +kernel) (by decide +kernel)

theorem dummy_root : IsPrimitiveRoot (57751 : DummyFr) (2 ^ 10) := by
  have h : (5 : DummyFr) ^ 63 = 57751 := by
    have := pow_eq_of_powMod (m := dummyP) (f := 16) (b := 5) (e := 63) (r := 57751) (by decide) (by decide +kernel)
    simpa using this
  rw [← h]
  have h5 := IsPrimitiveRoot.orderOf (5 : DummyFr)
  rw [dummy_gen_order] at h5
  exact h5.pow (by decide) (by decide)

/-- groth16/src/tests/dummy_engine.rs:294-333: the constants of the dummy field. -/
instance : PrimeField DummyFr :=
  zmodPrimeField dummyP dummyP_prime (by decide) 16 (size_eq (k := 15) (by decide) (by decide)) 64 (by decide) 10
    (by decide) (by decide) 57751 dummy_root 5 dummy_gen_order

/-! ## The scalar field of BLS12-381 -/

/-- The order of the groups of BLS12-381. -/
def blsR : ℕ := 0x73eda753299d7d483339d80809a1d80553bda402fffe5bfeffffffff00000001

/-- The scalar field of BLS12-381. -/
abbrev BlsScalar := ZMod blsR

theorem blsR_factors : blsR - 1 = (List.replicate 32 2 ++
    [3, 11, 19, 10177, 125527, 859267, 906349, 906349, 2508409, 2529403, 52437899, 254760293, 254760293]).prod := by
  decide +kernel

theorem blsR_dvd {q : ℕ} (hq : q.Prime) (hd : q ∣ blsR - 1) :
    q ∈ [2, 3, 11, 19, 10177, 125527, 859267, 906349, 2508409, 2529403, 52437899, 254760293] := by
  rw [blsR_factors] at hd
  have hl : ∀ x ∈ (List.replicate 32 2 ++
      [3, 11, 19, 10177, 125527, 859267, 906349, 906349, 2508409, 2529403, 52437899, 254760293, 254760293]), x.Prime := by
    intro x hx
    rw [List.mem_append] at hx
    rcases hx with hx | hx
    · rw [List.eq_of_mem_replicate hx]; exact Nat.prime_two
    · simp only [List.mem_cons, List.not_mem_nil, or_false] at hx
      rcases hx with rfl | rfl | rfl | rfl | rfl | rfl | rfl | rfl | rfl | rfl | rfl | rfl | rfl <;> norm_num
  have := prime_dvd_list hq hd hl
  rw [List.mem_append] at this
  rcases this with h | h
  · rw [List.eq_of_mem_replicate h]; simp
  · simp only [List.mem_cons, List.not_mem_nil, or_false] at h
    rcases h with rfl | rfl | rfl | rfl | rfl | rfl | rfl | rfl | rfl | rfl | rfl | rfl | rfl <;> decide

theorem bls_pow_one : (7 : BlsScalar) ^ (blsR - 1) = 1 := by
  have := pow_eq_of_powMod (m := blsR) (f := 255) (b := 7) (e := blsR - 1) (r := 1) (by decide +kernel) (by decide +kernel)
  simpa using this

theorem bls_pow_ne (q : ℕ)
    (hq : q ∈ [2, 3, 11, 19, 10177, 125527, 859267, 906349, 2508409, 2529403, 52437899, 254760293]) :
    (7 : BlsScalar) ^ ((blsR - 1) / q) ≠ 1 := by
  have key : ∀ e : ℕ, e < 2 ^ 255 → powModAux blsR 255 7 e 1 < blsR → powModAux blsR 255 7 e 1 ≠ 1 →
      (7 : BlsScalar) ^ e ≠ 1 := by
    intro e he hlt hne h
    have h1 := pow_eq_of_powMod (m := blsR) (b := 7) he rfl
    have h2 : ((powModAux blsR 255 7 e 1 : ℕ) : BlsScalar) = ((1 : ℕ) : BlsScalar) := by
      rw [← h1]; push_cast; exact h
    exact natCast_ne hlt (by decide +kernel) hne h2
  have hall : ∀ q ∈ [2, 3, 11, 19, 10177, 125527, 859267, 906349, 2508409, 2529403, 52437899, 254760293],
      (blsR - 1) / q < 2 ^ 255 ∧ powModAux blsR 255 7 ((blsR - 1) / q) 1 < blsR ∧
        powModAux blsR 255 7 ((blsR - 1) / q) 1 ≠ 1 := by decide +kernel
  obtain ⟨h1, h2, h3⟩ := hall q hq
  exact key _ h1 h2 h3

theorem blsR_prime : blsR.Prime :=
  lucas_primality blsR 7 bls_pow_one fun q hq hd => bls_pow_ne q (blsR_dvd hq hd)

theorem bls_gen_order : orderOf (7 : BlsScalar) = blsR - 1 :=
  orderOf_eq_of_pow_and_pow_div_prime (by decide +kernel) bls_pow_one fun q hq hd => bls_pow_ne q (blsR_dvd hq hd)

theorem bls_root : IsPrimitiveRoot ((7 : BlsScalar) ^ ((blsR - 1) / 2 ^ 32)) (2 ^ 32) := by
  have h7 := IsPrimitiveRoot.orderOf (7 : BlsScalar)
  rw [bls_gen_order] at h7
  exact h7.pow (by decide +kernel) (by decide +kernel)

/-- The constants of crate `bls12_381` (external): 255-bit modulus, `S = 32`, generator 7. -/
instance : PrimeField BlsScalar :=
  zmodPrimeField blsR blsR_prime (by decide +kernel) 255 (size_eq (k := 254) (by decide +kernel) (by decide +kernel)) 256
    (by decide) 32 (by decide +kernel) (by decide +kernel) _ bls_root 7 bls_gen_order

end Bellman
