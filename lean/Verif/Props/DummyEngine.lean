import Verif.Proofs.DummySqrt
import Verif.Groth16.Keys

/-!
# C56: the engine that the Groth16 tests run on computes what it should

The unit tests of the proof system run on a home-made engine (groth16/src/tests/dummy_engine.rs): a 16-bit field in wrapping
32-bit words. A test that passes there means something only if those words really form a field with a bilinear map.
-/

namespace Bellman

open PrimeField Dummy

/-- The number a word of the test field stands for. -/
abbrev Dummy.Fr.num (a : Dummy.Fr) : ℕ := a.w.toNat

/-- C56. The arithmetic of the test field is arithmetic modulo 64513: no intermediate value is lost to the wrapping of the 32-bit
words, and every result is again a number below the modulus. -/
theorem C56_arithmetic {a b : Dummy.Fr} (ha : a.num < 64513) (hb : b.num < 64513) :
    (a.add b).num = (a.num + b.num) % 64513 ∧
    (a.sub b).num = (a.num + 64513 - b.num) % 64513 ∧
    (a.mul b).num = (a.num * b.num) % 64513 ∧
    a.neg.num = (64513 - a.num) % 64513 ∧
    a.square.num = (a.num * a.num) % 64513 ∧
    a.double.num = (2 * a.num) % 64513 ∧
    (∀ e : BitVec 64, (a.powVartime e).num = a.num ^ e.toNat % 64513) ∧
    (a.isZero = true ↔ a.num = 0) ∧ (a.ctEq b = true ↔ a.num = b.num) ∧ (a.isOdd = true ↔ a.num % 2 = 1) := by
  refine ⟨add_val ha hb, sub_val ha hb, mul_val ha hb, neg_val ha, mul_val ha ha, double_val ha, fun e => (pow_val ha e).2,
    isZero_iff a, ?_, isOdd_iff a⟩
  unfold Fr.ctEq
  rw [beq_iff_eq]
  exact ⟨fun h => congrArg BitVec.toNat h, fun h => BitVec.eq_of_toNat_eq h⟩

example : ((⟨64512#32⟩ : Dummy.Fr).mul ⟨64512#32⟩).num = 1 ∧ ((⟨64512#32⟩ : Dummy.Fr).add ⟨2#32⟩).num = 1 ∧
    ((⟨1#32⟩ : Dummy.Fr).sub ⟨2#32⟩).num = 64512 := by
  obtain ⟨h1, -, h3, -⟩ := C56_arithmetic (a := ⟨64512#32⟩) (b := ⟨64512#32⟩) (by decide) (by decide)
  obtain ⟨h4, -⟩ := C56_arithmetic (a := ⟨64512#32⟩) (b := ⟨2#32⟩) (by decide) (by decide)
  obtain ⟨-, h5, -⟩ := C56_arithmetic (a := ⟨1#32⟩) (b := ⟨2#32⟩) (by decide) (by decide)
  exact ⟨h3.trans (by decide), h4.trans (by decide), h5.trans (by decide)⟩

/-- C56. Conversions: any 64-bit number is reduced modulo 64513, as is any word of randomness; sums and products of lists are those of
the numbers; selection, masking and shifting act on the number. -/
theorem C56_conversions :
    (∀ v : BitVec 64, (Fr.fromU64 v).num = v.toNat % 64513) ∧
    (∀ v : BitVec 32, (Fr.random v).num = v.toNat % 64513) ∧
    (∀ l : List Dummy.Fr, (∀ a ∈ l, a.num < 64513) → (Fr.sum l).num = (l.map Dummy.Fr.num).sum % 64513) ∧
    (∀ l : List Dummy.Fr, (∀ a ∈ l, a.num < 64513) → (Fr.product l).num = (l.map Dummy.Fr.num).prod % 64513) ∧
    (∀ a b : Dummy.Fr, Fr.conditionalSelect a b false = a ∧ Fr.conditionalSelect a b true = b) ∧
    (∀ (a : Dummy.Fr) (m : BitVec 64), (a.bitand m).toNat = a.num &&& m.toNat) ∧
    (∀ (a : Dummy.Fr) (n : ℕ), n < 32 → ∃ o, a.shr n = some o ∧ o.num = a.num / 2 ^ n) := by
  refine ⟨fromU64_val, random_val, ?_, ?_, fun a b => ⟨rfl, rfl⟩, ?_, ?_⟩
  · intro l hl
    have : ∀ (l : List Dummy.Fr) (acc : Dummy.Fr), acc.num < 64513 → (∀ a ∈ l, a.num < 64513) →
        (l.foldl Fr.add acc).num = (acc.num + (l.map Dummy.Fr.num).sum) % 64513 := by
      intro l
      induction l with
      | nil => intro acc hacc _; simp [Nat.mod_eq_of_lt hacc]
      | cons a l ih =>
        intro acc hacc hl
        rw [List.foldl_cons, ih _ (add_canonical _ _) fun x hx => hl x (List.mem_cons_of_mem _ hx), Dummy.Fr.num,
          add_val hacc (hl a (List.mem_cons_self ..)), List.map_cons, List.sum_cons, Nat.mod_add_mod, Nat.add_assoc]
    have h := this l Fr.ZERO zero_canonical hl
    rwa [show Dummy.Fr.num Fr.ZERO = 0 from rfl, Nat.zero_add] at h
  · intro l hl
    have : ∀ (l : List Dummy.Fr) (acc : Dummy.Fr), acc.num < 64513 → (∀ a ∈ l, a.num < 64513) →
        (l.foldl Fr.mul acc).num = (acc.num * (l.map Dummy.Fr.num).prod) % 64513 := by
      intro l
      induction l with
      | nil => intro acc hacc _; simp [Nat.mod_eq_of_lt hacc]
      | cons a l ih =>
        intro acc hacc hl
        rw [List.foldl_cons, ih _ (mul_canonical _ _) fun x hx => hl x (List.mem_cons_of_mem _ hx), Dummy.Fr.num,
          mul_val hacc (hl a (List.mem_cons_self ..)), List.map_cons, List.prod_cons, Nat.mod_mul_mod, Nat.mul_assoc]
    have h := this l Fr.ONE one_canonical hl
    rwa [show Dummy.Fr.num Fr.ONE = 1 from rfl, Nat.one_mul] at h
  · intro a m
    show (a.w.setWidth 64 &&& m).toNat = _
    have := a.w.isLt
    rw [BitVec.toNat_and, BitVec.toNat_setWidth, Nat.mod_eq_of_lt (by omega)]
  · intro a n hn
    refine ⟨⟨a.w >>> n⟩, by simp [Fr.shr, hn], ?_⟩
    show (a.w >>> n).toNat = _
    rw [BitVec.toNat_ushiftRight, Nat.shiftRight_eq_div_pow]

example : (Fr.fromU64 (BitVec.ofNat 64 (2 ^ 64 - 1))).num = (2 ^ 64 - 1) % 64513 := C56_conversions.1 _

/-- C56. `invert` returns nothing for zero, and otherwise the number whose product with the argument is one. -/
theorem C56_invert {a : Dummy.Fr} (ha : a.num < 64513) :
    (a.invert = none ↔ a.num = 0) ∧
    ∀ b, a.invert = some b → b.num < 64513 ∧ (a.num * b.num) % 64513 = 1 := by
  constructor
  · unfold Fr.invert
    rw [← isZero_iff]
    cases a.isZero <;> simp
  · intro b hb
    have hbc := invert_canonical ha hb
    refine ⟨hbc, ?_⟩
    let A : CFr := ⟨a, ha⟩
    have hne : A ≠ 0 := by
      intro h0
      have : a = Fr.ZERO := congrArg Subtype.val h0
      rw [this] at hb
      revert hb
      simp [Fr.invert, Fr.isZero, Fr.ZERO]
    have hinv : A⁻¹ = ⟨b, hbc⟩ := by
      show CFr.inv _ = _
      unfold CFr.inv
      split
      · rename_i b' h'
        have : b' = b := Option.some.inj (h'.symm.trans hb)
        subst this; rfl
      · rename_i h'
        rw [show Fr.invert a = none from h'] at hb
        cases hb
    have h1 := mul_inv_cancel₀ hne
    rw [hinv] at h1
    have h2 : a.mul b = Fr.ONE := congrArg Subtype.val h1
    have h3 := mul_val ha hbc
    rw [h2] at h3
    exact h3.symm

example : ∃ b, (⟨3#32⟩ : Dummy.Fr).invert = some b ∧ (3 * b.num) % 64513 = 1 := by
  obtain ⟨h1, h2⟩ := C56_invert (a := ⟨3#32⟩) (by decide)
  cases h : (⟨3#32⟩ : Dummy.Fr).invert with
  | none => exact absurd (h1.1 h) (by decide)
  | some b => exact ⟨b, rfl, (h2 b h).2⟩

/-- C56. The words below the modulus, with the operations of the code, are a field of 64513 elements, and the constants of the
`PrimeField` implementation are what that trait says they are: the generator generates every unit, the root of unity is the power of it
that has order `2^S` with `S` maximal, and the remaining constants are the inverse of two, the inverse of the root, and the generator
raised to `2^S`. -/
theorem C56_prime_field :
    (∃ e : CFr ≃+* ZMod 64513, ∀ a, e a = (a.1.num : ZMod 64513)) ∧
    (∀ a b : CFr, (a + b).1 = a.1.add b.1 ∧ (a - b).1 = a.1.sub b.1 ∧ (a * b).1 = a.1.mul b.1 ∧ (-a).1 = a.1.neg) ∧
    Fr.MODULUS = toString MODULUS_R.toNat ∧ 2 ^ (Fr.NUM_BITS - 1) ≤ MODULUS_R.toNat ∧ MODULUS_R.toNat < 2 ^ Fr.NUM_BITS ∧
    Fr.CAPACITY = Fr.NUM_BITS - 1 ∧
    2 ^ Fr.S ∣ MODULUS_R.toNat - 1 ∧ ¬ 2 ^ (Fr.S + 1) ∣ MODULUS_R.toNat - 1 ∧
    orderOf (Fr.MULTIPLICATIVE_GENERATOR.num : ZMod 64513) = 64512 ∧
    (Fr.ROOT_OF_UNITY.num : ZMod 64513) = (Fr.MULTIPLICATIVE_GENERATOR.num : ZMod 64513) ^ (64512 / 2 ^ Fr.S) ∧
    orderOf (Fr.ROOT_OF_UNITY.num : ZMod 64513) = 2 ^ Fr.S ∧
    Fr.ROOT_OF_UNITY_INV.mul Fr.ROOT_OF_UNITY = Fr.ONE ∧
    Fr.TWO_INV.double = Fr.ONE ∧
    (Fr.DELTA.num : ZMod 64513) = (Fr.MULTIPLICATIVE_GENERATOR.num : ZMod 64513) ^ 2 ^ Fr.S := by
  refine ⟨⟨Dummy.equiv, fun _ => rfl⟩, fun a b => ⟨rfl, rfl, rfl, rfl⟩, by decide +kernel, by decide, by decide, rfl, by decide,
    by decide, dummy_gen_order, ?_, dummy_root.eq_orderOf.symm, by decide +kernel, by decide +kernel, ?_⟩
  · have := pow_eq_of_powMod (m := dummyP) (f := 16) (b := 5) (e := 63) (r := 57751) (by decide) (by decide +kernel)
    exact this.symm
  · have := pow_eq_of_powMod (m := dummyP) (f := 16) (b := 5) (e := 1024) (r := 38779) (by decide) (by decide +kernel)
    exact this.symm

/-- C56. Consequently every theorem of this development about an arbitrary prime field applies to the code of the test field: this is
the contract those theorems ask for. -/
theorem C56_contract :
    PrimeField.p CFr = 64513 ∧ (∀ a : CFr, PrimeField.val a = a.1.num) ∧
    (∀ a : CFr, PrimeField.toLeBits a = a.1.toLeBits) ∧ PrimeField.charLeBits CFr = Fr.charLeBits := by
  refine ⟨rfl, fun _ => rfl, fun a => ?_, ?_⟩
  · unfold PrimeField.toLeBits Fr.toLeBits
    refine List.map_congr_left fun i hi => ?_
    show a.1.w.toNat.testBit i = (a.1.w.setWidth 64).getLsbD i
    have := a.1.w.isLt
    rw [BitVec.getLsbD, BitVec.toNat_setWidth, Nat.mod_eq_of_lt (by omega)]
  · decide +kernel

/-- C56. `sqrt` (Tonelli-Shanks): for every non-zero square it stops with a square root, within ten rounds of either loop. For a
number that is not a square it does not return "no root" as the trait asks: it panics, because `m - i - 1` goes below zero. For zero it
never returns a value, because the inner loop waits for a power of zero to become one. (Nothing in the crate calls it.) -/
theorem C56_sqrt {a : Dummy.Fr} (ha : a.num < 64513) :
    ((∃ b : Dummy.Fr, b.num < 64513 ∧ (b.num * b.num) % 64513 = a.num) → a.num ≠ 0 → ∀ fuel ≥ 10,
      ∃ r : Dummy.Fr, Fr.sqrt fuel a = .done (some r) ∧ r.num < 64513 ∧ (r.num * r.num) % 64513 = a.num) ∧
    ((¬ ∃ b : Dummy.Fr, b.num < 64513 ∧ (b.num * b.num) % 64513 = a.num) → ∀ fuel ≥ 10, Fr.sqrt fuel a = .panic) ∧
    (a.num = 0 → ∀ fuel o, Fr.sqrt fuel a ≠ .done o) := by
  have hz0 : a.num ≠ 0 → z a ≠ 0 := by
    intro h h0
    refine h ?_
    have : a = Fr.ZERO := z_inj ha zero_canonical (h0.trans (by rfl))
    rw [this]; rfl
  have hsq : (∃ b : Dummy.Fr, b.num < 64513 ∧ (b.num * b.num) % 64513 = a.num) ↔ IsSquare (z a) := by
    constructor
    · rintro ⟨b, hb, hm⟩
      refine ⟨z b, ?_⟩
      rw [← z_mul hb hb]
      congr 1
      refine Fr.ext_toNat ?_
      rw [mul_val hb hb]; exact hm.symm
    · rintro ⟨y, hy⟩
      refine ⟨(CFr.ofZ y).1, (CFr.ofZ y).2, ?_⟩
      rw [← mul_val (CFr.ofZ y).2 (CFr.ofZ y).2]
      congr 2
      refine z_inj (mul_canonical _ _) ha ?_
      rw [z_mul (CFr.ofZ y).2 (CFr.ofZ y).2, hy]
      exact congrArg₂ _ (toZ_ofZ y) (toZ_ofZ y)
  refine ⟨fun hs h0 fuel hf => ?_, fun hs fuel hf => ?_, fun h0 fuel o => ?_⟩
  · obtain ⟨r, h1, h2, h3⟩ := sqrt_square ha (hz0 h0) (hsq.1 hs) hf
    refine ⟨r, h1, h2, ?_⟩
    rw [← mul_val h2 h2, h3]
  · refine sqrt_nonsquare ha (hz0 ?_) (fun h => hs (hsq.2 h)) hf
    intro h0
    exact hs ⟨Fr.ZERO, by decide, by rw [h0]; decide⟩
  · have : a = Fr.ZERO := Fr.ext_toNat h0
    rw [this]
    exact sqrt_zero fuel o

example : ∃ r : Dummy.Fr, Fr.sqrt 10 ⟨4#32⟩ = .done (some r) ∧ (r.num * r.num) % 64513 = 4 := by
  obtain ⟨r, h1, -, h2⟩ := (C56_sqrt (a := ⟨4#32⟩) (by decide)).1 ⟨⟨2#32⟩, by decide, by decide⟩ (by decide) 10 le_rfl
  exact ⟨r, h1, h2⟩

/-- the generator is not a square -/
example : Fr.sqrt 10 ⟨5#32⟩ = .panic := by decide +kernel

/-- C56. Encoding: eight bytes, least significant first. Reading accepts exactly the encodings of numbers below the modulus and
inverts writing. -/
theorem C56_encoding :
    (∀ a : Dummy.Fr, a.toRepr.length = 8 ∧ leValue a.toRepr = a.num) ∧
    (∀ a : Dummy.Fr, a.num < 64513 → Fr.fromRepr a.toRepr = some a) ∧
    ∀ l : List (BitVec 8), l.length = 8 →
      (Fr.fromRepr l = none ↔ 64513 ≤ leValue l) ∧ ∀ a, Fr.fromRepr l = some a → a.num = leValue l ∧ a.num < 64513 ∧ a.toRepr = l := by
  have hinj : ∀ l l' : List (BitVec 8), l.length = l'.length → leValue l = leValue l' → l = l' := by
    intro l
    induction l with
    | nil => intro l' h _; exact (List.length_eq_zero_iff.1 h.symm).symm
    | cons b l ih =>
      intro l' hl hv
      cases l' with
      | nil => simp at hl
      | cons b' l' =>
        have hv' : b.toNat + 256 * leValue l = b'.toNat + 256 * leValue l' := hv
        have := b.isLt
        have := b'.isLt
        have h1 : b = b' := BitVec.eq_of_toNat_eq (by omega)
        rw [h1, ih l' (by simpa using hl) (by omega)]
  refine ⟨fun a => toRepr_val, fun a ha => ?_, fun l hl => ⟨?_, fun a h => ?_⟩⟩
  · rw [fromRepr_eq _ toRepr_val.1, toRepr_val.2, if_pos ha]
    congr 1
    refine Fr.ext_toNat ?_
    show (BitVec.ofNat 32 a.num).toNat = _
    rw [BitVec.toNat_ofNat, Nat.mod_eq_of_lt a.w.isLt]
  · rw [fromRepr_eq l hl]
    split <;> simp <;> omega
  · rw [fromRepr_eq l hl] at h
    split at h
    · rename_i hlt
      cases h
      have hn : Dummy.Fr.num ⟨BitVec.ofNat 32 (leValue l)⟩ = leValue l := by
        show (BitVec.ofNat 32 _).toNat = _
        rw [BitVec.toNat_ofNat, Nat.mod_eq_of_lt (by omega)]
      refine ⟨hn, by omega, ?_⟩
      exact hinj _ _ (toRepr_val.1.trans hl.symm) (toRepr_val.2.trans hn)
    · cases h

example : (⟨64512#32⟩ : Dummy.Fr).toRepr = [0, 252, 0, 0, 0, 0, 0, 0] ∧
    Fr.fromRepr [1, 252, 0, 0, 0, 0, 0, 0] = none := by decide +kernel

/-- C56. Randomness: each field element is the result for 66575 or 66576 of the `2^32` words that the generator may return, so a
random scalar or group element is within one part in 66575 of uniform. -/
theorem C56_random (r : ℕ) (hr : r < 64513) :
    {next : BitVec 32 | (Fr.random next).num = r}.ncard = (if r < 14321 then 66576 else 66575) ∧
    {next : BitVec 32 | (Dummy.groupRandom next).num = r}.ncard = if r < 14321 then 66576 else 66575 :=
  ⟨random_count r hr, random_count r hr⟩

/-- C56. The pairing of the test engine is the product of the numbers: bilinear, and zero only if one of its arguments is. The Miller
loop of several pairs is the sum of their pairings. -/
theorem C56_engine {a a' b : Dummy.Fr} (ha : a.num < 64513) (ha' : a'.num < 64513) (hb : b.num < 64513) :
    (Dummy.pairing a b).num = (a.num * b.num) % 64513 ∧
    Dummy.pairing (a.add a') b = (Dummy.pairing a b).add (Dummy.pairing a' b) ∧
    Dummy.pairing b (a.add a') = (Dummy.pairing b a).add (Dummy.pairing b a') ∧
    (Dummy.pairing a b = Dummy.identity → a = Dummy.identity ∨ b = Dummy.identity) ∧
    (∀ l : List (CFr × CFr), ((fieldEngine CFr).multiMillerLoop l).1 = Dummy.multiMillerLoop (l.map fun x => (x.1.1, x.2.1))) ∧
    (∀ P Q : CFr, ((fieldEngine CFr).pairing P Q).1 = Dummy.pairing P.1 Q.1 ∧
      ((fieldEngine CFr).finalExponentiation P : CFr).1 = Dummy.finalExponentiation P.1) := by
  have hzero : ∀ x : CFr, (0 : CFr) + x = x := zero_add
  have hp : ∀ P Q : CFr, Dummy.pairing P.1 Q.1 = (P * Q).1 := by
    intro P Q
    exact congrArg Subtype.val (hzero (P * Q))
  have hml : ∀ l : List (CFr × CFr), (List.sum (l.map fun x : CFr × CFr => x.1 * x.2)).1 = Dummy.multiMillerLoop (l.map fun x => (x.1.1, x.2.1)) := by
    intro l
    have : ∀ (l : List (CFr × CFr)) (acc : CFr),
        (l.map fun x => (x.1.1, x.2.1)).foldl (fun acc ab => Fr.add acc (Fr.mul ab.1 ab.2)) acc.1 =
          (acc + (l.map fun x => x.1 * x.2).sum).1 := by
      intro l
      induction l with
      | nil => intro acc; rw [List.map_nil, List.map_nil, List.sum_nil, add_zero]; rfl
      | cons x l ih =>
        intro acc
        rw [List.map_cons, List.foldl_cons, List.map_cons, List.sum_cons, ← add_assoc]
        exact ih (acc + x.1 * x.2)
    have h := this l 0
    rw [zero_add] at h
    exact h.symm
  let A : CFr := ⟨a, ha⟩
  let A' : CFr := ⟨a', ha'⟩
  let B : CFr := ⟨b, hb⟩
  refine ⟨?_, ?_, ?_, ?_, hml, fun P Q => ⟨(hp P Q).symm, rfl⟩⟩
  · have := hp A B
    show (Dummy.pairing A.1 B.1).w.toNat = _
    rw [this]
    exact mul_val ha hb
  · have h := congrArg Subtype.val (add_mul A A' B)
    have h1 := hp (A + A') B
    have h2 : (A * B + A' * B).1 = (A * B).1.add (A' * B).1 := rfl
    rw [← hp A B, ← hp A' B] at h2
    exact h1.trans (h.trans h2)
  · have h := congrArg Subtype.val (mul_add B A A')
    have h1 := hp B (A + A')
    have h2 : (B * A + B * A').1 = (B * A).1.add (B * A').1 := rfl
    rw [← hp B A, ← hp B A'] at h2
    exact h1.trans (h.trans h2)
  · intro h
    have h1 : A * B = 0 := Subtype.ext ((hp A B).symm.trans h)
    rcases mul_eq_zero.1 h1 with h0 | h0
    · exact .inl (congrArg Subtype.val h0)
    · exact .inr (congrArg Subtype.val h0)

example : (Dummy.pairing ⟨300#32⟩ ⟨300#32⟩).num = 25487 ∧ (Dummy.pairing ⟨300#32⟩ ⟨300#32⟩).num = (300 * 300) % 64513 :=
  ⟨by decide +kernel, (C56_engine (a := ⟨300#32⟩) (a' := ⟨1#32⟩) (b := ⟨300#32⟩) (by decide) (by decide) (by decide)).1⟩

/-- C56. The groups of the test engine are cyclic of order 64513: adding the generator `n` times gives the element with number `n`
modulo 64513, so every element is reached; `double` adds an element to itself, `is_identity` recognises the neutral element, conversion to
affine form changes nothing, and `pairing_with` is the pairing. -/
theorem C56_group :
    (∀ n : ℕ, ((fun x => Fr.add x Dummy.generator)^[n] Dummy.identity).num = n % 64513) ∧
    (∀ a : Dummy.Fr, a.num < 64513 → (fun x => Fr.add x Dummy.generator)^[a.num] Dummy.identity = a) ∧
    (∀ a : Dummy.Fr, a.num < 64513 → Dummy.groupDouble a = a.add a) ∧
    (∀ a : Dummy.Fr, Dummy.isIdentity a = true ↔ a = Dummy.identity) ∧
    (∀ a : Dummy.Fr, Dummy.toAffine a = a) ∧
    (∀ a b : Dummy.Fr, a.num < 64513 → b.num < 64513 → Dummy.pairingWith a b = Dummy.pairing a b) := by
  have hnum : ∀ a b : Dummy.Fr, a.num = b.num → a = b := by
    rintro ⟨a⟩ ⟨b⟩ h
    congr 1
    exact BitVec.eq_of_toNat_eq h
  have hn : ∀ n : ℕ, ((fun x => Fr.add x Dummy.generator)^[n] Dummy.identity).num = n % 64513 := by
    intro n
    induction n with
    | zero => rfl
    | succ n ih =>
      rw [Function.iterate_succ_apply']
      generalize (fun x => Fr.add x Dummy.generator)^[n] Dummy.identity = x at ih ⊢
      have hx : x.num < 64513 := by rw [ih]; exact Nat.mod_lt _ (by norm_num)
      have h := add_val (a := x) (b := Dummy.generator) hx one_canonical
      show (x.add Dummy.generator).w.toNat = _
      rw [h]
      have h1 : (Dummy.generator).w.toNat = 1 := rfl
      have h2 : x.w.toNat = n % 64513 := ih
      rw [h1, h2]
      show (n % 64513 + 1) % 64513 = _
      omega
  refine ⟨hn, fun a ha => hnum _ _ ?_, fun a ha => ?_, fun a => ?_, fun a => rfl, fun a b ha hb => ?_⟩
  · rw [hn, Nat.mod_eq_of_lt ha]
  · apply hnum
    have h1 : (a.add a).num = _ := add_val (a := a) (b := a) ha ha
    have h2 : (Dummy.groupDouble a).num = _ := double_val ha
    rw [h1, h2, Nat.two_mul]
  · exact (isZero_iff a).trans ⟨fun h => hnum _ _ h, fun h => h ▸ rfl⟩
  · apply hnum
    rw [(C56_engine ha ha hb).1]
    exact mul_val ha hb

example : ((fun x => Fr.add x Dummy.generator)^[100000] Dummy.identity).num = 35487 ∧
    Dummy.pairingWith ⟨300#32⟩ ⟨300#32⟩ = ⟨25487#32⟩ ∧ Dummy.groupDouble ⟨64512#32⟩ = ⟨64511#32⟩ :=
  ⟨(C56_group.1 100000).trans (by norm_num), by decide +kernel, by decide +kernel⟩

end Bellman
