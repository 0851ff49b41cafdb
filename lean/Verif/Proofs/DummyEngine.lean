import Verif.Examples.DummyEngine
import Verif.Groth16.Keys
import Mathlib.FieldTheory.Finite.Basic
import Mathlib.Data.Int.CardIntervalMod
import Mathlib.Data.Set.Card

/-!
# The test engine computes in the integers modulo 64513
-/

namespace Bellman

namespace Dummy

open PrimeField

instance : Fact dummyP.Prime := ⟨dummyP_prime⟩
instance : NeZero dummyP := ⟨by decide⟩

theorem MODULUS_R_toNat : MODULUS_R.toNat = 64513 := rfl

/-- The representation invariant: the word is below the modulus. -/
def Fr.Canonical (a : Fr) : Prop := a.w.toNat < 64513

theorem Fr.ext_toNat {a b : Fr} (h : a.w.toNat = b.w.toNat) : a = b := by
  cases a; cases b; congr; exact BitVec.eq_of_toNat_eq h

theorem canonical_mod (x : BitVec 32) : (Fr.mk (x % MODULUS_R)).Canonical := by
  show (x % MODULUS_R).toNat < _
  rw [BitVec.toNat_umod, MODULUS_R_toNat]
  exact Nat.mod_lt _ (by norm_num)

theorem add_val {a b : Fr} (ha : a.Canonical) (hb : b.Canonical) :
    (a.add b).w.toNat = (a.w.toNat + b.w.toNat) % 64513 := by
  unfold Fr.Canonical at *
  show ((a.w + b.w) % MODULUS_R).toNat = _
  rw [BitVec.toNat_umod, BitVec.toNat_add, MODULUS_R_toNat, Nat.mod_eq_of_lt (b := 2 ^ 32) (by omega)]

theorem sub_val {a b : Fr} (ha : a.Canonical) (hb : b.Canonical) :
    (a.sub b).w.toNat = (a.w.toNat + 64513 - b.w.toNat) % 64513 := by
  unfold Fr.Canonical at *
  show ((MODULUS_R + a.w - b.w) % MODULUS_R).toNat = _
  rw [BitVec.toNat_umod, BitVec.toNat_sub, BitVec.toNat_add, MODULUS_R_toNat, Nat.mod_eq_of_lt (a := 64513 + _) (by omega)]
  congr 1
  omega

theorem mul_bound {x y : ℕ} (hx : x < 64513) (hy : y < 64513) : x * y < 2 ^ 32 := by
  calc x * y ≤ 64512 * 64512 := Nat.mul_le_mul (by omega) (by omega)
    _ < 2 ^ 32 := by norm_num

theorem mul_val {a b : Fr} (ha : a.Canonical) (hb : b.Canonical) :
    (a.mul b).w.toNat = (a.w.toNat * b.w.toNat) % 64513 := by
  show ((a.w * b.w) % MODULUS_R).toNat = _
  rw [BitVec.toNat_umod, BitVec.toNat_mul, MODULUS_R_toNat, Nat.mod_eq_of_lt (b := 2 ^ 32) (mul_bound ha hb)]

theorem square_eq_mul (a : Fr) : a.square = a.mul a := rfl

theorem double_val {a : Fr} (ha : a.Canonical) : a.double.w.toNat = (2 * a.w.toNat) % 64513 := by
  unfold Fr.Canonical at *
  show ((a.w <<< 1) % MODULUS_R).toNat = _
  rw [BitVec.toNat_umod, BitVec.toNat_shiftLeft, MODULUS_R_toNat, Nat.shiftLeft_eq, Nat.mod_eq_of_lt (b := 2 ^ 32) (by omega)]
  congr 1
  omega

theorem isZero_iff (a : Fr) : a.isZero = true ↔ a.w.toNat = 0 := by
  unfold Fr.isZero
  rw [beq_iff_eq]
  constructor
  · intro h; rw [h]; rfl
  · intro h; exact BitVec.eq_of_toNat_eq h

theorem neg_val {a : Fr} (ha : a.Canonical) : a.neg.w.toNat = (64513 - a.w.toNat) % 64513 := by
  unfold Fr.Canonical at *
  unfold Fr.neg
  split
  · rename_i h
    rw [isZero_iff] at h
    simp [h]
  · rename_i h
    rw [isZero_iff] at h
    show (MODULUS_R - a.w).toNat = _
    rw [BitVec.toNat_sub, MODULUS_R_toNat]
    omega

theorem neg_canonical {a : Fr} (ha : a.Canonical) : a.neg.Canonical := by
  show a.neg.w.toNat < _
  rw [neg_val ha]; exact Nat.mod_lt _ (by norm_num)

theorem add_canonical (a b : Fr) : (a.add b).Canonical := canonical_mod _
theorem sub_canonical (a b : Fr) : (a.sub b).Canonical := canonical_mod _
theorem mul_canonical (a b : Fr) : (a.mul b).Canonical := canonical_mod _
theorem square_canonical (a : Fr) : a.square.Canonical := canonical_mod _
theorem double_canonical (a : Fr) : a.double.Canonical := canonical_mod _
theorem zero_canonical : Fr.ZERO.Canonical := by show (0#32).toNat < _; decide
theorem one_canonical : Fr.ONE.Canonical := by show (1#32).toNat < _; decide

theorem fromU64_val (v : BitVec 64) : (Fr.fromU64 v).w.toNat = v.toNat % 64513 := by
  show ((v % MODULUS_R.setWidth 64).setWidth 32).toNat = _
  rw [BitVec.toNat_setWidth, BitVec.toNat_umod]
  have : (MODULUS_R.setWidth 64).toNat = 64513 := by decide
  rw [this]
  omega

theorem random_val (v : BitVec 32) : (Fr.random v).w.toNat = v.toNat % 64513 := by
  show (v % MODULUS_R).toNat = _
  rw [BitVec.toNat_umod]; rfl

/-! ## Powers -/

theorem pow_fold (a : Fr) (ha : a.Canonical) (e : BitVec 64) (n : ℕ) (res : Fr) (hres : res.Canonical) :
    let out := (List.range n).reverse.foldl (fun res i => if e.getLsbD i then res.square.mul a else res.square) res
    out.Canonical ∧ out.w.toNat = (res.w.toNat ^ 2 ^ n * a.w.toNat ^ (e.toNat % 2 ^ n)) % 64513 := by
  induction n generalizing res with
  | zero =>
    refine ⟨hres, ?_⟩
    show res.w.toNat = _
    rw [Nat.pow_zero, Nat.pow_one, Nat.mod_one, Nat.pow_zero, Nat.mul_one, Nat.mod_eq_of_lt hres]
  | succ n ih =>
    rw [List.range_succ, List.reverse_append, List.reverse_singleton, List.singleton_append]
    simp only [List.foldl_cons]
    have hs : res.square.Canonical := square_canonical _
    have hsv : res.square.w.toNat = res.w.toNat * res.w.toNat % 64513 := mul_val hres hres
    have hb : e.toNat % 2 ^ (n + 1) = e.toNat % 2 ^ n + 2 ^ n * (e.getLsbD n).toNat := by
      rw [Nat.mod_pow_succ, BitVec.getLsbD, Nat.testBit_eq_decide_div_mod_eq]
      congr 2
      rcases Nat.mod_two_eq_zero_or_one (e.toNat / 2 ^ n) with h | h <;> rw [h] <;> rfl
    split
    · rename_i hbit
      obtain ⟨h1, h2⟩ := ih (res.square.mul a) (mul_canonical _ _)
      refine ⟨h1, ?_⟩
      rw [h2, mul_val hs ha, hsv, hb, hbit]
      simp only [Bool.toNat_true, Nat.mul_one]
      refine Nat.ModEq.trans (Nat.ModEq.mul_right _ (Nat.ModEq.pow _ ((Nat.mod_modEq _ _).trans
        (Nat.ModEq.mul_right _ (Nat.mod_modEq _ _))))) (congrArg (· % 64513) ?_)
      rw [Nat.mul_pow, ← Nat.pow_two, ← Nat.pow_mul, Nat.pow_succ 2 n, Nat.mul_comm (2 ^ n) 2, Nat.mul_assoc, ← Nat.pow_add,
        Nat.add_comm (2 ^ n)]
    · rename_i hbit
      obtain ⟨h1, h2⟩ := ih res.square hs
      refine ⟨h1, ?_⟩
      rw [h2, hsv, hb]
      simp only [hbit, Bool.toNat_false, Nat.mul_zero, Nat.add_zero]
      refine Nat.ModEq.trans (Nat.ModEq.mul_right _ (Nat.ModEq.pow _ (Nat.mod_modEq _ _))) (congrArg (· % 64513) ?_)
      rw [← Nat.pow_two, ← Nat.pow_mul, Nat.pow_succ 2 n, Nat.mul_comm (2 ^ n) 2]

theorem pow_val {a : Fr} (ha : a.Canonical) (e : BitVec 64) :
    (a.powVartime e).Canonical ∧ (a.powVartime e).w.toNat = a.w.toNat ^ e.toNat % 64513 := by
  obtain ⟨h1, h2⟩ := pow_fold a ha e 64 Fr.ONE one_canonical
  refine ⟨h1, h2.trans ?_⟩
  rw [show Fr.ONE.w.toNat = 1 from rfl, Nat.one_pow, Nat.one_mul, Nat.mod_eq_of_lt e.isLt]

/-! ## The field of canonical words -/

/-- The values of type `Fr` that the public functions can produce. -/
def CFr : Type := {a : Fr // a.Canonical}

/-- The residue class of a canonical word. -/
def CFr.toZ (a : CFr) : DummyFr := (a.1.w.toNat : ℕ)

/-- The canonical word of a residue class. -/
def CFr.ofZ (z : DummyFr) : CFr :=
  ⟨⟨BitVec.ofNat 32 (ZMod.val z)⟩, by
    show (BitVec.ofNat 32 (ZMod.val z)).toNat < _
    have : ZMod.val z < 64513 := ZMod.val_lt z
    rw [BitVec.toNat_ofNat, Nat.mod_eq_of_lt (by omega)]; exact this⟩

theorem toZ_val (a : CFr) : ZMod.val a.toZ = a.1.w.toNat := by
  unfold CFr.toZ
  rw [ZMod.val_natCast, Nat.mod_eq_of_lt (show a.1.w.toNat < dummyP from a.2)]

theorem toZ_inj : Function.Injective CFr.toZ := fun a b h =>
  Subtype.ext (Fr.ext_toNat (by rw [← toZ_val, ← toZ_val, h]))

theorem toZ_ofZ (z : DummyFr) : (CFr.ofZ z).toZ = z := by
  apply ZMod.val_injective
  rw [toZ_val]
  show (BitVec.ofNat 32 (ZMod.val z)).toNat = _
  have : ZMod.val z < 64513 := ZMod.val_lt z
  rw [BitVec.toNat_ofNat, Nat.mod_eq_of_lt (by omega)]

theorem ofZ_toZ (a : CFr) : CFr.ofZ a.toZ = a := toZ_inj (toZ_ofZ _)

instance : Zero CFr := ⟨⟨Fr.ZERO, zero_canonical⟩⟩
instance : One CFr := ⟨⟨Fr.ONE, one_canonical⟩⟩
instance : Add CFr := ⟨fun a b => ⟨a.1.add b.1, add_canonical _ _⟩⟩
instance : Sub CFr := ⟨fun a b => ⟨a.1.sub b.1, sub_canonical _ _⟩⟩
instance : Mul CFr := ⟨fun a b => ⟨a.1.mul b.1, mul_canonical _ _⟩⟩
instance : Neg CFr := ⟨fun a => ⟨a.1.neg, neg_canonical a.2⟩⟩

theorem invert_canonical {a b : Fr} (ha : a.Canonical) (h : a.invert = some b) : b.Canonical := by
  unfold Fr.invert at h
  split at h
  · cases h; exact (pow_val ha _).1
  · cases h

/-- `invert`, with the inverse of zero set to zero (a convention of Mathlib; the code returns no value). -/
def CFr.inv (a : CFr) : CFr :=
  match h : a.1.invert with
  | some b => ⟨b, invert_canonical a.2 h⟩
  | none => 0

instance : Inv CFr := ⟨CFr.inv⟩
instance : Div CFr := ⟨fun a b => a * b⁻¹⟩
instance : SMul ℕ CFr := ⟨fun n a => CFr.ofZ (n • a.toZ)⟩
instance : SMul ℤ CFr := ⟨fun n a => CFr.ofZ (n • a.toZ)⟩
instance : SMul ℚ≥0 CFr := ⟨fun n a => CFr.ofZ ((n : DummyFr) * a.toZ)⟩
instance : SMul ℚ CFr := ⟨fun n a => CFr.ofZ ((n : DummyFr) * a.toZ)⟩
instance : Pow CFr ℕ := ⟨fun a n => CFr.ofZ (a.toZ ^ n)⟩
instance : Pow CFr ℤ := ⟨fun a n => CFr.ofZ (a.toZ ^ n)⟩
instance : NatCast CFr := ⟨fun n => CFr.ofZ n⟩
instance : IntCast CFr := ⟨fun n => CFr.ofZ n⟩
instance : NNRatCast CFr := ⟨fun n => CFr.ofZ n⟩
instance : RatCast CFr := ⟨fun n => CFr.ofZ n⟩

theorem toZ_zero : CFr.toZ 0 = 0 := rfl
theorem toZ_one : CFr.toZ 1 = 1 := by
  show ((Fr.ONE.w.toNat : ℕ) : DummyFr) = 1
  rw [show Fr.ONE.w.toNat = 1 from rfl, Nat.cast_one]

theorem toZ_add (a b : CFr) : (a + b).toZ = a.toZ + b.toZ := by
  show (((a.1.add b.1).w.toNat : ℕ) : DummyFr) = _
  rw [add_val a.2 b.2]
  show (((_ % dummyP : ℕ)) : DummyFr) = _
  rw [ZMod.natCast_mod, Nat.cast_add]; rfl

theorem toZ_mul (a b : CFr) : (a * b).toZ = a.toZ * b.toZ := by
  show (((a.1.mul b.1).w.toNat : ℕ) : DummyFr) = _
  rw [mul_val a.2 b.2]
  show (((_ % dummyP : ℕ)) : DummyFr) = _
  rw [ZMod.natCast_mod, Nat.cast_mul]; rfl

theorem toZ_sub (a b : CFr) : (a - b).toZ = a.toZ - b.toZ := by
  show (((a.1.sub b.1).w.toNat : ℕ) : DummyFr) = _
  rw [sub_val a.2 b.2]
  show (((_ % dummyP : ℕ)) : DummyFr) = _
  have hb : b.1.w.toNat < 64513 := b.2
  rw [ZMod.natCast_mod, Nat.cast_sub (by omega), Nat.cast_add]
  show _ + ((dummyP : ℕ) : DummyFr) - _ = _
  rw [ZMod.natCast_self, add_zero]; rfl

theorem toZ_neg (a : CFr) : (-a).toZ = -a.toZ := by
  show (((a.1.neg).w.toNat : ℕ) : DummyFr) = _
  rw [neg_val a.2]
  show (((_ % dummyP : ℕ)) : DummyFr) = _
  have ha : a.1.w.toNat < 64513 := a.2
  rw [ZMod.natCast_mod, Nat.cast_sub (by omega)]
  show ((dummyP : ℕ) : DummyFr) - _ = _
  rw [ZMod.natCast_self, zero_sub]; rfl

theorem toZ_pow {a b : Fr} (ha : a.Canonical) (e : BitVec 64) (h : a.powVartime e = b) (hb : b.Canonical) :
    CFr.toZ ⟨b, hb⟩ = CFr.toZ ⟨a, ha⟩ ^ e.toNat := by
  subst h
  show (((a.powVartime e).w.toNat : ℕ) : DummyFr) = _
  rw [(pow_val ha e).2]
  show (((_ % dummyP : ℕ)) : DummyFr) = _
  rw [ZMod.natCast_mod, Nat.cast_pow]; rfl

theorem toZ_inv (a : CFr) : (a⁻¹).toZ = (a.toZ)⁻¹ := by
  show (CFr.inv a).toZ = _
  unfold CFr.inv
  split
  · rename_i b h
    have h' := h
    unfold Fr.invert at h'
    split at h'
    · rename_i hz
      have hpow := toZ_pow a.2 _ (Option.some.inj h') (invert_canonical a.2 h)
      rw [hpow]
      have hne : a.toZ ≠ 0 := by
        intro h0
        have : a = 0 := toZ_inj (h0.trans toZ_zero.symm)
        rw [this] at hz
        exact absurd hz (by decide)
      refine eq_inv_of_mul_eq_one_left ?_
      show a.toZ ^ (MODULUS_R.setWidth 64 - 2#64).toNat * a.toZ = 1
      rw [← pow_succ]
      exact ZMod.pow_card_sub_one_eq_one hne
    · cases h'
  · rename_i h
    unfold Fr.invert at h
    split at h
    · cases h
    · rename_i hz
      have hz' : a.1.isZero = true := by simpa using hz
      rw [isZero_iff] at hz'
      have : a.toZ = 0 := by unfold CFr.toZ; rw [hz', Nat.cast_zero]
      rw [this, inv_zero, toZ_zero]

theorem toZ_div (a b : CFr) : (a / b).toZ = a.toZ / b.toZ := by
  rw [div_eq_mul_inv, ← toZ_inv, ← toZ_mul]; rfl

instance : Field CFr :=
  Function.Injective.field CFr.toZ toZ_inj toZ_zero toZ_one toZ_add toZ_mul toZ_neg toZ_sub toZ_inv toZ_div
    (fun _ _ => toZ_ofZ _) (fun _ _ => toZ_ofZ _) (fun q a => (toZ_ofZ _).trans (by rw [NNRat.smul_def]))
    (fun q a => (toZ_ofZ _).trans (by rw [Rat.smul_def])) (fun _ _ => toZ_ofZ _) (fun _ _ => toZ_ofZ _) (fun _ => toZ_ofZ _)
    (fun _ => toZ_ofZ _) (fun _ => toZ_ofZ _) (fun _ => toZ_ofZ _)

/-- Reducing a word gives an isomorphism with the integers modulo 64513. -/
def equiv : CFr ≃+* DummyFr where
  toFun := CFr.toZ
  invFun := CFr.ofZ
  left_inv := ofZ_toZ
  right_inv := toZ_ofZ
  map_add' := toZ_add
  map_mul' := toZ_mul

theorem natCast_toZ (n : ℕ) : CFr.toZ (n : CFr) = (n : DummyFr) := toZ_ofZ _

theorem root_c : Fr.ROOT_OF_UNITY.Canonical := by show (57751#32).toNat < _; decide

theorem gen_c : Fr.MULTIPLICATIVE_GENERATOR.Canonical := by show (5#32).toNat < _; decide

/-- The words of the test field, with the operations and constants of dummy_engine.rs, meet the contract of `ff::PrimeField`
(`Verif/Field.lean`): groth16/src/tests/dummy_engine.rs:199-332. -/
instance : PrimeField CFr where
  decEq := fun a b => decidable_of_iff (a.1 = b.1) Subtype.ext_iff.symm
  p := MODULUS_R.toNat
  prime := dummyP_prime
  charP := ⟨fun n => by
    rw [← equiv.injective.eq_iff, map_natCast, map_zero]
    exact CharP.cast_eq_zero_iff DummyFr dummyP n⟩
  p_ne_two := by decide
  val a := a.1.w.toNat
  val_lt a := a.2
  cast_val a := toZ_inj (natCast_toZ _)
  NUM_BITS := Fr.NUM_BITS
  NUM_BITS_eq := size_eq (k := 15) (by decide) (by decide)
  CAPACITY := Fr.CAPACITY
  CAPACITY_eq := rfl
  REPR_BITS := 64
  NUM_BITS_le := by decide
  S := Fr.S
  S_dvd := by decide
  S_max := by decide
  ROOT_OF_UNITY := ⟨Fr.ROOT_OF_UNITY, root_c⟩
  root_primitive := by
    refine IsPrimitiveRoot.of_map_of_injective (f := equiv) ?_ equiv.injective
    exact dummy_root
  MULTIPLICATIVE_GENERATOR := ⟨Fr.MULTIPLICATIVE_GENERATOR, gen_c⟩
  gen_order := (orderOf_injective (equiv : CFr →* DummyFr) equiv.injective
    (show CFr from ⟨Fr.MULTIPLICATIVE_GENERATOR, gen_c⟩)).symm.trans dummy_gen_order

/-! ## Encodings -/

/-- The number that bytes denote, least significant first. -/
def leValue (l : List (BitVec 8)) : ℕ := l.foldr (fun b acc => b.toNat + 256 * acc) 0

theorem leValue_lt (l : List (BitVec 8)) : leValue l < 256 ^ l.length := by
  induction l with
  | nil => simp [leValue]
  | cons b l ih =>
    show b.toNat + 256 * leValue l < 256 ^ (l.length + 1)
    have := b.isLt
    rw [pow_succ]
    omega

theorem fromLeBytes_val (l : List (BitVec 8)) (hl : l.length ≤ 8) : (fromLeBytes l).toNat = leValue l := by
  induction l with
  | nil => rfl
  | cons b l ih =>
    have hb := b.isLt
    have ih' := ih (by simp at hl; omega)
    have hlt := leValue_lt l
    have hpow : 256 ^ l.length ≤ 256 ^ 7 := Nat.pow_le_pow_right (by norm_num) (by simp at hl; omega)
    show ((fromLeBytes l <<< 8) ||| b.setWidth 64).toNat = b.toNat + 256 * leValue l
    rw [BitVec.toNat_or, BitVec.toNat_shiftLeft, BitVec.toNat_setWidth, ih', Nat.shiftLeft_eq,
      Nat.mod_eq_of_lt (a := leValue l * 2 ^ 8) (by norm_num at *; omega), Nat.mod_eq_of_lt (a := b.toNat) (by norm_num at *; omega),
      ← Nat.shiftLeft_eq, ← Nat.shiftLeft_add_eq_or_of_lt hb, Nat.shiftLeft_eq]
    omega

theorem toLeBytes_val (v : BitVec 64) : leValue (toLeBytes v) = v.toNat := by
  have := v.isLt
  simp only [leValue, toLeBytes, List.range, List.range.loop, List.map_cons, List.map_nil, List.foldr_cons, List.foldr_nil,
    BitVec.toNat_setWidth, BitVec.toNat_ushiftRight, Nat.shiftRight_eq_div_pow]
  norm_num
  omega

theorem toRepr_val {a : Fr} : (a.toRepr).length = 8 ∧ leValue a.toRepr = a.w.toNat := by
  refine ⟨by simp [Fr.toRepr, toLeBytes], ?_⟩
  unfold Fr.toRepr
  rw [toLeBytes_val, BitVec.toNat_setWidth, Nat.mod_eq_of_lt]
  have := a.w.isLt
  omega

theorem fromRepr_eq (l : List (BitVec 8)) (hl : l.length = 8) :
    Fr.fromRepr l = if leValue l < 64513 then some ⟨BitVec.ofNat 32 (leValue l)⟩ else none := by
  unfold Fr.fromRepr
  have hv := fromLeBytes_val l (by omega)
  have hm : (MODULUS_R.setWidth 64).toNat = 64513 := by decide
  simp only [ge_iff_le, BitVec.le_def, hv, hm]
  by_cases h : leValue l < 64513
  · rw [if_neg (by omega), if_pos h]
    congr 2
    apply BitVec.eq_of_toNat_eq
    rw [BitVec.toNat_setWidth, hv, BitVec.toNat_ofNat]
  · rw [if_pos (by omega), if_neg h]

theorem isOdd_iff (a : Fr) : a.isOdd = true ↔ a.w.toNat % 2 = 1 := by
  unfold Fr.isOdd
  rw [beq_iff_eq, ← BitVec.toNat_inj, BitVec.toNat_setWidth, BitVec.toNat_umod]
  show a.w.toNat % 2 % 2 ^ 8 = 1 ↔ _
  omega

/-! ## Random values -/

theorem count_mod (N p r : ℕ) (hp : 0 < p) (hr : r < p) :
    ((Finset.range N).filter fun n => n % p = r).card = N / p + if r < N % p then 1 else 0 := by
  have h := Nat.count_modEq_card N hp r
  rw [Nat.count_eq_card_filter_range, Nat.mod_eq_of_lt hr] at h
  rw [← h]
  congr 1
  ext n
  simp [Nat.ModEq, Nat.mod_eq_of_lt hr]

theorem random_count (r : ℕ) (hr : r < 64513) :
    {next : BitVec 32 | (Fr.random next).w.toNat = r}.ncard = if r < 14321 then 66576 else 66575 := by
  have h := count_mod (2 ^ 32) 64513 r (by norm_num) hr
  have himg : {next : BitVec 32 | (Fr.random next).w.toNat = r} =
      (fun n : ℕ => BitVec.ofNat 32 n) '' ((Finset.range (2 ^ 32)).filter fun n => n % 64513 = r : Finset ℕ) := by
    ext v
    simp only [Set.mem_ofPred_eq, random_val, Set.mem_image, Finset.coe_filter, Finset.mem_range]
    constructor
    · intro hv
      exact ⟨v.toNat, ⟨v.isLt, hv⟩, by simp⟩
    · rintro ⟨n, ⟨hn, hm⟩, rfl⟩
      rw [BitVec.toNat_ofNat, Nat.mod_eq_of_lt hn]; exact hm
  rw [himg, Set.InjOn.ncard_image, Set.ncard_coe_finset, h]
  · split <;> split <;> first | rfl | omega
  · intro a ha b hb hab
    simp only [Finset.coe_filter, Finset.mem_range, Set.mem_ofPred_eq] at ha hb
    have := congrArg BitVec.toNat hab
    simp only [BitVec.toNat_ofNat] at this
    rwa [Nat.mod_eq_of_lt ha.1, Nat.mod_eq_of_lt hb.1] at this

end Dummy

end Bellman
