import Verif.Proofs.MultiEq
import Verif.Proofs.Num
import Verif.Gadgets.UInt32

/-!
# Lemmas about `UInt32`
-/

set_option linter.unusedSimpArgs false
set_option linter.unusedTactic false
set_option linter.unreachableTactic false
set_option linter.unusedSectionVars false
set_option linter.unusedVariables false
set_option linter.unnecessarySeqFocus false

namespace Bellman

open PrimeField List

variable {F : Type} [PrimeField F] {ρ : Var → F} {α β : Type}

theorem Circ.wpS_and (c : Circ F α) {Q Q' : α → Prop} (h : c.wpS ρ Q) (h' : c.wpS ρ Q') :
    c.wpS ρ fun a => Q a ∧ Q' a := by
  induction c with
  | ret a => exact ⟨h, h'⟩
  | panic m => trivial
  | alloc i n f k ih =>
    exact ⟨fun x => ih _ (h.1 x) (h'.1 x), fun x v hf => ih _ (h.2.1 x v hf) (h'.2.1 x v hf),
      fun e => ih _ (h.2.2 e) (h'.2.2 e)⟩
  | enforce n a b c k ih => exact fun he => ih (h he) (h' he)
  | push n k ih => exact ih h h'
  | pop k ih => exact ih h h'

theorem Synth.wpS_and {m : Synth F α} {Q Q' : α → Prop} (h : m.wpS ρ Q) (h' : m.wpS ρ Q') :
    m.wpS ρ fun a => Q a ∧ Q' a := by
  refine Circ.wpS_mono ρ _ ?_ (Circ.wpS_and _ h h')
  intro r
  cases r with
  | ok a => exact id
  | error e => exact fun _ => trivial

namespace Boolean

/-- A constant `Boolean` has the value `x`; nothing is said about allocated ones. -/
def Compat : Boolean → Bool → Prop
  | .constant c, x => c = x
  | _, _ => True

theorem compat_neg {b : Boolean} {x : Bool} (h : b.Compat x) : b.neg.Compat (!x) := by
  cases b <;> simp_all [Compat, neg]

theorem compat_of_getValue {b : Boolean} {x : Bool} (h : b.getValue = some x) : b.Compat x := by
  cases b <;> simp_all [Compat, getValue]

theorem wpS_any (c : Circ F α) : c.wpS ρ fun _ => True := by
  induction c with
  | ret a => trivial
  | panic m => trivial
  | alloc i n f k ih => exact ⟨fun x => ih _, fun x v _ => ih _, fun e => ih _⟩
  | enforce n a b c k ih => exact fun _ => ih
  | push n k ih => exact ih
  | pop k ih => exact ih

theorem wpS_triv (m : Synth F α) : Synth.wpS ρ m fun _ => True := by
  refine Circ.wpS_mono ρ _ ?_ (wpS_any m.run)
  intro r; cases r <;> simp

theorem wpS_xor_compat {a b : Boolean} {x y : Bool} (ha : a.Compat x) (hb : b.Compat y) :
    Synth.wpS ρ (xor (F := F) a b) fun o => o.Compat (x ^^ y) := by
  unfold xor
  split
  · simp only [Compat] at ha; subst ha; simpa using hb
  · simp only [Compat] at hb; subst hb; simpa using ha
  · simp only [Compat] at ha; subst ha; simpa using compat_neg hb
  · simp only [Compat] at hb; subst hb; simpa using compat_neg ha
  all_goals
    rw [Synth.wpS_bind]
    refine Synth.wpS_mono (wpS_triv _) fun o _ => ?_
    trivial

theorem wpS_and_compat {a b : Boolean} {x y : Bool} (ha : a.Compat x) (hb : b.Compat y) :
    Synth.wpS ρ (and (F := F) a b) fun o => o.Compat (x && y) := by
  unfold and
  split
  · simp only [Compat] at ha; subst ha; simp [Compat]
  · simp only [Compat] at hb; subst hb; simp [Compat]
  · simp only [Compat] at ha; subst ha; simpa using hb
  · simp only [Compat] at hb; subst hb; simpa using ha
  all_goals
    rw [Synth.wpS_bind]
    refine Synth.wpS_mono (wpS_triv _) fun o _ => ?_
    trivial

theorem wpS_chAlloc_compat {a b c : Boolean} (x : Bool) :
    Synth.wpS ρ (chAlloc (F := F) a b c) fun o => o.Compat x := by
  unfold chAlloc
  rw [Synth.wpS_bind]
  refine Synth.wpS_mono (wpS_triv _) fun r _ => ?_
  rw [Synth.wpS_bind]
  refine Synth.wpS_mono (wpS_triv _) fun o _ => ?_
  trivial

theorem wpS_majAlloc_compat {a b c : Boolean} (x : Bool) :
    Synth.wpS ρ (majAlloc (F := F) a b c) fun o => o.Compat x := by
  unfold majAlloc
  rw [Synth.wpS_bind]
  refine Synth.wpS_mono (wpS_triv _) fun r _ => ?_
  rw [Synth.wpS_bind]
  refine Synth.wpS_mono (wpS_triv _) fun o _ => ?_
  rw [Synth.wpS_bind]
  refine Synth.wpS_mono (wpS_triv _) fun o _ => ?_
  trivial

theorem wpS_sha256Ch_compat {a b c : Boolean} {x y z : Bool} (ha : a.Compat x) (hb : b.Compat y)
    (hc : c.Compat z) : Synth.wpS ρ (sha256Ch (F := F) a b c) fun o => o.Compat (if x then y else z) := by
  unfold sha256Ch
  split
  · rename_i a b c
    simp only [Compat] at ha hb hc; subst ha hb hc
    simp only [chValue, getValue, Synth.wpS_pure, Compat]
    cases a <;> cases b <;> cases c <;> rfl
  · simp only [Compat] at ha; subst ha
    simpa using hc
  · simp only [Compat] at hb; subst hb
    refine Synth.wpS_mono (wpS_and_compat (compat_neg ha) hc) fun o ho => ?_
    cases x <;> cases z <;> exact ho
  · simp only [Compat] at hc; subst hc
    refine Synth.wpS_mono (wpS_and_compat ha hb) fun o ho => ?_
    cases x <;> cases y <;> exact ho
  · simp only [Compat] at hc; subst hc
    rw [Synth.wpS_bind]
    refine Synth.wpS_mono (wpS_and_compat ha (compat_neg hb)) fun o ho => ?_
    have := compat_neg ho
    cases x <;> cases y <;> exact this
  · simp only [Compat] at hb; subst hb
    rw [Synth.wpS_bind]
    refine Synth.wpS_mono (wpS_and_compat (compat_neg ha) (compat_neg hc)) fun o ho => ?_
    have := compat_neg ho
    cases x <;> cases z <;> exact this
  · exact wpS_chAlloc_compat _
  · exact wpS_chAlloc_compat _

theorem wpS_sha256Maj_compat {a b c : Boolean} {x y z : Bool} (ha : a.Compat x) (hb : b.Compat y)
    (hc : c.Compat z) :
    Synth.wpS ρ (sha256Maj (F := F) a b c) fun o => o.Compat ((x && y) || (x && z) || (y && z)) := by
  unfold sha256Maj
  split
  · rename_i a b c
    simp only [Compat] at ha hb hc; subst ha hb hc
    simp only [majValue, getValue, Synth.wpS_pure, Compat]
    cases a <;> cases b <;> cases c <;> rfl
  · simp only [Compat] at ha; subst ha
    refine Synth.wpS_mono (wpS_and_compat hb hc) fun o ho => ?_
    cases y <;> cases z <;> exact ho
  · simp only [Compat] at hb; subst hb
    refine Synth.wpS_mono (wpS_and_compat ha hc) fun o ho => ?_
    cases x <;> cases z <;> exact ho
  · simp only [Compat] at hc; subst hc
    refine Synth.wpS_mono (wpS_and_compat ha hb) fun o ho => ?_
    cases x <;> cases y <;> exact ho
  · simp only [Compat] at hc; subst hc
    rw [Synth.wpS_bind]
    refine Synth.wpS_mono (wpS_and_compat (compat_neg ha) (compat_neg hb)) fun o ho => ?_
    have := compat_neg ho
    cases x <;> cases y <;> exact this
  · simp only [Compat] at hb; subst hb
    rw [Synth.wpS_bind]
    refine Synth.wpS_mono (wpS_and_compat (compat_neg ha) (compat_neg hc)) fun o ho => ?_
    have := compat_neg ho
    cases x <;> cases z <;> exact this
  · simp only [Compat] at ha; subst ha
    rw [Synth.wpS_bind]
    refine Synth.wpS_mono (wpS_and_compat (compat_neg hb) (compat_neg hc)) fun o ho => ?_
    have := compat_neg ho
    cases y <;> cases z <;> exact this
  · exact wpS_majAlloc_compat _

end Boolean

/-! ## Bits of a word -/

/-- The bits of a 32-bit word, least significant first (specification). -/
def wbits (w : BitVec 32) : List Bool := (List.range 32).map w.getLsbD

/-- The 32-bit word with the given bits, least significant first (specification). -/
def ofWbits (l : List Bool) : BitVec 32 := BitVec.ofNat 32 (bitsVal l)

@[simp] theorem wbits_length (w : BitVec 32) : (wbits w).length = 32 := by simp [wbits]

theorem wbits_eq (w : BitVec 32) : wbits w = leBits 32 w.toNat := rfl

theorem wbits_getElem (w : BitVec 32) (i : ℕ) (h : i < (wbits w).length) : (wbits w)[i] = w.getLsbD i := by
  simp [wbits]

theorem wbits_inj {v w : BitVec 32} (h : wbits v = wbits w) : v = w := by
  apply BitVec.eq_of_toNat_eq
  have := congrArg bitsVal h
  rw [wbits_eq, wbits_eq, bitsVal_leBits, bitsVal_leBits, Nat.mod_eq_of_lt v.isLt, Nat.mod_eq_of_lt w.isLt] at this
  exact this

theorem bitsVal_wbits (w : BitVec 32) : bitsVal (wbits w) = w.toNat := by
  rw [wbits_eq, bitsVal_leBits, Nat.mod_eq_of_lt w.isLt]

theorem wbits_ofWbits {l : List Bool} (h : l.length = 32) : wbits (ofWbits l) = l := by
  rw [wbits_eq, ofWbits, BitVec.toNat_ofNat, Nat.mod_eq_of_lt (by rw [← h]; exact bitsVal_lt l)]
  conv_rhs => rw [← leBits_bitsVal l, h]

theorem ofWbits_wbits (w : BitVec 32) : ofWbits (wbits w) = w := wbits_inj (wbits_ofWbits (by simp))

theorem shiftBits_eq (n : ℕ) (v : BitVec 32) : shiftBits n v = leBits n v.toNat := by
  induction n generalizing v with
  | zero => rfl
  | succ n ih =>
    rw [shiftBits, leBits_succ, ih]
    congr 1
    · rw [Nat.testBit_zero, Bool.eq_iff_iff]
      simp only [beq_iff_eq, decide_eq_true_eq]
      rw [BitVec.toNat_eq, BitVec.toNat_and]
      simp [Nat.and_one_is_mod]

theorem wbits_xor (a b : BitVec 32) : wbits (a ^^^ b) = zipWith (· ^^ ·) (wbits a) (wbits b) := by
  apply List.ext_getElem
  · simp
  · intro i h1 h2; simp [wbits]

theorem wbits_rotr (w : BitVec 32) (k : ℕ) (hk : k < 32) :
    wbits (w.rotateRight k) = ((wbits w).drop k ++ wbits w).take 32 := by
  apply List.ext_getElem
  · simp
  · intro i h1 h2
    simp only [wbits_length] at h1
    simp only [wbits_getElem, List.getElem_take]
    rw [BitVec.getLsbD_rotateRight, Nat.mod_eq_of_lt hk]
    by_cases hi : i < 32 - k
    · rw [List.getElem_append_left (by simp; omega)]
      simp [hi, wbits_getElem]
    · rw [List.getElem_append_right (by simp; omega)]
      simp [hi, wbits_getElem, h1]

theorem wbits_shr (w : BitVec 32) (k : ℕ) :
    wbits (w >>> k) = ((wbits w).drop k ++ List.replicate 32 false).take 32 := by
  apply List.ext_getElem
  · simp
  · intro i h1 h2
    simp only [wbits_length] at h1
    simp only [wbits_getElem, List.getElem_take, BitVec.getLsbD_ushiftRight]
    by_cases hi : i < 32 - k
    · rw [List.getElem_append_left (by simp; omega)]
      simp [wbits_getElem]
    · rw [List.getElem_append_right (by simp; omega)]
      rw [List.getElem_replicate]
      apply BitVec.getLsbD_of_ge; omega

/-! ## Words -/

namespace UInt32

/-- Soundness reading of a `UInt32`: its bits denote the word `w`, and if its `value` field is set then bits
that are constants agree with that field. -/
structure Word (ρ : Var → F) (u : UInt32) (w : BitVec 32) : Prop where
  bits : Forall₂ (Boolean.Bit ρ) u.bits (wbits w)
  const : ∀ v, u.value = some v → Forall₂ Boolean.Compat u.bits (wbits v)

/-- Completeness reading: `get_value` is `w` and the assignment agrees. -/
structure HasWord (ρ : Var → F) (u : UInt32) (w : BitVec 32) : Prop where
  value : u.value = some w
  bits : Forall₂ (Boolean.Has ρ) u.bits (wbits w)

theorem HasWord.word {u : UInt32} {w : BitVec 32} (h : u.HasWord ρ w) : u.Word ρ w := by
  refine ⟨h.bits.imp fun _ _ h => h.2, fun v hv => ?_⟩
  rw [h.value] at hv; cases hv
  exact h.bits.imp fun _ _ h => Boolean.compat_of_getValue h.1

theorem Word.length {u : UInt32} {w : BitVec 32} (h : u.Word ρ w) : u.bits.length = 32 := by
  rw [h.bits.length_eq, wbits_length]

theorem word_constant (w : BitVec 32) : (constant w).Word ρ w := by
  have h : shiftBits 32 w = wbits w := shiftBits_eq 32 w
  refine ⟨?_, fun v hv => ?_⟩
  · simp only [constant, h, forall₂_map_left_iff]
    exact forall₂_same.2 fun _ _ => rfl
  · simp only [constant, Option.some.injEq] at hv
    subst hv
    simp only [constant, h, forall₂_map_left_iff]
    exact forall₂_same.2 fun _ _ => rfl

theorem hasWord_constant (w : BitVec 32) : (constant w).HasWord ρ w := by
  have h : shiftBits 32 w = wbits w := shiftBits_eq 32 w
  refine ⟨rfl, ?_⟩
  simp only [constant, h, forall₂_map_left_iff]
  exact forall₂_same.2 fun _ _ => ⟨rfl, rfl⟩

theorem word_rotr {u : UInt32} {w : BitVec 32} (h : u.Word ρ w) (k : ℕ) : (u.rotr k).Word ρ (w.rotateRight k) := by
  have hk : k % 32 < 32 := Nat.mod_lt _ (by norm_num)
  have e : w.rotateRight k = w.rotateRight (k % 32) := by
    rw [BitVec.rotateRight_mod_eq_rotateRight]
  refine ⟨?_, fun v hv => ?_⟩
  · rw [e, wbits_rotr _ _ hk]
    exact forall₂_take _ (rel_append (forall₂_drop _ h.bits) h.bits)
  · simp only [rotr, Option.map_eq_some_iff] at hv
    obtain ⟨v', hv', rfl⟩ := hv
    have := h.const v' hv'
    rw [wbits_rotr _ _ hk]
    exact forall₂_take _ (rel_append (forall₂_drop _ this) this)

theorem hasWord_rotr {u : UInt32} {w : BitVec 32} (h : u.HasWord ρ w) (k : ℕ) :
    (u.rotr k).HasWord ρ (w.rotateRight k) := by
  have hk : k % 32 < 32 := Nat.mod_lt _ (by norm_num)
  have e : w.rotateRight k = w.rotateRight (k % 32) := by
    rw [BitVec.rotateRight_mod_eq_rotateRight]
  refine ⟨?_, ?_⟩
  · simp only [rotr, h.value, Option.map_some, e]
  · rw [e, wbits_rotr _ _ hk]
    exact forall₂_take _ (rel_append (forall₂_drop _ h.bits) h.bits)

theorem word_shr {u : UInt32} {w : BitVec 32} (h : u.Word ρ w) (k : ℕ) : (u.shr k).Word ρ (w >>> (k % 32)) := by
  refine ⟨?_, fun v hv => ?_⟩
  · rw [wbits_shr]
    refine forall₂_take _ (rel_append (forall₂_drop _ h.bits) ?_)
    simp [List.replicate]
  · simp only [shr, Option.map_eq_some_iff] at hv
    obtain ⟨v', hv', rfl⟩ := hv
    rw [wbits_shr]
    refine forall₂_take _ (rel_append (forall₂_drop _ (h.const v' hv')) ?_)
    simp [List.replicate, Boolean.Compat]

theorem hasWord_shr {u : UInt32} {w : BitVec 32} (h : u.HasWord ρ w) (k : ℕ) :
    (u.shr k).HasWord ρ (w >>> (k % 32)) := by
  refine ⟨?_, ?_⟩
  · simp only [shr, h.value, Option.map_some]
  · rw [wbits_shr]
    refine forall₂_take _ (rel_append (forall₂_drop _ h.bits) ?_)
    simp [List.replicate, Boolean.Has, Boolean.getValue]

/-! ### xor -/

theorem wpS_xorLoop {as bs : List Boolean} {xs ys : List Bool} (ha : Forall₂ (Boolean.Bit ρ) as xs)
    (hb : Forall₂ (Boolean.Bit ρ) bs ys) (i : ℕ) :
    Synth.wpS ρ (xorLoop i as bs) fun o => Forall₂ (Boolean.Bit ρ) o (zipWith (· ^^ ·) xs ys) := by
  induction ha generalizing bs ys i with
  | nil => simp [xorLoop]
  | cons h _ ih =>
    cases hb with
    | nil => simp [xorLoop]
    | cons h' hb =>
      simp only [xorLoop, Synth.wpS_bind, Synth.wpS_inNs, zipWith_cons_cons]
      refine Synth.wpS_mono (Boolean.wpS_xor h h') fun o ho => ?_
      refine Synth.wpS_mono (ih hb (i + 1)) fun os hos => ?_
      exact .cons ho hos

theorem wpS_xorLoop_compat {as bs : List Boolean} {xs ys : List Bool} (ha : Forall₂ Boolean.Compat as xs)
    (hb : Forall₂ Boolean.Compat bs ys) (i : ℕ) :
    Synth.wpS ρ (xorLoop (F := F) i as bs) fun o => Forall₂ Boolean.Compat o (zipWith (· ^^ ·) xs ys) := by
  induction ha generalizing bs ys i with
  | nil => simp [xorLoop]
  | cons h _ ih =>
    cases hb with
    | nil => simp [xorLoop]
    | cons h' hb =>
      simp only [xorLoop, Synth.wpS_bind, Synth.wpS_inNs, zipWith_cons_cons]
      refine Synth.wpS_mono (Boolean.wpS_xor_compat h h') fun o ho => ?_
      refine Synth.wpS_mono (ih hb (i + 1)) fun os hos => ?_
      exact .cons ho hos

theorem wpC_xorLoop {as bs : List Boolean} {xs ys : List Bool} (ha : Forall₂ (Boolean.Has ρ) as xs)
    (hb : Forall₂ (Boolean.Has ρ) bs ys) (i : ℕ) :
    Synth.wpC ρ (xorLoop i as bs) fun o => Forall₂ (Boolean.Has ρ) o (zipWith (· ^^ ·) xs ys) := by
  induction ha generalizing bs ys i with
  | nil => simp [xorLoop]
  | cons h _ ih =>
    cases hb with
    | nil => simp [xorLoop]
    | cons h' hb =>
      simp only [xorLoop, Synth.wpC_bind, Synth.wpC_inNs, zipWith_cons_cons]
      refine Synth.wpC_mono (Boolean.wpC_xor h h') fun o ho => ?_
      refine Synth.wpC_mono (ih hb (i + 1)) fun os hos => ?_
      exact .cons ho hos

theorem wpS_xor {a b : UInt32} {v w : BitVec 32} (ha : a.Word ρ v) (hb : b.Word ρ w) :
    Synth.wpS ρ (xor a b) fun o => o.Word ρ (v ^^^ w) := by
  unfold xor
  simp only [Synth.wpS_bind]
  cases hva : a.value with
  | none =>
    refine Synth.wpS_mono (wpS_xorLoop ha.bits hb.bits 0) fun o ho => ?_
    rw [← wbits_xor] at ho
    exact ⟨ho, fun v hv => by cases hv⟩
  | some va =>
    cases hvb : b.value with
    | none =>
      refine Synth.wpS_mono (wpS_xorLoop ha.bits hb.bits 0) fun o ho => ?_
      rw [← wbits_xor] at ho
      exact ⟨ho, fun v hv => by cases hv⟩
    | some vb =>
      refine Synth.wpS_mono (Synth.wpS_and (wpS_xorLoop ha.bits hb.bits 0)
        (wpS_xorLoop_compat (ha.const _ hva) (hb.const _ hvb) 0)) fun o ho => ?_
      rw [← wbits_xor, ← wbits_xor] at ho
      exact ⟨ho.1, fun v hv => by cases hv; exact ho.2⟩

theorem wpC_xor {a b : UInt32} {v w : BitVec 32} (ha : a.HasWord ρ v) (hb : b.HasWord ρ w) :
    Synth.wpC ρ (xor a b) fun o => o.HasWord ρ (v ^^^ w) := by
  unfold xor
  simp only [Synth.wpC_bind, ha.value, hb.value]
  refine Synth.wpC_mono (wpC_xorLoop ha.bits hb.bits 0) fun o ho => ?_
  rw [← wbits_xor] at ho
  exact ⟨rfl, ho⟩

/-! ### Ternary operations -/

/-- Pointwise ternary operation on bit lists. -/
def zip3 (f : Bool → Bool → Bool → Bool) : List Bool → List Bool → List Bool → List Bool
  | x :: xs, y :: ys, z :: zs => f x y z :: zip3 f xs ys zs
  | _, _, _ => []

theorem wpS_triopLoop {R : Boolean → Bool → Prop} {f : Bool → Bool → Bool → Bool}
    {fn : ℕ → Boolean → Boolean → Boolean → Synth F Boolean}
    (hf : ∀ i a b c x y z, R a x → R b y → R c z → Synth.wpS ρ (fn i a b c) fun o => R o (f x y z))
    {as bs cs : List Boolean} {xs ys zs : List Bool} (ha : Forall₂ R as xs) (hb : Forall₂ R bs ys)
    (hc : Forall₂ R cs zs) (i : ℕ) :
    Synth.wpS ρ (triopLoop fn i as bs cs) fun o => Forall₂ R o (zip3 f xs ys zs) := by
  induction ha generalizing bs ys cs zs i with
  | nil => simp [triopLoop, zip3]
  | cons h _ ih =>
    cases hb with
    | nil => simp [triopLoop, zip3]
    | cons h' hb =>
      cases hc with
      | nil => simp [triopLoop, zip3]
      | cons h'' hc =>
        simp only [triopLoop, Synth.wpS_bind, zip3]
        refine Synth.wpS_mono (hf i _ _ _ _ _ _ h h' h'') fun o ho => ?_
        refine Synth.wpS_mono (ih hb hc (i + 1)) fun os hos => ?_
        exact .cons ho hos

theorem wpC_triopLoop {R : Boolean → Bool → Prop} {f : Bool → Bool → Bool → Bool}
    {fn : ℕ → Boolean → Boolean → Boolean → Synth F Boolean}
    (hf : ∀ i a b c x y z, R a x → R b y → R c z → Synth.wpC ρ (fn i a b c) fun o => R o (f x y z))
    {as bs cs : List Boolean} {xs ys zs : List Bool} (ha : Forall₂ R as xs) (hb : Forall₂ R bs ys)
    (hc : Forall₂ R cs zs) (i : ℕ) :
    Synth.wpC ρ (triopLoop fn i as bs cs) fun o => Forall₂ R o (zip3 f xs ys zs) := by
  induction ha generalizing bs ys cs zs i with
  | nil => simp [triopLoop, zip3]
  | cons h _ ih =>
    cases hb with
    | nil => simp [triopLoop, zip3]
    | cons h' hb =>
      cases hc with
      | nil => simp [triopLoop, zip3]
      | cons h'' hc =>
        simp only [triopLoop, Synth.wpC_bind, zip3]
        refine Synth.wpC_mono (hf i _ _ _ _ _ _ h h' h'') fun o ho => ?_
        refine Synth.wpC_mono (ih hb hc (i + 1)) fun os hos => ?_
        exact .cons ho hos

theorem zip3_map (f : Bool → Bool → Bool → Bool) (g h k : ℕ → Bool) (l : List ℕ) :
    zip3 f (l.map g) (l.map h) (l.map k) = l.map fun i => f (g i) (h i) (k i) := by
  induction l with
  | nil => rfl
  | cons a l ih => simp only [List.map_cons, zip3, ih]

theorem wpS_triop {f : Bool → Bool → Bool → Bool} {tri : BitVec 32 → BitVec 32 → BitVec 32 → BitVec 32}
    {fn : ℕ → Boolean → Boolean → Boolean → Synth F Boolean}
    (htri : ∀ u v w, wbits (tri u v w) = zip3 f (wbits u) (wbits v) (wbits w))
    (hf : ∀ i a b c x y z, Boolean.Bit ρ a x → Boolean.Bit ρ b y → Boolean.Bit ρ c z →
      Synth.wpS ρ (fn i a b c) fun o => Boolean.Bit ρ o (f x y z))
    (hf' : ∀ i a b c x y z, Boolean.Compat a x → Boolean.Compat b y → Boolean.Compat c z →
      Synth.wpS ρ (fn i a b c) fun o => Boolean.Compat o (f x y z))
    {a b c : UInt32} {u v w : BitVec 32} (ha : a.Word ρ u) (hb : b.Word ρ v) (hc : c.Word ρ w) :
    Synth.wpS ρ (triop a b c tri fn) fun o => o.Word ρ (tri u v w) := by
  unfold triop
  have key := wpS_triopLoop hf ha.bits hb.bits hc.bits 0
  simp only [Synth.wpS_bind]
  cases hva : a.value with
  | none =>
    refine Synth.wpS_mono key fun o ho => ?_
    rw [← htri] at ho
    exact ⟨ho, fun v hv => by cases hv⟩
  | some va =>
    cases hvb : b.value with
    | none =>
      refine Synth.wpS_mono key fun o ho => ?_
      rw [← htri] at ho
      exact ⟨ho, fun v hv => by cases hv⟩
    | some vb =>
      cases hvc : c.value with
      | none =>
        refine Synth.wpS_mono key fun o ho => ?_
        rw [← htri] at ho
        exact ⟨ho, fun v hv => by cases hv⟩
      | some vc =>
        refine Synth.wpS_mono (Synth.wpS_and key (wpS_triopLoop hf' (ha.const _ hva) (hb.const _ hvb)
          (hc.const _ hvc) 0)) fun o ho => ?_
        rw [← htri, ← htri] at ho
        exact ⟨ho.1, fun v hv => by cases hv; exact ho.2⟩

theorem wpC_triop {f : Bool → Bool → Bool → Bool} {tri : BitVec 32 → BitVec 32 → BitVec 32 → BitVec 32}
    {fn : ℕ → Boolean → Boolean → Boolean → Synth F Boolean}
    (htri : ∀ u v w, wbits (tri u v w) = zip3 f (wbits u) (wbits v) (wbits w))
    (hf : ∀ i a b c x y z, Boolean.Has ρ a x → Boolean.Has ρ b y → Boolean.Has ρ c z →
      Synth.wpC ρ (fn i a b c) fun o => Boolean.Has ρ o (f x y z))
    {a b c : UInt32} {u v w : BitVec 32} (ha : a.HasWord ρ u) (hb : b.HasWord ρ v) (hc : c.HasWord ρ w) :
    Synth.wpC ρ (triop a b c tri fn) fun o => o.HasWord ρ (tri u v w) := by
  unfold triop
  simp only [Synth.wpC_bind, ha.value, hb.value, hc.value]
  refine Synth.wpC_mono (wpC_triopLoop hf ha.bits hb.bits hc.bits 0) fun o ho => ?_
  rw [← htri] at ho
  exact ⟨rfl, ho⟩

theorem wbits_ch (u v w : BitVec 32) : wbits ((u &&& v) ^^^ (~~~u &&& w)) =
    zip3 (fun x y z => if x then y else z) (wbits u) (wbits v) (wbits w) := by
  unfold wbits
  rw [zip3_map]
  apply List.map_congr_left
  intro i hi
  simp only [List.mem_range] at hi
  simp only [BitVec.getLsbD_xor, BitVec.getLsbD_and, BitVec.getLsbD_not, hi]
  cases u.getLsbD i <;> cases v.getLsbD i <;> cases w.getLsbD i <;> rfl

theorem wbits_maj (u v w : BitVec 32) : wbits (((u &&& v) ^^^ (u &&& w)) ^^^ (v &&& w)) =
    zip3 (fun x y z => (x && y) || (x && z) || (y && z)) (wbits u) (wbits v) (wbits w) := by
  unfold wbits
  rw [zip3_map]
  apply List.map_congr_left
  intro i hi
  simp only [BitVec.getLsbD_xor, BitVec.getLsbD_and]
  cases u.getLsbD i <;> cases v.getLsbD i <;> cases w.getLsbD i <;> rfl

theorem wpS_sha256Ch (h1 : ρ .one = 1) {a b c : UInt32} {u v w : BitVec 32} (ha : a.Word ρ u) (hb : b.Word ρ v)
    (hc : c.Word ρ w) : Synth.wpS ρ (sha256Ch a b c) fun o => o.Word ρ ((u &&& v) ^^^ (~~~u &&& w)) := by
  unfold sha256Ch
  refine wpS_triop wbits_ch ?_ ?_ ha hb hc
  · intro i a b c x y z ha hb hc
    rw [Synth.wpS_inNs]; exact Boolean.wpS_sha256Ch h1 ha hb hc
  · intro i a b c x y z ha hb hc
    rw [Synth.wpS_inNs]; exact Boolean.wpS_sha256Ch_compat ha hb hc

theorem wpC_sha256Ch (h1 : ρ .one = 1) {a b c : UInt32} {u v w : BitVec 32} (ha : a.HasWord ρ u) (hb : b.HasWord ρ v)
    (hc : c.HasWord ρ w) : Synth.wpC ρ (sha256Ch a b c) fun o => o.HasWord ρ ((u &&& v) ^^^ (~~~u &&& w)) := by
  unfold sha256Ch
  refine wpC_triop wbits_ch ?_ ha hb hc
  intro i a b c x y z ha hb hc
  rw [Synth.wpC_inNs]; exact Boolean.wpC_sha256Ch h1 ha hb hc

theorem wpS_sha256Maj (h1 : ρ .one = 1) {a b c : UInt32} {u v w : BitVec 32} (ha : a.Word ρ u) (hb : b.Word ρ v)
    (hc : c.Word ρ w) :
    Synth.wpS ρ (sha256Maj a b c) fun o => o.Word ρ (((u &&& v) ^^^ (u &&& w)) ^^^ (v &&& w)) := by
  unfold sha256Maj
  refine wpS_triop wbits_maj ?_ ?_ ha hb hc
  · intro i a b c x y z ha hb hc
    rw [Synth.wpS_inNs]; exact Boolean.wpS_sha256Maj h1 ha hb hc
  · intro i a b c x y z ha hb hc
    rw [Synth.wpS_inNs]; exact Boolean.wpS_sha256Maj_compat ha hb hc

theorem wpC_sha256Maj (h1 : ρ .one = 1) {a b c : UInt32} {u v w : BitVec 32} (ha : a.HasWord ρ u)
    (hb : b.HasWord ρ v) (hc : c.HasWord ρ w) :
    Synth.wpC ρ (sha256Maj a b c) fun o => o.HasWord ρ (((u &&& v) ^^^ (u &&& w)) ^^^ (v &&& w)) := by
  unfold sha256Maj
  refine wpC_triop wbits_maj ?_ ha hb hc
  intro i a b c x y z ha hb hc
  rw [Synth.wpC_inNs]; exact Boolean.wpC_sha256Maj h1 ha hb hc

/-! ### Allocation and conversion -/

theorem wpS_allocLoop (h1 : ρ .one = 1) (i : ℕ) (vs : List (Option Bool)) :
    Synth.wpS ρ (allocLoop (F := F) i vs) fun o =>
      (∃ xs, Forall₂ (Boolean.Bit ρ) o xs ∧ xs.length = vs.length) ∧
        ∀ ys : List Bool, ys.length = vs.length → Forall₂ Boolean.Compat o ys := by
  induction vs generalizing i with
  | nil =>
    refine ⟨⟨[], .nil, rfl⟩, fun ys h => ?_⟩
    have h0 : ys = [] := List.length_eq_zero_iff.1 (by simpa using h)
    rw [h0]; exact .nil
  | cons v vs ih =>
    simp only [allocLoop, Synth.wpS_bind, Synth.wpS_inNs]
    refine Synth.wpS_mono (AllocatedBit.wpS_alloc h1 v) fun b hb => ?_
    refine Synth.wpS_mono (ih (i + 1)) fun bs hbs => ?_
    obtain ⟨x, hx⟩ := hb
    obtain ⟨⟨xs, hxs, hl⟩, hc⟩ := hbs
    refine ⟨⟨x :: xs, .cons hx hxs, by simp [hl]⟩, fun ys h => ?_⟩
    cases ys with
    | nil => simp at h
    | cons y ys => exact .cons trivial (hc ys (by simpa using h))

theorem wpC_allocLoop (h1 : ρ .one = 1) (i : ℕ) (xs : List Bool) :
    Synth.wpC ρ (allocLoop (F := F) i (xs.map some)) fun o => Forall₂ (Boolean.Has ρ) o xs := by
  induction xs generalizing i with
  | nil => exact .nil
  | cons v vs ih =>
    simp only [List.map_cons, allocLoop, Synth.wpC_bind, Synth.wpC_inNs]
    refine Synth.wpC_mono (AllocatedBit.wpC_alloc h1 v) fun b hb => ?_
    refine Synth.wpC_mono (ih (i + 1)) fun bs hbs => ?_
    exact .cons hb hbs

theorem wpS_alloc (h1 : ρ .one = 1) (v : Option (BitVec 32)) :
    Synth.wpS ρ (alloc (F := F) v) fun o => ∃ w, o.Word ρ w := by
  have key : ∀ vs : List (Option Bool), vs.length = 32 →
      Synth.wpS ρ (do let bits ← allocLoop 0 vs; pure ⟨bits, v⟩ : Synth F UInt32) fun o => ∃ w, o.Word ρ w := by
    intro vs hvs
    simp only [Synth.wpS_bind]
    refine Synth.wpS_mono (wpS_allocLoop h1 0 _) fun o ho => ?_
    obtain ⟨⟨xs, hxs, hl⟩, hc⟩ := ho
    rw [hvs] at hl hc
    refine ⟨ofWbits xs, ?_, fun v' _ => hc _ (by simp)⟩
    rw [wbits_ofWbits hl]; exact hxs
  unfold alloc
  cases v
  · exact key _ (by simp)
  · exact key _ (by simp [shiftBits_eq])

theorem wpC_alloc (h1 : ρ .one = 1) (w : BitVec 32) :
    Synth.wpC ρ (alloc (F := F) (some w)) fun o => o.HasWord ρ w := by
  unfold alloc
  simp only [Synth.wpC_bind]
  refine Synth.wpC_mono (wpC_allocLoop h1 0 _) fun o ho => ?_
  rw [shiftBits_eq] at ho
  exact ⟨rfl, ho⟩

theorem valueLoop_none (bs : List Boolean) : valueLoop none bs = none := by
  induction bs with
  | nil => rfl
  | cons b bs ih =>
    simp only [valueLoop, Option.map_none]
    rcases hb : b.getValue with _ | ⟨_ | _⟩ <;> exact ih

theorem valueStep (acc : BitVec 32) (x : Bool) :
    (if x then (acc <<< 1) ||| 1#32 else acc <<< 1) = BitVec.ofNat 32 (2 * acc.toNat + x.toNat) := by
  cases x
  · apply BitVec.eq_of_toNat_eq
    simp [Nat.shiftLeft_eq, Nat.mul_comm]
  · apply BitVec.eq_of_toNat_eq
    simp only [if_true, BitVec.toNat_or, BitVec.toNat_ofNat, Bool.toNat_true, BitVec.toNat_shiftLeft, Nat.shiftLeft_eq]
    have h2 : 2 * acc.toNat % 2 ^ 32 = 2 * (acc.toNat % 2 ^ 31) := by omega
    have h3 : (2 * acc.toNat + 1) % 2 ^ 32 = 2 * (acc.toNat % 2 ^ 31) + 1 := by omega
    rw [Nat.mul_comm, pow_one, h2, h3]
    show _ ||| 1 = _
    have := Nat.two_pow_add_eq_or_of_lt (i := 1) (b := 1) (by norm_num) (acc.toNat % 2 ^ 31)
    simp only [pow_one] at this
    omega

theorem valueLoop_some {bs : List Boolean} {acc v : BitVec 32} (h : valueLoop (some acc) bs = some v) :
    ∃ xs : List Bool, Forall₂ (fun b x => b.getValue = some x) bs xs ∧
      v = BitVec.ofNat 32 (beAcc acc.toNat xs) := by
  induction bs generalizing acc with
  | nil =>
    simp only [valueLoop, Option.some.injEq] at h
    subst h
    exact ⟨[], .nil, by simp [beAcc]⟩
  | cons b bs ih =>
    simp only [valueLoop, Option.map_some] at h
    rcases hb : b.getValue with _ | x
    · rw [hb] at h; simp [valueLoop_none] at h
    · have hstep : valueLoop (some (if x then (acc <<< 1) ||| 1#32 else acc <<< 1)) bs = some v := by
        rw [hb] at h
        cases x <;> simpa using h
      rw [valueStep] at hstep
      obtain ⟨xs, hxs, rfl⟩ := ih hstep
      refine ⟨x :: xs, .cons hb hxs, ?_⟩
      apply BitVec.eq_of_toNat_eq
      simp only [BitVec.toNat_ofNat, beAcc, beAcc_eq]
      rw [Nat.add_mod, Nat.mod_mul_mod, ← Nat.add_mod]

theorem valueLoop_of {bs : List Boolean} {xs : List Bool} (h : Forall₂ (fun b x => b.getValue = some x) bs xs)
    (acc : BitVec 32) : valueLoop (some acc) bs = some (BitVec.ofNat 32 (beAcc acc.toNat xs)) := by
  induction h generalizing acc with
  | nil => simp [valueLoop, beAcc]
  | @cons b x bs xs hb _ ih =>
    have hstep : valueLoop (some acc) (b :: bs) =
        valueLoop (some (if x then (acc <<< 1) ||| 1#32 else acc <<< 1)) bs := by
      simp only [valueLoop, hb, Option.map_some]
      cases x <;> rfl
    rw [hstep, valueStep, ih]
    congr 1
    apply BitVec.eq_of_toNat_eq
    simp only [BitVec.toNat_ofNat, beAcc, beAcc_eq]
    rw [Nat.add_mod, Nat.mod_mul_mod, ← Nat.add_mod]

theorem word_fromBits {bits : List Boolean} {xs : List Bool} {u : UInt32} (h : Forall₂ (Boolean.Bit ρ) bits xs)
    (hu : fromBits bits = some u) : u.Word ρ (ofWbits xs) := by
  unfold fromBits at hu
  split at hu
  · rename_i hl
    cases hu
    have hl' : xs.length = 32 := by rw [← h.length_eq, hl]
    refine ⟨by rw [wbits_ofWbits hl']; exact h, fun v hv => ?_⟩
    obtain ⟨ys, hys, rfl⟩ := valueLoop_some hv
    have : BitVec.ofNat 32 (beAcc (0#32).toNat ys) = ofWbits ys.reverse := by
      rw [beAcc_eq, ofWbits]; simp
    rw [this, wbits_ofWbits]
    · rw [← forall₂_reverse_iff, List.reverse_reverse]
      exact hys.imp fun _ _ h => Boolean.compat_of_getValue h
    · rw [List.length_reverse, ← hys.length_eq, List.length_reverse, hl]
  · cases hu

theorem hasWord_fromBits {bits : List Boolean} {xs : List Bool} (h : Forall₂ (Boolean.Has ρ) bits xs)
    (hl : bits.length = 32) : ∃ u, fromBits bits = some u ∧ u.HasWord ρ (ofWbits xs) := by
  unfold fromBits
  rw [if_pos hl]
  have hl' : xs.length = 32 := by rw [← h.length_eq, hl]
  refine ⟨_, rfl, ?_, ?_⟩
  · have h' : Forall₂ (fun (b : Boolean) x => b.getValue = some x) bits.reverse xs.reverse :=
      forall₂_reverse_iff.2 (h.imp fun _ _ h => h.1)
    rw [valueLoop_of h' 0#32, beAcc_eq, ofWbits]; simp
  · rw [wbits_ofWbits hl']; exact h

theorem fromBitsBe_eq (bits : List Boolean) : fromBitsBe bits = fromBits bits.reverse := by
  unfold fromBitsBe fromBits
  simp

/-! ### Addition -/

theorem eval_addBits (h1 : ρ .one = 1) {bs : List Boolean} {xs : List Bool} (h : Forall₂ (Boolean.Bit ρ) bs xs)
    (lc : LC F) (ac : Bool) (coeff : F) :
    (addBits lc ac coeff bs).1.eval ρ = lc.eval ρ + coeff * (bitsVal xs : F) := by
  induction h generalizing lc ac coeff with
  | nil => simp [addBits, bitsVal]
  | @cons b x bs xs hb _ ih =>
    rw [addBits, ih, LC.eval_addLC, Boolean.eval_lc h1 hb, bitsVal]
    cases x <;> push_cast <;> simp <;> ring

theorem addBits_const (lc : LC F) (ac : Bool) (coeff : F) (bs : List Boolean) :
    (addBits lc ac coeff bs).2 = (ac && bs.all Boolean.isConstant) := by
  induction bs generalizing lc ac coeff with
  | nil => simp [addBits]
  | cons b bs ih => rw [addBits, ih, List.all_cons, Bool.and_assoc]

/-- The sum of the words as a natural number. -/
def wsum (ws : List (BitVec 32)) : ℕ := (ws.map BitVec.toNat).sum

theorem eval_addOperands (h1 : ρ .one = 1) {us : List UInt32} {ws : List (BitVec 32)} (h : Forall₂ (Word ρ) us ws)
    (val : Option ℕ) (lc : LC F) (ac : Bool) :
    (addOperands val lc ac us).2.1.eval ρ = lc.eval ρ + (wsum ws : F) := by
  induction h generalizing val lc ac with
  | nil => simp [addOperands, wsum]
  | @cons u w us ws hu _ ih =>
    simp only [addOperands]
    rw [ih, eval_addBits h1 hu.bits, bitsVal_wbits]
    simp only [wsum, List.map_cons, List.sum_cons]
    push_cast; ring

theorem addOperands_none (us : List UInt32) (lc : LC F) (ac : Bool) : (addOperands none lc ac us).1 = none := by
  induction us generalizing lc ac with
  | nil => rfl
  | cons u us ih =>
    simp only [addOperands, Option.map_none]
    cases u.value <;> exact ih _ _

theorem bits_eq_of_const {bs : List Boolean} {xs ys : List Bool} (hb : Forall₂ (Boolean.Bit ρ) bs xs)
    (hc : Forall₂ Boolean.Compat bs ys) (hall : bs.all Boolean.isConstant = true) : xs = ys := by
  induction hb generalizing ys with
  | nil => cases hc; rfl
  | @cons b x bs xs hb _ ih =>
    cases hc with
    | @cons _ y _ ys hc hcs =>
      rw [List.all_cons, Bool.and_eq_true] at hall
      rw [ih hcs hall.2]
      cases b with
      | is _ => simp [Boolean.isConstant] at hall
      | not _ => simp [Boolean.isConstant] at hall
      | constant c => exact congrArg (· :: _) (Eq.trans hb.symm hc)

theorem addOperands_const {us : List UInt32} {ws : List (BitVec 32)} (h : Forall₂ (Word ρ) us ws)
    (v0 : ℕ) (lc : LC F) (ac : Bool) {v : ℕ} (hv : (addOperands (some v0) lc ac us).1 = some v)
    (hall : (addOperands (some v0) lc ac us).2.2 = true) : ac = true ∧ v = v0 + wsum ws := by
  induction h generalizing v0 lc ac with
  | nil =>
    simp only [addOperands, Option.some.injEq] at hv hall
    exact ⟨hall, by simp [wsum, hv]⟩
  | @cons u w us ws hu _ ih =>
    simp only [addOperands] at hv hall
    cases hval : u.value with
    | none => rw [hval, addOperands_none] at hv; cases hv
    | some x =>
      rw [hval] at hv hall
      obtain ⟨h2, h3⟩ := ih _ _ _ hv hall
      rw [addBits_const, Bool.and_eq_true] at h2
      have : w = x := wbits_inj (bits_eq_of_const hu.bits (hu.const x hval) h2.2)
      subst this
      refine ⟨h2.1, ?_⟩
      rw [h3]; simp only [wsum, List.map_cons, List.sum_cons]; ring

theorem addOperands_value {us : List UInt32} {ws : List (BitVec 32)} (h : Forall₂ (HasWord ρ) us ws)
    (v0 : ℕ) (lc : LC F) (ac : Bool) : (addOperands (some v0) lc ac us).1 = some (v0 + wsum ws) := by
  induction h generalizing v0 lc ac with
  | nil => simp [addOperands, wsum]
  | @cons u w us ws hu _ ih =>
    simp only [addOperands, hu.value, Option.map_some]
    rw [ih]
    simp only [wsum, List.map_cons, List.sum_cons, Option.some.injEq]; ring

theorem size_shiftRight_one {n : ℕ} (h : n ≠ 0) : Nat.size n = Nat.size (n >>> 1) + 1 := by
  rw [Nat.shiftRight_one]
  have := Nat.size_bit (b := n.bodd) (n := n / 2)
  rw [← Nat.div2_val, Nat.bit_bodd_div2] at this
  rw [← Nat.div2_val]
  exact this h

theorem wpS_resultLoop (h1 : ρ .one = 1) (value : Option ℕ) (mv i : ℕ) (coeff : F) (bits : List Boolean) (lc : LC F) :
    Synth.wpS ρ (resultLoop value mv i coeff bits lc) fun o =>
      ∃ bs xs, o.1 = bits ++ bs ∧ Forall₂ (Boolean.Bit ρ) bs xs ∧ xs.length = Nat.size mv ∧
        o.2.1.eval ρ = lc.eval ρ + coeff * (bitsVal xs : F) ∧ o.2.2 = i + Nat.size mv ∧
        ∀ b ∈ bs, b.isConstant = false := by
  induction mv using Nat.strong_induction_on generalizing i coeff bits lc with
  | _ mv ih =>
    rw [resultLoop]
    split
    · rename_i h0; subst h0
      exact ⟨[], [], by simp, .nil, by simp, by simp [bitsVal], by simp, by simp⟩
    · rename_i h0
      rw [Synth.wpS_bind, Synth.wpS_inNs]
      refine Synth.wpS_mono (AllocatedBit.wpS_alloc h1 _) fun b hb => ?_
      obtain ⟨x, hx⟩ := hb
      refine Synth.wpS_mono (ih (mv >>> 1) (by rw [Nat.shiftRight_one]; omega) _ _ _ _) ?_
      rintro o ⟨bs, xs, e1, e2, e3, e4, e5, e6⟩
      have hs := size_shiftRight_one h0
      refine ⟨.is b :: bs, x :: xs, by simp [e1], .cons hx e2, by rw [hs, ← e3]; rfl, ?_, by rw [e5, hs]; ring, ?_⟩
      · rw [e4, LC.eval_addTerm, show ρ b.var = if x then 1 else 0 from hx, bitsVal]
        cases x <;> push_cast <;> simp <;> ring
      · intro c hc
        rcases List.mem_cons.1 hc with rfl | hc
        · rfl
        · exact e6 c hc

theorem wpC_resultLoop (h1 : ρ .one = 1) (v mv i : ℕ) (coeff : F) (bits : List Boolean) (lc : LC F) :
    Synth.wpC ρ (resultLoop (some v) mv i coeff bits lc) fun o =>
      ∃ bs, o.1 = bits ++ bs ∧ Forall₂ (Boolean.Has ρ) bs (leBits (Nat.size mv) (v >>> i)) ∧
        o.2.1.eval ρ = lc.eval ρ + coeff * (((v >>> i) % 2 ^ Nat.size mv : ℕ) : F) ∧ o.2.2 = i + Nat.size mv := by
  induction mv using Nat.strong_induction_on generalizing i coeff bits lc with
  | _ mv ih =>
    rw [resultLoop]
    split
    · rename_i h0; subst h0
      exact ⟨[], by simp, by simp [leBits], by simp [Nat.mod_one], by simp⟩
    · rename_i h0
      rw [Synth.wpC_bind, Synth.wpC_inNs, Option.map_some]
      refine Synth.wpC_mono (AllocatedBit.wpC_alloc h1 _) fun b hb => ?_
      refine Synth.wpC_mono (ih (mv >>> 1) (by rw [Nat.shiftRight_one]; omega) _ _ _ _) ?_
      rintro o ⟨bs, e1, e2, e4, e5⟩
      have hs := size_shiftRight_one h0
      have hx : (v >>> i &&& 1 == 1) = (v >>> i).testBit 0 := by
        rw [Nat.testBit_zero, Nat.and_one_is_mod, Bool.eq_iff_iff, beq_iff_eq, decide_eq_true_eq]
      have hsh : v >>> (i + 1) = v >>> i / 2 := by rw [Nat.shiftRight_succ]
      rw [hx] at hb
      refine ⟨.is b :: bs, by simp [e1], ?_, ?_, by rw [e5, hs]; ring⟩
      · rw [hs, leBits_succ, ← hsh]
        exact .cons hb e2
      · rw [e4, LC.eval_addTerm, show ρ b.var = if (v >>> i).testBit 0 then 1 else 0 from hb.2, hsh, hs, ← bitsVal_leBits,
          ← bitsVal_leBits, leBits_succ, bitsVal]
        cases (v >>> i).testBit 0 <;> push_cast <;> simp <;> ring

theorem wsum_le (ws : List (BitVec 32)) : wsum ws ≤ ws.length * (2 ^ 32 - 1) := by
  induction ws with
  | nil => simp [wsum]
  | cons w ws ih =>
    have := w.isLt
    simp only [wsum, List.map_cons, List.sum_cons, List.length_cons] at ih ⊢
    rw [Nat.add_mul]
    omega

theorem ofNat_wsum (ws : List (BitVec 32)) : BitVec.ofNat 32 (wsum ws) = ws.sum := by
  induction ws with
  | nil => rfl
  | cons w ws ih =>
    rw [List.sum_cons, ← ih]
    simp only [wsum, List.map_cons, List.sum_cons]
    rw [BitVec.ofNat_add, BitVec.ofNat_toNat, BitVec.setWidth_eq]

theorem size_bounds {n : ℕ} (h2 : 2 ≤ n) (h10 : n ≤ 10) :
    32 ≤ Nat.size (n * (2 ^ 32 - 1)) ∧ Nat.size (n * (2 ^ 32 - 1)) ≤ 36 := by
  constructor
  · have : 31 < Nat.size (n * (2 ^ 32 - 1)) := by
      rw [Nat.lt_size]
      omega
    omega
  · rw [Nat.size_le]
    omega

theorem wpS_addmany (h1 : ρ .one = 1) {us : List UInt32} {ws : List (BitVec 32)} (h : Forall₂ (Word ρ) us ws)
    {s : MEq F} {P : Prop} (hs : MEq.SInv ρ s P) :
    MSynth.wpS ρ (addmany us) s fun o s' => ∃ w, o.Word ρ w ∧ MEq.SInv ρ s' (P ∧ w = ws.sum) := by
  unfold addmany
  split
  · split
    · split
      · rename_i h64 h2 h10
        dsimp only
        split
        · rename_i result hc hr
          rw [MSynth.wpS_pure]
          refine ⟨_, word_constant _, hs.mono fun hP => ⟨hP, ?_⟩⟩
          rw [Option.map_eq_some_iff] at hr
          obtain ⟨v, hv, rfl⟩ := hr
          have := (addOperands_const h 0 _ _ hv hc).2
          rw [this, zero_add, ofNat_wsum]
        · rw [MSynth.wpS_bind, MSynth.wpS_lift]
          refine Synth.wpS_mono (wpS_resultLoop h1 _ _ _ _ _ _) ?_
          rintro ⟨bs, o2, o3⟩ ⟨o1, xs, e1, e2, e3, e4, e5, e6⟩
          simp only [List.nil_append, zero_add, LC.eval_zero, one_mul] at e1 e4 e5
          subst e1 e5
          obtain ⟨hlo, hhi⟩ := size_bounds h2 h10
          rw [MSynth.wpS_bind]
          refine MSynth.wpS_mono (MEq.wpS_enforceEqual h1 hs (a := wsum ws) (b := bitsVal xs) ⟨?_, ?_⟩ ⟨e4, ?_⟩) ?_
          · rw [eval_addOperands h1 h]; simp
          · rw [← Nat.size_le]
            have := wsum_le ws
            rw [← h.length_eq] at this
            exact Nat.size_le_size this
          · rw [← e3]; exact bitsVal_lt xs
          · intro _ s' hs'
            rw [MSynth.wpS_pure]
            have hl : (xs.take 32).length = 32 := by rw [List.length_take, e3]; omega
            refine ⟨ofWbits (xs.take 32), ⟨?_, fun v _ => ?_⟩, hs'.mono fun ⟨hP, he⟩ => ⟨hP, ?_⟩⟩
            · rw [wbits_ofWbits hl]; exact forall₂_take _ e2
            · refine forall₂_iff_get.2 ⟨?_, ?_⟩
              · rw [wbits_length, (forall₂_take 32 e2).length_eq, hl]
              · intro i h1 h2
                have hm : (bs.take 32).get ⟨i, h1⟩ ∈ bs := List.mem_of_mem_take (List.get_mem _ _)
                have := e6 _ hm
                cases hb : (bs.take 32).get ⟨i, h1⟩ with
                | is _ => trivial
                | not _ => trivial
                | constant c => rw [hb] at this; simp [Boolean.isConstant] at this
            · rw [← ofNat_wsum, he]
              have := bitsVal_append (xs.take 32) (xs.drop 32)
              rw [List.take_append_drop, hl] at this
              rw [this, ofWbits]
              apply BitVec.eq_of_toNat_eq
              simp only [BitVec.toNat_ofNat]
              rw [Nat.add_mul_mod_self_left]
      · rw [MSynth.wpS_lift]; trivial
    · rw [MSynth.wpS_lift]; trivial
  · rw [MSynth.wpS_lift]; trivial

theorem wpC_addmany (h1 : ρ .one = 1) (h64 : 64 ≤ NUM_BITS F) {us : List UInt32} {ws : List (BitVec 32)}
    (h : Forall₂ (HasWord ρ) us ws) (h2 : 2 ≤ us.length) (h10 : us.length ≤ 10)
    {s : MEq F} (hs : MEq.CInv ρ s) :
    MSynth.wpC ρ (addmany us) s fun o s' => o.HasWord ρ ws.sum ∧ MEq.CInv ρ s' := by
  unfold addmany
  rw [if_pos h64, if_pos h2, if_pos h10]
  dsimp only
  rw [addOperands_value h, zero_add, Option.map_some, ofNat_wsum]
  split
  · rename_i result hc hr
    cases hr
    exact ⟨hasWord_constant _, hs⟩
  · rw [MSynth.wpC_bind, MSynth.wpC_lift]
    refine Synth.wpC_mono (wpC_resultLoop h1 _ _ _ _ _ _) ?_
    rintro ⟨bs, o2, o3⟩ ⟨o1, e1, e2, e4, e5⟩
    dsimp only at e1 e4 e5 ⊢
    simp only [List.nil_append, zero_add, LC.eval_zero, one_mul, Nat.shiftRight_zero] at e1 e2 e4 e5
    subst e1 e5
    obtain ⟨hlo, hhi⟩ := size_bounds h2 h10
    have hle := wsum_le ws
    rw [← h.length_eq] at hle
    have hlt : wsum ws < 2 ^ Nat.size (us.length * (2 ^ 32 - 1)) := Nat.size_le.1 (Nat.size_le_size hle)
    have hcap := capacity_lt (F := F)
    rw [MSynth.wpC_bind]
    refine MSynth.wpC_mono (MEq.wpC_enforceEqual h1 hs ?_ (by omega)) ?_
    · rw [eval_addOperands h1 (h.imp fun _ _ h => h.word), e4, Nat.mod_eq_of_lt hlt]; simp
    · intro _ s' hs'
      refine ⟨⟨rfl, ?_⟩, hs'⟩
      have : wbits ws.sum = (leBits (Nat.size (us.length * (2 ^ 32 - 1))) (wsum ws)).take 32 := by
        rw [← ofNat_wsum, wbits_eq, BitVec.toNat_ofNat]
        apply List.ext_getElem
        · simp; omega
        · intro i hi1 hi2
          simp only [leBits_length] at hi1
          simp only [leBits, List.getElem_map, List.getElem_range, List.getElem_take, Nat.testBit_mod_two_pow, hi1,
            decide_true, Bool.true_and]
      show Forall₂ (Boolean.Has ρ) (bs.take 32) _
      rw [this]
      exact forall₂_take _ e2

end UInt32

end Bellman
