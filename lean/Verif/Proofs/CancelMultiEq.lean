import Verif.Proofs.CancelBoolean
import Verif.Proofs.ConHash

/-!
# `MultiEq`, `UInt32` and cancelling coefficients
-/

namespace Bellman

open PrimeField

set_option linter.unusedSectionVars false

variable {F : Type} [PrimeField F] {n k : ℕ} {α β : Type} {g g' : ℕ → Kind}

/-- Variables keep their kind or become safe. -/
def Safer (g g' : ℕ → Kind) : Prop := ∀ j, g' j = g j ∨ g' j = .safe

theorem safer_hit (a : LC F) (g : ℕ → Kind) : Safer g (hit a g) := fun j => hit_ext (k := j + 1) a g j (by omega)

theorem Safer.ext (h : Safer g g') : Ext k g g' := fun j _ => h j

theorem SafeB.safer {b : Boolean} (h : SafeB g b) (e : Safer g g') : SafeB g' b := by
  rcases b with b | b | c
  · obtain ⟨j, h1, h2⟩ := h
    exact ⟨j, h1, (e j).elim (fun h3 => h3.trans h2) id⟩
  · obtain ⟨j, h1, h2⟩ := h
    exact ⟨j, h1, (e j).elim (fun h3 => h3.trans h2) id⟩
  · trivial

/-! ### Combinations with coefficients of the right sign -/

/-- The sign of a kind. -/
def Kind.sgn : Kind → F
  | .neg => -1
  | _ => 1

theorem Kind.sgn_ne (κ : Kind) : (κ.sgn : F) ≠ 0 := by cases κ <;> simp [sgn]

/-- The coefficients of variables that are not safe have the sign of the variable and are small; they are non-zero if
the variable is written. -/
def Bal (g : ℕ → Kind) (N : ℕ) (l : LC F) : Prop :=
  ∀ j, g j ≠ .safe → ∃ c ≤ N, l.coeffOf (.aux j) = (g j).sgn * (c : F) ∧ (l.Writes (.aux j) → 0 < c)

theorem Bal.zero : Bal g 0 (LC.zero : LC F) := fun j _ => ⟨0, le_rfl, by simp [coeffOf_zero], fun h => (not_writes_zero h).elim⟩

theorem Bal.ext {N : ℕ} {l : LC F} (h : Bal g N l) (hk : Known n k l) (e : Ext k g g') : Bal g' N l := by
  intro j hj
  by_cases hjk : j < k
  · rcases e j hjk with h1 | h1
    · rw [h1] at hj ⊢
      exact h j hj
    · exact absurd h1 hj
  · refine ⟨0, Nat.zero_le _, ?_, fun hw => absurd (Writes.known hk hw) hjk⟩
    rw [coeffOf_unknown hk (by omega)]
    simp

theorem Bal.safer {N : ℕ} {l : LC F} (h : Bal g N l) (e : Safer g g') : Bal g' N l := by
  intro j hj
  rcases e j with h1 | h1
  · rw [h1] at hj ⊢
    exact h j hj
  · exact absurd h1 hj

theorem Bal.addLC {N M : ℕ} {l o : LC F} (h : Bal g N l) (h' : Bal g M o) : Bal g (N + M) (l + o) := by
  intro j hj
  obtain ⟨c, c1, c2, c3⟩ := h j hj
  obtain ⟨d, d1, d2, d3⟩ := h' j hj
  refine ⟨c + d, by omega, ?_, fun hw => ?_⟩
  · rw [coeffOf_addLC, c2, d2]
    push_cast
    ring
  · rcases writes_addLC hw with hw | hw
    · have := c3 hw; omega
    · have := d3 hw; omega

theorem Bal.addScaled {N M : ℕ} {l o : LC F} (h : Bal g N l) (h' : Bal g M o) {m : ℕ} (hm : 0 < m) {q : F} (hq : q = (m : F)) :
    Bal g (N + m * M) (l + (q, o)) := by
  intro j hj
  obtain ⟨c, c1, c2, c3⟩ := h j hj
  obtain ⟨d, d1, d2, d3⟩ := h' j hj
  refine ⟨c + m * d, Nat.add_le_add c1 (Nat.mul_le_mul_left _ d1), ?_, fun hw => ?_⟩
  · rw [coeffOf_addScaled, c2, d2, hq]
    push_cast
    ring
  · rcases writes_addScaled hw with hw | hw
    · have := c3 hw; omega
    · have := Nat.mul_pos hm (d3 hw); omega

theorem Bal.lc {b : Boolean} (h : OkB g b) {m : ℕ} (hm : 0 < m) {q : F} (hq : q = (m : F)) : Bal g m (b.lc q) := by
  intro j hj
  subst hq
  by_cases hw : (b.lc (m : F)).Writes (.aux j)
  · refine ⟨m, le_rfl, ?_, fun _ => hm⟩
    rcases writes_lc hw with ⟨v, rfl⟩ | ⟨v, rfl⟩
    · obtain ⟨i, h1, h2⟩ := h
      cases h1
      rw [h2.resolve_left hj]
      show ((LC.zero : LC F) + ((m : F), Var.aux j)).coeffOf _ = _
      coeffs
      simp [Kind.sgn]
    · obtain ⟨i, h1, h2⟩ := h
      cases h1
      rw [h2.resolve_left hj]
      show ((LC.zero : LC F) + ((m : F), Var.one) - ((m : F), Var.aux j)).coeffOf _ = _
      coeffs
      simp [Kind.sgn, Var.one]
  · exact ⟨0, Nat.zero_le _, by rw [coeffOf_not_writes hw]; simp, fun h => absurd h hw⟩

/-- The coefficients of variables that are not safe are small integers, and not zero if the variable is written. -/
def BalZ (g : ℕ → Kind) (N : ℕ) (l : LC F) : Prop :=
  ∀ j, g j ≠ .safe → ∃ c : ℤ, c.natAbs ≤ N ∧ l.coeffOf (.aux j) = (c : F) ∧ (l.Writes (.aux j) → c ≠ 0)

theorem Bal.toZ {N : ℕ} {l : LC F} (h : Bal g N l) : BalZ g N l := by
  intro j hj
  obtain ⟨c, c1, c2, c3⟩ := h j hj
  cases hg : g j with
  | safe => exact absurd hg hj
  | neg => exact ⟨-c, by simpa using c1, by rw [c2, hg]; simp [Kind.sgn], fun hw => by have := c3 hw; omega⟩
  | pos => exact ⟨c, by simpa using c1, by rw [c2, hg]; simp [Kind.sgn], fun hw => by have := c3 hw; omega⟩
  | own i => exact ⟨c, by simpa using c1, by rw [c2, hg]; simp [Kind.sgn], fun hw => by have := c3 hw; omega⟩

theorem BalZ.zero : BalZ g 0 (LC.zero : LC F) := Bal.zero.toZ

theorem BalZ.mono {N M : ℕ} {l : LC F} (h : BalZ g N l) (hle : N ≤ M) : BalZ g M l := fun j hj => by
  obtain ⟨c, c1, c2⟩ := h j hj
  exact ⟨c, c1.trans hle, c2⟩

theorem BalZ.ext {N : ℕ} {l : LC F} (h : BalZ g N l) (hk : Known n k l) (e : Ext k g g') : BalZ g' N l := by
  intro j hj
  by_cases hjk : j < k
  · rcases e j hjk with h1 | h1
    · rw [h1] at hj
      exact h j hj
    · exact absurd h1 hj
  · refine ⟨0, Nat.zero_le _, ?_, fun hw => absurd (Writes.known hk hw) hjk⟩
    rw [coeffOf_unknown hk (by omega)]
    simp

theorem BalZ.safer {N : ℕ} {l : LC F} (h : BalZ g N l) (e : Safer g g') : BalZ g' N l := by
  intro j hj
  rcases e j with h1 | h1
  · rw [h1] at hj
    exact h j hj
  · exact absurd h1 hj

/-- Sums in disjoint ranges of bits do not cancel. -/
theorem BalZ.addScaled {N M : ℕ} {l o : LC F} (h : BalZ g N l) (h' : BalZ g M o) {m : ℕ} (hm : N + 1 ≤ m) {q : F} (hq : q = (m : F)) :
    BalZ g (N + m * M) (l + (q, o)) := by
  intro j hj
  obtain ⟨c, c1, c2, c3⟩ := h j hj
  obtain ⟨d, d1, d2, d3⟩ := h' j hj
  refine ⟨c + m * d, ?_, ?_, fun hw => ?_⟩
  · calc (c + m * d).natAbs ≤ c.natAbs + (m * d).natAbs := Int.natAbs_add_le _ _
      _ = c.natAbs + m * d.natAbs := by rw [Int.natAbs_mul, Int.natAbs_natCast]
      _ ≤ N + m * M := Nat.add_le_add c1 (Nat.mul_le_mul_left _ d1)
  · rw [coeffOf_addScaled, c2, d2, hq]
    push_cast
    ring
  · by_cases hd : d = 0
    · subst hd
      rcases writes_addScaled hw with hw | hw
      · simpa using c3 hw
      · exact absurd rfl (d3 hw)
    · intro h0
      have h1 : c.natAbs = m * d.natAbs := by
        rw [show c = -(m * d) by linarith, Int.natAbs_neg, Int.natAbs_mul, Int.natAbs_natCast]
      have h2 : 1 ≤ d.natAbs := Int.natAbs_pos.2 hd
      have h3 : m * 1 ≤ m * d.natAbs := Nat.mul_le_mul_left _ h2
      omega

/-- A coefficient below the modulus is not zero. -/
theorem BalZ.coeff_ne {N : ℕ} {l : LC F} (h : BalZ g N l) (hN : N < p F) {j : ℕ} (hj : g j ≠ .safe) (hw : l.Writes (.aux j)) :
    l.coeffOf (.aux j) ≠ 0 := by
  obtain ⟨c, c1, c2, c3⟩ := h j hj
  rw [c2]
  intro h0
  have h1 : ((c.natAbs : ℕ) : F) = 0 := by
    rcases Int.natAbs_eq c with hc | hc
    · rw [hc] at h0; simpa using h0
    · rw [hc] at h0; simpa using h0
  have := cast_inj_of_lt (F := F) (show c.natAbs < p F by omega) p_pos (by simpa using h1)
  exact c3 hw (Int.natAbs_eq_zero.1 this)

/-- What holds between the calls on a `MultiEq`. -/
def MInv (g : ℕ → Kind) (s : MEq F) : Prop :=
  s.bitsUsed ≤ CAPACITY F ∧ ∃ N, N + 1 ≤ 2 ^ s.bitsUsed ∧ BalZ g N s.lhs

theorem MInv.ext {s : MEq F} (h : MInv g s) (hk : Known n k s) (e : Ext k g g') : MInv g' s := by
  obtain ⟨h1, N, h2, h3⟩ := h
  exact ⟨h1, N, h2, h3.ext hk.1 e⟩

theorem mInv_new (ops : ℕ) (rhs : LC F) : MInv g (⟨ops, 0, LC.zero, rhs⟩ : MEq F) := ⟨Nat.zero_le _, 0, le_rfl, BalZ.zero⟩

/-- The row of `accumulate`. -/
theorem MInv.rowFine {s : MEq F} (h : MInv g s) : RowFine g s.lhs ((LC.zero : LC F) + Var.one) := by
  obtain ⟨h1, N, h2, h3⟩ := h
  refine ⟨fun j hj => ?_, fun x hx => ?_⟩
  · by_cases hs : g j = .safe
    · exact .inl hs
    · have h4 : 2 ^ s.bitsUsed ≤ 2 ^ CAPACITY F := Nat.pow_le_pow_right (by norm_num) h1
      have h5 : 2 ^ CAPACITY F < p F := two_pow_capacity_lt
      exact .inr (h3.coeff_ne (by omega) hs hj)
  · rcases writes_addVar hx with hx | rfl
    · exact (not_writes_zero hx).elim
    · coeffs
      simp

/-- `SNC` for programs with a `MultiEq`. -/
def MNC (n k : ℕ) (g : ℕ → Kind) (Q : (ℕ → Kind) → α → Prop) (m : MSynth F α) : Prop :=
  ∀ s : MEq F, Known n k s → MInv g s → ∀ t a s', Exec (m.run.run s) t (some (.ok a, s')) → Numbered n k t →
    ∃ g', Ext k g g' ∧ Fine g g' (consOf t) ∧ MInv g' s' ∧ Q g' a

namespace MNC

variable {Q : (ℕ → Kind) → α → Prop} {R : (ℕ → Kind) → β → Prop}

theorem mono {Q' : (ℕ → Kind) → α → Prop} {m : MSynth F α} (h : MNC n k g Q m) (hq : ∀ g' a, Ext k g g' → Q g' a → Q' g' a) :
    MNC n k g Q' m := fun s hs hi t a s' he ht => by
  obtain ⟨g', h1, h2, h3, h4⟩ := h s hs hi t a s' he ht
  exact ⟨g', h1, h2, h3, hq g' a h1 h4⟩

theorem pure {a : α} (hq : Q g a) : MNC n k g Q (pure a : MSynth F α) := by
  intro s hs hi t b s' he ht
  cases he
  exact ⟨g, .refl g, .nil g, hi, hq⟩

theorem lift {m : Synth F α} (h : SNC n k g Q m) : MNC n k g Q (MSynth.lift m) := by
  intro s hs hi t b s' he ht
  rcases Exec.bind_inv (show Exec (m.run.bind fun r => .ret (r, s)) t _ from he) with ⟨h1, h2⟩ | ⟨t1, t2, a, rfl, h1, h2⟩
  · cases h2
  · cases h2
    rw [List.append_nil] at ht ⊢
    obtain ⟨g', a1, a2, a3⟩ := h _ _ h1 ht
    exact ⟨g', a1, a2, hi.ext hs a1, a3⟩

theorem panic {e : String} : MNC n k g Q (MSynth.lift (Synth.panic e) : MSynth F α) := lift SNC.panic

theorem bind [Handle α] {m : MSynth F α} {f : α → MSynth F β} (h : MNC n k g Q m) (hc : MLocal n k m)
    (hf : ∀ k' g' a, k ≤ k' → Ext k g g' → Known n k' a → Q g' a → MNC n k' g' R (f a)) : MNC n k g R (m >>= f) := by
  intro s hs hi t r s' he ht
  rcases Exec.bind_inv he with ⟨h1, h2⟩ | ⟨t1, t2, ⟨a, s1⟩, rfl, h1, h2⟩
  · cases h2
  · obtain ⟨ht1, ht2⟩ := numbered_append.1 ht
    obtain ⟨-, hx⟩ := Circ.Scope.exec (hc s hs) h1 ht1
    obtain ⟨z1, hs1, q1⟩ := hx _ rfl
    rw [z1] at ht2
    cases a with
    | ok a =>
      obtain ⟨g1, e1, f1, i1, p1⟩ := h s hs hi _ _ _ h1 ht1
      obtain ⟨g2, e2, f2, i2, p2⟩ := hf _ g1 a (Nat.le_add_right _ _) e1 (q1 a rfl) p1 s1 hs1 i1 _ _ _ h2 ht2
      rw [consOf_append]
      exact ⟨g2, e1.trans (Nat.le_add_right _ _) e2, f1.append f2, i2, p2⟩
    | error e => cases h2

theorem inNs (e : String) {m : MSynth F α} (h : MNC n k g Q m) : MNC n k g Q (MSynth.inNs e m) := by
  intro s hs hi t r s' he ht
  cases he with
  | push he =>
    rcases Exec.bind_inv he with ⟨h1, h2⟩ | ⟨t1, t2, a, rfl, h1, h2⟩
    · cases h2
    · obtain ⟨ht1, ht2⟩ := numbered_append.1 (show Numbered n k (t1 ++ t2) from ht)
      cases h2 with
      | pop h2 =>
        cases h2
        rw [consOf_push, consOf_append]
        simp only [consOf_pop, consOf_nil, List.append_nil]
        exact h s hs hi _ _ _ h1 ht1

theorem index {l : List α} (i : ℕ) (hq : ∀ x ∈ l, Q g x) : MNC n k g Q (MSynth.index l i : MSynth F α) := by
  unfold MSynth.index
  split
  · rename_i x hx
    exact pure (hq x (List.mem_of_getElem? hx))
  · exact panic

theorem enforceEqual {b M : ℕ} {l : LC F} (r : LC F) (hl : BalZ g M l) (hM : M + 1 ≤ 2 ^ b) :
    MNC n k g (fun g' _ => Safer g g') (MEq.enforceEqual b l r) := by
  have add : ∀ (s : MEq F) g1, MInv g1 s → BalZ g1 M l → ∀ t s', Exec
      (if CAPACITY F > s.bitsUsed + b then
        (.ret (.ok (), ⟨s.ops, s.bitsUsed + b, s.lhs + ((2 ^ s.bitsUsed : F), l), s.rhs + ((2 ^ s.bitsUsed : F), r)⟩) :
          Circ F (Except SynthesisError Unit × MEq F))
      else .panic "assert!((Scalar::CAPACITY as usize) > (self.bits_used + num_bits))") t (some (.ok (), s')) → t = [] ∧ MInv g1 s' := by
    intro s g1 hi hl t s' h
    split at h
    · rename_i hcap
      cases h
      refine ⟨rfl, ?_⟩
      obtain ⟨h1, N, h2, h3⟩ := hi
      refine ⟨le_of_lt hcap, N + 2 ^ s.bitsUsed * M, ?_, h3.addScaled hl h2 (by push_cast; rfl)⟩
      show N + 2 ^ s.bitsUsed * M + 1 ≤ 2 ^ (s.bitsUsed + b)
      calc N + 2 ^ s.bitsUsed * M + 1 = (N + 1) + 2 ^ s.bitsUsed * M := by omega
        _ ≤ 2 ^ s.bitsUsed + 2 ^ s.bitsUsed * M := by omega
        _ = 2 ^ s.bitsUsed * (M + 1) := by ring
        _ ≤ 2 ^ s.bitsUsed * 2 ^ b := Nat.mul_le_mul_left _ hM
        _ = 2 ^ (s.bitsUsed + b) := by rw [pow_add]
    · cases h
  intro s hs hi t x s' he ht
  replace he := (show Exec (if CAPACITY F ≤ s.bitsUsed + b then _ else _) t _ from he)
  split at he
  · rcases (show Exec (Circ.enforce _ _ _ _ _) t _ from he) with _ | _ | _ | _ | _ | he
    obtain ⟨rfl, hi'⟩ := add _ (hit s.lhs g) (mInv_new _ _) (hl.safer (safer_hit _ _)) _ _ he
    exact ⟨hit s.lhs g, hit_ext _ _, hi.rowFine.fine, hi', safer_hit _ _⟩
  · obtain ⟨rfl, hi'⟩ := add _ g hi hl _ _ he
    exact ⟨g, .refl g, .nil g, hi', fun _ => .inl rfl⟩

theorem withMultiEq {m : MSynth F α} (h : MNC n k g Q m) (hq : ∀ g' g'' a, Safer g' g'' → Q g' a → Q g'' a) :
    SNC n k g Q (MSynth.withMultiEq m) := by
  have drop : ∀ (s : MEq F) g1, MInv g1 s → ∀ (x : Except SynthesisError α) t r, Exec (MEq.drop s x) t (some r) →
      x = r ∧ ∃ g2, Safer g1 g2 ∧ Fine g1 g2 (consOf t) := by
    intro s g1 hi x t r he
    unfold MEq.drop at he
    split at he
    · rcases (show Exec (Circ.enforce _ _ _ _ _) t _ from he) with _ | _ | _ | _ | _ | he
      cases he
      exact ⟨rfl, _, safer_hit _ _, hi.rowFine.fine⟩
    · cases he
      exact ⟨rfl, g1, fun _ => .inl rfl, .nil g1⟩
  intro t r he ht
  rcases Exec.bind_inv he with ⟨h1, h2⟩ | ⟨t1, t2, ⟨a, s1⟩, rfl, h1, h2⟩
  · cases h2
  · obtain ⟨ht1, ht2⟩ := numbered_append.1 ht
    have hd := h2
    cases a with
    | ok a =>
      obtain ⟨g1, e1, f1, i1, p1⟩ := h _ ⟨known_zero, known_zero⟩ (mInv_new _ _) _ _ _ h1 ht1
      obtain ⟨hx, g2, e2, f2⟩ := drop _ g1 i1 _ _ _ h2
      cases hx
      rw [consOf_append]
      exact ⟨g2, e1.trans le_rfl e2.ext, f1.append f2, hq _ _ _ e2 p1⟩
    | error e =>
      exfalso
      unfold MEq.drop at h2
      dsimp only at h2
      split at h2
      · rcases (show Exec (Circ.enforce _ _ _ _ _) t2 _ from h2) with _ | _ | _ | _ | _ | h2
        cases h2
      · cases h2

end MNC

namespace UInt32

/-- A word of at most 32 bits whose bits are constants or safe. -/
def SW (g : ℕ → Kind) (u : UInt32) : Prop := u.Short ∧ ∀ b ∈ u.bits, SafeB g b
/-- A word of at most 32 bits whose bits are written with the right sign. -/
def OW (g : ℕ → Kind) (u : UInt32) : Prop := u.Short ∧ ∀ b ∈ u.bits, OkB g b

variable {a b c u : UInt32}

theorem SW.ok (h : SW g u) : OW g u := ⟨h.1, fun b hb => (h.2 b hb).ok⟩
theorem SW.ext (h : SW g u) (hk : Known n k u) (e : Ext k g g') : SW g' u := ⟨h.1, fun b hb => (h.2 b hb).ext (hk b hb) e⟩
theorem SW.safer (h : SW g u) (e : Safer g g') : SW g' u := ⟨h.1, fun b hb => (h.2 b hb).safer e⟩
theorem OW.ext (h : OW g u) (hk : Known n k u) (e : Ext k g g') : OW g' u := ⟨h.1, fun b hb => (h.2 b hb).ext (hk b hb) e⟩

theorem SW.rotr (h : SW g u) (i : ℕ) : SW g (u.rotr i) := by
  refine ⟨short_rotr u i, fun b hb => ?_⟩
  rcases List.mem_append.1 (List.mem_of_mem_take (show b ∈ List.take 32 _ from hb)) with hb | hb
  · exact h.2 b (List.mem_of_mem_drop hb)
  · exact h.2 b hb

theorem SW.shr (h : SW g u) (i : ℕ) : SW g (u.shr i) := by
  refine ⟨short_shr u i, fun b hb => ?_⟩
  rcases List.mem_append.1 (List.mem_of_mem_take (show b ∈ List.take 32 _ from hb)) with hb | hb
  · exact h.2 b (List.mem_of_mem_drop hb)
  · rw [List.eq_of_mem_replicate hb]; trivial

theorem sw_constant (v : BitVec 32) : SW g (UInt32.constant v) := by
  refine ⟨short_constant v, fun b hb => ?_⟩
  obtain ⟨x, -, rfl⟩ := List.mem_map.1 (show b ∈ (shiftBits 32 v).map Boolean.constant from hb)
  trivial

theorem sw_fromBitsBe {l : List Boolean} (hl : ∀ b ∈ l, SafeB g b) (h : fromBitsBe l = some u) : SW g u := by
  refine ⟨short_fromBitsBe h, fun b hb => hl b ?_⟩
  unfold fromBitsBe at h
  split at h
  · cases h; exact List.mem_reverse.1 hb
  · cases h

/-! ### `xor` -/

/-- Is the literal the constant `true`? -/
def ctrue : Boolean → Bool
  | .constant c => c
  | _ => false

/-- What the first of two chained exclusive ors leaves for the second one. -/
def Adj (g : ℕ → Kind) (rs cs : List Boolean) : Prop := ∀ p ∈ rs.zip cs, OkB g (flipIf (ctrue p.2) p.1)

theorem known_flipIf {b : Boolean} (h : Known n k b) (f : Bool) : Known n k (flipIf f b) := by
  cases f
  · exact h
  · cases b <;> exact h

theorem Adj.ext {rs cs : List Boolean} (h : Adj g rs cs) (hk : Known n k rs) (e : Ext k g g') : Adj g' rs cs := fun p hp =>
  (h p hp).ext (known_flipIf (hk p.1 (List.of_mem_zip hp).1) _) e

theorem snc_xorLoop1 {as bs : List Boolean} (cs : List Boolean) (i : ℕ) (ha : Known n k as) (hb : Known n k bs)
    (ga : ∀ b ∈ as, SafeB g b) (gb : ∀ b ∈ bs, SafeB g b) :
    SNC n k g (fun g' r => Adj g' r cs) (xorLoop i as bs : Synth F _) := by
  induction as generalizing bs cs i k g with
  | nil => exact SNC.pure (fun p hp => by simp at hp)
  | cons a as ih =>
    cases bs with
    | nil => exact SNC.pure (fun p hp => by simp at hp)
    | cons b bs =>
      have hx := ha a (by simp)
      have hy := hb b (by simp)
      have key : ∀ f cs, (∀ g' r rs, OkB g' (flipIf f r) → Adj g' rs cs.tail → Adj g' (r :: rs) cs) →
          SNC n k g (fun g' r => Adj g' r cs) (xorLoop i (a :: as) (b :: bs) : Synth F _) := by
        intro f cs hcs
        refine SNC.bind (SNC.inNs _ (Boolean.snc_xor f two_ne_zero' (fun c _ => (ga a (by simp)).flip _) fun c _ => (gb b (by simp)).flip _))
          (SLocal.inNs _ (Boolean.slocal_xor hx hy)) fun k1 g1 r h1 e1 hr q1 => ?_
        refine SNC.bind (ih cs.tail (i + 1) (Known.lift (fun x hx => ha x (by simp [hx])) h1)
          (Known.lift (fun x hx => hb x (by simp [hx])) h1) (fun x hx => (ga x (by simp [hx])).ext (ha x (by simp [hx])) e1)
          (fun x hx => (gb x (by simp [hx])).ext (hb x (by simp [hx])) e1))
          (slocal_xorLoop (i + 1) (Known.lift (fun x hx => ha x (by simp [hx])) h1)
            (Known.lift (fun x hx => hb x (by simp [hx])) h1)) fun k2 g2 rs h2 e2 hrs q2 => SNC.pure ?_
        exact hcs g2 r rs (q1.ext (known_flipIf hr _) e2) q2
      cases cs with
      | nil => exact key false [] fun _ _ _ _ _ p hp => by simp at hp
      | cons c cs =>
        refine key (ctrue c) (c :: cs) fun g' r rs h1 h2 p hp => ?_
        rw [List.zip_cons_cons, List.mem_cons] at hp
        rcases hp with rfl | hp
        · exact h1
        · exact h2 p hp

theorem snc_xorLoop2 {as bs : List Boolean} (i : ℕ) (ha : Known n k as) (hb : Known n k bs)
    (ga : Adj g as bs) (gb : ∀ b ∈ bs, SafeB g b) :
    SNC n k g (fun g' r => ∀ b ∈ r, OkB g' b) (xorLoop i as bs : Synth F _) := by
  induction as generalizing bs i k g with
  | nil => exact SNC.pure (fun p hp => by simp at hp)
  | cons a as ih =>
    cases bs with
    | nil => exact SNC.pure (fun p hp => by simp at hp)
    | cons b bs =>
      have hx := ha a (by simp)
      have hy := hb b (by simp)
      refine SNC.bind (SNC.inNs _ (Boolean.snc_xor false two_ne_zero' (fun c hc => ?_) fun c _ => (gb b (by simp)).flip _))
        (SLocal.inNs _ (Boolean.slocal_xor hx hy)) fun k1 g1 r h1 e1 hr q1 => ?_
      · have := ga (a, b) (by simp)
        rw [hc] at this
        simpa [ctrue] using this
      · refine SNC.bind (ih (i + 1) (Known.lift (fun x hx => ha x (by simp [hx])) h1)
          (Known.lift (fun x hx => hb x (by simp [hx])) h1)
          (Adj.ext (fun p hp => ga p (by simp [hp])) (fun x hx => ha x (by simp [hx])) e1)
          (fun x hx => (gb x (by simp [hx])).ext (hb x (by simp [hx])) e1))
          (slocal_xorLoop (i + 1) (Known.lift (fun x hx => ha x (by simp [hx])) h1)
            (Known.lift (fun x hx => hb x (by simp [hx])) h1)) fun k2 g2 rs h2 e2 hrs q2 => SNC.pure ?_
        intro x hx
        rcases List.mem_cons.1 hx with rfl | hx
        · exact q1.ext hr e2
        · exact q2 x hx

theorem mnc_xor1 (s : String) (c : UInt32) (ha : Known n k a) (hb : Known n k b) (ga : SW g a) (gb : SW g b) :
    MNC n k g (fun g' r => Adj g' r.bits c.bits) (MSynth.lift (Synth.inNs s (xor a b)) : MSynth F _) :=
  MNC.lift (SNC.inNs _ (SNC.map (f := fun l => (⟨l, _⟩ : UInt32)) (snc_xorLoop1 c.bits 0 ha hb ga.2 gb.2)))

theorem mnc_xor2 (s : String) (ha : Known n k a) (hb : Known n k b) (ga : Adj g a.bits b.bits) (gb : SW g b) :
    MNC n k g (fun g' r => OW g' r) (MSynth.lift (Synth.inNs s (xor a b)) : MSynth F _) :=
  MNC.lift (SNC.inNs _ ((SNC.andPost (SNC.map (f := fun l => (⟨l, _⟩ : UInt32)) (Q := fun g' r => ∀ b ∈ r.bits, OkB g' b)
    (snc_xorLoop2 0 ha hb ga gb.2)) (spost_xor gb.1)).mono fun _ _ _ h => ⟨h.2, h.1⟩))

/-! ### `ch` and `maj` -/

theorem snc_triopLoop {fn : ℕ → Boolean → Boolean → Boolean → Synth F Boolean} {as bs cs : List Boolean}
    (hf : ∀ i k a b c, Known n k a → Known n k b → Known n k c → SLocal n k (fn i a b c))
    (hs : ∀ i k g a b c, Known n k a → Known n k b → Known n k c → SafeB g a → SafeB g b → SafeB g c → SNC n k g OkB (fn i a b c)) (i : ℕ)
    (ha : Known n k as) (hb : Known n k bs) (hc : Known n k cs) (ga : ∀ b ∈ as, SafeB g b) (gb : ∀ b ∈ bs, SafeB g b)
    (gc : ∀ b ∈ cs, SafeB g b) :
    SNC n k g (fun g' r => r.length ≤ as.length ∧ ∀ b ∈ r, OkB g' b) (triopLoop fn i as bs cs) := by
  have nil : ∀ {l : List Boolean}, SNC n k g (fun g' r => r.length ≤ l.length ∧ ∀ b ∈ r, OkB g' b) (Pure.pure [] : Synth F _) :=
    SNC.pure ⟨Nat.zero_le _, fun b hb => by cases hb⟩
  induction as generalizing bs cs i k g with
  | nil => exact nil
  | cons a as ih =>
    cases bs with
    | nil => exact nil
    | cons b bs =>
      cases cs with
      | nil => exact nil
      | cons c cs =>
        refine SNC.bind (hs i k g a b c (ha a (by simp)) (hb b (by simp)) (hc c (by simp)) (ga a (by simp)) (gb b (by simp)) (gc c (by simp)))
          (hf i k a b c (ha a (by simp)) (hb b (by simp)) (hc c (by simp))) fun k1 g1 r h1 e1 hr q1 => ?_
        refine SNC.bind
            (ih (i + 1) (Known.lift (fun x hx => ha x (by simp [hx])) h1)
              (Known.lift (fun x hx => hb x (by simp [hx])) h1) (Known.lift (fun x hx => hc x (by simp [hx])) h1)
              (fun x hx => (ga x (by simp [hx])).ext (ha x (by simp [hx])) e1)
              (fun x hx => (gb x (by simp [hx])).ext (hb x (by simp [hx])) e1)
              (fun x hx => (gc x (by simp [hx])).ext (hc x (by simp [hx])) e1)
              (SNC.pure ⟨Nat.zero_le _, fun b hb => by cases hb⟩))
            (slocal_triopLoop hf (i + 1) (Known.lift (fun x hx => ha x (by simp [hx])) h1)
              (Known.lift (fun x hx => hb x (by simp [hx])) h1) (Known.lift (fun x hx => hc x (by simp [hx])) h1))
            fun k2 g2 rs h2 e2 hrs q2 => SNC.pure ⟨Nat.succ_le_succ q2.1, ?_⟩
        intro x hx
        rcases List.mem_cons.1 hx with rfl | hx
        · exact q1.ext hr e2
        · exact q2.2 x hx

theorem snc_sha256Maj (hn : 0 < n) (ha : Known n k a) (hb : Known n k b) (hc : Known n k c) (ga : SW g a) (gb : SW g b) (gc : SW g c) :
    SNC n k g (fun g' r => OW g' r) (sha256Maj a b c : Synth F _) :=
  SNC.map (f := fun l => (⟨l, _⟩ : UInt32)) ((snc_triopLoop
    (fun _ _ _ _ _ ha hb hc => SLocal.inNs _ (Boolean.slocal_sha256Maj hn ha hb hc))
    (fun _ _ _ _ _ _ ha hb hc ga gb gc => SNC.inNs _ (Boolean.snc_sha256Maj hn two_ne_zero' ga gb gc ha hb hc))
    0 ha hb hc ga.2 gb.2 gc.2).mono fun _ _ _ h => ⟨h.1.trans ga.1, h.2⟩)

theorem snc_sha256Ch (hn : 0 < n) (ha : Known n k a) (hb : Known n k b) (hc : Known n k c) (ga : SW g a) (gb : SW g b) (gc : SW g c) :
    SNC n k g (fun g' r => OW g' r) (sha256Ch a b c : Synth F _) :=
  SNC.map (f := fun l => (⟨l, _⟩ : UInt32)) ((snc_triopLoop
    (fun _ _ _ _ _ ha hb hc => SLocal.inNs _ (Boolean.slocal_sha256Ch hn ha hb hc))
    (fun _ _ _ _ _ _ ha hb hc ga gb gc => SNC.inNs _ (Boolean.snc_sha256Ch ga gb gc ha hb hc))
    0 ha hb hc ga.2 gb.2 gc.2).mono fun _ _ _ h => ⟨h.1.trans ga.1, h.2⟩)

/-! ### `addmany` -/

theorem bal_addBits {N : ℕ} {l : LC F} (ac : Bool) {bits : List Boolean} (hl : Bal g N l) (hb : ∀ b ∈ bits, OkB g b) {m : ℕ} (hm : 0 < m)
    {q : F} (hq : q = (m : F)) : Bal g (N + m * (2 ^ bits.length - 1)) (addBits l ac q bits).1 := by
  induction bits generalizing N l ac m q with
  | nil => simpa [addBits] using hl
  | cons b bs ih =>
    have := ih (ac && b.isConstant) (hl.addLC (Bal.lc (hb b (by simp)) hm hq)) (fun x hx => hb x (by simp [hx])) (m := m + m)
      (by omega) (q := q + q) (by rw [hq]; push_cast; ring)
    have e : N + m + (m + m) * (2 ^ bs.length - 1) = N + m * (2 ^ (b :: bs).length - 1) := by
      have h1 : 1 ≤ 2 ^ bs.length := Nat.one_le_two_pow
      obtain ⟨d, hd⟩ := Nat.exists_eq_add_of_le h1
      rw [List.length_cons, pow_succ, hd]
      rw [show (1 + d) * 2 - 1 = 2 * d + 1 by omega, show 1 + d - 1 = d by omega]
      ring
    rw [e] at this
    exact this

theorem bal_mono {N M : ℕ} {l : LC F} (h : Bal g N l) (hle : N ≤ M) : Bal g M l := fun j hj => by
  obtain ⟨c, c1, c2⟩ := h j hj
  exact ⟨c, c1.trans hle, c2⟩

theorem bal_addOperands {N : ℕ} {l : LC F} (v : Option ℕ) (ac : Bool) {ops : List UInt32} (hl : Bal g N l) (ho : ∀ u ∈ ops, OW g u) :
    Bal g (N + ops.length * (2 ^ 32 - 1)) (addOperands v l ac ops).2.1 := by
  induction ops generalizing N l v ac with
  | nil => simpa [addOperands] using hl
  | cons u us ih =>
    have h1 := bal_addBits ac hl (ho u (by simp)).2 (m := 1) Nat.one_pos (q := (1 : F)) (by simp)
    have h2 : 2 ^ u.bits.length ≤ 2 ^ 32 := Nat.pow_le_pow_right (by norm_num) (ho u (by simp)).1
    have h3 := ih (match u.value with | some val => v.map fun v => v + val.toNat | none => none) (addBits l ac 1 u.bits).2
      (bal_mono h1 (show _ ≤ N + (2 ^ 32 - 1) by omega)) fun x hx => ho x (by simp [hx])
    refine bal_mono h3 ?_
    rw [List.length_cons]
    omega

theorem snc_resultLoop (hn : 0 < n) (v : Option ℕ) (m i : ℕ) (c : F) {bits : List Boolean} {lc : LC F} (hb : Known n k bits)
    (gb : ∀ b ∈ bits, SafeB g b) :
    SNC n k g (fun g' q => ((m + 1) * 2 ^ i ≤ 2 ^ q.2.2 ∧ ∀ b ∈ q.1, SafeB g' b) ∧ (i = bits.length → q.1.length = q.2.2) ∧
      ∀ b ∈ q.1, b ∈ bits ∨ ∃ x, b = .is x) (resultLoop v m i c bits lc) := by
  induction m using Nat.strong_induction_on generalizing i c bits lc k g with
  | _ m ih =>
    unfold resultLoop
    split
    · rename_i h0
      subst h0
      exact SNC.pure ⟨⟨by simp, gb⟩, fun h => h.symm, fun b hb => .inl hb⟩
    · refine SNC.bind (SNC.inNs _ (AllocatedBit.snc_alloc _)) (SLocal.inNs _ (AllocatedBit.slocal_alloc hn _)) fun k1 g1 x h1 e1 hx q1 => ?_
      refine (ih (m >>> 1) (by rw [Nat.shiftRight_one]; omega) _ _
        (known_list_append (Known.lift hb h1) (known_list_cons hx known_list_nil)) ?_).mono ?_
      · intro b hb'
        rcases List.mem_append.1 hb' with h | h
        · exact (gb b h).ext (hb b h) e1
        · rw [List.mem_singleton] at h
          subst h
          exact q1
      · rintro g2 q - ⟨⟨h2, h3⟩, h4, h5⟩
        refine ⟨⟨le_trans ?_ h2, h3⟩, fun hi => h4 (by simp [hi]), fun b hb' => ?_⟩
        swap
        · rcases h5 b hb' with h | h
          · rcases List.mem_append.1 h with h | h
            · exact .inl h
            · rw [List.mem_singleton] at h; exact .inr ⟨_, h⟩
          · exact .inr h
        rw [Nat.shiftRight_one, pow_succ]
        calc (m + 1) * 2 ^ i ≤ ((m / 2 + 1) * 2) * 2 ^ i := Nat.mul_le_mul_right _ (by omega)
          _ = (m / 2 + 1) * (2 ^ i * 2) := by ring

/-- A word of 32 constants or 32 variables. -/
structure Uni (u : UInt32) : Prop where
  len : u.bits.length = 32
  uni : (∀ b ∈ u.bits, ∃ c, b = .constant c) ∨ ∀ b ∈ u.bits, (∃ x, b = .is x) ∨ ∃ x, b = .not x

theorem uni_constant (v : BitVec 32) : Uni (UInt32.constant v) := by
  refine ⟨?_, .inl fun b hb => ?_⟩
  · simp [UInt32.constant, shiftBits]
  · obtain ⟨x, -, rfl⟩ := List.mem_map.1 (show b ∈ (shiftBits 32 v).map Boolean.constant from hb)
    exact ⟨x, rfl⟩

theorem mnc_addmany_of (hn : 0 < n) {l : List UInt32} (hl : Known n k l)
    (gl : BalZ g (l.length * (2 ^ 32 - 1)) (addOperands (some 0) (LC.zero : LC F) true l).2.1) :
    MNC n k g (fun g' r => SW g' r ∧ Uni r) (addmany l : MSynth F _) := by
  unfold addmany
  split
  · split
    · rename_i h2
      split
      · dsimp only
        split
        · exact MNC.pure ⟨sw_constant _, uni_constant _⟩
        · refine MNC.bind (MNC.lift (snc_resultLoop hn _ _ _ _ known_list_nil (fun b hb => by cases hb)))
            (MLocal.lift (slocal_resultLoop hn _ _ _ _ known_list_nil known_zero)) fun k1 g1 q h1 e1 hq q1 => ?_
          refine MNC.bind (MNC.enforceEqual _ (gl.ext (known_addOperands hn _ _ known_zero hl) e1) (by simpa using q1.1.1))
            (MLocal.enforceEqual hn _ (Known.lift (known_addOperands hn _ _ known_zero hl) h1) hq.2.1)
            fun k2 g2 _ h2' _ _ e2 => MNC.pure ⟨⟨List.length_take_le _ _, fun b hb => ?_⟩, ⟨?_, .inr fun b hb => .inl ?_⟩⟩
          · exact (q1.1.2 b (List.mem_of_mem_take hb)).safer e2
          · have h3 : q.1.length = q.2.2 := q1.2.1 rfl
            have h4 : 2 ^ 32 ≤ 2 ^ q.2.2 := by
              refine le_trans ?_ q1.1.1
              have : 2 * (2 ^ 32 - 1) ≤ l.length * (2 ^ 32 - 1) := Nat.mul_le_mul_right _ h2
              omega
            have h5 : 32 ≤ q.2.2 := (Nat.pow_le_pow_iff_right (by norm_num)).1 h4
            rw [List.length_take, h3]
            exact min_eq_left h5
          · exact (q1.2.2 b (List.mem_of_mem_take hb)).resolve_left (by simp)
      · exact MNC.panic
    · exact MNC.panic
  · exact MNC.panic

theorem mnc_addmany (hn : 0 < n) {l : List UInt32} (hl : Known n k l) (gl : ∀ u ∈ l, OW g u) :
    MNC n k g (fun g' r => SW g' r) (addmany l : MSynth F _) :=
  (mnc_addmany_of hn hl (by simpa using (bal_addOperands (F := F) (some 0) true Bal.zero gl).toZ)).mono fun _ _ _ h => h.1

end UInt32

end Bellman
