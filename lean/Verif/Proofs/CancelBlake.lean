import Verif.Proofs.CancelSha

/-!
# BLAKE2s and cancelling coefficients

Unlike in SHA-256 a bit of the state can be written with both signs, in different sums.  Nothing cancels nevertheless: in each sum a bit that
is not safe occurs once, and the sums of a `MultiEq` occupy disjoint ranges of bits.
-/

namespace Bellman

open PrimeField Bellman.UInt32

set_option linter.unusedSectionVars false

variable {F : Type} [PrimeField F] {n k k' : ℕ} {g g' : ℕ → Kind}

/-! ### Literals that occur once -/

/-- The literal belongs to the given auxiliary variable. -/
def HasVar (b : Boolean) (j : ℕ) : Prop := (∃ v, b = .is ⟨.aux j, v⟩) ∨ ∃ v, b = .not ⟨.aux j, v⟩

/-- Variables that are not safe occur at most once. -/
def Once (g : ℕ → Kind) (l : List Boolean) : Prop := l.Pairwise fun a b => ∀ j, HasVar a j → HasVar b j → g j = .safe

theorem HasVar.known {b : Boolean} {j : ℕ} (h : HasVar b j) (hk : Known n k b) : j < k := by
  rcases h with ⟨v, rfl⟩ | ⟨v, rfl⟩ <;> exact hk

theorem HasVar.neg {b : Boolean} {j : ℕ} (h : HasVar b.neg j) : HasVar b j := by
  cases b with
  | is x => rcases h with ⟨v, h⟩ | ⟨v, h⟩ <;> cases h; exact .inl ⟨v, rfl⟩
  | not x => rcases h with ⟨v, h⟩ | ⟨v, h⟩ <;> cases h; exact .inr ⟨v, rfl⟩
  | constant c => rcases h with ⟨v, h⟩ | ⟨v, h⟩ <;> cases h

theorem HasVar.inj {b : Boolean} {i j : ℕ} (h : HasVar b i) (h' : HasVar b j) : i = j := by
  rcases h with ⟨v, rfl⟩ | ⟨v, rfl⟩ <;> rcases h' with ⟨w, h'⟩ | ⟨w, h'⟩ <;> cases h' <;> rfl

theorem not_hasVar_constant {c : Bool} {j : ℕ} : ¬ HasVar (.constant c) j := by rintro (⟨v, h⟩ | ⟨v, h⟩) <;> cases h

theorem SafeB.hasVar {b : Boolean} {j : ℕ} (hb : SafeB g b) (h : HasVar b j) : g j = .safe := by
  rcases h with ⟨v, rfl⟩ | ⟨v, rfl⟩
  · obtain ⟨i, h1, h2⟩ := hb; cases h1; exact h2
  · obtain ⟨i, h1, h2⟩ := hb; cases h1; exact h2

theorem Once.ext {l : List Boolean} (h : Once g l) (hk : Known n k l) (e : Ext k g g') : Once g' l := by
  refine List.Pairwise.imp_of_mem (fun {a b} ha _ hab j h1 h2 => ?_) h
  rcases e j (h1.known (hk a ha)) with h3 | h3
  · rw [h3]; exact hab j h1 h2
  · exact h3

theorem Once.safer {l : List Boolean} (h : Once g l) (e : Safer g g') : Once g' l :=
  List.Pairwise.imp (fun hab j h1 h2 => by
    rcases e j with h3 | h3
    · rw [h3]; exact hab j h1 h2
    · exact h3) h

theorem Once.safe {l : List Boolean} (h : ∀ b ∈ l, SafeB g b) : Once g l :=
  List.Pairwise.imp_of_mem (R := fun _ _ => True) (fun {a _} ha _ _ _ h1 _ => (h a ha).hasVar h1)
    (List.pairwise_of_forall (fun _ _ => trivial))

/-! ### Sums of such literals -/

theorem BalZ.addLC {N M : ℕ} {l o : LC F} (h : BalZ g N l) (h' : BalZ g M o)
    (hd : ∀ j, g j ≠ .safe → l.Writes (.aux j) → o.Writes (.aux j) → False) : BalZ g (N + M) (l + o) := by
  intro j hj
  obtain ⟨c, c1, c2, c3⟩ := h j hj
  obtain ⟨d, d1, d2, d3⟩ := h' j hj
  by_cases hl : l.Writes (.aux j)
  · have ho : ¬ o.Writes (.aux j) := fun ho => hd j hj hl ho
    exact ⟨c, by omega, by rw [coeffOf_addLC, c2, coeffOf_not_writes ho, add_zero], fun _ => c3 hl⟩
  · refine ⟨d, by omega, by rw [coeffOf_addLC, d2, coeffOf_not_writes hl, zero_add], fun hw => ?_⟩
    exact d3 ((writes_addLC hw).resolve_left hl)

theorem BalZ.lc {b : Boolean} {m : ℕ} (hm : 0 < m) {q : F} (hq : q = (m : F)) : BalZ g m (b.lc q) := by
  intro j _
  subst hq
  by_cases hw : (b.lc (m : F)).Writes (.aux j)
  · rcases writes_lc hw with ⟨v, rfl⟩ | ⟨v, rfl⟩
    · refine ⟨m, by simp, ?_, fun _ => by omega⟩
      show ((LC.zero : LC F) + ((m : F), Var.aux j)).coeffOf _ = _
      coeffs
      simp
    · refine ⟨-m, by simp, ?_, fun _ => by omega⟩
      show ((LC.zero : LC F) + ((m : F), Var.one) - ((m : F), Var.aux j)).coeffOf _ = _
      coeffs
      simp [Var.one]
  · exact ⟨0, Nat.zero_le _, by rw [coeffOf_not_writes hw]; simp, fun h => absurd h hw⟩

/-- The loop that adds literals with doubling coefficients. -/
theorem balZ_bits {N : ℕ} {l : LC F} {bits : List Boolean} (hl : BalZ g N l) (ho : Once g bits)
    (hd : ∀ j, g j ≠ .safe → l.Writes (.aux j) → ∀ b ∈ bits, ¬ HasVar b j) {m : ℕ} (hm : 0 < m) {q : F} (hq : q = (m : F))
    {add : LC F → F → List Boolean → LC F} (h0 : ∀ l q, add l q [] = l) (h1 : ∀ l q b bs, add l q (b :: bs) = add (l + b.lc q) (q + q) bs) :
    BalZ g (N + m * (2 ^ bits.length - 1)) (add l q bits) ∧
      ∀ j, (add l q bits).Writes (.aux j) → l.Writes (.aux j) ∨ ∃ b ∈ bits, HasVar b j := by
  induction bits generalizing N l m q with
  | nil =>
    rw [h0]
    exact ⟨by simpa using hl, fun j h => .inl h⟩
  | cons b bs ih =>
    rw [h1]
    obtain ⟨o1, o2⟩ := List.pairwise_cons.1 ho
    have hb : BalZ g (N + m) (l + b.lc q) := hl.addLC (BalZ.lc hm hq) fun j hj w1 w2 => hd j hj w1 b (by simp) (writes_lc w2)
    obtain ⟨r1, r2⟩ := ih hb o2 (fun j hj hw x hx hv => by
      rcases writes_addLC hw with hw | hw
      · exact hd j hj hw x (by simp [hx]) hv
      · exact hj (o1 x hx j (writes_lc hw) hv)) (m := m + m) (by omega) (q := q + q) (by rw [hq]; push_cast; ring)
    refine ⟨?_, fun j hw => ?_⟩
    · have e : N + m + (m + m) * (2 ^ bs.length - 1) = N + m * (2 ^ (b :: bs).length - 1) := by
        have h1 : 1 ≤ 2 ^ bs.length := Nat.one_le_two_pow
        obtain ⟨d, hd⟩ := Nat.exists_eq_add_of_le h1
        rw [List.length_cons, pow_succ, hd]
        rw [show (1 + d) * 2 - 1 = 2 * d + 1 by omega, show 1 + d - 1 = d by omega]
        ring
      rw [e] at r1
      exact r1
    · rcases r2 j hw with hw | ⟨x, hx, hv⟩
      · rcases writes_addLC hw with hw | hw
        · exact .inl hw
        · exact .inr ⟨b, by simp, writes_lc hw⟩
      · exact .inr ⟨x, by simp [hx], hv⟩

theorem balZ_addBits {N : ℕ} {l : LC F} (ac : Bool) {bits : List Boolean} (hl : BalZ g N l) (ho : Once g bits)
    (hd : ∀ j, g j ≠ .safe → l.Writes (.aux j) → ∀ b ∈ bits, ¬ HasVar b j) :
    BalZ g (N + (2 ^ bits.length - 1)) (addBits l ac 1 bits).1 ∧
      ∀ j, (addBits l ac 1 bits).1.Writes (.aux j) → l.Writes (.aux j) ∨ ∃ b ∈ bits, HasVar b j := by
  have key : ∀ (bits : List Boolean) (l : LC F) (ac : Bool) (q : F), (addBits l ac q bits).1 = (addBits l true q bits).1 := by
    intro bits
    induction bits with
    | nil => intros; rfl
    | cons b bs ih =>
      intro l ac q
      show (addBits (l + b.lc q) _ _ bs).1 = (addBits (l + b.lc q) _ _ bs).1
      rw [ih, ih _ (true && b.isConstant)]
  rw [key]
  have := balZ_bits hl ho hd (m := 1) Nat.one_pos (q := (1 : F)) (by simp) (add := fun l q bs => (addBits l true q bs).1) (fun _ _ => rfl)
    (fun l q b bs => by
      show (addBits (l + b.lc q) _ _ bs).1 = _
      rw [key])
  simpa using this

theorem balZ_addOperands {N : ℕ} {l : LC F} (v : Option ℕ) (ac : Bool) {ops : List UInt32} (hl : BalZ g N l)
    (hs : ∀ u ∈ ops, u.Short) (ho : Once g (ops.flatMap UInt32.bits))
    (hd : ∀ j, g j ≠ .safe → l.Writes (.aux j) → ∀ u ∈ ops, ∀ b ∈ u.bits, ¬ HasVar b j) :
    BalZ g (N + ops.length * (2 ^ 32 - 1)) (addOperands v l ac ops).2.1 := by
  induction ops generalizing N l v ac with
  | nil => simpa [addOperands] using hl
  | cons u us ih =>
    rw [List.flatMap_cons] at ho
    obtain ⟨o1, o2, o3⟩ := List.pairwise_append.1 ho
    obtain ⟨h1, w1⟩ := balZ_addBits ac hl o1 fun j hj hw b hb => hd j hj hw u (by simp) b hb
    have h2 : 2 ^ u.bits.length ≤ 2 ^ 32 := Nat.pow_le_pow_right (by norm_num) (hs u (by simp))
    have h3 := ih (match u.value with | some val => v.map fun v => v + val.toNat | none => none) (addBits l ac 1 u.bits).2
      (h1.mono (show _ ≤ N + (2 ^ 32 - 1) by omega)) (fun x hx => hs x (by simp [hx])) o2 fun j hj hw x hx b hb hv => by
        rcases w1 j hw with hw | ⟨y, hy, hyv⟩
        · exact hd j hj hw x (by simp [hx]) b hb hv
        · exact hj (o3 y hy b (List.mem_flatMap.2 ⟨x, hx, hb⟩) j hyv hv)
    refine h3.mono ?_
    rw [List.length_cons]
    omega

/-- `addmany` of words in which no variable that is not safe occurs twice. -/
theorem mnc_addmany_once (hn : 0 < n) {l : List UInt32} (hl : Known n k l) (hs : ∀ u ∈ l, u.Short)
    (ho : Once g (l.flatMap UInt32.bits)) : MNC n k g (fun g' r => SW g' r ∧ Uni r) (addmany l : MSynth F _) :=
  mnc_addmany_of hn hl (by simpa using balZ_addOperands (F := F) (some 0) true BalZ.zero hs ho fun j _ h => (not_writes_zero h).elim)

/-! ### Words of the state -/

/-- A literal whose variable is safe or is kept in the given place. -/
def OwnB (i : ℕ) (g : ℕ → Kind) : Boolean → Prop
  | .constant _ => True
  | .is b | .not b => ∃ j, b.var = .aux j ∧ (g j = .safe ∨ g j = .own i)

theorem OwnB.neg {i : ℕ} {b : Boolean} (h : OwnB i g b) : OwnB i g b.neg := by cases b <;> exact h

theorem SafeB.own {b : Boolean} (h : SafeB g b) (i : ℕ) : OwnB i g b := by
  rcases b with b | b | c
  · obtain ⟨j, h1, h2⟩ := h; exact ⟨j, h1, .inl h2⟩
  · obtain ⟨j, h1, h2⟩ := h; exact ⟨j, h1, .inl h2⟩
  · trivial

theorem OwnB.ext {i : ℕ} {b : Boolean} (h : OwnB i g b) (hk : Known n k b) (e : Ext k g g') : OwnB i g' b := by
  rcases b with b | b | c
  · obtain ⟨j, h1, h2⟩ := h
    have hj : b.var.InRange n k := hk
    rw [h1] at hj
    rcases e j hj with h3 | h3
    · exact ⟨j, h1, by rw [h3]; exact h2⟩
    · exact ⟨j, h1, .inl h3⟩
  · obtain ⟨j, h1, h2⟩ := h
    have hj : b.var.InRange n k := hk
    rw [h1] at hj
    rcases e j hj with h3 | h3
    · exact ⟨j, h1, by rw [h3]; exact h2⟩
    · exact ⟨j, h1, .inl h3⟩
  · trivial

theorem OwnB.safer {i : ℕ} {b : Boolean} (h : OwnB i g b) (e : Safer g g') : OwnB i g' b := by
  rcases b with b | b | c
  · obtain ⟨j, h1, h2⟩ := h
    rcases e j with h3 | h3
    · exact ⟨j, h1, by rw [h3]; exact h2⟩
    · exact ⟨j, h1, .inl h3⟩
  · obtain ⟨j, h1, h2⟩ := h
    rcases e j with h3 | h3
    · exact ⟨j, h1, by rw [h3]; exact h2⟩
    · exact ⟨j, h1, .inl h3⟩
  · trivial

theorem OwnB.hasVar {i j : ℕ} {b : Boolean} (hb : OwnB i g b) (h : HasVar b j) : g j = .safe ∨ g j = .own i := by
  rcases h with ⟨v, rfl⟩ | ⟨v, rfl⟩
  · obtain ⟨i, h1, h2⟩ := hb; cases h1; exact h2
  · obtain ⟨i, h1, h2⟩ := hb; cases h1; exact h2

/-- A word kept in the given place: 32 constants or 32 variables, and those that are not safe occur once. -/
structure BW (i : ℕ) (g : ℕ → Kind) (u : UInt32) : Prop where
  uni : Uni u
  own : ∀ b ∈ u.bits, OwnB i g b
  once : Once g u.bits

variable {i : ℕ} {u a b : UInt32}

theorem BW.short (h : BW i g u) : u.Short := h.uni.len.le

theorem BW.ext (h : BW i g u) (hk : Known n k u) (e : Ext k g g') : BW i g' u :=
  ⟨h.uni, fun b hb => (h.own b hb).ext (hk b hb) e, h.once.ext hk e⟩

theorem BW.safer (h : BW i g u) (e : Safer g g') : BW i g' u := ⟨h.uni, fun b hb => (h.own b hb).safer e, h.once.safer e⟩

theorem UInt32.SW.bw (h : SW g u) (hu : Uni u) (i : ℕ) : BW i g u := ⟨hu, fun b hb => (h.2 b hb).own i, Once.safe h.2⟩

theorem bw_constant (i : ℕ) (v : BitVec 32) : BW i g (UInt32.constant v) := (sw_constant v).bw (uni_constant v) i

theorem rotr_perm (h : u.bits.length = 32) (r : ℕ) : (u.rotr r).bits.Perm u.bits := by
  show ((u.bits.drop (r % 32) ++ u.bits).take 32).Perm u.bits
  have hr : r % 32 < 32 := Nat.mod_lt _ (by norm_num)
  rw [List.take_append, List.take_of_length_le (by rw [List.length_drop]; omega), List.length_drop, h,
    show 32 - (32 - r % 32) = r % 32 by omega]
  refine List.perm_append_comm.trans ?_
  rw [List.take_append_drop]

theorem BW.rotr (h : BW i g u) (r : ℕ) : BW i g (u.rotr r) := by
  have hp := rotr_perm h.uni.len r
  refine ⟨⟨hp.length_eq.trans h.uni.len, ?_⟩, fun b hb => h.own b (hp.mem_iff.1 hb), ?_⟩
  · rcases h.uni.uni with h1 | h1
    · exact .inl fun b hb => h1 b (hp.mem_iff.1 hb)
    · exact .inr fun b hb => h1 b (hp.mem_iff.1 hb)
  · exact (hp.pairwise_iff fun {a b} hab j h1 h2 => hab j h2 h1).2 h.once

/-! ### Exclusive or -/

theorem AllocatedBit.snc_xor_kind {κ : Kind} (hκ : κ ≠ .safe) (a b : AllocatedBit) :
    SNC n k g (fun g' r => r.var = .aux k ∧ (g' k = .safe ∨ g' k = κ)) (AllocatedBit.xor a b : Synth F _) :=
  SNC.captureBind hκ fun _ _ h _ => SNC.enforceBind (rowFine (fun _ hj => coeff_two two_ne_zero' hj) fun _ hx => coeff_var hx)
    (SNC.pure ⟨rfl, hit_kind h⟩)

/-- The literal is a variable. -/
def IsVar (b : Boolean) : Prop := (∃ x, b = .is x) ∨ ∃ x, b = .not x

theorem Boolean.snc_xor_fresh {κ : Kind} (hκ : κ ≠ .safe) {a b : Boolean} (ha : IsVar a) (hb : IsVar b) :
    SNC n k g (fun g' r => HasVar r k ∧ (g' k = .safe ∨ g' k = κ)) (Boolean.xor a b : Synth F _) := by
  have pos : ∀ g' (r : AllocatedBit), Ext k g g' → (r.var = .aux k ∧ (g' k = .safe ∨ g' k = κ)) →
      HasVar (.is r) k ∧ (g' k = .safe ∨ g' k = κ) := by
    rintro g' ⟨x, v⟩ - ⟨h1, h2⟩
    cases h1
    exact ⟨.inl ⟨v, rfl⟩, h2⟩
  have neg : ∀ g' (r : AllocatedBit), Ext k g g' → (r.var = .aux k ∧ (g' k = .safe ∨ g' k = κ)) →
      HasVar (.not r) k ∧ (g' k = .safe ∨ g' k = κ) := by
    rintro g' ⟨x, v⟩ - ⟨h1, h2⟩
    cases h1
    exact ⟨.inr ⟨v, rfl⟩, h2⟩
  rcases ha with ⟨x, rfl⟩ | ⟨x, rfl⟩ <;> rcases hb with ⟨y, rfl⟩ | ⟨y, rfl⟩
  · exact SNC.map (f := fun r => Boolean.is r) ((AllocatedBit.snc_xor_kind hκ x y).mono pos)
  · exact SNC.map (f := fun r => (Boolean.is r).neg) ((AllocatedBit.snc_xor_kind hκ _ _).mono neg)
  · exact SNC.map (f := fun r => (Boolean.is r).neg) ((AllocatedBit.snc_xor_kind hκ _ _).mono neg)
  · exact SNC.map (f := fun r => Boolean.is r) ((AllocatedBit.snc_xor_kind hκ _ _).mono pos)

/-- The same literals, possibly negated. -/
def Same (l l' : List Boolean) : Prop := List.Forall₂ (fun r a => r = a ∨ r = a.neg) l l'

theorem Same.mem {l l' : List Boolean} (h : Same l l') {r : Boolean} (hr : r ∈ l) : ∃ a ∈ l', r = a ∨ r = a.neg := by
  induction h with
  | nil => cases hr
  | cons h1 _ ih =>
    rcases List.mem_cons.1 hr with rfl | hr
    · exact ⟨_, List.mem_cons_self, h1⟩
    · obtain ⟨a, ha, h2⟩ := ih hr
      exact ⟨a, List.mem_cons_of_mem _ ha, h2⟩

theorem hasVar_same {r a : Boolean} {j : ℕ} (h : r = a ∨ r = a.neg) (hv : HasVar r j) : HasVar a j := by
  rcases h with rfl | rfl
  · exact hv
  · exact hv.neg

theorem Same.once {l l' : List Boolean} (h : Same l l') (ho : Once g l') : Once g l := by
  induction h with
  | nil => exact List.Pairwise.nil
  | cons h1 h2 ih =>
    obtain ⟨o1, o2⟩ := List.pairwise_cons.1 ho
    refine List.pairwise_cons.2 ⟨fun y hy j hv hw => ?_, ih o2⟩
    obtain ⟨a, ha, h3⟩ := Same.mem h2 hy
    exact o1 a ha j (hasVar_same h1 hv) (hasVar_same h3 hw)

theorem Same.bw {l : List Boolean} {v : Option (BitVec 32)} (h : Same l u.bits) (hu : BW i g u) : BW i g ⟨l, v⟩ := by
  refine ⟨⟨h.length_eq.trans hu.uni.len, ?_⟩, fun b hb => ?_, h.once hu.once⟩
  · rcases hu.uni.uni with h1 | h1
    · refine .inl fun b hb => ?_
      obtain ⟨a, ha, h2⟩ := h.mem hb
      obtain ⟨c, rfl⟩ := h1 a ha
      rcases h2 with rfl | rfl
      · exact ⟨c, rfl⟩
      · exact ⟨!c, rfl⟩
    · refine .inr fun b hb => ?_
      obtain ⟨a, ha, h2⟩ := h.mem hb
      rcases h1 a ha with ⟨c, rfl⟩ | ⟨c, rfl⟩ <;> rcases h2 with rfl | rfl
      · exact .inl ⟨c, rfl⟩
      · exact .inr ⟨c, rfl⟩
      · exact .inr ⟨c, rfl⟩
      · exact .inl ⟨c, rfl⟩
  · obtain ⟨a, ha, h2⟩ := h.mem hb
    rcases h2 with rfl | rfl
    · exact hu.own _ ha
    · exact (hu.own _ ha).neg

theorem xor_left (c : Bool) (b : Boolean) : SNC n k g (fun _ r => r = b ∨ r = b.neg) (Boolean.xor (.constant c) b : Synth F _) := by
  cases c
  · exact SNC.pure (.inl rfl)
  · rcases b with b | b | (_ | _) <;> exact SNC.pure (by simp [Boolean.neg])

theorem xor_right (c : Bool) (a : Boolean) : SNC n k g (fun _ r => r = a ∨ r = a.neg) (Boolean.xor a (.constant c) : Synth F _) := by
  cases c
  · rcases a with b | b | (_ | _) <;> exact SNC.pure (by simp [Boolean.neg])
  · rcases a with b | b | (_ | _) <;> exact SNC.pure (by simp [Boolean.neg])

theorem snc_xorLoop_left {as bs : List Boolean} (j : ℕ) (hl : as.length = bs.length) (ha : ∀ a ∈ as, ∃ c, a = .constant c)
    (ka : Known n k as) (kb : Known n k bs) : SNC n k g (fun _ r => Same r bs) (xorLoop j as bs : Synth F _) := by
  induction as generalizing bs j k g with
  | nil =>
    cases bs with
    | nil => exact SNC.pure .nil
    | cons b bs => cases hl
  | cons a as ih =>
    cases bs with
    | nil => cases hl
    | cons b bs =>
      obtain ⟨c, rfl⟩ := ha a (by simp)
      refine SNC.bind (SNC.inNs _ (xor_left c b)) (SLocal.inNs _ (Boolean.slocal_xor (ka _ (by simp)) (kb _ (by simp)))) fun k1 g1 r h1 _ _ q1 => ?_
      have ka' : Known n k1 as := Known.lift (fun x hx => ka x (by simp [hx])) h1
      have kb' : Known n k1 bs := Known.lift (fun x hx => kb x (by simp [hx])) h1
      exact SNC.bind (ih (j + 1) (by simpa using hl) (fun x hx => ha x (by simp [hx])) ka' kb') (slocal_xorLoop (j + 1) ka' kb')
        fun k2 g2 rs h2 _ _ q2 => SNC.pure (.cons q1 q2)

theorem snc_xorLoop_right {as bs : List Boolean} (j : ℕ) (hl : as.length = bs.length) (hb : ∀ a ∈ bs, ∃ c, a = .constant c)
    (ka : Known n k as) (kb : Known n k bs) : SNC n k g (fun _ r => Same r as) (xorLoop j as bs : Synth F _) := by
  induction as generalizing bs j k g with
  | nil => exact SNC.pure .nil
  | cons a as ih =>
    cases bs with
    | nil => cases hl
    | cons b bs =>
      obtain ⟨c, rfl⟩ := hb b (by simp)
      refine SNC.bind (SNC.inNs _ (xor_right c a)) (SLocal.inNs _ (Boolean.slocal_xor (ka _ (by simp)) (kb _ (by simp)))) fun k1 g1 r h1 _ _ q1 => ?_
      have ka' : Known n k1 as := Known.lift (fun x hx => ka x (by simp [hx])) h1
      have kb' : Known n k1 bs := Known.lift (fun x hx => kb x (by simp [hx])) h1
      exact SNC.bind (ih (j + 1) (by simpa using hl) (fun x hx => hb x (by simp [hx])) ka' kb') (slocal_xorLoop (j + 1) ka' kb')
        fun k2 g2 rs h2 _ _ q2 => SNC.pure (.cons q1 q2)

/-- Fresh literals with distinct variables. -/
structure Fresh (i k : ℕ) (g : ℕ → Kind) (l : List Boolean) : Prop where
  var : ∀ r ∈ l, ∃ j, k ≤ j ∧ HasVar r j ∧ (g j = .safe ∨ g j = .own i)
  once : Once g l

theorem snc_xorLoop_fresh {as bs : List Boolean} (i j : ℕ) (hl : as.length = bs.length) (ha : ∀ a ∈ as, IsVar a) (hb : ∀ b ∈ bs, IsVar b)
    (ka : Known n k as) (kb : Known n k bs) :
    SNC n k g (fun g' r => r.length = as.length ∧ Fresh i k g' r) (xorLoop j as bs : Synth F _) := by
  induction as generalizing bs j k g with
  | nil => exact SNC.pure ⟨rfl, ⟨fun r hr => (by cases hr), List.Pairwise.nil⟩⟩
  | cons a as ih =>
    cases bs with
    | nil => cases hl
    | cons b bs =>
      refine SNC.bind (SNC.inNs _ (Boolean.snc_xor_fresh (κ := .own i) (by simp) (ha a (by simp)) (hb b (by simp))))
        (SLocal.inNs _ (Boolean.slocal_xor (ka _ (by simp)) (kb _ (by simp)))) fun k1 g1 r h1 _ kr q1 => ?_
      have ka' : Known n k1 as := Known.lift (fun x hx => ka x (by simp [hx])) h1
      have kb' : Known n k1 bs := Known.lift (fun x hx => kb x (by simp [hx])) h1
      refine SNC.bind (ih (j + 1) (by simpa using hl) (fun x hx => ha x (by simp [hx])) (fun x hx => hb x (by simp [hx])) ka' kb')
        (slocal_xorLoop (j + 1) ka' kb') fun k2 g2 rs h2 e2 _ q2 => SNC.pure ⟨by simp [q2.1], ⟨?_, ?_⟩⟩
      · intro x hx
        have hk : k < k1 := q1.1.known kr
        rcases List.mem_cons.1 hx with rfl | hx
        · refine ⟨k, le_rfl, q1.1, ?_⟩
          rcases e2 k hk with h | h
          · rw [h]; exact q1.2
          · exact .inl h
        · obtain ⟨i, h3, h4⟩ := q2.2.var x hx
          exact ⟨i, by omega, h4⟩
      · refine List.pairwise_cons.2 ⟨fun y hy i hv hw => ?_, q2.2.once⟩
        have hk : k < k1 := q1.1.known kr
        obtain ⟨i', h3, h4, -⟩ := q2.2.var y hy
        have e1 := q1.1.inj hv
        have e2 := h4.inj hw
        omega

/-- `xor` of two words kept in the same place. -/
theorem snc_xor_bw (ha : BW i g a) (hb : BW i g b) (ka : Known n k a) (kb : Known n k b) :
    SNC n k g (fun g' r => BW i g' r) (UInt32.xor a b : Synth F _) := by
  have hl : a.bits.length = b.bits.length := ha.uni.len.trans hb.uni.len.symm
  unfold UInt32.xor
  refine SNC.map (Q := fun g' r => BW i g' r) (f := fun l => (⟨l, _⟩ : UInt32)) ?_
  rcases ha.uni.uni with h1 | h1
  · exact (snc_xorLoop_left 0 hl h1 ka kb).mono fun g' r e h => h.bw (hb.ext kb e)
  · rcases hb.uni.uni with h2 | h2
    · exact (snc_xorLoop_right 0 hl h2 ka kb).mono fun g' r e h => h.bw (ha.ext ka e)
    · refine (snc_xorLoop_fresh i 0 hl h1 h2 ka kb).mono fun g' r e h => ⟨⟨h.1.trans ha.uni.len, .inr fun x hx => ?_⟩, fun x hx => ?_, h.2.once⟩
      · obtain ⟨j, -, ⟨v, rfl⟩ | ⟨v, rfl⟩, -⟩ := h.2.var x hx
        · exact .inl ⟨_, rfl⟩
        · exact .inr ⟨_, rfl⟩
      · obtain ⟨j, -, ⟨v, rfl⟩ | ⟨v, rfl⟩, h3⟩ := h.2.var x hx
        · exact ⟨j, rfl, h3⟩
        · exact ⟨j, rfl, h3⟩

namespace Blake2s

/-- The working vector: word `i` is kept in place `i % 8`, and the words 8 to 11 are safe. -/
structure VInv (n k : ℕ) (g : ℕ → Kind) (v : List UInt32) : Prop where
  known : Known n k v
  bw : ∀ i u, v[i]? = some u → BW (i % 8) g u
  safe : ∀ i u, 8 ≤ i → i < 12 → v[i]? = some u → SW g u

variable {v m h : List UInt32}

theorem VInv.ext (hv : VInv n k g v) (hk : k ≤ k') (e : Ext k g g') : VInv n k' g' v :=
  ⟨Known.lift hv.known hk, fun i u hu => (hv.bw i u hu).ext (hv.known u (List.mem_of_getElem? hu)) e,
    fun i u h1 h2 hu => (hv.safe i u h1 h2 hu).ext (hv.known u (List.mem_of_getElem? hu)) e⟩

/-- What is kept besides scope. -/
structure VQ (g : ℕ → Kind) (v : List UInt32) : Prop where
  bw : ∀ i u, v[i]? = some u → BW (i % 8) g u
  safe : ∀ i u, 8 ≤ i → i < 12 → v[i]? = some u → SW g u

theorem VInv.q (hv : VInv n k g v) : VQ g v := ⟨hv.bw, hv.safe⟩
theorem VQ.inv (hv : VQ g v) (hk : Known n k v) : VInv n k g v := ⟨hk, hv.bw, hv.safe⟩
theorem VQ.safer (hv : VQ g v) (e : Safer g g') : VQ g' v :=
  ⟨fun i u hu => (hv.bw i u hu).safer e, fun i u h1 h2 hu => (hv.safe i u h1 h2 hu).safer e⟩

theorem VQ.set {a : ℕ} {t : UInt32} (hv : VQ g v) (ht : BW (a % 8) g t) (hs : 8 ≤ a → a < 12 → SW g t) : VQ g (v.set a t) := by
  refine ⟨fun i u hu => ?_, fun i u h1 h2 hu => ?_⟩ <;> rw [List.getElem?_set] at hu <;> split at hu
  · rename_i e
    subst e
    split at hu
    · cases hu; exact ht
    · cases hu
  · exact hv.bw i u hu
  · rename_i e
    subst e
    split at hu
    · cases hu; exact hs h1 h2
    · cases hu
  · exact hv.safe i u h1 h2 hu

theorem once_append {l l' : List Boolean} (h : Once g l) (h' : Once g l') (hd : ∀ j, g j ≠ .safe → ∀ a ∈ l, HasVar a j → ∀ b ∈ l', ¬ HasVar b j) :
    Once g (l ++ l') :=
  List.pairwise_append.2 ⟨h, h', fun a ha b hb j h1 h2 => by
    by_contra hj
    exact hd j hj a ha h1 b hb h2⟩

theorem index_get {α β : Type} {R : (ℕ → Kind) → β → Prop} {l : List α} (i : ℕ) {f : α → MSynth F β}
    (hf : ∀ x, l[i]? = some x → MNC n k g R (f x)) : MNC n k g R (MSynth.index l i >>= f) := by
  unfold MSynth.index
  cases hx : l[i]? with
  | some x => exact hf x hx
  | none =>
    intro s hs hi t a s' he ht
    cases he

theorem mnc_mixAdd3 (hn : 0 < n) (s : String) {a b : ℕ} {x : UInt32} (hv : VInv n k g v) (hx : KS n k g x) (ha : a < 4) (hb : 4 ≤ b) (hb' : b < 8) :
    MNC n k g (fun g' v' => VQ g' v' ∧ ∀ u, v'[a]? = some u → SW g' u) (mixAdd3 s v a b x : MSynth F _) := by
  refine index_get a fun va hva => index_get b fun vb hvb => ?_
  have ba := hv.bw a va hva
  have bb := hv.bw b vb hvb
  have kl : Known n k [va, vb, x] := by
    have := hv.known va (List.mem_of_getElem? hva)
    have := hv.known vb (List.mem_of_getElem? hvb)
    have := hx.1
    known
  have ho : Once g ([va, vb, x].flatMap UInt32.bits) := by
    simp only [List.flatMap_cons, List.flatMap_nil, List.append_nil]
    refine once_append ba.once (once_append bb.once (Once.safe hx.2.2) fun j hj y hy h1 z hz h2 => hj ((hx.2.2 z hz).hasVar h2))
      fun j hj y hy h1 z hz h2 => ?_
    rcases List.mem_append.1 hz with hz | hz
    · have e1 := ((ba.own y hy).hasVar h1).resolve_left hj
      have e2 := ((bb.own z hz).hasVar h2).resolve_left hj
      rw [e1] at e2
      injection e2 with e2
      omega
    · exact hj ((hx.2.2 z hz).hasVar h2)
  refine MNC.bind (MNC.inNs _ (mnc_addmany_once hn kl ?_ ho)) (MLocal.inNs _ (mlocal_addmany hn kl)) fun k1 g1 t h1 e1 kt q1 => MNC.pure ⟨?_, ?_⟩
  · intro u hu
    simp only [List.mem_cons, List.not_mem_nil, or_false] at hu
    rcases hu with rfl | rfl | rfl
    · exact ba.short
    · exact bb.short
    · exact hx.2.1
  · exact (hv.ext h1 e1).q.set (q1.1.bw q1.2 _) fun _ _ => q1.1
  · intro u hu
    rw [List.getElem?_set_self' ] at hu
    rw [hva] at hu
    cases hu
    exact q1.1

theorem mnc_mixAdd2 (hn : 0 < n) (s : String) {c d : ℕ} (hv : VInv n k g v) (hc : 8 ≤ c) (hc' : c < 12) :
    MNC n k g (fun g' v' => VQ g' v') (mixAdd2 s v c d : MSynth F _) := by
  refine index_get c fun va hva => index_get d fun vb hvb => ?_
  have sa := hv.safe c va hc hc' hva
  have bb := hv.bw d vb hvb
  have kl : Known n k [va, vb] := by
    have := hv.known va (List.mem_of_getElem? hva)
    have := hv.known vb (List.mem_of_getElem? hvb)
    known
  have ho : Once g ([va, vb].flatMap UInt32.bits) := by
    simp only [List.flatMap_cons, List.flatMap_nil, List.append_nil]
    exact once_append (Once.safe sa.2) bb.once fun j hj y hy h1 z hz h2 => hj ((sa.2 y hy).hasVar h1)
  refine MNC.bind (MNC.inNs _ (mnc_addmany_once hn kl ?_ ho)) (MLocal.inNs _ (mlocal_addmany hn kl)) fun k1 g1 t h1 e1 kt q1 => MNC.pure ?_
  · intro u hu
    simp only [List.mem_cons, List.not_mem_nil, or_false] at hu
    rcases hu with rfl | rfl
    · exact sa.1
    · exact bb.short
  · exact (hv.ext h1 e1).q.set (q1.1.bw q1.2 _) fun _ _ => q1.1

theorem mnc_mixXor (s : String) {d a : ℕ} (r : ℕ) (hv : VInv n k g v) (hd : d < 8 ∨ 12 ≤ d) (ha : ∀ u, v[a]? = some u → SW g u) :
    MNC n k g (fun g' v' => VQ g' v') (mixXor s v d a r : MSynth F _) := by
  refine index_get d fun va hva => index_get a fun vb hvb => ?_
  have ka := hv.known va (List.mem_of_getElem? hva)
  have kb := hv.known vb (List.mem_of_getElem? hvb)
  refine MNC.bind (MNC.lift (SNC.inNs _ (snc_xor_bw (hv.bw d va hva) ((ha vb hvb).bw (hv.bw a vb hvb).uni _) ka kb)))
    (MLocal.lift (SLocal.inNs _ (slocal_xor ka kb))) fun k1 g1 t h1 e1 kt q1 => MNC.pure ?_
  exact (hv.ext h1 e1).q.set (q1.rotr r) fun _ _ => by omega

theorem mnc_mixingG (hn : 0 < n) {a b c d : ℕ} {x y : UInt32} (hv : VInv n k g v) (hx : KS n k g x) (hy : KS n k g y) (ha : a < 4)
    (hb : 4 ≤ b) (hb' : b < 8) (hc : 8 ≤ c) (hc' : c < 12) (hd : 12 ≤ d) :
    MNC n k g (fun g' v' => VQ g' v') (mixingG v a b c d x y : MSynth F _) := by
  refine MNC.bind (mnc_mixAdd3 hn _ hv hx ha hb hb') (mlocal_mixAdd3 hn _ _ _ hv.known hx.1) fun k1 g1 v l1 e1 kv ⟨q, qs⟩ => ?_
  replace hv := q.inv kv
  refine MNC.bind (mnc_mixXor _ _ hv (.inr hd) qs) (mlocal_mixXor _ _ _ _ hv.known) fun k2 g2 v l2 e2 kv q => ?_
  replace hv := q.inv kv
  refine MNC.bind (mnc_mixAdd2 hn _ hv hc hc') (mlocal_mixAdd2 hn _ _ _ hv.known) fun k3 g3 v l3 e3 kv q => ?_
  replace hv := q.inv kv
  refine MNC.bind (mnc_mixXor _ _ hv (.inl hb') (q.safe c · hc hc')) (mlocal_mixXor _ _ _ _ hv.known) fun k4 g4 v l4 e4 kv q => ?_
  replace hv := q.inv kv
  replace hy : KS n k4 g4 y := (((hy.ext l1 e1).ext l2 e2).ext l3 e3).ext l4 e4
  refine MNC.bind (mnc_mixAdd3 hn _ hv hy ha hb hb') (mlocal_mixAdd3 hn _ _ _ hv.known hy.1) fun k5 g5 v l5 e5 kv ⟨q, qs⟩ => ?_
  replace hv := q.inv kv
  refine MNC.bind (mnc_mixXor _ _ hv (.inr hd) qs) (mlocal_mixXor _ _ _ _ hv.known) fun k6 g6 v l6 e6 kv q => ?_
  replace hv := q.inv kv
  refine MNC.bind (mnc_mixAdd2 hn _ hv hc hc') (mlocal_mixAdd2 hn _ _ _ hv.known) fun k7 g7 v l7 e7 kv q => ?_
  exact mnc_mixXor _ _ (q.inv kv) (.inl hb') (q.safe c · hc hc')

theorem mnc_mixCall (hn : 0 < n) (nm : String) (s : List ℕ) (j : ℕ) {a b c d : ℕ} (hv : VInv n k g v) (hm : ∀ u ∈ m, KS n k g u) (ha : a < 4)
    (hb : 4 ≤ b) (hb' : b < 8) (hc : 8 ≤ c) (hc' : c < 12) (hd : 12 ≤ d) :
    MNC n k g (fun g' v' => VQ g' v') (mixCall nm m s j a b c d v : MSynth F _) :=
  index_get _ fun _ _ => index_get _ fun x hx => index_get _ fun _ _ => index_get _ fun y hy =>
    MNC.inNs _ (mnc_mixingG hn hv (hm x (List.mem_of_getElem? hx)) (hm y (List.mem_of_getElem? hy)) ha hb hb' hc hc' hd)

theorem mnc_roundBody (hn : 0 < n) (i : ℕ) (hv : VInv n k g v) (hm : ∀ u ∈ m, KS n k g u) :
    MNC n k g (fun g' v' => VQ g' v') (roundBody m i v : MSynth F _) := by
  refine MNC.inNs _ (index_get _ fun s _ => ?_)
  have step : ∀ {k : ℕ} {g : ℕ → Kind} {v : List UInt32} (nm : String) (j a b c d : ℕ) {f : List UInt32 → MSynth F (List UInt32)},
      VInv n k g v → (∀ u ∈ m, KS n k g u) → a < 4 ∧ 4 ≤ b ∧ b < 8 ∧ 8 ≤ c ∧ c < 12 ∧ 12 ≤ d →
      (∀ k' g' v', k ≤ k' → Ext k g g' → VInv n k' g' v' → (∀ u ∈ m, KS n k' g' u) → MNC n k' g' (fun g' v' => VQ g' v') (f v')) →
      MNC n k g (fun g' v' => VQ g' v') (mixCall nm m s j a b c d v >>= f) := by
    rintro k g v nm j a b c d f hv hm ⟨h1, h2, h3, h4, h5, h6⟩ hf
    exact MNC.bind (mnc_mixCall hn nm s j hv hm h1 h2 h3 h4 h5 h6) (mlocal_mixCall hn _ _ _ _ _ _ _ (ks_known hm) hv.known)
      fun k1 g1 v l1 e1 kv q => hf k1 g1 v l1 e1 (q.inv kv) fun u hu => (hm u hu).ext l1 e1
  refine step _ _ _ _ _ _ hv hm (by norm_num) fun k g v _ _ hv hm => ?_
  refine step _ _ _ _ _ _ hv hm (by norm_num) fun k g v _ _ hv hm => ?_
  refine step _ _ _ _ _ _ hv hm (by norm_num) fun k g v _ _ hv hm => ?_
  refine step _ _ _ _ _ _ hv hm (by norm_num) fun k g v _ _ hv hm => ?_
  refine step _ _ _ _ _ _ hv hm (by norm_num) fun k g v _ _ hv hm => ?_
  refine step _ _ _ _ _ _ hv hm (by norm_num) fun k g v _ _ hv hm => ?_
  refine step _ _ _ _ _ _ hv hm (by norm_num) fun k g v _ _ hv hm => ?_
  exact mnc_mixCall hn _ s _ hv hm (by norm_num) (by norm_num) (by norm_num) (by norm_num) (by norm_num) (by norm_num)

theorem mnc_roundLoop (hn : 0 < n) (j i : ℕ) (hv : VInv n k g v) (hm : ∀ u ∈ m, KS n k g u) :
    MNC n k g (fun g' v' => VQ g' v') (roundLoop m j i v : MSynth F _) := by
  induction j generalizing i v k g with
  | zero => exact MNC.pure hv.q
  | succ j ih =>
    exact MNC.bind (mnc_roundBody hn i hv hm) (mlocal_roundBody hn i (ks_known hm) hv.known) fun k1 g1 v l1 e1 kv q =>
      ih (i + 1) (q.inv kv) fun u hu => (hm u hu).ext l1 e1

/-- The chaining value: word `i` is kept in place `i`. -/
def HQ (g : ℕ → Kind) (h : List UInt32) : Prop := ∀ (i : ℕ) (u : UInt32), h[i]? = some u → BW (i % 8) g u

theorem HQ.ext (hh : HQ g h) (hk : Known n k h) (e : Ext k g g') : HQ g' h := fun i u hu => (hh i u hu).ext (hk u (List.mem_of_getElem? hu)) e

theorem snc_finalLoop (j i : ℕ) (hv : VQ g v) (kv : Known n k v) (hh : HQ g h) (kh : Known n k h) :
    SNC n k g (fun g' h' => HQ g' h' ∧ h'.length = h.length) (finalLoop v j i h : Synth F _) := by
  induction j generalizing i h k g with
  | zero => exact SNC.pure ⟨hh, rfl⟩
  | succ j ih =>
    unfold finalLoop
    split
    · rename_i hi vi vi8 e1 e2 e3
      have k1 : Known n k hi := kh _ (List.mem_of_getElem? e1)
      have k2 : Known n k vi := kv _ (List.mem_of_getElem? e2)
      have k3 : Known n k vi8 := kv _ (List.mem_of_getElem? e3)
      have b1 := hh i hi e1
      have b2 := hv.bw i vi e2
      have b3 := hv.bw (i + 8) vi8 e3
      rw [Nat.add_mod_right] at b3
      refine SNC.bind (SNC.inNs _ (SNC.bind (SNC.inNs _ (snc_xor_bw b1 b2 k1 k2)) (SLocal.inNs _ (slocal_xor k1 k2)) fun k' g' r h' e' hr q =>
        SNC.inNs _ (snc_xor_bw q (b3.ext k3 e') hr (Known.lift k3 h'))))
        (SLocal.inNs _ (SLocal.bind (SLocal.inNs _ (slocal_xor k1 k2)) fun k' r h' hr =>
          SLocal.inNs _ (slocal_xor hr (Known.lift k3 h')))) fun k' g' r h' e' hr q => ?_
      refine (ih (i + 1) ((hv.inv kv).ext h' e').q (Known.lift kv h') ?_ (known_set (Known.lift kh h') hr _)).mono fun _ _ _ h => ⟨h.1, by simpa using h.2⟩
      intro l u hu
      rw [List.getElem?_set] at hu
      split at hu
      · rename_i e
        subst e
        split at hu
        · cases hu; exact q
        · cases hu
      · exact (hh.ext kh e') l u hu
    · exact SNC.panic

theorem vq_start (hh : HQ g h) (hl : h.length = 8) : VQ g (h ++ ivTail) := by
  have hiv : ∀ (i : ℕ) (u : UInt32), ivTail[i]? = some u → ∃ c, u = UInt32.constant c := by
    intro i u hu
    have := List.mem_of_getElem? hu
    simp only [ivTail, List.mem_cons, List.not_mem_nil, or_false] at this
    rcases this with rfl | rfl | rfl | rfl | rfl | rfl | rfl | rfl <;> exact ⟨_, rfl⟩
  refine ⟨fun i u hu => ?_, fun i u h1 h2 hu => ?_⟩ <;> rw [List.getElem?_append] at hu <;> split at hu
  · exact hh i u hu
  · obtain ⟨c, rfl⟩ := hiv _ _ hu
    exact bw_constant _ _
  · omega
  · obtain ⟨c, rfl⟩ := hiv _ _ hu
    exact sw_constant _

theorem snc_compression (hn : 0 < n) (t : BitVec 64) (f : Bool) (hh : HQ g h) (kh : Known n k h) (hm : ∀ u ∈ m, KS n k g u) :
    SNC n k g (fun g' h' => HQ g' h' ∧ h'.length = h.length) (compression h m t f : Synth F _) := by
  unfold compression
  split
  · rename_i h8
    split
    · dsimp only
      have hv := (vq_start hh h8).inv (known_list_append kh known_ivTail)
      split
      · rename_i v12 v13 v14 e1 e2 e3
        have k1 : Known n k v12 := hv.known _ (List.mem_of_getElem? e1)
        have k2 : Known n k v13 := hv.known _ (List.mem_of_getElem? e2)
        have k3 : Known n k v14 := hv.known _ (List.mem_of_getElem? e3)
        refine SNC.bind (SNC.inNs _ (snc_xor_bw (hv.bw _ _ e1) (bw_constant _ _) k1 known_constant)) (SLocal.inNs _ (slocal_xor k1 known_constant))
          fun l1 g1 r1 h1 x1 kr1 q1 => ?_
        have hv1 : VInv n l1 g1 ((h ++ ivTail).set 12 r1) :=
          ((hv.ext h1 x1).q.set q1 fun _ _ => by omega).inv (known_set (Known.lift hv.known h1) kr1 _)
        have k2' := Known.lift k2 h1
        refine SNC.bind (SNC.inNs _ (snc_xor_bw ((hv.bw _ _ e2).ext k2 x1) (bw_constant _ _) k2' known_constant))
          (SLocal.inNs _ (slocal_xor k2' known_constant)) fun l2 g2 r2 h2 x2 kr2 q2 => ?_
        have hv2 : VInv n l2 g2 (((h ++ ivTail).set 12 r1).set 13 r2) :=
          ((hv1.ext h2 x2).q.set q2 fun _ _ => by omega).inv (known_set (Known.lift hv1.known h2) kr2 _)
        have X2 : Ext k g g2 := x1.trans h1 x2
        have k3' : Known n l2 v14 := Known.lift k3 (by omega)
        have b3 := (hv.bw _ _ e3).ext k3 X2
        refine SNC.bind (P := fun g' v => VQ g' v) (β := List UInt32) ?_ ?_ fun l3 g3 v h3 x3 kv q3 => ?_
        · split
          · exact SNC.bind (SNC.inNs _ (snc_xor_bw b3 (bw_constant _ _) k3' known_constant)) (SLocal.inNs _ (slocal_xor k3' known_constant))
              fun l3 g3 r3 h3 x3 kr3 q3 => SNC.pure ((hv2.ext h3 x3).q.set q3 fun _ _ => by omega)
          · exact SNC.pure hv2.q
        · split
          · exact SLocal.bind (SLocal.inNs _ (slocal_xor k3' known_constant)) fun l3 r3 h3 hr3 =>
              SLocal.pure (known_set (Known.lift hv2.known h3) hr3 _)
          · exact SLocal.pure hv2.known
        · have X3 : Ext k g g3 := X2.trans (by omega) x3
          have hm3 : ∀ u ∈ m, KS n l3 g3 u := fun u hu => (hm u hu).ext (by omega) X3
          refine SNC.bind (MNC.withMultiEq (mnc_roundLoop hn _ _ (q3.inv kv) hm3) fun _ _ _ e h => h.safer e)
            (MLocal.withMultiEq hn (mlocal_roundLoop hn _ _ (ks_known hm3) kv)) fun l4 g4 v h4 x4 kv4 q4 => ?_
          exact snc_finalLoop _ _ q4 kv4 (hh.ext kh (X3.trans (by omega) x4)) (Known.lift kh (by omega))
      · exact SNC.panic
    · exact SNC.panic
  · exact SNC.panic

theorem ks_constant (v : BitVec 32) : KS n k g (UInt32.constant v) := ⟨known_constant, sw_constant v⟩

theorem sw_fromBits {l : List Boolean} (hl : ∀ b ∈ l, SafeB g b) (h : fromBits l = some u) : SW g u := by
  refine ⟨short_fromBits h, fun b hb => hl b ?_⟩
  unfold fromBits at h
  split at h
  · cases h; exact hb
  · cases h

theorem sw_mkBlock {b : List Boolean} {w : List UInt32} (hb : ∀ x ∈ b, SafeB g x) (h : mkBlock b = some w) : ∀ u ∈ w, SW g u := by
  unfold mkBlock at h
  obtain ⟨ws, h1, h⟩ := Option.bind_eq_some_iff.1 h
  obtain ⟨us, h2, h⟩ := Option.bind_eq_some_iff.1 h
  cases h
  intro u hu
  rcases List.mem_append.1 hu with hu | hu
  · obtain ⟨x, hx, h3⟩ := Sha256.mem_mapM h2 hu
    refine sw_fromBits (fun y hy => ?_) h3
    rcases List.mem_append.1 (show y ∈ x ++ _ from hy) with hy | hy
    · exact hb y (Sha256.mem_chunks h1 hx hy)
    · rw [List.eq_of_mem_replicate hy]; trivial
  · rw [List.eq_of_mem_replicate hu]; exact sw_constant _

theorem sw_mkBlocks {b : List Boolean} {w : List (List UInt32)} (hb : ∀ x ∈ b, SafeB g x) (h : mkBlocks b = some w) :
    ∀ l ∈ w, ∀ u ∈ l, SW g u := by
  unfold mkBlocks at h
  obtain ⟨ws, h1, h⟩ := Option.bind_eq_some_iff.1 h
  obtain ⟨us, h2, h⟩ := Option.bind_eq_some_iff.1 h
  cases h
  intro l hl u hu
  split at hl
  · rw [List.mem_singleton] at hl
    subst hl
    rw [List.eq_of_mem_replicate hu]; exact sw_constant _
  · obtain ⟨x, hx, h3⟩ := Sha256.mem_mapM h2 hl
    exact sw_mkBlock (fun y hy => hb y (Sha256.mem_chunks h1 hx hy)) h3 u hu

theorem snc_blockLoop (hn : 0 < n) (len i : ℕ) {bs : List (List UInt32)} (hh : HQ g h) (kh : Known n k h)
    (hb : ∀ l ∈ bs, ∀ u ∈ l, KS n k g u) :
    SNC n k g (fun g' h' => HQ g' h' ∧ h'.length = h.length) (blockLoop len i h bs : Synth F _) := by
  induction bs generalizing i h k g with
  | nil => exact SNC.panic
  | cons b bs ih =>
    have hb' : ∀ u ∈ b, KS n k g u := hb b (by simp)
    cases bs with
    | nil => exact SNC.inNs _ (snc_compression hn _ _ hh kh hb')
    | cons b' bs =>
      refine SNC.bind (SNC.inNs _ (snc_compression hn _ _ hh kh hb')) (SLocal.inNs _ (slocal_compression hn _ _ kh (ks_known hb')))
        fun k1 g1 c h1 e1 kc q => ?_
      exact (ih (i + 1) q.1 kc fun l hl u hu => (hb l (List.mem_cons_of_mem _ hl) u hu).ext h1 e1).mono fun _ _ _ h => ⟨h.1, h.2.trans q.2⟩

/-- Words kept in different places have different variables. -/
theorem once_words (hh : HQ g h) (hl : h.length ≤ 8) : Once g (h.flatMap UInt32.intoBits) := by
  have key : ∀ (l : List UInt32) (s : ℕ), s + l.length ≤ 8 → (∀ i u, l[i]? = some u → BW (s + i) g u) → Once g (l.flatMap UInt32.intoBits) := by
    intro l
    induction l with
    | nil => intro s _ _; exact .nil
    | cons u us ih =>
      intro s hs hb
      rw [List.flatMap_cons]
      rw [List.length_cons] at hs
      have b0 := hb 0 u rfl
      refine once_append b0.once (ih (s + 1) (by omega) fun i w hw => by
        have := hb (i + 1) w (by simpa using hw); rwa [show s + 1 + i = s + (i + 1) by omega]) fun j hj x hx h1 y hy h2 => ?_
      obtain ⟨w, hw, hy⟩ := List.mem_flatMap.1 hy
      obtain ⟨i, hi⟩ := List.mem_iff_getElem?.1 hw
      have e1 := ((b0.own x hx).hasVar h1).resolve_left hj
      have e2 := (((hb (i + 1) w (by simpa using hi)).own y hy).hasVar h2).resolve_left hj
      rw [e1] at e2
      injection e2 with e2
      omega
  refine key h 0 (by omega) fun i u hu => ?_
  have hi : i < h.length := (List.getElem?_eq_some_iff.1 hu).1
  have := hh i u hu
  rw [Nat.mod_eq_of_lt (by omega)] at this
  rwa [Nat.zero_add]

theorem snc_blake2s (hn : 0 < n) {input : List Boolean} (p : List (BitVec 8)) (hi : Known n k input) (gi : ∀ b ∈ input, SafeB g b) :
    SNC n k g (fun g' l => Once g' l) (blake2s input p : Synth F _) := by
  unfold blake2s
  split
  · split
    · dsimp only
      split
      · rename_i bs hbs
        refine SNC.map (f := fun h => List.flatMap UInt32.intoBits h) ((snc_blockLoop hn _ _ ?_ ?_
          fun l hl u hu => ⟨known_mkBlocks hi hbs l hl u hu, sw_mkBlocks gi hbs l hl u hu⟩).mono fun _ _ _ h => once_words h.1 h.2.le)
        · intro i u hu
          have := List.mem_of_getElem? hu
          simp only [List.mem_cons, List.not_mem_nil, or_false] at this
          rcases this with rfl | rfl | rfl | rfl | rfl | rfl | rfl | rfl <;> exact bw_constant _ _
        · repeat (first | exact known_list_nil | refine known_list_cons known_constant ?_)
      · exact SNC.panic
    · exact SNC.panic
  · exact SNC.panic

end Blake2s

/-! ### Packing -/

theorem packNum_balZ {bits : List Boolean} (ho : Once g bits) :
    BalZ g (2 ^ bits.length - 1) (packNum (Num.zero : Num F) 1 bits).lcomb := by
  have key : ∀ (bits : List Boolean) (num num' : Num F) (q : F), num.lcomb = num'.lcomb → (packNum num q bits).lcomb = (packNum num' q bits).lcomb := by
    intro bits
    induction bits with
    | nil => intro _ _ _ h; exact h
    | cons b bs ih =>
      intro num num' q h
      refine ih _ _ _ ?_
      show num.lcomb + b.lc q = num'.lcomb + b.lc q
      rw [h]
  have := balZ_bits (F := F) (N := 0) BalZ.zero ho (fun j _ h => (not_writes_zero h).elim) (m := 1) Nat.one_pos (q := (1 : F)) (by simp)
    (add := fun l q bs => (packNum ⟨none, l⟩ q bs).lcomb) (fun _ _ => rfl) (fun l q b bs => key bs _ _ _ rfl)
  rw [key bits Num.zero ⟨none, LC.zero⟩ 1 rfl]
  simpa using this.1

theorem snc_packChunks_once (i : ℕ) {l : List (List Boolean)} (ho : ∀ x ∈ l, Once g x) (hl : ∀ x ∈ l, x.length ≤ CAPACITY F) :
    SNC n k g (fun _ _ => True) (packChunks i l : Synth F _) := by
  induction l generalizing i n g with
  | nil => exact SNC.pure trivial
  | cons b l ih =>
    refine SNC.inputBind fun _ => SNC.enforceBind ⟨fun j hj => ?_, fun x hx => coeff_var hx⟩
      (ih (i + 1) (fun x hx => (ho x (by simp [hx])).safer (safer_hit _ _)) fun x hx => hl x (by simp [hx]))
    by_cases hs : g j = .safe
    · exact .inl hs
    · refine .inr ?_
      have hp : 2 ^ b.length ≤ 2 ^ CAPACITY F := Nat.pow_le_pow_right (by norm_num) (hl b (by simp))
      have hc : 2 ^ CAPACITY F < p F := two_pow_capacity_lt
      have h0 : 1 ≤ 2 ^ b.length := Nat.one_le_two_pow
      have := (BalZ.zero.addScaled (packNum_balZ (F := F) (ho b (by simp))) (m := 1) (by norm_num) (q := (1 : F)) (by simp)).coeff_ne
        (by omega) hs hj
      exact this

theorem snc_packIntoInputs_once {l : List Boolean} (h : Once g l) : SNC n k g (fun _ _ => True) (packIntoInputs l : Synth F _) := by
  unfold packIntoInputs
  split
  · exact SNC.panic
  · rename_i cs hcs
    unfold chunks? at hcs
    split at hcs
    · cases hcs
    · rename_i hc
      cases hcs
      refine snc_packChunks_once 0 (fun x hx => ?_) fun x hx => chunksAux_length_le _ _ _ _ hx
      have hf := chunksAux_flatten (CAPACITY F) (Nat.pos_of_ne_zero hc) l.length l le_rfl
      exact List.Pairwise.sublist (hf ▸ List.sublist_flatten_of_mem hx) h

end Bellman
