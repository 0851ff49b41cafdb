import Verif.Proofs.ConNum
import Verif.Proofs.ScopeHash

/-!
# `MultiEq`, `UInt32`, SHA-256 and BLAKE2s constrain the variables they allocate
-/

namespace Bellman

open PrimeField

set_option linter.unusedSectionVars false

variable {F : Type} [PrimeField F] {n k : ℕ} {α β : Type}

/-- `SCon` for programs with a `MultiEq`, with a fact about the result. -/
def MCon (n k : ℕ) (N A : ℕ) (Q : α → Prop) (m : MSynth F α) : Prop :=
  ∀ s : MEq F, Known n k s → ∀ t r, Exec (m.run.run s) t r → Numbered n k t → (consOf t).length ≤ N ∧ numAux t ≤ A ∧
    ∀ a s', r = some (.ok a, s') → Q a ∧ ∀ j, k ≤ j → j < k + numAux t → Constrained (consOf t) (.aux j)

namespace MCon

variable {N N' A A' : ℕ} {Q : α → Prop} {R : β → Prop}

theorem le {m : MSynth F α} (h : MCon n k N A Q m) (hN : N ≤ N') (hA : A ≤ A') : MCon n k N' A' Q m :=
  fun s hs t r he ht => ⟨(h s hs t r he ht).1.trans hN, (h s hs t r he ht).2.1.trans hA, (h s hs t r he ht).2.2⟩

theorem mono {Q' : α → Prop} {m : MSynth F α} (h : MCon n k N A Q m) (hq : ∀ a, Q a → Q' a) : MCon n k N A Q' m :=
  fun s hs t r he ht => ⟨(h s hs t r he ht).1, (h s hs t r he ht).2.1, fun a s' hr =>
    ⟨hq a ((h s hs t r he ht).2.2 a s' hr).1, ((h s hs t r he ht).2.2 a s' hr).2⟩⟩

theorem pure {a : α} (hq : Q a) : MCon n k N A Q (pure a : MSynth F α) := by
  intro s hs t r he ht
  cases he
  refine ⟨Nat.zero_le _, Nat.zero_le _, ?_⟩
  rintro _ _ ⟨⟩
  refine ⟨hq, fun j h1 h2 => ?_⟩
  rw [numAux_nil] at h2
  omega

theorem lift {m : Synth F α} (h : SCon n k noVar N A m) (hq : SPost n k Q m) : MCon n k N A Q (MSynth.lift m) := by
  intro s hs t r he ht
  rcases Exec.bind_inv (show Exec (m.run.bind fun r => .ret (r, s)) t r from he) with ⟨h1, rfl⟩ | ⟨t1, t2, a, rfl, h1, h2⟩
  · obtain ⟨a1, a2, -⟩ := h _ _ h1 ht
    exact ⟨a1, a2, by rintro _ _ ⟨⟩⟩
  · cases h2
    rw [List.append_nil] at ht ⊢
    obtain ⟨a1, a2, a3⟩ := h _ _ h1 ht
    refine ⟨a1, a2, ?_⟩
    rintro b _ ⟨⟩
    exact ⟨hq _ _ h1 ht, fun j h2 h3 => a3 b rfl _ (.inr ⟨j, rfl, h2, h3⟩)⟩

theorem panic {e : String} : MCon n k N A Q (MSynth.lift (Synth.panic e) : MSynth F α) := lift SCon.panic SPost.panic

theorem bind [Handle α] {m : MSynth F α} {g : α → MSynth F β} (h : MCon n k N A Q m) (hc : MLocal n k m)
    (hg : ∀ k' a, k ≤ k' → Known n k' a → Q a → MCon n k' N' A' R (g a)) : MCon n k (N + N') (A + A') R (m >>= g) := by
  intro s hs t r he ht
  rcases Exec.bind_inv he with ⟨h1, rfl⟩ | ⟨t1, t2, ⟨a, s1⟩, rfl, h1, h2⟩
  · obtain ⟨a1, a2, -⟩ := h s hs _ _ h1 ht
    exact ⟨a1.trans (Nat.le_add_right _ _), a2.trans (Nat.le_add_right _ _), by rintro _ _ ⟨⟩⟩
  · obtain ⟨ht1, ht2⟩ := numbered_append.1 ht
    obtain ⟨-, hx⟩ := Circ.Scope.exec (hc s hs) h1 ht1
    obtain ⟨z1, hs1, q1⟩ := hx _ rfl
    obtain ⟨l1, m1, c1⟩ := h s hs _ _ h1 ht1
    rw [consOf_append, List.length_append, numAux_append]
    rw [z1] at ht2
    cases a with
    | ok a =>
      obtain ⟨l2, m2, c2⟩ := hg _ a (Nat.le_add_right _ _) (q1 a rfl) (c1 _ _ rfl).1 s1 hs1 t2 r h2 ht2
      refine ⟨add_le_add l1 l2, add_le_add m1 m2, fun b s' hb => ⟨(c2 b s' hb).1, fun j hj1 hj2 => ?_⟩⟩
      by_cases hj : j < k + numAux t1
      · exact ((c1 _ _ rfl).2 j hj1 hj).left
      · exact ((c2 b s' hb).2 j (by omega) (by omega)).right
    | error e =>
      cases h2
      simp only [consOf_nil, List.length_nil, Nat.add_zero, numAux_nil]
      exact ⟨l1.trans (Nat.le_add_right _ _), m1.trans (Nat.le_add_right _ _), by rintro _ _ ⟨⟩⟩

theorem inNs (e : String) {m : MSynth F α} (h : MCon n k N A Q m) : MCon n k N A Q (MSynth.inNs e m) := by
  intro s hs t r he ht
  cases he with
  | push he =>
    rcases Exec.bind_inv he with ⟨h1, rfl⟩ | ⟨t1, t2, a, rfl, h1, h2⟩
    · obtain ⟨a1, a2, -⟩ := h s hs _ _ h1 ht
      exact ⟨a1, a2, by rintro _ _ ⟨⟩⟩
    · obtain ⟨ht1, ht2⟩ := numbered_append.1 (show Numbered n k (t1 ++ t2) from ht)
      cases h2 with
      | pop h2 =>
        cases h2
        obtain ⟨l1, m1, c1⟩ := h s hs _ _ h1 ht1
        rw [consOf_push, consOf_append, numAux_push, numAux_append]
        simp only [consOf_pop, consOf_nil, List.append_nil, numAux_pop, numAux_nil, Nat.add_zero]
        exact ⟨l1, m1, c1⟩

theorem index {l : List α} (i : ℕ) (hq : ∀ x ∈ l, Q x) : MCon n k 0 0 Q (MSynth.index l i : MSynth F α) := by
  unfold MSynth.index
  split
  · rename_i x hx
    exact pure (hq x (List.mem_of_getElem? hx))
  · exact panic

theorem enforceEqual (b : ℕ) (l r : LC F) : MCon n k 1 0 (fun _ => True) (MEq.enforceEqual b l r) := by
  have add : ∀ (s : MEq F) t x, Exec
      (if CAPACITY F > s.bitsUsed + b then
        (.ret (.ok (), ⟨s.ops, s.bitsUsed + b, s.lhs + ((2 ^ s.bitsUsed : F), l), s.rhs + ((2 ^ s.bitsUsed : F), r)⟩) :
          Circ F (Except SynthesisError Unit × MEq F))
      else .panic "assert!((Scalar::CAPACITY as usize) > (self.bits_used + num_bits))") t x → t = [] := by
    intro s t x h
    split at h <;> cases h <;> rfl
  intro s hs t x he ht
  replace he := (show Exec (if CAPACITY F ≤ s.bitsUsed + b then _ else _) t x from he)
  split at he
  · rcases (show Exec (Circ.enforce _ _ _ _ _) t x from he) with _ | _ | _ | _ | _ | he
    cases add _ _ _ he
    refine ⟨le_rfl, le_rfl, fun _ _ _ => ⟨trivial, fun j h1 h2 => ?_⟩⟩
    rw [numAux_enforce, numAux_nil] at h2
    omega
  · cases add _ _ _ he
    refine ⟨Nat.zero_le _, le_rfl, fun _ _ _ => ⟨trivial, fun j h1 h2 => ?_⟩⟩
    rw [numAux_nil] at h2
    omega

theorem withMultiEq {m : MSynth F α} (h : MCon n k N A Q m) : SCon n k noVar (N + 1) A (MSynth.withMultiEq m) ∧
    SPost n k Q (MSynth.withMultiEq m) := by
  have drop : ∀ (s : MEq F) (x : Except SynthesisError α) t r, Exec (MEq.drop s x) t r →
      (consOf t).length ≤ 1 ∧ numAux t = 0 ∧ r = some x := by
    intro s x t r he
    unfold MEq.drop at he
    split at he
    · rcases (show Exec (Circ.enforce _ _ _ _ _) t r from he) with _ | _ | _ | _ | _ | he
      cases he
      exact ⟨le_rfl, rfl, rfl⟩
    · cases he
      exact ⟨Nat.zero_le _, rfl, rfl⟩
  have key : ∀ t r, Exec (MSynth.withMultiEq m).run t r → Numbered n k t → (consOf t).length ≤ N + 1 ∧ numAux t ≤ A ∧
      ∀ a, r = some (.ok a) → Q a ∧ ∀ j, k ≤ j → j < k + numAux t → Constrained (consOf t) (.aux j) := by
    intro t r he ht
    rcases Exec.bind_inv he with ⟨h1, rfl⟩ | ⟨t1, t2, ⟨a, s1⟩, rfl, h1, h2⟩
    · obtain ⟨a1, a2, -⟩ := h _ ⟨known_zero, known_zero⟩ _ _ h1 ht
      exact ⟨by omega, a2, by rintro _ ⟨⟩⟩
    · obtain ⟨ht1, ht2⟩ := numbered_append.1 ht
      obtain ⟨a1, a2, a3⟩ := h _ ⟨known_zero, known_zero⟩ _ _ h1 ht1
      obtain ⟨d1, d2, rfl⟩ := drop _ _ _ _ h2
      rw [consOf_append, List.length_append, numAux_append, d2, Nat.add_zero]
      refine ⟨by omega, a2, ?_⟩
      rintro b ⟨⟩
      exact ⟨(a3 b s1 rfl).1, fun j h1 h2 => ((a3 b s1 rfl).2 j h1 h2).left⟩
  refine ⟨fun t r he ht => ⟨(key t r he ht).1, (key t r he ht).2.1, ?_⟩, fun t a he ht => ((key t _ he ht).2.2 a rfl).1⟩
  rintro a ha x (hx | ⟨j, rfl, h1, h2⟩)
  · exact hx.elim
  · exact ((key t r he ht).2.2 a ha).2 j h1 h2

end MCon

theorem chunksAux_count_le {α : Type} (c : ℕ) (hc : 0 < c) (f : ℕ) (l : List α) :
    (chunksAux c f l).length ≤ (l.length + (c - 1)) / c := by
  induction f generalizing l with
  | zero => exact Nat.zero_le _
  | succ f ih =>
    cases l with
    | nil => exact Nat.zero_le _
    | cons x xs =>
      show (chunksAux c f ((x :: xs).drop c)).length + 1 ≤ _
      refine (Nat.succ_le_succ (ih _)).trans ?_
      rw [List.length_drop, List.length_cons]
      rw [Nat.succ_le_iff, ← Nat.add_one_le_iff, ← Nat.add_div_right _ hc]
      by_cases h : c ≤ xs.length + 1
      · exact Nat.div_le_div_right (by omega)
      · rw [show xs.length + 1 - c = 0 by omega, show 0 + (c - 1) + c = c + (c - 1) by omega, Nat.add_div_left _ hc,
          Nat.div_eq_of_lt (by omega : c - 1 < c)]
        exact (Nat.one_le_div_iff hc).2 (by omega)

theorem chunks_length_le {α : Type} {c : ℕ} {l : List α} {ll : List (List α)} (h : chunks? c l = some ll) :
    ll.length ≤ (l.length + (c - 1)) / c := by
  unfold chunks? at h
  split at h
  · cases h
  · cases h
    exact chunksAux_count_le c (by omega) _ _

namespace UInt32

/-- At most 32 bits. -/
def Short (u : UInt32) : Prop := u.bits.length ≤ 32

theorem short_rotr (u : UInt32) (i : ℕ) : (u.rotr i).Short := List.length_take_le _ _
theorem short_shr (u : UInt32) (i : ℕ) : (u.shr i).Short := List.length_take_le _ _
theorem shiftBits_length (i : ℕ) (v : BitVec 32) : (shiftBits i v).length = i := by
  induction i generalizing v with
  | zero => rfl
  | succ i ih => simp [shiftBits, ih]
theorem short_constant (v : BitVec 32) : (UInt32.constant v).Short := by
  show ((shiftBits 32 v).map Boolean.constant).length ≤ 32
  rw [List.length_map, shiftBits_length]

theorem short_fromBits {l : List Boolean} {u : UInt32} (h : fromBits l = some u) : u.Short := by
  unfold fromBits at h
  split at h
  · rename_i hl; cases h; exact hl.le
  · cases h

theorem short_fromBitsBe {l : List Boolean} {u : UInt32} (h : fromBitsBe l = some u) : u.Short := by
  unfold fromBitsBe at h
  split at h
  · rename_i hl; cases h; exact (by simpa [Short] using hl.le)
  · cases h

theorem scon_allocLoop (hn : 0 < n) (i : ℕ) (vs : List (Option Bool)) :
    SCon n k noVar vs.length vs.length (allocLoop i vs : Synth F _) := by
  induction vs generalizing i k with
  | nil => exact SCon.pure
  | cons v vs ih =>
    refine SCon.le (SCon.bind (SCon.inNs _ (AllocatedBit.scon_alloc v)) (SLocal.inNs _ (AllocatedBit.slocal_alloc hn v))
      fun k1 x h1 hx => SCon.bind (ih (i + 1)) (slocal_allocLoop hn _ _) fun k2 xs h2 hxs => SCon.pure (N := 0) (A := 0)) ?_ ?_ <;>
      simp only [List.length_cons] <;> omega

theorem scon_alloc (hn : 0 < n) (v : Option (BitVec 32)) : SCon n k noVar 32 32 (alloc v : Synth F _) := by
  refine SCon.le (SCon.bind (scon_allocLoop hn _ _) (slocal_allocLoop hn _ _) fun _ _ _ h => SCon.pure (N := 0) (A := 0)) ?_ ?_ <;>
    cases v <;> simp [shiftBits_length]

theorem scon_triopLoop {fn : ℕ → Boolean → Boolean → Boolean → Synth F Boolean} {as bs cs : List Boolean} {C : ℕ}
    (hf : ∀ i k a b c, Known n k a → Known n k b → Known n k c → SLocal n k (fn i a b c))
    (hs : ∀ i k a b c, Known n k a → Known n k b → Known n k c → SCon n k noVar C C (fn i a b c)) (i : ℕ)
    (ha : Known n k as) (hb : Known n k bs) (hc : Known n k cs) :
    SCon n k noVar (C * as.length) (C * as.length) (triopLoop fn i as bs cs) := by
  induction as generalizing bs cs i k with
  | nil => exact SCon.pure
  | cons a as ih =>
    cases bs with
    | nil => exact SCon.pure
    | cons b bs =>
      cases cs with
      | nil => exact SCon.pure
      | cons c cs =>
        refine SCon.le (SCon.bind (hs i k a b c (ha a (by simp)) (hb b (by simp)) (hc c (by simp)))
          (hf i k a b c (ha a (by simp)) (hb b (by simp)) (hc c (by simp))) fun k1 r h1 hr => SCon.bind
            (ih (i + 1) (Known.lift (fun x hx => ha x (by simp [hx])) h1)
              (Known.lift (fun x hx => hb x (by simp [hx])) h1) (Known.lift (fun x hx => hc x (by simp [hx])) h1))
            (slocal_triopLoop hf (i + 1) (Known.lift (fun x hx => ha x (by simp [hx])) h1)
              (Known.lift (fun x hx => hb x (by simp [hx])) h1) (Known.lift (fun x hx => hc x (by simp [hx])) h1))
            fun k2 rs h2 hrs => SCon.pure (N := 0) (A := 0)) ?_ ?_ <;> rw [List.length_cons, Nat.mul_succ] <;> omega

variable {a b c : UInt32}

theorem scon_sha256Maj (hn : 0 < n) (ha : Known n k a) (hb : Known n k b) (hc : Known n k c) (hs : a.Short) :
    SCon n k noVar 64 64 (sha256Maj a b c : Synth F _) := by
  have hs : a.bits.length ≤ 32 := hs
  refine SCon.le (SCon.bind
    (scon_triopLoop (fun _ _ _ _ _ ha hb hc => SLocal.inNs _ (Boolean.slocal_sha256Maj hn ha hb hc))
      (fun _ _ _ _ _ ha hb hc => SCon.inNs _ (Boolean.scon_sha256Maj hn ha hb hc)) 0 ha hb hc)
    (slocal_triopLoop (fun _ _ _ _ _ ha hb hc => SLocal.inNs _ (Boolean.slocal_sha256Maj hn ha hb hc)) 0 ha hb hc)
    fun _ _ _ h => SCon.pure (N := 0) (A := 0)) ?_ ?_ <;> omega

theorem scon_sha256Ch (hn : 0 < n) (ha : Known n k a) (hb : Known n k b) (hc : Known n k c) (hs : a.Short) :
    SCon n k noVar 32 32 (sha256Ch a b c : Synth F _) := by
  have hs : a.bits.length ≤ 32 := hs
  refine SCon.le (SCon.bind
    (scon_triopLoop (fun _ _ _ _ _ ha hb hc => SLocal.inNs _ (Boolean.slocal_sha256Ch hn ha hb hc))
      (fun _ _ _ _ _ ha hb hc => SCon.inNs _ (Boolean.scon_sha256Ch hn ha hb hc)) 0 ha hb hc)
    (slocal_triopLoop (fun _ _ _ _ _ ha hb hc => SLocal.inNs _ (Boolean.slocal_sha256Ch hn ha hb hc)) 0 ha hb hc)
    fun _ _ _ h => SCon.pure (N := 0) (A := 0)) ?_ ?_ <;> omega

theorem scon_xorLoop {as bs : List Boolean} (i : ℕ) (ha : Known n k as) (hb : Known n k bs) :
    SCon n k noVar bs.length bs.length (xorLoop i as bs : Synth F _) := by
  induction as generalizing bs i k with
  | nil => exact SCon.pure
  | cons a as ih =>
    cases bs with
    | nil => exact SCon.pure
    | cons b bs =>
      have hx := ha a (by simp)
      have hy := hb b (by simp)
      refine SCon.le (SCon.bind (SCon.inNs _ (Boolean.scon_xor hx hy)) (SLocal.inNs _ (Boolean.slocal_xor hx hy)) fun k1 r h1 hr =>
        SCon.bind (ih (i + 1) (Known.lift (fun x hx => ha x (by simp [hx])) h1) (Known.lift (fun x hx => hb x (by simp [hx])) h1))
          (slocal_xorLoop (i + 1) (Known.lift (fun x hx => ha x (by simp [hx])) h1)
            (Known.lift (fun x hx => hb x (by simp [hx])) h1)) fun k2 rs h2 hrs => SCon.pure (N := 0) (A := 0)) ?_ ?_ <;>
      rw [List.length_cons] <;> omega

theorem spost_xorLoop (as bs : List Boolean) (i : ℕ) : SPost n k (fun l => l.length ≤ bs.length) (xorLoop i as bs : Synth F _) := by
  induction as generalizing bs i n k with
  | nil => exact SPost.pure (Nat.zero_le _)
  | cons a as ih =>
    cases bs with
    | nil => exact SPost.pure (Nat.zero_le _)
    | cons b bs =>
      exact SPost.bind SPost.any fun _ _ _ _ _ _ => SPost.bind (ih bs (i + 1)) fun _ _ l _ _ hl => SPost.pure (Nat.succ_le_succ hl)

theorem scon_xor (ha : Known n k a) (hb : Known n k b) (hs : b.Short) : SCon n k noVar 32 32 (xor a b : Synth F _) := by
  have hs : b.bits.length ≤ 32 := hs
  refine SCon.le (SCon.bind (scon_xorLoop 0 ha hb) (slocal_xorLoop 0 ha hb) fun _ _ _ h => SCon.pure (N := 0) (A := 0)) ?_ ?_ <;> omega

theorem spost_xor (hs : b.Short) : SPost n k Short (xor a b : Synth F _) :=
  SPost.bind (spost_xorLoop _ _ 0) fun _ _ _ _ _ h => SPost.pure (h.trans hs)

/-- `xor` in a namespace of a `MultiEq`. -/
theorem mcon_xor (s : String) (ha : Known n k a) (hb : Known n k b) (hs : b.Short) :
    MCon n k 32 32 Short (MSynth.lift (Synth.inNs s (xor a b)) : MSynth F _) :=
  MCon.lift (SCon.inNs _ (scon_xor ha hb hs)) (SPost.inNs _ (spost_xor hs))

theorem mlocal_xor (s : String) (ha : Known n k a) (hb : Known n k b) :
    MLocal n k (MSynth.lift (Synth.inNs s (xor a b)) : MSynth F _) := MLocal.lift (SLocal.inNs _ (slocal_xor ha hb))

theorem scon_resultLoop (hn : 0 < n) (v : Option ℕ) (m i : ℕ) (c : F) {bits : List Boolean} {lc : LC F} (hb : Known n k bits)
    (hl : Known n k lc) {C : ℕ} (hC : m < 2 ^ C) : SCon n k noVar C C (resultLoop v m i c bits lc) := by
  induction m using Nat.strong_induction_on generalizing i c bits lc k C with
  | _ m ih =>
    unfold resultLoop
    split
    · exact SCon.pure
    · cases C with
      | zero => omega
      | succ C =>
        refine SCon.le (SCon.bind (SCon.inNs _ (AllocatedBit.scon_alloc _)) (SLocal.inNs _ (AllocatedBit.slocal_alloc hn _))
          fun k1 x h1 hx => ih (m >>> 1) (by rw [Nat.shiftRight_one]; omega) (C := C) _ _ ?_ ?_ ?_) ?_ ?_
        · exact known_list_append (Known.lift hb h1) (known_list_cons hx known_list_nil)
        · exact known_addTerm (Known.lift hl h1) hx
        · rw [Nat.shiftRight_one]; rw [pow_succ] at hC; omega
        · omega
        · omega

/-- A sum allocates as many bits as the largest possible value has. -/
theorem mcon_addmany (hn : 0 < n) {l : List UInt32} (hl : Known n k l) {C : ℕ} (hC : l.length * (2 ^ 32 - 1) < 2 ^ C) :
    MCon n k (C + 1) C Short (addmany l : MSynth F _) := by
  unfold addmany
  split
  · split
    · split
      · dsimp only
        split
        · exact MCon.pure (short_constant _)
        · refine MCon.le (MCon.bind (MCon.lift (scon_resultLoop hn _ _ _ _ known_list_nil known_zero hC) SPost.any)
            (MLocal.lift (slocal_resultLoop hn _ _ _ _ known_list_nil known_zero)) fun k1 q h1 hq _ =>
              MCon.bind (MCon.enforceEqual _ _ _)
                (MLocal.enforceEqual hn _ (Known.lift (known_addOperands hn _ _ known_zero hl) h1) hq.2.1)
                fun k2 _ h2 _ _ => MCon.pure (N := 0) (A := 0) (List.length_take_le _ _)) ?_ ?_ <;> omega
      · exact MCon.panic
    · exact MCon.panic
  · exact MCon.panic

theorem mcon_addmany2 (hn : 0 < n) {l : List UInt32} (hl : Known n k l) (h : l.length ≤ 2) :
    MCon n k 34 33 Short (addmany l : MSynth F _) := mcon_addmany hn hl (by omega)
theorem mcon_addmany4 (hn : 0 < n) {l : List UInt32} (hl : Known n k l) (h : l.length ≤ 4) :
    MCon n k 35 34 Short (addmany l : MSynth F _) := mcon_addmany hn hl (by omega)
theorem mcon_addmany8 (hn : 0 < n) {l : List UInt32} (hl : Known n k l) (h : l.length ≤ 8) :
    MCon n k 36 35 Short (addmany l : MSynth F _) := mcon_addmany hn hl (by omega)

end UInt32

open Bellman.UInt32

/-- All words have at most 32 bits. -/
def Shorts (l : List UInt32) : Prop := ∀ u ∈ l, u.Short

theorem shorts_set {l : List UInt32} {u : UInt32} (h : Shorts l) (hu : u.Short) (i : ℕ) : Shorts (l.set i u) := fun x hx => by
  rcases List.mem_or_eq_of_mem_set hx with hx | rfl
  · exact h x hx
  · exact hu

theorem shorts_append {l l' : List UInt32} (h : Shorts l) (h' : Shorts l') : Shorts (l ++ l') := fun x hx => by
  rcases List.mem_append.1 hx with hx | hx
  · exact h x hx
  · exact h' x hx

namespace Sha256

theorem mcon_wStep (hn : 0 < n) (i : ℕ) {w : List UInt32} (hw : Known n k w) :
    MCon n k 163 162 (fun _ => True) (wStep i w : MSynth F _) := by
  refine MCon.inNs _ ?_
  refine MCon.le (MCon.bind (MCon.index (Q := fun _ => True) _ fun _ _ => trivial) (MLocal.index hw _) fun k1 w15 h1 hw15 _ =>
    MCon.bind (mcon_xor _ (known_rotr hw15 _) (known_rotr hw15 _) (short_rotr _ _))
      (mlocal_xor _ (known_rotr hw15 _) (known_rotr hw15 _)) fun k2 s0 h2 hs0 _ =>
    MCon.bind (mcon_xor _ hs0 (known_shr (Known.lift hw15 h2) _) (short_shr _ _))
      (mlocal_xor _ hs0 (known_shr (Known.lift hw15 h2) _)) fun k3 s0' h3 hs0' _ =>
    MCon.bind (MCon.index (Q := fun _ => True) _ fun _ _ => trivial) (MLocal.index (Known.lift hw (show k ≤ k3 by omega)) _)
      fun k4 w2 h4 hw2 _ =>
    MCon.bind (mcon_xor _ (known_rotr hw2 _) (known_rotr hw2 _) (short_rotr _ _))
      (mlocal_xor _ (known_rotr hw2 _) (known_rotr hw2 _)) fun k5 s1 h5 hs1 _ =>
    MCon.bind (mcon_xor _ hs1 (known_shr (Known.lift hw2 h5) _) (short_shr _ _))
      (mlocal_xor _ hs1 (known_shr (Known.lift hw2 h5) _)) fun k6 s1' h6 hs1' _ =>
    MCon.bind (MCon.index (Q := fun _ => True) _ fun _ _ => trivial) (MLocal.index (Known.lift hw (show k ≤ k6 by omega)) _)
      fun k7 w16 h7 hw16 _ =>
    MCon.bind (MCon.index (Q := fun _ => True) _ fun _ _ => trivial) (MLocal.index (Known.lift hw (show k ≤ k7 by omega)) _)
      fun k8 w7 h8 hw7 _ => by
    have hl : Known n k8 [w16, s0', w7, s1'] := by known
    exact MCon.bind (MCon.inNs _ (mcon_addmany4 hn hl (by simp))) (MLocal.inNs _ (mlocal_addmany hn hl)) fun k9 t h9 ht _ =>
      MCon.pure (N := 0) (A := 0) trivial) (by omega) (by omega)

theorem mcon_wLoop (hn : 0 < n) (m i : ℕ) {w : List UInt32} (hw : Known n k w) :
    MCon n k (163 * m) (162 * m) (fun _ => True) (wLoop m i w : MSynth F _) := by
  induction m generalizing i w k with
  | zero => exact MCon.pure trivial
  | succ m ih =>
    refine MCon.le (MCon.bind (mcon_wStep hn i hw) (mlocal_wStep hn i hw) fun k1 w h1 hw _ => ih (i + 1) hw) ?_ ?_ <;> omega

/-- A concrete word is short, a deferred sum has at most seven operands. -/
def Maybe.Small : Maybe → Prop
  | .concrete v => v.Short
  | .deferred v => v.length ≤ 7

theorem mcon_compute (hn : 0 < n) {m : Maybe} {o : List UInt32} (hm : Known n k m) (ho : Known n k o) (hs : m.Small)
    (h1 : o.length ≤ 1) : MCon n k 36 35 Short (m.compute o : MSynth F _) := by
  cases m with
  | deferred v =>
    refine mcon_addmany8 hn (known_list_append hm ho) ?_
    rw [List.length_append]
    have : v.length ≤ 7 := hs
    omega
  | concrete v => exact MCon.pure hs

/-- The deferred parts of the state are small. -/
def St.Small (s : St) : Prop := s.a.Small ∧ s.e.Small

theorem mcon_round (hn : 0 < n) {w : List UInt32} (i : ℕ) {s : St} (hw : Known n k w) (hs : Known n k s) (hsm : s.Small) :
    MCon n k 296 294 St.Small (round w i s : MSynth F _) := by
  obtain ⟨ha, hb, hc, hd, he, hf, hg, hh⟩ := hs
  refine MCon.inNs _ ?_
  refine MCon.le (MCon.bind (MCon.inNs _ (mcon_compute hn he known_list_nil hsm.2 (Nat.zero_le _)))
      (MLocal.inNs _ (mlocal_compute hn he known_list_nil)) fun k1 ne h1 hne hsne =>
    MCon.bind (mcon_xor _ (known_rotr hne _) (known_rotr hne _) (short_rotr _ _))
      (mlocal_xor _ (known_rotr hne _) (known_rotr hne _)) fun k2 s1 h2 hs1 _ =>
    MCon.bind (mcon_xor _ hs1 (known_rotr (Known.lift hne h2) _) (short_rotr _ _))
      (mlocal_xor _ hs1 (known_rotr (Known.lift hne h2) _)) fun k3 s1' h3 hs1' _ =>
    MCon.bind (MCon.lift (SCon.inNs _ (scon_sha256Ch hn (Known.lift hne (by omega)) (Known.lift hf (by omega))
        (Known.lift hg (by omega)) hsne)) SPost.any)
      (MLocal.lift (SLocal.inNs _ (slocal_sha256Ch hn (Known.lift hne (by omega)) (Known.lift hf (by omega))
        (Known.lift hg (by omega))))) fun k4 ch h4 hch _ =>
    MCon.bind (MCon.index (Q := fun _ => True) _ fun _ _ => trivial) (MLocal.index (fun _ _ => trivial) _) fun k5 kc h5 _ _ =>
    MCon.bind (MCon.index (Q := fun _ => True) _ fun _ _ => trivial) (MLocal.index (Known.lift hw (by omega)) _) fun k6 wi h6 hwi _ =>
    MCon.bind (MCon.inNs _ (mcon_compute hn (Known.lift ha (by omega)) known_list_nil hsm.1 (Nat.zero_le _)))
      (MLocal.inNs _ (mlocal_compute hn (Known.lift ha (by omega)) known_list_nil)) fun k7 na h7 hna hsna =>
    MCon.bind (mcon_xor _ (known_rotr hna _) (known_rotr hna _) (short_rotr _ _))
      (mlocal_xor _ (known_rotr hna _) (known_rotr hna _)) fun k8 s0 h8 hs0 _ =>
    MCon.bind (mcon_xor _ hs0 (known_rotr (Known.lift hna h8) _) (short_rotr _ _))
      (mlocal_xor _ hs0 (known_rotr (Known.lift hna h8) _)) fun k9 s0' h9 hs0' _ =>
    MCon.bind (MCon.lift (SCon.inNs _ (scon_sha256Maj hn (Known.lift hna (by omega)) (Known.lift hb (by omega))
        (Known.lift hc (by omega)) hsna)) SPost.any)
      (MLocal.lift (SLocal.inNs _ (slocal_sha256Maj hn (Known.lift hna (by omega)) (Known.lift hb (by omega))
        (Known.lift hc (by omega))))) fun k10 maj h10 hmaj _ =>
    MCon.pure (N := 0) (A := 0) ⟨?_, ?_⟩) (by omega) (by omega)
  · exact (by decide : 7 ≤ 7)
  · exact (by decide : 6 ≤ 7)

theorem mcon_rounds (hn : 0 < n) {w : List UInt32} (m i : ℕ) {s : St} (hw : Known n k w) (hs : Known n k s) (hsm : s.Small) :
    MCon n k (296 * m) (294 * m) St.Small (rounds w m i s : MSynth F _) := by
  induction m generalizing i s k with
  | zero => exact MCon.pure hsm
  | succ m ih =>
    refine MCon.le (MCon.bind (mcon_round hn i hw hs hsm) (mlocal_round hn i hw hs) fun k1 s h1 hs hsm =>
      ih (i + 1) (Known.lift hw h1) hs hsm) ?_ ?_ <;> omega

theorem mcon_compressionBody (hn : 0 < n) {w : List UInt32} (hw : Known n k w) {h0 h1 h2 h3 h4 h5 h6 h7 : UInt32} (k0 : Known n k h0)
    (k1 : Known n k h1) (k2 : Known n k h2) (k3 : Known n k h3) (k4 : Known n k h4) (k5 : Known n k h5) (k6 : Known n k h6)
    (k7 : Known n k h7) (s0 : h0.Short) (s4 : h4.Short) :
    MCon n k 27044 26860 (fun l => Shorts l ∧ l.length = 8) (compressionBody w h0 h1 h2 h3 h4 h5 h6 h7 : MSynth F _) := by
  refine MCon.le (MCon.bind (mcon_wLoop hn _ _ hw) (mlocal_wLoop hn _ _ hw) fun l w hl hw _ => (?_ : MCon n l 19220 19084 _ _))
    (by omega) (by omega)
  split
  · have hst : Known n l (⟨.concrete h0, h1, h2, h3, .concrete h4, h5, h6, h7⟩ : St) := by
      refine ⟨?_, ?_, ?_, ?_, ?_, ?_, ?_, ?_⟩
      · exact Known.lift (α := UInt32) k0 hl
      · exact Known.lift (α := UInt32) k1 hl
      · exact Known.lift (α := UInt32) k2 hl
      · exact Known.lift (α := UInt32) k3 hl
      · exact Known.lift (α := UInt32) k4 hl
      · exact Known.lift (α := UInt32) k5 hl
      · exact Known.lift (α := UInt32) k6 hl
      · exact Known.lift (α := UInt32) k7 hl
    refine MCon.le (MCon.bind (mcon_rounds hn _ _ hw (s := ⟨.concrete h0, h1, h2, h3, .concrete h4, h5, h6, h7⟩) hst ⟨s0, s4⟩)
      (mlocal_rounds hn _ _ hw hst) fun m s hm hs hsm => (?_ : MCon n m 276 268 _ _)) (by omega) (by omega)
    obtain ⟨ha, hb, hc, hd, he, hf, hg, hh⟩ := hs
    have add : ∀ {m : ℕ} {x y : UInt32} (e : String), Known n m x → Known n m y →
        MCon n m 34 33 Short (MSynth.inNs e (addmany [x, y]) : MSynth F _) ∧ MLocal n m (MSynth.inNs e (addmany [x, y]) : MSynth F _) := by
      intro m x y e hx hy
      have hl : Known n m [x, y] := by known
      exact ⟨MCon.inNs _ (mcon_addmany2 hn hl (by simp)), MLocal.inNs _ (mlocal_addmany hn hl)⟩
    have q0 : Known n m [h0] := by known
    refine MCon.le (MCon.bind (MCon.inNs _ (mcon_compute hn ha q0 hsm.1 (by simp))) (MLocal.inNs _ (mlocal_compute hn ha q0))
        fun m0 n0 p0 q0 r0 =>
      MCon.bind (add _ (Known.lift k1 (by omega)) (Known.lift hb (by omega))).1
        (add _ (Known.lift k1 (by omega)) (Known.lift hb (by omega))).2 fun m1 n1 p1 q1 r1 =>
      MCon.bind (add _ (Known.lift k2 (by omega)) (Known.lift hc (by omega))).1
        (add _ (Known.lift k2 (by omega)) (Known.lift hc (by omega))).2 fun m2 n2 p2 q2 r2 =>
      MCon.bind (add _ (Known.lift k3 (by omega)) (Known.lift hd (by omega))).1
        (add _ (Known.lift k3 (by omega)) (Known.lift hd (by omega))).2 fun m3 n3 p3 q3 r3 => by
      have q4 : Known n m3 [h4] := by known
      exact MCon.bind (MCon.inNs _ (mcon_compute hn (Known.lift he (by omega)) q4 hsm.2 (by simp)))
        (MLocal.inNs _ (mlocal_compute hn (Known.lift he (by omega)) q4)) fun m4 n4 p4 q4 r4 =>
        MCon.bind (add _ (Known.lift k5 (by omega)) (Known.lift hf (by omega))).1
          (add _ (Known.lift k5 (by omega)) (Known.lift hf (by omega))).2 fun m5 n5 p5 q5 r5 =>
        MCon.bind (add _ (Known.lift k6 (by omega)) (Known.lift hg (by omega))).1
          (add _ (Known.lift k6 (by omega)) (Known.lift hg (by omega))).2 fun m6 n6 p6 q6 r6 =>
        MCon.bind (add _ (Known.lift k7 (by omega)) (Known.lift hh (by omega))).1
          (add _ (Known.lift k7 (by omega)) (Known.lift hh (by omega))).2 fun m7 n7 p7 q7 r7 =>
        MCon.pure (N := 0) (A := 0) ⟨by
          intro u hu
          simp only [List.mem_cons, List.not_mem_nil, or_false] at hu
          rcases hu with rfl | rfl | rfl | rfl | rfl | rfl | rfl | rfl <;> assumption, rfl⟩) (by omega) (by omega)
  · exact MCon.panic

theorem con_compression (hn : 0 < n) {input : List Boolean} {cur : List UInt32} (hi : Known n k input) (hc : Known n k cur)
    (hs : Shorts cur) : SCon n k noVar 27045 26860 (compression input cur : Synth F _) ∧
      SPost n k (fun l => Shorts l ∧ l.length = 8) (compression input cur : Synth F _) := by
  unfold compression
  split
  · split
    · split
      · rename_i w hw
        obtain ⟨cs, h1, h2⟩ := Option.bind_eq_some_iff.1 hw
        refine MCon.withMultiEq (mcon_compressionBody hn (known_mapM (fun _ _ h => known_fromBitsBe h) (known_chunks hi h1) h2)
          ?_ ?_ ?_ ?_ ?_ ?_ ?_ ?_ (hs _ (by simp)) (hs _ (by simp))) <;> exact hc _ (by simp)
      · exact ⟨SCon.panic, SPost.panic⟩
    · exact ⟨SCon.panic, SPost.panic⟩
  · exact ⟨SCon.panic, SPost.panic⟩

theorem shorts_iv : Shorts iv := by
  intro x hx
  obtain ⟨v, -, rfl⟩ := List.mem_map.1 (show x ∈ IV.map UInt32.constant from hx)
  exact short_constant v

theorem scon_sha256BlockNoPadding (hn : 0 < n) {input : List Boolean} (hi : Known n k input) :
    SCon n k noVar 27045 26860 (sha256BlockNoPadding input : Synth F _) := by
  unfold sha256BlockNoPadding
  split
  · exact SCon.le (SCon.bind (con_compression hn hi known_iv shorts_iv).1 (slocal_compression hn hi known_iv) fun _ _ _ hr =>
      SCon.pure (N := 0) (A := 0)) le_rfl le_rfl
  · exact SCon.panic

theorem scon_blockLoop (hn : 0 < n) (i : ℕ) {cur : List UInt32} {bs : List (List Boolean)} (hc : Known n k cur) (hb : Known n k bs)
    (hs : Shorts cur) : SCon n k noVar (27045 * bs.length) (26860 * bs.length) (blockLoop i cur bs : Synth F _) := by
  induction bs generalizing i cur k with
  | nil => exact SCon.pure
  | cons b bs ih =>
    have hb' : Known n k b := hb b (by simp)
    refine SCon.le (SCon.bindPost (SCon.inNs _ (con_compression hn hb' hc hs).1) (SLocal.inNs _ (slocal_compression hn hb' hc))
      (SPost.inNs _ (con_compression hn hb' hc hs).2) fun k1 c h1 hc hs =>
        ih (i + 1) hc (Known.lift (fun x hx => hb x (by simp [hx])) h1) hs.1) ?_ ?_ <;> rw [List.length_cons] <;> omega

theorem spost_blockLoop (hn : 0 < n) (i : ℕ) {cur : List UInt32} {bs : List (List Boolean)} (hc : Known n k cur) (hb : Known n k bs)
    (hs : Shorts cur) (hl : cur.length = 8) :
    SPost n k (fun l => Shorts l ∧ l.length = 8) (blockLoop i cur bs : Synth F _) := by
  induction bs generalizing i cur k with
  | nil => exact SPost.pure ⟨hs, hl⟩
  | cons b bs ih =>
    have hb' : Known n k b := hb b (by simp)
    exact SPost.bindKnown (SLocal.inNs _ (slocal_compression hn hb' hc)) (SPost.inNs _ (con_compression hn hb' hc hs).2)
      fun k1 c h1 hc hs => ih (i + 1) hc (Known.lift (fun x hx => hb x (by simp [hx])) h1) hs.1 hs.2

theorem padZeros_length (l : List Boolean) : (padZeros l).length + 64 ≤ (l.length + 575) / 512 * 512 := by
  fun_induction padZeros l with
  | case1 l hl => omega
  | case2 l hl ih =>
    rw [List.length_append, List.length_singleton] at ih
    refine ih.trans (Nat.mul_le_mul_right _ (le_of_eq ?_))
    clear ih
    omega

theorem scon_sha256 (hn : 0 < n) {input : List Boolean} (hi : Known n k input) :
    SCon n k noVar (27045 * ((input.length + 576) / 512)) (26860 * ((input.length + 576) / 512)) (sha256 input : Synth F _) := by
  unfold sha256
  split
  · dsimp only
    split
    · split
      · exact SCon.panic
      · rename_i bs hbs
        have hlen : bs.length ≤ (input.length + 576) / 512 := by
          refine (chunks_length_le hbs).trans ?_
          have := padZeros_length (input ++ [.constant true])
          rw [List.length_append, List.length_singleton] at this
          have h2 : (pad input).length = (padZeros (input ++ [.constant true])).length + 64 := by
            unfold pad
            simp only [List.length_append, List.length_map, List.length_reverse, List.length_range]
          omega
        refine SCon.le (SCon.bind (scon_blockLoop hn 0 known_iv (known_chunks (known_pad hi) hbs) shorts_iv)
          (slocal_blockLoop hn 0 known_iv (known_chunks (known_pad hi) hbs)) fun _ _ _ hr => SCon.pure (N := 0) (A := 0)) ?_ ?_ <;> omega
    · exact SCon.panic
  · exact SCon.panic

theorem shorts_bits {l : List UInt32} (h : Shorts l) : (l.flatMap UInt32.intoBitsBe).length ≤ 32 * l.length := by
  induction l with
  | nil => exact le_rfl
  | cons u l ih =>
    have h1 : u.intoBitsBe.length ≤ 32 := by
      have : u.Short := h u (by simp)
      rw [UInt32.intoBitsBe, List.length_reverse]
      exact this
    have h2 := ih fun x hx => h x (by simp [hx])
    rw [List.flatMap_cons, List.length_append, List.length_cons]
    omega

theorem spost_sha256 (hn : 0 < n) {input : List Boolean} (hi : Known n k input) :
    SPost n k (fun l => l.length ≤ 256) (sha256 input : Synth F _) := by
  unfold sha256
  split
  · dsimp only
    split
    · split
      · exact SPost.panic
      · rename_i bs hbs
        exact SPost.bindKnown (slocal_blockLoop hn 0 known_iv (known_chunks (known_pad hi) hbs))
          (spost_blockLoop hn 0 known_iv (known_chunks (known_pad hi) hbs) shorts_iv rfl) fun _ l _ _ hl => SPost.pure (by
            have := shorts_bits hl.1
            omega)
    · exact SPost.panic
  · exact SPost.panic

end Sha256

namespace Blake2s

theorem mcon_mixAdd3 (hn : 0 < n) (s : String) {v : List UInt32} (a b : ℕ) {x : UInt32} (hv : Known n k v) (hx : Known n k x)
    (hs : Shorts v) : MCon n k 35 34 Shorts (mixAdd3 s v a b x : MSynth F _) := by
  refine MCon.le (MCon.bind (MCon.index (Q := fun _ => True) _ fun _ _ => trivial) (MLocal.index hv _) fun k1 va h1 hva _ =>
    MCon.bind (MCon.index (Q := fun _ => True) _ fun _ _ => trivial) (MLocal.index (Known.lift hv h1) _) fun k2 vb h2 hvb _ => by
    have hl : Known n k2 [va, vb, x] := by known
    exact MCon.bind (MCon.inNs _ (mcon_addmany4 hn hl (by simp))) (MLocal.inNs _ (mlocal_addmany hn hl)) fun k3 t h3 ht hst =>
      MCon.pure (N := 0) (A := 0) (shorts_set hs hst _)) (by omega) (by omega)

theorem mcon_mixAdd2 (hn : 0 < n) (s : String) {v : List UInt32} (a b : ℕ) (hv : Known n k v) (hs : Shorts v) :
    MCon n k 34 33 Shorts (mixAdd2 s v a b : MSynth F _) := by
  refine MCon.le (MCon.bind (MCon.index (Q := fun _ => True) _ fun _ _ => trivial) (MLocal.index hv _) fun k1 va h1 hva _ =>
    MCon.bind (MCon.index (Q := fun _ => True) _ fun _ _ => trivial) (MLocal.index (Known.lift hv h1) _) fun k2 vb h2 hvb _ => by
    have hl : Known n k2 [va, vb] := by known
    exact MCon.bind (MCon.inNs _ (mcon_addmany2 hn hl (by simp))) (MLocal.inNs _ (mlocal_addmany hn hl)) fun k3 t h3 ht hst =>
      MCon.pure (N := 0) (A := 0) (shorts_set hs hst _)) (by omega) (by omega)

theorem mcon_mixXor (s : String) {v : List UInt32} (d a r : ℕ) (hv : Known n k v) (hs : Shorts v) :
    MCon n k 32 32 Shorts (mixXor s v d a r : MSynth F _) := by
  refine MCon.le (MCon.bind (MCon.index (Q := fun _ => True) _ fun _ _ => trivial) (MLocal.index hv _) fun k1 va h1 hva _ =>
    MCon.bind (MCon.index _ hs) (MLocal.index (Known.lift hv h1) _) fun k2 vb h2 hvb hsb =>
    MCon.bind (mcon_xor _ (Known.lift hva h2) hvb hsb) (mlocal_xor _ (Known.lift hva h2) hvb) fun k3 t h3 ht _ =>
      MCon.pure (N := 0) (A := 0) (shorts_set hs (short_rotr _ _) _)) (by omega) (by omega)

theorem mcon_mixingG (hn : 0 < n) {v : List UInt32} (a b c d : ℕ) {x y : UInt32} (hv : Known n k v) (hx : Known n k x)
    (hy : Known n k y) (hs : Shorts v) : MCon n k 266 262 Shorts (mixingG v a b c d x y : MSynth F _) := by
  refine MCon.le (MCon.bind (mcon_mixAdd3 hn _ _ _ hv hx hs) (mlocal_mixAdd3 hn _ _ _ hv hx) fun k1 v h1 hv hs =>
    MCon.bind (mcon_mixXor _ _ _ _ hv hs) (mlocal_mixXor _ _ _ _ hv) fun k2 v h2 hv hs =>
    MCon.bind (mcon_mixAdd2 hn _ _ _ hv hs) (mlocal_mixAdd2 hn _ _ _ hv) fun k3 v h3 hv hs =>
    MCon.bind (mcon_mixXor _ _ _ _ hv hs) (mlocal_mixXor _ _ _ _ hv) fun k4 v h4 hv hs =>
    MCon.bind (mcon_mixAdd3 hn _ _ _ hv (Known.lift hy (by omega)) hs) (mlocal_mixAdd3 hn _ _ _ hv (Known.lift hy (by omega)))
      fun k5 v h5 hv hs =>
    MCon.bind (mcon_mixXor _ _ _ _ hv hs) (mlocal_mixXor _ _ _ _ hv) fun k6 v h6 hv hs =>
    MCon.bind (mcon_mixAdd2 hn _ _ _ hv hs) (mlocal_mixAdd2 hn _ _ _ hv) fun k7 v h7 hv hs =>
    mcon_mixXor _ _ _ _ hv hs) (by omega) (by omega)

theorem mcon_mixCall (hn : 0 < n) (nm : String) {m : List UInt32} (s : List ℕ) (j a b c d : ℕ) {v : List UInt32} (hm : Known n k m)
    (hv : Known n k v) (hs : Shorts v) : MCon n k 266 262 Shorts (mixCall nm m s j a b c d v : MSynth F _) := by
  refine MCon.le (MCon.bind (MCon.index (Q := fun _ => True) _ fun _ _ => trivial) (MLocal.index (α := ℕ) (fun _ _ => trivial) _)
      fun k1 ix h1 _ _ =>
    MCon.bind (MCon.index (Q := fun _ => True) _ fun _ _ => trivial) (MLocal.index (Known.lift hm h1) _) fun k2 x h2 hx _ =>
    MCon.bind (MCon.index (Q := fun _ => True) _ fun _ _ => trivial) (MLocal.index (α := ℕ) (fun _ _ => trivial) _)
      fun k3 iy h3 _ _ =>
    MCon.bind (MCon.index (Q := fun _ => True) _ fun _ _ => trivial) (MLocal.index (Known.lift hm (by omega)) _) fun k4 y h4 hy _ =>
    MCon.inNs _ (mcon_mixingG hn _ _ _ _ (Known.lift hv (by omega)) (Known.lift hx (by omega)) hy hs)) (by omega) (by omega)

theorem mcon_roundBody (hn : 0 < n) {m : List UInt32} (i : ℕ) {v : List UInt32} (hm : Known n k m) (hv : Known n k v) (hs : Shorts v) :
    MCon n k 2128 2096 Shorts (roundBody m i v : MSynth F _) := by
  refine MCon.inNs _ ?_
  refine MCon.le (MCon.bind (MCon.index (Q := fun _ => True) _ fun _ _ => trivial)
      (MLocal.index (α := List ℕ) (fun _ _ _ _ => trivial) _) fun k0 s h0 _ _ =>
    MCon.bind (mcon_mixCall hn _ _ _ _ _ _ _ (Known.lift hm (by omega)) (Known.lift hv (by omega)) hs)
      (mlocal_mixCall hn _ _ _ _ _ _ _ (Known.lift hm (by omega)) (Known.lift hv (by omega))) fun k1 v h1 hv hs =>
    MCon.bind (mcon_mixCall hn _ _ _ _ _ _ _ (Known.lift hm (by omega)) hv hs)
      (mlocal_mixCall hn _ _ _ _ _ _ _ (Known.lift hm (by omega)) hv) fun k2 v h2 hv hs =>
    MCon.bind (mcon_mixCall hn _ _ _ _ _ _ _ (Known.lift hm (by omega)) hv hs)
      (mlocal_mixCall hn _ _ _ _ _ _ _ (Known.lift hm (by omega)) hv) fun k3 v h3 hv hs =>
    MCon.bind (mcon_mixCall hn _ _ _ _ _ _ _ (Known.lift hm (by omega)) hv hs)
      (mlocal_mixCall hn _ _ _ _ _ _ _ (Known.lift hm (by omega)) hv) fun k4 v h4 hv hs =>
    MCon.bind (mcon_mixCall hn _ _ _ _ _ _ _ (Known.lift hm (by omega)) hv hs)
      (mlocal_mixCall hn _ _ _ _ _ _ _ (Known.lift hm (by omega)) hv) fun k5 v h5 hv hs =>
    MCon.bind (mcon_mixCall hn _ _ _ _ _ _ _ (Known.lift hm (by omega)) hv hs)
      (mlocal_mixCall hn _ _ _ _ _ _ _ (Known.lift hm (by omega)) hv) fun k6 v h6 hv hs =>
    MCon.bind (mcon_mixCall hn _ _ _ _ _ _ _ (Known.lift hm (by omega)) hv hs)
      (mlocal_mixCall hn _ _ _ _ _ _ _ (Known.lift hm (by omega)) hv) fun k7 v h7 hv hs =>
    mcon_mixCall hn _ _ _ _ _ _ _ (Known.lift hm (by omega)) hv hs) (by omega) (by omega)

theorem mcon_roundLoop (hn : 0 < n) {m : List UInt32} (j i : ℕ) {v : List UInt32} (hm : Known n k m) (hv : Known n k v) (hs : Shorts v) :
    MCon n k (2128 * j) (2096 * j) Shorts (roundLoop m j i v : MSynth F _) := by
  induction j generalizing i v k with
  | zero => exact MCon.pure hs
  | succ j ih =>
    refine MCon.le (MCon.bind (mcon_roundBody hn i hm hv hs) (mlocal_roundBody hn i hm hv) fun k1 v h1 hv hs =>
      ih (i + 1) (Known.lift hm h1) hv hs) ?_ ?_ <;> omega

theorem spost_finalLoop {v : List UInt32} (j i : ℕ) {h : List UInt32} (hs : Shorts v) (hsh : Shorts h) :
    SPost n k Shorts (finalLoop v j i h : Synth F _) := by
  induction j generalizing i h n k with
  | zero => exact SPost.pure hsh
  | succ j ih =>
    unfold finalLoop
    split
    · rename_i hi vi vi8 e1 e2 e3
      have s3 : vi8.Short := hs _ (List.mem_of_getElem? e3)
      exact SPost.bind (SPost.inNs _ (SPost.bind SPost.any fun _ _ _ _ _ _ => SPost.inNs _ (spost_xor s3))) fun _ _ r _ _ hr =>
        ih (i + 1) (shorts_set hsh hr _)
    · exact SPost.panic

theorem scon_finalLoop {v : List UInt32} (j i : ℕ) {h : List UInt32} (hv : Known n k v) (hh : Known n k h) (hs : Shorts v) :
    SCon n k noVar (64 * j) (64 * j) (finalLoop v j i h : Synth F _) := by
  induction j generalizing i h k with
  | zero => exact SCon.pure
  | succ j ih =>
    unfold finalLoop
    split
    · rename_i hi vi vi8 e1 e2 e3
      have k1 : Known n k hi := hh _ (List.mem_of_getElem? e1)
      have k2 : Known n k vi := hv _ (List.mem_of_getElem? e2)
      have k3 : Known n k vi8 := hv _ (List.mem_of_getElem? e3)
      have s2 : vi.Short := hs _ (List.mem_of_getElem? e2)
      have s3 : vi8.Short := hs _ (List.mem_of_getElem? e3)
      refine SCon.le (SCon.bind (SCon.inNs _ (SCon.bind (SCon.inNs _ (scon_xor k1 k2 s2)) (SLocal.inNs _ (slocal_xor k1 k2))
          fun k' r h' hr => SCon.inNs _ (scon_xor hr (Known.lift k3 h') s3)))
        (SLocal.inNs _ (SLocal.bind (SLocal.inNs _ (slocal_xor k1 k2)) fun k' r h' hr =>
          SLocal.inNs _ (slocal_xor hr (Known.lift k3 h')))) fun k' r h' hr =>
        ih (i + 1) (Known.lift hv h') (known_set (Known.lift hh h') hr _)) ?_ ?_ <;> omega
    · exact SCon.panic

theorem shorts_ivTail : Shorts ivTail := by
  intro x hx
  simp only [ivTail, List.mem_cons, List.not_mem_nil, or_false] at hx
  rcases hx with rfl | rfl | rfl | rfl | rfl | rfl | rfl | rfl <;> exact short_constant _

theorem con_compression (hn : 0 < n) {h m : List UInt32} (t : BitVec 64) (f : Bool) (hh : Known n k h) (hm : Known n k m)
    (hs : Shorts h) : SCon n k noVar 21889 21568 (compression h m t f : Synth F _) ∧
      SPost n k Shorts (compression h m t f : Synth F _) := by
  unfold compression
  split
  · split
    · dsimp only
      have hv : Known n k (h ++ ivTail) := known_list_append hh known_ivTail
      have hsv : Shorts (h ++ ivTail) := shorts_append hs shorts_ivTail
      split
      · rename_i v12 v13 v14 e1 e2 e3
        have k1 : Known n k v12 := hv _ (List.mem_of_getElem? e1)
        have k2 : Known n k v13 := hv _ (List.mem_of_getElem? e2)
        have k3 : Known n k v14 := hv _ (List.mem_of_getElem? e3)
        constructor
        · refine SCon.le (SCon.bindPost (SCon.inNs _ (scon_xor k1 known_constant (short_constant _)))
              (SLocal.inNs _ (slocal_xor k1 known_constant)) (SPost.inNs _ (spost_xor (short_constant _))) fun l1 r1 h1 hr1 s1 =>
            SCon.bindPost (SCon.inNs _ (scon_xor (Known.lift k2 h1) known_constant (short_constant _)))
              (SLocal.inNs _ (slocal_xor (Known.lift k2 h1) known_constant)) (SPost.inNs _ (spost_xor (short_constant _)))
              fun l2 r2 h2 hr2 s2 => (?_ : SCon n l2 noVar 21825 21504 _)) (by omega) (by omega)
          have hv2 : Known n l2 (((h ++ ivTail).set 12 r1).set 13 r2) :=
            known_set (known_set (Known.lift hv (by omega)) (Known.lift hr1 h2) _) hr2 _
          have hs2 : Shorts (((h ++ ivTail).set 12 r1).set 13 r2) := shorts_set (shorts_set hsv s1 _) s2 _
          refine SCon.le (SCon.bindPost (α := List UInt32) (N := 32) (A := 32) (Q := Shorts) ?_ ?_ ?_ fun l3 v h3 hv3 hs3 =>
              SCon.bindPost (MCon.withMultiEq (mcon_roundLoop hn _ _ (Known.lift hm (by omega)) hv3 hs3)).1
                (MLocal.withMultiEq hn (mlocal_roundLoop hn _ _ (Known.lift hm (by omega)) hv3))
                (MCon.withMultiEq (mcon_roundLoop hn _ _ (Known.lift hm (by omega)) hv3 hs3)).2 fun l4 v h4 hv4 hs4 =>
              scon_finalLoop _ _ hv4 (Known.lift hh (by omega)) hs4) (by omega) (by omega)
          · split
            · exact SCon.le (SCon.bind (SCon.inNs _ (scon_xor (Known.lift k3 (by omega)) known_constant (short_constant _)))
                (SLocal.inNs _ (slocal_xor (Known.lift k3 (by omega)) known_constant)) fun l3 r3 h3 hr3 =>
                SCon.pure (N := 0) (A := 0)) (by omega) (by omega)
            · exact SCon.pure
          · split
            · exact SLocal.bind (SLocal.inNs _ (slocal_xor (Known.lift k3 (by omega)) known_constant)) fun l3 r3 h3 hr3 =>
                SLocal.pure (known_set (Known.lift hv2 h3) hr3 _)
            · exact SLocal.pure hv2
          · split
            · exact SPost.bind (SPost.inNs _ (spost_xor (short_constant _))) fun _ _ r _ _ hr => SPost.pure (shorts_set hs2 hr _)
            · exact SPost.pure hs2
        · refine SPost.bindKnown (SLocal.inNs _ (slocal_xor k1 known_constant)) (SPost.inNs _ (spost_xor (short_constant _)))
            fun l1 r1 h1 hr1 s1 => SPost.bindKnown (SLocal.inNs _ (slocal_xor (Known.lift k2 h1) known_constant))
              (SPost.inNs _ (spost_xor (short_constant _))) fun l2 r2 h2 hr2 s2 => ?_
          have hv2 : Known n l2 (((h ++ ivTail).set 12 r1).set 13 r2) :=
            known_set (known_set (Known.lift hv (by omega)) (Known.lift hr1 h2) _) hr2 _
          have hs2 : Shorts (((h ++ ivTail).set 12 r1).set 13 r2) := shorts_set (shorts_set hsv s1 _) s2 _
          refine SPost.bindKnown (α := List UInt32) (P := Shorts) ?_ ?_ fun l3 v h3 hv3 hs3 =>
              SPost.bindKnown (MLocal.withMultiEq hn (mlocal_roundLoop hn _ _ (Known.lift hm (by omega)) hv3))
                (MCon.withMultiEq (mcon_roundLoop hn _ _ (Known.lift hm (by omega)) hv3 hs3)).2 fun l4 v h4 hv4 hs4 =>
              spost_finalLoop _ _ hs4 hs
          · split
            · exact SLocal.bind (SLocal.inNs _ (slocal_xor (Known.lift k3 (by omega)) known_constant)) fun l3 r3 h3 hr3 =>
                SLocal.pure (known_set (Known.lift hv2 h3) hr3 _)
            · exact SLocal.pure hv2
          · split
            · exact SPost.bind (SPost.inNs _ (spost_xor (short_constant _))) fun _ _ r _ _ hr => SPost.pure (shorts_set hs2 hr _)
            · exact SPost.pure hs2
      · exact ⟨SCon.panic, SPost.panic⟩
    · exact ⟨SCon.panic, SPost.panic⟩
  · exact ⟨SCon.panic, SPost.panic⟩

theorem scon_blockLoop (hn : 0 < n) (len i : ℕ) {h : List UInt32} {bs : List (List UInt32)} (hh : Known n k h) (hb : Known n k bs)
    (hs : Shorts h) : SCon n k noVar (21889 * bs.length) (21568 * bs.length) (blockLoop len i h bs : Synth F _) := by
  induction bs generalizing i h k with
  | nil => exact SCon.panic
  | cons b bs ih =>
    have hb' : Known n k b := hb b (by simp)
    cases bs with
    | nil => exact SCon.inNs _ (con_compression hn _ _ hh hb' hs).1
    | cons b' bs =>
      refine SCon.le (SCon.bindPost (SCon.inNs _ (con_compression hn _ _ hh hb' hs).1)
        (SLocal.inNs _ (slocal_compression hn _ _ hh hb')) (SPost.inNs _ (con_compression hn _ _ hh hb' hs).2) fun k1 c h1 hc hs =>
          ih (i + 1) hc (Known.lift (fun x hx => hb x (List.mem_cons_of_mem _ hx)) h1) hs) ?_ ?_ <;>
      simp only [List.length_cons] <;> omega

theorem mapM_length {α β : Type} {f : α → Option β} {l : List α} {l' : List β} (h : l.mapM f = some l') : l'.length = l.length := by
  induction l generalizing l' with
  | nil => cases h; rfl
  | cons a l ih =>
    rw [List.mapM_cons] at h
    obtain ⟨b, h1, h⟩ := Option.bind_eq_some_iff.1 h
    obtain ⟨bs, h2, h⟩ := Option.bind_eq_some_iff.1 h
    cases h
    simp [ih h2]

theorem mkBlocks_length {b : List Boolean} {w : List (List UInt32)} (h : mkBlocks b = some w) :
    w.length ≤ max 1 ((b.length + 511) / 512) := by
  unfold mkBlocks at h
  obtain ⟨ws, h1, h⟩ := Option.bind_eq_some_iff.1 h
  obtain ⟨us, h2, h⟩ := Option.bind_eq_some_iff.1 h
  cases h
  split
  · exact le_max_left _ _
  · rw [mapM_length h2]
    exact (chunks_length_le h1).trans (le_max_right _ _)

theorem scon_blake2s (hn : 0 < n) {input : List Boolean} (p : List (BitVec 8)) (hi : Known n k input) :
    SCon n k noVar (21889 * max 1 ((input.length + 511) / 512)) (21568 * max 1 ((input.length + 511) / 512))
      (blake2s input p : Synth F _) := by
  unfold blake2s
  split
  · split
    · dsimp only
      split
      · rename_i bs hbs
        refine SCon.le (SCon.bind (scon_blockLoop hn _ _ ?_ (known_mkBlocks hi hbs) ?_)
          (slocal_blockLoop hn _ _ ?_ (known_mkBlocks hi hbs)) fun _ _ _ hr => SCon.pure (N := 0) (A := 0)) ?_ ?_
        · repeat (first | exact known_list_nil | refine known_list_cons known_constant ?_)
        · intro x hx
          simp only [List.mem_cons, List.not_mem_nil, or_false] at hx
          rcases hx with rfl | rfl | rfl | rfl | rfl | rfl | rfl | rfl <;> exact short_constant _
        · repeat (first | exact known_list_nil | refine known_list_cons known_constant ?_)
        · exact Nat.mul_le_mul_left _ (mkBlocks_length hbs)
        · exact Nat.mul_le_mul_left _ (mkBlocks_length hbs)
      · exact SCon.panic
    · exact SCon.panic
  · exact SCon.panic

end Blake2s

end Bellman
