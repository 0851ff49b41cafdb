import Verif.Spec.Size
import Verif.Proofs.CostConst
import Verif.Proofs.Preimage
import Verif.Proofs.ConNum

/-! A hash of bits that are not all constants has no constant bits: neither SHA-256 nor BLAKE2s leaves a bit of the result as a
`Boolean::Constant` when a bit of the message is not one. -/

namespace Bellman
open PrimeField List
set_option linter.unusedSectionVars false
variable {F : Type} [PrimeField F] {α β : Type}

/-- Every successful execution gives a result in `Q`. -/
def SP (m : Synth F α) (Q : α → Prop) : Prop := ∀ t r, Exec m.run t (some (.ok r)) → Q r

/-- The same with a `MultiEq`. -/
def MP (m : MSynth F α) (Q : α → Prop) : Prop := ∀ (st : MEq F) t r st', Exec (m.run.run st) t (some (.ok r, st')) → Q r

namespace SP
variable {Q : α → Prop} {P : β → Prop}

theorem pure {a : α} (h : Q a) : SP (Pure.pure a : Synth F α) Q := by
  intro t r he
  cases he
  exact h

theorem panic {s : String} : SP (Synth.panic s : Synth F α) Q := by
  intro t r he
  cases he

theorem triv {m : Synth F α} : SP m fun _ => True := fun _ _ _ => trivial

theorem mono {Q' : α → Prop} {m : Synth F α} (h : SP m Q) (hq : ∀ a, Q a → Q' a) : SP m Q' := fun t r he => hq _ (h t r he)

theorem and {Q' : α → Prop} {m : Synth F α} (h : SP m Q) (h' : SP m Q') : SP m fun a => Q a ∧ Q' a := fun t r he => ⟨h t r he, h' t r he⟩

theorem bind {m : Synth F α} {f : α → Synth F β} (h : SP m Q) (hf : ∀ a, Q a → SP (f a) P) : SP (m >>= f) P := by
  intro t r he
  obtain ⟨t1, t2, a, rfl, e1, e2⟩ := Synth.exec_bind_inv he
  exact hf a (h _ _ e1) _ _ e2

theorem inNs {s : String} {m : Synth F α} (h : SP m Q) : SP (Synth.inNs s m) Q := by
  intro t r he
  obtain ⟨t, rfl, e⟩ := Synth.exec_inNs_inv he
  exact h _ _ e

theorem of_exactly {m : Synth F α} {g e : ℕ} (h : Cost.Exactly m g e Q) : SP m Q := fun t r he => (h t r he).1

end SP

namespace MP
variable {Q : α → Prop} {P : β → Prop}

theorem pure {a : α} (h : Q a) : MP (Pure.pure a : MSynth F α) Q := by
  intro st t r st' he
  cases he
  exact h

theorem triv {m : MSynth F α} : MP m fun _ => True := fun _ _ _ _ _ => trivial

theorem lift {m : Synth F α} (h : SP m Q) : MP (MSynth.lift m) Q := by
  intro st t r st' he
  rcases Exec.bind_inv (show Exec (m.run.bind fun r => .ret (r, st)) _ _ from he) with ⟨_, h4⟩ | ⟨t1, t2, b, rfl, h3, h4⟩
  · cases h4
  · cases h4
    exact h _ _ h3

theorem panic {s : String} : MP (MSynth.lift (Synth.panic s) : MSynth F α) Q := lift SP.panic

theorem mono {Q' : α → Prop} {m : MSynth F α} (h : MP m Q) (hq : ∀ a, Q a → Q' a) : MP m Q' :=
  fun st t r st' he => hq _ (h st t r st' he)

theorem bind {m : MSynth F α} {f : α → MSynth F β} (h : MP m Q) (hf : ∀ a, Q a → MP (f a) P) : MP (m >>= f) P := by
  intro st t r st' he
  rcases Exec.bind_inv (show Exec ((m.run.run st).bind _) _ _ from he) with ⟨_, h4⟩ | ⟨t1, t2, ⟨b, s1⟩, rfl, h3, h4⟩
  · cases h4
  · cases b with
    | error e => cases h4
    | ok b => exact hf b (h _ _ _ _ h3) _ _ _ _ h4

theorem inNs {s : String} {m : MSynth F α} (h : MP m Q) : MP (MSynth.inNs s m) Q := by
  intro st t r st' he
  rcases (show Exec (Circ.push s _) _ _ from he) with _ | _ | _ | _ | _ | _ | he
  rcases Exec.bind_inv he with ⟨_, h2⟩ | ⟨t1, t2, a, rfl, h1, h2⟩
  · cases h2
  · cases h2 with
    | pop h2 =>
      cases h2
      exact h _ _ _ _ h1

theorem withMultiEq {m : MSynth F α} (h : MP m Q) : SP (MSynth.withMultiEq m) Q := by
  intro t r he
  rcases Exec.bind_inv (show Exec ((m.run.run MEq.new).bind _) _ _ from he) with ⟨_, h4⟩ | ⟨t1, t2, ⟨b, s1⟩, rfl, h3, h4⟩
  · cases h4
  · unfold MEq.drop at h4
    cases b with
    | error e =>
      split at h4
      · rcases (show Exec (Circ.enforce _ _ _ _ _) _ _ from h4) with _ | _ | _ | _ | _ | h4
        cases h4
      · cases h4
    | ok b =>
      have q := h _ _ _ _ h3
      split at h4
      · rcases (show Exec (Circ.enforce _ _ _ _ _) _ _ from h4) with _ | _ | _ | _ | _ | h4
        cases h4
        exact q
      · cases h4
        exact q

theorem index {l : List α} {i : ℕ} (h : ∀ a, l[i]? = some a → Q a) : MP (MSynth.index l i : MSynth F α) Q := by
  unfold MSynth.index
  cases hx : l[i]? with
  | none => exact panic
  | some x => exact pure (h x hx)

end MP

/-! ### Words -/

namespace UInt32

/-- No bit is a constant. -/
def Full (u : UInt32) : Prop := u.bits.length = 32 ∧ NoConstants u.bits

/-- Some bit is not a constant. -/
def HasVar (u : UInt32) : Prop := ∃ b ∈ u.bits, b.isConstant = false

variable {u v : UInt32}

theorem Full.hasVar (h : u.Full) : u.HasVar := by
  obtain ⟨hl, h⟩ := h
  cases hb : u.bits with
  | nil => simp [hb] at hl
  | cons b bs =>
    have : b ∈ u.bits := by simp [hb]
    exact ⟨b, this, h b this⟩

theorem Full.rotr (h : u.Full) (k : ℕ) : (u.rotr k).Full := by
  refine ⟨?_, fun b hb => h.2 b ?_⟩
  · simp only [UInt32.rotr, length_take, length_append, length_drop, h.1]
    omega
  · rcases mem_append.1 (mem_of_mem_take (show b ∈ (u.bits.drop (k % 32) ++ u.bits).take 32 from hb)) with hb | hb
    · exact mem_of_mem_drop hb
    · exact hb

theorem length_rotr (h : u.bits.length = 32) (k : ℕ) : (u.rotr k).bits.length = 32 := by
  simp only [UInt32.rotr, length_take, length_append, length_drop, h]
  omega

theorem sp_bit_xor (a b : Boolean) :
    SP (Boolean.xor a b : Synth F _) fun r => a.isConstant = false ∨ b.isConstant = false → r.isConstant = false := by
  rcases a with a | a | (_ | _) <;> rcases b with b | b | (_ | _) <;>
    first
    | exact SP.pure (by simp [Boolean.isConstant, Boolean.neg])
    | exact SP.bind SP.triv fun _ _ => SP.pure (by simp [Boolean.isConstant, Boolean.neg])

theorem sp_xorLoop (i : ℕ) (as bs : List Boolean) (h : as.length = bs.length) :
    SP (xorLoop i as bs : Synth F _) fun r => r.length = as.length ∧ (NoConstants as ∨ NoConstants bs → NoConstants r) := by
  induction as generalizing i bs with
  | nil => exact SP.pure ⟨rfl, fun _ _ h => absurd h not_mem_nil⟩
  | cons a as ih =>
    cases bs with
    | nil => simp at h
    | cons b bs =>
      refine SP.bind (SP.inNs (sp_bit_xor a b)) fun x hx => SP.bind (ih (i + 1) bs (by simpa using h)) fun xs hxs => SP.pure ⟨by simp [hxs.1], ?_⟩
      intro hn c hc
      rcases mem_cons.1 hc with rfl | hc
      · exact hx (hn.imp (fun h => h a (mem_cons_self ..)) fun h => h b (mem_cons_self ..))
      · exact hxs.2 (hn.imp (fun h c hc => h c (mem_cons_of_mem _ hc)) fun h c hc => h c (mem_cons_of_mem _ hc)) c hc

theorem sp_xor (hu : u.bits.length = 32) (hv : v.bits.length = 32) :
    SP (u.xor v : Synth F _) fun r => r.bits.length = 32 ∧ (u.Full ∨ v.Full → r.Full) :=
  SP.bind (sp_xorLoop 0 u.bits v.bits (hu.trans hv.symm)) fun _ hx =>
    SP.pure ⟨hx.1.trans hu, fun h => ⟨hx.1.trans hu, hx.2 (h.imp (·.2) (·.2))⟩⟩

theorem sp_xor_full (hu : u.Full) (hv : v.Full) : SP (u.xor v : Synth F _) Full :=
  (sp_xor hu.1 hv.1).mono fun _ h => h.2 (.inl hu)

theorem constant_length (w : BitVec 32) : (constant w).bits.length = 32 := by rw [Cost.constant_bits]; simp

theorem mp_addmany (us : List UInt32) : MP (addmany us : MSynth F _) fun r => r.bits.length = 32 ∧ ((∃ u ∈ us, u.HasVar) → r.Full) := by
  unfold addmany
  split
  · split
    · split
      · rename_i h2 h10
        obtain ⟨hlo, -⟩ := size_bounds h2 h10
        have alloc : ∀ (v : Option (BitVec 32)) (l : LC F), MP (do
            let q ← MSynth.lift (resultLoop (addOperands (some 0) (LC.zero : LC F) true us).1 (us.length * (2 ^ 32 - 1)) 0 (1 : F) [] (LC.zero : LC F))
            MEq.enforceEqual q.2.2 l q.2.1
            pure (⟨q.1.take 32, v⟩ : UInt32) : MSynth F _) fun r => r.bits.length = 32 ∧ ((∃ u ∈ us, u.HasVar) → r.Full) := by
          intro v l
          refine MP.bind (MP.lift (SP.of_exactly (Cost.exactly_resultLoop _ _ _ _ _ _))) ?_
          rintro ⟨q1, q2, q3⟩ ⟨bs, e1, e2, e3⟩
          dsimp only at e1
          simp only [nil_append] at e1
          subst e1
          refine MP.bind MP.triv fun _ _ => MP.pure ?_
          have hfull : Full ⟨q1.take 32, v⟩ := by
            constructor
            · have := e2.length_eq
              simp only [length_replicate] at this
              simp only [length_take, this]
              omega
            · intro b hb
              obtain ⟨a, ha, hab⟩ := Cost.forall₂_mem_right e2.flip (mem_of_mem_take hb)
              rw [eq_of_mem_replicate ha] at hab
              cases b with
              | is _ => rfl
              | not _ => rfl
              | constant _ => exact (show False from hab).elim
          exact ⟨hfull.1, fun _ => hfull⟩
        dsimp only
        split
        · rename_i w hc hv
          refine MP.pure ⟨constant_length _, ?_⟩
          rintro ⟨u, hu, b, hb, hcb⟩
          rw [Cost.addOperands_allConst, Bool.true_and, all_eq_true] at hc
          have := hc u hu
          rw [all_eq_true] at this
          rw [this b hb] at hcb
          cases hcb
        · exact alloc _ _
      · exact MP.panic
    · exact MP.panic
  · exact MP.panic

theorem mp_addmany_full {us : List UInt32} (h : ∃ u ∈ us, u.HasVar) : MP (addmany us : MSynth F _) Full :=
  (mp_addmany us).mono fun _ hr => hr.2 h

end UInt32

/-! ### SHA-256 -/

namespace Sha256

open Bellman.UInt32

/-- Not a constant once computed. -/
def Maybe.NC : Maybe → Prop
  | .concrete u => u.Full
  | .deferred l => ∃ u ∈ l, u.HasVar

theorem mp_compute {m : Maybe} (h : m.NC) (others : List UInt32) : MP (m.compute others : MSynth F _) Full := by
  cases m with
  | concrete u => exact MP.pure h
  | deferred l =>
    obtain ⟨u, hu, hv⟩ := h
    exact mp_addmany_full ⟨u, mem_append_left _ hu, hv⟩

/-- What is no constant any more, some rounds after the new value of `e` was none. -/
structure Dirty (k : ℕ) (s : St) : Prop where
  e : s.e.NC
  a : 1 ≤ k → s.a.NC
  f : 1 ≤ k → s.f.Full
  b : 2 ≤ k → s.b.Full
  g : 2 ≤ k → s.g.Full
  c : 3 ≤ k → s.c.Full
  h : 3 ≤ k → s.h.Full
  d : 4 ≤ k → s.d.Full

theorem mp_round_dirty (w : List UInt32) (i k : ℕ) (s : St) (h : Dirty k s) : MP (round w i s : MSynth F _) (Dirty (k + 1)) := by
  refine MP.inNs ?_
  refine MP.bind (MP.inNs (mp_compute h.e [])) fun newE hE => ?_
  refine MP.bind (MP.lift (SP.inNs (sp_xor_full (hE.rotr 6) (hE.rotr 11)))) fun x hx => ?_
  refine MP.bind (MP.lift (SP.inNs (sp_xor_full hx (hE.rotr 25)))) fun s1 hs1 => ?_
  refine MP.bind MP.triv fun ch _ => MP.bind MP.triv fun kk _ => MP.bind MP.triv fun wi _ => ?_
  refine MP.bind (Q := fun u => 1 ≤ k → u.Full) ?_ fun newA hA => ?_
  · by_cases hk : 1 ≤ k
    · exact (MP.inNs (mp_compute (h.a hk) [])).mono fun _ h _ => h
    · exact MP.triv.mono fun _ _ h => absurd h hk
  refine MP.bind MP.triv fun _ _ => MP.bind MP.triv fun _ _ => MP.bind MP.triv fun _ _ => MP.pure ?_
  exact ⟨⟨s1, by simp, hs1.hasVar⟩, fun _ => ⟨s1, by simp, hs1.hasVar⟩, fun _ => hE, fun hk => hA (by omega), fun hk => h.f (by omega),
    fun hk => h.b (by omega), fun hk => h.g (by omega), fun hk => h.c (by omega)⟩

/-- A word of the schedule that is no constant reaches `e`. -/
theorem mp_round_hit (w : List UInt32) (i : ℕ) (s : St) (h : ∀ u, w[i]? = some u → u.HasVar) : MP (round w i s : MSynth F _) (Dirty 0) := by
  refine MP.inNs ?_
  refine MP.bind MP.triv fun newE _ => MP.bind MP.triv fun x _ => MP.bind MP.triv fun s1 _ => MP.bind MP.triv fun ch _ =>
    MP.bind MP.triv fun kk _ => ?_
  refine MP.bind (MP.index h) fun wi hwi => ?_
  refine MP.bind MP.triv fun _ _ => MP.bind MP.triv fun _ _ => MP.bind MP.triv fun _ _ => MP.bind MP.triv fun _ _ => MP.pure ?_
  exact ⟨⟨wi, by simp, hwi⟩, by omega, by omega, by omega, by omega, by omega, by omega, by omega⟩

theorem mp_rounds_dirty (w : List UInt32) (n i k : ℕ) (s : St) (h : Dirty k s) : MP (rounds w n i s : MSynth F _) (Dirty (k + n)) := by
  induction n generalizing i k s with
  | zero => exact MP.pure h
  | succ n ih =>
    refine MP.bind (mp_round_dirty w i k s h) fun s' h' => ?_
    rw [show k + (n + 1) = k + 1 + n by omega]
    exact ih (i + 1) (k + 1) s' h'

theorem mp_rounds_hit (w : List UInt32) (n i j : ℕ) (s : St) (h : ∀ u, w[i + j]? = some u → u.HasVar) (hj : j + 4 < n) :
    MP (rounds w n i s : MSynth F _) (Dirty 4) := by
  induction j generalizing i n s with
  | zero =>
    obtain ⟨n, rfl⟩ : ∃ m, n = m + 5 := ⟨n - 5, by omega⟩
    refine MP.bind (mp_round_hit w i s h) fun s' h' => (mp_rounds_dirty w (n + 4) _ _ s' h').mono fun s hs => ?_
    exact ⟨hs.e, fun _ => hs.a (by omega), fun _ => hs.f (by omega), fun _ => hs.b (by omega), fun _ => hs.g (by omega), fun _ => hs.c (by omega),
      fun _ => hs.h (by omega), fun _ => hs.d (by omega)⟩
  | succ j ih =>
    obtain ⟨n, rfl⟩ : ∃ m, n = m + 1 := ⟨n - 1, by omega⟩
    exact MP.bind MP.triv fun s' _ => ih n (i + 1) s' (by rwa [show i + 1 + j = i + (j + 1) by omega]) (by omega)

theorem mp_wLoop (n i : ℕ) (w : List UInt32) : MP (wLoop n i w : MSynth F _) fun w' => w <+: w' := by
  induction n generalizing i w with
  | zero => exact MP.pure (prefix_refl _)
  | succ n ih =>
    refine MP.bind (Q := fun w' => w <+: w') ?_ fun w' h => (ih (i + 1) w').mono fun _ h' => h.trans h'
    refine MP.inNs ?_
    refine MP.bind MP.triv fun _ _ => MP.bind MP.triv fun _ _ => MP.bind MP.triv fun _ _ => MP.bind MP.triv fun _ _ =>
      MP.bind MP.triv fun _ _ => MP.bind MP.triv fun _ _ => MP.bind MP.triv fun _ _ => MP.bind MP.triv fun _ _ =>
      MP.bind MP.triv fun t _ => MP.pure (prefix_append w [t])

theorem mp_compressionBody (w : List UInt32) (h0 h1 h2 h3 h4 h5 h6 h7 : UInt32) (h : h4.Full ∨ ∃ j u, j < 16 ∧ w[j]? = some u ∧ u.HasVar) :
    MP (compressionBody w h0 h1 h2 h3 h4 h5 h6 h7 : MSynth F _) fun r => r.length = 8 ∧ ∀ u ∈ r, u.Full := by
  refine MP.bind (mp_wLoop 48 16 w) fun w' hw => ?_
  split
  · refine MP.bind (Q := Dirty 4) ?_ fun s hs => ?_
    · rcases h with h | ⟨j, u, hj, hu, hv⟩
      · refine (mp_rounds_dirty w' 64 0 0 ⟨.concrete h0, h1, h2, h3, .concrete h4, h5, h6, h7⟩ ⟨h, by omega, by omega, by omega, by omega, by omega, by omega, by omega⟩).mono fun s hs => ?_
        exact ⟨hs.e, fun _ => hs.a (by omega), fun _ => hs.f (by omega), fun _ => hs.b (by omega), fun _ => hs.g (by omega), fun _ => hs.c (by omega),
          fun _ => hs.h (by omega), fun _ => hs.d (by omega)⟩
      · refine mp_rounds_hit w' 64 0 j _ (fun u' hu' => ?_) (by omega)
        rw [Nat.zero_add] at hu'
        obtain ⟨l, rfl⟩ := hw
        rw [getElem?_append_left (List.getElem?_eq_some_iff.1 hu).1, hu] at hu'
        cases hu'
        exact hv
    · refine MP.bind (MP.inNs (mp_compute (hs.a (by omega)) _)) fun n0 k0 => ?_
      refine MP.bind (MP.inNs (mp_addmany_full ⟨s.b, by simp, (hs.b (by omega)).hasVar⟩)) fun n1 k1 => ?_
      refine MP.bind (MP.inNs (mp_addmany_full ⟨s.c, by simp, (hs.c (by omega)).hasVar⟩)) fun n2 k2 => ?_
      refine MP.bind (MP.inNs (mp_addmany_full ⟨s.d, by simp, (hs.d (by omega)).hasVar⟩)) fun n3 k3 => ?_
      refine MP.bind (MP.inNs (mp_compute hs.e _)) fun n4 k4 => ?_
      refine MP.bind (MP.inNs (mp_addmany_full ⟨s.f, by simp, (hs.f (by omega)).hasVar⟩)) fun n5 k5 => ?_
      refine MP.bind (MP.inNs (mp_addmany_full ⟨s.g, by simp, (hs.g (by omega)).hasVar⟩)) fun n6 k6 => ?_
      refine MP.bind (MP.inNs (mp_addmany_full ⟨s.h, by simp, (hs.h (by omega)).hasVar⟩)) fun n7 k7 => ?_
      refine MP.pure ⟨rfl, fun u hu => ?_⟩
      simp only [mem_cons, not_mem_nil, or_false] at hu
      rcases hu with rfl | rfl | rfl | rfl | rfl | rfl | rfl | rfl <;> assumption
  · exact MP.panic

theorem mem_of_chunks {α : Type} {c : ℕ} {l : List α} {cs : List (List α)} (h : chunks? c l = some cs) {b : α} (hb : b ∈ l) :
    ∃ x ∈ cs, b ∈ x := by
  unfold chunks? at h
  split at h
  · cases h
  · cases h
    rw [← chunksAux_flatten c (by omega) l.length l le_rfl, mem_flatten] at hb
    exact hb

theorem mem_of_mapM {α β : Type} {f : α → Option β} {l : List α} {l' : List β} (h : l.mapM f = some l') {a : α} (ha : a ∈ l) :
    ∃ b ∈ l', f a = some b := by
  replace h := mapM_some h
  induction h with
  | nil => cases ha
  | cons h1 _ ih =>
    rcases mem_cons.1 ha with rfl | ha
    · exact ⟨_, mem_cons_self .., h1⟩
    · obtain ⟨b, hb, e⟩ := ih ha
      exact ⟨b, mem_cons_of_mem _ hb, e⟩

theorem sp_compression (input : List Boolean) (cur : List UInt32) (h : (∀ u ∈ cur, u.Full) ∨ ∃ b ∈ input, b.isConstant = false) :
    SP (compression input cur : Synth F _) fun r => ∀ u ∈ r, u.Full := by
  unfold compression
  split
  · rename_i hl
    split
    · split
      · rename_i w hw
        refine (MP.withMultiEq (mp_compressionBody _ _ _ _ _ _ _ _ _ ?_)).mono fun _ h => h.2
        rcases h with h | ⟨b, hb, hc⟩
        · exact .inl (h _ (by simp))
        · right
          obtain ⟨cs, h1, h2⟩ := Option.bind_eq_some_iff.1 hw
          obtain ⟨c, hc', hbc⟩ := mem_of_chunks h1 hb
          obtain ⟨u, hu, e⟩ := mem_of_mapM h2 hc'
          have hlen : w.length = 16 := by rw [← (mapM_some h2).length_eq, chunks_numChunks h1, hl]
          obtain ⟨j, hj⟩ := List.getElem?_of_mem hu
          refine ⟨j, u, hlen ▸ (List.getElem?_eq_some_iff.1 hj).1, hj, b, ?_, hc⟩
          unfold fromBitsBe at e
          split at e
          · cases e
            exact mem_reverse.2 hbc
          · cases e
      · exact SP.panic
    · exact SP.panic
  · exact SP.panic

theorem sp_blockLoop (i : ℕ) (cur : List UInt32) (blocks : List (List Boolean))
    (h : (∀ u ∈ cur, u.Full) ∨ ∃ l ∈ blocks, ∃ b ∈ l, b.isConstant = false) :
    SP (blockLoop i cur blocks : Synth F _) fun r => ∀ u ∈ r, u.Full := by
  induction blocks generalizing i cur with
  | nil =>
    rcases h with h | ⟨l, hl, -⟩
    · exact SP.pure h
    · cases hl
  | cons l blocks ih =>
    rcases h with h | ⟨l', hl, hb⟩
    · exact SP.bind (SP.inNs (sp_compression l cur (.inl h))) fun cur h => ih _ _ (.inl h)
    · rcases mem_cons.1 hl with rfl | hl
      · exact SP.bind (SP.inNs (sp_compression _ cur (.inr hb))) fun cur h => ih _ _ (.inl h)
      · exact SP.bind SP.triv fun cur _ => ih _ _ (.inr ⟨l', hl, hb⟩)

theorem sp_sha256 {input : List Boolean} (h : ∃ b ∈ input, b.isConstant = false) : SP (sha256 input : Synth F _) NoConstants := by
  unfold sha256
  split
  · dsimp only
    split
    · split
      · exact SP.panic
      · rename_i blocks hb
        obtain ⟨b, hb', hc⟩ := h
        have hp : b ∈ pad input := by
          unfold pad
          rw [padZeros_eq]
          simp [hb']
        obtain ⟨l, hl, hbl⟩ := mem_of_chunks hb hp
        refine SP.bind (sp_blockLoop 0 iv blocks (.inr ⟨l, hl, b, hbl, hc⟩)) fun cur hcur => SP.pure ?_
        intro x hx
        obtain ⟨u, hu, hx⟩ := mem_flatMap.1 hx
        exact (hcur u hu).2 x (mem_reverse.1 hx)
    · exact SP.panic
  · exact SP.panic

end Sha256

/-! ### BLAKE2s -/

namespace Blake2s

open Bellman.UInt32

/-- Words of 32 bits, with marks on some that have no constant bits. -/
def Marked (v : List UInt32) (t : List Bool) : Prop := Forall₂ (fun (u : UInt32) p => u.bits.length = 32 ∧ (p = true → u.Full)) v t

/-- Whether the word is marked. -/
def mark (t : List Bool) (i : ℕ) : Bool := t.getD i false

theorem Marked.get {v : List UInt32} {t : List Bool} (h : Marked v t) {i : ℕ} {u : UInt32} (hu : v[i]? = some u) :
    u.bits.length = 32 ∧ (mark t i = true → u.Full) := by
  obtain ⟨hi, rfl⟩ := List.getElem?_eq_some_iff.1 hu
  have hi' : i < t.length := h.length_eq ▸ hi
  have := Forall₂.get h hi hi'
  simp only [List.get_eq_getElem] at this
  unfold mark
  rwa [List.getD_eq_getElem _ _ hi']

theorem Marked.set {v : List UInt32} {t : List Bool} (h : Marked v t) (i : ℕ) {u : UInt32} {p : Bool} (hu : u.bits.length = 32 ∧ (p = true → u.Full)) :
    Marked (v.set i u) (t.set i p) := Cost.rel_set h i hu

/-- The marks after `v[a] = v[a] + v[b] + x`, where `x` says that the operand is no constant. -/
def markAdd (t : List Bool) (a b : ℕ) (x : Bool) : List Bool := t.set a (mark t a || mark t b || x)

/-- The marks after `v[d] = (v[d] ^ v[a]) >>> r`. -/
def markXor (t : List Bool) (d a : ℕ) : List Bool := t.set d (mark t d || mark t a)

/-- The marks after `mixing_g`. -/
def markG (t : List Bool) (a b c d : ℕ) (x y : Bool) : List Bool :=
  let t := markAdd t a b x
  let t := markXor t d a
  let t := markAdd t c d false
  let t := markXor t b c
  let t := markAdd t a b y
  let t := markXor t d a
  let t := markAdd t c d false
  markXor t b c

/-- The marks after a round, if only word `j` of the message is known to be no constant. -/
def markRound (j : ℕ) (s : List ℕ) (t : List Bool) : List Bool :=
  let x (k : ℕ) : Bool := s[k]? == some j
  let t := markG t 0 4 8 12 (x 0) (x 1)
  let t := markG t 1 5 9 13 (x 2) (x 3)
  let t := markG t 2 6 10 14 (x 4) (x 5)
  let t := markG t 3 7 11 15 (x 6) (x 7)
  let t := markG t 0 5 10 15 (x 8) (x 9)
  let t := markG t 1 6 11 12 (x 10) (x 11)
  let t := markG t 2 7 8 13 (x 12) (x 13)
  markG t 3 4 9 14 (x 14) (x 15)

theorem mp_mixAdd3 (n : String) {v : List UInt32} {t : List Bool} (h : Marked v t) (a b : ℕ) {u : UInt32} {x : Bool} (hu : x = true → u.HasVar) :
    MP (mixAdd3 n v a b u : MSynth F _) fun v => Marked v (markAdd t a b x) := by
  refine MP.bind (MP.index fun _ ha => h.get ha) fun va ha => MP.bind (MP.index fun _ hb => h.get hb) fun vb hb => ?_
  refine MP.bind (MP.inNs (mp_addmany [va, vb, u])) fun r hr => MP.pure (h.set a ⟨hr.1, fun hm => hr.2 ?_⟩)
  simp only [Bool.or_eq_true] at hm
  rcases hm with (hm | hm) | hm
  · exact ⟨va, by simp, (ha.2 hm).hasVar⟩
  · exact ⟨vb, by simp, (hb.2 hm).hasVar⟩
  · exact ⟨u, by simp, hu hm⟩

theorem mp_mixAdd2 (n : String) {v : List UInt32} {t : List Bool} (h : Marked v t) (a b : ℕ) :
    MP (mixAdd2 n v a b : MSynth F _) fun v => Marked v (markAdd t a b false) := by
  refine MP.bind (MP.index fun _ ha => h.get ha) fun va ha => MP.bind (MP.index fun _ hb => h.get hb) fun vb hb => ?_
  refine MP.bind (MP.inNs (mp_addmany [va, vb])) fun r hr => MP.pure (h.set a ⟨hr.1, fun hm => hr.2 ?_⟩)
  simp only [Bool.or_eq_true, Bool.false_eq_true, or_false] at hm
  rcases hm with hm | hm
  · exact ⟨va, by simp, (ha.2 hm).hasVar⟩
  · exact ⟨vb, by simp, (hb.2 hm).hasVar⟩

theorem mp_mixXor (n : String) {v : List UInt32} {t : List Bool} (h : Marked v t) (d a r : ℕ) :
    MP (mixXor n v d a r : MSynth F _) fun v => Marked v (markXor t d a) := by
  refine MP.bind (MP.index fun _ ha => h.get ha) fun va ha => MP.bind (MP.index fun _ hb => h.get hb) fun vb hb => ?_
  refine MP.bind (MP.lift (SP.inNs (sp_xor ha.1 hb.1))) fun x hx => MP.pure (h.set d ⟨length_rotr hx.1 r, fun hm => ?_⟩)
  simp only [Bool.or_eq_true] at hm
  exact (hx.2 (hm.imp ha.2 hb.2)).rotr r

theorem mp_mixingG {v : List UInt32} {t : List Bool} (h : Marked v t) (a b c d : ℕ) {u w : UInt32} {x y : Bool} (hu : x = true → u.HasVar)
    (hw : y = true → w.HasVar) : MP (mixingG v a b c d u w : MSynth F _) fun v => Marked v (markG t a b c d x y) :=
  MP.bind (mp_mixAdd3 _ h a b hu) fun _ h => MP.bind (mp_mixXor _ h d a _) fun _ h => MP.bind (mp_mixAdd2 _ h c d) fun _ h =>
    MP.bind (mp_mixXor _ h b c _) fun _ h => MP.bind (mp_mixAdd3 _ h a b hw) fun _ h => MP.bind (mp_mixXor _ h d a _) fun _ h =>
    MP.bind (mp_mixAdd2 _ h c d) fun _ h => mp_mixXor _ h b c _

theorem mp_mixCall (n : String) {m : List UInt32} {i : ℕ} (hm : ∀ u, m[i]? = some u → u.HasVar) (s : List ℕ) (j a b c d : ℕ) {v : List UInt32}
    {t : List Bool} (h : Marked v t) :
    MP (mixCall n m s j a b c d v : MSynth F _) fun v => Marked v (markG t a b c d (s[j]? == some i) (s[j + 1]? == some i)) := by
  refine MP.bind (MP.index (Q := fun k => s[j]? = some k) fun _ h => h) fun ix hx => ?_
  refine MP.bind (MP.index (Q := fun u => m[ix]? = some u) fun _ h => h) fun u hu => ?_
  refine MP.bind (MP.index (Q := fun k => s[j + 1]? = some k) fun _ h => h) fun iy hy => ?_
  refine MP.bind (MP.index (Q := fun u => m[iy]? = some u) fun _ h => h) fun w hw => ?_
  refine MP.inNs (mp_mixingG h a b c d ?_ ?_)
  · intro e
    rw [hx, beq_iff_eq] at e
    cases e
    exact hm u hu
  · intro e
    rw [hy, beq_iff_eq] at e
    cases e
    exact hm w hw

/-- The marks after some rounds. -/
def markRounds (j : ℕ) : ℕ → ℕ → List Bool → List Bool
  | 0, _, t => t
  | n + 1, i, t => markRounds j n (i + 1) (markRound j (SIGMA.getD (i % 10) []) t)

theorem mp_roundLoop {m : List UInt32} {j : ℕ} (hm : ∀ u, m[j]? = some u → u.HasVar) (n i : ℕ) {v : List UInt32} {t : List Bool} (h : Marked v t) :
    MP (roundLoop m n i v : MSynth F _) fun v => Marked v (markRounds j n i t) := by
  induction n generalizing i v t with
  | zero => exact MP.pure h
  | succ n ih =>
    refine MP.bind (Q := fun v => Marked v (markRound j (SIGMA.getD (i % 10) []) t)) (MP.inNs ?_) fun v h => ih (i + 1) h
    refine MP.bind (MP.index (Q := fun s => s = SIGMA.getD (i % 10) []) fun s hs => by simp [List.getD_eq_getElem?_getD, hs]) ?_
    rintro s rfl
    exact MP.bind (mp_mixCall _ hm _ _ _ _ _ _ h) fun _ h => MP.bind (mp_mixCall _ hm _ _ _ _ _ _ h) fun _ h =>
      MP.bind (mp_mixCall _ hm _ _ _ _ _ _ h) fun _ h => MP.bind (mp_mixCall _ hm _ _ _ _ _ _ h) fun _ h =>
      MP.bind (mp_mixCall _ hm _ _ _ _ _ _ h) fun _ h => MP.bind (mp_mixCall _ hm _ _ _ _ _ _ h) fun _ h =>
      MP.bind (mp_mixCall _ hm _ _ _ _ _ _ h) fun _ h => mp_mixCall _ hm _ _ _ _ _ _ h

/-- Ten rounds mix every word of the message into every word of the state. -/
theorem markRounds_hit : ∀ j < 16, markRounds j 10 0 (replicate 16 false) = replicate 16 true := by decide +kernel

/-- Ten rounds mix the chained value into every word of the state. -/
theorem markRounds_chain : markRounds 16 10 0 (replicate 8 true ++ replicate 8 false) = replicate 16 true := by decide +kernel

theorem markRounds_none : markRounds 16 10 0 (replicate 16 false) = replicate 16 false := by decide +kernel

theorem sp_finalLoop {v : List UInt32} (n i : ℕ) {h : List UInt32} (p : Bool)
    (hv : ∀ (k : ℕ) (u : UInt32), v[k]? = some u → u.bits.length = 32 ∧ (p = true → u.Full))
    (hh : ∀ (k : ℕ) (u : UInt32), h[k]? = some u → u.bits.length = 32 ∧ (p = true → k < i → u.Full)) :
    SP (finalLoop v n i h : Synth F _) fun r => r.length = h.length ∧
      ∀ (k : ℕ) (u : UInt32), r[k]? = some u → u.bits.length = 32 ∧ (p = true → k < i + n → u.Full) := by
  induction n generalizing i h with
  | zero => exact SP.pure ⟨rfl, hh⟩
  | succ n ih =>
    unfold finalLoop
    split
    · rename_i hi vi vi8 e1 e2 e3
      obtain ⟨l1, -⟩ := hh _ _ e1
      obtain ⟨l2, f2⟩ := hv _ _ e2
      obtain ⟨l3, f3⟩ := hv _ _ e3
      refine SP.bind (Q := fun r => r.bits.length = 32 ∧ (p = true → r.Full)) (SP.inNs (SP.bind (SP.inNs (sp_xor l1 l2)) fun r hr =>
        (SP.inNs (sp_xor hr.1 l3)).mono fun x hx => ⟨hx.1, fun hp => hx.2 (.inr (f3 hp))⟩)) fun r hr => ?_
      refine (ih (i + 1) (h := h.set i r) fun k u hk => ?_).mono fun r' h' => ⟨by simpa using h'.1, fun k u hk => ?_⟩
      · by_cases hki : k = i
        · subst hki
          rw [List.getElem?_set_self (List.getElem?_eq_some_iff.1 e1).1] at hk
          cases hk
          exact ⟨hr.1, fun hp _ => hr.2 hp⟩
        · rw [List.getElem?_set_ne (Ne.symm hki)] at hk
          exact ⟨(hh k u hk).1, fun hp hlt => (hh k u hk).2 hp (by omega)⟩
      · exact ⟨(h'.2 k u hk).1, fun hp hlt => (h'.2 k u hk).2 hp (by omega)⟩
    · exact SP.panic

theorem marked_ivTail : Marked ivTail (replicate 8 false) := by
  have : ∀ w, (UInt32.constant w).bits.length = 32 ∧ (false = true → (UInt32.constant w).Full) := fun w => ⟨constant_length w, by simp⟩
  exact .cons (this _) <| .cons (this _) <| .cons (this _) <| .cons (this _) <| .cons (this _) <| .cons (this _) <| .cons (this _) <|
    .cons (this _) .nil

theorem marked_replicate {h : List UInt32} {p : Bool} (hh : ∀ u ∈ h, u.bits.length = 32 ∧ (p = true → u.Full)) {n : ℕ} (hn : h.length = n) :
    Marked h (replicate n p) := by
  subst hn
  induction h with
  | nil => exact .nil
  | cons u h ih => exact .cons (hh u (by simp)) (ih fun u hu => hh u (by simp [hu]))

/-- The compression with any marks on the chained value. -/
theorem sp_compression_marks {h m : List UInt32} (t : BitVec 64) (f : Bool) {q p : Bool} (j : ℕ) (hh : ∀ u ∈ h, u.bits.length = 32 ∧ (q = true → u.Full))
    (hm : ∀ u, m[j]? = some u → u.HasVar)
    (he : m.length = 16 → markRounds j 10 0 (replicate 8 q ++ replicate 8 false) = replicate 16 p) :
    SP (compression h m t f : Synth F _) fun r => r.length = 8 ∧ ∀ u ∈ r, u.bits.length = 32 ∧ (p = true → u.Full) := by
  unfold compression
  split
  · rename_i h8
    split
    · rename_i h16
      have hv : Marked (h ++ ivTail) (replicate 8 q ++ replicate 8 false) := List.rel_append (marked_replicate hh h8) marked_ivTail
      have hset : ∀ {v : List UInt32} {i : ℕ} {u : UInt32}, 12 ≤ i → i < 16 → Marked v (replicate 8 q ++ replicate 8 false) → u.bits.length = 32 →
          Marked (v.set i u) (replicate 8 q ++ replicate 8 false) := by
        intro v i u h1 h2 hv hu
        have := hv.set i (u := u) (p := false) ⟨hu, by simp⟩
        have e : (replicate 8 q ++ replicate 8 false).set i false = replicate 8 q ++ replicate 8 false := by
          rw [List.set_append, if_neg (by simp; omega), length_replicate]
          congr 1
          apply List.ext_getElem? fun k => ?_
          by_cases hk : k = i - 8
          · subst hk
            rw [List.getElem?_set_self (by simp; omega), List.getElem?_replicate, if_pos (by omega)]
          · rw [List.getElem?_set_ne (Ne.symm hk)]
        rwa [e] at this
      dsimp only
      split
      · rename_i v12 v13 v14 e12 e13 e14
        refine SP.bind (SP.inNs (sp_xor (hv.get e12).1 (constant_length _))) fun r12 h12 => ?_
        refine SP.bind (SP.inNs (sp_xor (hv.get e13).1 (constant_length _))) fun r13 h13 => ?_
        refine SP.bind (Q := fun v => Marked v (replicate 8 q ++ replicate 8 false)) ?_ fun v h' => ?_
        · have := hset (i := 13) (by omega) (by omega) (hset (i := 12) (by omega) (by omega) hv h12.1) h13.1
          split
          · refine SP.bind (SP.inNs (sp_xor (hv.get e14).1 (constant_length _))) fun r14 h14 => SP.pure ?_
            exact hset (by omega) (by omega) this h14.1
          · exact SP.pure this
        · refine SP.bind (MP.withMultiEq (mp_roundLoop hm 10 0 h')) fun v hv => ?_
          rw [he h16] at hv
          refine (sp_finalLoop 8 0 p (fun k u hk => ?_) fun k u hk => ?_).mono fun r hr => ⟨hr.1.trans h8, fun u hu => ?_⟩
          · refine ⟨(hv.get hk).1, fun hp => (hv.get hk).2 ?_⟩
            have hk' : k < 16 := by
              have h1 := (List.getElem?_eq_some_iff.1 hk).1
              have h2 := hv.length_eq
              simp only [length_replicate] at h2
              omega
            rw [mark, List.getD_eq_getElem _ _ (by simpa using hk'), List.getElem_replicate, hp]
          · exact ⟨(hh u (List.mem_of_getElem? hk)).1, fun _ hlt => absurd hlt (by omega)⟩
          · obtain ⟨k, hk⟩ := List.getElem?_of_mem hu
            have hlt : k < 8 := by
              have := (List.getElem?_eq_some_iff.1 hk).1
              rw [hr.1, h8] at this
              exact this
            exact ⟨(hr.2 k u hk).1, fun hp => (hr.2 k u hk).2 hp (by omega)⟩
      · exact SP.panic
    · exact SP.panic
  · exact SP.panic

theorem sp_compression {h m : List UInt32} (t : BitVec 64) (f : Bool) (hh : ∀ u ∈ h, u.bits.length = 32)
    (hv : (∀ u ∈ h, u.Full) ∨ ∃ u ∈ m, u.HasVar) : SP (compression h m t f : Synth F _) fun r => ∀ u ∈ r, u.Full := by
  rcases hv with hv | ⟨u, hu, hv⟩
  · by_cases hm : m.length = 16
    · exact (sp_compression_marks t f 16 (q := true) (p := true) (fun u hu => ⟨hh u hu, fun _ => hv u hu⟩)
        (fun u hu => by rw [List.getElem?_eq_none (by omega)] at hu; cases hu) fun _ => markRounds_chain).mono fun r hr u hu => (hr.2 u hu).2 rfl
    · unfold compression
      rw [if_neg hm]
      split <;> exact SP.panic
  · obtain ⟨j, hj⟩ := List.getElem?_of_mem hu
    refine (sp_compression_marks t f j (q := false) (p := true) (fun u hu => ⟨hh u hu, by simp⟩) (fun u' hu' => by rw [hj] at hu'; cases hu'; exact hv)
      fun hm => markRounds_hit j (hm ▸ (List.getElem?_eq_some_iff.1 hj).1)).mono fun r hr u hu => (hr.2 u hu).2 rfl

theorem sp_compression_len {h m : List UInt32} (t : BitVec 64) (f : Bool) (hh : ∀ u ∈ h, u.bits.length = 32) :
    SP (compression h m t f : Synth F _) fun r => ∀ u ∈ r, u.bits.length = 32 := by
  by_cases hm : m.length = 16
  · exact (sp_compression_marks t f 16 (q := false) (p := false) (fun u hu => ⟨hh u hu, by simp⟩)
      (fun u hu => by rw [List.getElem?_eq_none (by omega)] at hu; cases hu) fun _ => markRounds_none).mono fun r hr u hu => (hr.2 u hu).1
  · unfold compression
    rw [if_neg hm]
    split <;> exact SP.panic

theorem sp_blockLoop (len i : ℕ) {h : List UInt32} {blocks : List (List UInt32)} (hh : ∀ u ∈ h, u.bits.length = 32)
    (hv : (∀ u ∈ h, u.Full) ∨ ∃ m ∈ blocks, ∃ u ∈ m, u.HasVar) : SP (blockLoop len i h blocks : Synth F _) fun r => ∀ u ∈ r, u.Full := by
  induction blocks generalizing i h with
  | nil => exact SP.panic
  | cons m blocks ih =>
    cases blocks with
    | nil =>
      refine SP.inNs (sp_compression _ _ hh (hv.imp id ?_))
      rintro ⟨m', hm, h⟩
      rw [mem_singleton] at hm
      subst hm
      exact h
    | cons m2 blocks =>
      unfold blockLoop
      by_cases hc : (∀ u ∈ h, u.Full) ∨ ∃ u ∈ m, u.HasVar
      · exact SP.bind (SP.inNs (sp_compression _ _ hh hc)) fun h' hf => ih _ (fun u hu => (hf u hu).1) (.inl hf)
      · refine SP.bind (SP.inNs (sp_compression_len _ _ hh)) fun h' hl => ih _ hl (.inr ?_)
        rcases hv with hv | ⟨m', hm, hv⟩
        · exact absurd (.inl hv) hc
        · rcases mem_cons.1 hm with rfl | hm
          · exact absurd (.inr hv) hc
          · exact ⟨m', hm, hv⟩

theorem sp_blake2s {input : List Boolean} (pers : List (BitVec 8)) (h : ∃ b ∈ input, b.isConstant = false) :
    SP (blake2s input pers : Synth F _) NoConstants := by
  unfold blake2s
  split
  · dsimp only
    split
    · split
      · rename_i blocks hb
        obtain ⟨b, hb', hc⟩ := h
        refine SP.bind (sp_blockLoop _ 0 (fun u hu => ?_) (.inr ?_)) fun cur hcur => SP.pure ?_
        · simp only [mem_cons, not_mem_nil, or_false] at hu
          rcases hu with rfl | rfl | rfl | rfl | rfl | rfl | rfl | rfl <;> exact constant_length _
        · unfold mkBlocks at hb
          obtain ⟨cs, h1, hb⟩ := Option.bind_eq_some_iff.1 (show Option.bind (chunks? 512 input) _ = _ from hb)
          obtain ⟨bs, h2, hb⟩ := Option.bind_eq_some_iff.1 hb
          obtain ⟨c, hcs, hbc⟩ := Sha256.mem_of_chunks h1 hb'
          obtain ⟨m, hm, e⟩ := Sha256.mem_of_mapM h2 hcs
          have hne : bs.isEmpty = false := by cases bs with
            | nil => cases hm
            | cons _ _ => rfl
          rw [hne] at hb
          cases hb
          refine ⟨m, hm, ?_⟩
          unfold mkBlock at e
          obtain ⟨ws, h3, e⟩ := Option.bind_eq_some_iff.1 (show Option.bind (chunks? 32 c) _ = _ from e)
          obtain ⟨us, h4, e⟩ := Option.bind_eq_some_iff.1 e
          cases e
          obtain ⟨w, hw, hbw⟩ := Sha256.mem_of_chunks h3 hbc
          obtain ⟨u, hu, e⟩ := Sha256.mem_of_mapM h4 hw
          refine ⟨u, mem_append_left _ hu, b, ?_, hc⟩
          unfold fromBits at e
          split at e
          · cases e
            exact mem_append_left _ hbw
          · cases e
        · intro x hx
          obtain ⟨u, hu, hx⟩ := mem_flatMap.1 hx
          exact (hcur u hu).2 x hx
      · exact SP.panic
    · exact SP.panic
  · exact SP.panic

end Blake2s
end Bellman
