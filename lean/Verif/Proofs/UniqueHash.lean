import Verif.Proofs.UniqueNum
import Verif.Proofs.UInt32
import Verif.Proofs.Sha256
import Verif.Proofs.Blake2s

/-!
# Uniqueness of witnesses: `MultiEq`, `UInt32`, SHA-256, BLAKE2s
-/

namespace Bellman

open PrimeField List

set_option linter.unusedSectionVars false
set_option linter.unusedVariables false

variable {F : Type} [PrimeField F] {α β : Type} {ρ ρ' : Var → F}

/-- The equalities pending in a `MultiEq`, read with both assignments, imply `P`. -/
def DInv (ρ ρ' : Var → F) (s : MEq F) (P : Prop) : Prop := ∃ H H', MEq.SInv ρ s H ∧ MEq.SInv ρ' s H' ∧ (H → H' → P)

theorem DInv.mono {s : MEq F} {P P' : Prop} (h : DInv ρ ρ' s P) (hp : P → P') : DInv ρ ρ' s P' :=
  h.imp fun _ h => h.imp fun _ h => ⟨h.1, h.2.1, fun a b => hp (h.2.2 a b)⟩

theorem DInv.new : DInv ρ ρ' (MEq.new : MEq F) True := ⟨True, True, .new, .new, fun _ _ => trivial⟩

/-- A run of a program with a `MultiEq`, under two satisfying assignments and the assumption `A`: once the pending equalities are enforced, the
assignments agree on what the run allocates and a fact `B` holds, and with it `T` of the result. -/
def MDet (ρ ρ' : Var → F) (A : Prop) (m : MSynth F α) (T : Prop → α → Prop) : Prop :=
  ∀ s P, DInv ρ ρ' s P → ∀ t a s', Exec (m.run.run s) t (some (.ok a, s')) → Sat ρ t → Sat ρ' t →
    ∃ B : Prop, T (A ∧ B) a ∧ DInv ρ ρ' s' (P ∧ B ∧ (A → ∀ x ∈ allocated t, ρ x = ρ' x))

theorem MSynth.exec_bind {m : MSynth F α} {g : α → MSynth F β} {s s' : MEq F} {t : List (Ev F)} {b : β}
    (h : Exec ((m >>= g).run.run s) t (some (.ok b, s'))) : ∃ t1 t2 a s1, t = t1 ++ t2 ∧ Exec (m.run.run s) t1 (some (.ok a, s1)) ∧
      Exec ((g a).run.run s1) t2 (some (.ok b, s')) := by
  rcases Exec.bind_inv h with ⟨_, h2⟩ | ⟨t1, t2, ⟨a, s1⟩, rfl, h1, h2⟩
  · cases h2
  · cases a with
    | error e => cases h2
    | ok a => exact ⟨t1, t2, a, s1, rfl, h1, h2⟩

theorem MSynth.exec_lift {m : Synth F α} {s s' : MEq F} {t : List (Ev F)} {a : α}
    (h : Exec ((MSynth.lift m).run.run s) t (some (.ok a, s'))) : s' = s ∧ Exec m.run t (some (.ok a)) := by
  rcases Exec.bind_inv (show Exec (m.run.bind fun r => .ret (r, s)) t _ from h) with ⟨_, h2⟩ | ⟨t1, t2, b, rfl, h1, h2⟩
  · cases h2
  · cases h2
    rw [List.append_nil]
    exact ⟨rfl, h1⟩

theorem MSynth.exec_wpS {m : MSynth F α} {s s' : MEq F} {Q : α → MEq F → Prop} (h : MSynth.wpS ρ m s Q) {t : List (Ev F)} {a : α}
    (he : Exec (m.run.run s) t (some (.ok a, s'))) (hs : Sat ρ t) : Q a s' :=
  (Circ.wpS_iff ..).1 h t _ he hs

theorem MEq.exec_enforceEqual {n : ℕ} {l r : LC F} {s s' : MEq F} {t : List (Ev F)} {a : Unit}
    (h : Exec ((MEq.enforceEqual n l r).run.run s) t (some (.ok a, s'))) : allocated t = [] := by
  have add : ∀ (s : MEq F) t x, Exec
      (if CAPACITY F > s.bitsUsed + n then
        (.ret (.ok (), ⟨s.ops, s.bitsUsed + n, s.lhs + ((2 ^ s.bitsUsed : F), l), s.rhs + ((2 ^ s.bitsUsed : F), r)⟩) :
          Circ F (Except SynthesisError Unit × MEq F))
      else .panic "assert!((Scalar::CAPACITY as usize) > (self.bits_used + num_bits))") t x → t = [] := by
    intro s t x h
    split at h <;> cases h <;> rfl
  replace h := (show Exec (if CAPACITY F ≤ s.bitsUsed + n then _ else _) t _ from h)
  split at h
  · rcases (show Exec (Circ.enforce _ _ _ _ _) t _ from h) with _ | _ | _ | _ | _ | h
    cases add _ _ _ h
    rfl
  · cases add _ _ _ h
    rfl

namespace MDet

variable {A : Prop} {T : Prop → α → Prop} {T' : Prop → β → Prop}

theorem pure {a : α} (h : T A a) : MDet ρ ρ' A (pure a : MSynth F α) T := by
  intro s P hs t b s' he _ _
  cases he
  exact ⟨True, by rwa [and_true], hs.mono fun hp => ⟨hp, trivial, by simp⟩⟩

theorem bind {m : MSynth F α} {g : α → MSynth F β} (h : MDet ρ ρ' A m T) (hg : ∀ B a, T (A ∧ B) a → MDet ρ ρ' (A ∧ B) (g a) T') :
    MDet ρ ρ' A (m >>= g) T' := by
  intro s P hs t b s' he hsat hsat'
  obtain ⟨t1, t2, a, s1, rfl, h1, h2⟩ := MSynth.exec_bind he
  rw [sat_append] at hsat hsat'
  obtain ⟨B, q, i⟩ := h s P hs _ _ _ h1 hsat.1 hsat'.1
  obtain ⟨B', q', i'⟩ := hg B a q _ _ i _ _ _ h2 hsat.2 hsat'.2
  refine ⟨B ∧ B', by rwa [← and_assoc], i'.mono ?_⟩
  rintro ⟨⟨hp, hb, a1⟩, hb', a2⟩
  refine ⟨hp, ⟨hb, hb'⟩, fun ha x hx => ?_⟩
  rw [allocated_append, List.mem_append] at hx
  exact hx.elim (a1 ha x) (a2 ⟨ha, hb⟩ x)

theorem inNs (n : String) {m : MSynth F α} (h : MDet ρ ρ' A m T) : MDet ρ ρ' A (MSynth.inNs n m) T := by
  intro s P hs t b s' he hsat hsat'
  cases he with
  | push he =>
    rcases Exec.bind_inv he with ⟨_, h2⟩ | ⟨t1, t2, ⟨a, s1⟩, rfl, h1, h2⟩
    · cases h2
    · cases h2 with
      | pop h2 =>
        cases h2
        rw [Sat_push, sat_append] at hsat hsat'
        rw [allocated_push, allocated_append]
        simpa using h s P hs _ _ _ h1 hsat.1 hsat'.1

theorem panic {e : String} : MDet ρ ρ' A (MSynth.lift (Synth.panic e) : MSynth F α) T := by
  intro s P hs t b s' he hsat hsat'
  cases (MSynth.exec_lift he).2

theorem lift {m : Synth F α} {Q U U' : α → Prop} (h : A → SDet ρ ρ' True m Q) (hu : Synth.wpS ρ m U) (hu' : Synth.wpS ρ' m U')
    (hT : ∀ a, U a → U' a → (A → Q a) → T A a) : MDet ρ ρ' A (MSynth.lift m) T := by
  intro s P hs t a s' he hsat hsat'
  obtain ⟨es, he'⟩ := MSynth.exec_lift he
  clear he
  subst es
  rename' he' => he
  refine ⟨True, ?_, hs.mono fun hp => ⟨hp, trivial, fun ha => (h ha _ _ he hsat hsat').2.1⟩⟩
  rw [and_true]
  exact hT a ((Synth.wpS_iff ..).1 hu t a he hsat) ((Synth.wpS_iff ..).1 hu' t a he hsat') fun ha => (h ha _ _ he hsat hsat').2.2

theorem index {l : List α} (i : ℕ) (h : ∀ x ∈ l, T A x) : MDet ρ ρ' A (MSynth.index l i : MSynth F α) T := by
  unfold MSynth.index
  split
  · rename_i x hx
    exact pure (h x (List.mem_of_getElem? hx))
  · exact panic

theorem withMultiEq (h1 : ρ .one = 1) (h1' : ρ' .one = 1) {m : MSynth F α} (h : MDet ρ ρ' True m T) :
    SDet ρ ρ' True (MSynth.withMultiEq m) (T True) := by
  intro t b he hs hs'
  rcases Exec.bind_inv he with ⟨_, h2⟩ | ⟨t1, t2, ⟨a, s1⟩, rfl, e1, e2⟩
  · cases h2
  · rw [sat_append] at hs hs'
    have key : a = .ok b ∧ allocated t2 = [] ∧ ∀ P, DInv ρ ρ' s1 P → P := by
      replace e2 := (show Exec (if s1.bitsUsed > 0 then MEq.accumulate (fun _ => .ret a) s1 else .ret a) t2 _ from e2)
      split at e2
      · rcases (show Exec (Circ.enforce _ _ _ _ _) t2 _ from e2) with _ | _ | _ | _ | _ | e2
        cases e2
        refine ⟨rfl, rfl, ?_⟩
        rintro P ⟨H, H', i, i', hp⟩
        have e := ((Sat_enforce ..).1 hs.2).1
        have e' := ((Sat_enforce ..).1 hs'.2).1
        rw [LC.eval_addVar, LC.eval_zero, zero_add, h1, mul_one] at e
        rw [LC.eval_addVar, LC.eval_zero, zero_add, h1', mul_one] at e'
        exact hp (i.acc e) (i'.acc e')
      · rename_i h0
        cases e2
        refine ⟨rfl, rfl, ?_⟩
        rintro P ⟨H, H', ⟨L, R, _, _, l1, l2, _, hP⟩, ⟨L', R', _, _, l1', l2', _, hP'⟩, hp⟩
        have h0 : s1.bitsUsed = 0 := by omega
        rw [h0] at l1 l2 l1' l2'
        exact hp (hP (by omega)) (hP' (by omega))
    obtain ⟨rfl, ea, hd⟩ := key
    obtain ⟨B, q, i⟩ := h _ _ DInv.new _ _ _ e1 hs.1 hs'.1
    obtain ⟨-, hb, hx⟩ := hd _ i
    rw [allocated_append, ea, List.append_nil]
    refine ⟨trivial, hx trivial, ?_⟩
    rwa [true_and, eq_true hb] at q

end MDet

namespace UInt32

/-- Both assignments give the bits of a word a value, the same one if `A`. -/
structure Det (ρ ρ' : Var → F) (A : Prop) (u : UInt32) : Prop where
  word : ∃ w, u.Word ρ w
  word' : ∃ w, u.Word ρ' w
  agree : A → AgreeAll ρ ρ' u.bits

variable {A B : Prop} {u v w : UInt32}

theorem Det.mono (h : u.Det ρ ρ' A) (hb : B → A) : u.Det ρ ρ' B := ⟨h.1, h.2, fun b => h.3 (hb b)⟩

theorem Det.and (h : u.Det ρ ρ' A) : u.Det ρ ρ' (A ∧ B) := h.mono And.left

theorem det_constant (c : BitVec 32) : (constant c).Det ρ ρ' A := by
  refine ⟨⟨_, word_constant c⟩, ⟨_, word_constant c⟩, fun _ b hb => ?_⟩
  obtain ⟨x, -, rfl⟩ := List.mem_map.1 (show b ∈ (shiftBits 32 c).map Boolean.constant from hb)
  exact Boolean.agree_constant

theorem Det.rotr (h : u.Det ρ ρ' A) (i : ℕ) : (u.rotr i).Det ρ ρ' A := by
  obtain ⟨⟨x, hx⟩, ⟨y, hy⟩, ha⟩ := h
  refine ⟨⟨_, word_rotr hx i⟩, ⟨_, word_rotr hy i⟩, fun a b hb => ha a b ?_⟩
  have := List.mem_of_mem_take hb
  rcases List.mem_append.1 this with h | h
  · exact List.mem_of_mem_drop h
  · exact h

theorem Det.shr (h : u.Det ρ ρ' A) (i : ℕ) : (u.shr i).Det ρ ρ' A := by
  obtain ⟨⟨x, hx⟩, ⟨y, hy⟩, ha⟩ := h
  refine ⟨⟨_, word_shr hx i⟩, ⟨_, word_shr hy i⟩, fun a b hb => ?_⟩
  have := List.mem_of_mem_take hb
  rcases List.mem_append.1 this with h | h
  · exact ha a b (List.mem_of_mem_drop h)
  · rw [List.eq_of_mem_replicate h]; exact Boolean.agree_constant

theorem sdet_xorLoop {as bs : List Boolean} (ha : AgreeAll ρ ρ' as) (hb : AgreeAll ρ ρ' bs) (i : ℕ) :
    SDet ρ ρ' True (xorLoop i as bs) (AgreeAll ρ ρ') := by
  induction as generalizing bs i with
  | nil => exact SDet.pure trivial (by simp [AgreeAll])
  | cons a as ih =>
    cases bs with
    | nil => exact SDet.pure trivial (by simp [AgreeAll])
    | cons b bs =>
      refine SDet.bind (SDet.inNs _ (Boolean.sdet_xor (ha a (by simp)) (hb b (by simp)))) fun r hr =>
        SDet.bind (ih (fun x hx => ha x (by simp [hx])) (fun x hx => hb x (by simp [hx])) (i + 1)) fun rs hrs => SDet.pure trivial ?_
      intro x hx
      rcases List.mem_cons.1 hx with rfl | hx
      · exact hr
      · exact hrs x hx

theorem sdet_xor (ha : AgreeAll ρ ρ' u.bits) (hb : AgreeAll ρ ρ' v.bits) : SDet ρ ρ' True (xor u v) fun o => AgreeAll ρ ρ' o.bits :=
  SDet.bind (sdet_xorLoop ha hb 0) fun _ h => SDet.pure trivial h

theorem sdet_triopLoop {fn : ℕ → Boolean → Boolean → Boolean → Synth F Boolean} {as bs cs : List Boolean}
    (hf : ∀ i a b c, a.Agree ρ ρ' → b.Agree ρ ρ' → c.Agree ρ ρ' → SDet ρ ρ' True (fn i a b c) (Boolean.Agree ρ ρ'))
    (ha : AgreeAll ρ ρ' as) (hb : AgreeAll ρ ρ' bs) (hc : AgreeAll ρ ρ' cs) (i : ℕ) :
    SDet ρ ρ' True (triopLoop fn i as bs cs) (AgreeAll ρ ρ') := by
  induction as generalizing bs cs i with
  | nil => exact SDet.pure trivial (by simp [AgreeAll])
  | cons a as ih =>
    cases bs with
    | nil => exact SDet.pure trivial (by simp [AgreeAll])
    | cons b bs =>
      cases cs with
      | nil => exact SDet.pure trivial (by simp [AgreeAll])
      | cons c cs =>
        refine SDet.bind (hf i a b c (ha a (by simp)) (hb b (by simp)) (hc c (by simp))) fun r hr =>
          SDet.bind (ih (fun x hx => ha x (by simp [hx])) (fun x hx => hb x (by simp [hx])) (fun x hx => hc x (by simp [hx])) (i + 1))
            fun rs hrs => SDet.pure trivial ?_
        intro x hx
        rcases List.mem_cons.1 hx with rfl | hx
        · exact hr
        · exact hrs x hx

theorem xor_det (hu : u.Det ρ ρ' A) (hv : v.Det ρ ρ' A) (n : String) :
    MDet ρ ρ' A (MSynth.lift (Synth.inNs n (xor u v))) fun A o => o.Det ρ ρ' A := by
  obtain ⟨⟨x, hx⟩, ⟨x', hx'⟩, ha⟩ := hu
  obtain ⟨⟨y, hy⟩, ⟨y', hy'⟩, hb⟩ := hv
  exact MDet.lift (fun a => SDet.inNs _ (sdet_xor (ha a) (hb a))) ((Synth.wpS_inNs ..).2 (wpS_xor hx hy)) ((Synth.wpS_inNs ..).2 (wpS_xor hx' hy'))
    fun o h h' q => ⟨⟨_, h⟩, ⟨_, h'⟩, q⟩

section one

variable (h1 : ρ .one = 1) (h1' : ρ' .one = 1)
include h1 h1'

theorem sdet_sha256Ch (ha : AgreeAll ρ ρ' u.bits) (hb : AgreeAll ρ ρ' v.bits) (hc : AgreeAll ρ ρ' w.bits) :
    SDet ρ ρ' True (sha256Ch u v w) fun o => AgreeAll ρ ρ' o.bits :=
  SDet.bind (sdet_triopLoop (fun i a b c ha hb hc => SDet.inNs _ (Boolean.sdet_sha256Ch h1 h1' ha hb hc)) ha hb hc 0) fun _ h =>
    SDet.pure trivial h

theorem sdet_sha256Maj (ha : AgreeAll ρ ρ' u.bits) (hb : AgreeAll ρ ρ' v.bits) (hc : AgreeAll ρ ρ' w.bits) :
    SDet ρ ρ' True (sha256Maj u v w) fun o => AgreeAll ρ ρ' o.bits :=
  SDet.bind (sdet_triopLoop (fun i a b c ha hb hc => SDet.inNs _ (Boolean.sdet_sha256Maj h1 h1' ha hb hc)) ha hb hc 0) fun _ h =>
    SDet.pure trivial h

theorem ch_det (hu : u.Det ρ ρ' A) (hv : v.Det ρ ρ' A) (hw : w.Det ρ ρ' A) (n : String) :
    MDet ρ ρ' A (MSynth.lift (Synth.inNs n (sha256Ch u v w))) fun A o => o.Det ρ ρ' A := by
  obtain ⟨⟨x, hx⟩, ⟨x', hx'⟩, ha⟩ := hu
  obtain ⟨⟨y, hy⟩, ⟨y', hy'⟩, hb⟩ := hv
  obtain ⟨⟨z, hz⟩, ⟨z', hz'⟩, hc⟩ := hw
  exact MDet.lift (fun a => SDet.inNs _ (sdet_sha256Ch h1 h1' (ha a) (hb a) (hc a))) ((Synth.wpS_inNs ..).2 (wpS_sha256Ch h1 hx hy hz))
    ((Synth.wpS_inNs ..).2 (wpS_sha256Ch h1' hx' hy' hz')) fun o h h' q => ⟨⟨_, h⟩, ⟨_, h'⟩, q⟩

theorem maj_det (hu : u.Det ρ ρ' A) (hv : v.Det ρ ρ' A) (hw : w.Det ρ ρ' A) (n : String) :
    MDet ρ ρ' A (MSynth.lift (Synth.inNs n (sha256Maj u v w))) fun A o => o.Det ρ ρ' A := by
  obtain ⟨⟨x, hx⟩, ⟨x', hx'⟩, ha⟩ := hu
  obtain ⟨⟨y, hy⟩, ⟨y', hy'⟩, hb⟩ := hv
  obtain ⟨⟨z, hz⟩, ⟨z', hz'⟩, hc⟩ := hw
  exact MDet.lift (fun a => SDet.inNs _ (sdet_sha256Maj h1 h1' (ha a) (hb a) (hc a))) ((Synth.wpS_inNs ..).2 (wpS_sha256Maj h1 hx hy hz))
    ((Synth.wpS_inNs ..).2 (wpS_sha256Maj h1' hx' hy' hz')) fun o h h' q => ⟨⟨_, h⟩, ⟨_, h'⟩, q⟩

theorem exec_resultLoop {v : Option ℕ} {m i : ℕ} {c : F} {bits : List Boolean} {lc : LC F} {t : List (Ev F)} {q : List Boolean × LC F × ℕ}
    (h : Exec (resultLoop v m i c bits lc).run t (some (.ok q))) :
    (∀ b ∈ bits, b ∈ q.1) ∧ ∀ x ∈ allocated t, ∃ b ∈ q.1, x ∈ b.vars := by
  induction m using Nat.strong_induction_on generalizing i c bits lc t with
  | _ m ih =>
    rw [resultLoop] at h
    split at h
    · cases h
      exact ⟨fun b hb => hb, by simp⟩
    · rcases Exec.bind_inv h with ⟨_, h2⟩ | ⟨t1, t2, b, rfl, e1, e2⟩
      · cases h2
      · cases b with
        | error e => cases e2
        | ok b =>
          obtain ⟨g1, g2⟩ := ih (m >>> 1) (by rw [Nat.shiftRight_one]; omega) e2
          refine ⟨fun x hx => g1 x (by simp [hx]), fun x hx => ?_⟩
          rw [allocated_append, AllocatedBit.exec_alloc e1] at hx
          rcases List.mem_append.1 hx with hx | hx
          · rw [List.mem_singleton] at hx
            exact ⟨.is b, g1 _ (by simp), by simp [Boolean.vars, hx]⟩
          · exact g2 x hx

theorem words_of_det {us : List UInt32} (h : ∀ u ∈ us, u.Det ρ ρ' A) : ∃ ws ws', Forall₂ (Word ρ) us ws ∧ Forall₂ (Word ρ') us ws' ∧ (A → ws = ws') := by
  induction us with
  | nil => exact ⟨[], [], .nil, .nil, fun _ => rfl⟩
  | cons u us ih =>
    obtain ⟨ws, ws', g, g', e⟩ := ih fun x hx => h x (by simp [hx])
    obtain ⟨⟨w, hw⟩, ⟨w', hw'⟩, ha⟩ := h u (by simp)
    exact ⟨w :: ws, w' :: ws', .cons hw g, .cons hw' g', fun a => by rw [e a, wbits_inj (bits_inj h1 h1' (ha a) hw.bits hw'.bits)]⟩

theorem addmany_det {us : List UInt32} (h : ∀ u ∈ us, u.Det ρ ρ' A) : MDet ρ ρ' A (addmany us) fun A o => o.Det ρ ρ' A := by
  obtain ⟨ws, ws', hw, hw', hws⟩ := words_of_det h1 h1' h
  rintro s P ⟨H, H', iv, iv', hp⟩ t a s' he hs hs'
  obtain ⟨w, hword, -⟩ := MSynth.exec_wpS (wpS_addmany h1 hw iv) he hs
  obtain ⟨w', hword', -⟩ := MSynth.exec_wpS (wpS_addmany h1' hw' iv') he hs'
  unfold addmany at he
  split at he
  · split at he
    · split at he
      · rename_i h64 h2 h10
        dsimp only at he
        split at he
        · cases he
          exact ⟨True, det_constant _, H, H', iv, iv', fun x y => ⟨hp x y, trivial, by simp⟩⟩
        · obtain ⟨t1, t2, q, s1, rfl, e1, e2⟩ := MSynth.exec_bind he
          obtain ⟨t2, t3, b, s2, rfl, e2, e3⟩ := MSynth.exec_bind e2
          obtain ⟨es, e1'⟩ := MSynth.exec_lift e1
          clear e1
          rename' e1' => e1
          subst es
          cases e3
          rw [sat_append, sat_append] at hs hs'
          obtain ⟨bs, xs, f1, f2, f3, f4, f5, -⟩ := (Synth.wpS_iff ..).1 (wpS_resultLoop h1 _ _ _ _ _ _) _ _ e1 hs.1
          obtain ⟨bs', xs', f1', f2', f3', f4', -, -⟩ := (Synth.wpS_iff ..).1 (wpS_resultLoop h1' _ _ _ _ _ _) _ _ e1 hs'.1
          simp only [List.nil_append, zero_add, LC.eval_zero, one_mul] at f1 f1' f4 f4' f5
          subst f1 f1'
          have hbound : ∀ {ws : List (BitVec 32)}, us.length = ws.length → wsum ws < 2 ^ q.2.2 := fun {ws} e => by
            rw [f5, ← Nat.size_le]
            have := wsum_le ws
            rw [← e] at this
            exact Nat.size_le_size this
          have j := MSynth.exec_wpS (MEq.wpS_enforceEqual h1 iv (a := wsum ws) (b := bitsVal xs)
            ⟨by rw [eval_addOperands h1 hw]; simp, hbound hw.length_eq⟩ ⟨f4, by rw [f5, ← f3]; exact bitsVal_lt xs⟩) e2 hs.2.1
          have j' := MSynth.exec_wpS (MEq.wpS_enforceEqual h1' iv' (a := wsum ws') (b := bitsVal xs')
            ⟨by rw [eval_addOperands h1' hw']; simp, hbound hw'.length_eq⟩ ⟨f4', by rw [f5, ← f3']; exact bitsVal_lt xs'⟩) e2 hs'.2.1
          refine ⟨A → AgreeAll ρ ρ' q.1, ⟨⟨w, hword⟩, ⟨w', hword'⟩, fun hA b hb => hA.2 hA.1 b (List.mem_of_mem_take hb)⟩, _, _, j, j', ?_⟩
          rintro ⟨k, ke⟩ ⟨k', ke'⟩
          have hag : A → AgreeAll ρ ρ' q.1 := fun hA => by
            have hxs : xs = xs' := by
              rw [← leBits_bitsVal xs, ← leBits_bitsVal xs', f3, f3', ← ke, ← ke', hws hA]
            subst hxs
            exact agreeAll_of_bits f2 f2'
          refine ⟨hp k k', hag, fun hA x hx => ?_⟩
          rw [allocated_append, allocated_append, MEq.exec_enforceEqual e2, allocated_nil, List.append_nil, List.append_nil] at hx
          obtain ⟨b, hb, hbx⟩ := (exec_resultLoop h1 h1' e1).2 x hx
          exact hag hA b hb x hbx
      · cases (MSynth.exec_lift he).2
    · cases (MSynth.exec_lift he).2
  · cases (MSynth.exec_lift he).2

end one

end UInt32

open UInt32

/-- `UInt32.Det` of every word of a list. -/
def Dets (ρ ρ' : Var → F) (A : Prop) (l : List UInt32) : Prop := ∀ u ∈ l, u.Det ρ ρ' A

section

variable {A B : Prop} {l l' : List UInt32} {u : UInt32}

theorem Dets.mono (h : Dets ρ ρ' A l) (hb : B → A) : Dets ρ ρ' B l := fun u hu => (h u hu).mono hb
theorem Dets.and (h : Dets ρ ρ' A l) : Dets ρ ρ' (A ∧ B) l := h.mono And.left
theorem dets_nil : Dets ρ ρ' A [] := by simp [Dets]
theorem Dets.cons (h : u.Det ρ ρ' A) (hl : Dets ρ ρ' A l) : Dets ρ ρ' A (u :: l) := by
  intro x hx
  rcases List.mem_cons.1 hx with rfl | hx
  · exact h
  · exact hl x hx
theorem Dets.append (h : Dets ρ ρ' A l) (h' : Dets ρ ρ' A l') : Dets ρ ρ' A (l ++ l') := by
  intro x hx
  rcases List.mem_append.1 hx with hx | hx
  · exact h x hx
  · exact h' x hx
theorem Dets.set (h : Dets ρ ρ' A l) (hu : u.Det ρ ρ' A) (i : ℕ) : Dets ρ ρ' A (l.set i u) := by
  intro x hx
  rcases List.mem_or_eq_of_mem_set hx with hx | rfl
  · exact h x hx
  · exact hu

theorem Dets.agree (h : Dets ρ ρ' True l) {f : UInt32 → List Boolean} (hf : ∀ u, ∀ b ∈ f u, b ∈ u.bits) : AgreeAll ρ ρ' (l.flatMap f) := by
  intro b hb
  obtain ⟨u, hu, hb⟩ := List.mem_flatMap.1 hb
  exact (h u hu).agree trivial b (hf u b hb)

theorem areBits_forall {l : List Boolean} (h : AreBits l ρ) : ∃ xs, Forall₂ (Boolean.Bit ρ) l xs := by
  induction l with
  | nil => exact ⟨[], .nil⟩
  | cons b l ih =>
    obtain ⟨xs, hx⟩ := ih fun b hb => h b (by simp [hb])
    obtain ⟨x, h⟩ := h b (by simp)
    exact ⟨x :: xs, .cons h hx⟩

/-- The literals are bits about which the assignments agree. -/
structure DetBits (ρ ρ' : Var → F) (l : List Boolean) : Prop where
  bits : AreBits l ρ
  bits' : AreBits l ρ'
  agree : AgreeAll ρ ρ' l

theorem DetBits.sub {l l' : List Boolean} (h : DetBits ρ ρ' l) (hs : ∀ b ∈ l', b ∈ l) : DetBits ρ ρ' l' :=
  ⟨fun b hb => h.bits b (hs b hb), fun b hb => h.bits' b (hs b hb), fun b hb => h.agree b (hs b hb)⟩

theorem detBits_constants {l : List Boolean} (h : ∀ b ∈ l, ∃ c, b = .constant c) : DetBits ρ ρ' l := by
  refine ⟨fun b hb => ?_, fun b hb => ?_, fun b hb => ?_⟩ <;> obtain ⟨c, rfl⟩ := h b hb
  · exact ⟨c, rfl⟩
  · exact ⟨c, rfl⟩
  · exact Boolean.agree_constant

theorem DetBits.append {l l' : List Boolean} (h : DetBits ρ ρ' l) (h' : DetBits ρ ρ' l') : DetBits ρ ρ' (l ++ l') := by
  refine ⟨fun b hb => ?_, fun b hb => ?_, fun b hb => ?_⟩ <;> rcases List.mem_append.1 hb with hb | hb
  · exact h.bits b hb
  · exact h'.bits b hb
  · exact h.bits' b hb
  · exact h'.bits' b hb
  · exact h.agree b hb
  · exact h'.agree b hb

theorem det_fromBits {bits : List Boolean} (h : DetBits ρ ρ' bits) (hu : fromBits bits = some u) : u.Det ρ ρ' A := by
  obtain ⟨xs, hx⟩ := areBits_forall h.bits
  obtain ⟨xs', hx'⟩ := areBits_forall h.bits'
  refine ⟨⟨_, word_fromBits hx hu⟩, ⟨_, word_fromBits hx' hu⟩, fun _ => ?_⟩
  unfold fromBits at hu
  split at hu
  · cases hu; exact h.agree
  · cases hu

theorem det_fromBitsBe {bits : List Boolean} (h : DetBits ρ ρ' bits) (hu : fromBitsBe bits = some u) : u.Det ρ ρ' A := by
  refine det_fromBits (bits := bits.reverse) (h.sub fun b hb => by simpa using hb) ?_
  unfold fromBitsBe at hu
  unfold fromBits
  rw [List.length_reverse, List.reverse_reverse]
  exact hu

end

/-- What two assignments agree on after a `mapM`. -/
theorem mem_of_mapM {γ : Type} {f : α → Option γ} {l : List α} {r : List γ} (h : l.mapM f = some r) : ∀ y ∈ r, ∃ x ∈ l, f x = some y := by
  induction l generalizing r with
  | nil => cases h; simp
  | cons a l ih =>
    rw [List.mapM_cons] at h
    cases hfa : f a with
    | none => rw [hfa] at h; cases h
    | some b =>
      rw [hfa] at h
      cases hl : l.mapM f with
      | none => simp [hl] at h
      | some bs =>
        simp [hl] at h
        subst h
        intro y hy
        rcases List.mem_cons.1 hy with rfl | hy
        · exact ⟨a, by simp, hfa⟩
        · obtain ⟨x, hx, e⟩ := ih hl y hy
          exact ⟨x, by simp [hx], e⟩

namespace Sha256

section

variable {A : Prop} (h1 : ρ .one = 1) (h1' : ρ' .one = 1)
include h1 h1'

theorem wStep_det (i : ℕ) {w : List UInt32} (hw : Dets ρ ρ' A w) : MDet ρ ρ' A (wStep i w : MSynth F _) fun A o => Dets ρ ρ' A o := by
  refine MDet.inNs _ ?_
  refine MDet.bind (MDet.index _ hw) fun B1 w15 hw15 => MDet.bind (xor_det (hw15.rotr _) (hw15.rotr _) _) fun B2 s0 hs0 =>
    MDet.bind (xor_det hs0 (hw15.and.shr _) _) fun B3 s0' hs0' => MDet.bind (MDet.index _ hw.and.and.and) fun B4 w2 hw2 =>
    MDet.bind (xor_det (hw2.rotr _) (hw2.rotr _) _) fun B5 s1 hs1 => MDet.bind (xor_det hs1 (hw2.and.shr _) _) fun B6 s1' hs1' =>
    MDet.bind (MDet.index _ hw.and.and.and.and.and.and) fun B7 w16 hw16 =>
    MDet.bind (MDet.index _ hw.and.and.and.and.and.and.and) fun B8 w7 hw7 =>
    MDet.bind (MDet.inNs _ (addmany_det h1 h1' ?_)) fun B9 t ht => MDet.pure ?_
  · exact Dets.cons hw16.and (.cons hs0'.and.and.and.and.and (.cons hw7 (.cons hs1'.and.and dets_nil)))
  · exact Dets.append hw.and.and.and.and.and.and.and.and.and (.cons ht dets_nil)

theorem wLoop_det (m i : ℕ) {w : List UInt32} (hw : Dets ρ ρ' A w) : MDet ρ ρ' A (wLoop m i w : MSynth F _) fun A o => Dets ρ ρ' A o := by
  induction m generalizing i w A with
  | zero => exact MDet.pure hw
  | succ m ih => exact MDet.bind (wStep_det h1 h1' i hw) fun B w hw => ih (i + 1) hw

end

/-- `Det` of the words of a possibly deferred sum. -/
def Maybe.Det (ρ ρ' : Var → F) (A : Prop) : Maybe → Prop
  | .deferred v => Dets ρ ρ' A v
  | .concrete v => v.Det ρ ρ' A

/-- `Det` of the words of the state. -/
structure St.Det (ρ ρ' : Var → F) (A : Prop) (s : St) : Prop where
  a : s.a.Det ρ ρ' A
  b : s.b.Det ρ ρ' A
  c : s.c.Det ρ ρ' A
  d : s.d.Det ρ ρ' A
  e : s.e.Det ρ ρ' A
  f : s.f.Det ρ ρ' A
  g : s.g.Det ρ ρ' A
  h : s.h.Det ρ ρ' A

section

variable {A B : Prop} (h1 : ρ .one = 1) (h1' : ρ' .one = 1)

theorem Maybe.Det.and {m : Maybe} (h : m.Det ρ ρ' A) : m.Det ρ ρ' (A ∧ B) := by
  cases m with
  | deferred v => exact Dets.and h
  | concrete v => exact UInt32.Det.and h

include h1 h1'

theorem compute_det {m : Maybe} {o : List UInt32} (hm : m.Det ρ ρ' A) (ho : Dets ρ ρ' A o) :
    MDet ρ ρ' A (m.compute o : MSynth F _) fun A u => u.Det ρ ρ' A := by
  cases m with
  | deferred v => exact addmany_det h1 h1' (Dets.append hm ho)
  | concrete v => exact MDet.pure hm

theorem round_det (i : ℕ) {w : List UInt32} {s : St} (hw : Dets ρ ρ' A w) (hs : s.Det ρ ρ' A) :
    MDet ρ ρ' A (round w i s : MSynth F _) fun A o => o.Det ρ ρ' A := by
  obtain ⟨ha, hb, hc, hd, he, hf, hg, hh⟩ := hs
  refine MDet.inNs _ ?_
  refine MDet.bind (MDet.inNs _ (compute_det h1 h1' he dets_nil)) fun B1 ne hne =>
    MDet.bind (xor_det (hne.rotr _) (hne.rotr _) _) fun B2 s1 hs1 => MDet.bind (xor_det hs1 (hne.and.rotr _) _) fun B3 s1' hs1' =>
    MDet.bind (ch_det h1 h1' hne.and.and hf.and.and.and hg.and.and.and _) fun B4 ch hch =>
    MDet.bind (MDet.index (T := fun _ _ => True) _ fun _ _ => trivial) fun B5 k _ =>
    MDet.bind (MDet.index _ hw.and.and.and.and.and) fun B6 wi hwi =>
    MDet.bind (MDet.inNs _ (compute_det h1 h1' ha.and.and.and.and.and.and dets_nil)) fun B7 na hna =>
    MDet.bind (xor_det (hna.rotr _) (hna.rotr _) _) fun B8 s0 hs0 => MDet.bind (xor_det hs0 (hna.and.rotr _) _) fun B9 s0' hs0' =>
    MDet.bind (maj_det h1 h1' hna.and.and hb.and.and.and.and.and.and.and.and.and hc.and.and.and.and.and.and.and.and.and _)
      fun B10 maj hmaj => MDet.pure ?_
  have temp1 : Dets ρ ρ' ((((((((((A ∧ B1) ∧ B2) ∧ B3) ∧ B4) ∧ B5) ∧ B6) ∧ B7) ∧ B8) ∧ B9) ∧ B10) [s.h, s1', ch, constant k, wi] := .cons (hh.and.and.and.and.and.and.and.and.and.and) (.cons hs1'.and.and.and.and.and.and.and
    (.cons hch.and.and.and.and.and.and (.cons (det_constant k) (.cons hwi.and.and.and.and dets_nil))))
  exact ⟨temp1.append (.cons hs0'.and (.cons hmaj dets_nil)), hna.and.and.and, hb.and.and.and.and.and.and.and.and.and.and,
    hc.and.and.and.and.and.and.and.and.and.and, temp1.append (.cons hd.and.and.and.and.and.and.and.and.and.and dets_nil),
    hne.and.and.and.and.and.and.and.and.and, hf.and.and.and.and.and.and.and.and.and.and, hg.and.and.and.and.and.and.and.and.and.and⟩

theorem rounds_det (m i : ℕ) {w : List UInt32} {s : St} (hw : Dets ρ ρ' A w) (hs : s.Det ρ ρ' A) :
    MDet ρ ρ' A (rounds w m i s : MSynth F _) fun A o => o.Det ρ ρ' A := by
  induction m generalizing i s A with
  | zero => exact MDet.pure hs
  | succ m ih => exact MDet.bind (round_det h1 h1' i hw hs) fun B s hs => ih (i + 1) hw.and hs

theorem compressionBody_det {w : List UInt32} {g0 g1 g2 g3 g4 g5 g6 g7 : UInt32} (hw : Dets ρ ρ' A w) (k0 : g0.Det ρ ρ' A) (k1 : g1.Det ρ ρ' A)
    (k2 : g2.Det ρ ρ' A) (k3 : g3.Det ρ ρ' A) (k4 : g4.Det ρ ρ' A) (k5 : g5.Det ρ ρ' A) (k6 : g6.Det ρ ρ' A) (k7 : g7.Det ρ ρ' A) :
    MDet ρ ρ' A (compressionBody w g0 g1 g2 g3 g4 g5 g6 g7 : MSynth F _) fun A o => Dets ρ ρ' A o := by
  refine MDet.bind (wLoop_det h1 h1' _ _ hw) fun B1 w hw => ?_
  split
  · refine MDet.bind (rounds_det h1 h1' _ _ hw ⟨k0.and, k1.and, k2.and, k3.and, k4.and, k5.and, k6.and, k7.and⟩) fun B2 s hs => ?_
    obtain ⟨ha, hb, hc, hd, he, hf, hg, hh⟩ := hs
    have add2 : ∀ {A : Prop} {u v : UInt32}, u.Det ρ ρ' A → v.Det ρ ρ' A → MDet ρ ρ' A (addmany [u, v] : MSynth F _) fun A o => o.Det ρ ρ' A :=
      fun hu hv => addmany_det h1 h1' (Dets.cons hu (.cons hv dets_nil))
    refine MDet.bind (MDet.inNs _ (compute_det h1 h1' ha (.cons k0.and.and dets_nil))) fun B3 n0 c0 =>
      MDet.bind (MDet.inNs _ (add2 k1.and.and.and hb.and)) fun B4 n1 c1 => MDet.bind (MDet.inNs _ (add2 k2.and.and.and.and hc.and.and)) fun B5 n2 c2 =>
      MDet.bind (MDet.inNs _ (add2 k3.and.and.and.and.and hd.and.and.and)) fun B6 n3 c3 =>
      MDet.bind (MDet.inNs _ (compute_det h1 h1' he.and.and.and.and (.cons k4.and.and.and.and.and.and dets_nil))) fun B7 n4 c4 =>
      MDet.bind (MDet.inNs _ (add2 k5.and.and.and.and.and.and.and hf.and.and.and.and.and)) fun B8 n5 c5 =>
      MDet.bind (MDet.inNs _ (add2 k6.and.and.and.and.and.and.and.and hg.and.and.and.and.and.and)) fun B9 n6 c6 =>
      MDet.bind (MDet.inNs _ (add2 k7.and.and.and.and.and.and.and.and.and hh.and.and.and.and.and.and.and)) fun B10 n7 c7 => MDet.pure ?_
    exact .cons c0.and.and.and.and.and.and.and (.cons c1.and.and.and.and.and.and (.cons c2.and.and.and.and.and (.cons c3.and.and.and.and
      (.cons c4.and.and.and (.cons c5.and.and (.cons c6.and (.cons c7 dets_nil)))))))
  · exact MDet.panic

theorem sdet_compression {input : List Boolean} {cur : List UInt32} (hi : DetBits ρ ρ' input) (hc : Dets ρ ρ' True cur) :
    SDet ρ ρ' True (compression input cur : Synth F _) (Dets ρ ρ' True) := by
  unfold compression
  split
  · split
    · split
      · rename_i w hw
        obtain ⟨cs, e1, e2⟩ := Option.bind_eq_some_iff.1 hw
        refine MDet.withMultiEq h1 h1' (T := fun A o => Dets ρ ρ' A o) (compressionBody_det h1 h1' ?_ (hc _ (by simp)) (hc _ (by simp))
          (hc _ (by simp)) (hc _ (by simp)) (hc _ (by simp)) (hc _ (by simp)) (hc _ (by simp)) (hc _ (by simp)))
        intro u hu
        obtain ⟨x, hx, e⟩ := mem_of_mapM e2 u hu
        exact det_fromBitsBe (hi.sub fun b hb => mem_of_chunks e1 hx hb) e
      · exact SDet.panic
    · exact SDet.panic
  · exact SDet.panic

theorem dets_iv : Dets ρ ρ' True iv := by
  intro u hu
  obtain ⟨c, -, rfl⟩ := List.mem_map.1 hu
  exact det_constant c

theorem sdet_sha256BlockNoPadding {input : List Boolean} (hi : DetBits ρ ρ' input) :
    SDet ρ ρ' True (sha256BlockNoPadding input : Synth F _) (AgreeAll ρ ρ') := by
  unfold sha256BlockNoPadding
  split
  · exact SDet.bind (sdet_compression h1 h1' hi (dets_iv h1 h1')) fun r hr => SDet.pure trivial
      (hr.agree fun u b hb => by simpa [intoBitsBe] using hb)
  · exact SDet.panic

theorem sdet_blockLoop {bs : List (List Boolean)} {cur : List UInt32} (hb : ∀ b ∈ bs, DetBits ρ ρ' b) (hc : Dets ρ ρ' True cur) (i : ℕ) :
    SDet ρ ρ' True (blockLoop i cur bs : Synth F _) (Dets ρ ρ' True) := by
  induction bs generalizing cur i with
  | nil => exact SDet.pure trivial hc
  | cons b bs ih =>
    exact SDet.bind (SDet.inNs _ (sdet_compression h1 h1' (hb b (by simp)) hc)) fun cur hc => ih (fun b hb' => hb b (by simp [hb'])) hc (i + 1)

end

theorem detBits_padZeros {l : List Boolean} (h : DetBits ρ ρ' l) : DetBits ρ ρ' (padZeros l) := by
  induction l using padZeros.induct with
  | case1 l hl => rw [padZeros, if_pos hl]; exact h
  | case2 l hl ih =>
    rw [padZeros, if_neg hl]
    exact ih (h.append (detBits_constants fun b hb => ⟨false, by simpa using hb⟩))

theorem detBits_pad {l : List Boolean} (h : DetBits ρ ρ' l) : DetBits ρ ρ' (pad l) :=
  (detBits_padZeros (h.append (detBits_constants fun b hb => ⟨true, by simpa using hb⟩))).append (detBits_constants fun b hb => by
    obtain ⟨i, -, rfl⟩ := List.mem_map.1 hb
    exact ⟨_, rfl⟩)

theorem sdet_sha256 (h1 : ρ .one = 1) (h1' : ρ' .one = 1) {input : List Boolean} (hi : DetBits ρ ρ' input) :
    SDet ρ ρ' True (sha256 input : Synth F _) (AgreeAll ρ ρ') := by
  unfold sha256
  split
  · dsimp only
    split
    · split
      · exact SDet.panic
      · rename_i bs hbs
        exact SDet.bind (sdet_blockLoop h1 h1' (fun b hb => (detBits_pad hi).sub fun x hx => mem_of_chunks hbs hb hx) (dets_iv h1 h1') 0)
          fun r hr => SDet.pure trivial (hr.agree fun u b hb => by simpa [intoBitsBe] using hb)
    · exact SDet.panic
  · exact SDet.panic

end Sha256

namespace Blake2s

section

variable {A : Prop} (h1 : ρ .one = 1) (h1' : ρ' .one = 1)
include h1 h1'

variable {v m : List UInt32} {x y : UInt32}

theorem mixAdd3_det (n : String) (hv : Dets ρ ρ' A v) (a b : ℕ) (hx : x.Det ρ ρ' A) :
    MDet ρ ρ' A (mixAdd3 n v a b x : MSynth F _) fun A o => Dets ρ ρ' A o := by
  refine MDet.bind (MDet.index _ hv) fun B1 va ha => MDet.bind (MDet.index _ hv.and) fun B2 vb hb =>
    MDet.bind (MDet.inNs _ (addmany_det h1 h1' ?_)) fun B3 t ht => MDet.pure (hv.and.and.and.set ht a)
  exact Dets.cons ha.and (.cons hb (.cons hx.and.and dets_nil))

theorem mixAdd2_det (n : String) (hv : Dets ρ ρ' A v) (c d : ℕ) : MDet ρ ρ' A (mixAdd2 n v c d : MSynth F _) fun A o => Dets ρ ρ' A o := by
  refine MDet.bind (MDet.index _ hv) fun B1 va ha => MDet.bind (MDet.index _ hv.and) fun B2 vb hb =>
    MDet.bind (MDet.inNs _ (addmany_det h1 h1' ?_)) fun B3 t ht => MDet.pure (hv.and.and.and.set ht c)
  exact Dets.cons ha.and (.cons hb dets_nil)

theorem mixXor_det (n : String) (hv : Dets ρ ρ' A v) (d a r : ℕ) : MDet ρ ρ' A (mixXor n v d a r : MSynth F _) fun A o => Dets ρ ρ' A o :=
  MDet.bind (MDet.index _ hv) fun B1 va ha => MDet.bind (MDet.index _ hv.and) fun B2 vb hb =>
    MDet.bind (xor_det ha.and hb _) fun B3 t ht => MDet.pure (hv.and.and.and.set (ht.rotr r) d)

theorem mixingG_det (hv : Dets ρ ρ' A v) (a b c d : ℕ) (hx : x.Det ρ ρ' A) (hy : y.Det ρ ρ' A) :
    MDet ρ ρ' A (mixingG v a b c d x y : MSynth F _) fun A o => Dets ρ ρ' A o :=
  MDet.bind (mixAdd3_det h1 h1' _ hv a b hx) fun _ _ hv => MDet.bind (mixXor_det h1 h1' _ hv _ _ _) fun _ _ hv =>
  MDet.bind (mixAdd2_det h1 h1' _ hv _ _) fun _ _ hv => MDet.bind (mixXor_det h1 h1' _ hv _ _ _) fun _ _ hv =>
  MDet.bind (mixAdd3_det h1 h1' _ hv a b hy.and.and.and.and) fun _ _ hv => MDet.bind (mixXor_det h1 h1' _ hv _ _ _) fun _ _ hv =>
  MDet.bind (mixAdd2_det h1 h1' _ hv _ _) fun _ _ hv => mixXor_det h1 h1' _ hv _ _ _

theorem mixCall_det (n : String) (hm : Dets ρ ρ' A m) (s : List ℕ) (j a b c d : ℕ) (hv : Dets ρ ρ' A v) :
    MDet ρ ρ' A (mixCall n m s j a b c d v : MSynth F _) fun A o => Dets ρ ρ' A o :=
  MDet.bind (MDet.index (T := fun _ _ => True) _ fun _ _ => trivial) fun _ _ _ => MDet.bind (MDet.index _ hm.and) fun _ x hx =>
  MDet.bind (MDet.index (T := fun _ _ => True) _ fun _ _ => trivial) fun _ _ _ => MDet.bind (MDet.index _ hm.and.and.and) fun _ y hy =>
  MDet.inNs _ (mixingG_det h1 h1' hv.and.and.and.and a b c d hx.and.and hy)

theorem roundBody_det (hm : Dets ρ ρ' A m) (i : ℕ) (hv : Dets ρ ρ' A v) : MDet ρ ρ' A (roundBody m i v : MSynth F _) fun A o => Dets ρ ρ' A o :=
  MDet.inNs _ (MDet.bind (MDet.index (T := fun _ _ => True) _ fun _ _ => trivial) fun _ s _ =>
  MDet.bind (mixCall_det h1 h1' _ hm.and s _ _ _ _ _ hv.and) fun _ _ hv =>
  MDet.bind (mixCall_det h1 h1' _ hm.and.and s _ _ _ _ _ hv) fun _ _ hv =>
  MDet.bind (mixCall_det h1 h1' _ hm.and.and.and s _ _ _ _ _ hv) fun _ _ hv =>
  MDet.bind (mixCall_det h1 h1' _ hm.and.and.and.and s _ _ _ _ _ hv) fun _ _ hv =>
  MDet.bind (mixCall_det h1 h1' _ hm.and.and.and.and.and s _ _ _ _ _ hv) fun _ _ hv =>
  MDet.bind (mixCall_det h1 h1' _ hm.and.and.and.and.and.and s _ _ _ _ _ hv) fun _ _ hv =>
  MDet.bind (mixCall_det h1 h1' _ hm.and.and.and.and.and.and.and s _ _ _ _ _ hv) fun _ _ hv =>
  mixCall_det h1 h1' _ hm.and.and.and.and.and.and.and.and s _ _ _ _ _ hv)

theorem roundLoop_det (n i : ℕ) (hm : Dets ρ ρ' A m) (hv : Dets ρ ρ' A v) :
    MDet ρ ρ' A (roundLoop m n i v : MSynth F _) fun A o => Dets ρ ρ' A o := by
  induction n generalizing i v A with
  | zero => exact MDet.pure hv
  | succ n ih => exact MDet.bind (roundBody_det h1 h1' hm i hv) fun B v hv => ih (i + 1) hm.and hv

theorem sdet_word_xor (n : String) (hx : x.Det ρ ρ' True) (hy : y.Det ρ ρ' True) :
    SDet ρ ρ' True (Synth.inNs n (x.xor y)) (UInt32.Det ρ ρ' True) := by
  obtain ⟨⟨a, ha⟩, ⟨a', ha'⟩, hg⟩ := hx
  obtain ⟨⟨b, hb⟩, ⟨b', hb'⟩, hk⟩ := hy
  exact (SDet.sound (SDet.inNs _ (sdet_xor (hg trivial) (hk trivial))) ((Synth.wpS_inNs ..).2 (wpS_xor ha hb))
    ((Synth.wpS_inNs ..).2 (wpS_xor ha' hb'))).mono fun o ho => ⟨⟨_, ho.2.1⟩, ⟨_, ho.2.2⟩, fun _ => ho.1⟩

theorem sdet_finalLoop (hv : Dets ρ ρ' True v) (n i : ℕ) {h : List UInt32} (hh : Dets ρ ρ' True h) :
    SDet ρ ρ' True (finalLoop v n i h : Synth F _) (Dets ρ ρ' True) := by
  induction n generalizing i h with
  | zero => exact SDet.pure trivial hh
  | succ n ih =>
    unfold finalLoop
    split
    · rename_i a b c e1 e2 e3
      refine SDet.bind (SDet.inNs _ (SDet.bind (sdet_word_xor h1 h1' _ (hh _ (List.mem_of_getElem? e1)) (hv _ (List.mem_of_getElem? e2))) fun r hr =>
        sdet_word_xor h1 h1' _ hr (hv _ (List.mem_of_getElem? e3)))) fun r hr => ih (i + 1) (hh.set hr i)
    · exact SDet.panic

theorem dets_ivTail : Dets ρ ρ' True ivTail := by
  unfold ivTail
  repeat refine Dets.cons (det_constant _) ?_
  exact dets_nil

theorem sdet_compression {h : List UInt32} (hh : Dets ρ ρ' True h) (hm : Dets ρ ρ' True m) (t : BitVec 64) (f : Bool) :
    SDet ρ ρ' True (compression h m t f : Synth F _) (Dets ρ ρ' True) := by
  have hv := hh.append (dets_ivTail h1 h1')
  unfold compression
  split
  · split
    · dsimp only
      split
      · rename_i v12 v13 v14 e1 e2 e3
        refine SDet.bind (sdet_word_xor h1 h1' _ (hv _ (List.mem_of_getElem? e1)) (det_constant _)) fun r hr =>
          SDet.bind (sdet_word_xor h1 h1' _ (hv _ (List.mem_of_getElem? e2)) (det_constant _)) fun r' hr' =>
          SDet.bind (P := Dets ρ ρ' True) ?_ fun v hv =>
          SDet.bind (MDet.withMultiEq h1 h1' (T := fun A o => Dets ρ ρ' A o) (roundLoop_det h1 h1' _ _ hm hv)) fun v hv =>
          sdet_finalLoop h1 h1' hv _ _ hh
        have hv' := (hv.set hr 12).set hr' 13
        split
        · exact SDet.bind (sdet_word_xor h1 h1' _ (hv _ (List.mem_of_getElem? e3)) (det_constant _)) fun r hr => SDet.pure trivial (hv'.set hr 14)
        · exact SDet.pure trivial hv'
      · exact SDet.panic
    · exact SDet.panic
  · exact SDet.panic

theorem sdet_blockLoop (len i : ℕ) {h : List UInt32} {bs : List (List UInt32)} (hh : Dets ρ ρ' True h) (hb : ∀ b ∈ bs, Dets ρ ρ' True b) :
    SDet ρ ρ' True (blockLoop len i h bs : Synth F _) (Dets ρ ρ' True) := by
  induction bs generalizing i h with
  | nil => exact SDet.panic
  | cons b bs ih =>
    cases bs with
    | nil => exact SDet.inNs _ (sdet_compression h1 h1' hh (hb b (by simp)) _ _)
    | cons c bs =>
      exact SDet.bind (SDet.inNs _ (sdet_compression h1 h1' hh (hb b (by simp)) _ _)) fun h hh => ih (i + 1) hh fun b hb' => hb b (by simp [hb'])

end

theorem dets_replicate {A : Prop} (n : ℕ) (c : BitVec 32) : Dets ρ ρ' A (List.replicate n (UInt32.constant c)) := fun u hu => by
  rw [List.eq_of_mem_replicate hu]
  exact det_constant c

theorem dets_mkBlock {b : List Boolean} {us : List UInt32} (hb : DetBits ρ ρ' b) (h : mkBlock b = some us) : Dets ρ ρ' True us := by
  unfold mkBlock at h
  obtain ⟨ws, e1, h⟩ := Option.bind_eq_some_iff.1 (show Option.bind (chunks? 32 b) _ = _ from h)
  obtain ⟨vs, e2, h⟩ := Option.bind_eq_some_iff.1 h
  cases h
  refine Dets.append (fun u hu => ?_) (dets_replicate _ _)
  obtain ⟨x, hx, e⟩ := mem_of_mapM e2 u hu
  refine det_fromBits (DetBits.append (hb.sub fun b hb => mem_of_chunks e1 hx hb) (detBits_constants fun b hb => ⟨false, ?_⟩)) e
  exact List.eq_of_mem_replicate hb

theorem dets_mkBlocks {b : List Boolean} {us : List (List UInt32)} (hb : DetBits ρ ρ' b) (h : mkBlocks b = some us) :
    ∀ u ∈ us, Dets ρ ρ' True u := by
  unfold mkBlocks at h
  obtain ⟨cs, e1, h⟩ := Option.bind_eq_some_iff.1 (show Option.bind (chunks? 512 b) _ = _ from h)
  obtain ⟨vs, e2, h⟩ := Option.bind_eq_some_iff.1 h
  cases h
  split
  · intro u hu
    rw [List.mem_singleton] at hu
    subst hu
    exact dets_replicate _ _
  · intro u hu
    obtain ⟨x, hx, e⟩ := mem_of_mapM e2 u hu
    exact dets_mkBlock (hb.sub fun b hb => mem_of_chunks e1 hx hb) e

theorem sdet_blake2s (h1 : ρ .one = 1) (h1' : ρ' .one = 1) {input : List Boolean} (hi : DetBits ρ ρ' input) (p : List (BitVec 8)) :
    SDet ρ ρ' True (blake2s input p : Synth F _) (AgreeAll ρ ρ') := by
  unfold blake2s
  split
  · split
    · dsimp only
      split
      · rename_i bs hbs
        refine SDet.bind (sdet_blockLoop h1 h1' _ _ ?_ (dets_mkBlocks hi hbs)) fun r hr => SDet.pure trivial
          (hr.agree fun u b hb => hb)
        repeat refine Dets.cons (det_constant _) ?_
        exact dets_nil
      · exact SDet.panic
    · exact SDet.panic
  · exact SDet.panic

end Blake2s

end Bellman
