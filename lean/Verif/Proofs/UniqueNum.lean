import Verif.Proofs.Unique

/-!
# Uniqueness of witnesses: `to_bits_le_strict`
-/

namespace Bellman

open PrimeField List

set_option linter.unusedSectionVars false
set_option linter.unusedVariables false

variable {F : Type} [PrimeField F] {α β : Type} {ρ ρ' : Var → F}

theorem Synth.exec_bind {m : Synth F α} {g : α → Synth F β} {t : List (Ev F)} {b : β} (h : Exec (m >>= g).run t (some (.ok b))) :
    ∃ t1 t2 a, t = t1 ++ t2 ∧ Exec m.run t1 (some (.ok a)) ∧ Exec (g a).run t2 (some (.ok b)) := by
  rcases Exec.bind_inv h with ⟨_, h2⟩ | ⟨t1, t2, a, rfl, h1, h2⟩
  · cases h2
  · cases a with
    | error e => cases h2
    | ok a => exact ⟨t1, t2, a, rfl, h1, h2⟩

theorem Boolean.agree_of_bit {b : Boolean} {x : Bool} (h : b.Bit ρ x) (h' : b.Bit ρ' x) : b.Agree ρ ρ' := by
  cases b with
  | is b => exact Boolean.agree_is.2 (h.trans h'.symm)
  | not b => exact Boolean.agree_not.2 (h.trans h'.symm)
  | constant c => exact Boolean.agree_constant

theorem bits_inj (h1 : ρ .one = 1) (h1' : ρ' .one = 1) {l : List Boolean} {xs ys : List Bool} (ha : AgreeAll ρ ρ' l)
    (hx : Forall₂ (Boolean.Bit ρ) l xs) (hy : Forall₂ (Boolean.Bit ρ') l ys) : xs = ys := by
  induction hx generalizing ys with
  | nil => cases hy; rfl
  | cons h _ ih =>
    cases hy with
    | cons h' hy =>
      rw [ih (fun b hb => ha b (by simp [hb])) hy, Boolean.bit_unique h1' ((ha _ (by simp)).bit h1 h1' h) h']

theorem agreeAll_of_bits {l : List Boolean} {xs : List Bool} (hx : Forall₂ (Boolean.Bit ρ) l xs) (hy : Forall₂ (Boolean.Bit ρ') l xs) :
    AgreeAll ρ ρ' l := by
  induction hx with
  | nil => simp [AgreeAll]
  | cons h _ ih =>
    cases hy with
    | cons h' hy =>
      intro b hb
      rcases List.mem_cons.1 hb with rfl | hb
      · exact Boolean.agree_of_bit h h'
      · exact ih hy b hb

theorem AllocatedBit.exec_alloc {v : Option Bool} {n : String} {t : List (Ev F)} {b : AllocatedBit}
    (h : Exec (Synth.inNs n (AllocatedBit.alloc v)).run t (some (.ok b))) : allocated t = [b.var] := by
  rcases (show Exec (Circ.push n (Circ.alloc false "boolean" _ fun a => _)) t _ from h) with _ | _ | _ | _ | _ | _ | he
  rcases he with _ | _ | ⟨x, he⟩ | ⟨x, v, hf, he⟩ | ⟨e, he⟩
  · rcases (show Exec (Circ.enforce _ _ _ _ _) _ _ from he) with _ | _ | _ | _ | _ | he
    rcases he with _ | _ | _ | _ | _ | _ | _ | he
    cases he
    rfl
  · rcases (show Exec (Circ.enforce _ _ _ _ _) _ _ from he) with _ | _ | _ | _ | _ | he
    rcases he with _ | _ | _ | _ | _ | _ | _ | he
    cases he
    rfl
  · rcases he with _ | _ | _ | _ | _ | _ | _ | he
    cases he

theorem AllocatedBit.exec_allocConditionally {v : Option Bool} {n : String} {t : List (Ev F)} {l b : AllocatedBit}
    (h : Exec (Synth.inNs n (AllocatedBit.allocConditionally v l)).run t (some (.ok b))) : allocated t = [b.var] := by
  rcases (show Exec (Circ.push n (Circ.alloc false "boolean" _ fun a => _)) t _ from h) with _ | _ | _ | _ | _ | _ | he
  rcases he with _ | _ | ⟨x, he⟩ | ⟨x, v, hf, he⟩ | ⟨e, he⟩
  · rcases (show Exec (Circ.enforce _ _ _ _ _) _ _ from he) with _ | _ | _ | _ | _ | he
    rcases he with _ | _ | _ | _ | _ | _ | _ | he
    cases he
    rfl
  · rcases (show Exec (Circ.enforce _ _ _ _ _) _ _ from he) with _ | _ | _ | _ | _ | he
    rcases he with _ | _ | _ | _ | _ | _ | _ | he
    cases he
    rfl
  · rcases he with _ | _ | _ | _ | _ | _ | _ | he
    cases he

namespace AllocatedNum

theorem sdet_karyAndLoop {cur : AllocatedBit} {vs : List AllocatedBit} (hc : cur.Agree ρ ρ') (hv : ∀ v ∈ vs, v.Agree ρ ρ') (i : ℕ) :
    SDet ρ ρ' True (karyAndLoop cur i vs) (AllocatedBit.Agree ρ ρ') := by
  induction vs generalizing cur i with
  | nil => exact SDet.pure trivial hc
  | cons v vs ih =>
    exact SDet.bind (SDet.inNs _ (AllocatedBit.sdet_and hc (hv v (by simp)))) fun c hc => ih hc (fun v hv' => hv v (by simp [hv'])) (i + 1)

theorem sdet_karyAnd {vs : List AllocatedBit} (hv : ∀ v ∈ vs, v.Agree ρ ρ') : SDet ρ ρ' True (karyAnd vs) (AllocatedBit.Agree ρ ρ') := by
  cases vs with
  | nil => exact SDet.panic
  | cons v vs => exact sdet_karyAndLoop (hv v (by simp)) (fun v hv' => hv v (by simp [hv'])) 1

/-- The assignments agree about the bits of the current run and the conjunction of the previous ones. -/
def StrictSt.Agree (ρ ρ' : Var → F) (st : StrictSt) : Prop :=
  (∀ b ∈ st.currentRun, b.Agree ρ ρ') ∧ ∀ l, st.lastRun = some l → l.Agree ρ ρ'

/-- What an execution of a piece of the loop does: if the assignments agree about the bits of the result, they agree about all. -/
def Piece (ρ ρ' : Var → F) (m : Synth F StrictSt) (st : StrictSt) : Prop := ∀ t st', Exec m.run t (some (.ok st')) → Sat ρ t → Sat ρ' t →
  (∀ b ∈ st.result, b ∈ st'.result) ∧ ((∀ b ∈ st'.result, b.Agree ρ ρ') → st.Agree ρ ρ' → (∀ x ∈ allocated t, ρ x = ρ' x) ∧ st'.Agree ρ ρ')

theorem Piece.bind {m : Synth F StrictSt} {g : StrictSt → Synth F StrictSt} {st : StrictSt} (h : Piece ρ ρ' m st)
    (hg : ∀ st, Piece ρ ρ' (g st) st) : Piece ρ ρ' (m >>= g) st := by
  intro t st' he hs hs'
  obtain ⟨t1, t2, a, rfl, e1, e2⟩ := Synth.exec_bind he
  rw [sat_append] at hs hs'
  obtain ⟨a1, a2⟩ := h _ _ e1 hs.1 hs'.1
  obtain ⟨b1, b2⟩ := hg _ _ _ e2 hs.2 hs'.2
  refine ⟨fun b hb => b1 b (a1 b hb), fun hr ha => ?_⟩
  obtain ⟨c1, c2⟩ := a2 (fun b hb => hr b (b1 b hb)) ha
  obtain ⟨d1, d2⟩ := b2 hr c2
  refine ⟨fun x hx => ?_, d2⟩
  rw [allocated_append, List.mem_append] at hx
  exact hx.elim (c1 x) (d1 x)

theorem Piece.pure {st : StrictSt} : Piece ρ ρ' (Pure.pure st) st := by
  intro t st' he _ _
  cases he
  exact ⟨fun b hb => hb, fun _ h => ⟨by simp, h⟩⟩

theorem Piece.panic {e : String} {st : StrictSt} : Piece ρ ρ' (Synth.panic e) st := by
  intro t st' he _ _
  cases he

theorem piece_step (aBit : Option Bool) (b : Bool) (st : StrictSt) : Piece ρ ρ' (strictStep aBit b st) st := by
  unfold strictStep
  split
  · intro t st' he _ _
    obtain ⟨t1, t2, x, rfl, e1, e2⟩ := Synth.exec_bind he
    cases e2
    refine ⟨fun b hb => by simp [hb], fun hr ha => ?_⟩
    rw [List.append_nil, AllocatedBit.exec_alloc e1]
    have hx := hr x (by simp)
    refine ⟨fun y hy => ?_, fun y hy => ?_, ha.2⟩
    · rw [List.mem_singleton] at hy
      subst hy
      exact hx
    · rcases List.mem_append.1 hy with hy | hy
      · exact ha.1 y hy
      · rw [List.mem_singleton] at hy
        subst hy
        exact hx
  · refine Piece.bind ?_ fun st => ?_
    · split
      · exact Piece.pure
      · intro t st' he hs hs'
        obtain ⟨t1, t2, x, rfl, e1, e2⟩ := Synth.exec_bind he
        cases e2
        refine ⟨fun b hb => hb, fun _ ha => ?_⟩
        rw [List.append_nil] at hs hs' ⊢
        have hrun : ∀ v ∈ (match st.lastRun with
            | some l => st.currentRun ++ [l]
            | none => st.currentRun), v.Agree ρ ρ' := by
          intro v hv
          split at hv
          · rename_i l hl
            rcases List.mem_append.1 hv with hv | hv
            · exact ha.1 v hv
            · rw [List.mem_singleton] at hv
              subst hv
              exact ha.2 v hl
          · exact ha.1 v hv
        obtain ⟨-, q1, q2⟩ := (SDet.inNs _ (sdet_karyAnd hrun)) _ _ e1 hs hs'
        refine ⟨q1, by simp, ?_⟩
        rintro l ⟨⟩
        exact q2
    · split
      · exact Piece.panic
      · intro t st' he hs hs'
        obtain ⟨t1, t2, x, rfl, e1, e2⟩ := Synth.exec_bind he
        cases e2
        refine ⟨fun b hb => by simp [hb], fun hr ha => ?_⟩
        rw [List.append_nil, AllocatedBit.exec_allocConditionally e1]
        refine ⟨fun y hy => ?_, ha⟩
        rw [List.mem_singleton] at hy
        subst hy
        exact hr x (by simp)

theorem piece_loop (l : List (Option Bool × Bool)) (st : StrictSt) : Piece ρ ρ' (strictLoop l st) st := by
  induction l generalizing st with
  | nil => exact Piece.pure
  | cons p l ih =>
    obtain ⟨a, b⟩ := p
    unfold strictLoop
    dsimp only
    split
    · exact Piece.bind (piece_step a b { st with foundOne := st.foundOne || b }) fun st => ih st
    · split
      · exact Piece.panic
      · exact ih { st with foundOne := st.foundOne || b }

theorem sdet_toBitsLeStrict (h1 : ρ .one = 1) (h1' : ρ' .one = 1) {a : AllocatedNum F} (ha : a.Agree ρ ρ') :
    SDet ρ ρ' True a.toBitsLeStrict (AgreeAll ρ ρ') := by
  intro t o he hs hs'
  have s := (Synth.wpS_iff ..).1 (wpS_toBitsLeStrict h1 a) t o he hs
  have s' := (Synth.wpS_iff ..).1 (wpS_toBitsLeStrict h1' a) t o he hs'
  rw [show ρ a.var = ρ' a.var from ha] at s
  have ho := agreeAll_of_bits s s'
  refine ⟨trivial, ?_, ho⟩
  obtain ⟨t1, t2, st, rfl, e1, e2⟩ := Synth.exec_bind he
  rw [sat_append] at hs hs'
  split at e2
  · rcases (show Exec (Circ.enforce _ _ _ _ _) _ _ from e2) with _ | _ | _ | _ | _ | e2
    cases e2
    rw [allocated_append, allocated_enforce, allocated_nil, List.append_nil]
    refine ((piece_loop _ _ _ _ e1 hs.1 hs'.1).2 (fun b hb => ?_) ⟨by simp, by simp⟩).1
    exact Boolean.agree_is.1 (ho (.is b) (by simpa using hb))
  · cases e2

end AllocatedNum

end Bellman
