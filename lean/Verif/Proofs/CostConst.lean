import Verif.Proofs.CostHash

/-!
# Hashing constants costs nothing
-/

namespace Bellman.Cost

open PrimeField List

set_option linter.unusedSectionVars false

variable {F : Type} [PrimeField F] {α β γ : Type}

theorem forall₂_mem_right {R : α → β → Prop} {l : List α} {l' : List β} (h : Forall₂ R l l') {b : β} (hb : b ∈ l') : ∃ a ∈ l, R a b := by
  induction h with
  | nil => cases hb
  | cons h1 _ ih =>
    rcases mem_cons.1 hb with rfl | hb
    · exact ⟨_, mem_cons_self .., h1⟩
    · obtain ⟨a, ha, h⟩ := ih hb
      exact ⟨a, mem_cons_of_mem _ ha, h⟩

/-- A constant word. -/
def IsC (u : UInt32) : Prop := ∃ v, u = UInt32.constant v

/-- Constant words. -/
def AllC (l : List UInt32) : Prop := ∀ u ∈ l, IsC u

theorem AllC.nil : AllC [] := fun _ h => absurd h not_mem_nil

theorem AllC.cons {u : UInt32} {l : List UInt32} (h : IsC u) (hl : AllC l) : AllC (u :: l) := by
  intro x hx
  rcases mem_cons.1 hx with rfl | hx
  · exact h
  · exact hl x hx

theorem AllC.append {l l' : List UInt32} (h : AllC l) (hl : AllC l') : AllC (l ++ l') := by
  intro x hx
  rcases mem_append.1 hx with hx | hx
  · exact h x hx
  · exact hl x hx

theorem AllC.set {l : List UInt32} (h : AllC l) (i : ℕ) {u : UInt32} (hu : IsC u) : AllC (l.set i u) := by
  intro x hx
  rcases mem_or_eq_of_mem_set hx with hx | rfl
  · exact h x hx
  · exact hu

theorem AllC.eq {l : List UInt32} (h : AllC l) : ∃ vs : List (BitVec 32), l = vs.map UInt32.constant := by
  induction l with
  | nil => exact ⟨[], rfl⟩
  | cons u l ih =>
    obtain ⟨v, rfl⟩ := h u (mem_cons_self ..)
    obtain ⟨vs, rfl⟩ := ih fun x hx => h x (mem_cons_of_mem _ hx)
    exact ⟨v :: vs, rfl⟩

/-- A program with a `MultiEq` that allocates nothing and constrains nothing. -/
def MC (m : MSynth F α) (P : α → Prop) : Prop := MS m (pure ()) fun r _ => P r

theorem MC.pure {a : α} {P : α → Prop} (h : P a) : MC (Pure.pure a : MSynth F α) P := MS.pure h

theorem MC.bind {m : MSynth F α} {f : α → MSynth F β} {P : α → Prop} {Q : β → Prop} (h : MC m P) (hf : ∀ a, P a → MC (f a) Q) :
    MC (m >>= f) Q := MS.bind (f' := fun _ => Pure.pure ()) h fun a _ ha => hf a ha

theorem MC.inNs (s : String) {m : MSynth F α} {P : α → Prop} (h : MC m P) : MC (MSynth.inNs s m) P := MS.inNs s h

theorem MC.lift {m : Synth F α} {P : α → Prop} (h : Exactly m 0 0 P) : MC (MSynth.lift m) P := MS.lift (SS.free h)

theorem MC.withMultiEq {m : MSynth F α} {P : α → Prop} (h : MC m P) : Exactly (MSynth.withMultiEq m) 0 0 P := by
  intro t r he
  obtain ⟨q, -, n, c⟩ := MS.withMultiEq h ⟨0, 0, 0⟩ () ⟨0, 0, 0⟩ rfl t r he
  simp only [Nat.zero_add, Nat.add_zero] at n c
  exact ⟨q, n.symm, c.symm⟩

theorem MC.index {l : List α} {P : α → Prop} (h : ∀ a ∈ l, P a) (i : ℕ) : MC (F := F) (MSynth.index l i) P := by
  unfold MSynth.index
  split
  · rename_i x hx
    exact MC.pure (h x (mem_of_getElem? hx))
  · exact MS.panic

theorem MC.addmany {l : List UInt32} (h : AllC l) : MC (F := F) (UInt32.addmany l) IsC := by
  obtain ⟨vs, rfl⟩ := h.eq
  exact (ms_addmany_consts vs).mono fun _ _ h => ⟨_, h⟩

theorem exactly_xorC {u v : UInt32} (hu : IsC u) (hv : IsC v) : Exactly (u.xor v : Synth F _) 0 0 IsC := by
  obtain ⟨a, rfl⟩ := hu
  obtain ⟨b, rfl⟩ := hv
  exact (exactly_xor_constant a b).mono fun _ h => ⟨_, h⟩

theorem exactly_chC {u v w : UInt32} (hu : IsC u) (hv : IsC v) (hw : IsC w) : Exactly (UInt32.sha256Ch u v w : Synth F _) 0 0 IsC :=
  (ss_chW (F := F) (x := .con) (y := .con) (z := .con) hu hv hw).eval (y := .con) rfl

theorem exactly_majC {u v w : UInt32} (hu : IsC u) (hv : IsC v) (hw : IsC w) : Exactly (UInt32.sha256Maj u v w : Synth F _) 0 0 IsC :=
  (ss_majW (F := F) (x := .con) (y := .con) (z := .con) hu hv hw).eval (y := .con) rfl

theorem IsC.rotr {u : UInt32} (h : IsC u) (k : ℕ) : IsC (u.rotr k) := AW.Fits.rotr (w := .con) h k

theorem IsC.shr {u : UInt32} (h : IsC u) (k : ℕ) : IsC (u.shr k) := AW.Fits.shr (w := .con) h k

/-- Constant bits. -/
def AllB (l : List Boolean) : Prop := ∀ b ∈ l, b.isConstant = true

theorem AllB.fits {l : List Boolean} (h : AllB l) : Forall₂ AB.Fits l (replicate l.length .any) := by
  induction l with
  | nil => exact .nil
  | cons b l ih =>
    refine .cons ?_ (ih fun x hx => h x (mem_cons_of_mem _ hx))
    have := h b (mem_cons_self ..)
    cases b with
    | is _ => cases this
    | not _ => cases this
    | constant _ => trivial

theorem fromBits_const {l : List Boolean} (h : AllB l) {u : UInt32} (hu : UInt32.fromBits l = some u) : IsC u := by
  have := fits_wordOf h.fits hu
  rwa [wordOf, if_pos] at this
  rw [all_eq_true]
  intro x hx
  rw [eq_of_mem_replicate hx]
  rfl

theorem bits_const {u : UInt32} (h : IsC u) : AllB u.bits := by
  obtain ⟨v, rfl⟩ := h
  exact all_eq_true.1 (constant_isConstant v)

namespace Sha256

open Bellman.Sha256

theorem mc_wLoop (n i : ℕ) {w : List UInt32} (h : AllC w) : MC (F := F) (Bellman.Sha256.wLoop n i w) AllC := by
  induction n generalizing i w with
  | zero => exact MC.pure h
  | succ n ih =>
    refine MC.bind (P := AllC) ?_ fun w hw => ih (i + 1) hw
    unfold Bellman.Sha256.wStep
    refine MC.inNs _ ?_
    refine (MC.index h _).bind fun _ h15 => ?_
    refine (MC.lift (Exactly.inNs _ (exactly_xorC (h15.rotr 7) (h15.rotr 18)))).bind fun _ hs0 => ?_
    refine (MC.lift (Exactly.inNs _ (exactly_xorC hs0 (h15.shr 3)))).bind fun _ hs0 => ?_
    refine (MC.index h _).bind fun _ h2 => ?_
    refine (MC.lift (Exactly.inNs _ (exactly_xorC (h2.rotr 17) (h2.rotr 19)))).bind fun _ hs1 => ?_
    refine (MC.lift (Exactly.inNs _ (exactly_xorC hs1 (h2.shr 10)))).bind fun _ hs1 => ?_
    refine (MC.index h _).bind fun _ h16 => ?_
    refine (MC.index h _).bind fun _ h7 => ?_
    refine (MC.inNs _ (MC.addmany (.cons h16 (.cons hs0 (.cons h7 (.cons hs1 .nil)))))).bind fun _ hu => ?_
    exact MC.pure (h.append (.cons hu .nil))

/-- A constant deferred computation. -/
def MaybeC : Maybe → Prop
  | .deferred v => AllC v
  | .concrete v => IsC v

theorem mc_compute {m : Maybe} (h : MaybeC m) {o : List UInt32} (ho : AllC o) : MC (F := F) (m.compute o) IsC := by
  cases m with
  | deferred v => exact MC.addmany (AllC.append h ho)
  | concrete v => exact MC.pure h

/-- A constant state. -/
structure StC (s : Bellman.Sha256.St) : Prop where
  a : MaybeC s.a
  b : IsC s.b
  c : IsC s.c
  d : IsC s.d
  e : MaybeC s.e
  f : IsC s.f
  g : IsC s.g
  h : IsC s.h

theorem mc_rounds {w : List UInt32} (hw : AllC w) (n i : ℕ) {s : Bellman.Sha256.St} (hs : StC s) :
    MC (F := F) (Bellman.Sha256.rounds w n i s) StC := by
  induction n generalizing i s with
  | zero => exact MC.pure hs
  | succ n ih =>
    refine MC.bind (P := StC) ?_ fun s hs => ih (i + 1) hs
    unfold Bellman.Sha256.round
    refine MC.inNs _ ?_
    refine (MC.inNs _ (mc_compute hs.e .nil)).bind fun e he => ?_
    refine (MC.lift (Exactly.inNs _ (exactly_xorC (he.rotr 6) (he.rotr 11)))).bind fun _ hs1 => ?_
    refine (MC.lift (Exactly.inNs _ (exactly_xorC hs1 (he.rotr 25)))).bind fun s1 hs1 => ?_
    refine (MC.lift (Exactly.inNs _ (exactly_chC he hs.f hs.g))).bind fun ch hch => ?_
    refine (MC.index (P := fun _ => True) (fun _ _ => trivial) i).bind fun k _ => ?_
    refine (MC.index hw i).bind fun wi hwi => ?_
    refine (MC.inNs _ (mc_compute hs.a .nil)).bind fun a ha => ?_
    refine (MC.lift (Exactly.inNs _ (exactly_xorC (ha.rotr 2) (ha.rotr 13)))).bind fun _ hs0 => ?_
    refine (MC.lift (Exactly.inNs _ (exactly_xorC hs0 (ha.rotr 22)))).bind fun s0 hs0 => ?_
    refine (MC.lift (Exactly.inNs _ (exactly_majC ha hs.b hs.c))).bind fun maj hmaj => ?_
    have ht : AllC [s.h, s1, ch, UInt32.constant k, wi] := .cons hs.h (.cons hs1 (.cons hch (.cons ⟨_, rfl⟩ (.cons hwi .nil))))
    exact MC.pure ⟨ht.append (.cons hs0 (.cons hmaj .nil)), ha, hs.b, hs.c, ht.append (.cons hs.d .nil), he, hs.f, hs.g⟩

theorem exactly_compressionC {input : List Boolean} (h : AllB input) {cur : List UInt32} (hc : AllC cur) :
    Exactly (F := F) (Bellman.Sha256.compression input cur) 0 0 AllC := by
  unfold Bellman.Sha256.compression
  split
  · split
    · rename_i h0 h1 h2 h3 h4 h5 h6 h7
      split
      · rename_i w hw
        have hw' : AllC w := by
          simp only [chunks?, if_neg (by norm_num : (32 : ℕ) ≠ 0), Option.bind_some] at hw
          intro u hu
          obtain ⟨c, hc, e⟩ := forall₂_mem_right (mapM_some hw) hu
          rw [UInt32.fromBitsBe_eq] at e
          refine fromBits_const (fun b hb => h b ?_) e
          rw [← chunksAux_flatten 32 (by norm_num) input.length input le_rfl]
          exact mem_flatten.2 ⟨c, hc, mem_reverse.1 hb⟩
        have get : ∀ x ∈ [h0, h1, h2, h3, h4, h5, h6, h7], IsC x := hc
        have g0 := get h0 (by simp)
        have g1 := get h1 (by simp)
        have g2 := get h2 (by simp)
        have g3 := get h3 (by simp)
        have g4 := get h4 (by simp)
        have g5 := get h5 (by simp)
        have g6 := get h6 (by simp)
        have g7 := get h7 (by simp)
        refine MC.withMultiEq ?_
        unfold Bellman.Sha256.compressionBody
        refine (mc_wLoop _ _ hw').bind fun w hw => ?_
        split
        · refine (mc_rounds hw 64 0 (s := ⟨.concrete h0, h1, h2, h3, .concrete h4, h5, h6, h7⟩) ⟨g0, g1, g2, g3, g4, g5, g6, g7⟩).bind
            fun s hs => ?_
          refine (MC.inNs _ (mc_compute hs.a (.cons g0 .nil))).bind fun n0 k0 => ?_
          refine (MC.inNs _ (MC.addmany (.cons g1 (.cons hs.b .nil)))).bind fun n1 k1 => ?_
          refine (MC.inNs _ (MC.addmany (.cons g2 (.cons hs.c .nil)))).bind fun n2 k2 => ?_
          refine (MC.inNs _ (MC.addmany (.cons g3 (.cons hs.d .nil)))).bind fun n3 k3 => ?_
          refine (MC.inNs _ (mc_compute hs.e (.cons g4 .nil))).bind fun n4 k4 => ?_
          refine (MC.inNs _ (MC.addmany (.cons g5 (.cons hs.f .nil)))).bind fun n5 k5 => ?_
          refine (MC.inNs _ (MC.addmany (.cons g6 (.cons hs.g .nil)))).bind fun n6 k6 => ?_
          refine (MC.inNs _ (MC.addmany (.cons g7 (.cons hs.h .nil)))).bind fun n7 k7 => ?_
          exact MC.pure (.cons k0 (.cons k1 (.cons k2 (.cons k3 (.cons k4 (.cons k5 (.cons k6 (.cons k7 .nil))))))))
        · exact MS.panic
      · exact Exactly.panic
    · exact Exactly.panic
  · exact Exactly.panic

theorem exactly_blockLoopC (i : ℕ) {blocks : List (List Boolean)} (h : ∀ c ∈ blocks, AllB c) {cur : List UInt32} (hc : AllC cur) :
    Exactly (F := F) (Bellman.Sha256.blockLoop i cur blocks) 0 0 AllC := by
  induction blocks generalizing i cur with
  | nil => exact Exactly.pure hc
  | cons b bs ih =>
    exact (Exactly.inNs _ (exactly_compressionC (h b (mem_cons_self ..)) hc)).bind fun cur hc =>
      ih (i + 1) (fun c hc => h c (mem_cons_of_mem _ hc)) hc

theorem pad_eq (input : List Boolean) : ∃ z, Bellman.Sha256.pad input = input ++ z ∧ AllB z ∧
    z.length = 1 + (448 + 512 - (input.length + 1) % 512) % 512 + 64 := by
  refine ⟨_, by unfold Bellman.Sha256.pad; rw [padZeros_eq, append_assoc, append_assoc], ?_, ?_⟩
  · intro b hb
    rcases mem_append.1 hb with hb | hb
    · rw [mem_singleton.1 hb]; rfl
    · rcases mem_append.1 hb with hb | hb
      · rw [eq_of_mem_replicate hb]; rfl
      · obtain ⟨i, -, rfl⟩ := mem_map.1 hb; rfl
  · simp only [length_append, length_replicate, length_map, length_reverse, length_range, length_cons, length_nil]
    omega

theorem exactly_sha256C {input : List Boolean} (h : AllB input) : Exactly (F := F) (Bellman.Sha256.sha256 input) 0 0 AllB := by
  unfold Bellman.Sha256.sha256
  split
  · dsimp only
    split
    · split
      · exact Exactly.panic
      · rename_i blocks hb
        simp only [chunks?, if_neg (by norm_num : (512 : ℕ) ≠ 0), Option.some.injEq] at hb
        obtain ⟨z, hz, hc, -⟩ := pad_eq input
        have hp : AllB (Bellman.Sha256.pad input) := by
          rw [hz]
          intro b hb
          rcases mem_append.1 hb with hb | hb
          · exact h b hb
          · exact hc b hb
        have hbl : ∀ c ∈ blocks, AllB c := by
          intro c hc b hb'
          refine hp b ?_
          rw [← chunksAux_flatten 512 (by norm_num) (Bellman.Sha256.pad input).length (Bellman.Sha256.pad input) le_rfl, hb]
          exact mem_flatten.2 ⟨c, hc, hb'⟩
        refine (exactly_blockLoopC 0 hbl (cur := Bellman.Sha256.iv) ?_).map fun r hr => ?_
        · intro u hu
          obtain ⟨v, -, rfl⟩ := mem_map.1 hu
          exact ⟨v, rfl⟩
        · intro b hb
          obtain ⟨u, hu, hbu⟩ := mem_flatMap.1 hb
          exact bits_const (hr u hu) b (mem_reverse.1 hbu)
    · exact Exactly.panic
  · exact Exactly.panic

end Sha256

namespace Blake2s

theorem mc_mixAdd3 (s : String) {v : List UInt32} (h : AllC v) (a b : ℕ) {u : UInt32} (hu : IsC u) :
    MC (F := F) (Bellman.Blake2s.mixAdd3 s v a b u) AllC :=
  (MC.index h _).bind fun _ ha => (MC.index h _).bind fun _ hb =>
    (MC.inNs _ (MC.addmany (.cons ha (.cons hb (.cons hu .nil))))).bind fun _ ht => MC.pure (h.set _ ht)

theorem mc_mixAdd2 (s : String) {v : List UInt32} (h : AllC v) (a b : ℕ) : MC (F := F) (Bellman.Blake2s.mixAdd2 s v a b) AllC :=
  (MC.index h _).bind fun _ ha => (MC.index h _).bind fun _ hb =>
    (MC.inNs _ (MC.addmany (.cons ha (.cons hb .nil)))).bind fun _ ht => MC.pure (h.set _ ht)

theorem mc_mixXor (s : String) {v : List UInt32} (h : AllC v) (d a r : ℕ) : MC (F := F) (Bellman.Blake2s.mixXor s v d a r) AllC :=
  (MC.index h _).bind fun _ ha => (MC.index h _).bind fun _ hb =>
    (MC.lift (Exactly.inNs _ (exactly_xorC ha hb))).bind fun _ ht => MC.pure (h.set _ (ht.rotr r))

theorem mc_mixCall (n : String) {m : List UInt32} (hm : AllC m) (s : List ℕ) (j a b c d : ℕ) {v : List UInt32} (h : AllC v) :
    MC (F := F) (Bellman.Blake2s.mixCall n m s j a b c d v) AllC := by
  refine (MC.index (P := fun _ => True) (fun _ _ => trivial) _).bind fun _ _ => (MC.index hm _).bind fun _ hx => ?_
  refine (MC.index (P := fun _ => True) (fun _ _ => trivial) _).bind fun _ _ => (MC.index hm _).bind fun _ hy => ?_
  exact MC.inNs _ ((mc_mixAdd3 _ h a b hx).bind fun _ h => (mc_mixXor _ h d a _).bind fun _ h => (mc_mixAdd2 _ h c d).bind fun _ h =>
    (mc_mixXor _ h b c _).bind fun _ h => (mc_mixAdd3 _ h a b hy).bind fun _ h => (mc_mixXor _ h d a _).bind fun _ h =>
    (mc_mixAdd2 _ h c d).bind fun _ h => mc_mixXor _ h b c _)

theorem mc_roundLoop {m : List UInt32} (hm : AllC m) (n i : ℕ) {v : List UInt32} (h : AllC v) :
    MC (F := F) (Bellman.Blake2s.roundLoop m n i v) AllC := by
  induction n generalizing i v with
  | zero => exact MC.pure h
  | succ n ih =>
    refine MC.bind (P := AllC) ?_ fun v hv => ih (i + 1) hv
    unfold Bellman.Blake2s.roundBody
    refine MC.inNs _ ?_
    refine (MC.index (P := fun _ => True) (fun _ _ => trivial) _).bind fun s _ => ?_
    exact (mc_mixCall _ hm s _ _ _ _ _ h).bind fun _ h => (mc_mixCall _ hm s _ _ _ _ _ h).bind fun _ h =>
      (mc_mixCall _ hm s _ _ _ _ _ h).bind fun _ h => (mc_mixCall _ hm s _ _ _ _ _ h).bind fun _ h =>
      (mc_mixCall _ hm s _ _ _ _ _ h).bind fun _ h => (mc_mixCall _ hm s _ _ _ _ _ h).bind fun _ h =>
      (mc_mixCall _ hm s _ _ _ _ _ h).bind fun _ h => mc_mixCall _ hm s _ _ _ _ _ h

theorem exactly_finalLoopC {v : List UInt32} (hv : AllC v) (n i : ℕ) {h : List UInt32} (hh : AllC h) :
    Exactly (F := F) (Bellman.Blake2s.finalLoop v n i h) 0 0 AllC := by
  induction n generalizing i h with
  | zero => exact Exactly.pure hh
  | succ n ih =>
    unfold Bellman.Blake2s.finalLoop
    split
    · rename_i hi vi vi8 e1 e2 e3
      exact (Exactly.inNs _ ((Exactly.inNs _ (exactly_xorC (hh _ (mem_of_getElem? e1)) (hv _ (mem_of_getElem? e2)))).bind fun _ hr =>
        Exactly.inNs _ (exactly_xorC hr (hv _ (mem_of_getElem? e3))))).bind fun _ hr => ih (i + 1) (hh.set _ hr)
    · exact Exactly.panic

theorem allC_ivTail : AllC Bellman.Blake2s.ivTail :=
  .cons ⟨_, rfl⟩ <| .cons ⟨_, rfl⟩ <| .cons ⟨_, rfl⟩ <| .cons ⟨_, rfl⟩ <| .cons ⟨_, rfl⟩ <| .cons ⟨_, rfl⟩ <| .cons ⟨_, rfl⟩ <|
    .cons ⟨_, rfl⟩ .nil

theorem exactly_compressionC {h m : List UInt32} (hh : AllC h) (hm : AllC m) (t : BitVec 64) (f : Bool) :
    Exactly (F := F) (Bellman.Blake2s.compression h m t f) 0 0 AllC := by
  unfold Bellman.Blake2s.compression
  split
  · split
    · dsimp only
      have hv := hh.append allC_ivTail
      split
      · rename_i v12 v13 v14 e12 e13 e14
        refine (Exactly.inNs (F := F) _ (exactly_xorC (hv _ (mem_of_getElem? e12)) ⟨_, rfl⟩)).bind (g' := 0) (e' := 0) fun r hr => ?_
        refine (Exactly.inNs (F := F) _ (exactly_xorC (hv _ (mem_of_getElem? e13)) ⟨_, rfl⟩)).bind (g' := 0) (e' := 0) fun r' hr' => ?_
        have hv' := (hv.set 12 hr).set 13 hr'
        refine Exactly.bind (F := F) (Q := AllC) (g := 0) (e := 0) (g' := 0) (e' := 0) ?_ fun v hv =>
          (MC.withMultiEq (F := F) (mc_roundLoop hm 10 0 hv)).bind fun v hv => exactly_finalLoopC hv 8 0 hh
        cases f with
        | true => exact (Exactly.inNs (F := F) _ (exactly_xorC (hv _ (mem_of_getElem? e14)) ⟨_, rfl⟩)).map fun r hr => hv'.set 14 hr
        | false => exact Exactly.pure (F := F) hv'
      · exact Exactly.panic
    · exact Exactly.panic
  · exact Exactly.panic

theorem exactly_blockLoopC (len i : ℕ) {blocks : List (List UInt32)} (h : ∀ c ∈ blocks, AllC c) {cur : List UInt32} (hc : AllC cur) :
    Exactly (F := F) (Bellman.Blake2s.blockLoop len i cur blocks) 0 0 AllC := by
  induction blocks generalizing i cur with
  | nil => exact Exactly.panic
  | cons b bs ih =>
    cases bs with
    | nil => exact Exactly.inNs _ (exactly_compressionC hc (h b (mem_cons_self ..)) _ _)
    | cons b' bs =>
      exact (Exactly.inNs _ (exactly_compressionC hc (h b (mem_cons_self ..)) _ _)).bind fun cur hc =>
        ih (i + 1) (fun c hc => h c (mem_cons_of_mem _ hc)) hc

theorem mkBlock_const {block : List Boolean} (h : AllB block) {us : List UInt32} (hu : Bellman.Blake2s.mkBlock block = some us) : AllC us := by
  unfold Bellman.Blake2s.mkBlock at hu
  simp only [chunks?, if_neg (by norm_num : (32 : ℕ) ≠ 0), Option.bind_eq_bind, Option.bind_some] at hu
  obtain ⟨ws, h1, h2⟩ := Option.bind_eq_some_iff.1 hu
  cases h2
  refine AllC.append ?_ ?_
  · intro u hu
    obtain ⟨c, hc, e⟩ := forall₂_mem_right (Bellman.Sha256.mapM_some h1) hu
    refine fromBits_const (fun b hb => ?_) e
    rcases mem_append.1 hb with hb | hb
    · refine h b ?_
      rw [← chunksAux_flatten 32 (by norm_num) block.length block le_rfl]
      exact mem_flatten.2 ⟨c, hc, hb⟩
    · rw [eq_of_mem_replicate hb]; rfl
  · intro u hu
    rw [eq_of_mem_replicate hu]
    exact ⟨_, rfl⟩

theorem mkBlocks_const {input : List Boolean} (h : AllB input) {bs : List (List UInt32)} (hb : Bellman.Blake2s.mkBlocks input = some bs) :
    ∀ c ∈ bs, AllC c := by
  unfold Bellman.Blake2s.mkBlocks at hb
  simp only [chunks?, if_neg (by norm_num : (512 : ℕ) ≠ 0), Option.bind_eq_bind, Option.bind_some] at hb
  obtain ⟨ws, h1, h2⟩ := Option.bind_eq_some_iff.1 hb
  cases h2
  intro c hc
  split at hc
  · rw [mem_singleton.1 hc]
    intro u hu
    rw [eq_of_mem_replicate hu]
    exact ⟨_, rfl⟩
  · obtain ⟨d, hd, e⟩ := forall₂_mem_right (Bellman.Sha256.mapM_some h1) hc
    refine mkBlock_const (fun b hb => h b ?_) e
    rw [← chunksAux_flatten 512 (by norm_num) input.length input le_rfl]
    exact mem_flatten.2 ⟨d, hd, hb⟩

theorem exactly_blake2sC {input : List Boolean} (h : AllB input) (p : List (BitVec 8)) :
    Exactly (F := F) (Bellman.Blake2s.blake2s input p) 0 0 AllB := by
  unfold Bellman.Blake2s.blake2s
  split
  · split
    · dsimp only
      split
      · rename_i blocks hb
        refine (exactly_blockLoopC _ 0 (mkBlocks_const h hb) ?_).map fun r hr => ?_
        · exact .cons ⟨_, rfl⟩ <| .cons ⟨_, rfl⟩ <| .cons ⟨_, rfl⟩ <| .cons ⟨_, rfl⟩ <| .cons ⟨_, rfl⟩ <| .cons ⟨_, rfl⟩ <|
            .cons ⟨_, rfl⟩ <| .cons ⟨_, rfl⟩ .nil
        · intro b hb
          obtain ⟨u, hu, hbu⟩ := mem_flatMap.1 hb
          exact bits_const (hr u hu) b hbu
      · exact Exactly.panic
    · exact Exactly.panic
  · exact Exactly.panic

end Blake2s

end Bellman.Cost
