import Verif.Proofs.ScopeNum
import Verif.Proofs.Chunks
import Verif.Gadgets.Blake2s

/-!
# The variables used by `MultiEq`, `UInt32`, SHA-256 and BLAKE2s
-/

namespace Bellman

open PrimeField

set_option linter.unusedSectionVars false

variable {F : Type} [PrimeField F] {n k : ℕ} {α β : Type}

/-- The pending combinations of a `MultiEq` mention known variables. -/
instance : Handle (MEq F) :=
  ⟨fun n k s => Known n k s.lhs ∧ Known n k s.rhs, fun hn hk h => ⟨Handle.mono hn hk h.1, Handle.mono hn hk h.2⟩⟩

/-- `SLocal` for programs with a `MultiEq`. -/
def MLocal [Handle α] (n k : ℕ) (m : MSynth F α) : Prop :=
  ∀ s : MEq F, Known n k s → (m.run.run s).Scope (fun n' k' r => n' = n ∧ Known n k' r.2 ∧ ∀ a, r.1 = .ok a → Known n k' a) n k

namespace MLocal

theorem pure [Handle α] {a : α} (h : Known n k a) : MLocal n k (pure a : MSynth F α) :=
  fun _ hs => ⟨rfl, hs, by rintro _ ⟨⟩; exact h⟩

theorem bind [Handle α] [Handle β] {m : MSynth F α} {g : α → MSynth F β} (h : MLocal n k m)
    (hg : ∀ k' a, k ≤ k' → Known n k' a → MLocal n k' (g a)) : MLocal n k (m >>= g) := by
  intro s hs
  refine Circ.Scope.bind (h s hs) ?_
  rintro n' k' ⟨r, s'⟩ hn hk ⟨rfl, h1, h2⟩
  cases r with
  | ok a => exact hg k' a hk (h2 a rfl) s' h1
  | error e => exact ⟨rfl, h1, by rintro _ ⟨⟩⟩

theorem lift [Handle α] {m : Synth F α} (h : SLocal n k m) : MLocal n k (MSynth.lift m) := by
  intro s hs
  refine Circ.Scope.bind h ?_
  rintro n' k' r hn hk ⟨rfl, h2⟩
  exact ⟨rfl, Known.lift hs hk, h2⟩

theorem panic [Handle α] {e : String} : MLocal n k (MSynth.lift (Synth.panic e) : MSynth F α) := lift SLocal.panic

theorem inNs [Handle α] (s : String) {m : MSynth F α} (h : MLocal n k m) : MLocal n k (MSynth.inNs s m) := by
  intro st hs
  show Circ.Scope _ ((m.run.run st).bind fun r => Circ.pop (.ret r)) n k
  refine Circ.Scope.bind (h st hs) ?_
  intro n' k' r hn hk h
  exact h

theorem withMultiEq (hn : 0 < n) [Handle α] {m : MSynth F α} (h : MLocal n k m) : SLocal n k (MSynth.withMultiEq m) := by
  refine Circ.Scope.bind (h MEq.new ⟨known_zero, known_zero⟩) ?_
  rintro n' k' ⟨r, s⟩ hn' hk ⟨rfl, h1, h2⟩
  unfold MEq.drop
  split
  · exact ⟨h1.1, known_addVar known_zero hn, h1.2, rfl, h2⟩
  · exact ⟨rfl, h2⟩

theorem enforceEqual (hn : 0 < n) (b : ℕ) {l r : LC F} (hl : Known n k l) (hr : Known n k r) :
    MLocal n k (MEq.enforceEqual b l r) := by
  have add : ∀ s : MEq F, Known n k s → Circ.Scope (F := F) (fun n' k' r => n' = n ∧ Known n k' r.2 ∧
      ∀ a : Unit, r.1 = .ok a → Known n k' a)
      (if CAPACITY F > s.bitsUsed + b then
        (.ret (.ok (), ⟨s.ops, s.bitsUsed + b, s.lhs + ((2 ^ s.bitsUsed : F), l), s.rhs + ((2 ^ s.bitsUsed : F), r)⟩) :
          Circ F (Except SynthesisError Unit × MEq F))
      else .panic "assert!((Scalar::CAPACITY as usize) > (self.bits_used + num_bits))") n k := by
    intro s hs
    split
    · exact ⟨rfl, ⟨known_addScaled hs.1 hl, known_addScaled hs.2 hr⟩, fun _ _ => trivial⟩
    · trivial
  intro s hs
  show Circ.Scope _ (if CAPACITY F ≤ s.bitsUsed + b then _ else _) n k
  split
  · exact ⟨hs.1, known_addVar known_zero hn, hs.2, add _ ⟨known_zero, known_zero⟩⟩
  · exact add s hs

theorem index [Handle α] {l : List α} (h : Known n k l) (i : ℕ) : MLocal n k (MSynth.index l i : MSynth F α) := by
  unfold MSynth.index
  split
  · rename_i x hx
    exact pure (h x (List.mem_of_getElem? hx))
  · exact panic

end MLocal

namespace UInt32

theorem known_constant {v : BitVec 32} : Known n k (UInt32.constant v) := by
  intro x hx
  obtain ⟨b, -, rfl⟩ := List.mem_map.1 (show x ∈ (shiftBits 32 v).map Boolean.constant from hx)
  trivial

theorem slocal_allocLoop (hn : 0 < n) (i : ℕ) (vs : List (Option Bool)) : SLocal n k (allocLoop i vs : Synth F _) := by
  induction vs generalizing i k with
  | nil => exact SLocal.pure known_list_nil
  | cons v vs ih =>
    refine SLocal.bind (SLocal.inNs _ (AllocatedBit.slocal_alloc hn v)) fun k1 x h1 hx => ?_
    refine SLocal.bind (ih (i + 1)) fun k2 xs h2 hxs => SLocal.pure ?_
    exact known_list_cons (Known.lift hx h2) hxs

theorem slocal_alloc (hn : 0 < n) (v : Option (BitVec 32)) : SLocal n k (alloc v : Synth F _) :=
  SLocal.bind (slocal_allocLoop hn _ _) fun _ _ _ h => SLocal.pure h

theorem known_take {l : List α} [Handle α] (h : Known n k l) (i : ℕ) : Known n k (l.take i) :=
  fun x hx => h x (List.mem_of_mem_take hx)

theorem known_drop {l : List α} [Handle α] (h : Known n k l) (i : ℕ) : Known n k (l.drop i) :=
  fun x hx => h x (List.mem_of_mem_drop hx)

theorem known_reverse {l : List α} [Handle α] (h : Known n k l) : Known n k l.reverse :=
  fun x hx => h x (by simpa using hx)

theorem known_replicate {a : α} [Handle α] (h : Known n k a) (i : ℕ) : Known n k (List.replicate i a) :=
  fun x hx => by rw [List.eq_of_mem_replicate hx]; exact h

theorem known_set {l : List α} [Handle α] {a : α} (h : Known n k l) (ha : Known n k a) (i : ℕ) : Known n k (l.set i a) :=
  fun x hx => by
    rcases List.mem_or_eq_of_mem_set hx with hx | rfl
    · exact h x hx
    · exact ha

variable {a b c : UInt32}

theorem known_rotr (h : Known n k a) (i : ℕ) : Known n k (a.rotr i) :=
  known_take (known_list_append (known_drop h _) h) 32

theorem known_shr (h : Known n k a) (i : ℕ) : Known n k (a.shr i) :=
  known_take (known_list_append (known_drop h _) (known_replicate trivial 32)) 32

theorem known_fromBits {l : List Boolean} (h : Known n k l) {u : UInt32} (hu : fromBits l = some u) : Known n k u := by
  unfold fromBits at hu
  split at hu
  · cases hu; exact h
  · cases hu

theorem known_fromBitsBe {l : List Boolean} (h : Known n k l) {u : UInt32} (hu : fromBitsBe l = some u) : Known n k u := by
  unfold fromBitsBe at hu
  split at hu
  · cases hu; exact known_reverse h
  · cases hu

theorem slocal_triopLoop {fn : ℕ → Boolean → Boolean → Boolean → Synth F Boolean} {as bs cs : List Boolean}
    (hf : ∀ i k a b c, Known n k a → Known n k b → Known n k c → SLocal n k (fn i a b c)) (i : ℕ)
    (ha : Known n k as) (hb : Known n k bs) (hc : Known n k cs) : SLocal n k (triopLoop fn i as bs cs) := by
  induction as generalizing bs cs i k with
  | nil => exact SLocal.pure known_list_nil
  | cons a as ih =>
    cases bs with
    | nil => exact SLocal.pure known_list_nil
    | cons b bs =>
      cases cs with
      | nil => exact SLocal.pure known_list_nil
      | cons c cs =>
        refine SLocal.bind (hf i k a b c (ha a (by simp)) (hb b (by simp)) (hc c (by simp))) fun k1 r h1 hr => ?_
        refine SLocal.bind (ih (i + 1) (Known.lift (fun x hx => ha x (by simp [hx])) h1)
          (Known.lift (fun x hx => hb x (by simp [hx])) h1) (Known.lift (fun x hx => hc x (by simp [hx])) h1))
          fun k2 rs h2 hrs => SLocal.pure ?_
        exact known_list_cons (Known.lift hr h2) hrs

theorem slocal_sha256Maj (hn : 0 < n) (ha : Known n k a) (hb : Known n k b) (hc : Known n k c) :
    SLocal n k (sha256Maj a b c : Synth F _) :=
  SLocal.bind (slocal_triopLoop (fun _ _ _ _ _ ha hb hc => SLocal.inNs _ (Boolean.slocal_sha256Maj hn ha hb hc)) 0 ha hb hc)
    fun _ _ _ h => SLocal.pure h

theorem slocal_sha256Ch (hn : 0 < n) (ha : Known n k a) (hb : Known n k b) (hc : Known n k c) :
    SLocal n k (sha256Ch a b c : Synth F _) :=
  SLocal.bind (slocal_triopLoop (fun _ _ _ _ _ ha hb hc => SLocal.inNs _ (Boolean.slocal_sha256Ch hn ha hb hc)) 0 ha hb hc)
    fun _ _ _ h => SLocal.pure h

theorem slocal_xorLoop {as bs : List Boolean} (i : ℕ) (ha : Known n k as) (hb : Known n k bs) :
    SLocal n k (xorLoop i as bs : Synth F _) := by
  induction as generalizing bs i k with
  | nil => exact SLocal.pure known_list_nil
  | cons a as ih =>
    cases bs with
    | nil => exact SLocal.pure known_list_nil
    | cons b bs =>
      refine SLocal.bind (SLocal.inNs _ (Boolean.slocal_xor (ha a (by simp)) (hb b (by simp)))) fun k1 r h1 hr => ?_
      refine SLocal.bind (ih (i + 1) (Known.lift (fun x hx => ha x (by simp [hx])) h1)
        (Known.lift (fun x hx => hb x (by simp [hx])) h1)) fun k2 rs h2 hrs => SLocal.pure ?_
      exact known_list_cons (Known.lift hr h2) hrs

theorem slocal_xor (ha : Known n k a) (hb : Known n k b) : SLocal n k (xor a b : Synth F _) :=
  SLocal.bind (slocal_xorLoop 0 ha hb) fun _ _ _ h => SLocal.pure h

theorem known_addBits (hn : 0 < n) {lc : LC F} (b : Bool) (c : F) {l : List Boolean} (h : Known n k lc) (hl : Known n k l) :
    Known n k (addBits lc b c l).1 := by
  induction l generalizing lc b c with
  | nil => exact h
  | cons x xs ih => exact ih _ _ (known_addLC h (known_lc hn (hl x (by simp)))) fun y hy => hl y (by simp [hy])

theorem known_addOperands (hn : 0 < n) (v : Option ℕ) {lc : LC F} (b : Bool) {l : List UInt32} (h : Known n k lc) (hl : Known n k l) :
    Known n k (addOperands v lc b l).2.1 := by
  induction l generalizing lc b v with
  | nil => exact h
  | cons x xs ih => exact ih _ _ (known_addBits hn _ _ h (hl x (by simp))) fun y hy => hl y (by simp [hy])

theorem slocal_resultLoop (hn : 0 < n) (v : Option ℕ) (m i : ℕ) (c : F) {bits : List Boolean} {lc : LC F} (hb : Known n k bits)
    (hl : Known n k lc) : SLocal n k (resultLoop v m i c bits lc) := by
  induction m using Nat.strong_induction_on generalizing i c bits lc k with
  | _ m ih =>
    unfold resultLoop
    split
    · exact SLocal.pure ⟨hb, hl, trivial⟩
    · refine SLocal.bind (SLocal.inNs _ (AllocatedBit.slocal_alloc hn _)) fun k1 x h1 hx => ?_
      refine ih (m >>> 1) (by rw [Nat.shiftRight_one]; omega) _ _ ?_ ?_
      · exact known_list_append (Known.lift hb h1) (known_list_cons hx known_list_nil)
      · exact known_addTerm (Known.lift hl h1) hx

theorem mlocal_addmany (hn : 0 < n) {l : List UInt32} (hl : Known n k l) : MLocal n k (addmany l : MSynth F _) := by
  unfold addmany
  split
  · split
    · split
      · dsimp only
        split
        · exact MLocal.pure known_constant
        · refine MLocal.bind (MLocal.lift (slocal_resultLoop hn _ _ _ _ known_list_nil known_zero)) fun k1 q h1 hq => ?_
          refine MLocal.bind (MLocal.enforceEqual hn _ (Known.lift (known_addOperands hn _ _ known_zero hl) h1) hq.2.1)
            fun k2 _ h2 _ => MLocal.pure ?_
          exact known_take (Known.lift hq.1 h2) 32
      · exact MLocal.panic
    · exact MLocal.panic
  · exact MLocal.panic

end UInt32

open Bellman.UInt32

theorem known_mapM {α β : Type} [Handle α] [Handle β] {f : α → Option β} (hf : ∀ a b, Known n k a → f a = some b → Known n k b)
    {l : List α} {l' : List β} (hl : Known n k l) (h : l.mapM f = some l') : Known n k l' := by
  induction l generalizing l' with
  | nil => cases h; exact known_list_nil
  | cons a l ih =>
    rw [List.mapM_cons] at h
    obtain ⟨b, h1, h⟩ := Option.bind_eq_some_iff.1 h
    obtain ⟨bs, h2, h⟩ := Option.bind_eq_some_iff.1 h
    cases h
    exact known_list_cons (hf a b (hl a (by simp)) h1) (ih (fun x hx => hl x (by simp [hx])) h2)

theorem known_chunks [Handle α] {c : ℕ} {l : List α} {ll : List (List α)} (hl : Known n k l) (h : chunks? c l = some ll) : Known n k ll := by
  unfold chunks? at h
  split at h
  · cases h
  · rename_i hc
    cases h
    intro x hx y hy
    refine hl y ?_
    rw [← chunksAux_flatten c (by omega) l.length l le_rfl]
    exact List.mem_flatten.2 ⟨x, hx, hy⟩

theorem known_flatMap [Handle α] [Handle β] {f : α → List β} {l : List α} (hf : ∀ a, Known n k a → Known n k (f a)) (hl : Known n k l) :
    Known n k (l.flatMap f) := by
  intro x hx
  obtain ⟨a, ha, hx⟩ := List.mem_flatMap.1 hx
  exact hf a (hl a ha) x hx

namespace Sha256

theorem mlocal_wStep (hn : 0 < n) (i : ℕ) {w : List UInt32} (hw : Known n k w) : MLocal n k (wStep i w : MSynth F _) := by
  refine MLocal.inNs _ ?_
  refine MLocal.bind (MLocal.index hw _) fun k1 w15 h1 hw15 => ?_
  refine MLocal.bind (MLocal.lift (SLocal.inNs _ (slocal_xor (known_rotr hw15 _) (known_rotr hw15 _)))) fun k2 s0 h2 hs0 => ?_
  refine MLocal.bind (MLocal.lift (SLocal.inNs _ (slocal_xor hs0 (known_shr (Known.lift hw15 h2) _)))) fun k3 s0' h3 hs0' => ?_
  refine MLocal.bind (MLocal.index (Known.lift hw (show k ≤ k3 by omega)) _) fun k4 w2 h4 hw2 => ?_
  refine MLocal.bind (MLocal.lift (SLocal.inNs _ (slocal_xor (known_rotr hw2 _) (known_rotr hw2 _)))) fun k5 s1 h5 hs1 => ?_
  refine MLocal.bind (MLocal.lift (SLocal.inNs _ (slocal_xor hs1 (known_shr (Known.lift hw2 h5) _)))) fun k6 s1' h6 hs1' => ?_
  refine MLocal.bind (MLocal.index (Known.lift hw (show k ≤ k6 by omega)) _) fun k7 w16 h7 hw16 => ?_
  refine MLocal.bind (MLocal.index (Known.lift hw (show k ≤ k7 by omega)) _) fun k8 w7 h8 hw7 => ?_
  refine MLocal.bind (MLocal.inNs _ (mlocal_addmany hn ?_)) fun k9 t h9 ht => MLocal.pure ?_
  · known
  · known

theorem mlocal_wLoop (hn : 0 < n) (m i : ℕ) {w : List UInt32} (hw : Known n k w) : MLocal n k (wLoop m i w : MSynth F _) := by
  induction m generalizing i w k with
  | zero => exact MLocal.pure hw
  | succ m ih => exact MLocal.bind (mlocal_wStep hn i hw) fun k1 w h1 hw => ih (i + 1) hw

/-- The variables of a possibly deferred sum. -/
instance : Handle Maybe where
  Known n k m := match m with
    | .deferred v => Known n k v
    | .concrete v => Known n k v
  mono {_ _ _ _ m} hn hk h := by
    cases m with
    | deferred v => exact Handle.mono (α := List UInt32) hn hk h
    | concrete v => exact Handle.mono (α := UInt32) hn hk h

theorem mlocal_compute (hn : 0 < n) {m : Maybe} {o : List UInt32} (hm : Known n k m) (ho : Known n k o) :
    MLocal n k (m.compute o : MSynth F _) := by
  cases m with
  | deferred v => exact mlocal_addmany hn (known_list_append hm ho)
  | concrete v => exact MLocal.pure hm

/-- The variables of the loop state. -/
instance : Handle St where
  Known n k s := Known n k s.a ∧ Known n k s.b ∧ Known n k s.c ∧ Known n k s.d ∧ Known n k s.e ∧ Known n k s.f ∧ Known n k s.g ∧
    Known n k s.h
  mono hn hk h := ⟨Handle.mono hn hk h.1, Handle.mono hn hk h.2.1, Handle.mono hn hk h.2.2.1, Handle.mono hn hk h.2.2.2.1,
    Handle.mono hn hk h.2.2.2.2.1, Handle.mono hn hk h.2.2.2.2.2.1, Handle.mono hn hk h.2.2.2.2.2.2.1, Handle.mono hn hk h.2.2.2.2.2.2.2⟩

/-- Constants mention no variable. -/
instance : Handle (BitVec 32) := ⟨fun _ _ _ => True, fun _ _ h => h⟩

theorem mlocal_round (hn : 0 < n) {w : List UInt32} (i : ℕ) {s : St} (hw : Known n k w) (hs : Known n k s) :
    MLocal n k (round w i s : MSynth F _) := by
  obtain ⟨ha, hb, hc, hd, he, hf, hg, hh⟩ := hs
  refine MLocal.inNs _ ?_
  refine MLocal.bind (MLocal.inNs _ (mlocal_compute hn he known_list_nil)) fun k1 ne h1 hne => ?_
  refine MLocal.bind (MLocal.lift (SLocal.inNs _ (slocal_xor (known_rotr hne _) (known_rotr hne _)))) fun k2 s1 h2 hs1 => ?_
  refine MLocal.bind (MLocal.lift (SLocal.inNs _ (slocal_xor hs1 (known_rotr (Known.lift hne h2) _)))) fun k3 s1' h3 hs1' => ?_
  refine MLocal.bind (MLocal.lift (SLocal.inNs _ (slocal_sha256Ch hn (Known.lift hne (by omega)) (Known.lift hf (by omega))
    (Known.lift hg (by omega))))) fun k4 ch h4 hch => ?_
  refine MLocal.bind (MLocal.index (fun _ _ => trivial) _) fun k5 kc h5 _ => ?_
  refine MLocal.bind (MLocal.index (Known.lift hw (by omega)) _) fun k6 wi h6 hwi => ?_
  refine MLocal.bind (MLocal.inNs _ (mlocal_compute hn (Known.lift ha (by omega)) known_list_nil)) fun k7 na h7 hna => ?_
  refine MLocal.bind (MLocal.lift (SLocal.inNs _ (slocal_xor (known_rotr hna _) (known_rotr hna _)))) fun k8 s0 h8 hs0 => ?_
  refine MLocal.bind (MLocal.lift (SLocal.inNs _ (slocal_xor hs0 (known_rotr (Known.lift hna h8) _)))) fun k9 s0' h9 hs0' => ?_
  refine MLocal.bind (MLocal.lift (SLocal.inNs _ (slocal_sha256Maj hn (Known.lift hna (by omega)) (Known.lift hb (by omega))
    (Known.lift hc (by omega))))) fun k10 maj h10 hmaj => MLocal.pure ?_
  have hk : Known n k10 (UInt32.constant kc) := known_constant
  refine ⟨?_, ?_, ?_, ?_, ?_, ?_, ?_, ?_⟩
  · show Known n k10 ([s.h, s1', ch, UInt32.constant kc, wi] ++ [s0', maj]); known
  · show Known n k10 na; known
  · show Known n k10 s.b; known
  · show Known n k10 s.c; known
  · show Known n k10 ([s.h, s1', ch, UInt32.constant kc, wi] ++ [s.d]); known
  · show Known n k10 ne; known
  · show Known n k10 s.f; known
  · show Known n k10 s.g; known

theorem mlocal_rounds (hn : 0 < n) {w : List UInt32} (m i : ℕ) {s : St} (hw : Known n k w) (hs : Known n k s) :
    MLocal n k (rounds w m i s : MSynth F _) := by
  induction m generalizing i s k with
  | zero => exact MLocal.pure hs
  | succ m ih => exact MLocal.bind (mlocal_round hn i hw hs) fun k1 s h1 hs => ih (i + 1) (Known.lift hw h1) hs

theorem mlocal_compressionBody (hn : 0 < n) {w : List UInt32} (hw : Known n k w) {h0 h1 h2 h3 h4 h5 h6 h7 : UInt32} (k0 : Known n k h0)
    (k1 : Known n k h1) (k2 : Known n k h2) (k3 : Known n k h3) (k4 : Known n k h4) (k5 : Known n k h5) (k6 : Known n k h6)
    (k7 : Known n k h7) : MLocal n k (compressionBody w h0 h1 h2 h3 h4 h5 h6 h7 : MSynth F _) := by
  refine MLocal.bind (mlocal_wLoop hn _ _ hw) fun l w hl hw => ?_
  split
  · refine MLocal.bind (mlocal_rounds hn _ _ hw (s := ⟨.concrete h0, h1, h2, h3, .concrete h4, h5, h6, h7⟩) ?_) fun m s hm hs => ?_
    · refine ⟨?_, ?_, ?_, ?_, ?_, ?_, ?_, ?_⟩
      · exact Known.lift (α := UInt32) k0 hl
      · exact Known.lift (α := UInt32) k1 hl
      · exact Known.lift (α := UInt32) k2 hl
      · exact Known.lift (α := UInt32) k3 hl
      · exact Known.lift (α := UInt32) k4 hl
      · exact Known.lift (α := UInt32) k5 hl
      · exact Known.lift (α := UInt32) k6 hl
      · exact Known.lift (α := UInt32) k7 hl
    obtain ⟨ha, hb, hc, hd, he, hf, hg, hh⟩ := hs
    refine MLocal.bind (MLocal.inNs _ (mlocal_compute hn ha ?_)) fun m0 n0 p0 q0 => ?_
    · known
    refine MLocal.bind (MLocal.inNs _ (mlocal_addmany hn ?_)) fun m1 n1 p1 q1 => ?_
    · known
    refine MLocal.bind (MLocal.inNs _ (mlocal_addmany hn ?_)) fun m2 n2 p2 q2 => ?_
    · known
    refine MLocal.bind (MLocal.inNs _ (mlocal_addmany hn ?_)) fun m3 n3 p3 q3 => ?_
    · known
    refine MLocal.bind (MLocal.inNs _ (mlocal_compute hn (Known.lift he (by omega)) ?_)) fun m4 n4 p4 q4 => ?_
    · known
    refine MLocal.bind (MLocal.inNs _ (mlocal_addmany hn ?_)) fun m5 n5 p5 q5 => ?_
    · known
    refine MLocal.bind (MLocal.inNs _ (mlocal_addmany hn ?_)) fun m6 n6 p6 q6 => ?_
    · known
    refine MLocal.bind (MLocal.inNs _ (mlocal_addmany hn ?_)) fun m7 n7 p7 q7 => MLocal.pure ?_
    · known
    · known
  · exact MLocal.panic

theorem slocal_compression (hn : 0 < n) {input : List Boolean} {cur : List UInt32} (hi : Known n k input) (hc : Known n k cur) :
    SLocal n k (compression input cur : Synth F _) := by
  unfold compression
  split
  · split
    · split
      · rename_i w hw
        obtain ⟨cs, h1, h2⟩ := Option.bind_eq_some_iff.1 hw
        refine MLocal.withMultiEq hn (mlocal_compressionBody hn (known_mapM (fun _ _ h => known_fromBitsBe h) (known_chunks hi h1) h2)
          ?_ ?_ ?_ ?_ ?_ ?_ ?_ ?_) <;> exact hc _ (by simp)
      · exact SLocal.panic
    · exact SLocal.panic
  · exact SLocal.panic

theorem known_iv : Known n k iv := by
  intro x hx
  obtain ⟨v, -, rfl⟩ := List.mem_map.1 (show x ∈ IV.map UInt32.constant from hx)
  exact known_constant

theorem slocal_sha256BlockNoPadding (hn : 0 < n) {input : List Boolean} (hi : Known n k input) :
    SLocal n k (sha256BlockNoPadding input : Synth F _) := by
  unfold sha256BlockNoPadding
  split
  · exact SLocal.bind (slocal_compression hn hi known_iv) fun _ _ _ hr => SLocal.pure (known_flatMap (fun _ h => known_reverse h) hr)
  · exact SLocal.panic

theorem known_padZeros {l : List Boolean} (h : Known n k l) : Known n k (padZeros l) := by
  fun_induction padZeros l with
  | case1 => exact h
  | case2 l hl ih => exact ih (known_list_append h (known_list_cons trivial known_list_nil))

theorem known_pad {l : List Boolean} (h : Known n k l) : Known n k (pad l) := by
  refine known_list_append (known_padZeros (known_list_append h (known_list_cons trivial known_list_nil))) ?_
  intro x hx
  obtain ⟨v, -, rfl⟩ := List.mem_map.1 hx
  trivial

theorem slocal_blockLoop (hn : 0 < n) (i : ℕ) {cur : List UInt32} {bs : List (List Boolean)} (hc : Known n k cur) (hb : Known n k bs) :
    SLocal n k (blockLoop i cur bs : Synth F _) := by
  induction bs generalizing i cur k with
  | nil => exact SLocal.pure hc
  | cons b bs ih =>
    refine SLocal.bind (SLocal.inNs _ (slocal_compression hn (hb b (by simp)) hc)) fun k1 c h1 hc => ?_
    exact ih (i + 1) hc (Known.lift (fun x hx => hb x (by simp [hx])) h1)

theorem slocal_sha256 (hn : 0 < n) {input : List Boolean} (hi : Known n k input) : SLocal n k (sha256 input : Synth F _) := by
  unfold sha256
  split
  · dsimp only
    split
    · split
      · exact SLocal.panic
      · rename_i bs hbs
        exact SLocal.bind (slocal_blockLoop hn 0 known_iv (known_chunks (known_pad hi) hbs)) fun _ _ _ hr =>
          SLocal.pure (known_flatMap (fun _ h => known_reverse h) hr)
    · exact SLocal.panic
  · exact SLocal.panic

end Sha256

namespace Blake2s

theorem mlocal_mixAdd3 (hn : 0 < n) (s : String) {v : List UInt32} (a b : ℕ) {x : UInt32} (hv : Known n k v) (hx : Known n k x) :
    MLocal n k (mixAdd3 s v a b x : MSynth F _) := by
  refine MLocal.bind (MLocal.index hv _) fun k1 va h1 hva => ?_
  refine MLocal.bind (MLocal.index (Known.lift hv h1) _) fun k2 vb h2 hvb => ?_
  refine MLocal.bind (MLocal.inNs _ (mlocal_addmany hn ?_)) fun k3 t h3 ht => MLocal.pure (known_set ?_ ht _) <;> known

theorem mlocal_mixAdd2 (hn : 0 < n) (s : String) {v : List UInt32} (a b : ℕ) (hv : Known n k v) :
    MLocal n k (mixAdd2 s v a b : MSynth F _) := by
  refine MLocal.bind (MLocal.index hv _) fun k1 va h1 hva => ?_
  refine MLocal.bind (MLocal.index (Known.lift hv h1) _) fun k2 vb h2 hvb => ?_
  refine MLocal.bind (MLocal.inNs _ (mlocal_addmany hn ?_)) fun k3 t h3 ht => MLocal.pure (known_set ?_ ht _) <;> known

theorem mlocal_mixXor (s : String) {v : List UInt32} (d a r : ℕ) (hv : Known n k v) :
    MLocal n k (mixXor s v d a r : MSynth F _) := by
  refine MLocal.bind (MLocal.index hv _) fun k1 va h1 hva => ?_
  refine MLocal.bind (MLocal.index (Known.lift hv h1) _) fun k2 vb h2 hvb => ?_
  refine MLocal.bind (MLocal.lift (SLocal.inNs _ (slocal_xor (Known.lift hva h2) hvb))) fun k3 t h3 ht =>
    MLocal.pure (known_set ?_ (known_rotr ht _) _)
  known

theorem mlocal_mixingG (hn : 0 < n) {v : List UInt32} (a b c d : ℕ) {x y : UInt32} (hv : Known n k v) (hx : Known n k x)
    (hy : Known n k y) : MLocal n k (mixingG v a b c d x y : MSynth F _) := by
  refine MLocal.bind (mlocal_mixAdd3 hn _ _ _ hv hx) fun k1 v h1 hv => ?_
  refine MLocal.bind (mlocal_mixXor _ _ _ _ hv) fun k2 v h2 hv => ?_
  refine MLocal.bind (mlocal_mixAdd2 hn _ _ _ hv) fun k3 v h3 hv => ?_
  refine MLocal.bind (mlocal_mixXor _ _ _ _ hv) fun k4 v h4 hv => ?_
  refine MLocal.bind (mlocal_mixAdd3 hn _ _ _ hv (Known.lift hy (by omega))) fun k5 v h5 hv => ?_
  refine MLocal.bind (mlocal_mixXor _ _ _ _ hv) fun k6 v h6 hv => ?_
  refine MLocal.bind (mlocal_mixAdd2 hn _ _ _ hv) fun k7 v h7 hv => ?_
  exact mlocal_mixXor _ _ _ _ hv

theorem mlocal_mixCall (hn : 0 < n) (nm : String) {m : List UInt32} (s : List ℕ) (j a b c d : ℕ) {v : List UInt32} (hm : Known n k m)
    (hv : Known n k v) : MLocal n k (mixCall nm m s j a b c d v : MSynth F _) := by
  refine MLocal.bind (MLocal.index (α := ℕ) (fun _ _ => trivial) _) fun k1 ix h1 _ => ?_
  refine MLocal.bind (MLocal.index (Known.lift hm h1) _) fun k2 x h2 hx => ?_
  refine MLocal.bind (MLocal.index (α := ℕ) (fun _ _ => trivial) _) fun k3 iy h3 _ => ?_
  refine MLocal.bind (MLocal.index (Known.lift hm (by omega)) _) fun k4 y h4 hy => ?_
  exact MLocal.inNs _ (mlocal_mixingG hn _ _ _ _ (Known.lift hv (by omega)) (Known.lift hx (by omega)) hy)

theorem mlocal_roundBody (hn : 0 < n) {m : List UInt32} (i : ℕ) {v : List UInt32} (hm : Known n k m) (hv : Known n k v) :
    MLocal n k (roundBody m i v : MSynth F _) := by
  refine MLocal.inNs _ ?_
  refine MLocal.bind (MLocal.index (α := List ℕ) (fun _ _ _ _ => trivial) _) fun k0 s h0 _ => ?_
  refine MLocal.bind (mlocal_mixCall hn _ _ _ _ _ _ _ (Known.lift hm (by omega)) (Known.lift hv (by omega))) fun k1 v h1 hv => ?_
  refine MLocal.bind (mlocal_mixCall hn _ _ _ _ _ _ _ (Known.lift hm (by omega)) hv) fun k2 v h2 hv => ?_
  refine MLocal.bind (mlocal_mixCall hn _ _ _ _ _ _ _ (Known.lift hm (by omega)) hv) fun k3 v h3 hv => ?_
  refine MLocal.bind (mlocal_mixCall hn _ _ _ _ _ _ _ (Known.lift hm (by omega)) hv) fun k4 v h4 hv => ?_
  refine MLocal.bind (mlocal_mixCall hn _ _ _ _ _ _ _ (Known.lift hm (by omega)) hv) fun k5 v h5 hv => ?_
  refine MLocal.bind (mlocal_mixCall hn _ _ _ _ _ _ _ (Known.lift hm (by omega)) hv) fun k6 v h6 hv => ?_
  refine MLocal.bind (mlocal_mixCall hn _ _ _ _ _ _ _ (Known.lift hm (by omega)) hv) fun k7 v h7 hv => ?_
  exact mlocal_mixCall hn _ _ _ _ _ _ _ (Known.lift hm (by omega)) hv

theorem mlocal_roundLoop (hn : 0 < n) {m : List UInt32} (j i : ℕ) {v : List UInt32} (hm : Known n k m) (hv : Known n k v) :
    MLocal n k (roundLoop m j i v : MSynth F _) := by
  induction j generalizing i v k with
  | zero => exact MLocal.pure hv
  | succ j ih => exact MLocal.bind (mlocal_roundBody hn i hm hv) fun k1 v h1 hv => ih (i + 1) (Known.lift hm h1) hv

theorem slocal_finalLoop {v : List UInt32} (j i : ℕ) {h : List UInt32} (hv : Known n k v) (hh : Known n k h) :
    SLocal n k (finalLoop v j i h : Synth F _) := by
  induction j generalizing i h k with
  | zero => exact SLocal.pure hh
  | succ j ih =>
    unfold finalLoop
    split
    · rename_i hi vi vi8 e1 e2 e3
      have k1 : Known n k hi := hh _ (List.mem_of_getElem? e1)
      have k2 : Known n k vi := hv _ (List.mem_of_getElem? e2)
      have k3 : Known n k vi8 := hv _ (List.mem_of_getElem? e3)
      refine SLocal.bind (SLocal.inNs _ (SLocal.bind (SLocal.inNs _ (slocal_xor k1 k2)) fun k' r h' hr =>
        SLocal.inNs _ (slocal_xor hr (Known.lift k3 h')))) fun k' r h' hr => ?_
      exact ih (i + 1) (Known.lift hv h') (known_set (Known.lift hh h') hr _)
    · exact SLocal.panic

theorem known_ivTail : Known n k ivTail := by
  intro x hx
  simp only [ivTail, List.mem_cons, List.not_mem_nil, or_false] at hx
  rcases hx with rfl | rfl | rfl | rfl | rfl | rfl | rfl | rfl <;> exact known_constant

theorem slocal_compression (hn : 0 < n) {h m : List UInt32} (t : BitVec 64) (f : Bool) (hh : Known n k h) (hm : Known n k m) :
    SLocal n k (compression h m t f : Synth F _) := by
  unfold compression
  split
  · split
    · dsimp only
      have hv : Known n k (h ++ ivTail) := known_list_append hh known_ivTail
      split
      · rename_i v12 v13 v14 e1 e2 e3
        have k1 : Known n k v12 := hv _ (List.mem_of_getElem? e1)
        have k2 : Known n k v13 := hv _ (List.mem_of_getElem? e2)
        have k3 : Known n k v14 := hv _ (List.mem_of_getElem? e3)
        refine SLocal.bind (SLocal.inNs _ (slocal_xor k1 known_constant)) fun l1 r1 h1 hr1 => ?_
        refine SLocal.bind (SLocal.inNs _ (slocal_xor (Known.lift k2 h1) known_constant)) fun l2 r2 h2 hr2 => ?_
        have hv2 : Known n l2 (((h ++ ivTail).set 12 r1).set 13 r2) :=
          known_set (known_set (Known.lift hv (by omega)) (Known.lift hr1 h2) _) hr2 _
        refine SLocal.bind (α := List UInt32) ?_ fun l3 v h3 hv3 => ?_
        · split
          · exact SLocal.bind (SLocal.inNs _ (slocal_xor (Known.lift k3 (by omega)) known_constant)) fun l3 r3 h3 hr3 =>
              SLocal.pure (known_set (Known.lift hv2 h3) hr3 _)
          · exact SLocal.pure hv2
        · refine SLocal.bind (MLocal.withMultiEq hn (mlocal_roundLoop hn _ _ (Known.lift hm (by omega)) hv3)) fun l4 v h4 hv4 => ?_
          exact slocal_finalLoop _ _ hv4 (Known.lift hh (by omega))
      · exact SLocal.panic
    · exact SLocal.panic
  · exact SLocal.panic

theorem known_mkBlock {b : List Boolean} {w : List UInt32} (hb : Known n k b) (h : mkBlock b = some w) : Known n k w := by
  unfold mkBlock at h
  obtain ⟨ws, h1, h⟩ := Option.bind_eq_some_iff.1 h
  obtain ⟨us, h2, h⟩ := Option.bind_eq_some_iff.1 h
  cases h
  refine known_list_append (known_mapM ?_ (known_chunks hb h1) h2) (known_replicate known_constant _)
  intro a b ha hab
  exact known_fromBits (known_list_append ha (known_replicate trivial _)) hab

theorem known_mkBlocks {b : List Boolean} {w : List (List UInt32)} (hb : Known n k b) (h : mkBlocks b = some w) : Known n k w := by
  unfold mkBlocks at h
  obtain ⟨ws, h1, h⟩ := Option.bind_eq_some_iff.1 h
  obtain ⟨us, h2, h⟩ := Option.bind_eq_some_iff.1 h
  cases h
  split
  · exact known_list_cons (known_replicate known_constant _) known_list_nil
  · exact known_mapM (fun _ _ h => known_mkBlock h) (known_chunks hb h1) h2

theorem slocal_blockLoop (hn : 0 < n) (len i : ℕ) {h : List UInt32} {bs : List (List UInt32)} (hh : Known n k h) (hb : Known n k bs) :
    SLocal n k (blockLoop len i h bs : Synth F _) := by
  induction bs generalizing i h k with
  | nil => exact SLocal.panic
  | cons b bs ih =>
    cases bs with
    | nil => exact SLocal.inNs _ (slocal_compression hn _ _ hh (hb b (by simp)))
    | cons b' bs =>
      refine SLocal.bind (SLocal.inNs _ (slocal_compression hn _ _ hh (hb b (by simp)))) fun k1 c h1 hc => ?_
      exact ih (i + 1) hc (Known.lift (fun x hx => hb x (List.mem_cons_of_mem _ hx)) h1)

theorem slocal_blake2s (hn : 0 < n) {input : List Boolean} (p : List (BitVec 8)) (hi : Known n k input) :
    SLocal n k (blake2s input p : Synth F _) := by
  unfold blake2s
  split
  · split
    · dsimp only
      split
      · rename_i bs hbs
        refine SLocal.bind (slocal_blockLoop hn _ _ ?_ (known_mkBlocks hi hbs)) fun _ _ _ hr =>
          SLocal.pure (known_flatMap (fun _ h => h) hr)
        repeat (first | exact known_list_nil | refine known_list_cons known_constant ?_)
      · exact SLocal.panic
    · exact SLocal.panic
  · exact SLocal.panic

end Blake2s

end Bellman
