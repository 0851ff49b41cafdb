import Verif.Proofs.CancelMultiEq
import Verif.Proofs.ConPreimage

/-!
# SHA-256, the documentation example and cancelling coefficients
-/

namespace Bellman

open PrimeField UInt32

set_option linter.unusedSectionVars false

variable {F : Type} [PrimeField F] {n k k' : ℕ} {g g' : ℕ → Kind}

/-- A word in scope with safe bits. -/
structure KS (n k : ℕ) (g : ℕ → Kind) (u : UInt32) : Prop where
  known : Known n k u
  sw : SW g u

/-- A word in scope whose bits are written with the right sign. -/
structure KO (n k : ℕ) (g : ℕ → Kind) (u : UInt32) : Prop where
  known : Known n k u
  ow : OW g u

variable {u : UInt32}

theorem KS.ext (h : KS n k g u) (hk : k ≤ k') (e : Ext k g g') : KS n k' g' u := ⟨Known.lift h.1 hk, h.2.ext h.1 e⟩
theorem KO.ext (h : KO n k g u) (hk : k ≤ k') (e : Ext k g g') : KO n k' g' u := ⟨Known.lift h.1 hk, h.2.ext h.1 e⟩
theorem KS.ok (h : KS n k g u) : KO n k g u := ⟨h.1, h.2.ok⟩
theorem KS.rotr (h : KS n k g u) (i : ℕ) : KS n k g (u.rotr i) := ⟨known_rotr h.1 i, h.2.rotr i⟩
theorem KS.shr (h : KS n k g u) (i : ℕ) : KS n k g (u.shr i) := ⟨known_shr h.1 i, h.2.shr i⟩

theorem ks_known {l : List UInt32} (h : ∀ u ∈ l, KS n k g u) : Known n k l := fun u hu => (h u hu).1
theorem ko_known {l : List UInt32} (h : ∀ u ∈ l, KO n k g u) : Known n k l := fun u hu => (h u hu).1

/-- Two exclusive ors in a row, with whatever follows. -/
theorem MNC.xor3 {β : Type} {R : (ℕ → Kind) → β → Prop} (e e' : String) {a b c : UInt32} {f : UInt32 → MSynth F β} (ha : KS n k g a)
    (hb : KS n k g b) (hc : KS n k g c) (hf : ∀ k' g' r, k ≤ k' → Ext k g g' → KO n k' g' r → MNC n k' g' R (f r)) :
    MNC n k g R (MSynth.lift (Synth.inNs e (a.xor b)) >>= fun s => MSynth.lift (Synth.inNs e' (s.xor c)) >>= f) := by
  refine MNC.bind (mnc_xor1 e c ha.1 hb.1 ha.2 hb.2) (mlocal_xor e ha.1 hb.1) fun k1 g1 s h1 e1 hs q1 => ?_
  have hc1 := hc.ext h1 e1
  refine MNC.bind (mnc_xor2 e' hs hc1.1 q1 hc1.2) (mlocal_xor e' hs hc1.1) fun k2 g2 r h2 e2 hr q2 => ?_
  exact hf k2 g2 r (h1.trans h2) (e1.trans h1 e2) ⟨hr, q2⟩

theorem MNC.addBind {β : Type} {R : (ℕ → Kind) → β → Prop} (hn : 0 < n) (e : String) {l : List UInt32} {f : UInt32 → MSynth F β}
    (hl : ∀ u ∈ l, KO n k g u) (hf : ∀ k' g' r, k ≤ k' → Ext k g g' → KS n k' g' r → MNC n k' g' R (f r)) :
    MNC n k g R (MSynth.inNs e (addmany l) >>= f) :=
  MNC.bind (MNC.inNs e (mnc_addmany hn (ko_known hl) fun u hu => (hl u hu).2)) (MLocal.inNs _ (mlocal_addmany hn (ko_known hl)))
    fun k1 g1 r h1 e1 hr q1 => hf k1 g1 r h1 e1 ⟨hr, q1⟩

theorem MNC.indexBind {β : Type} {R : (ℕ → Kind) → β → Prop} {l : List UInt32} (i : ℕ) {f : UInt32 → MSynth F β}
    (hl : ∀ u ∈ l, KS n k g u) (hf : ∀ k' g' r, k ≤ k' → Ext k g g' → KS n k' g' r → MNC n k' g' R (f r)) :
    MNC n k g R (MSynth.index l i >>= f) :=
  MNC.bind (MNC.index (Q := fun g' u => SW g' u) i fun u hu => (hl u hu).2) (MLocal.index (ks_known hl) i)
    fun k1 g1 r h1 e1 hr q1 => hf k1 g1 r h1 e1 ⟨hr, q1⟩

namespace Sha256

theorem mnc_wStep (hn : 0 < n) (i : ℕ) {w : List UInt32} (hw : ∀ u ∈ w, KS n k g u) :
    MNC n k g (fun g' l => ∀ u ∈ l, SW g' u) (wStep i w : MSynth F _) := by
  refine MNC.inNs _ (MNC.indexBind _ hw fun k1 g1 w15 h1 e1 p1 => ?_)
  replace hw := fun u hu => (hw u hu).ext h1 e1
  refine MNC.xor3 _ _ (p1.rotr _) (p1.rotr _) (p1.shr _) fun k2 g2 s0 h2 e2 p2 => ?_
  replace hw := fun u hu => (hw u hu).ext h2 e2
  refine MNC.indexBind _ hw fun k3 g3 w2 h3 e3 p3 => ?_
  replace hw := fun u hu => (hw u hu).ext h3 e3
  replace p2 := p2.ext h3 e3
  refine MNC.xor3 _ _ (p3.rotr _) (p3.rotr _) (p3.shr _) fun k4 g4 s1 h4 e4 p4 => ?_
  replace hw := fun u hu => (hw u hu).ext h4 e4
  replace p2 := p2.ext h4 e4
  refine MNC.indexBind _ hw fun k5 g5 w16 h5 e5 p5 => ?_
  replace hw := fun u hu => (hw u hu).ext h5 e5
  replace p2 := p2.ext h5 e5
  replace p4 := p4.ext h5 e5
  refine MNC.indexBind _ hw fun k6 g6 w7 h6 e6 p6 => ?_
  replace hw := fun u hu => (hw u hu).ext h6 e6
  replace p2 := p2.ext h6 e6
  replace p4 := p4.ext h6 e6
  replace p5 := p5.ext h6 e6
  refine MNC.addBind hn _ ?_ fun k7 g7 t h7 e7 p7 => MNC.pure ?_
  · intro u hu
    simp only [List.mem_cons, List.not_mem_nil, or_false] at hu
    rcases hu with rfl | rfl | rfl | rfl
    · exact p5.ok
    · exact p2
    · exact p6.ok
    · exact p4
  · intro u hu
    rcases List.mem_append.1 hu with hu | hu
    · exact ((hw u hu).ext h7 e7).2
    · rw [List.mem_singleton] at hu
      subst hu
      exact p7.2

theorem mnc_wLoop (hn : 0 < n) (m i : ℕ) {w : List UInt32} (hw : ∀ u ∈ w, KS n k g u) :
    MNC n k g (fun g' l => ∀ u ∈ l, SW g' u) (wLoop m i w : MSynth F _) := by
  induction m generalizing i w k g with
  | zero => exact MNC.pure fun u hu => (hw u hu).2
  | succ m ih =>
    exact MNC.bind (mnc_wStep hn i hw) (mlocal_wStep hn i (ks_known hw)) fun k1 g1 w h1 e1 hw q1 => ih (i + 1) fun u hu => ⟨hw u hu, q1 u hu⟩

/-- A concrete word is safe, the operands of a deferred sum have the right signs. -/
def Maybe.Ok (g : ℕ → Kind) : Maybe → Prop
  | .concrete v => SW g v
  | .deferred l => ∀ u ∈ l, OW g u

/-- The parts of the state are as they should be. -/
structure St.Ok (n k : ℕ) (γ : ℕ → Kind) (s : St) : Prop where
  known : Known n k s
  a : s.a.Ok γ
  b : SW γ s.b
  c : SW γ s.c
  d : SW γ s.d
  e : s.e.Ok γ
  f : SW γ s.f
  g : SW γ s.g
  h : SW γ s.h

theorem Maybe.Ok.ext {m : Maybe} (h : m.Ok g) (hk : Known n k m) (e : Ext k g g') : m.Ok g' := by
  cases m with
  | deferred l => exact fun u hu => (h u hu).ext (hk u hu) e
  | concrete v => exact SW.ext h hk e

theorem mnc_compute (hn : 0 < n) {m : Maybe} {o : List UInt32} (hm : Known n k m) (gm : m.Ok g) (ho : ∀ u ∈ o, KS n k g u) :
    MNC n k g (fun g' r => SW g' r) (m.compute o : MSynth F _) := by
  cases m with
  | deferred v =>
    refine mnc_addmany hn (known_list_append hm (ks_known ho)) fun u hu => ?_
    rcases List.mem_append.1 hu with hu | hu
    · exact gm u hu
    · exact (ho u hu).2.ok
  | concrete v => exact MNC.pure gm

theorem MNC.computeBind {β : Type} {R : (ℕ → Kind) → β → Prop} (hn : 0 < n) (e : String) {m : Maybe} {o : List UInt32}
    {f : UInt32 → MSynth F β} (hm : Known n k m) (gm : m.Ok g) (ho : ∀ u ∈ o, KS n k g u)
    (hf : ∀ k' g' r, k ≤ k' → Ext k g g' → KS n k' g' r → MNC n k' g' R (f r)) :
    MNC n k g R (MSynth.inNs e (m.compute o) >>= f) :=
  MNC.bind (MNC.inNs e (mnc_compute hn hm gm ho)) (MLocal.inNs _ (mlocal_compute hn hm (ks_known ho)))
    fun k1 g1 r h1 e1 hr q1 => hf k1 g1 r h1 e1 ⟨hr, q1⟩

theorem mnc_round (hn : 0 < n) {w : List UInt32} (i : ℕ) {s : St} (hw : ∀ u ∈ w, KS n k g u) (hs : s.Ok n k g) :
    MNC n k g (fun g' s' => s'.a.Ok g' ∧ SW g' s'.b ∧ SW g' s'.c ∧ SW g' s'.d ∧ s'.e.Ok g' ∧ SW g' s'.f ∧ SW g' s'.g ∧ SW g' s'.h)
      (round w i s : MSynth F _) := by
  obtain ⟨⟨ka, kb, kc, kd, ke, kf, kg, kh⟩, ga, gb, gc, gd, ge, gf, gg, gh⟩ := hs
  have hb : KS n k g s.b := ⟨kb, gb⟩
  have hc : KS n k g s.c := ⟨kc, gc⟩
  have hd : KS n k g s.d := ⟨kd, gd⟩
  have hf : KS n k g s.f := ⟨kf, gf⟩
  have hg : KS n k g s.g := ⟨kg, gg⟩
  have hh : KS n k g s.h := ⟨kh, gh⟩
  clear kb kc kd kf kg kh gb gc gd gf gg gh
  refine MNC.inNs _ (MNC.computeBind hn _ ke ge (fun u hu => by cases hu) fun k1 g1 ne h1 e1 p1 => ?_)
  refine MNC.xor3 _ _ (p1.rotr _) (p1.rotr _) (p1.rotr _) fun k2 g2 s1 h2 e2 p2 => ?_
  have E2 : Ext k g g2 := e1.trans h1 e2
  replace p1 := p1.ext h2 e2
  have f2 := hf.ext (h1.trans h2) E2
  have g2' := hg.ext (h1.trans h2) E2
  refine MNC.bind (MNC.lift (SNC.inNs _ (snc_sha256Ch hn p1.1 f2.1 g2'.1 p1.2 f2.2 g2'.2)))
    (MLocal.lift (SLocal.inNs _ (slocal_sha256Ch hn p1.1 f2.1 g2'.1))) fun k3 g3 ch h3 e3 kch q3 => ?_
  have p3 : KO n k3 g3 ch := ⟨kch, q3⟩
  have E3 : Ext k g g3 := E2.trans (h1.trans h2) e3
  replace p1 := p1.ext h3 e3
  replace p2 := p2.ext h3 e3
  refine MNC.bind (MNC.index (Q := fun _ _ => True) _ fun _ _ => trivial) (MLocal.index (fun _ _ => trivial) _) fun k4 g4 kc h4 e4 _ _ => ?_
  have E4 : Ext k g g4 := E3.trans (by omega) e4
  replace p1 := p1.ext h4 e4
  replace p2 := p2.ext h4 e4
  replace p3 := p3.ext h4 e4
  refine MNC.indexBind _ (fun u hu => (hw u hu).ext (show k ≤ k4 by omega) E4) fun k5 g5 wi h5 e5 p5 => ?_
  have E5 : Ext k g g5 := E4.trans (by omega) e5
  replace p1 := p1.ext h5 e5
  replace p2 := p2.ext h5 e5
  replace p3 := p3.ext h5 e5
  refine MNC.computeBind hn _ (Known.lift ka (show k ≤ k5 by omega)) (ga.ext ka E5) (fun u hu => by cases hu) fun k6 g6 na h6 e6 p6 => ?_
  have E6 : Ext k g g6 := E5.trans (by omega) e6
  replace p1 := p1.ext h6 e6
  replace p2 := p2.ext h6 e6
  replace p3 := p3.ext h6 e6
  replace p5 := p5.ext h6 e6
  refine MNC.xor3 _ _ (p6.rotr _) (p6.rotr _) (p6.rotr _) fun k7 g7 s0 h7 e7 p7 => ?_
  have E7 : Ext k g g7 := E6.trans (by omega) e7
  replace p1 := p1.ext h7 e7
  replace p2 := p2.ext h7 e7
  replace p3 := p3.ext h7 e7
  replace p5 := p5.ext h7 e7
  replace p6 := p6.ext h7 e7
  have b7 := hb.ext (show k ≤ k7 by omega) E7
  have c7 := hc.ext (show k ≤ k7 by omega) E7
  refine MNC.bind (MNC.lift (SNC.inNs _ (snc_sha256Maj hn p6.1 b7.1 c7.1 p6.2 b7.2 c7.2)))
    (MLocal.lift (SLocal.inNs _ (slocal_sha256Maj hn p6.1 b7.1 c7.1))) fun k8 g8 maj h8 e8 kmaj q8 => ?_
  have E8 : Ext k g g8 := E7.trans (by omega) e8
  have t1 : ∀ u ∈ [s.h, s1, ch, UInt32.constant kc, wi], OW g8 u := by
    intro u hu
    simp only [List.mem_cons, List.not_mem_nil, or_false] at hu
    rcases hu with rfl | rfl | rfl | rfl | rfl
    · exact (hh.ext (show k ≤ k8 by omega) E8).2.ok
    · exact (p2.ext h8 e8).2
    · exact (p3.ext h8 e8).2
    · exact (sw_constant _).ok
    · exact (p5.ext h8 e8).2.ok
  refine MNC.pure ⟨?_, (p6.ext h8 e8).2, (b7.ext h8 e8).2, (c7.ext h8 e8).2, ?_, (p1.ext h8 e8).2, (hf.ext (show k ≤ k8 by omega) E8).2,
    (hg.ext (show k ≤ k8 by omega) E8).2⟩
  · intro u hu
    rcases List.mem_append.1 hu with hu | hu
    · exact t1 u hu
    · simp only [List.mem_cons, List.not_mem_nil, or_false] at hu
      rcases hu with rfl | rfl
      · exact (p7.ext h8 e8).2
      · exact q8
  · intro u hu
    rcases List.mem_append.1 hu with hu | hu
    · exact t1 u hu
    · rw [List.mem_singleton] at hu
      subst hu
      exact (hd.ext (show k ≤ k8 by omega) E8).2.ok

theorem mnc_rounds (hn : 0 < n) {w : List UInt32} (m i : ℕ) {s : St} (hw : ∀ u ∈ w, KS n k g u) (hs : s.Ok n k g) :
    MNC n k g (fun g' s' => s'.a.Ok g' ∧ SW g' s'.b ∧ SW g' s'.c ∧ SW g' s'.d ∧ s'.e.Ok g' ∧ SW g' s'.f ∧ SW g' s'.g ∧ SW g' s'.h)
      (rounds w m i s : MSynth F _) := by
  induction m generalizing i s k g with
  | zero => exact MNC.pure ⟨hs.a, hs.b, hs.c, hs.d, hs.e, hs.f, hs.g, hs.h⟩
  | succ m ih =>
    refine MNC.bind (mnc_round hn i hw hs) (mlocal_round hn i (ks_known hw) hs.known) fun k1 g1 s h1 e1 ks q => ?_
    obtain ⟨qa, qb, qc, qd, qe, qf, qg, qh⟩ := q
    exact ih (i + 1) (fun u hu => (hw u hu).ext h1 e1) ⟨ks, qa, qb, qc, qd, qe, qf, qg, qh⟩

theorem mnc_compressionBody (hn : 0 < n) {w : List UInt32} (hw : ∀ u ∈ w, KS n k g u) {h0 h1 h2 h3 h4 h5 h6 h7 : UInt32} (k0 : KS n k g h0)
    (k1 : KS n k g h1) (k2 : KS n k g h2) (k3 : KS n k g h3) (k4 : KS n k g h4) (k5 : KS n k g h5) (k6 : KS n k g h6) (k7 : KS n k g h7) :
    MNC n k g (fun g' l => ∀ u ∈ l, SW g' u) (compressionBody w h0 h1 h2 h3 h4 h5 h6 h7 : MSynth F _) := by
  refine MNC.bind (mnc_wLoop hn _ _ hw) (mlocal_wLoop hn _ _ (ks_known hw)) fun ka ga w la ea kw qw => ?_
  replace hw : ∀ u ∈ w, KS n ka ga u := fun u hu => ⟨kw u hu, qw u hu⟩
  replace k0 := k0.ext la ea
  replace k1 := k1.ext la ea
  replace k2 := k2.ext la ea
  replace k3 := k3.ext la ea
  replace k4 := k4.ext la ea
  replace k5 := k5.ext la ea
  replace k6 := k6.ext la ea
  replace k7 := k7.ext la ea
  split
  · have hst : (⟨.concrete h0, h1, h2, h3, .concrete h4, h5, h6, h7⟩ : St).Ok n ka ga :=
      ⟨⟨k0.1, k1.1, k2.1, k3.1, k4.1, k5.1, k6.1, k7.1⟩, k0.2, k1.2, k2.2, k3.2, k4.2, k5.2, k6.2, k7.2⟩
    refine MNC.bind (mnc_rounds hn _ _ hw hst) (mlocal_rounds hn _ _ kw hst.known) fun kb gb s lb eb ks q => ?_
    obtain ⟨sa, sb, sc, sd, se, sf, sg, sh⟩ := ks
    obtain ⟨qa, qb, qc, qd, qe, qf, qg, qh⟩ := q
    replace k0 := k0.ext lb eb
    replace k1 := k1.ext lb eb
    replace k2 := k2.ext lb eb
    replace k3 := k3.ext lb eb
    replace k4 := k4.ext lb eb
    replace k5 := k5.ext lb eb
    replace k6 := k6.ext lb eb
    replace k7 := k7.ext lb eb
    have rb : KS n kb gb s.b := ⟨sb, qb⟩
    have rc : KS n kb gb s.c := ⟨sc, qc⟩
    have rd : KS n kb gb s.d := ⟨sd, qd⟩
    have rf : KS n kb gb s.f := ⟨sf, qf⟩
    have rg : KS n kb gb s.g := ⟨sg, qg⟩
    have rh : KS n kb gb s.h := ⟨sh, qh⟩
    have two : ∀ {k g} {x y : UInt32}, KS n k g x → KS n k g y → ∀ u ∈ [x, y], KO n k g u := by
      intro k g x y hx hy u hu
      simp only [List.mem_cons, List.not_mem_nil, or_false] at hu
      rcases hu with rfl | rfl
      · exact hx.ok
      · exact hy.ok
    have single : ∀ {k g} {x : UInt32}, KS n k g x → ∀ u ∈ [x], KS n k g u := by
      intro k g x hx u hu
      rw [List.mem_singleton] at hu
      subst hu
      exact hx
    refine MNC.computeBind hn _ sa qa (single k0) fun m0 g0 n0 l0 e0 p0 => ?_
    refine MNC.addBind hn _ (two (k1.ext l0 e0) (rb.ext l0 e0)) fun m1 g1 n1 l1 e1 p1 => ?_
    have E1 := e0.trans l0 e1
    refine MNC.addBind hn _ (two (k2.ext (show kb ≤ m1 by omega) E1) (rc.ext (show kb ≤ m1 by omega) E1)) fun m2 g2 n2 l2 e2 p2 => ?_
    have E2 := E1.trans (show kb ≤ m1 by omega) e2
    refine MNC.addBind hn _ (two (k3.ext (show kb ≤ m2 by omega) E2) (rd.ext (show kb ≤ m2 by omega) E2)) fun m3 g3 n3 l3 e3 p3 => ?_
    have E3 := E2.trans (show kb ≤ m2 by omega) e3
    refine MNC.computeBind hn _ (Known.lift se (show kb ≤ m3 by omega)) (qe.ext se E3) (single (k4.ext (show kb ≤ m3 by omega) E3))
      fun m4 g4 n4 l4 e4 p4 => ?_
    have E4 := E3.trans (show kb ≤ m3 by omega) e4
    refine MNC.addBind hn _ (two (k5.ext (show kb ≤ m4 by omega) E4) (rf.ext (show kb ≤ m4 by omega) E4)) fun m5 g5 n5 l5 e5 p5 => ?_
    have E5 := E4.trans (show kb ≤ m4 by omega) e5
    refine MNC.addBind hn _ (two (k6.ext (show kb ≤ m5 by omega) E5) (rg.ext (show kb ≤ m5 by omega) E5)) fun m6 g6 n6 l6 e6 p6 => ?_
    have E6 := E5.trans (show kb ≤ m5 by omega) e6
    refine MNC.addBind hn _ (two (k7.ext (show kb ≤ m6 by omega) E6) (rh.ext (show kb ≤ m6 by omega) E6)) fun m7 g7 n7 l7 e7 p7 => MNC.pure ?_
    intro u hu
    simp only [List.mem_cons, List.not_mem_nil, or_false] at hu
    rcases hu with rfl | rfl | rfl | rfl | rfl | rfl | rfl | rfl
    · exact (((((((p0.ext l1 e1).ext l2 e2).ext l3 e3).ext l4 e4).ext l5 e5).ext l6 e6).ext l7 e7).2
    · exact ((((((p1.ext l2 e2).ext l3 e3).ext l4 e4).ext l5 e5).ext l6 e6).ext l7 e7).2
    · exact (((((p2.ext l3 e3).ext l4 e4).ext l5 e5).ext l6 e6).ext l7 e7).2
    · exact ((((p3.ext l4 e4).ext l5 e5).ext l6 e6).ext l7 e7).2
    · exact (((p4.ext l5 e5).ext l6 e6).ext l7 e7).2
    · exact ((p5.ext l6 e6).ext l7 e7).2
    · exact (p6.ext l7 e7).2
    · exact p7.2
  · exact MNC.panic

theorem mem_chunks {α : Type} {c : ℕ} {l : List α} {ll : List (List α)} (h : chunks? c l = some ll) {x : List α} (hx : x ∈ ll) {y : α}
    (hy : y ∈ x) : y ∈ l := by
  unfold chunks? at h
  split at h
  · cases h
  · rename_i hc
    cases h
    rw [← chunksAux_flatten c (by omega) l.length l le_rfl]
    exact List.mem_flatten.2 ⟨x, hx, hy⟩

theorem mem_mapM {α β : Type} {f : α → Option β} {l : List α} {l' : List β} (h : l.mapM f = some l') {y : β} (hy : y ∈ l') :
    ∃ x ∈ l, f x = some y := by
  induction l generalizing l' with
  | nil => cases h; cases hy
  | cons a l ih =>
    rw [List.mapM_cons] at h
    obtain ⟨b, h1, h⟩ := Option.bind_eq_some_iff.1 h
    obtain ⟨bs, h2, h⟩ := Option.bind_eq_some_iff.1 h
    cases h
    rcases List.mem_cons.1 hy with rfl | hy
    · exact ⟨a, by simp, h1⟩
    · obtain ⟨x, hx, h3⟩ := ih h2 hy
      exact ⟨x, by simp [hx], h3⟩

theorem snc_compression (hn : 0 < n) {input : List Boolean} {cur : List UInt32} (hi : Known n k input) (gi : ∀ b ∈ input, SafeB g b)
    (hc : ∀ u ∈ cur, KS n k g u) : SNC n k g (fun g' l => ∀ u ∈ l, SW g' u) (compression input cur : Synth F _) := by
  unfold compression
  split
  · split
    · split
      · rename_i w hw
        obtain ⟨cs, h1, h2⟩ := Option.bind_eq_some_iff.1 hw
        have kw : Known n k w := known_mapM (fun _ _ h => known_fromBitsBe h) (known_chunks hi h1) h2
        refine MNC.withMultiEq (mnc_compressionBody hn (fun u hu => ⟨kw u hu, ?_⟩) ?_ ?_ ?_ ?_ ?_ ?_ ?_ ?_)
          fun _ _ _ e h u hu => (h u hu).safer e
        · obtain ⟨x, hx, h3⟩ := mem_mapM h2 hu
          exact sw_fromBitsBe (fun b hb => gi b (mem_chunks h1 hx hb)) h3
        all_goals exact hc _ (by simp)
      · exact SNC.panic
    · exact SNC.panic
  · exact SNC.panic

theorem ks_iv : ∀ u ∈ iv, KS n k g u := by
  intro u hu
  refine ⟨known_iv u hu, ?_⟩
  obtain ⟨v, -, rfl⟩ := List.mem_map.1 (show u ∈ IV.map UInt32.constant from hu)
  exact sw_constant v

theorem safe_bits {l : List UInt32} (h : ∀ u ∈ l, SW g u) : ∀ b ∈ l.flatMap UInt32.intoBitsBe, SafeB g b := by
  intro b hb
  obtain ⟨u, hu, hb⟩ := List.mem_flatMap.1 hb
  exact (h u hu).2 b (List.mem_reverse.1 hb)

theorem snc_sha256BlockNoPadding (hn : 0 < n) {input : List Boolean} (hi : Known n k input) (gi : ∀ b ∈ input, SafeB g b) :
    SNC n k g (fun g' l => ∀ b ∈ l, SafeB g' b) (sha256BlockNoPadding input : Synth F _) := by
  unfold sha256BlockNoPadding
  split
  · exact SNC.map (f := fun r => List.flatMap UInt32.intoBitsBe r) ((snc_compression hn hi gi ks_iv).mono fun _ _ _ h => safe_bits h)
  · exact SNC.panic

theorem snc_blockLoop (hn : 0 < n) (i : ℕ) {cur : List UInt32} {bs : List (List Boolean)} (hc : ∀ u ∈ cur, KS n k g u) (hb : Known n k bs)
    (gb : ∀ x ∈ bs, ∀ b ∈ x, SafeB g b) : SNC n k g (fun g' l => ∀ u ∈ l, SW g' u) (blockLoop i cur bs : Synth F _) := by
  induction bs generalizing i cur k g with
  | nil => exact SNC.pure fun u hu => (hc u hu).2
  | cons b bs ih =>
    have hb' : Known n k b := hb b (by simp)
    refine SNC.bind (SNC.inNs _ (snc_compression hn hb' (gb b (by simp)) hc)) (SLocal.inNs _ (slocal_compression hn hb' (ks_known hc)))
      fun k1 g1 c h1 e1 kc q => ih (i + 1) (fun u hu => ⟨kc u hu, q u hu⟩) (Known.lift (fun x hx => hb x (by simp [hx])) h1) ?_
    intro x hx y hy
    exact (gb x (by simp [hx]) y hy).ext (hb x (by simp [hx]) y hy) e1

theorem safe_padZeros {l : List Boolean} (h : ∀ b ∈ l, SafeB g b) : ∀ b ∈ padZeros l, SafeB g b := by
  fun_induction padZeros l with
  | case1 => exact h
  | case2 l hl ih =>
    refine ih fun b hb => ?_
    rcases List.mem_append.1 hb with hb | hb
    · exact h b hb
    · rw [List.mem_singleton] at hb; subst hb; trivial

theorem safe_pad {l : List Boolean} (h : ∀ b ∈ l, SafeB g b) : ∀ b ∈ pad l, SafeB g b := by
  intro b hb
  rcases List.mem_append.1 (show b ∈ padZeros (l ++ [.constant true]) ++ _ from hb) with hb | hb
  · refine safe_padZeros (fun b hb => ?_) b hb
    rcases List.mem_append.1 hb with hb | hb
    · exact h b hb
    · rw [List.mem_singleton] at hb; subst hb; trivial
  · obtain ⟨v, -, rfl⟩ := List.mem_map.1 hb
    trivial

theorem snc_sha256 (hn : 0 < n) {input : List Boolean} (hi : Known n k input) (gi : ∀ b ∈ input, SafeB g b) :
    SNC n k g (fun g' l => ∀ b ∈ l, SafeB g' b) (sha256 input : Synth F _) := by
  unfold sha256
  split
  · dsimp only
    split
    · split
      · exact SNC.panic
      · rename_i bs hbs
        exact SNC.map (f := fun r => List.flatMap UInt32.intoBitsBe r) ((snc_blockLoop hn 0 ks_iv (known_chunks (known_pad hi) hbs)
          fun x hx b hb => safe_pad gi b (mem_chunks hbs hx hb)).mono fun _ _ _ h => safe_bits h)
    · exact SNC.panic
  · exact SNC.panic

end Sha256

/-! ### Packing -/

theorem packNum_writes {bits : List Boolean} {num : Num F} {c : F} (hb : ∀ b ∈ bits, SafeB g b) {j : ℕ}
    (h : (packNum num c bits).lcomb.Writes (.aux j)) : num.lcomb.Writes (.aux j) ∨ g j = .safe := by
  induction bits generalizing num c with
  | nil => exact .inl h
  | cons b bs ih =>
    rcases ih (fun x hx => hb x (by simp [hx])) h with h | h
    · rcases writes_addLC (show (num.lcomb + b.lc c).Writes _ from h) with h | h
      · exact .inl h
      · exact .inr ((hb b (by simp)).writes h)
    · exact .inr h

theorem snc_packChunks (i : ℕ) {l : List (List Boolean)} (h : ∀ x ∈ l, ∀ b ∈ x, SafeB g b) :
    SNC n k g (fun _ _ => True) (packChunks i l : Synth F _) := by
  induction l generalizing i n g with
  | nil => exact SNC.pure trivial
  | cons b l ih =>
    refine SNC.inputBind fun _ => SNC.enforceBind ⟨fun j hj => .inl ?_, fun x hx => coeff_var hx⟩
      (ih (i + 1) fun x hx y hy => (h x (by simp [hx]) y hy).safer (safer_hit _ _))
    rcases writes_addScaled (show ((LC.zero : LC F) + ((1 : F), (packNum (Num.zero : Num F) 1 b).lcomb)).Writes _ from hj) with hj | hj
    · exact (not_writes_zero hj).elim
    · rcases packNum_writes (h b (by simp)) hj with hj | hj
      · exact (not_writes_zero hj).elim
      · exact hj

theorem snc_packIntoInputs {l : List Boolean} (h : ∀ b ∈ l, SafeB g b) : SNC n k g (fun _ _ => True) (packIntoInputs l : Synth F _) := by
  unfold packIntoInputs
  split
  · exact SNC.panic
  · rename_i cs hcs
    exact snc_packChunks 0 fun x hx b hb => h b (Sha256.mem_chunks hcs hx hb)

/-! ### The documentation example -/

namespace Preimage

theorem mem_flipBytes {α : Type} {l : List α} {x : α} (h : x ∈ flipBytes l) : x ∈ l := by
  unfold flipBytes at h
  cases hc : chunks? 8 l with
  | none => rw [hc] at h; cases h
  | some cs =>
    rw [hc] at h
    obtain ⟨c, h1, h2⟩ := List.mem_flatMap.1 h
    exact Sha256.mem_chunks hc h1 (List.mem_reverse.1 h2)

theorem snc_allocPreimage (hn : 0 < n) (i : ℕ) (vs : List (Option Bool)) :
    SNC n k g (fun g' l => ∀ b ∈ l, SafeB g' b) (allocPreimage i vs : Synth F _) := by
  induction vs generalizing i k g with
  | nil => exact SNC.pure fun b hb => by cases hb
  | cons v vs ih =>
    refine SNC.bind (SNC.inNs _ (AllocatedBit.snc_alloc v)) (SLocal.inNs _ (AllocatedBit.slocal_alloc hn v)) fun k1 g1 a h1 e1 ha q1 => ?_
    refine SNC.bind (ih (i + 1)) (slocal_allocPreimage hn _ _) fun k2 g2 l h2 e2 hl q2 => SNC.pure fun b hb => ?_
    rcases List.mem_cons.1 hb with rfl | hb
    · exact SafeB.ext (b := .is a) q1 ha e2
    · exact q2 b hb

theorem snc_sha256d (hn : 0 < n) {data : List Boolean} (h : Known n k data) (gd : ∀ b ∈ data, SafeB g b) :
    SNC n k g (fun g' l => ∀ b ∈ l, SafeB g' b) (sha256d data : Synth F _) := by
  refine SNC.bind (SNC.inNs _ (Sha256.snc_sha256 hn (known_flipBytes h) fun b hb => gd b (mem_flipBytes hb)))
    (SLocal.inNs _ (Sha256.slocal_sha256 hn (known_flipBytes h))) fun k1 g1 a h1 e1 ha q1 => ?_
  exact SNC.map (f := flipBytes) ((SNC.inNs _ (Sha256.snc_sha256 hn ha q1)).mono fun _ _ _ h b hb => h b (mem_flipBytes hb))

theorem snc_synthesize (c : MyCircuit) : SNC 1 0 g (fun _ _ => True) (c.synthesize : Synth F _) := by
  unfold MyCircuit.synthesize
  dsimp only
  split
  · refine SNC.bind (snc_allocPreimage one_pos 0 c.bitValues) (slocal_allocPreimage one_pos _ _) fun k1 g1 bits h1 e1 hk q1 => ?_
    refine SNC.bind (SNC.inNs _ (snc_sha256d one_pos hk q1)) (SLocal.inNs _ (slocal_sha256d one_pos hk)) fun k2 g2 hash h2 e2 hh q2 => ?_
    exact SNC.inNs _ (snc_packIntoInputs q2)
  · exact SNC.panic

end Preimage

end Bellman
