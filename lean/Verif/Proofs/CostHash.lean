import Verif.Proofs.Cost
import Verif.Proofs.Bytes

/-!
# The counting interpreter is right: SHA-256 and BLAKE2s
-/

namespace Bellman.Cost

open PrimeField List

set_option linter.unusedSectionVars false

variable {F : Type} [PrimeField F] {cap : ℕ}

namespace Sha256

theorem ms_wStep (hc : CAPACITY F = cap) (i : ℕ) {w : List UInt32} {x : List AW} (h : Forall₂ AW.Fits w x) :
    MS (F := F) (Bellman.Sha256.wStep i w) (wStep cap i x) (Forall₂ AW.Fits) := by
  unfold Bellman.Sha256.wStep wStep
  refine MS.inNs _ ?_
  refine (MS.index h _).bind fun w15 x15 h15 => ?_
  refine (MS.lift (SS.inNs _ (ss_xorW (h15.rotr 7) (h15.rotr 18)))).bind fun s0 y0 hs0 => ?_
  refine (MS.lift (SS.inNs _ (ss_xorW hs0 (h15.shr 3)))).bind fun s0 y0 hs0 => ?_
  refine (MS.index h _).bind fun w2 x2 h2 => ?_
  refine (MS.lift (SS.inNs _ (ss_xorW (h2.rotr 17) (h2.rotr 19)))).bind fun s1 y1 hs1 => ?_
  refine (MS.lift (SS.inNs _ (ss_xorW hs1 (h2.shr 10)))).bind fun s1 y1 hs1 => ?_
  refine (MS.index h _).bind fun w16 x16 h16 => ?_
  refine (MS.index h _).bind fun w7 x7 h7 => ?_
  refine (MS.inNs _ (ms_addmany hc (.cons h16 (.cons hs0 (.cons h7 (.cons hs1 .nil)))))).bind fun u x hu => ?_
  exact MS.pure (rel_append h (.cons hu .nil))

theorem ms_wLoop (hc : CAPACITY F = cap) (n i : ℕ) {w : List UInt32} {x : List AW} (h : Forall₂ AW.Fits w x) :
    MS (F := F) (Bellman.Sha256.wLoop n i w) (wLoop cap n i x) (Forall₂ AW.Fits) := by
  induction n generalizing i w x with
  | zero => exact MS.pure h
  | succ n ih => exact (ms_wStep hc i h).bind fun w x h => ih (i + 1) h

/-- What is said of a deferred computation is true. -/
def MaybeFits : Bellman.Sha256.Maybe → AMaybe → Prop
  | .deferred v, .deferred x => Forall₂ AW.Fits v x
  | .concrete v, .concrete x => AW.Fits v x
  | _, _ => False

theorem ms_compute (hc : CAPACITY F = cap) {m : Bellman.Sha256.Maybe} {a : AMaybe} (h : MaybeFits m a) {o : List UInt32} {x : List AW}
    (ho : Forall₂ AW.Fits o x) : MS (F := F) (m.compute o) (a.compute cap x) AW.Fits := by
  cases m with
  | deferred v => cases a with
    | deferred y => exact ms_addmany hc (rel_append h ho)
    | concrete y => exact h.elim
  | concrete v => cases a with
    | deferred y => exact h.elim
    | concrete y => exact MS.pure h

/-- What is said of the state is true. -/
structure StFits (s : Bellman.Sha256.St) (x : ASt) : Prop where
  a : MaybeFits s.a x.a
  b : AW.Fits s.b x.b
  c : AW.Fits s.c x.c
  d : AW.Fits s.d x.d
  e : MaybeFits s.e x.e
  f : AW.Fits s.f x.f
  g : AW.Fits s.g x.g
  h : AW.Fits s.h x.h

theorem ms_round (hc : CAPACITY F = cap) {w : List UInt32} {x : List AW} (hw : Forall₂ AW.Fits w x) (i : ℕ) {s : Bellman.Sha256.St} {y : ASt}
    (hs : StFits s y) : MS (F := F) (Bellman.Sha256.round w i s) (round cap x i y) StFits := by
  unfold Bellman.Sha256.round round
  refine MS.inNs _ ?_
  refine (MS.inNs _ (ms_compute hc hs.e .nil)).bind fun e xe he => ?_
  refine (MS.lift (SS.inNs _ (ss_xorW (he.rotr 6) (he.rotr 11)))).bind fun s1 y1 hs1 => ?_
  refine (MS.lift (SS.inNs _ (ss_xorW hs1 (he.rotr 25)))).bind fun s1 y1 hs1 => ?_
  refine (MS.lift (SS.inNs _ (ss_chW he hs.f hs.g))).bind fun ch xch hch => ?_
  refine (MS.index (R := Eq) (forall₂_same.2 fun _ _ => rfl) i).bind fun k k' hk => ?_
  subst hk
  refine (MS.index hw i).bind fun wi xi hwi => ?_
  refine (MS.inNs _ (ms_compute hc hs.a .nil)).bind fun a xa ha => ?_
  refine (MS.lift (SS.inNs _ (ss_xorW (ha.rotr 2) (ha.rotr 13)))).bind fun s0 y0 hs0 => ?_
  refine (MS.lift (SS.inNs _ (ss_xorW hs0 (ha.rotr 22)))).bind fun s0 y0 hs0 => ?_
  refine (MS.lift (SS.inNs _ (ss_majW ha hs.b hs.c))).bind fun maj xmaj hmaj => ?_
  have ht : Forall₂ AW.Fits [s.h, s1, ch, UInt32.constant k, wi] [y.h, y1, xch, .lit k, xi] :=
    .cons hs.h (.cons hs1 (.cons hch (.cons rfl (.cons hwi .nil))))
  exact MS.pure ⟨rel_append ht (.cons hs0 (.cons hmaj .nil)), ha, hs.b, hs.c, rel_append ht (.cons hs.d .nil), he, hs.f, hs.g⟩

theorem ms_rounds (hc : CAPACITY F = cap) {w : List UInt32} {x : List AW} (hw : Forall₂ AW.Fits w x) (n i : ℕ) {s : Bellman.Sha256.St} {y : ASt}
    (hs : StFits s y) : MS (F := F) (Bellman.Sha256.rounds w n i s) (rounds cap x n i y) StFits := by
  induction n generalizing i s y with
  | zero => exact MS.pure hs
  | succ n ih => exact (ms_round hc hw i hs).bind fun s y hs => ih (i + 1) hs

theorem ms_compressionBody (hc : CAPACITY F = cap) {w : List UInt32} {x : List AW} (hw : Forall₂ AW.Fits w x) {h0 h1 h2 h3 h4 h5 h6 h7 : UInt32}
    {x0 x1 x2 x3 x4 x5 x6 x7 : AW} (g0 : AW.Fits h0 x0) (g1 : AW.Fits h1 x1) (g2 : AW.Fits h2 x2) (g3 : AW.Fits h3 x3)
    (g4 : AW.Fits h4 x4) (g5 : AW.Fits h5 x5) (g6 : AW.Fits h6 x6) (g7 : AW.Fits h7 x7) :
    MS (F := F) (Bellman.Sha256.compressionBody w h0 h1 h2 h3 h4 h5 h6 h7) (compressionBody cap x x0 x1 x2 x3 x4 x5 x6 x7) (Forall₂ AW.Fits) := by
  unfold Bellman.Sha256.compressionBody compressionBody
  refine (ms_wLoop hc _ _ hw).bind fun w x hw => ?_
  split
  · refine (ms_rounds hc hw 64 0 (s := ⟨.concrete h0, h1, h2, h3, .concrete h4, h5, h6, h7⟩) (y := ⟨.concrete x0, x1, x2, x3, .concrete x4, x5, x6, x7⟩) ⟨g0, g1, g2, g3, g4, g5, g6, g7⟩).bind
      fun s y hs => ?_
    refine (MS.inNs _ (ms_compute hc hs.a (.cons g0 .nil))).bind fun n0 y0 k0 => ?_
    refine (MS.inNs _ (ms_addmany hc (.cons g1 (.cons hs.b .nil)))).bind fun n1 y1 k1 => ?_
    refine (MS.inNs _ (ms_addmany hc (.cons g2 (.cons hs.c .nil)))).bind fun n2 y2 k2 => ?_
    refine (MS.inNs _ (ms_addmany hc (.cons g3 (.cons hs.d .nil)))).bind fun n3 y3 k3 => ?_
    refine (MS.inNs _ (ms_compute hc hs.e (.cons g4 .nil))).bind fun n4 y4 k4 => ?_
    refine (MS.inNs _ (ms_addmany hc (.cons g5 (.cons hs.f .nil)))).bind fun n5 y5 k5 => ?_
    refine (MS.inNs _ (ms_addmany hc (.cons g6 (.cons hs.g .nil)))).bind fun n6 y6 k6 => ?_
    refine (MS.inNs _ (ms_addmany hc (.cons g7 (.cons hs.h .nil)))).bind fun n7 y7 k7 => ?_
    exact MS.pure (.cons k0 (.cons k1 (.cons k2 (.cons k3 (.cons k4 (.cons k5 (.cons k6 (.cons k7 .nil))))))))
  · exact MS.panic

theorem fits_words {input : List Boolean} {l : List AB} (h : Forall₂ AB.Fits input l) {w : List UInt32}
    (hw : (chunks? 32 input).bind (fun cs => cs.mapM UInt32.fromBitsBe) = some w) : Forall₂ AW.Fits w (words l) := by
  simp only [chunks?, if_neg (by norm_num : (32 : ℕ) ≠ 0), Option.bind_some] at hw
  have h2 := Bellman.Sha256.chunksAux_rel 32 input.length h
  unfold words
  rw [← h.length_eq]
  generalize chunksAux 32 input.length input = cs at hw h2
  generalize chunksAux 32 input.length l = ds at h2
  have h3 := Bellman.Sha256.mapM_some hw
  clear hw h
  induction h2 generalizing w with
  | nil => cases h3; exact .nil
  | cons h1 _ ih =>
    cases h3 with
    | cons e h3 =>
      rw [UInt32.fromBitsBe_eq] at e
      exact .cons (fits_wordOf (forall₂_reverse_iff.2 h1) e) (ih h3)

theorem ss_compression (hc : CAPACITY F = cap) {input : List Boolean} {l : List AB} (h : Forall₂ AB.Fits input l) {cur : List UInt32}
    {x : List AW} (hx : Forall₂ AW.Fits cur x) :
    SS (F := F) (Bellman.Sha256.compression input cur) (compression cap (words l) x) (Forall₂ AW.Fits) := by
  unfold Bellman.Sha256.compression
  split
  · split
    · rename_i h0 h1 h2 h3 h4 h5 h6 h7
      split
      · rename_i w hw
        obtain ⟨x0, x1, x2, x3, x4, x5, x6, x7, rfl, g0, g1, g2, g3, g4, g5, g6, g7⟩ := Bellman.Sha256.list8' hx.flip
        exact MS.withMultiEq (ms_compressionBody hc (fits_words h hw) g0 g1 g2 g3 g4 g5 g6 g7)
      · exact SS.panic
    · exact SS.panic
  · exact SS.panic

end Sha256

namespace Blake2s

theorem ms_mixAdd3 (hc : CAPACITY F = cap) (s : String) {v : List UInt32} {x : List AW} (h : Forall₂ AW.Fits v x) (a b : ℕ) {u : UInt32}
    {y : AW} (hu : AW.Fits u y) : MS (F := F) (Bellman.Blake2s.mixAdd3 s v a b u) (mixAdd3 cap x a b y) (Forall₂ AW.Fits) :=
  (MS.index h _).bind fun _ _ ha => (MS.index h _).bind fun _ _ hb =>
    (MS.inNs _ (ms_addmany hc (.cons ha (.cons hb (.cons hu .nil))))).bind fun _ _ ht => MS.pure (rel_set h _ ht)

theorem ms_mixAdd2 (hc : CAPACITY F = cap) (s : String) {v : List UInt32} {x : List AW} (h : Forall₂ AW.Fits v x) (a b : ℕ) :
    MS (F := F) (Bellman.Blake2s.mixAdd2 s v a b) (mixAdd2 cap x a b) (Forall₂ AW.Fits) :=
  (MS.index h _).bind fun _ _ ha => (MS.index h _).bind fun _ _ hb =>
    (MS.inNs _ (ms_addmany hc (.cons ha (.cons hb .nil)))).bind fun _ _ ht => MS.pure (rel_set h _ ht)

theorem ms_mixXor (s : String) {v : List UInt32} {x : List AW} (h : Forall₂ AW.Fits v x) (d a r : ℕ) :
    MS (F := F) (Bellman.Blake2s.mixXor s v d a r) (mixXor x d a r) (Forall₂ AW.Fits) :=
  (MS.index h _).bind fun _ _ ha => (MS.index h _).bind fun _ _ hb =>
    (MS.lift (SS.inNs _ (ss_xorW ha hb))).bind fun _ _ ht => MS.pure (rel_set h _ (ht.rotr r))

theorem ms_mixingG (hc : CAPACITY F = cap) {v : List UInt32} {x : List AW} (h : Forall₂ AW.Fits v x) (a b c d : ℕ) {u w : UInt32}
    {y z : AW} (hu : AW.Fits u y) (hw : AW.Fits w z) :
    MS (F := F) (Bellman.Blake2s.mixingG v a b c d u w) (mixingG cap x a b c d y z) (Forall₂ AW.Fits) :=
  (ms_mixAdd3 hc _ h a b hu).bind fun _ _ h => (ms_mixXor _ h d a _).bind fun _ _ h => (ms_mixAdd2 hc _ h c d).bind fun _ _ h =>
    (ms_mixXor _ h b c _).bind fun _ _ h => (ms_mixAdd3 hc _ h a b hw).bind fun _ _ h => (ms_mixXor _ h d a _).bind fun _ _ h =>
    (ms_mixAdd2 hc _ h c d).bind fun _ _ h => ms_mixXor _ h b c _

theorem ms_mixCall (hc : CAPACITY F = cap) (n : String) {m : List UInt32} {y : List AW} (hm : Forall₂ AW.Fits m y) (s : List ℕ)
    (j a b c d : ℕ) {v : List UInt32} {x : List AW} (h : Forall₂ AW.Fits v x) :
    MS (F := F) (Bellman.Blake2s.mixCall n m s j a b c d v) (mixCall cap y s j a b c d x) (Forall₂ AW.Fits) := by
  refine (MS.index (R := Eq) (forall₂_same.2 fun _ _ => rfl) _).bind fun i i' hi => ?_
  subst hi
  refine (MS.index hm _).bind fun _ _ h1 => ?_
  refine (MS.index (R := Eq) (forall₂_same.2 fun _ _ => rfl) _).bind fun i i' hi => ?_
  subst hi
  refine (MS.index hm _).bind fun _ _ h2 => ?_
  exact MS.inNs _ (ms_mixingG hc h a b c d h1 h2)

theorem ms_roundBody (hc : CAPACITY F = cap) {m : List UInt32} {y : List AW} (hm : Forall₂ AW.Fits m y) (i : ℕ) {v : List UInt32}
    {x : List AW} (h : Forall₂ AW.Fits v x) :
    MS (F := F) (Bellman.Blake2s.roundBody m i v) (roundBody cap y i x) (Forall₂ AW.Fits) := by
  unfold Bellman.Blake2s.roundBody
  refine MS.inNs _ ?_
  refine (MS.index (R := Eq) (forall₂_same.2 fun _ _ => rfl) _).bind fun s s' hi => ?_
  subst hi
  exact (ms_mixCall hc _ hm s _ _ _ _ _ h).bind fun _ _ h => (ms_mixCall hc _ hm s _ _ _ _ _ h).bind fun _ _ h =>
    (ms_mixCall hc _ hm s _ _ _ _ _ h).bind fun _ _ h => (ms_mixCall hc _ hm s _ _ _ _ _ h).bind fun _ _ h =>
    (ms_mixCall hc _ hm s _ _ _ _ _ h).bind fun _ _ h => (ms_mixCall hc _ hm s _ _ _ _ _ h).bind fun _ _ h =>
    (ms_mixCall hc _ hm s _ _ _ _ _ h).bind fun _ _ h => ms_mixCall hc _ hm s _ _ _ _ _ h

theorem ms_roundLoop (hc : CAPACITY F = cap) {m : List UInt32} {y : List AW} (hm : Forall₂ AW.Fits m y) (n i : ℕ) {v : List UInt32}
    {x : List AW} (h : Forall₂ AW.Fits v x) :
    MS (F := F) (Bellman.Blake2s.roundLoop m n i v) (roundLoop cap y n i x) (Forall₂ AW.Fits) := by
  induction n generalizing i v x with
  | zero => exact MS.pure h
  | succ n ih => exact (ms_roundBody hc hm i h).bind fun _ _ h => ih (i + 1) h

theorem ss_finalLoop {v : List UInt32} {y : List AW} (hv : Forall₂ AW.Fits v y) (n i : ℕ) {h : List UInt32} {x : List AW}
    (hh : Forall₂ AW.Fits h x) : SS (F := F) (Bellman.Blake2s.finalLoop v n i h) (finalLoop y n i x) (Forall₂ AW.Fits) := by
  induction n generalizing i h x with
  | zero => exact SS.pure hh
  | succ n ih =>
    unfold Bellman.Blake2s.finalLoop finalLoop
    split
    · rename_i hi vi vi8 e1 e2 e3
      have get : ∀ {l : List UInt32} {l' : List AW} {u : UInt32} (k : ℕ), Forall₂ AW.Fits l l' → l[k]? = some u →
          ∃ w, l'[k]? = some w ∧ AW.Fits u w := by
        intro l l' u k hl e
        obtain ⟨h1, rfl⟩ := List.getElem?_eq_some_iff.1 e
        have h2 : k < l'.length := by rw [← hl.length_eq]; exact h1
        exact ⟨l'[k], List.getElem?_eq_getElem h2, hl.get h1 h2⟩
      obtain ⟨w1, f1, g1⟩ := get i hh e1
      obtain ⟨w2, f2, g2⟩ := get i hv e2
      obtain ⟨w3, f3, g3⟩ := get (i + 8) hv e3
      unfold Cost.index
      rw [f1, f2, f3]
      simp only [pure_bind]
      have := ((SS.inNs "first xor" (ss_xorW (F := F) g1 g2)).bind fun _ _ h => SS.inNs "second xor" (ss_xorW h g3))
      have := (SS.inNs ("h[" ++ toString i ++ "] ^ v[" ++ toString i ++ "] ^ v[" ++ toString i ++ " + 8]") this).bind
        fun r w hr => ih (i + 1) (rel_set hh i hr)
      simpa only [bind_assoc] using this
    · exact SS.panic

theorem ss_compression (hc : CAPACITY F = cap) {h m : List UInt32} {x y : List AW} (hh : Forall₂ AW.Fits h x) (hm : Forall₂ AW.Fits m y)
    (t : BitVec 64) (f : Bool) : SS (F := F) (Bellman.Blake2s.compression h m t f) (compression cap x y) (Forall₂ AW.Fits) := by
  unfold Bellman.Blake2s.compression
  split
  · rename_i hl
    split
    · obtain ⟨h0, h1, h2, h3, h4, h5, h6, h7, rfl⟩ : ∃ h0 h1 h2 h3 h4 h5 h6 h7, h = [h0, h1, h2, h3, h4, h5, h6, h7] := by
        match h, hl with
        | [h0, h1, h2, h3, h4, h5, h6, h7], _ => exact ⟨_, _, _, _, _, _, _, _, rfl⟩
      obtain ⟨x0, x1, x2, x3, x4, x5, x6, x7, rfl, g0, g1, g2, g3, g4, g5, g6, g7⟩ := Bellman.Sha256.list8' hh.flip
      have free : ∀ (s : String) (a b : BitVec 32),
          Exactly (F := F) (Synth.inNs s ((UInt32.constant a).xor (UInt32.constant b))) 0 0 (AW.Fits · .con) :=
        fun s a b => Exactly.inNs s ((exactly_xor_constant a b).mono fun _ h => ⟨_, h⟩)
      have rest : ∀ {v : List UInt32} {z : List AW}, Forall₂ AW.Fits v z →
          SS (F := F) (MSynth.withMultiEq (Bellman.Blake2s.roundLoop m 10 0 v) >>= fun v => Bellman.Blake2s.finalLoop v 8 0
            [h0, h1, h2, h3, h4, h5, h6, h7])
          (withMultiEq (roundLoop cap y 10 0 z) >>= fun v => finalLoop v 8 0 [x0, x1, x2, x3, x4, x5, x6, x7]) (Forall₂ AW.Fits) :=
        fun hz => (MS.withMultiEq (ms_roundLoop hc hm 10 0 hz)).bind fun _ _ hv => ss_finalLoop hv 8 0 hh
      have skip : ∀ {α γ δ : Type} {m : Synth F α} {Q : α → Prop} {g : α → Synth F γ} {a : AM δ} {S : γ → δ → Prop},
          Exactly m 0 0 Q → (∀ r, Q r → SS (g r) a S) → SS (m >>= g) a S :=
        fun {_ _ _} {_ Q} {_ a _} h1 h2 => (SS.free (b := ()) (R := fun r _ => Q r) h1).bind (f' := fun _ => a) fun r _ hr => h2 r hr
      refine skip (free "first xor" 0x510E527F (t.setWidth 32)) fun r hr => ?_
      refine skip (free "second xor" 0x9B05688C ((t >>> 32).setWidth 32)) fun r' hr' => ?_
      cases f with
      | false =>
        exact rest (.cons g0 <| .cons g1 <| .cons g2 <| .cons g3 <| .cons g4 <| .cons g5 <| .cons g6 <| .cons g7 <|
          .cons rfl <| .cons rfl <| .cons rfl <| .cons rfl <| .cons hr <| .cons hr' <| .cons ⟨_, rfl⟩ <| .cons rfl .nil)
      | true =>
        refine skip (Q := fun v => Forall₂ AW.Fits v ([x0, x1, x2, x3, x4, x5, x6, x7] ++ ivTail)) ?_ fun v hv => rest hv
        exact (free "third xor" 0x1F83D9AB 0xFFFFFFFF).map fun r'' hr'' =>
          (.cons g0 <| .cons g1 <| .cons g2 <| .cons g3 <| .cons g4 <| .cons g5 <| .cons g6 <| .cons g7 <|
            .cons rfl <| .cons rfl <| .cons rfl <| .cons rfl <| .cons hr <| .cons hr' <| .cons hr'' <| .cons rfl .nil)
    · exact SS.panic
  · exact SS.panic

end Blake2s

end Bellman.Cost
