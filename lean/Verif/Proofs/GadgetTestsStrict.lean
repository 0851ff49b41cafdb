import Verif.Proofs.GadgetTestsBits

/-! `test_into_bits_strict`: the first constraint that breaks when the last bit of the bits of `-1` is set. -/

namespace Bellman

open PrimeField

set_option linter.unusedSectionVars false

variable {F : Type} [PrimeField F] {α β : Type}

/-- The first broken constraint, with its path. -/
theorem first_broken {s0 s : TestCS F} {tA tB : List (Ev F)} {n : String} {a b c : LC F} (hrec : TestCS.Recorded .new (tA ++ .enforce n a b c :: tB) s0)
    (hc : s.constraints = s0.constraints) (hev : ∀ k ∈ s.constraints, s.Evaluable k) (hA : Sat s.rho tA) (hk : a.eval s.rho * b.eval s.rho ≠ c.eval s.rho) :
    s.whichIsUnsatisfied = some (some (pathStr (nsAfter [] tA ++ [n]))) := by
  have hcons : s0.constraints.map (fun k => (k.1, k.2.1, k.2.2.1)) = consOf tA ++ (a, b, c) :: consOf tB := by
    have := hrec.constraints
    rw [consOf_append, consOf_enforce] at this
    simpa [TestCS.new] using this
  have hlt : (consOf tA).length < s0.constraints.length := by
    have := congrArg List.length hcons
    simp at this
    omega
  have hobj : (nsAfter [] tA ++ [n], NamedObject.constraint (consOf tA).length) ∈ objsOf [] 0 (tA ++ Ev.enforce n a b c :: tB) := by
    have key : ∀ (t : List (Ev F)) ns k, (nsAfter ns t ++ [n], NamedObject.constraint (k + (consOf t).length)) ∈ objsOf ns k (t ++ Ev.enforce n a b c :: tB) := by
      intro t
      induction t with
      | nil => intro ns k; simp [objsOf, nsAfter]
      | cons e t ih =>
        intro ns k
        cases e with
        | enforce m a' b' c' =>
          have := ih ns (k + 1)
          simp only [List.cons_append, objsOf, nsAfter, consOf_enforce, List.length_cons]
          rw [show k + ((consOf t).length + 1) = k + 1 + (consOf t).length by omega]
          exact List.mem_cons_of_mem _ this
        | alloc i m x v => exact List.mem_cons_of_mem _ (ih ns k)
        | push m => exact List.mem_cons_of_mem _ (ih _ k)
        | pop => exact ih _ k
    simpa using key tA [] 0
  have hlook : s0.named.lookup (pathStr (nsAfter [] tA ++ [n])) = some (.constraint (consOf tA).length) := by
    refine GadgetTests.lookup_of_mem hrec.wf.nodup ?_
    rw [hrec.named]
    exact List.mem_append_left _ (List.mem_reverse.2 (List.mem_map.2 ⟨_, hobj, rfl⟩))
  obtain ⟨a', b', c', hget⟩ := (hrec.wf.con _ _).1 hlook
  have h3 : (a', b', c') = (a, b, c) := by
    have h := congrArg (fun l => l[(consOf tA).length]?) hcons
    simp only [List.getElem?_map, hget, Option.map_some] at h
    rw [List.getElem?_append_right (le_refl _)] at h
    simpa using h
  cases h3
  obtain ⟨h4, h5⟩ := List.getElem?_eq_some_iff.1 hget
  rw [C04_which]
  refine ⟨s0.constraints.take (consOf tA).length, (a, b, c, pathStr (nsAfter [] tA ++ [n])), s0.constraints.drop ((consOf tA).length + 1), ?_, ?_, ?_, hk, rfl⟩
  · rw [hc, ← h5, List.cons_getElem_drop_succ, List.take_append_drop]
  · intro k' hk'
    refine ⟨hev _ (by rw [hc]; exact List.mem_of_mem_take hk'), ?_⟩
    have h : (k'.1, k'.2.1, k'.2.2.1) ∈ consOf tA := by
      have h6 : (s0.constraints.take (consOf tA).length).map (fun k => (k.1, k.2.1, k.2.2.1)) = consOf tA := by
        rw [List.map_take, hcons, List.take_append_of_le_length (le_refl _), List.take_length]
      rw [← h6]
      exact List.mem_map.2 ⟨k', hk', rfl⟩
    exact (Sat_iff_consOf ..).1 hA _ h
  · refine hev _ ?_
    rw [hc, ← h5]
    exact List.getElem_mem _

/-- Constraints do not mention variables allocated later. -/
theorem Sat.update_later {n k : ℕ} {t : List (Ev F)} (hs : Scoped n k t) {ρ : Var → F} (h : Sat ρ t) {j : ℕ} (hj : k + numAux t ≤ j) (v : F) :
    Sat (Function.update ρ (.aux j) v) t := by
  rw [Sat_iff_consOf] at h ⊢
  intro c hc
  have hr := hs.consOf c hc
  have key : ∀ l : LC F, (∀ x ∈ l.terms, x.1.InRange (n + numIn t) (k + numAux t)) → l.eval (Function.update ρ (.aux j) v) = l.eval ρ := by
    intro l hl
    refine LC.eval_congr' fun w ⟨c, _, hw⟩ => Function.update_of_ne ?_ _ _
    rintro rfl
    have : j < k + numAux t := hl _ hw
    omega
  rw [key _ fun x hx => hr x (by simp [hx]), key _ fun x hx => hr x (by simp [hx]), key _ fun x hx => hr x (by simp [hx])]
  exact h c hc

namespace AllocatedNum

theorem strictLoop_append (l m : List (Option Bool × Bool)) (st : StrictSt) :
    (strictLoop (l ++ m) st : Synth F _) = strictLoop l st >>= fun st' => strictLoop m st' := by
  induction l generalizing st with
  | nil => simp [strictLoop]
  | cons e l ih =>
    obtain ⟨a, b⟩ := e
    simp only [List.cons_append, strictLoop]
    split
    · rw [bind_assoc]
      congr 1
      funext st'
      exact ih st'
    · split
      · rfl
      · exact ih _

theorem strictLoop_foundOne (l : List (Option Bool × Bool)) {st st' : StrictSt} {t : List (Ev F)} {t0 : List (Ev F)} (hb : NsBal t0) (h : Placed st t0)
    (he : Exec (strictLoop l st : Synth F _).run t (some (.ok st'))) : st'.foundOne = (st.foundOne || l.any (·.2)) := by
  induction l generalizing st t0 t with
  | nil =>
    obtain ⟨rfl, e⟩ := Synth.exec_pure_inv he
    cases e
    simp
  | cons p rest ih =>
    obtain ⟨a, b⟩ := p
    unfold strictLoop at he
    dsimp only at he
    have h' : Placed { st with foundOne := st.foundOne || b } t0 := h
    split at he
    · obtain ⟨t1, t2, st1, rfl, e1, e2⟩ := Synth.exec_bind_inv he
      obtain ⟨g1, g2, g3, -⟩ := placed_strictStep hb h' e1
      rw [ih g2 g1 e2, g3]
      simp [Bool.or_assoc]
    · split at he
      · cases he
      · rw [ih hb h' he]
        simp [Bool.or_assoc]

/-- The last bit is allocated conditionally, at the end of the loop. -/
theorem strict_last {a : AllocatedNum F} {t : List (Ev F)} {o : List Boolean} (he : Exec a.toBitsLeStrict.run t (some (.ok o))) :
    ∃ (tp : List (Ev F)) (i : ℕ) (x : AllocatedBit) (v : Option F) (A B C : LC F) (tu : List (Ev F)) (st : StrictSt) (res : List AllocatedBit),
      t = tp ++ .push s!"bit {i}" :: .alloc false "boolean" x.var v :: .enforce "boolean constraint" A B C :: .pop :: tu ∧ NsBal tp ∧
      Exec (strictLoop ((strictABits a.value).zip (toLeBits (-1 : F)).reverse) ⟨[], none, [], false, 0⟩ : Synth F _).run
        (tp ++ [.push s!"bit {i}", .alloc false "boolean" x.var v, .enforce "boolean constraint" A B C, .pop]) (some (.ok st)) ∧
      st.result = res ++ [x] ∧ o = st.result.reverse.map Boolean.is := by
  unfold toBitsLeStrict at he
  obtain ⟨t1, t2, st, rfl, e1, e2⟩ := Synth.exec_bind_inv he
  obtain ⟨tu, rfl⟩ : ∃ tu, tu = t2 := ⟨t2, rfl⟩
  have ho : o = st.result.reverse.map Boolean.is := by
    split at e2
    · obtain ⟨t2, t3, _, rfl, e3, e4⟩ := Synth.exec_bind_inv e2
      obtain ⟨rfl, e5⟩ := Synth.exec_pure_inv e4
      cases e5
      simp
    · cases e2
  obtain ⟨k, hk⟩ : ∃ k, REPR_BITS F = k + 1 :=
    ⟨REPR_BITS F - 1, by have := NUM_BITS_le (F := F); have := capacity_lt (F := F); omega⟩
  -- the list of the loop ends with the least significant bit of `p - 1`, a zero; before it there is a one
  obtain ⟨L, w, hL, hone⟩ : ∃ (L : List (Option Bool × Bool)) (w : Option Bool),
      (strictABits a.value).zip (toLeBits (-1 : F)).reverse = L ++ [(w, false)] ∧ L.any (·.2) = true := by
    rw [strict_pairs, hk, ← List.map_reverse, ← List.map_reverse, List.zip_map', List.range_succ_eq_map]
    simp only [List.reverse_cons, List.map_append, List.map_cons, List.map_nil, AllocatedNum.pm1_even]
    refine ⟨_, _, rfl, ?_⟩
    rw [List.any_eq_true]
    refine ⟨(a.value.map fun x => (val x).testBit (NUM_BITS F - 1), true), ?_, rfl⟩
    rw [List.mem_map]
    refine ⟨NUM_BITS F - 1, ?_, by rw [AllocatedNum.pm1_testBit_top]⟩
    have h1 := AllocatedNum.pm1_testBit_top (F := F)
    have h2 := NUM_BITS_le (F := F)
    have h3 : NUM_BITS F - 1 ≠ 0 := fun h => by
      rw [h, AllocatedNum.pm1_even] at h1
      cases h1
    simp only [List.mem_reverse, List.mem_map, List.mem_range]
    exact ⟨NUM_BITS F - 1 - 1, by omega, by omega⟩
  rw [hL] at e1 ⊢
  have e0 := e1
  rw [strictLoop_append] at e1
  obtain ⟨t1, t2, st1, rfl, e3, e4⟩ := Synth.exec_bind_inv e1
  have hp0 : Placed ⟨[], none, [], false, 0⟩ ([] : List (Ev F)) := ⟨rfl, fun j h => absurd h (by simp)⟩
  have hf := strictLoop_foundOne L (fun _ => rfl) hp0 e3
  have hb1 : NsBal t1 := (placed_strictLoop L (t0 := []) (fun _ => rfl) hp0 e3).2
  rw [hone] at hf
  simp only [strictLoop, hf, Bool.or_false, Bool.false_or, if_true] at e4
  obtain ⟨t2, t3, st2, rfl, e5, e6⟩ := Synth.exec_bind_inv e4
  obtain ⟨rfl, e7⟩ := Synth.exec_pure_inv e6
  cases e7
  unfold strictStep at e5
  simp only [Bool.false_eq_true, if_false] at e5
  obtain ⟨t2, t3, st3, rfl, e8, e9⟩ := Synth.exec_bind_inv e5
  have hb2 : NsBal t2 := by
    split at e8
    · obtain ⟨rfl, -⟩ := Synth.exec_pure_inv e8
      exact fun _ => rfl
    · obtain ⟨t4, t5, x, rfl, e10, e11⟩ := Synth.exec_bind_inv e8
      obtain ⟨rfl, -⟩ := Synth.exec_pure_inv e11
      have := UsesNames.nsBal (SNamesP.inNs (clean_idx (by clean) st1.i) (snames_karyAnd _)).uses e10
      rwa [List.append_nil]
  split at e9
  · cases e9
  · obtain ⟨t4, t5, x, rfl, e10, e11⟩ := Synth.exec_bind_inv e9
    obtain ⟨rfl, e12⟩ := Synth.exec_pure_inv e11
    cases e12
    obtain ⟨t4, rfl, e13⟩ := Synth.exec_inNs_inv e10
    unfold AllocatedBit.allocConditionally at e13
    obtain ⟨t6, t7, r, rfl, e14, e15⟩ := Synth.exec_bind_inv e13
    obtain ⟨t7, t8, _, rfl, e16, e17⟩ := Synth.exec_bind_inv e15
    obtain ⟨rfl, e18⟩ := Synth.exec_pure_inv e17
    cases e18
    have h14 := Synth.exec_alloc_inv e14
    have h16 := Synth.exec_enforce_inv e16
    subst h14 h16
    rename_i l _ _
    refine ⟨t1 ++ t2, st3.i, _, r.2, (LC.zero : LC F) + Var.one - l.var - r.1, (LC.zero : LC F) + r.1, LC.zero, tu, _, st3.result, ?_, hb1.append hb2, ?_, rfl, ho⟩
    · simp [LC.zero]
    · simpa [LC.zero] using e0

end AllocatedNum

namespace GadgetTests

theorem intoBitsStrict_eq (last : ℕ) : intoBitsStrict (F := F) last = (call (bitsProg true (-1 : F)) >>= fun _ => do
    assert (← isSatisfied)
    set s!"bit {last}/boolean" 1
    assert ((← unwrap (← whichIsUnsatisfied)) = s!"bit {last}/boolean constraint")) := by
  simp only [intoBitsStrict, bitsProg, call_seq, call_pure, bind_assoc, pure_bind, if_true]

theorem pathStr_bit_constraint (i : ℕ) : pathStr [s!"bit {i}", "boolean constraint"] = s!"bit {i}/boolean constraint" := by
  apply String.toList_inj.1
  simp [pathStr, pathChars, toString]

theorem intoBitsStrict_passes : Passes (intoBitsStrict (F := F) (NUM_BITS F - 1)) := by
  obtain ⟨n, as, s, t, hrun, he, h, hn1⟩ := bitsRun_exists true (-1 : F)
  have hpos : 0 < as.length := by rw [h.len]; have := capacity_lt (F := F); omega
  have h0 : Sat s.rho t := (Sat_iff_consOf ..).2 fun k hk => by
    obtain ⟨p, hp⟩ := (h.recorded.mem_constraints k).2 (.inr hk)
    exact ((C04_isSatisfied s).1 h.sat _ hp).2
  have hscope := (Circ.Scope.exec (scope_bitsProg true (-1 : F)) he h.recorded.numbered).1
  have hnumb := h.recorded.numbered
  have hrec := h.recorded
  have he' := he
  unfold bitsProg at he'
  obtain ⟨tn, t2, n', rfl, e1, e2⟩ := Synth.exec_bind_inv he'
  obtain ⟨ts, t3, bits, rfl, e3, e4⟩ := Synth.exec_bind_inv e2
  obtain ⟨rfl, e5⟩ := Synth.exec_pure_inv e4
  cases e5
  have hbn : NsBal tn := UsesNames.nsBal (AllocatedNum.snames_alloc _).uses e1
  simp only [if_true] at e3
  have hat := AllocatedNum.at_toBitsLeStrict e3
  obtain ⟨as', has', hat⟩ := hat
  have hpath : At [s!"bit {NUM_BITS F - 1}", "boolean"] as[0].var (tn ++ (ts ++ [])) := by
    obtain rfl : as = as' := List.map_injective_iff.2 (fun a b h => by cases h; rfl) has'
    have := ((hat 0 hpos).left []).right hbn
    rwa [h.len, Nat.sub_zero] at this
  have hlook := h.recorded.lookup hpath
  obtain ⟨tp, i, x, v, A, B, C, tu, st, res, rfl, hbp, eloop, hres, ho⟩ := AllocatedNum.strict_last e3
  have has : as = st.result.reverse := by
    have := ho
    exact List.map_injective_iff.2 (fun a b h => by cases h; rfl) this
  have hx : as[0] = x := by simp [has, hres]
  obtain ⟨ρ, hρ⟩ : ∃ ρ, ρ = Function.update s.rho x.var 1 := ⟨_, rfl⟩
  have htr : tn ++ (tp ++ .push s!"bit {i}" :: .alloc false "boolean" x.var v :: .enforce "boolean constraint" A B C :: .pop :: tu ++ []) =
      (tn ++ tp ++ [.push s!"bit {i}", .alloc false "boolean" x.var v]) ++ .enforce "boolean constraint" A B C :: (.pop :: tu) := by
    simp
  rw [htr] at hrec
  -- the constraints before hold as before
  have hpre : Sat ρ (tn ++ tp ++ [.push s!"bit {i}", .alloc false "boolean" x.var v]) := by
    have e6 : tn ++ (tp ++ .push s!"bit {i}" :: .alloc false "boolean" x.var v :: .enforce "boolean constraint" A B C :: .pop :: tu ++ []) =
        (tn ++ tp) ++ (.push s!"bit {i}" :: .alloc false "boolean" x.var v :: .enforce "boolean constraint" A B C :: .pop :: tu) := by simp
    rw [e6] at hscope hnumb h0
    rw [scoped_append] at hscope
    rw [numbered_append] at hnumb
    rw [Sat_append] at h0 ⊢
    obtain ⟨hxv, -⟩ : x.var = .aux _ ∧ _ := hnumb.2
    refine ⟨?_, by simp [Sat]⟩
    rw [hρ, hxv]
    exact Sat.update_later hscope.1 h0.1 (le_refl _) _
  -- the constraint of the last bit is broken
  have hbad : A.eval ρ * B.eval ρ ≠ C.eval ρ := by
    intro hk
    have hsat : Sat ρ (tp ++ [.push s!"bit {i}", .alloc false "boolean" x.var v, .enforce "boolean constraint" A B C, .pop]) := by
      rw [Sat_append, Sat_append] at hpre
      rw [Sat_append]
      refine ⟨hpre.1.2, ?_⟩
      rw [Sat_iff_consOf]
      simpa using hk
    have h1 : ρ .one = 1 := by
      rw [hρ, Function.update_of_ne (fun e => (h.distinct 0 hpos).1 (by rw [hx, e]))]
      exact h.one
    obtain ⟨ys, hl, hbits, hle, -⟩ := (Synth.wpS_iff ..).1 (AllocatedNum.wpS_strictLoop_skip h1 _) _ _ eloop hsat
    have hB : beAcc 0 ((((AllocatedNum.strictABits n.value).zip (toLeBits (-1 : F)).reverse)).map Prod.snd) = p F - 1 := by
      rw [AllocatedNum.strict_pairs, List.map_snd_zip (by simp)]
      have := AllocatedNum.beAcc_neg_one (F := F)
      simpa only [toLeBits, AllocatedNum.val_neg_one] using this
    rw [hB] at hle
    have hz : List.Forall₂ (AllocatedBit.Bit ρ) as ys.reverse := by
      rw [has]
      exact List.forall₂_reverse_iff.2 hbits
    obtain ⟨zs, hzs⟩ : ∃ zs, zs = ys.reverse := ⟨_, rfl⟩
    rw [← hzs] at hz
    rw [show ys = zs.reverse by simp [hzs], AllocatedNum.beAcc_reverse] at hle
    have hal := h.len
    have hlen : zs.length = NUM_BITS F := by rw [← hz.length_eq, h.len]
    obtain ⟨m, hm⟩ : ∃ m, NUM_BITS F = m + 1 := ⟨NUM_BITS F - 1, by rw [← h.len]; omega⟩
    have hget : ∀ j (hj : j < as.length), ρ as[j].var = boolF (zs[j]'(by omega)) := fun j hj => by
      have := (List.forall₂_iff_get.1 hz).2 j hj (by omega)
      simpa [AllocatedBit.Bit, boolF] using this
    have hpm : val (-1 : F) = p F - 1 := AllocatedNum.val_neg_one
    have hzs2 : zs = true :: leBits m ((p F - 1) / 2) := by
      refine List.ext_getElem (by simp [hlen, hm]) fun j h1 h2 => ?_
      have g := hget j (by omega)
      cases j with
      | zero =>
        rw [hx, hρ, Function.update_self] at g
        cases hb : zs[0] with
        | true => rfl
        | false => simp [hb] at g
      | succ j =>
        have hne : as[j + 1].var ≠ x.var := fun e => by
          have := (h.distinct 0 hpos).2.2 (j + 1) (by omega) (by rw [e, hx])
          omega
        rw [hρ, Function.update_of_ne hne, (h.vals (j + 1) (by omega)).2, hpm] at g
        rw [← boolF_inj (F := F) g]
        simp [leBits, Nat.testBit_succ]
    have e7 : bitsVal (leBits (m + 1) (p F - 1)) = p F - 1 := by
      rw [bitsVal_leBits, ← hm, Nat.mod_eq_of_lt AllocatedNum.pm1_lt]
    rw [leBits_succ, AllocatedNum.pm1_even] at e7
    rw [hzs2] at hle
    simp only [bitsVal, Bool.toNat_true, Bool.toNat_false] at hle e7
    omega
  rw [hx] at hlook
  obtain ⟨s', h1, w1, r1, c1, n1, _, i1, a1⟩ := (TestCS.set_spec h.recorded.wf (pathStr [s!"bit {NUM_BITS F - 1}", "boolean"]) 1).1 x.var hlook
  rw [pathStr_bit] at h1
  have hev : ∀ k ∈ s'.constraints, s'.Evaluable k := by
    intro k hk
    rw [c1] at hk
    have := ((C04_isSatisfied s).1 h.sat k hk).1
    simp only [TestCS.Evaluable, i1, a1] at this ⊢
    exact this
  have hw := first_broken (s := s') hrec c1 hev (by rw [r1, ← hρ]; exact hpre) (by rw [r1, ← hρ]; exact hbad)
  have hns : nsAfter [] (tn ++ tp ++ [.push s!"bit {i}", .alloc false "boolean" x.var v]) = [s!"bit {i}"] := by
    rw [nsAfter_trace_append, (hbn.append hbp) []]
    rfl
  have hi : s!"bit {i}/boolean" = s!"bit {NUM_BITS F - 1}/boolean" := by
    rw [← pathStr_bit, ← pathStr_bit]
    refine lookup_inj h.recorded.wf (h.recorded.lookup ?_) hlook
    intro ns k
    have := (((at_alloc false "boolean" x.var v [.enforce "boolean constraint" A B C]).inNs s!"bit {i}").right (hbn.append hbp)).left tu ns k
    simpa using this
  have hi : i = NUM_BITS F - 1 :=
    prefix_inj (p := "bit ") (String.toList_inj.1 (by simpa [toString] using congrArg String.toList hi))
  rw [hns, hi, List.singleton_append, pathStr_bit_constraint] at hw
  rw [intoBitsStrict_eq]
  refine ⟨s', ?_⟩
  rw [bind_some (call_some hrun), isSatisfied_some h.sat, assert_true rfl, bind_some (show set _ _ _ = some ((), s') by rw [set_eval, h1]; rfl)]
  rw [bind_eval, whichIsUnsatisfied_eval, hw]
  dsimp only [Option.map_some, Option.bind_some]
  rw [unwrap_some rfl, assert_eval, if_pos (by simp)]

end GadgetTests

end Bellman
