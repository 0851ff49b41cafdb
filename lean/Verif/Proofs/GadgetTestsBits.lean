import Verif.Proofs.GadgetTests
import Verif.Props.Names

/-! Which path names which variable, and `test_into_bits` for all field elements. -/

namespace Bellman
open PrimeField
set_option linter.unusedSectionVars false
variable {F : Type} [PrimeField F] {α β : Type}

/-! ### Where variables are named -/

theorem objsOf_append (t t' : List (Ev F)) (ns : List String) (k : ℕ) :
    ∃ k', objsOf ns k (t ++ t') = objsOf ns k t ++ objsOf (nsAfter ns t) k' t' := by
  induction t generalizing ns k with
  | nil => exact ⟨k, rfl⟩
  | cons e t ih =>
    cases e with
    | alloc i n x v => obtain ⟨k', h⟩ := ih ns k; exact ⟨k', by simp [objsOf, nsAfter, h]⟩
    | enforce n a b c => obtain ⟨k', h⟩ := ih ns (k + 1); exact ⟨k', by simp [objsOf, nsAfter, h]⟩
    | push n => obtain ⟨k', h⟩ := ih (ns ++ [n]) k; exact ⟨k', by simp [objsOf, nsAfter, h]⟩
    | pop => obtain ⟨k', h⟩ := ih ns.dropLast k; exact ⟨k', by simp [objsOf, nsAfter, h]⟩

theorem nsAfter_trace_append (t t' : List (Ev F)) (ns : List String) : nsAfter ns (t ++ t') = nsAfter (nsAfter ns t) t' := by
  induction t generalizing ns with
  | nil => rfl
  | cons e t ih => cases e <;> exact ih _

/-- The trace closes the namespaces it opens. -/
def NsBal (t : List (Ev F)) : Prop := ∀ ns, nsAfter ns t = ns

theorem UsesNames.nsBal {N : Set String} {c : Circ F α} (h : UsesNames N c) {t : List (Ev F)} {r : α} (he : Exec c t (some r)) : NsBal t := by
  intro ns
  have hd := (h t _ he).2.2.2 (by simp)
  have := nsAfter_append t (ns := ns) (l := []) hd
  rw [List.append_nil] at this
  rw [this, List.length_eq_zero_iff.1 (nsAfter_length t (ns := []) hd), List.append_nil]

theorem NsBal.append {t t' : List (Ev F)} (h : NsBal t) (h' : NsBal t') : NsBal (t ++ t') := by
  intro ns
  rw [nsAfter_trace_append, h, h']

/-- The trace allocates the variable at the path. -/
def At (p : List String) (x : Var) (t : List (Ev F)) : Prop := ∀ ns k, (ns ++ p, NamedObject.var x) ∈ objsOf ns k t

theorem At.left {p : List String} {x : Var} {t : List (Ev F)} (h : At p x t) (t' : List (Ev F)) : At p x (t ++ t') := by
  intro ns k
  obtain ⟨k', e⟩ := objsOf_append t t' ns k
  rw [e]
  exact List.mem_append_left _ (h ns k)

theorem At.right {p : List String} {x : Var} {t t' : List (Ev F)} (h : At p x t') (hb : NsBal t) : At p x (t ++ t') := by
  intro ns k
  obtain ⟨k', e⟩ := objsOf_append t t' ns k
  rw [e, hb ns]
  exact List.mem_append_right _ (h ns k')

theorem At.inNs {p : List String} {x : Var} {t : List (Ev F)} (h : At p x t) (n : String) : At (n :: p) x (.push n :: (t ++ [.pop])) := by
  intro ns k
  have := (h.left [.pop]) (ns ++ [n]) k
  rw [List.append_assoc, List.singleton_append] at this
  exact List.mem_cons_of_mem _ this

theorem at_alloc (i : Bool) (n : String) (x : Var) (v : Option F) (t : List (Ev F)) : At [n] x (.alloc i n x v :: t) :=
  fun _ _ => List.mem_cons_self

theorem TestCS.Recorded.lookup {t : List (Ev F)} {s : TestCS F} (h : TestCS.Recorded .new t s) {p : List String} {x : Var} (hp : At p x t) :
    s.named.lookup (pathStr p) = some (.var x) := by
  have hm : (pathStr p, NamedObject.var x) ∈ s.named := by
    rw [h.named]
    refine List.mem_append_left _ (List.mem_reverse.2 ?_)
    exact List.mem_map.2 ⟨(p, .var x), hp [] 0, rfl⟩
  have hn := h.wf.nodup
  revert hm hn
  generalize s.named = l
  intro hm hn
  induction l with
  | nil => cases hm
  | cons e l ih =>
    rw [List.map_cons, List.nodup_cons] at hn
    rcases List.mem_cons.1 hm with rfl | hm'
    · simp [List.lookup]
    · obtain ⟨q, o⟩ := e
      have hne : ¬ pathStr p = q := by
        rintro rfl
        exact hn.1 (List.mem_map.2 ⟨_, hm', rfl⟩)
      rw [List.lookup_cons, beq_eq_false_iff_ne.2 hne]
      exact ih hm' hn.2

theorem exec_alloc_at {n : String} {f : Except SynthesisError F} {t : List (Ev F)} {r : Var × Option F}
    (he : Exec (Synth.alloc n f).run t (some (.ok r))) : At [n] r.1 t := by
  rw [Synth.exec_alloc_inv he]
  exact at_alloc _ _ _ _ _

theorem AllocatedBit.at_alloc {v : Option Bool} {t : List (Ev F)} {x : AllocatedBit} (he : Exec (AllocatedBit.alloc v : Synth F _).run t (some (.ok x))) :
    At ["boolean"] x.var t := by
  unfold AllocatedBit.alloc at he
  obtain ⟨t1, t2, r, rfl, e1, e2⟩ := Synth.exec_bind_inv he
  obtain ⟨t2, t3, _, rfl, e3, e4⟩ := Synth.exec_bind_inv e2
  obtain ⟨rfl, e5⟩ := Synth.exec_pure_inv e4
  cases e5
  exact (exec_alloc_at e1).left _

theorem AllocatedBit.at_allocConditionally {v : Option Bool} {b : AllocatedBit} {t : List (Ev F)} {x : AllocatedBit}
    (he : Exec (AllocatedBit.allocConditionally v b : Synth F _).run t (some (.ok x))) : At ["boolean"] x.var t := by
  unfold AllocatedBit.allocConditionally at he
  obtain ⟨t1, t2, r, rfl, e1, e2⟩ := Synth.exec_bind_inv he
  obtain ⟨t2, t3, _, rfl, e3, e4⟩ := Synth.exec_bind_inv e2
  obtain ⟨rfl, e5⟩ := Synth.exec_pure_inv e4
  cases e5
  exact (exec_alloc_at e1).left _

theorem at_allocBits (i : ℕ) (vs : List (Option Bool)) {t : List (Ev F)} {bits : List AllocatedBit}
    (he : Exec (allocBits i vs : Synth F _).run t (some (.ok bits))) :
    bits.length = vs.length ∧ ∀ j (h : j < bits.length), At [s!"bit {i + j}", "boolean"] bits[j].var t := by
  induction vs generalizing i t bits with
  | nil =>
    obtain ⟨rfl, e⟩ := Synth.exec_pure_inv he
    cases e
    exact ⟨rfl, fun j h => absurd h (by simp)⟩
  | cons v vs ih =>
    unfold allocBits at he
    obtain ⟨t1, t2, x, rfl, e1, e2⟩ := Synth.exec_bind_inv he
    obtain ⟨t2, t3, xs, rfl, e3, e4⟩ := Synth.exec_bind_inv e2
    obtain ⟨rfl, e5⟩ := Synth.exec_pure_inv e4
    cases e5
    obtain ⟨h1, h2⟩ := ih (i + 1) e3
    refine ⟨by simp [h1], fun j h => ?_⟩
    have hb : NsBal t1 := UsesNames.nsBal (SNamesP.inNs (clean_idx (by clean) i) (AllocatedBit.snames_alloc v)).uses e1
    cases j with
    | zero =>
      obtain ⟨t1, rfl, e6⟩ := Synth.exec_inNs_inv e1
      exact ((AllocatedBit.at_alloc e6).inNs _).left _
    | succ j =>
      have := (h2 j (by simpa using h)).left []
      rw [show i + 1 + j = i + (j + 1) by omega] at this
      exact this.right hb

namespace AllocatedNum

/-- The bits of the state are named by position. -/
def Placed (st : StrictSt) (t : List (Ev F)) : Prop :=
  st.i = st.result.length ∧ ∀ j (h : j < st.result.length), At [s!"bit {j}", "boolean"] st.result[j].var t

theorem Placed.left {st : StrictSt} {t : List (Ev F)} (h : Placed st t) (t' : List (Ev F)) : Placed st (t ++ t') :=
  ⟨h.1, fun j hj => (h.2 j hj).left _⟩

theorem Placed.snoc {st : StrictSt} {t t' : List (Ev F)} {x : AllocatedBit} (h : Placed st t) (hb : NsBal t)
    (hx : At [s!"bit {st.i}", "boolean"] x.var t') {run : List AllocatedBit} {l : Option AllocatedBit} :
    Placed { st with currentRun := run, lastRun := l, result := st.result ++ [x], i := st.i + 1 } (t ++ t') := by
  refine ⟨by simp [h.1], fun j hj => ?_⟩
  rcases Nat.lt_or_ge j st.result.length with hlt | hge
  · have := (h.2 j hlt).left t'
    simpa [List.getElem_append_left hlt] using this
  · have hj' : j = st.result.length := by
      simp at hj; omega
    subst hj'
    rw [h.1] at hx
    simpa using hx.right hb
  
theorem placed_strictStep {a : Option Bool} {b : Bool} {st st' : StrictSt} {t0 t : List (Ev F)} (hb : NsBal t0) (h : Placed st t0)
    (he : Exec (strictStep a b st : Synth F _).run t (some (.ok st'))) :
    Placed st' (t0 ++ t) ∧ NsBal (t0 ++ t) ∧ st'.foundOne = st.foundOne ∧ st'.i = st.i + 1 := by
  unfold strictStep at he
  split at he
  · obtain ⟨t1, t2, x, rfl, e1, e2⟩ := Synth.exec_bind_inv he
    obtain ⟨rfl, e3⟩ := Synth.exec_pure_inv e2
    have hb1 : NsBal t1 := UsesNames.nsBal (SNamesP.inNs (clean_idx (by clean) st.i) (AllocatedBit.snames_alloc a)).uses e1
    obtain ⟨t1, rfl, e4⟩ := Synth.exec_inNs_inv e1
    cases e3
    rw [List.append_nil]
    exact ⟨h.snoc hb ((AllocatedBit.at_alloc e4).inNs _), hb.append hb1, rfl, rfl⟩
  · obtain ⟨t1, t2, st1, rfl, e1, e2⟩ := Synth.exec_bind_inv he
    have h1 : NsBal t1 ∧ st1.result = st.result ∧ st1.i = st.i ∧ st1.foundOne = st.foundOne := by
      split at e1
      · obtain ⟨rfl, e3⟩ := Synth.exec_pure_inv e1
        cases e3
        exact ⟨fun _ => rfl, rfl, rfl, rfl⟩
      · obtain ⟨t1, t3, x, rfl, e4, e3⟩ := Synth.exec_bind_inv e1
        obtain ⟨rfl, e5⟩ := Synth.exec_pure_inv e3
        have hb1 : NsBal t1 := UsesNames.nsBal (SNamesP.inNs (clean_idx (by clean) st.i) (snames_karyAnd _)).uses e4
        cases e5
        rw [List.append_nil]
        exact ⟨hb1, rfl, rfl, rfl⟩
    obtain ⟨hb1, hr, hi, hf⟩ := h1
    split at e2
    · cases e2
    · obtain ⟨t2, t3, x, rfl, e4, e3⟩ := Synth.exec_bind_inv e2
      obtain ⟨rfl, e5⟩ := Synth.exec_pure_inv e3
      have hb2 : NsBal t2 := UsesNames.nsBal (SNamesP.inNs (clean_idx (by clean) st1.i) (AllocatedBit.snames_allocConditionally a _)).uses e4
      obtain ⟨t2, rfl, e6⟩ := Synth.exec_inNs_inv e4
      cases e5
      have h1 : Placed st1 (t0 ++ t1) := by
        have := h.left t1
        unfold Placed at this ⊢
        rw [hr, hi]
        exact this
      rw [List.append_nil, ← List.append_assoc]
      exact ⟨h1.snoc (hb.append hb1) ((AllocatedBit.at_allocConditionally e6).inNs _), (hb.append hb1).append hb2, hf, by simp [hi]⟩

theorem placed_strictLoop (l : List (Option Bool × Bool)) {st st' : StrictSt} {t0 t : List (Ev F)} (hb : NsBal t0) (h : Placed st t0)
    (he : Exec (strictLoop l st : Synth F _).run t (some (.ok st'))) : Placed st' (t0 ++ t) ∧ NsBal (t0 ++ t) := by
  induction l generalizing st t0 t with
  | nil =>
    obtain ⟨rfl, e⟩ := Synth.exec_pure_inv he
    cases e
    rw [List.append_nil]
    exact ⟨h, hb⟩
  | cons p rest ih =>
    obtain ⟨a, b⟩ := p
    unfold strictLoop at he
    dsimp only at he
    have h' : Placed { st with foundOne := st.foundOne || b } t0 := h
    split at he
    · obtain ⟨t1, t2, st1, rfl, e1, e2⟩ := Synth.exec_bind_inv he
      obtain ⟨g1, g2, -, -⟩ := placed_strictStep hb h' e1
      rw [← List.append_assoc]
      exact ih g2 g1 e2
    · split at he
      · cases he
      · exact ih hb h' he

theorem at_toBitsLeStrict {a : AllocatedNum F} {t : List (Ev F)} {o : List Boolean} (he : Exec a.toBitsLeStrict.run t (some (.ok o))) :
    ∃ as : List AllocatedBit, o = as.map Boolean.is ∧
      ∀ j (h : j < as.length), At [s!"bit {as.length - 1 - j}", "boolean"] as[j].var t := by
  unfold toBitsLeStrict at he
  obtain ⟨t1, t2, st, rfl, e1, e2⟩ := Synth.exec_bind_inv he
  obtain ⟨h1, -⟩ := placed_strictLoop _ (t0 := []) (fun _ => rfl) ⟨rfl, fun j h => absurd h (by simp)⟩ e1
  split at e2
  · obtain ⟨t2, t3, _, rfl, e3, e4⟩ := Synth.exec_bind_inv e2
    obtain ⟨rfl, e5⟩ := Synth.exec_pure_inv e4
    cases e5
    refine ⟨st.result.reverse, by simp, fun j h => ?_⟩
    rw [List.getElem_reverse]
    have h2 : st.result.length - 1 - j < st.result.length := by simp at h; omega
    have := (h1.2 _ h2).left (t2 ++ [])
    simpa using this
  · cases e2

theorem at_toBitsLe {a : AllocatedNum F} {t : List (Ev F)} {o : List Boolean} (he : Exec a.toBitsLe.run t (some (.ok o))) :
    ∃ as : List AllocatedBit, o = as.map Boolean.is ∧ ∀ j (h : j < as.length), At [s!"bit {j}", "boolean"] as[j].var t := by
  unfold toBitsLe at he
  obtain ⟨t1, t2, bits, rfl, e1, e2⟩ := Synth.exec_bind_inv he
  obtain ⟨t2, t3, _, rfl, e3, e4⟩ := Synth.exec_bind_inv e2
  obtain ⟨rfl, e5⟩ := Synth.exec_pure_inv e4
  cases e5
  refine ⟨bits, rfl, fun j h => ?_⟩
  refine At.left ?_ _
  have : ∃ vs, Exec (allocBits 0 vs : Synth F _).run t1 (some (.ok bits)) := by
    unfold fieldIntoAllocatedBitsLe at e1
    split at e1
    · dsimp only at e1
      split at e1
      · exact ⟨_, e1⟩
      · cases e1
    · exact ⟨_, e1⟩
  obtain ⟨vs, e⟩ := this
  simpa using (at_allocBits 0 vs e).2 j h

end AllocatedNum

/-- Changing one bit changes the number. -/
theorem bitsVal_flip (h2 : (2 : F) ≠ 0) {xs ys : List Bool} {j : ℕ} (hl : xs.length = ys.length) (hj : j < xs.length) (hj' : j < ys.length)
    (hne : xs[j] ≠ ys[j]) (heq : ∀ i (h : i < xs.length) (h' : i < ys.length), i ≠ j → xs[i] = ys[i]) :
    (bitsVal xs : F) ≠ (bitsVal ys : F) := by
  induction xs generalizing ys j with
  | nil => simp at hj
  | cons x xs ih =>
    cases ys with
    | nil => simp at hj'
    | cons y ys =>
      simp only [bitsVal, Nat.cast_add, Nat.cast_mul, Nat.cast_ofNat]
      cases j with
      | zero =>
        have hxy : xs = ys := List.ext_getElem (by simpa using hl) fun i h h' => by
          exact heq (i + 1) (by simpa using h) (by simpa using h') (by omega)
        subst hxy
        intro h
        have hb : ((x.toNat : ℕ) : F) = (y.toNat : ℕ) := add_right_cancel h
        simp only [List.getElem_cons_zero] at hne
        cases x <;> cases y <;> simp_all
      | succ j =>
        have hxy : x = y := heq 0 (by simp) (by simp) (by omega)
        subst hxy
        intro h
        refine ih (ys := ys) (j := j) (by simpa using hl) (by simpa using hj) (by simpa using hj') (by simpa using hne) (fun i h h' hi => ?_)
          (mul_left_cancel₀ h2 (add_left_cancel h))
        exact heq (i + 1) (by simpa using h) (by simpa using h') (by omega)


namespace GadgetTests

/-- The same system up to the values of variables, and those are the same. -/
structure SameSys (s s' : TestCS F) : Prop where
  wf : s'.WF
  rho : s'.rho = s.rho
  con : s'.constraints = s.constraints
  named : s'.named = s.named
  ins : s'.inputs.length = s.inputs.length
  auxs : s'.aux.length = s.aux.length

theorem isSatisfied_congr {s s' : TestCS F} (hr : s'.rho = s.rho) (hc : s'.constraints = s.constraints) (hi : s'.inputs.length = s.inputs.length)
    (ha : s'.aux.length = s.aux.length) : s'.isSatisfied = some true ↔ s.isSatisfied = some true := by
  rw [C04_isSatisfied, C04_isSatisfied, hc]
  simp only [TestCS.Evaluable, hr, hi, ha]


theorem isSatisfied_total {s : TestCS F} (h : ∀ k ∈ s.constraints, s.Evaluable k) : ∃ b, s.isSatisfied = some b := by
  have key : ∀ ks : List (LC F × LC F × LC F × String), (∀ k ∈ ks, s.Evaluable k) → ∃ o, s.whichLoop ks = some o := by
    intro ks
    induction ks with
    | nil => exact fun _ => ⟨none, rfl⟩
    | cons k ks ih =>
      intro h
      obtain ⟨h1, h2, -⟩ := TestCS.whichLoop_cons s k ks
      by_cases hk : s.Holds k
      · rw [h1 (h k (by simp)) hk]; exact ih fun k hk => h k (by simp [hk])
      · exact ⟨_, h2 (h k (by simp)) hk⟩
  obtain ⟨o, ho⟩ := key _ h
  exact ⟨_, by rw [TestCS.isSatisfied, TestCS.whichIsUnsatisfied, ho]; rfl⟩

/-- After a satisfied run, overwriting a named variable: the answer is that for the new assignment. -/
theorem edited {s0 s : TestCS F} {t : List (Ev F)} (hrec : TestCS.Recorded .new t s0) (hs : s0.isSatisfied = some true)
    (hsame : SameSys s0 s) {p : List String} {x : Var} (hp : At p x t) (v : F) :
    ∃ s', s.set (pathStr p) v = some s' ∧ s.get (pathStr p) = some (s0.rho x) ∧
      s'.rho = Function.update s0.rho x v ∧
      (s'.isSatisfied = some true ∧ Sat s'.rho t ∨ s'.isSatisfied = some false ∧ ¬ Sat s'.rho t) ∧
      ∀ w, ∃ s'', s'.set (pathStr p) w = some s'' ∧ (w = s0.rho x → SameSys s0 s'') := by
  have hl := hrec.lookup hp
  obtain ⟨s', h1, w1, r1, c1, n1, _, i1, a1⟩ := (TestCS.set_spec hsame.wf (pathStr p) v).1 x (by rw [hsame.named]; exact hl)
  have hg := (C04_get_set hsame.wf (pathStr p) v).2.2.1 x (by rw [hsame.named]; exact hl)
  rw [hsame.rho] at r1 hg
  rw [hsame.con] at c1
  rw [hsame.named] at n1
  rw [hsame.ins] at i1
  rw [hsame.auxs] at a1
  have hev : ∀ k ∈ s'.constraints, s'.Evaluable k := by
    intro k hk
    rw [c1] at hk
    have := ((C04_isSatisfied s0).1 hs k hk).1
    simp only [TestCS.Evaluable, i1, a1] at this ⊢
    exact this
  refine ⟨s', h1, hg, r1, ?_, fun w => ?_⟩
  · have hiff : s'.isSatisfied = some true ↔ Sat s'.rho t := by
      rw [C04_isSatisfied, Sat_iff_consOf]
      constructor
      · intro h k hk
        obtain ⟨q, hq⟩ := (hrec.mem_constraints k).2 (.inr hk)
        exact (h _ (by rw [c1]; exact hq)).2
      · intro h k hk
        refine ⟨hev k hk, ?_⟩
        rw [c1] at hk
        rcases (hrec.mem_constraints (k.1, k.2.1, k.2.2.1)).1 ⟨k.2.2.2, hk⟩ with ⟨q, hq⟩ | hq
        · exact absurd hq (by simp [TestCS.new])
        · exact h _ hq
    obtain ⟨b, hb⟩ := isSatisfied_total hev
    cases b with
    | true => exact .inl ⟨hb, hiff.1 hb⟩
    | false => exact .inr ⟨hb, fun h => by rw [hiff.2 h] at hb; cases hb⟩
  · obtain ⟨s'', h2, w2, r2, c2, n2, _, i2, a2⟩ := (TestCS.set_spec w1 (pathStr p) w).1 x (by rw [n1]; exact hl)
    refine ⟨s'', h2, fun hw => ⟨w2, ?_, c2.trans c1, n2.trans n1, i2.trans i1, a2.trans a1⟩⟩
    rw [r2, r1, hw, Function.update_idem, Function.update_eq_self]


theorem lookup_of_mem {l : List (String × NamedObject)} (hn : (l.map (·.1)).Nodup) {p : String} {o : NamedObject} (hm : (p, o) ∈ l) :
    l.lookup p = some o := by
  induction l with
  | nil => cases hm
  | cons e l ih =>
    rw [List.map_cons, List.nodup_cons] at hn
    rcases List.mem_cons.1 hm with rfl | hm'
    · simp [List.lookup]
    · obtain ⟨q, o'⟩ := e
      have hne : ¬ p = q := by
        rintro rfl
        exact hn.1 (List.mem_map.2 ⟨_, hm', rfl⟩)
      rw [List.lookup_cons, beq_eq_false_iff_ne.2 hne]
      exact ih hn.2 hm'

theorem lookup_inj {s : TestCS F} (hw : s.WF) {p q : String} {x : Var} (hp : s.named.lookup p = some (.var x)) (hq : s.named.lookup q = some (.var x)) :
    p = q := by
  cases x with
  | input i =>
    obtain ⟨v, hv⟩ := (hw.inp i p).1 hp
    obtain ⟨w, hw⟩ := (hw.inp i q).1 hq
    rw [hv] at hw
    exact (Prod.mk.inj (Option.some.inj hw)).2
  | aux i =>
    obtain ⟨v, hv⟩ := (hw.aux i p).1 hp
    obtain ⟨w, hw⟩ := (hw.aux i q).1 hq
    rw [hv] at hw
    exact (Prod.mk.inj (Option.some.inj hw)).2

theorem one_lookup {t : List (Ev F)} {s : TestCS F} (h : TestCS.Recorded .new t s) : s.named.lookup "ONE" = some (.var .one) := by
  refine lookup_of_mem h.wf.nodup ?_
  rw [h.named]
  exact List.mem_append_right _ (by simp [TestCS.new, Var.one])

theorem pathStr_bit (i : ℕ) : pathStr [s!"bit {i}", "boolean"] = s!"bit {i}/boolean" := by
  apply String.toList_inj.1
  simp [pathStr, pathChars, toString]

/-- The program of `test_into_bits`. -/
def bitsProg (strict : Bool) (r : F) : Synth F (AllocatedNum F × List Boolean) := do
  let n ← AllocatedNum.alloc (.ok r)
  let bits ← (if strict then n.toBitsLeStrict else n.toBitsLe)
  pure (n, bits)

/-- The part of `test_into_bits` after the calls of gadgets. -/
def bitsRest (r other : F) (bits : List Boolean) : UTest F Unit := do
  assert (← isSatisfied)
  forEach (fun p => match p.2 with
    | .is a => do assert (p.1 = (← unwrap a.value))
    | _ => panic) (((toLeBits r).reverse.drop 1).zip bits.reverse)
  set "num" other
  assert (!(← isSatisfied))
  set "num" r
  assert (← isSatisfied)
  forEach (fun (i : ℕ) => do
    let name := s!"bit {i}/boolean"
    let cur ← get name
    let tmp := 1 - cur
    set name tmp
    assert (!(← isSatisfied))
    set name cur
    assert (← isSatisfied)) (List.range (NUM_BITS F))

theorem intoBits_eq (strict : Bool) (r other : F) : intoBits strict r other = (call (bitsProg strict r) >>= fun o => bitsRest r other o.2) := by
  cases strict <;> simp only [intoBits, bitsProg, call_seq, call_pure, bind_assoc, pure_bind, if_true, Bool.false_eq_true, if_false] <;> rfl

/-- What `test_into_bits` uses of the gadgets. -/
structure BitsRun (r : F) (s : TestCS F) (t : List (Ev F)) (n : AllocatedNum F) (as : List AllocatedBit) : Prop where
  recorded : TestCS.Recorded .new t s
  sat : s.isSatisfied = some true
  one : s.rho .one = 1
  len : as.length = NUM_BITS F
  vals : ∀ j (h : j < as.length), as[j].value = some ((val r).testBit j) ∧ s.rho as[j].var = boolF ((val r).testBit j)
  num : s.rho n.var = r
  numAt : At ["num"] n.var t
  place : ∀ i < as.length, ∃ j, ∃ h : j < as.length, At [s!"bit {i}", "boolean"] as[j].var t
  distinct : ∀ j (h : j < as.length), as[j].var ≠ .one ∧ as[j].var ≠ n.var ∧ ∀ j' (h' : j' < as.length), as[j'].var = as[j].var → j' = j
  sound : ∀ ρ : Var → F, ρ .one = 1 → Sat ρ t → ∃ xs, List.Forall₂ (Boolean.Bit ρ) (as.map Boolean.is) xs ∧ (bitsVal xs : F) = ρ n.var

theorem BitsRun.bits {r : F} {s : TestCS F} {t : List (Ev F)} {n : AllocatedNum F} {as : List AllocatedBit} (_h : BitsRun r s t n as)
    {ρ : Var → F} {xs : List Bool} (hb : List.Forall₂ (Boolean.Bit ρ) (as.map Boolean.is) xs) :
    xs.length = as.length ∧ ∀ j (hj : j < as.length) (hj' : j < xs.length), ρ as[j].var = boolF xs[j] := by
  have hl := hb.length_eq
  rw [List.length_map] at hl
  refine ⟨hl.symm, fun j hj hj' => ?_⟩
  have := (List.forall₂_iff_get.1 hb).2 j (by simpa using hj) hj'
  simpa [Boolean.Bit, AllocatedBit.Bit, boolF] using this


theorem zip_reverse {γ δ : Type} {l : List γ} {m : List δ} (h : l.length = m.length) : l.reverse.zip m.reverse = (l.zip m).reverse := by
  refine List.ext_getElem (by simp [h]) fun i h1 h2 => ?_
  simp [h]

theorem boolF_inj {x y : Bool} (h : (boolF x : F) = boolF y) : x = y := by
  cases x <;> cases y <;> simp_all

theorem BitsRun.num_edit {r : F} {s : TestCS F} {t : List (Ev F)} {n : AllocatedNum F} {as : List AllocatedBit} (h : BitsRun r s t n as) (hn1 : n.var ≠ .one)
    {v : F} (hs : Sat (Function.update s.rho n.var v) t) : v = r := by
  have h0 : Sat s.rho t := (Sat_iff_consOf ..).2 fun k hk => by
    obtain ⟨p, hp⟩ := (h.recorded.mem_constraints k).2 (.inr hk)
    exact ((C04_isSatisfied s).1 h.sat _ hp).2
  obtain ⟨xs, hx, ex⟩ := h.sound _ h.one h0
  obtain ⟨ys, hy, ey⟩ := h.sound _ (by rw [Function.update_of_ne hn1.symm]; exact h.one) hs
  obtain ⟨lx, gx⟩ := h.bits hx
  obtain ⟨ly, gy⟩ := h.bits hy
  have : xs = ys := List.ext_getElem (lx.trans ly.symm) fun j h1 h2 => by
    have a := gx j (by omega) h1
    have b := gy j (by omega) h2
    rw [Function.update_of_ne (h.distinct j (by omega)).2.1] at b
    exact boolF_inj (F := F) (a.symm.trans b)
  rw [← this, ex, h.num, Function.update_self] at ey
  exact ey.symm

theorem BitsRun.bit_edit (h2 : (2 : F) ≠ 0) {r : F} {s : TestCS F} {t : List (Ev F)} {n : AllocatedNum F} {as : List AllocatedBit} (h : BitsRun r s t n as)
    {j : ℕ} (hj : j < as.length) (hs : Sat (Function.update s.rho as[j].var (1 - s.rho as[j].var)) t) : False := by
  have h0 : Sat s.rho t := (Sat_iff_consOf ..).2 fun k hk => by
    obtain ⟨p, hp⟩ := (h.recorded.mem_constraints k).2 (.inr hk)
    exact ((C04_isSatisfied s).1 h.sat _ hp).2
  obtain ⟨d1, d2, d3⟩ := h.distinct j hj
  obtain ⟨xs, hx, ex⟩ := h.sound _ h.one h0
  obtain ⟨ys, hy, ey⟩ := h.sound _ (by rw [Function.update_of_ne d1.symm]; exact h.one) hs
  obtain ⟨lx, gx⟩ := h.bits hx
  obtain ⟨ly, gy⟩ := h.bits hy
  rw [Function.update_of_ne d2.symm, ← ex] at ey
  refine bitsVal_flip h2 (lx.trans ly.symm) (j := j) (by omega) (by omega) ?_ (fun i h1 h1' hi => ?_) ey.symm
  · intro e
    have a := gx j hj (by omega)
    have b := gy j hj (by omega)
    rw [Function.update_self, a, ← e] at b
    cases hb : xs[j]'(by omega) <;> simp [hb] at b
  · have a := gx i (by omega) h1
    have b := gy i (by omega) h1'
    rw [Function.update_of_ne fun e => hi (d3 i (by omega) e)] at b
    exact boolF_inj (F := F) (a.symm.trans b)

theorem forEach_inv {γ : Type} (f : γ → UTest F Unit) (I : TestCS F → Prop) (l : List γ)
    (hf : ∀ a ∈ l, ∀ s, I s → ∃ s', f a s = some ((), s') ∧ I s') {s : TestCS F} (hs : I s) : ∃ s', forEach f l s = some ((), s') ∧ I s' := by
  induction l generalizing s with
  | nil => exact ⟨s, rfl, hs⟩
  | cons a l ih =>
    obtain ⟨s1, h1, i1⟩ := hf a (by simp) s hs
    obtain ⟨s2, h2, i2⟩ := ih (fun a ha => hf a (by simp [ha])) i1
    exact ⟨s2, (bind_some h1).trans h2, i2⟩

theorem bitsRest_passes (h2 : (2 : F) ≠ 0) (hr : REPR_BITS F = NUM_BITS F + 1) {r : F} {s : TestCS F} {t : List (Ev F)} {n : AllocatedNum F}
    {as : List AllocatedBit} (h : BitsRun r s t n as) (hn1 : n.var ≠ .one) (other : F) :
    (∃ s', bitsRest r other (as.map Boolean.is) s = some ((), s')) ↔ other ≠ r := by
  have hsame : SameSys s s := ⟨h.recorded.wf, rfl, rfl, rfl, rfl, rfl⟩
  have hbits : (toLeBits r).take ((toLeBits r).length - 1) = leBits (NUM_BITS F) (val r) := by
    unfold toLeBits leBits
    rw [List.length_map, List.length_range, hr, ← List.map_take, List.take_range]
    congr 2
    omega
  have hzip : ∃ s', forEach (fun p : Bool × Boolean => match p.2 with
      | .is a => (do assert (p.1 = (← unwrap a.value)) : UTest F Unit)
      | _ => panic) (((toLeBits r).reverse.drop 1).zip (as.map Boolean.is).reverse) s = some ((), s') ∧ s' = s := by
    refine forEach_inv _ (fun s' => s' = s) _ (fun p hp s1 hs1 => ?_) rfl
    subst hs1
    rw [List.drop_reverse, hbits, zip_reverse (by simp [h.len])] at hp
    obtain ⟨j, hj, rfl⟩ := List.mem_iff_getElem.1 (List.mem_reverse.1 hp)
    have hj' : j < as.length := by
      rw [List.length_zip, List.length_map] at hj
      exact lt_of_lt_of_le hj (min_le_right _ _)
    simp only [List.getElem_zip, List.getElem_map]
    refine ⟨s1, ?_, rfl⟩
    rw [unwrap_some (h.vals j hj').1, assert_eval, if_pos (by simp [leBits])]
  obtain ⟨s0, hz, e0⟩ := hzip
  rw [e0] at hz
  clear e0 s0
  obtain ⟨s0, e0⟩ : ∃ s0, s0 = s := ⟨s, rfl⟩
  subst e0
  obtain ⟨s1, e1, -, r1, a1, b1⟩ := edited h.recorded h.sat hsame h.numAt other
  have hnum : pathStr ["num"] = "num" := by decide
  rw [hnum] at e1 b1
  unfold bitsRest
  rw [isSatisfied_some h.sat, assert_true rfl, bind_some hz, bind_some (show set "num" other _ = some ((), s1) by rw [set_eval, e1]; rfl)]
  rcases a1 with ⟨a1, a2⟩ | ⟨a1, a2⟩
  · rw [isSatisfied_some a1, bind_eval, assert_eval, if_neg (by simp)]
    have := h.num_edit hn1 (r1 ▸ a2)
    simp [this]
  · have hne : other ≠ r := by
      rintro rfl
      apply a2
      rw [r1, ← h.num, Function.update_eq_self]
      exact (Sat_iff_consOf ..).2 fun k hk => by
        obtain ⟨p, hp⟩ := (h.recorded.mem_constraints k).2 (.inr hk)
        exact ((C04_isSatisfied _).1 h.sat _ hp).2
    refine ⟨fun _ => hne, fun _ => ?_⟩
    obtain ⟨s2, e2, hs2⟩ := b1 r
    have hs2 := hs2 h.num.symm
    have sat2 := (isSatisfied_congr hs2.rho hs2.con hs2.ins hs2.auxs).2 h.sat
    rw [isSatisfied_some a1, assert_true (b := !false) rfl, bind_some (show set "num" r _ = some ((), s2) by rw [set_eval, e2]; rfl), isSatisfied_some sat2, assert_true rfl]
    refine (forEach_inv _ (SameSys _) _ (fun i hi s3 hs3 => ?_) hs2).imp fun _ h => h.1
    obtain ⟨j, hj, hat⟩ := h.place i (by rw [h.len]; simpa using hi)
    obtain ⟨s4, e4, g4, r4, a4, b4⟩ := edited h.recorded h.sat hs3 hat (1 - s0.rho as[j].var)
    rw [pathStr_bit] at e4 g4 b4
    obtain ⟨s5, e5, hs5⟩ := b4 (s0.rho as[j].var)
    have hs5 := hs5 rfl
    have sat5 := (isSatisfied_congr hs5.rho hs5.con hs5.ins hs5.auxs).2 h.sat
    have a4 : s4.isSatisfied = some false := by
      rcases a4 with ⟨-, a4⟩ | ⟨a4, -⟩
      · exact absurd (h.bit_edit h2 hj (r4 ▸ a4)) id
      · exact a4
    refine ⟨s5, ?_, hs5⟩
    dsimp only
    rw [bind_some (show get _ _ = some (s0.rho as[j].var, s3) by rw [get_eval, g4]; rfl)]
    rw [bind_some (show set _ _ _ = some ((), s4) by rw [set_eval, e4]; rfl), isSatisfied_some a4, assert_true (b := !false) rfl,
      bind_some (show set _ _ _ = some ((), s5) by rw [set_eval, e5]; rfl), isSatisfied_some sat5]
    rfl


theorem wpC_bitsProg (strict : Bool) (r : F) (ρ : Var → F) (h1 : ρ .one = 1) :
    Synth.wpC ρ (bitsProg strict r) fun o => ρ .one = 1 ∧ o.1.Has ρ r ∧ List.Forall₂ (Boolean.Has ρ) o.2 (leBits (NUM_BITS F) (val r)) := by
  unfold bitsProg
  rw [Synth.wpC_bind]
  refine Synth.wpC_mono (AllocatedNum.wpC_alloc r) fun n hn => ?_
  cases strict
  · simp only [Bool.false_eq_true, if_false, Synth.wpC_bind]
    exact Synth.wpC_mono (AllocatedNum.wpC_toBitsLe h1 hn) fun o ho => ⟨h1, hn, ho⟩
  · simp only [if_true, Synth.wpC_bind]
    exact Synth.wpC_mono (AllocatedNum.wpC_toBitsLeStrict h1 hn) fun o ho => ⟨h1, hn, ho⟩

theorem snames_bitsProg (strict : Bool) (r : F) : SNames (insert "num" AllocatedNum.toBitsNames) (bitsProg strict r) := by
  refine SNamesP.seq (N := AllocatedNum.toBitsNames) (AllocatedNum.snames_alloc _) ?_ fun n _ => SNamesP.map (P := fun _ => True) ?_ fun _ _ => SNamesP.pure trivial
  · unfold AllocatedNum.toBitsNames AllocatedNum.strictNames
    fresh
  · cases strict
    · refine SNamesP.weaken (AllocatedNum.snames_toBitsLe n) ?_
      unfold AllocatedNum.toBitsNames AllocatedNum.strictNames
      exact Set.union_subset_union_left _ Set.subset_union_left
    · exact AllocatedNum.snames_toBitsLeStrict n

theorem scope_bitsProg (strict : Bool) (r : F) : (bitsProg strict r).run.Scope (fun _ _ _ => True) 1 0 := by
  refine Preimage.scope_bind (AllocatedNum.slocal_alloc _) (fun k1 n h1 hn => ?_) fun _ _ => trivial
  refine Preimage.scope_bind (α := List Boolean) (n := 1) (k := k1) ?_ (fun k2 b h2 hb => ?_) fun _ _ => trivial
  · cases strict
    · exact AllocatedNum.slocal_toBitsLe one_pos hn
    · exact AllocatedNum.slocal_toBitsLeStrict one_pos hn
  · exact trivial

/-- The bits of both conversions are named by an index, in one order or the other. -/
theorem exec_bitsProg {strict : Bool} {r : F} {t : List (Ev F)} {o : AllocatedNum F × List Boolean} (he : Exec (bitsProg strict r).run t (some (.ok o))) :
    At ["num"] o.1.var t ∧ ∃ as : List AllocatedBit, o.2 = as.map Boolean.is ∧
      (∃ σ : ℕ → ℕ, (∀ i < as.length, σ i < as.length ∧ σ (σ i) = i) ∧ ∀ j (h : j < as.length), At [s!"bit {σ j}", "boolean"] as[j].var t) ∧
      ∀ ρ : Var → F, ρ .one = 1 → Sat ρ t → ∃ xs, List.Forall₂ (Boolean.Bit ρ) (as.map Boolean.is) xs ∧ (bitsVal xs : F) = ρ o.1.var := by
  unfold bitsProg at he
  obtain ⟨t1, t2, n, rfl, e1, e2⟩ := Synth.exec_bind_inv he
  obtain ⟨t2, t3, bits, rfl, e3, e4⟩ := Synth.exec_bind_inv e2
  obtain ⟨rfl, e5⟩ := Synth.exec_pure_inv e4
  cases e5
  have hb1 : NsBal t1 := UsesNames.nsBal (AllocatedNum.snames_alloc _).uses e1
  have hn : At ["num"] n.var t1 := by
    unfold AllocatedNum.alloc at e1
    obtain ⟨t4, t5, x, rfl, e6, e7⟩ := Synth.exec_bind_inv e1
    obtain ⟨rfl, e8⟩ := Synth.exec_pure_inv e7
    cases e8
    exact (exec_alloc_at e6).left _
  refine ⟨hn.left _, ?_⟩
  rw [List.append_nil]
  cases strict
  · simp only [Bool.false_eq_true, if_false] at e3
    obtain ⟨as, rfl, ha⟩ := AllocatedNum.at_toBitsLe e3
    refine ⟨as, rfl, ⟨id, fun i hi => ⟨hi, rfl⟩, fun j h => (ha j h).right hb1⟩, fun ρ h1 hs => ?_⟩
    rw [Sat_append] at hs
    obtain ⟨xs, hx, -, hv⟩ := (Synth.wpS_iff ..).1 (AllocatedNum.wpS_toBitsLe h1 n) _ _ e3 hs.2
    exact ⟨xs, hx, hv⟩
  · simp only [if_true] at e3
    obtain ⟨as, rfl, ha⟩ := AllocatedNum.at_toBitsLeStrict e3
    refine ⟨as, rfl, ⟨fun j => as.length - 1 - j, fun i hi => by dsimp only; omega, fun j h => (ha j h).right hb1⟩, fun ρ h1 hs => ?_⟩
    rw [Sat_append] at hs
    have hx := (Synth.wpS_iff ..).1 (AllocatedNum.wpS_toBitsLeStrict h1 n) _ _ e3 hs.2
    refine ⟨_, hx, ?_⟩
    rw [bitsVal_leBits, Nat.mod_eq_of_lt (lt_trans (val_lt _) p_lt_two_pow)]
    exact cast_val _

/-- A run of the program of `test_into_bits`. -/
theorem bitsRun_exists (strict : Bool) (r : F) : ∃ n as s t, (bitsProg strict r).run.run TestCS.impl .new = some (.ok (n, as.map Boolean.is), s) ∧
    Exec (bitsProg strict r).run t (some (.ok (n, as.map Boolean.is))) ∧ BitsRun r s t n as ∧ n.var ≠ .one := by
  have hone : "ONE" ∉ insert "num" AllocatedNum.toBitsNames := by
    unfold AllocatedNum.toBitsNames AllocatedNum.strictNames
    fresh
  obtain ⟨⟨n, bits⟩, s, hrun, hs, ⟨h1, hn, hb⟩, -⟩ := run_complete (snames_bitsProg strict r) hone (scope_bitsProg strict r)
    (wpC_bitsProg strict r)
  obtain ⟨t, hh, hrec⟩ := TestCS.run_recorded _ TestCS.WF_new hrun
  obtain ⟨hnum, as, has, ⟨σ, hσ, hat⟩, hsound⟩ := exec_bitsProg hh.exec
  dsimp only at has hnum hsound hn hb
  subst has
  have hlen : as.length = NUM_BITS F := by simpa using hb.length_eq
  have hname := fun j (h : j < as.length) => hrec.lookup (hat j h)
  have hnumN := hrec.lookup hnum
  have h1N := one_lookup hrec
  have key : BitsRun r s t n as := {
    recorded := hrec
    sat := hs
    one := h1
    len := hlen
    vals := fun j h => by
      have := (List.forall₂_iff_get.1 hb).2 j (by simpa using h) (by simpa using hlen ▸ h)
      simpa [Boolean.Has, Boolean.Bit, Boolean.getValue, AllocatedBit.Bit, boolF, leBits] using this
    num := hn.2
    numAt := hnum
    place := fun i hi => by
      refine ⟨σ i, (hσ i hi).1, ?_⟩
      have := hat (σ i) (hσ i hi).1
      simpa only [(hσ i hi).2] using this
    distinct := fun j h => by
      refine ⟨fun e => ?_, fun e => ?_, fun j' h' e => ?_⟩
      · have := lookup_inj hrec.wf (e ▸ hname j h) h1N
        rw [pathStr_bit] at this
        exact absurd (congrArg (fun s => s.toList.head?) this) (by simp [toString])
      · have := lookup_inj hrec.wf (e ▸ hname j h) hnumN
        rw [pathStr_bit] at this
        exact absurd (congrArg (fun s => s.toList.head?) this) (by simp [toString, pathStr, pathChars])
      · have := lookup_inj hrec.wf (e ▸ hname j' h') (hname j h)
        rw [pathStr_bit, pathStr_bit] at this
        have e3 : σ j' = σ j := prefix_inj (p := "bit ") (String.toList_inj.1 (by simpa [toString] using congrArg String.toList this))
        rw [← (hσ j' h').2, ← (hσ j h).2, e3]
    sound := hsound }
  have hn1 : n.var ≠ .one := fun e => by
    have := lookup_inj hrec.wf (e ▸ hnumN) h1N
    exact absurd this (by decide)
  exact ⟨n, as, s, t, hrun, hh.exec, key, hn1⟩

theorem intoBits_iff (h2 : (2 : F) ≠ 0) (hr : REPR_BITS F = NUM_BITS F + 1) (strict : Bool) (r other : F) :
    Passes (intoBits strict r other) ↔ other ≠ r := by
  obtain ⟨n, as, s, t, hrun, -, key, hn1⟩ := bitsRun_exists strict r
  rw [← bitsRest_passes h2 hr key hn1 other, intoBits_eq]
  unfold Passes
  rw [bind_some (call_some hrun)]

end GadgetTests
end Bellman
