import Verif.Proofs.GadgetTestsPack
import Verif.Props.Cost
import Verif.Props.Unique
import Verif.Proofs.NonConst
import Verif.Proofs.GadgetTestsStrict

/-! The unit tests of uint32.rs, for all drawn words. -/

namespace Bellman.GadgetTests
open PrimeField List Bellman.UInt32
set_option linter.unusedSectionVars false
variable {F : Type} [PrimeField F] {α β : Type} {s : TestCS F} {ρ : Var → F}

theorem low_bit (w : BitVec 32) : (w &&& 1#32 == 1#32) = w.getLsbD 0 := by
  have h := shiftBits_eq 1 w
  exact (List.cons.inj (show [_] = [_] from h)).1

theorem compareBits_pass {consts vars : Bool} {w : BitVec 32} {bs : List Boolean} {xs : List Bool}
    (hx : ∀ i x, xs[i]? = some x → x = w.getLsbD i) (h : Forall₂ (fun b x => b.getValue = some x) bs xs)
    (hk : ∀ b ∈ bs, (if b.isConstant then consts else vars) = true) : compareBits (F := F) consts vars w bs s = some ((), s) := by
  induction h generalizing w with
  | nil => rfl
  | @cons b x bs xs hb _ ih =>
    have h0 := hx 0 x rfl
    rw [← low_bit] at h0
    have ih' := ih (w := w >>> 1) (fun i x hi => by
      rw [hx (i + 1) x hi]
      simp [Nat.add_comm]) fun b hb => hk b (mem_cons_of_mem _ hb)
    have hkb := hk b (mem_cons_self ..)
    unfold compareBits
    cases b with
    | constant c =>
      have hc : c = x := by simpa [Boolean.getValue] using hb
      have hk' : consts = true := hkb
      subst hk' hc
      simp only [h0, if_true]
      rw [assert_true (by simp)]
      exact ih'
    | is a =>
      have hc : a.value = some x := hb
      have hk' : vars = true := hkb
      subst hk'
      simp only [if_true]
      rw [unwrap_some hc, assert_true (by simp [h0])]
      exact ih'
    | not a =>
      have hc : a.value = some (!x) := by
        have : a.value.map (!·) = some x := hb
        cases hv : a.value with
        | none => simp [hv] at this
        | some v => simp only [hv, Option.map_some, Option.some.injEq] at this; subst this; simp
      have hk' : vars = true := hkb
      subst hk'
      simp only [if_true]
      rw [unwrap_some hc, assert_true (by rw [← h0]; cases x <;> rfl)]
      exact ih'

theorem wbits_get (w : BitVec 32) (i : ℕ) (x : Bool) (h : (wbits w)[i]? = some x) : x = w.getLsbD i := by
  obtain ⟨hi, rfl⟩ := List.getElem?_eq_some_iff.1 h
  exact wbits_getElem w i hi

theorem compareBits_word {consts vars : Bool} {w : BitVec 32} {u : UInt32} (h : u.HasWord ρ w)
    (hk : ∀ b ∈ u.bits, (if b.isConstant then consts else vars) = true) : compareBits (F := F) consts vars w u.bits s = some ((), s) :=
  compareBits_pass (wbits_get w) (h.bits.imp fun _ _ h => h.1) hk

/-- The end of most tests: the system is satisfied, and the result is the expected one. -/
theorem wordEnd {o : UInt32} {w : BitVec 32} (hs : s.isSatisfied = some true) (ho : o.HasWord s.rho w) :
    (do
      assert (← isSatisfied)
      assert (o.value = some w)
      compareBits (F := F) true true w o.bits) s = some ((), s) := by
  rw [isSatisfied_some hs, assert_true rfl, assert_true (by simp [ho.value])]
  exact compareBits_word ho fun b _ => by split <;> rfl

/-- The words of most tests: two allocated, one a constant. -/
def threeWords (a b c : BitVec 32) (f : UInt32 → UInt32 → UInt32 → Synth F UInt32) : Synth F UInt32 := do
  let aBit ← Synth.inNs "a_bit" (UInt32.alloc (some a))
  let cBit ← Synth.inNs "c_bit" (UInt32.alloc (some c))
  f aBit (UInt32.constant b) cBit

theorem threeWords_passes {N : Set String} (a b c w : BitVec 32) {f : UInt32 → UInt32 → UInt32 → Synth F UInt32}
    (hn : ∀ x y z, SNames N (f x y z)) (h1 : "a_bit" ∉ N) (h2 : "c_bit" ∉ N) (h3 : "ONE" ∉ N)
    (hl : ∀ k x y z, Known 1 k x → Known 1 k y → Known 1 k z → SLocal 1 k (f x y z))
    (hw : ∀ (ρ : Var → F) x y z, ρ .one = 1 → x.HasWord ρ a → y.HasWord ρ b → z.HasWord ρ c →
      Synth.wpC ρ (f x y z) fun o => o.HasWord ρ w) :
    Passes (call (threeWords a b c f) >>= fun o => do
      assert (← isSatisfied)
      assert (o.value = some w)
      compareBits true true w o.bits) := by
  refine passes_of_complete (N := {"a_bit"} ∪ ({"c_bit"} ∪ N)) (Q := fun ρ o => o.HasWord ρ w) ?_ ?_ ?_ ?_ fun o s _ hs ho => ⟨s, wordEnd hs ho⟩
  · refine SNamesP.bind (SNamesP.inNs (by clean) (snames_alloc _)) (by simp [h1]) fun _ _ => ?_
    exact SNamesP.bind (SNamesP.inNs (by clean) (snames_alloc _)) (by simp [h2]) fun _ _ => hn _ _ _
  · simp [h3]
  · refine Preimage.scope_bind (SLocal.inNs _ (slocal_alloc one_pos _)) (fun k1 x g1 hx => ?_) fun _ _ => trivial
    refine Preimage.scope_bind (SLocal.inNs _ (slocal_alloc one_pos _)) (fun k2 z g2 hz => ?_) fun _ _ => trivial
    exact (hl _ _ _ _ (Known.lift hx g2) known_constant hz).mono fun _ _ _ _ _ _ => trivial
  · intro ρ h1
    unfold threeWords
    simp only [Synth.wpC_bind, Synth.wpC_inNs]
    refine Synth.wpC_mono (wpC_alloc h1 a) fun x hx => ?_
    refine Synth.wpC_mono (wpC_alloc h1 c) fun z hz => ?_
    exact hw ρ _ _ _ h1 hx (hasWord_constant b) hz

theorem uint32Maj_passes (a b c : BitVec 32) : Passes (uint32Maj (F := F) a b c) := by
  have h := threeWords_passes (F := F) a b c ((a &&& b) ^^^ (a &&& c) ^^^ (b &&& c)) (f := UInt32.sha256Maj) (N := idx "maj " {j | 0 ≤ j}) snames_sha256Maj
    (by fresh) (by fresh) (by fresh) (fun _ _ _ _ => slocal_sha256Maj one_pos) (fun ρ _ _ _ h1 => wpC_sha256Maj h1)
  simpa only [threeWords, call_seq, bind_assoc, uint32Maj] using h

theorem uint32Ch_passes (a b c : BitVec 32) : Passes (uint32Ch (F := F) a b c) := by
  have h := threeWords_passes (F := F) a b c ((a &&& b) ^^^ (~~~a &&& c)) (f := UInt32.sha256Ch) (N := idx "ch " {j | 0 ≤ j}) snames_sha256Ch
    (by fresh) (by fresh) (by fresh) (fun _ _ _ _ => slocal_sha256Ch one_pos) (fun ρ _ _ _ h1 => wpC_sha256Ch h1)
  simpa only [threeWords, call_seq, bind_assoc, uint32Ch] using h

theorem uint32Xor_passes (a b c : BitVec 32) : Passes (uint32Xor (F := F) a b c) := by
  have h := threeWords_passes (F := F) a b c (a ^^^ b ^^^ c) (N := {"first xor"} ∪ {"second xor"}) (f := fun x y z => do
      let r ← Synth.inNs "first xor" (x.xor y)
      Synth.inNs "second xor" (r.xor z)) (fun x y z =>
        SNamesP.bind (SNamesP.inNs (by clean) (snames_xor _ _)) (by simp) fun _ _ => SNamesP.inNs (by clean) (snames_xor _ _))
    (by simp) (by simp) (by simp) (fun k x y z hx hy hz =>
      SLocal.bind (SLocal.inNs _ (slocal_xor hx hy)) fun k1 r h1 hr => SLocal.inNs _ (slocal_xor hr (Known.lift hz h1))) (fun ρ x y z h1 hx hy hz => by
        simp only [Synth.wpC_bind, Synth.wpC_inNs]
        exact Synth.wpC_mono (wpC_xor hx hy) fun r hr => wpC_xor hr hz)
  simpa only [threeWords, call_seq, bind_assoc, uint32Xor] using h

/-! ### Constants -/

theorem constantBits_pass {u : UInt32} {w : BitVec 32} (hu : u.value = some w) {xs : List Bool} {i : ℕ}
    (hx : ∀ j x, xs[j]? = some x → x = w.getLsbD (i + j)) : constantBits (F := F) u i (xs.map Boolean.constant) s = some ((), s) := by
  induction xs generalizing i with
  | nil => rfl
  | cons x xs ih =>
    have h0 := hx 0 x rfl
    have : (w >>> i &&& 1#32 == 1#32) = x := by rw [low_bit, h0]; simp
    simp only [map_cons, constantBits]
    rw [unwrap_some hu, assert_true (by simp [this])]
    exact ih fun j y hj => by rw [hx (j + 1) y hj]; congr 1; omega

theorem sameConstants_pass (xs : List Bool) :
    sameConstants (F := F) ((xs.map Boolean.constant).zip (xs.map Boolean.constant)) s = some ((), s) := by
  induction xs with
  | nil => rfl
  | cons x xs ih => cases x <;> exact ih

theorem fromBits_const {bits : List Bool} (hl : bits.length = 32) :
    ∃ u w, UInt32.fromBits (bits.map Boolean.constant) = some u ∧ u.bits = bits.map Boolean.constant ∧ u.value = some w ∧ bits = wbits w := by
  have h : Forall₂ (Boolean.Has fun _ => (1 : DummyFr)) (bits.map Boolean.constant) bits := by
    rw [forall₂_map_left_iff]
    exact forall₂_same.2 fun _ _ => Boolean.has_constant.2 rfl
  obtain ⟨u, e, hw⟩ := hasWord_fromBits h (by simpa using hl)
  refine ⟨u, _, e, ?_, hw.value, (wbits_ofWbits hl).symm⟩
  unfold UInt32.fromBits at e
  rw [if_pos (by simpa using hl)] at e
  cases e
  rfl

theorem uint32FromBits_passes (bits : List Bool) (hl : bits.length = 32) : Passes (uint32FromBits (F := F) bits) := by
  obtain ⟨u, w, e, hb, hv, hw⟩ := fromBits_const hl
  refine ⟨.new, ?_⟩
  unfold uint32FromBits
  rw [unwrap_some e, hb, bind_some (constantBits_pass hv fun j x hj => by rw [hw] at hj; rw [Nat.zero_add]; exact wbits_get w j x hj)]
  rw [UInt32.intoBits, hb]
  exact sameConstants_pass _

theorem uint32FromBitsBe_passes (bits : List Bool) (hl : bits.length = 32) : Passes (uint32FromBitsBe (F := F) bits) := by
  obtain ⟨u, w, e, hb, hv, hw⟩ := fromBits_const (bits := bits.reverse) (by simpa using hl)
  refine ⟨.new, ?_⟩
  unfold uint32FromBitsBe
  rw [unwrap_some (by rw [fromBitsBe_eq, ← map_reverse]; exact e), hb,
    bind_some (constantBits_pass hv fun j x hj => by rw [hw] at hj; rw [Nat.zero_add]; exact wbits_get w j x hj)]
  rw [UInt32.intoBitsBe, hb, ← map_reverse, reverse_reverse]
  exact sameConstants_pass _

theorem compareBits_constant (w : BitVec 32) : compareBits (F := F) true false w (UInt32.constant w).bits s = some ((), s) := by
  refine compareBits_word (ρ := fun _ => (1 : F)) (hasWord_constant w) fun b hb => ?_
  rw [Cost.constant_bits] at hb
  obtain ⟨x, -, rfl⟩ := mem_map.1 hb
  rfl

theorem rotateRight_add (w : BitVec 32) (i : ℕ) : (w.rotateRight (i % 32)).rotateRight 1 = w.rotateRight ((i + 1) % 32) := by
  apply BitVec.eq_of_getLsbD_eq
  intro j hj
  have h32 := Nat.mod_lt i (show 32 > 0 by norm_num)
  simp only [BitVec.getLsbD_rotateRight, Nat.mod_mod]
  simp only [Bool.cond_decide, hj, decide_true, Bool.true_and]
  split_ifs <;> first
    | (congr 1; omega)
    | (rw [decide_eq_true (by omega), Bool.true_and]; congr 1; omega)

theorem rotrLoop_pass (num : BitVec 32) (n i : ℕ) :
    rotrLoop (F := F) (UInt32.constant num) (num.rotateRight (i % 32)) i n s = some ((), s) := by
  induction n generalizing i with
  | zero => rfl
  | succ n ih =>
    unfold rotrLoop
    dsimp only
    rw [Cost.rotr_constant, assert_true (by simp [constant_length]), unwrap_some (show (UInt32.constant (num.rotateRight (i % 32))).value = some (num.rotateRight (i % 32)) from rfl), assert_true (by simp), bind_some (compareBits_constant _),
      rotateRight_add]
    exact ih (i + 1)

theorem uint32Rotr_passes (num : BitVec 32) : Passes (uint32Rotr (F := F) num) := by
  have := rotrLoop_pass (F := F) (s := .new) num 32 0
  rw [show num.rotateRight (0 % 32) = num by apply BitVec.eq_of_getLsbD_eq; intro j hj; simp [hj]] at this
  exact ⟨_, this⟩

theorem uint32Shr_passes (num : BitVec 32) (i : ℕ) : Passes (uint32Shr (F := F) num i) := by
  refine ⟨.new, ?_⟩
  unfold uint32Shr
  rw [Cost.shr_constant, unwrap_some (show (UInt32.constant (num >>> (i % 32))).value = some (num >>> (i % 32)) from rfl), assert_true (by simp), assert_true (by simp), Cost.constant_bits]
  generalize wbits (num >>> (i % 32)) = xs
  induction xs with
  | nil => rfl
  | cons x xs ih =>
    simp only [map_cons, zip_cons_cons, forEach]
    rw [bind_some (s' := .new) (a := ()) (by
      have e : (Boolean.constant x).getValue = some x := rfl
      rw [unwrap_some e, unwrap_some e, assert_eval, if_pos (by simp)])]
    exact ih

/-! ### Sums -/

theorem mp_addmany_consts (vs : List (BitVec 32)) : MP (UInt32.addmany (vs.map UInt32.constant) : MSynth F _) fun u => u = UInt32.constant vs.sum :=
  fun st t r st' he => (Cost.ms_addmany_consts vs ⟨0, 0, st.bitsUsed⟩ () _ rfl st rfl t r st' he).1

theorem sum3 (a b c : BitVec 32) : [a, b, c].sum = a + b + c := by simp [BitVec.add_assoc]

/-- The sum of the tests. -/
def addition (us : List UInt32) : Synth F UInt32 := MSynth.withMultiEq (MSynth.inNs "addition" (UInt32.addmany us))

theorem snames_addition (us : List UInt32) : SNames (F := F) ({"addition"} ∪ mq 0) (addition us) :=
  MNames.withMultiEq (MNames.inNs (by clean) (by fresh) (mnames_addmany _))

theorem slocal_addition {k : ℕ} {us : List UInt32} (h : Known 1 k us) : SLocal (F := F) 1 k (addition us) :=
  MLocal.withMultiEq one_pos (MLocal.inNs _ (mlocal_addmany one_pos h))

theorem wpC_addition (h1 : ρ .one = 1) (h64 : 64 ≤ NUM_BITS F) {us : List UInt32} {ws : List (BitVec 32)} (h : Forall₂ (HasWord ρ) us ws)
    (h2 : 2 ≤ us.length) (h10 : us.length ≤ 10) : Synth.wpC ρ (addition us) fun r => r.HasWord ρ ws.sum := by
  refine MSynth.wpC_withMultiEq h1 ?_
  rw [MSynth.wpC_inNs]
  exact MSynth.wpC_mono (wpC_addmany h1 h64 h h2 h10 MEq.CInv.new) fun _ _ h => ⟨h.2, h.1⟩

theorem uint32AddmanyConstants_passes (h64 : 64 ≤ NUM_BITS F) (a b c : BitVec 32) : Passes (uint32AddmanyConstants (F := F) a b c) := by
  refine passes_of_complete (Q := fun ρ o => o.HasWord ρ (a + b + c)) (snames_addition ([a, b, c].map UInt32.constant)) (by fresh)
    ((slocal_addition (k := 0) (us := [a, b, c].map UInt32.constant) ?_).mono fun _ _ _ _ _ _ => trivial) (fun ρ h1 => ?_) fun o s hr hs ho => ?_
  · intro u hu
    obtain ⟨w, -, rfl⟩ := mem_map.1 hu
    exact known_constant
  · rw [← sum3]
    exact wpC_addition h1 h64 (.cons (hasWord_constant _) (.cons (hasWord_constant _) (.cons (hasWord_constant _) .nil))) (by simp) (by simp)
  · obtain ⟨t, he, hrec⟩ := TestCS.run_recorded _ TestCS.WF_new hr
    have hk := MP.withMultiEq (MP.inNs (mp_addmany_consts [a, b, c])) t o he.exec
    rw [sum3] at hk
    subst hk
    refine ⟨s, ?_⟩
    rw [assert_true (by simp [UInt32.constant])]
    exact compareBits_constant _

theorem mem_allocated_of_objs {p : List String} {x : Var} {ns : List String} {k : ℕ} {t : List (Ev F)} (h : (p, NamedObject.var x) ∈ objsOf ns k t) :
    x ∈ allocated t := by
  induction t generalizing ns k with
  | nil => cases h
  | cons e t ih =>
    cases e with
    | alloc i n y v =>
      rcases mem_cons.1 h with h | h
      · cases h
        exact mem_cons_self ..
      · exact mem_cons_of_mem _ (ih h)
    | enforce n a b c =>
      rcases mem_cons.1 h with h | h
      · cases h
      · exact ih h
    | push n =>
      rcases mem_cons.1 h with h | h
      · cases h
      · exact ih h
    | pop => exact ih (ns := ns.dropLast) h

theorem at_allocated {p : List String} {x : Var} {t : List (Ev F)} (h : At p x t) : x ∈ allocated t := mem_allocated_of_objs (h [] 0)

/-- The first bit of a sum is the variable with that name. -/
theorem at_resultLoop {value : Option ℕ} {maxValue : ℕ} (h0 : maxValue ≠ 0) {coeff : F} {lc : LC F} {t : List (Ev F)} {q : List Boolean × LC F × ℕ}
    (he : Exec (UInt32.resultLoop value maxValue 0 coeff [] lc).run t (some (.ok q))) :
    ∃ b bs, q.1 = .is b :: bs ∧ At ["result bit 0", "boolean"] b.var t := by
  rw [UInt32.resultLoop, if_neg h0] at he
  obtain ⟨t1, t2, b, rfl, e1, e2⟩ := Synth.exec_bind_inv he
  obtain ⟨bs, hq, -⟩ := SP.of_exactly (Cost.exactly_resultLoop _ _ _ _ _ _) _ _ e2
  obtain ⟨t1, rfl, e3⟩ := Synth.exec_inNs_inv e1
  refine ⟨b, bs, by simpa using hq, ?_⟩
  have := ((AllocatedBit.at_alloc e3).inNs (s!"result bit {0}")).left t2
  exact this

/-- A statement about the trace and the result of all executions. -/
def MT (m : MSynth F α) (Q : List (Ev F) → α → Prop) : Prop := ∀ (st : MEq F) t r st', Exec (m.run.run st) t (some (.ok r, st')) → Q t r

theorem MT.bind {Q : List (Ev F) → α → Prop} {P : List (Ev F) → β → Prop} {m : MSynth F α} {f : α → MSynth F β} (h : MT m Q)
    (hf : ∀ t a, Q t a → MT (f a) fun t' b => P (t ++ t') b) : MT (m >>= f) P := by
  intro st t r st' he
  rcases Exec.bind_inv (show Exec ((m.run.run st).bind _) _ _ from he) with ⟨_, h4⟩ | ⟨t1, t2, ⟨b, s1⟩, rfl, h3, h4⟩
  · cases h4
  · cases b with
    | error e => cases h4
    | ok b => exact hf t1 b (h _ _ _ _ h3) _ _ _ _ h4

theorem MT.lift {Q : List (Ev F) → α → Prop} {m : Synth F α} (h : ∀ t r, Exec m.run t (some (.ok r)) → Q t r) : MT (MSynth.lift m) Q := by
  intro st t r st' he
  rcases Exec.bind_inv (show Exec (m.run.bind fun r => .ret (r, st)) _ _ from he) with ⟨_, h4⟩ | ⟨t1, t2, b, rfl, h3, h4⟩
  · cases h4
  · cases h4
    rw [append_nil]
    exact h _ _ h3

theorem MT.of_mp {Q : α → Prop} {m : MSynth F α} (h : MP m Q) : MT m fun _ a => Q a := h

theorem MT.panic {Q : List (Ev F) → α → Prop} {e : String} : MT (MSynth.lift (Synth.panic e) : MSynth F α) Q :=
  MT.lift fun t r h => absurd (SP.panic (Q := fun _ : α => False) t r h) id

theorem at_addmany {us : List UInt32} (hv : ∃ u ∈ us, u.HasVar) (hne : us ≠ []) :
    MT (UInt32.addmany us : MSynth F _) fun t r => ∃ b bs, r.bits = .is b :: bs ∧ At ["result bit 0", "boolean"] b.var t := by
  unfold UInt32.addmany
  split
  · split
    · split
      · have hM : us.length * (2 ^ 32 - 1) ≠ 0 := Nat.mul_ne_zero (by simpa using hne) (by norm_num)
        dsimp only
        generalize us.length * (2 ^ 32 - 1) = M at hM
        split
        · rename_i w hc hw
          obtain ⟨u, hu, b, hb, hcb⟩ := hv
          rw [Cost.addOperands_allConst, Bool.true_and, all_eq_true] at hc
          have := hc u hu
          rw [all_eq_true] at this
          rw [this b hb] at hcb
          cases hcb
        · refine MT.bind (MT.lift fun t q h => at_resultLoop hM h) ?_
          rintro t q ⟨b, bs, hq, ha⟩
          refine MT.bind (MT.of_mp MP.triv) fun t' _ _ => ?_
          intro _ _ _ _ he
          cases he
          refine ⟨b, bs.take 31, ?_, ?_⟩
          · rw [hq]
            rfl
          · exact ha.left _
      · exact MT.panic
    · exact MT.panic
  · exact MT.panic

theorem at_addition {us : List UInt32} (hv : ∃ u ∈ us, u.HasVar) {t : List (Ev F)} {r : UInt32}
    (he : Exec (addition us).run t (some (.ok r))) :
    ∃ b bs, r.bits = .is b :: bs ∧ At ["addition", "result bit 0", "boolean"] b.var t := by
  have hne : us ≠ [] := by rintro rfl; simp at hv
  rcases Exec.bind_inv (show Exec (((MSynth.inNs "addition" (UInt32.addmany us)).run.run MEq.new).bind _) _ _ from he) with ⟨_, h4⟩ | ⟨t1, t2, ⟨b, s1⟩, rfl, h3, h4⟩
  · cases h4
  · have key : b = .ok r := by
      unfold MEq.drop at h4
      split at h4
      · rcases (show Exec (Circ.enforce _ _ _ _ _) _ _ from h4) with _ | _ | _ | _ | _ | h4
        cases h4
        rfl
      · cases h4
        rfl
    subst key
    rcases (show Exec (Circ.push _ _) _ _ from h3) with _ | _ | _ | _ | _ | _ | h3
    rcases Exec.bind_inv h3 with ⟨_, h2⟩ | ⟨t3, t4, ⟨a, s2⟩, rfl, h1, h2⟩
    · cases h2
    · cases h2 with
      | pop h2 =>
        cases h2
        obtain ⟨b, bs, hb, ha⟩ := at_addmany hv hne _ _ _ _ h1
        exact ⟨b, bs, hb, (ha.inNs "addition").left _⟩

theorem sp_allocLoop (i : ℕ) (vs : List (Option Bool)) :
    SP (UInt32.allocLoop i vs : Synth F _) fun r => r.length = vs.length ∧ NoConstants r := by
  induction vs generalizing i with
  | nil => exact SP.pure ⟨rfl, by simp [NoConstants]⟩
  | cons v vs ih =>
    refine SP.bind SP.triv fun b _ => SP.bind (ih (i + 1)) fun bs hbs => SP.pure ⟨by simp [hbs.1], ?_⟩
    intro c hc
    rcases mem_cons.1 hc with rfl | hc
    · rfl
    · exact hbs.2 c hc

theorem sp_alloc (w : BitVec 32) : SP (UInt32.alloc (some w) : Synth F _) UInt32.Full := by
  refine SP.bind (sp_allocLoop 0 _) fun bs hbs => SP.pure ⟨?_, hbs.2⟩
  rw [hbs.1]
  simp [shiftBits_eq]

/-- The operands of the sum. -/
def addOps (a b c d : BitVec 32) : Synth F (List UInt32) := do
  let aBit ← Synth.inNs "a_bit" (UInt32.alloc (some a))
  let dBit ← Synth.inNs "d_bit" (UInt32.alloc (some d))
  let r ← Synth.inNs "xor" (aBit.xor (UInt32.constant b))
  pure [r, UInt32.constant c, dBit]

/-- Operands and sum. -/
def addProg (a b c d : BitVec 32) : Synth F (List UInt32 × UInt32) := do
  let us ← addOps a b c d
  let r ← addition us
  pure (us, r)

theorem sp_addOps (a b c d : BitVec 32) : SP (addOps a b c d : Synth F _) fun us => ∃ u ∈ us, u.HasVar := by
  refine SP.bind (SP.inNs (sp_alloc a)) fun x hx => SP.bind SP.triv fun _ _ => ?_
  refine SP.bind (SP.inNs (sp_xor hx.1 (constant_length b))) fun r hr => SP.pure ⟨r, mem_cons_self .., (hr.2 (.inl hx)).hasVar⟩

theorem snames_addOps (a b c d : BitVec 32) : SNames (F := F) ({"a_bit"} ∪ ({"d_bit"} ∪ {"xor"})) (addOps a b c d) := by
  refine SNamesP.bind (SNamesP.inNs (by clean) (snames_alloc _)) (by simp) fun _ _ => ?_
  refine SNamesP.bind (SNamesP.inNs (by clean) (snames_alloc _)) (by simp) fun _ _ => ?_
  exact SNamesP.map (SNamesP.inNs (by clean) (snames_xor _ _)) fun _ _ => SNamesP.pure trivial

theorem slocal_addOps (a b c d : BitVec 32) : SLocal (F := F) 1 0 (addOps a b c d) := by
  refine SLocal.bind (SLocal.inNs _ (slocal_alloc one_pos _)) fun k1 x g1 hx => ?_
  refine SLocal.bind (SLocal.inNs _ (slocal_alloc one_pos _)) fun k2 z g2 hz => ?_
  refine SLocal.bind (SLocal.inNs _ (slocal_xor (Known.lift hx g2) known_constant)) fun k3 r g3 hr => SLocal.pure ?_
  exact known_list_cons hr (known_list_cons known_constant (known_list_cons (Known.lift hz g3) known_list_nil))

theorem unique_addition (us : List UInt32) :
    Unique (F := F) (fun ρ => ∀ u ∈ us, ∃ w, u.Word ρ w) ((us.flatMap UInt32.bits).flatMap Boolean.vars) (addition us) := by
  refine .of fun ρ ρ' h1 h1' hp h => ⟨_, MDet.withMultiEq h1 h1' (MDet.inNs _ (UInt32.addmany_det h1 h1' (A := True) fun u hu => ?_))⟩
  have hag : AgreeAll ρ ρ' u.bits := fun b hb x hx => h x (mem_flatMap.2 ⟨b, mem_flatMap.2 ⟨u, hu, hb⟩, hx⟩)
  obtain ⟨w, hw⟩ := hp u hu
  refine ⟨⟨w, hw⟩, ⟨w, ?_, hw.const⟩, fun _ => hag⟩
  exact List.forall₂_iff_get.2 ⟨hw.bits.length_eq, fun i hi hj => (hag _ (List.getElem_mem hi)).bit h1 h1' ((List.forall₂_iff_get.1 hw.bits).2 i hi hj)⟩

theorem wpC_addOps {ρ : Var → F} (h1 : ρ .one = 1) (a b c d : BitVec 32) :
    Synth.wpC ρ (addOps a b c d) fun us => Forall₂ (HasWord ρ) us [a ^^^ b, c, d] := by
  unfold addOps
  simp only [Synth.wpC_bind, Synth.wpC_inNs]
  refine Synth.wpC_mono (wpC_alloc h1 a) fun x hx => ?_
  refine Synth.wpC_mono (wpC_alloc h1 d) fun z hz => ?_
  refine Synth.wpC_mono (wpC_xor hx (hasWord_constant b)) fun r hr => ?_
  rw [Synth.wpC_pure]
  exact .cons hr (.cons (hasWord_constant c) (.cons hz .nil))

theorem uint32Addmany_eq (a b c d : BitVec 32) : uint32Addmany (F := F) a b c d = (call (addProg a b c d) >>= fun o => do
    assert (← isSatisfied)
    assert (o.2.value = some ((a ^^^ b) + c + d))
    compareBits false true ((a ^^^ b) + c + d) o.2.bits
    if (← get "addition/result bit 0/boolean") = 0 then set "addition/result bit 0/boolean" 1
    else set "addition/result bit 0/boolean" 0
    assert (!(← isSatisfied))) := by
  simp only [addProg, addOps, call_seq, call_pure, bind_assoc, pure_bind, addition]
  rfl

theorem uint32Addmany_passes (h64 : 64 ≤ NUM_BITS F) (a b c d : BitVec 32) : Passes (uint32Addmany (F := F) a b c d) := by
  rw [uint32Addmany_eq]
  refine passes_of_complete (N := {"a_bit"} ∪ ({"d_bit"} ∪ {"xor"}) ∪ ({"addition"} ∪ mq 0))
    (Q := fun ρ o => Forall₂ (HasWord ρ) o.1 [a ^^^ b, c, d] ∧ o.2.HasWord ρ ((a ^^^ b) + c + d)) ?_ (by fresh) ?_ (fun ρ h1 => ?_) fun o s hr hs ho => ?_
  · exact SNamesP.bind (snames_addOps a b c d) (by fresh) fun us _ => SNamesP.map (snames_addition us) fun _ _ => SNamesP.pure trivial
  · refine Preimage.scope_bind (slocal_addOps a b c d) (fun k us _ hus => ?_) fun _ _ => trivial
    refine Preimage.scope_bind (slocal_addition hus) (fun k us _ hus => ?_) fun _ _ => trivial
    trivial
  · unfold addProg
    simp only [Synth.wpC_bind]
    refine Synth.wpC_mono (wpC_addOps h1 a b c d) fun us hus => ?_
    refine Synth.wpC_mono (wpC_addition h1 h64 hus (by rw [hus.length_eq]; simp) (by rw [hus.length_eq]; simp)) fun r hr => ?_
    rw [Synth.wpC_pure]
    rw [sum3] at hr
    exact ⟨hus, hr⟩
  · obtain ⟨us, r⟩ := o
    obtain ⟨t, he, hrec⟩ := TestCS.run_recorded _ TestCS.WF_new hr
    have hnum := hrec.numbered
    have hex := he.exec
    unfold addProg at hex
    obtain ⟨tp, t2, us', rfl, e1, e2⟩ := Synth.exec_bind_inv hex
    obtain ⟨tm, t3, r', rfl, e3, e4⟩ := Synth.exec_bind_inv e2
    obtain ⟨rfl, e5⟩ := Synth.exec_pure_inv e4
    cases e5
    rw [append_nil] at hrec hnum he
    have hvar := sp_addOps a b c d _ _ e1
    have hfull : r.Full := MP.withMultiEq (MP.inNs (mp_addmany_full hvar)) _ _ e3
    obtain ⟨b0, bs, hb, hat⟩ := at_addition hvar e3
    have hat' := hat.right (UsesNames.nsBal (snames_addOps a b c d).uses e1)
    have hpath : pathStr ["addition", "result bit 0", "boolean"] = "addition/result bit 0/boolean" := by
      apply String.toList_inj.1
      simp [pathStr, pathChars]
    have hsat : Sat s.rho (tp ++ tm) := (Sat_iff_consOf ..).2 fun k hk => by
      obtain ⟨p, hp⟩ := (hrec.mem_constraints k).2 (.inr hk)
      exact ((C04_isSatisfied s).1 hs _ hp).2
    have h1 : s.rho .one = 1 := by rw [TestCS.rho, hrec.inputs]; rfl
    obtain ⟨hn1, hn2⟩ := numbered_append.1 hnum
    obtain ⟨hz, hknown⟩ := (slocal_addOps a b c d).closed tp _ e1 hn1 |>.2 _ rfl
    have hknown := hknown us rfl
    -- the variable is neither the constant nor in the operands
    have hnew : b0.var ≠ .one ∧ ∀ x ∈ (us.flatMap UInt32.bits).flatMap Boolean.vars, x ≠ b0.var := by
      have hin : ∀ x ∈ (us.flatMap UInt32.bits).flatMap Boolean.vars, x.InRange 1 (0 + numAux tp) := by
        intro x hx
        obtain ⟨y, hy, hxy⟩ := mem_flatMap.1 hx
        obtain ⟨u, hu, hyu⟩ := mem_flatMap.1 hy
        have hk : Known 1 (0 + numAux tp) y := hknown u hu y hyu
        cases y with
        | is z => rw [mem_singleton.1 hxy]; exact hk
        | not z => rw [mem_singleton.1 hxy]; exact hk
        | constant z => cases hxy
      have hone : Var.InRange 1 (0 + numAux tp) .one := one_pos
      have key : ∀ x : Var, x.InRange 1 (0 + numAux tp) → x ≠ b0.var := by
        rintro x hx rfl
        rcases (mem_allocated hn2 _).1 (at_allocated hat) with ⟨i, -, e⟩ | ⟨j, -, e⟩
        · rw [e] at hx
          have : 1 + numIn tp + i < 1 := hx
          
          omega
        · rw [e] at hx
          have : 0 + numAux tp + j < 0 + numAux tp := hx
          omega
      exact ⟨(key _ hone).symm, fun x hx => key x (hin x hx)⟩
    -- the new value is another one, so that the system is not satisfied
    have flip : ∀ v : F, v ≠ s.rho b0.var → ∃ s', set (pathStr ["addition", "result bit 0", "boolean"]) v s = some ((), s') ∧ s'.isSatisfied = some false := by
      intro v hv
      obtain ⟨s', g1, -, g3, g4, -⟩ := edited hrec hs ⟨hrec.wf, rfl, rfl, rfl, rfl, rfl⟩ hat' v
      refine ⟨s', by rw [set_eval, g1]; rfl, ?_⟩
      rcases g4 with ⟨-, g4⟩ | ⟨g4, -⟩
      · exfalso
        rw [g3] at g4
        rw [Sat_append] at hsat g4
        have := unique_addition us tm r e3 s.rho _ h1 (by rw [Function.update_of_ne hnew.1.symm]; exact h1)
          (fun u hu => by
            obtain ⟨w, -, hw⟩ := Cost.forall₂_mem_right ho.1.flip hu
            exact ⟨w, HasWord.word hw⟩)
          (fun x hx => (Function.update_of_ne (hnew.2 x hx) ..).symm) hsat.2 g4.2 _ (at_allocated hat)
        rw [Function.update_self] at this
        exact hv this.symm
      · exact g4
    obtain ⟨s1, -, hget, -⟩ := edited hrec hs ⟨hrec.wf, rfl, rfl, rfl, rfl, rfl⟩ hat' 0
    rw [hpath] at hget flip
    rw [isSatisfied_some hs, assert_true rfl, assert_true (by simpa using ho.2.value),
      bind_some (compareBits_word (consts := false) (vars := true) ho.2 fun x hx => by
        have := hfull.2 x hx
        simp [this])]
    rw [bind_some (by rw [get_eval, hget]; rfl)]
    split
    · rename_i h0
      obtain ⟨s', hset, hun⟩ := flip 1 (by rw [h0]; exact one_ne_zero)
      exact ⟨s', by rw [bind_some hset]; exact (isSatisfied_some hun).trans (assert_eval _)⟩
    · rename_i h0
      obtain ⟨s', hset, hun⟩ := flip 0 (Ne.symm h0)
      exact ⟨s', by rw [bind_some hset]; exact (isSatisfied_some hun).trans (assert_eval _)⟩

end Bellman.GadgetTests
