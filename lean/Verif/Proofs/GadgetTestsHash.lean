import Verif.Proofs.GadgetTestsWord
import Verif.Proofs.Bytes
import Verif.Proofs.HashEval

/-! The unit tests of sha256.rs and blake2s.rs, for all drawn data. -/

namespace Bellman.GadgetTests
open PrimeField List Bellman.UInt32
set_option linter.unusedSectionVars false
variable {F : Type} [PrimeField F] {α β : Type} {s : TestCS F} {ρ : Var → F}

/-! ### Names of the bits -/

/-- `input bit {i} {k}`. -/
def bitName (i k : ℕ) : String := s!"input bit {i} {k}"

theorem bitName_eq (i k : ℕ) : bitName i k = "input bit " ++ toString i ++ " " ++ toString k := by
  apply String.toList_inj.1
  simp [bitName, toString]

theorem bitName_inj {i j k l : ℕ} (h : bitName i k = bitName j l) : i = j ∧ k = l := by
  have e (i k : ℕ) : (bitName i k).toList.drop 10 = (toString i).toList ++ ' ' :: (toString k).toList := by
    rw [bitName_eq]
    simp only [String.toList_append, List.append_assoc]
    rfl
  have tw (i : ℕ) (m : List Char) : List.takeWhile Char.isDigit ((toString i).toList ++ ' ' :: m) = (toString i).toList := by
    rw [List.takeWhile_append_of_pos (digits_isDigit i)]
    simp [show Char.isDigit ' ' = false by decide]
  have h' := congrArg (fun s : String => s.toList.drop 10) h
  simp only [e] at h'
  have h1 := congrArg (List.takeWhile Char.isDigit) h'
  rw [tw, tw] at h1
  rw [h1] at h'
  have h2 := List.append_cancel_left h'
  exact ⟨toString_inj (String.toList_inj.1 h1), toString_inj (String.toList_inj.1 (List.cons.inj h2).2)⟩

theorem clean_bitName (i k : ℕ) : Clean (bitName i k) := by
  rw [bitName_eq]
  exact clean_append (clean_append (clean_append (by clean) (clean_toString i)) (by clean)) (clean_toString k)

theorem base_bitName (i k : ℕ) : base (bitName i k) = base "input bit  " := by
  rw [bitName_eq]
  simp only [base_append, base_toString]
  decide

/-- The bits of the bytes from index `i`, with their names. -/
def byteNames (order : List ℕ) (i : ℕ) : List (BitVec 8) → List (String × Bool)
  | [] => []
  | byte :: bytes => order.map (fun k => (bitName i k, byte >>> k &&& 1#8 == 1#8)) ++ byteNames order (i + 1) bytes

theorem byteBits_eq (i : ℕ) (byte : BitVec 8) (order : List ℕ) :
    byteBits (F := F) i byte order = call (allocNamed (order.map fun k => (bitName i k, byte >>> k &&& 1#8 == 1#8))) := by
  induction order with
  | nil => rfl
  | cons k order ih =>
    rw [byteBits, map_cons]
    simp only [allocNamed, call_seq, ih, call_pure]
    rfl

theorem dataBits_eq (order : List ℕ) (i : ℕ) (data : List (BitVec 8)) :
    dataBits (F := F) order i data = call (allocNamed (byteNames order i data)) := by
  induction data generalizing i with
  | nil => rfl
  | cons byte data ih =>
    rw [dataBits, byteNames, call_allocNamed_append, byteBits_eq, ih]

theorem mem_byteNames {order : List ℕ} {i : ℕ} {data : List (BitVec 8)} {n : String} (h : n ∈ (byteNames order i data).map (·.1)) :
    ∃ j k, i ≤ j ∧ n = bitName j k := by
  induction data generalizing i with
  | nil => cases h
  | cons byte data ih =>
    rw [byteNames, map_append, mem_append] at h
    rcases h with h | h
    · simp only [map_map, mem_map, Function.comp] at h
      obtain ⟨k, -, rfl⟩ := h
      exact ⟨i, k, le_rfl, rfl⟩
    · obtain ⟨j, k, hj, rfl⟩ := ih h
      exact ⟨j, k, by omega, rfl⟩

theorem nodup_byteNames {order : List ℕ} (ho : order.Nodup) (i : ℕ) (data : List (BitVec 8)) : ((byteNames order i data).map (·.1)).Nodup := by
  induction data generalizing i with
  | nil => exact nodup_nil
  | cons byte data ih =>
    rw [byteNames, map_append, nodup_append]
    refine ⟨?_, ih (i + 1), ?_⟩
    · simp only [map_map]
      exact ho.map fun k l h => (bitName_inj h).2
    · intro a ha b hb e
      simp only [map_map, mem_map, Function.comp] at ha
      obtain ⟨k, -, rfl⟩ := ha
      obtain ⟨j, l, hj, rfl⟩ := mem_byteNames hb
      have := (bitName_inj e).1
      omega

theorem byteNames_snd (order : List ℕ) (i : ℕ) (data : List (BitVec 8)) :
    (byteNames order i data).map (·.2) = data.flatMap fun b => order.map fun k => b >>> k &&& 1#8 == 1#8 := by
  induction data generalizing i with
  | nil => rfl
  | cons byte data ih => rw [byteNames, map_append, ih, flatMap_cons, map_map]; rfl

theorem bit8 : ∀ k < 8, ∀ b : BitVec 8, (b >>> k &&& 1#8 == 1#8) = b.getLsbD k := by decide +kernel

theorem bits_down (data : List (BitVec 8)) :
    (data.flatMap fun b => [7, 6, 5, 4, 3, 2, 1, 0].map fun k => b >>> k &&& 1#8 == 1#8) = Spec.msbBits data := by
  unfold Spec.msbBits
  congr 1
  funext b
  simp only [map_cons, map_nil]
  rw [bit8 7 (by omega), bit8 6 (by omega), bit8 5 (by omega), bit8 4 (by omega), bit8 3 (by omega), bit8 2 (by omega), bit8 1 (by omega),
    bit8 0 (by omega)]
  rfl

theorem bits_up (data : List (BitVec 8)) :
    (data.flatMap fun b => [0, 1, 2, 3, 4, 5, 6, 7].map fun k => b >>> k &&& 1#8 == 1#8) = Spec.Blake2s.bits data := by
  unfold Spec.Blake2s.bits
  congr 1
  funext b
  simp only [map_cons, map_nil]
  rw [bit8 7 (by omega), bit8 6 (by omega), bit8 5 (by omega), bit8 4 (by omega), bit8 3 (by omega), bit8 2 (by omega), bit8 1 (by omega),
    bit8 0 (by omega)]
  rfl

/-! ### Running a gadget on allocated bits -/

theorem exactly_allocNamed (l : List (String × Bool)) :
    Cost.Exactly (allocNamed l : Synth F _) l.length 0 fun r => NoConstants r ∧ r.length = l.length := by
  induction l with
  | nil => exact Cost.Exactly.pure ⟨fun _ h => absurd h not_mem_nil, rfl⟩
  | cons e l ih =>
    rw [length_cons, Nat.add_comm]
    refine (Cost.Exactly.inNs _ (Cost.exactly_alloc _)).bind (e := 0) (e' := 0) fun b _ => ih.map fun r hr => ⟨?_, by simp [hr.2, Nat.add_comm]⟩
    intro x hx
    rcases mem_cons.1 hx with rfl | hx
    · rfl
    · exact hr.1 x hx

/-- A gadget on allocated bits runs, the system is satisfied, and the size is known. -/
theorem named_run {N : Set String} {l : List (String × Bool)} {g : List Boolean → Synth F β} {Q : (Var → F) → β → Prop} {P : ℕ → β → Prop}
    (hc : ∀ n ∈ l.map (·.1), Clean n ∧ n ≠ "ONE" ∧ n ∉ N) (hd : (l.map (·.1)).Nodup) (hN : "ONE" ∉ N) (hn : ∀ x, SNames N (g x))
    (hl : ∀ k x, Known 1 k x → (g x).run.Scope (fun _ _ _ => True) 1 k)
    (hw : ∀ ρ x, ρ .one = 1 → Forall₂ (Boolean.Has ρ) x (l.map (·.2)) → Synth.wpC ρ (g x) (Q ρ))
    (hp : ∀ x, x.length = l.length → NoConstants x → ∀ t r, Exec (g x).run t (some (.ok r)) → P (consOf t).length r) :
    ∃ r s n, call (allocNamed l >>= g) .new = some (r, s) ∧ s.isSatisfied = some true ∧ Q s.rho r ∧ s.numConstraints = l.length + n ∧ P n r := by
  obtain ⟨r, s, h, hs, hq, -⟩ := run_complete (F := F) (m := allocNamed l >>= g) (N := {n | n ∈ l.map (fun e : String × Bool => e.1)} ∪ N) (Q := Q)
    (SNamesP.bind (snames_allocNamed l (fun e he => (hc _ (mem_map_of_mem he)).1) hd)
      (Set.disjoint_left.2 fun n h1 h2 => (hc n h1).2.2 h2) fun x _ => hn x)
    (by rintro (h | h); exacts [(hc _ h).2.1 rfl, hN h])
    (Preimage.scope_bind (slocal_allocNamed one_pos l) (fun k x _ hx => hl k x hx) fun _ _ => trivial)
    (fun ρ h1 => by
      simp only [Synth.wpC_bind]
      exact Synth.wpC_mono (wpC_allocNamed h1 l) fun x hx => hw ρ x h1 hx)
  obtain ⟨t, he, hrec⟩ := TestCS.run_recorded _ TestCS.WF_new h
  obtain ⟨t1, t2, x, rfl, e1, e2⟩ := Synth.exec_bind_inv he.exec
  obtain ⟨⟨n1, n2⟩, n3, n4⟩ := exactly_allocNamed l _ _ e1
  refine ⟨r, s, (consOf t2).length, call_some h, hs, hq, ?_, hp x n2 n1 _ _ e2⟩
  have := congrArg length hrec.constraints
  rw [consOf_append] at this
  simp only [length_map, length_append, TestCS.new, length_nil, Nat.zero_add] at this
  rw [TestCS.numConstraints]
  omega

theorem compareHash_pass {empty : Bool} {bs : List Boolean} {xs : List Bool} (h : Forall₂ (fun b x => b.getValue = some x) bs xs)
    (hk : ∀ b ∈ bs, b.isConstant = true → empty = true) : compareHash (F := F) empty xs bs s = some ((), s) := by
  induction h with
  | nil => rfl
  | @cons b x bs xs hb _ ih =>
    have ih' := ih fun b hb => hk b (mem_cons_of_mem _ hb)
    unfold compareHash
    cases b with
    | constant c =>
      have hc : c = x := by simpa [Boolean.getValue] using hb
      have hk' : empty = true := hk _ (mem_cons_self ..) rfl
      subst hk' hc
      dsimp only
      rw [assert_true rfl, assert_true (by simp)]
      exact ih'
    | is a =>
      have hc : a.value = some x := hb
      dsimp only
      rw [unwrap_some hc, assert_true (by simp)]
      exact ih'
    | not a =>
      have hc : a.value = some (!x) := by
        have : a.value.map (!·) = some x := hb
        cases hv : a.value with
        | none => simp [hv] at this
        | some v => simp only [hv, Option.map_some, Option.some.injEq] at this; subst this; simp
      dsimp only
      rw [unwrap_some hc, assert_true (by cases x <;> rfl)]
      exact ih'

theorem expectHash_pass {order : List ℕ} {expected : List (BitVec 8)} {out : List Boolean}
    (h : Forall₂ (fun b x => b.getValue = some x) out (expected.flatMap fun b => order.map fun i => b >>> i &&& 1#8 == 1#8)) :
    expectHash (F := F) order expected out s = some ((), s) := by
  unfold expectHash
  generalize (expected.flatMap fun b => order.map fun i => b >>> i &&& 1#8 == 1#8) = xs at h
  induction h with
  | nil => rfl
  | @cons b x bs xs hb _ ih =>
    unfold expectHash.go
    rw [unwrap_some hb, assert_true (by simp)]
    exact ih

theorem assert_last {b : Bool} (h : b = true) : assert b s = some ((), s) := by
  subst h
  rfl

theorem known_bit {n k : ℕ} {c : Bool} : Known n k (Boolean.constant c) := by
  trivial

/-! ### The tests against reference implementations -/

theorem byteNames_ok {N : Set String} (hb : ∀ n, base n = base "input bit  " → n ∉ N) (order : List ℕ) (i : ℕ) (data : List (BitVec 8)) :
    ∀ n ∈ (byteNames order i data).map (·.1), Clean n ∧ n ≠ "ONE" ∧ n ∉ N := by
  intro n hn
  obtain ⟨j, k, -, rfl⟩ := mem_byteNames hn
  refine ⟨clean_bitName j k, fun e => ?_, hb _ (base_bitName j k)⟩
  have := base_bitName j k
  rw [e] at this
  revert this
  decide

theorem byteNames_length (order : List ℕ) (i : ℕ) (data : List (BitVec 8)) : (byteNames order i data).length = order.length * data.length := by
  induction data generalizing i with
  | nil => rfl
  | cons b data ih => simp [byteNames, ih, Nat.mul_add, Nat.add_comm]

theorem nonempty_var {x : List Boolean} {n : ℕ} (hl : x.length = n) (h0 : n ≠ 0) (hx : NoConstants x) : ∃ b ∈ x, b.isConstant = false := by
  cases x with
  | nil => exact absurd hl.symm h0
  | cons b x => exact ⟨b, mem_cons_self .., hx b (mem_cons_self ..)⟩

/-- The run of the test of SHA-256. -/
theorem sha256_run (h64 : 64 ≤ NUM_BITS F) (data : List (BitVec 8)) :
    ∃ r s, (dataBits [7, 6, 5, 4, 3, 2, 1, 0] 0 data >>= fun x => call (Sha256.sha256 x)) TestCS.new = some (r, s) ∧ s.isSatisfied = some true ∧
      Forall₂ (Boolean.Has (F := F) s.rho) r (Spec.msbBits (Spec.digest data)) ∧ (data ≠ [] → NoConstants r) := by
  obtain ⟨r, s, n, h, hs, hq, -, hp⟩ := named_run (F := F) (N := idx "block " {j | 0 ≤ j}) (l := byteNames [7, 6, 5, 4, 3, 2, 1, 0] 0 data)
    (g := Sha256.sha256) (Q := fun ρ r => Forall₂ (Boolean.Has ρ) r (Spec.msbBits (Spec.digest data))) (P := fun _ r => data ≠ [] → NoConstants r)
    (byteNames_ok (fun n hn => not_mem_idx_base (by rw [hn]; decide)) _ _ _) (nodup_byteNames (by decide) _ _) (by fresh) Sha256.snames_sha256
    (fun k x hx => (Sha256.slocal_sha256 one_pos hx).mono fun _ _ _ _ _ _ => trivial)
    (fun ρ x h1 hx => by
      rw [byteNames_snd, bits_down] at hx
      rw [Preimage.msbBits_digest]
      exact Sha256.wpC_sha256 h1 h64 hx (by rw [hx.length_eq]; simp [Spec.msbBits]))
    (fun x hl hx t r he hne => Sha256.sp_sha256 (nonempty_var hl (by
      rw [byteNames_length]
      cases data
      · exact absurd rfl hne
      · simp) hx) _ _ he)
  refine ⟨r, s, ?_, hs, hq, hp⟩
  rw [dataBits_eq, ← call_seq]
  exact h

theorem sha256Vectors_passes (h64 : 64 ≤ NUM_BITS F) (data : List (BitVec 8)) : Passes (sha256Vectors (F := F) data) := by
  obtain ⟨r, s, h, hs, hq, hp⟩ := sha256_run h64 data
  refine ⟨s, ?_⟩
  unfold sha256Vectors
  dsimp only
  rw [← bind_assoc, bind_some h, isSatisfied_some hs, assert_true rfl, bits_down]
  refine compareHash_pass (hq.imp fun _ _ h => h.1) fun b hb hc => ?_
  cases data with
  | nil => rfl
  | cons x data =>
    rw [hp (by simp) b hb] at hc
    cases hc

/-- The run of the tests of BLAKE2s. -/
theorem blake2s_run (h64 : 64 ≤ NUM_BITS F) (data : List (BitVec 8)) :
    ∃ r s, (dataBits [0, 1, 2, 3, 4, 5, 6, 7] 0 data >>= fun x => call (Blake2s.blake2s x person)) TestCS.new = some (r, s) ∧ s.isSatisfied = some true ∧
      Forall₂ (Boolean.Has (F := F) s.rho) r (Spec.Blake2s.bits (Spec.Blake2s.blake2s person data)) ∧ (data ≠ [] → NoConstants r) := by
  obtain ⟨r, s, n, h, hs, hq, -, hp⟩ := named_run (F := F) (N := idx "block " {j | 0 ≤ j} ∪ {"final block"}) (l := byteNames [0, 1, 2, 3, 4, 5, 6, 7] 0 data)
    (g := fun x => Blake2s.blake2s x person) (Q := fun ρ r => Forall₂ (Boolean.Has ρ) r (Spec.Blake2s.bits (Spec.Blake2s.blake2s person data)))
    (P := fun _ r => data ≠ [] → NoConstants r)
    (byteNames_ok (fun n hn => by
      rintro (h | rfl)
      · exact not_mem_idx_base (by rw [hn]; decide) h
      · revert hn
        decide) _ _ _) (nodup_byteNames (by decide) _ _) (by fresh) (fun x => Blake2s.snames_blake2s x _)
    (fun k x hx => (Blake2s.slocal_blake2s one_pos _ hx).mono fun _ _ _ _ _ _ => trivial)
    (fun ρ x h1 hx => by
      rw [byteNames_snd, bits_up] at hx
      exact Blake2s.wpC_blake2s h1 h64 hx rfl)
    (fun x hl hx t r he hne => Blake2s.sp_blake2s _ (nonempty_var hl (by
      rw [byteNames_length]
      cases data
      · exact absurd rfl hne
      · simp) hx) _ _ he)
  refine ⟨r, s, ?_, hs, hq, hp⟩
  rw [dataBits_eq, ← call_seq]
  exact h

theorem blake2sVectors_passes (h64 : 64 ≤ NUM_BITS F) (data : List (BitVec 8)) : Passes (blake2sVectors (F := F) data) := by
  obtain ⟨r, s, h, hs, hq, hp⟩ := blake2s_run h64 data
  refine ⟨s, ?_⟩
  unfold blake2sVectors
  dsimp only
  rw [← bind_assoc, bind_some h, isSatisfied_some hs, assert_true rfl, bits_up]
  refine compareHash_pass (hq.imp fun _ _ h => h.1) fun b hb hc => ?_
  cases data with
  | nil => rfl
  | cons x data =>
    rw [hp (by simp) b hb] at hc
    cases hc

theorem expectHash_iff {order : List ℕ} {expected : List (BitVec 8)} {out : List Boolean} {ys : List Bool}
    (h : Forall₂ (fun b x => b.getValue = some x) out ys) :
    (∃ s', expectHash (F := F) order expected out s = some ((), s')) ↔ (expected.flatMap fun b => order.map fun i => b >>> i &&& 1#8 == 1#8) <+: ys := by
  unfold expectHash
  generalize (expected.flatMap fun b => order.map fun i => b >>> i &&& 1#8 == 1#8) = xs
  induction h generalizing xs with
  | nil =>
    cases xs with
    | nil => exact ⟨fun _ => nil_prefix, fun _ => ⟨s, rfl⟩⟩
    | cons x xs => exact ⟨fun ⟨_, h⟩ => (by cases h), fun h => (by simp at h)⟩
  | @cons b y bs ys hb _ ih =>
    cases xs with
    | nil => exact ⟨fun _ => nil_prefix, fun _ => ⟨s, rfl⟩⟩
    | cons x xs =>
      unfold expectHash.go
      rw [unwrap_some hb, cons_prefix_cons]
      by_cases hxy : y = x
      · rw [assert_true (by simp [hxy]), ih]
        exact ⟨fun h => ⟨hxy.symm, h⟩, fun h => h.2⟩
      · rw [show decide (y = x) = false by simp [hxy]]
        exact ⟨fun ⟨_, h⟩ => (by cases h), fun h => absurd h.1.symm hxy⟩

theorem bits_cons (b : BitVec 8) (l : List (BitVec 8)) :
    Spec.Blake2s.bits (b :: l) = (List.range 8).map (fun i => b.getLsbD i) ++ Spec.Blake2s.bits l := rfl

theorem bits_prefix {l l' : List (BitVec 8)} : Spec.Blake2s.bits l <+: Spec.Blake2s.bits l' ↔ l <+: l' := by
  induction l generalizing l' with
  | nil => exact ⟨fun _ => nil_prefix, fun _ => nil_prefix⟩
  | cons b l ih =>
    cases l' with
    | nil =>
      constructor
      · intro h
        have := h.length_le
        simp [Spec.Blake2s.bits] at this
      · intro h
        simp at h
    | cons b' l' =>
      rw [bits_cons, bits_cons, cons_prefix_cons, ← ih]
      constructor
      · intro h
        obtain ⟨t, ht⟩ := h
        rw [append_assoc] at ht
        obtain ⟨e1, e2⟩ := append_inj ht (by simp)
        refine ⟨BitVec.eq_of_getLsbD_eq fun i hi => ?_, ⟨t, e2⟩⟩
        exact map_inj_left.1 e1 i (mem_range.2 hi)
      · rintro ⟨rfl, h⟩
        exact (prefix_append_right_inj _).2 h

theorem blake2sVars_iff (h64 : 64 ≤ NUM_BITS F) (data expected : List (BitVec 8)) :
    Passes (blake2sVars (F := F) data expected) ↔ expected <+: Spec.Blake2s.blake2s person data := by
  obtain ⟨r, s, h, hs, hq, hp⟩ := blake2s_run h64 data
  unfold Passes blake2sVars
  rw [← bind_assoc, bind_some h, isSatisfied_some hs, assert_true rfl, expectHash_iff (hq.imp fun _ _ h => h.1), bits_up, bits_prefix]

theorem blake2sTestVectors_iff (h64 : 64 ≤ NUM_BITS F) (data expected : List (BitVec 8)) :
    Passes (blake2sTestVectors (F := F) data expected) ↔ expected = Spec.Blake2s.blake2s person data := by
  obtain ⟨r, s, h, hs, hq, hp⟩ := blake2s_run h64 data
  unfold Passes blake2sTestVectors
  dsimp only
  rw [← bind_assoc, bind_some h, isSatisfied_some hs, assert_true rfl, bits_up, bind_some (compareHash_pass (hq.imp fun _ _ h => h.1) fun b hb hc => ?_)]
  · rw [assert_eval]
    by_cases e : expected = Spec.Blake2s.blake2s person data
    · simp [e]
    · simp [e]
  cases data with
  | nil => rfl
  | cons x data =>
    rw [hp (by simp) b hb] at hc
    cases hc

/-! ### The tests of the number of constraints -/

theorem nodup_numbered (p : String) (i : ℕ) (bs : List Bool) : ((numbered p i bs).map (·.1)).Nodup := by
  induction bs generalizing i with
  | nil => simp [numbered]
  | cons b bs ih =>
    rw [numbered_cons, List.map_cons, List.nodup_cons]
    exact ⟨fun h => succ_not_mem p i (mem_numbered h), ih _⟩

theorem numbered_ok {N : Set String} (hb : ∀ n, base n = base "input bit " → n ∉ N) (i : ℕ) (bs : List Bool) :
    ∀ n ∈ (numbered "input bit " i bs).map (·.1), Clean n ∧ n ≠ "ONE" ∧ n ∉ N := by
  intro n hn
  obtain ⟨j, -, rfl⟩ := mem_numbered hn
  have hbase : base ("input bit " ++ toString j) = base "input bit " := by
    rw [base_append, base_toString, List.append_nil]
  refine ⟨clean_idx (by clean) j, fun e => ?_, hb _ hbase⟩
  rw [e] at hbase
  revert hbase
  decide

theorem numbered_length (p : String) (i : ℕ) (bs : List Bool) : (numbered p i bs).length = bs.length := by simp [numbered]

/-- Whole bytes of bits are the bits of a byte string. -/
theorem exists_bytes (l : List Bool) (m : ℕ) (hl : l.length = 8 * m) : ∃ msg, Spec.Blake2s.bits msg = l := by
  refine ⟨(List.range m).map fun i => BitVec.ofNat 8 (bitsVal ((List.range 8).map fun j => l.getD (8 * i + j) false)), ?_⟩
  unfold Spec.Blake2s.bits
  rw [Preimage.flatMap_bytes (fun (b : BitVec 8) i => b.getLsbD i) _ (fun j => l.getD j false) m]
  · apply List.ext_getElem
    · simp [hl]
    · intro i h1 h2
      simp [List.getD_eq_getElem?_getD, h2]
  · intro i hi
    exact Preimage.byte_of_bits _ (by simp)

theorem sha256FullBlock_passes (h64 : 64 ≤ NUM_BITS F) (hc : CAPACITY F = 254) (bits : List Bool) (hl : bits.length = 512) :
    Passes (sha256FullBlock (F := F) bits) := by
  obtain ⟨r, s, n, h, hs, -, hn, hp⟩ := named_run (F := F) (N := {"sha256"}) (l := numbered "input bit " 0 bits)
    (g := fun x => Synth.inNs "sha256" (Sha256.compression x Sha256.iv)) (Q := fun _ _ => True) (P := fun n _ => n = 25840)
    (numbered_ok (fun n hn => by rintro rfl; revert hn; decide) _ _) (nodup_numbered _ _ _) (by fresh)
    (fun x => SNamesP.inNs (by clean) (Sha256.snames_compression _ _))
    (fun k x hx => (SLocal.inNs _ (Sha256.slocal_compression one_pos hx Sha256.known_iv)).mono fun _ _ _ _ _ _ => trivial)
    (fun ρ x h1 hx => by
      rw [numbered_snd] at hx
      rw [Synth.wpC_inNs]
      exact Synth.wpC_mono (Sha256.wpC_compression h1 h64 hx (by rw [hx.length_eq, hl]) Sha256.hasWord_iv) fun _ _ => trivial)
    (fun x hxl hx t r he => by
      have := (Cost.Exactly.inNs "sha256" (Cost.Sha256.exactly_first hc hx (by rw [hxl, numbered_length, hl]))) t r he
      omega)
  refine ⟨s, ?_⟩
  unfold sha256FullBlock
  rw [inputBits_eq, ← bind_assoc, ← call_seq, bind_some h, isSatisfied_some hs, assert_true rfl, bind_some numConstraints_eval]
  exact assert_last (by rw [hn, numbered_length, hl, hp]; rfl)

theorem blake2sPrecompConstraints_passes (h64 : 64 ≤ NUM_BITS F) (hc : CAPACITY F = 254) (leading bits : List Bool) (p : ℕ)
    (hp : leading.length = 512 * p) (hl : bits.length = 512) : Passes (blake2sPrecompConstraints (F := F) leading bits) := by
  obtain ⟨msg, hmsg⟩ := exists_bytes (leading ++ bits) (64 * (p + 1)) (by rw [length_append, hp, hl]; ring)
  obtain ⟨r, s, n, h, hs, -, hn, hp⟩ := named_run (F := F) (N := idx "block " {j | 0 ≤ j} ∪ {"final block"}) (l := numbered "input bit " 0 bits)
    (g := fun x => Blake2s.blake2s (leading.map Boolean.constant ++ x) person) (Q := fun _ _ => True) (P := fun n _ => n = 21006)
    (numbered_ok (fun n hn => by
      rintro (h | rfl)
      · exact not_mem_idx_base (by rw [hn]; decide) h
      · revert hn
        decide) _ _) (nodup_numbered _ _ _) (by fresh)
    (fun x => Blake2s.snames_blake2s _ _)
    (fun k x hx => (Blake2s.slocal_blake2s one_pos _ (by
      intro b hb
      rcases mem_append.1 hb with hb | hb
      · obtain ⟨c, -, rfl⟩ := mem_map.1 hb
        exact known_bit
      · exact hx b hb)).mono fun _ _ _ _ _ _ => trivial)
    (fun ρ x h1 hx => by
      rw [numbered_snd] at hx
      refine Synth.wpC_mono (Blake2s.wpC_blake2s h1 h64 (msg := msg) ?_ rfl) fun _ _ => trivial
      rw [hmsg]
      refine rel_append ?_ hx
      rw [forall₂_map_left_iff]
      exact forall₂_same.2 fun b _ => Boolean.has_constant.2 rfl)
    (fun x hxl hx t r he => by
      have := C55_blake2s hc (pre := leading.map Boolean.constant) (by
        intro b hb
        obtain ⟨c, -, rfl⟩ := mem_map.1 hb
        rfl) (by rw [length_map, hp]) hx (b := 0) (by rw [hxl, numbered_length, hl]) person t r he
      omega)
  refine ⟨s, ?_⟩
  unfold blake2sPrecompConstraints
  rw [inputBits_eq, ← bind_assoc, ← call_seq, bind_some h, isSatisfied_some hs, assert_true rfl, bind_some numConstraints_eval]
  exact assert_last (by rw [hn, numbered_length, hl, hp]; rfl)

theorem blake2sConstraints_passes (h64 : 64 ≤ NUM_BITS F) (hc : CAPACITY F = 254) (bits : List Bool) (hl : bits.length = 512) :
    Passes (blake2sConstraints (F := F) bits) :=
  blake2sPrecompConstraints_passes h64 hc [] bits 0 rfl hl

/-! ### The tests on constants -/

theorem blake2s_constants (h64 : 64 ≤ NUM_BITS F) (bits : List Bool) (msg : List (BitVec 8)) (hm : Spec.Blake2s.bits msg = bits) :
    ∃ r s, call (Blake2s.blake2s (bits.map Boolean.constant) person) TestCS.new = some (r, s) ∧ s.isSatisfied = some true ∧
      Forall₂ (Boolean.Has (F := F) s.rho) r (Spec.Blake2s.bits (Spec.Blake2s.blake2s person msg)) ∧ s.numConstraints = 0 := by
  obtain ⟨r, s, n, h, hs, hq, hn, hp⟩ := named_run (F := F) (N := idx "block " {j | 0 ≤ j} ∪ {"final block"}) (l := [])
    (g := fun _ => Blake2s.blake2s (bits.map Boolean.constant) person)
    (Q := fun ρ r => Forall₂ (Boolean.Has ρ) r (Spec.Blake2s.bits (Spec.Blake2s.blake2s person msg))) (P := fun n _ => n = 0)
    (by simp) (by simp) (by fresh)
    (fun x => Blake2s.snames_blake2s _ _)
    (fun k x hx => (Blake2s.slocal_blake2s one_pos _ (by
      intro b hb
      obtain ⟨c, -, rfl⟩ := mem_map.1 hb
      exact known_bit)).mono fun _ _ _ _ _ _ => trivial)
    (fun ρ x h1 hx => by
      refine Blake2s.wpC_blake2s h1 h64 (msg := msg) ?_ rfl
      rw [hm, forall₂_map_left_iff]
      exact forall₂_same.2 fun b _ => Boolean.has_constant.2 rfl)
    (fun x hxl hx t r he => by
      have := (C55_constants (F := F) (input := bits.map Boolean.constant) (by
        intro b hb
        obtain ⟨c, -, rfl⟩ := mem_map.1 hb
        rfl) person).2 t r he
      omega)
  refine ⟨r, s, ?_, hs, hq, by rw [hn, hp]; rfl⟩
  exact h

theorem blake2sConstantConstraints_passes (h64 : 64 ≤ NUM_BITS F) (bits : List Bool) (m : ℕ) (hl : bits.length = 8 * m) :
    Passes (blake2sConstantConstraints (F := F) bits) := by
  obtain ⟨msg, hm⟩ := exists_bytes bits m hl
  obtain ⟨r, s, h, hs, hq, hn⟩ := blake2s_constants h64 bits msg hm
  refine ⟨s, ?_⟩
  unfold blake2sConstantConstraints
  rw [bind_some h, bind_some numConstraints_eval]
  exact assert_last (by rw [hn]; rfl)

theorem blake2sBlankHash_passes (h64 : 64 ≤ NUM_BITS F) : Passes (blake2sBlankHash (F := F)) := by
  obtain ⟨r, s, h, hs, hq, hn⟩ := blake2s_constants (F := F) h64 [] [] rfl
  refine ⟨s, ?_⟩
  unfold blake2sBlankHash
  rw [show Blake2s.blake2s [] person = Blake2s.blake2s ([].map Boolean.constant) person from rfl, bind_some h, isSatisfied_some hs, assert_true rfl,
    bind_some numConstraints_eval, assert_true (by rw [hn]; rfl)]
  refine expectHash_pass ?_
  rw [bits_up]
  have e : Spec.Blake2s.blake2s person [] =
    [0xc5, 0x9f, 0x68, 0x23, 0x76, 0xd1, 0x37, 0xf3, 0xf2, 0x55, 0xe6, 0x71, 0xe2, 0x07, 0xd1, 0xf2,
     0x37, 0x4e, 0xbe, 0x50, 0x4e, 0x93, 0x14, 0x20, 0x8a, 0x52, 0xd9, 0xf8, 0x8d, 0x69, 0xe8, 0xc8] := by decide +kernel
  rw [← e]
  exact hq.imp fun _ _ h => h.1

theorem allC_iv : Cost.AllC Sha256.iv := by
  intro u hu
  obtain ⟨v, -, rfl⟩ := mem_map.1 (show u ∈ Sha256.IV.map UInt32.constant from hu)
  exact ⟨v, rfl⟩

theorem one_not_compression : "ONE" ∉ Sha256.compressionNames := by
  unfold Sha256.compressionNames Sha256.bodyNames Sha256.outNames
  fresh

/-- The compression of a block of constants. -/
theorem compression_constants (h64 : 64 ≤ NUM_BITS F) (bits : List Bool) (hl : bits.length = 512) :
    ∃ r s, call (Sha256.compression (bits.map Boolean.constant) Sha256.iv) TestCS.new = some (r, s) ∧ s.isSatisfied = some true ∧
      Forall₂ (Boolean.Has (F := F) s.rho) (r.flatMap UInt32.intoBitsBe) (Spec.Sha256.sha256Block bits) ∧ s.numConstraints = 0 := by
  obtain ⟨r, s, n, h, hs, hq, hn, hp⟩ := named_run (F := F) (N := Sha256.compressionNames) (l := [])
    (g := fun _ => Sha256.compression (bits.map Boolean.constant) Sha256.iv)
    (Q := fun ρ r => Forall₂ (Boolean.Has ρ) (r.flatMap UInt32.intoBitsBe) (Spec.Sha256.sha256Block bits))
    (P := fun n _ => n = 0)
    (by simp) (by simp) one_not_compression
    (fun x => Sha256.snames_compression _ _)
    (fun k x hx => (Sha256.slocal_compression one_pos (by
      intro b hb
      obtain ⟨c, -, rfl⟩ := mem_map.1 hb
      exact known_bit) Sha256.known_iv).mono fun _ _ _ _ _ _ => trivial)
    (fun ρ x h1 hx => by
      refine Synth.wpC_mono (Sha256.wpC_compression h1 h64 (xs := bits) ?_ (by simpa using hl) Sha256.hasWord_iv) fun o ho => ?_
      · rw [forall₂_map_left_iff]
        exact forall₂_same.2 fun b _ => Boolean.has_constant.2 rfl
      · rw [Spec.Sha256.sha256Block, Sha256.state_bits]
        exact Sha256.rel_out (ho.imp fun _ _ h => h.bits))
    (fun x hxl hx t r he => by
      have := Cost.Sha256.exactly_compressionC (F := F) (input := bits.map Boolean.constant) (by
        intro b hb
        obtain ⟨c, -, rfl⟩ := mem_map.1 hb
        rfl) allC_iv t r he
      omega)
  exact ⟨r, s, h, hs, hq, by rw [hn, hp]; rfl⟩

theorem sha256_blank : Spec.Sha256.sha256Block (true :: List.replicate 511 false) = Spec.msbBits
    [0xe3, 0xb0, 0xc4, 0x42, 0x98, 0xfc, 0x1c, 0x14, 0x9a, 0xfb, 0xf4, 0xc8, 0x99, 0x6f, 0xb9, 0x24,
     0x27, 0xae, 0x41, 0xe4, 0x64, 0x9b, 0x93, 0x4c, 0xa4, 0x95, 0x99, 0x1b, 0x78, 0x52, 0xb8, 0x55] := by
  rw [Spec.Sha256.sha256Block, KnownAnswer.compress_window]
  have h2 : (List.range 16).map (Spec.Sha256.wordAt (true :: List.replicate 511 false)) = [0x80000000, 0, 0, 0, 0, 0, 0, 0, 0, 0, 0, 0, 0, 0, 0, 0] := by
    decide +kernel
  rw [h2]
  decide +kernel

theorem sha256BlankHash_passes (h64 : 64 ≤ NUM_BITS F) : Passes (sha256BlankHash (F := F)) := by
  obtain ⟨r, s, h, hs, hq, hn⟩ := compression_constants (F := F) h64 (true :: List.replicate 511 false)
    (by rw [length_cons, length_replicate])
  refine ⟨s, ?_⟩
  unfold sha256BlankHash
  dsimp only
  rw [show Boolean.constant true :: List.replicate 511 (Boolean.constant false) = (true :: List.replicate 511 false).map Boolean.constant by
      rw [map_cons, map_replicate],
    bind_some h, isSatisfied_some hs, assert_true rfl, bind_some numConstraints_eval, assert_true (by rw [hn]; rfl)]
  refine expectHash_pass ?_
  rw [bits_down]
  rw [← sha256_blank]
  exact hq.imp fun _ _ h => h.1

/-! ### The expected hashes -/

/-- `XorShift.bytes`, with the words evaluated. -/
def draw {α : Type} : ℕ → XorShift → (List (BitVec 8) → XorShift → α) → α
  | 0, r, k => k [] r
  | n + 1, r, k => KnownAnswer.force r.next.w fun w => draw n ⟨r.y, r.z, r.w, w⟩ fun l r => k (w.setWidth 8 :: l) r

theorem draw_eq {α : Type} (n : ℕ) (r : XorShift) (k : List (BitVec 8) → XorShift → α) : draw n r k = k (r.bytes n).1 (r.bytes n).2 := by
  induction n generalizing r k with
  | zero => rfl
  | succ n ih =>
    rw [draw, KnownAnswer.force_eq, ih]
    rfl

theorem bytes_length (n : ℕ) (r : XorShift) : (r.bytes n).1.length = n := by
  induction n generalizing r with
  | zero => rfl
  | succ n ih => exact congrArg (· + 1) (ih r.next)

theorem vector_0 : Spec.Blake2s.blake2s person (vectorRng.bytes 1024).1 = hexBytes 32 0xa1309e334376c8f36a736a4ab0e691ef931ee3ebdb9ea96187127136fea622a1 := by
  rw [KnownAnswer.blake2s_eq _ _ 15 (by rw [bytes_length]; rfl), bytes_length]
  rw [← draw_eq 1024 vectorRng (fun m _ => List.flatMap Spec.Blake2s.leBytes (KnownAnswer.chainFrom 1024 0 15 m (Spec.Blake2s.start person)))]
  decide +kernel

theorem vector_1 : Spec.Blake2s.blake2s person ((vectorRng.bytes 1024).2.bytes 1024).1 = hexBytes 32 0x82fefff60f265cea255252f7c194a7f93965dffee0609ef74eb67f0d76cd41c6 := by
  rw [KnownAnswer.blake2s_eq _ _ 15 (by rw [bytes_length]; rfl), bytes_length]
  rw [← draw_eq 1024 vectorRng (fun _ r => List.flatMap Spec.Blake2s.leBytes (KnownAnswer.chainFrom 1024 0 15 (r.bytes 1024).1 (Spec.Blake2s.start person)))]
  simp only [← draw_eq 1024 _ (fun m _ => List.flatMap Spec.Blake2s.leBytes (KnownAnswer.chainFrom 1024 0 15 m (Spec.Blake2s.start person)))]
  decide +kernel

theorem hexBytes_length (len n : ℕ) : (hexBytes len n).length = len := by simp [hexBytes]

theorem vector_256 : Spec.Blake2s.blake2s person data256 = expected256 := by
  have hl : data256.length = 256 := hexBytes_length _ _
  rw [KnownAnswer.blake2s_eq _ _ 3 (by rw [hl]; rfl), hl]
  decide +kernel

theorem vector_700 : Spec.Blake2s.blake2s person data700 = expected700 := by
  have hl : data700.length = 700 := hexBytes_length _ _
  rw [KnownAnswer.blake2s_eq _ _ 10 (by rw [hl]; rfl), hl]
  decide +kernel

theorem blake2s256Vars_passes (h64 : 64 ≤ NUM_BITS F) : Passes (blake2sVars (F := F) data256 expected256) :=
  (blake2sVars_iff h64 _ _).2 (vector_256 ▸ prefix_rfl)

theorem blake2s700Vars_passes (h64 : 64 ≤ NUM_BITS F) : Passes (blake2sVars (F := F) data700 expected700) :=
  (blake2sVars_iff h64 _ _).2 (vector_700 ▸ prefix_rfl)

theorem blake2sTestVectors_all (h64 : 64 ≤ NUM_BITS F) :
    Forall₂ (fun data expected => Passes (blake2sTestVectors (F := F) data expected)) vectorData vectorHashes := by
  refine .cons ?_ (.cons ?_ .nil)
  · exact (blake2sTestVectors_iff h64 _ _).2 vector_0.symm
  · exact (blake2sTestVectors_iff h64 _ _).2 vector_1.symm

end Bellman.GadgetTests
