import Verif.Spec.Depends
import Verif.Props.Cost
import Verif.Proofs.Sizes

/-!
# C82: the exact size of every elementary gadget

The number of variables and constraints a gadget adds is what its user pays for it.  C51 bounds it; here it is given exactly, whatever the
witness and whichever constraint system runs the circuit.  For the gadgets on bits it depends on which operands are constants, and the
claim is that constants are made use of: the cost is that of the function which remains when the constants are filled in.  It is
stated by the number of operands on which this function depends (`Spec/Depends.lean`), without reference to the cases which the code
distinguishes.  There is one exception, `C82_ch_true`.
-/

namespace Bellman

open PrimeField List

set_option linter.unusedSectionVars false

variable {F : Type} [PrimeField F]

private theorem relevant_two {f : (Fin 2 → Bool) → Bool} (a b : Boolean) :
    relevant f ![a, b] = Fintype.card {i // Matters f ![fixedValue a, fixedValue b] i} := by
  unfold relevant
  congr! 4
  funext j
  match j with
  | 0 => rfl
  | 1 => rfl

private theorem relevant_three {f : (Fin 3 → Bool) → Bool} (a b c : Boolean) :
    relevant f ![a, b, c] = Fintype.card {i // Matters f ![fixedValue a, fixedValue b, fixedValue c] i} := by
  unfold relevant
  congr! 4
  funext j
  match j with
  | 0 => rfl
  | 1 => rfl
  | 2 => rfl

/-- The functions computed by the gadgets. -/
abbrev xor2 (x : Fin 2 → Bool) : Bool := x 0 ^^ x 1
abbrev and2 (x : Fin 2 → Bool) : Bool := x 0 && x 1
abbrev ch3 (x : Fin 3 → Bool) : Bool := if x 0 then x 1 else x 2
abbrev maj3 (x : Fin 3 → Bool) : Bool := decide (2 ≤ (x 0).toNat + (x 1).toNat + (x 2).toNat)

private theorem relevant_xor_eq : ∀ k l, Fintype.card {i // Matters xor2 ![k, l] i} = (if k = none then 1 else 0) + if l = none then 1 else 0 := by
  decide +kernel

private theorem relevant_and_eq : ∀ k l, Fintype.card {i // Matters and2 ![k, l] i} =
    if k = some false ∨ l = some false then 0 else (if k = none then 1 else 0) + if l = none then 1 else 0 := by
  decide +kernel

private def chCount : Option Bool → Option Bool → Option Bool → ℕ
  | some true, none, _ => 1
  | some true, some _, _ => 0
  | some false, _, none => 1
  | some false, _, some _ => 0
  | none, some x, some y => if x = y then 0 else 1
  | none, some _, none => 2
  | none, none, some _ => 2
  | none, none, none => 3

private theorem relevant_ch_eq : ∀ k l m, Fintype.card {i // Matters ch3 ![k, l, m] i} = chCount k l m := by
  decide +kernel

private def majCount : Option Bool → Option Bool → Option Bool → ℕ
  | none, none, none => 3
  | none, none, some _ | none, some _, none | some _, none, none => 2
  | none, some x, some y | some x, none, some y | some x, some y, none => if x = y then 0 else 1
  | some _, some _, some _ => 0

private theorem relevant_maj_eq : ∀ k l m, Fintype.card {i // Matters maj3 ![k, l, m] i} = majCount k l m := by
  decide +kernel

/-- C82 for `Boolean::xor`: one gate if the result depends on both operands, none otherwise; the result is a constant exactly if it
depends on none. -/
theorem C82_xor (a b : Boolean) :
    HasSize (Boolean.xor a b : Synth F _) (relevant xor2 ![a, b] - 1) (relevant xor2 ![a, b] - 1)
      fun r => r.isConstant = true ↔ relevant xor2 ![a, b] = 0 := by
  rw [relevant_two, relevant_xor_eq]
  rcases a with a | a | (_ | _) <;> rcases b with b | b | (_ | _) <;>
    first
    | exact (Cost.Exactly.pure (by simp [fixedValue, Boolean.isConstant, Boolean.neg])).hasSize rfl
    | exact ((Cost.exactly_xor _ _).map fun _ _ => by simp [fixedValue, Boolean.isConstant, Boolean.neg]).hasSize rfl

/-- C82 for `Boolean::and`, likewise. -/
theorem C82_and (a b : Boolean) :
    HasSize (Boolean.and a b : Synth F _) (relevant and2 ![a, b] - 1) (relevant and2 ![a, b] - 1)
      fun r => r.isConstant = true ↔ relevant and2 ![a, b] = 0 := by
  rw [relevant_two, relevant_and_eq]
  rcases a with a | a | (_ | _) <;> rcases b with b | b | (_ | _) <;>
    first
    | exact (Cost.Exactly.pure (by simp [fixedValue, Boolean.isConstant])).hasSize rfl
    | exact ((Cost.exactly_and _ _).map fun _ _ => by simp [fixedValue, Boolean.isConstant]).hasSize rfl
    | exact ((Cost.exactly_andNot _ _).map fun _ _ => by simp [fixedValue, Boolean.isConstant]).hasSize rfl
    | exact ((Cost.exactly_nor _ _).map fun _ _ => by simp [fixedValue, Boolean.isConstant]).hasSize rfl

private theorem exactly_and2 (a b : Boolean) : Cost.Exactly (Boolean.and a b : Synth F _) (relevant and2 ![a, b] - 1) 0
    fun r => r.isConstant = true ↔ relevant and2 ![a, b] = 0 :=
  fun t r he => ⟨(C82_and a b t r he).2.2, (C82_and a b t r he).1, (C82_and a b t r he).2.1⟩

private theorem isConstant_neg (r : Boolean) : r.neg.isConstant = r.isConstant := by cases r <;> rfl

private theorem notConstant {n k : ℕ} (h : n = k + 1) (r : Boolean) (hr : Cost.AB.Fits r .var) : r.isConstant = true ↔ n = 0 := by
  subst h
  rcases r with _ | _ | _ <;> simp [Boolean.isConstant, Cost.AB.Fits] at hr ⊢

private theorem size_and {m : Synth F Boolean} {a b : Boolean} {n g c : ℕ} {Q : Boolean → Prop} (hm : m = Boolean.and a b)
    (h : Fintype.card {i // Matters and2 ![fixedValue a, fixedValue b] i} = n) (hg : g = n - 1) (hc : c = n - 1) (hq : ∀ r, (r.isConstant = true ↔ n = 0) → Q r) :
    HasSize m g c Q := by
  subst hm hg hc h
  rw [← relevant_two] at hq ⊢
  exact ((exactly_and2 a b).mono hq).hasSize rfl

private theorem size_and_neg {m : Synth F Boolean} {a b : Boolean} {n g c : ℕ} {Q : Boolean → Prop}
    (hm : m = Boolean.and a b >>= fun r => pure r.neg)
    (h : Fintype.card {i // Matters and2 ![fixedValue a, fixedValue b] i} = n) (hg : g = n - 1) (hc : c = n - 1) (hq : ∀ r, (r.isConstant = true ↔ n = 0) → Q r) :
    HasSize m g c Q := by
  subst hm hg hc h
  rw [← relevant_two] at hq ⊢
  exact ((exactly_and2 a b).map fun r hr => hq _ (by rw [isConstant_neg]; exact hr)).hasSize rfl

/-- C82 for `Boolean::sha256_ch`: one gate if the result depends on two operands or three, none otherwise, except in one case. -/
theorem C82_ch (a b c : Boolean) (h : ¬ (fixedValue a = some true ∧ fixedValue b = none ∧ fixedValue c = none)) :
    HasSize (Boolean.sha256Ch a b c : Synth F _) (min 1 (relevant ch3 ![a, b, c] - 1)) (min 1 (relevant ch3 ![a, b, c] - 1))
      fun r => r.isConstant = true ↔ relevant ch3 ![a, b, c] = 0 := by
  rw [relevant_three, relevant_ch_eq]
  rcases a with a | a | (_ | _) <;> rcases b with b | b | (_ | _) <;> rcases c with c | c | (_ | _) <;>
    first
    | exact absurd ⟨rfl, rfl, rfl⟩ h
    | exact (Cost.Exactly.pure (by simp [fixedValue, Boolean.isConstant, Boolean.neg, chCount])).hasSize rfl
    | exact (Cost.Exactly.mono (Cost.exactly_chAlloc _ _ _) (by rintro (_ | _ | _) h <;> simp_all [fixedValue, Boolean.isConstant, chCount, Cost.AB.Fits])).hasSize rfl
    | simp only [Boolean.sha256Ch]; exact size_and rfl (relevant_and_eq _ _) rfl rfl fun _ h => h
    | simp only [Boolean.sha256Ch]; exact size_and_neg rfl (relevant_and_eq _ _) rfl rfl fun _ h => h

/-- C82: the one case in which a constant operand is not made use of.  If the first operand is the constant true then the result is
the second operand, but a gate is spent on a copy of it (src/gadgets/boolean.rs:580-586, "So we just continue!"). -/
theorem C82_ch_true {a b c : Boolean} (ha : fixedValue a = some true) (hb : fixedValue b = none) (hc : fixedValue c = none) :
    relevant ch3 ![a, b, c] = 1 ∧ HasSize (Boolean.sha256Ch a b c : Synth F _) 1 1 fun r => r.isConstant = false := by
  constructor
  · rw [relevant_three, relevant_ch_eq, ha, hb, hc]; rfl
  · rcases a with a | a | (_ | _) <;> rcases b with b | b | (_ | _) <;> rcases c with c | c | (_ | _) <;>
      simp only [fixedValue, reduceCtorEq, Option.some.injEq] at ha hb hc <;>
      exact (Cost.Exactly.mono (Cost.exactly_chAlloc _ _ _) (by rintro (_ | _ | _) h <;> simp_all [Boolean.isConstant, Cost.AB.Fits])).hasSize rfl

/-- C82 for `Boolean::sha256_maj`: two gates if the result depends on all operands, one if on two, none otherwise. -/
theorem C82_maj (a b c : Boolean) :
    HasSize (Boolean.sha256Maj a b c : Synth F _) (relevant maj3 ![a, b, c] - 1) (relevant maj3 ![a, b, c] - 1)
      fun r => r.isConstant = true ↔ relevant maj3 ![a, b, c] = 0 := by
  rw [relevant_three, relevant_maj_eq]
  rcases a with a | a | (_ | _) <;> rcases b with b | b | (_ | _) <;> rcases c with c | c | (_ | _) <;>
    first
    | exact (Cost.Exactly.pure (by simp [fixedValue, Boolean.isConstant, Boolean.neg, majCount])).hasSize rfl
    | exact (Cost.Exactly.mono (Cost.exactly_majAlloc (a := _) (b := .is b) (c := .is c) trivial trivial) (notConstant rfl)).hasSize rfl
    | exact (Cost.Exactly.mono (Cost.exactly_majAlloc (a := _) (b := .is b) (c := .not c) trivial trivial) (notConstant rfl)).hasSize rfl
    | exact (Cost.Exactly.mono (Cost.exactly_majAlloc (a := _) (b := .not b) (c := .is c) trivial trivial) (notConstant rfl)).hasSize rfl
    | exact (Cost.Exactly.mono (Cost.exactly_majAlloc (a := _) (b := .not b) (c := .not c) trivial trivial) (notConstant rfl)).hasSize rfl
    | simp only [Boolean.sha256Maj]; exact size_and rfl (relevant_and_eq _ _) rfl rfl fun _ h => h
    | simp only [Boolean.sha256Maj]; exact size_and_neg rfl (relevant_and_eq _ _) rfl rfl fun _ h => h

/-! ### Words -/

/-- The gates of `sha256_ch` on three bits. -/
def chGates (a b c : Boolean) : ℕ :=
  if fixedValue a = some true ∧ fixedValue b = none ∧ fixedValue c = none then 1 else min 1 (relevant ch3 ![a, b, c] - 1)

private theorem HasSize.exactly {α : Type} {m : Synth F α} {g : ℕ} {Q : α → Prop} (h : HasSize m g g Q) : Cost.Exactly m g 0 Q :=
  fun t r he => ⟨(h t r he).2.2, (h t r he).1, (h t r he).2.1⟩

private theorem exactly_ch (a b c : Boolean) :
    Cost.Exactly (Boolean.sha256Ch a b c : Synth F _) (chGates a b c) 0 fun r => r.isConstant = decide (relevant ch3 ![a, b, c] = 0) := by
  unfold chGates
  split
  · rename_i h
    obtain ⟨h1, h2⟩ := C82_ch_true (F := F) h.1 h.2.1 h.2.2
    rw [h1]
    exact h2.exactly.mono fun r hr => by simpa using hr
  · rename_i h
    exact (C82_ch a b c h).exactly.mono fun r hr => by rw [Bool.eq_iff_iff, decide_eq_true_iff]; exact hr

private theorem exactly_triopLoop {f : ℕ → Boolean → Boolean → Boolean → Synth F Boolean} {g : Boolean → Boolean → Boolean → ℕ}
    {q : Boolean → Boolean → Boolean → Bool} (hf : ∀ i a b c, Cost.Exactly (f i a b c) (g a b c) 0 fun r => r.isConstant = q a b c)
    (i : ℕ) (as bs cs : List Boolean) :
    Cost.Exactly (UInt32.triopLoop f i as bs cs) (zipWith3 g as bs cs).sum 0 fun r => r.map Boolean.isConstant = zipWith3 q as bs cs := by
  induction as generalizing i bs cs with
  | nil => exact Cost.Exactly.pure rfl
  | cons a as ih =>
    cases bs with
    | nil => exact Cost.Exactly.pure rfl
    | cons b bs =>
      cases cs with
      | nil => exact Cost.Exactly.pure rfl
      | cons c cs =>
        refine (hf i a b c).bind (e := 0) (e' := 0) fun r hr => (ih (i + 1) bs cs).map fun rs hrs => ?_
        rw [map_cons, hr, hrs]; rfl

/-- C82 for `UInt32::xor`. -/
theorem C82_xor_words (a b : UInt32) :
    HasSize (UInt32.xor a b : Synth F _) (zipWith (fun x y => relevant xor2 ![x, y] - 1) a.bits b.bits).sum
      (zipWith (fun x y => relevant xor2 ![x, y] - 1) a.bits b.bits).sum
      fun r => r.bits.map Boolean.isConstant = zipWith (fun x y => decide (relevant xor2 ![x, y] = 0)) a.bits b.bits := by
  have loop : ∀ (i : ℕ) (as bs : List Boolean), Cost.Exactly (UInt32.xorLoop i as bs : Synth F _)
      (zipWith (fun x y => relevant xor2 ![x, y] - 1) as bs).sum 0
      fun r => r.map Boolean.isConstant = zipWith (fun x y => decide (relevant xor2 ![x, y] = 0)) as bs := by
    intro i as bs
    induction as generalizing i bs with
    | nil => exact Cost.Exactly.pure rfl
    | cons a as ih =>
      cases bs with
      | nil => exact Cost.Exactly.pure rfl
      | cons b bs =>
        refine (Cost.Exactly.inNs _ (C82_xor a b).exactly).bind (e := 0) (e' := 0) fun r hr => (ih (i + 1) bs).map fun rs hrs => ?_
        rw [map_cons, hrs, zipWith_cons_cons]
        congr 1
        rw [Bool.eq_iff_iff, decide_eq_true_iff]; exact hr
  exact ((loop 0 a.bits b.bits).map fun r hr => hr).hasSize rfl

/-- C82 for `UInt32::sha256_ch`. -/
theorem C82_ch_words (a b c : UInt32) :
    HasSize (UInt32.sha256Ch a b c : Synth F _) (zipWith3 chGates a.bits b.bits c.bits).sum (zipWith3 chGates a.bits b.bits c.bits).sum
      fun r => r.bits.map Boolean.isConstant = zipWith3 (fun x y z => decide (relevant ch3 ![x, y, z] = 0)) a.bits b.bits c.bits :=
  ((exactly_triopLoop (fun _ a b c => Cost.Exactly.inNs _ (exactly_ch a b c)) 0 a.bits b.bits c.bits).map fun _ hr => hr).hasSize rfl

/-- C82 for `UInt32::sha256_maj`. -/
theorem C82_maj_words (a b c : UInt32) :
    HasSize (UInt32.sha256Maj a b c : Synth F _) (zipWith3 (fun x y z => relevant maj3 ![x, y, z] - 1) a.bits b.bits c.bits).sum
      (zipWith3 (fun x y z => relevant maj3 ![x, y, z] - 1) a.bits b.bits c.bits).sum
      fun r => r.bits.map Boolean.isConstant = zipWith3 (fun x y z => decide (relevant maj3 ![x, y, z] = 0)) a.bits b.bits c.bits :=
  ((exactly_triopLoop (fun _ a b c => Cost.Exactly.inNs _ ((C82_maj a b c).exactly.mono fun r hr => by
    rw [Bool.eq_iff_iff, decide_eq_true_iff]; exact hr)) 0 a.bits b.bits c.bits).map fun r hr => hr).hasSize rfl

/-- C82 for `UInt32::addmany`, if not all bits of all operands are constants: one gate for every bit which the sum of that many words
may have, and one equation. -/
theorem C82_addmany {ops : List UInt32} (h : ∃ u ∈ ops, ∃ b ∈ u.bits, b.isConstant = false) :
    HasSize (MSynth.withMultiEq (UInt32.addmany ops) : Synth F _) (Nat.size (ops.length * (2 ^ 32 - 1)))
      (Nat.size (ops.length * (2 ^ 32 - 1)) + 1) fun r => NoConstants r.bits ∧ r.bits.length = 32 := by
  let known : Boolean → Cost.AB := fun b => match b with
    | .constant c => .c c
    | _ => .var
  have hk : ∀ b, Cost.AB.Fits b (known b) := by rintro (_ | _ | _) <;> simp [known, Cost.AB.Fits]
  have hfit : Forall₂ Cost.AW.Fits ops (ops.map fun u => .mix (u.bits.map known)) := by
    rw [forall₂_map_right_iff]
    refine forall₂_same.2 fun u _ => ?_
    show Forall₂ Cost.AB.Fits u.bits (u.bits.map known)
    rw [forall₂_map_right_iff]
    exact forall₂_same.2 fun b _ => hk b
  obtain ⟨u, hu, b, hb, hbc⟩ := h
  have hv : (ops.map fun u => Cost.AW.mix (u.bits.map known)).any Cost.hasVar = true := by
    rw [any_eq_true]
    refine ⟨_, mem_map.2 ⟨u, hu, rfl⟩, ?_⟩
    show ((u.bits.map known).any (· == .var)) = true
    rw [any_eq_true]
    refine ⟨_, mem_map.2 ⟨b, hb, rfl⟩, ?_⟩
    rcases b with b | b | b
    · rfl
    · rfl
    · cases hbc
  have hne : ops ≠ [] := fun h => by rw [h] at hu; cases hu
  by_cases hnb : NUM_BITS F ≥ 64
  swap
  · intro t r he
    unfold UInt32.addmany at he
    rw [if_neg hnb] at he
    cases he
  by_cases h10 : ops.length ≤ 10
  swap
  · intro t r he
    unfold UInt32.addmany at he
    rw [if_pos hnb, if_neg h10] at he
    split at he <;> cases he
  have hsz : Nat.size (ops.length * (2 ^ 32 - 1)) ≤ 36 := by
    rw [Nat.size_le]
    calc _ ≤ 10 * (2 ^ 32 - 1) := Nat.mul_le_mul_right _ h10
      _ < 2 ^ 36 := by norm_num
  have hpos : 0 < Nat.size (ops.length * (2 ^ 32 - 1)) := by
    rw [Nat.size_pos]
    exact Nat.mul_pos (length_pos_iff.2 hne) (by norm_num)
  have hcap : 63 ≤ CAPACITY F := by have := capacity_lt (F := F); omega
  have hms := Cost.MS.withMultiEq (Cost.ms_addmany (F := F) rfl hfit)
  refine ((Cost.SS.eval hms (y := .mix (replicate 32 .var)) (g := Nat.size (ops.length * (2 ^ 32 - 1))) (e := 1) ?_).mono ?_).hasSize rfl
  · unfold Cost.withMultiEq Cost.addmany
    cases ops with
    | nil => exact absurd rfl hne
    | cons o ops =>
      rw [map_cons, show Cost.litSum (Cost.AW.mix (o.bits.map known) :: ops.map fun u => Cost.AW.mix (u.bits.map known)) = none from rfl]
      dsimp only
      rw [if_neg (by simp [Cost.isCon]), ← map_cons (f := fun u : UInt32 => Cost.AW.mix (u.bits.map known)), if_pos hv, length_map]
      have : ¬ CAPACITY F ≤ Nat.size ((o :: ops).length * (2 ^ 32 - 1)) := by omega
      simp only [Cost.tick, Cost.enforceEqual, bind, StateT.bind, pure, StateT.pure, Option.bind, Nat.zero_add]
      rw [if_neg this]
      dsimp only
      rw [if_pos hpos]
  · intro r hr
    have hr' : Forall₂ Cost.AB.Fits r.bits (replicate 32 .var) := hr
    refine ⟨fun b hb => ?_, by rw [hr'.length_eq, length_replicate]⟩
    obtain ⟨i, hi, rfl⟩ := getElem_of_mem hb
    have := hr'.get hi (by rw [← hr'.length_eq]; exact hi)
    simp only [get_eq_getElem, getElem_replicate] at this
    generalize r.bits[i] = b at this
    rcases b with _ | _ | _
    · rfl
    · rfl
    · exact this.elim

/-- C82 for `UInt32::addmany` of constants. -/
theorem C82_addmany_constants (vs : List (BitVec 32)) :
    HasSize (MSynth.withMultiEq (UInt32.addmany (vs.map UInt32.constant)) : Synth F _) 0 0 fun r => r = UInt32.constant vs.sum :=
  (Cost.SS.eval (Cost.MS.withMultiEq (Cost.ms_addmany_consts vs)) rfl).hasSize rfl

/-! ### Numbers -/

private theorem HasSize.enforce {s : String} {a b c : LC F → LC F} : HasSize (Synth.enforce s a b c) 0 1 fun _ => True :=
  Cost.exactly_enforce.hasSize rfl

private theorem HasSize.pure {α : Type} {a : α} {Q : α → Prop} (h : Q a) : HasSize (Pure.pure a : Synth F α) 0 0 Q :=
  (Cost.Exactly.pure h).hasSize rfl

private theorem HasSize.inNs {α : Type} {m : Synth F α} {v c : ℕ} {Q : α → Prop} (s : String) (h : HasSize m v c Q) :
    HasSize (Synth.inNs s m) v c Q := by
  intro t r he
  cases he with
  | push he =>
    rcases Exec.bind_inv he with ⟨_, h2⟩ | ⟨t1, t2, a, rfl, h1, h2⟩
    · cases h2
    · cases h2 with
      | pop h2 =>
        cases h2
        obtain ⟨n, c, q⟩ := h _ _ h1
        rw [numAux_push, numAux_append, consOf_push, consOf_append]
        simp only [numAux_pop, numAux_nil, consOf_pop, consOf_nil, append_nil]
        exact ⟨by omega, c, q⟩

private theorem HasSize.alloc {s : String} {f : Except SynthesisError F} : HasSize (Synth.alloc s f) 1 0 fun _ => True := by
  intro t r he
  rcases (show Exec (Circ.alloc false _ f fun a => _) t _ from he) with _ | _ | ⟨x, he⟩ | ⟨x, v, hf, he⟩ | ⟨e, he⟩
  · cases he; exact ⟨rfl, rfl, trivial⟩
  · cases he; exact ⟨rfl, rfl, trivial⟩
  · cases he

private theorem HasSize.allocInput {s : String} {f : Except SynthesisError F} : HasSize (Synth.allocInput s f) 0 0 fun _ => True := by
  intro t r he
  rcases (show Exec (Circ.alloc true _ f fun a => _) t _ from he) with _ | _ | ⟨x, he⟩ | ⟨x, v, hf, he⟩ | ⟨e, he⟩
  · cases he; exact ⟨rfl, rfl, trivial⟩
  · cases he; exact ⟨rfl, rfl, trivial⟩
  · cases he

/-- C82 for the allocation of bits and numbers. -/
theorem C82_alloc {K : Type} [PrimeField K] (v : Option Bool) (w : Option (BitVec 64)) (u : Option (BitVec 32)) (x : Option K)
    (c : AllocatedBit) (y : Except SynthesisError F) :
    HasSize (AllocatedBit.alloc v : Synth F _) 1 1 (fun _ => True) ∧
    HasSize (AllocatedBit.allocConditionally v c : Synth F _) 1 1 (fun _ => True) ∧
    HasSize (u64IntoBooleanVecLe w : Synth F _) 64 64 (fun r => NoConstants r ∧ r.length = 64) ∧
    HasSize (UInt32.alloc u : Synth F _) 32 32 (fun r => NoConstants r.bits ∧ r.bits.length = 32) ∧
    HasSize (fieldIntoAllocatedBitsLe x : Synth F _) (NUM_BITS K) (NUM_BITS K) (fun r => r.length = NUM_BITS K) ∧
    HasSize (fieldIntoBooleanVecLe x : Synth F _) (NUM_BITS K) (NUM_BITS K) (fun r => NoConstants r ∧ r.length = NUM_BITS K) ∧
    HasSize (AllocatedNum.alloc y) 1 0 (fun _ => True) := by
  have hb : ∀ (i : ℕ) (l : List (Option Bool)), Cost.Exactly (UInt32.allocLoop i l : Synth F _) l.length 0
      fun r => NoConstants r ∧ r.length = l.length := by
    intro i l
    induction l generalizing i with
    | nil => exact Cost.Exactly.pure ⟨fun _ h => absurd h not_mem_nil, rfl⟩
    | cons b bs ih =>
      rw [length_cons, Nat.add_comm]
      refine (Cost.Exactly.inNs _ (Cost.exactly_alloc b)).bind (e := 0) (e' := 0) fun x _ =>
        (ih (i + 1)).map fun r hr => ⟨fun y hy => ?_, by simp [hr.2, Nat.add_comm]⟩
      rcases mem_cons.1 hy with rfl | hy
      · rfl
      · exact hr.1 y hy
  have his : ∀ l : List AllocatedBit, NoConstants (l.map Boolean.is) := fun l b hb => by
    obtain ⟨x, -, rfl⟩ := mem_map.1 hb; rfl
  refine ⟨(Cost.exactly_alloc v).hasSize rfl, (Cost.exactly_allocConditionally v c).hasSize rfl, ?_, ?_, (Cost.exactly_fieldBits x).hasSize rfl,
    ((Cost.exactly_fieldBits x).map fun r hr => ⟨his r, by rw [length_map, hr]⟩).hasSize rfl, ?_⟩
  · refine ((Cost.exactly_le (Cost.exactly_allocBits 0 _) (g' := 64) ?_ rfl).map (P := fun r => NoConstants r ∧ r.length = 64)
      fun r hr => ⟨his r, ?_⟩).hasSize rfl
    · cases w <;> simp
    · rw [length_map, hr]; cases w <;> simp
  · refine ((Cost.exactly_le (hb 0 _) (g' := 32) ?_ rfl).map (P := fun r : UInt32 => NoConstants r.bits ∧ r.bits.length = 32)
      fun r hr => ⟨hr.1, ?_⟩).hasSize rfl
    · cases u
      · simp
      · rw [length_map, UInt32.shiftBits_length]
    · rw [hr.2]
      cases u
      · simp
      · rw [length_map, UInt32.shiftBits_length]
  · exact C55_seq (v' := 0) (c' := 0) HasSize.alloc fun _ _ => HasSize.pure trivial

/-- C82 for the gadgets on numbers.  A number is decomposed into bits with one constraint for each bit and one more; for
`to_bits_le_strict` there is a further one for every one bit of `p - 1` but the first. -/
theorem C82_num (a b : AllocatedNum F) (c : Boolean) :
    HasSize a.toBitsLe (NUM_BITS F) (NUM_BITS F + 1) (fun r => NoConstants r ∧ r.length = NUM_BITS F) ∧
    HasSize a.toBitsLeStrict (NUM_BITS F + (Nat.digits 2 (p F - 1)).sum - 1) (NUM_BITS F + (Nat.digits 2 (p F - 1)).sum)
      (fun r => NoConstants r ∧ r.length = NUM_BITS F) ∧
    HasSize (a.mul b) 1 1 (fun _ => True) ∧ HasSize a.square 1 1 (fun _ => True) ∧ HasSize a.assertNonzero 1 1 (fun _ => True) ∧
    HasSize (AllocatedNum.conditionallyReverse a b c) 2 2 (fun _ => True) ∧ HasSize a.inputize 0 1 (fun _ => True) := by
  refine ⟨(Cost.exactly_toBitsLe a).hasSize rfl, (Cost.exactly_toBitsLeStrict a).hasSize ?_, ?_, ?_, ?_, ?_, ?_⟩
  · have : 0 < NUM_BITS F := by have := capacity_lt (F := F); omega
    omega
  · exact C55_seq (c := 0) (v' := 0) HasSize.alloc fun _ _ => C55_seq (v := 0) (c' := 0) (v' := 0) HasSize.enforce fun _ _ => HasSize.pure trivial
  · exact C55_seq (c := 0) (v' := 0) HasSize.alloc fun _ _ => C55_seq (v := 0) (c' := 0) (v' := 0) HasSize.enforce fun _ _ => HasSize.pure trivial
  · exact C55_seq (c := 0) (v' := 0) HasSize.alloc fun _ _ => HasSize.enforce
  · have hal : ∀ (s : String) (y : Except SynthesisError F), HasSize (Synth.inNs s (AllocatedNum.alloc y)) 1 0 (fun _ => True) :=
      fun s y => HasSize.inNs s (C55_seq (v' := 0) (c' := 0) HasSize.alloc fun _ _ => HasSize.pure trivial)
    exact C55_seq (c := 0) (v' := 1) (hal _ _) fun _ _ => C55_seq (v := 0) (c' := 1) (v' := 1) HasSize.enforce fun _ _ =>
      C55_seq (c := 0) (v' := 0) (hal _ _) fun _ _ => C55_seq (v := 0) (c' := 0) (v' := 0) HasSize.enforce fun _ _ => HasSize.pure trivial
  · exact C55_seq (v := 0) (c := 0) HasSize.allocInput fun _ _ => HasSize.enforce

/-- C82 for `Boolean::enforce_equal`. -/
theorem C82_enforceEqual (a b : Boolean) :
    HasSize (Boolean.enforceEqual a b : Synth F _) 0 (if a.isConstant = true ∧ b.isConstant = true then 0 else 1) fun _ => True := by
  rcases a with a | a | (_ | _) <;> rcases b with b | b | (_ | _) <;>
    simp only [Boolean.enforceEqual, Boolean.isConstant, Bool.false_eq_true, false_and, and_false, and_self, if_true, if_false,
      reduceCtorEq] <;>
    first
    | exact HasSize.enforce
    | exact HasSize.pure trivial
    | exact fun t r he => by cases he

/-- C82 for the table lookups. -/
theorem C82_lookup (b0 b1 b2 : Boolean) (coords : List (F × F)) :
    HasSize (lookup3xy [b0, b1, b2] coords) (2 + (relevant and2 ![b1, b2] - 1)) (2 + (relevant and2 ![b1, b2] - 1)) (fun _ => True) ∧
    HasSize (lookup3xyWithConditionalNegation [b0, b1, b2] coords) (1 + (relevant and2 ![b0, b1] - 1)) (1 + (relevant and2 ![b0, b1] - 1))
      (fun _ => True) := by
  have hal : ∀ (s : String) (y : Except SynthesisError F), HasSize (Synth.inNs s (AllocatedNum.alloc y)) 1 0 (fun _ => True) :=
    fun s y => HasSize.inNs s (C55_seq (v' := 0) (c' := 0) HasSize.alloc fun _ _ => HasSize.pure trivial)
  have hpanic : ∀ {α : Type} (s : String) (n : ℕ), HasSize (Synth.panic s : Synth F α) n n fun _ => True := fun s n =>
    (Cost.Exactly.panic (g := n) (e := 0)).hasSize rfl
  constructor
  · unfold lookup3xy
    dsimp only
    split
    · have hand : HasSize (Synth.inNs "precomp" (Boolean.and b1 b2) : Synth F _) _ _ _ := HasSize.inNs _ (C82_and b1 b2)
      generalize relevant and2 ![b1, b2] - 1 = n at hand ⊢
      rw [show 2 + n = 1 + (1 + n) by omega]
      nth_rw 2 [show 1 + (1 + n) = 0 + (0 + (n + 2)) by omega]
      refine C55_seq (hal _ _) fun _ _ => C55_seq (hal _ _) fun _ _ => ?_
      split
      · exact C55_seq (v' := 0) (c' := 2) hand fun _ _ => C55_seq (v := 0) (v' := 0) (c := 1) (c' := 1) HasSize.enforce fun _ _ =>
          C55_seq (v := 0) (v' := 0) (c := 1) (c' := 0) HasSize.enforce fun _ _ => HasSize.pure trivial
      · intro t r he; cases he
    · exact hpanic _ _
  · unfold lookup3xyWithConditionalNegation
    dsimp only
    split
    · have hand : HasSize (Synth.inNs "precomp" (Boolean.and b0 b1) : Synth F _) _ _ _ := HasSize.inNs _ (C82_and b0 b1)
      generalize relevant and2 ![b0, b1] - 1 = n at hand ⊢
      nth_rw 2 [show 1 + n = 0 + (n + 1) by omega]
      refine C55_seq (hal _ _) fun _ _ => ?_
      split
      · exact C55_seq (v' := 0) (c' := 1) hand fun _ _ => C55_seq (v := 0) (v' := 0) (c := 1) (c' := 0) HasSize.enforce fun _ _ =>
          HasSize.pure trivial
      · intro t r he; cases he
    · exact hpanic _ _

/-- C82 for `multipack::pack_into_inputs`: one constraint for every input, no auxiliary variable. -/
theorem C82_pack (bits : List Boolean) :
    HasSize (packIntoInputs bits : Synth F _) 0 ((bits.length + CAPACITY F - 1) / CAPACITY F) fun _ => True := by
  unfold packIntoInputs
  split
  · exact (Cost.Exactly.panic (g := 0) (e := (bits.length + CAPACITY F - 1) / CAPACITY F)).hasSize (Nat.zero_add _)
  · rename_i cs hc
    rw [← chunks_numChunks hc]
    exact (exactly_packChunks 0 cs).hasSize (Nat.zero_add _)

/-! ### The hypotheses are met -/

section Examples

/-- `to_bits_le_strict` for the scalar field of BLS12-381: 388 constraints; `to_bits_le`: 256. -/
example (a : AllocatedNum BlsScalar) :
    HasSize a.toBitsLeStrict 387 388 (fun _ => True) ∧ HasSize a.toBitsLe 255 256 (fun _ => True) := by
  obtain ⟨h1, h2, -⟩ := C82_num a a (.constant true)
  have e : NUM_BITS BlsScalar + (Nat.digits 2 (p BlsScalar - 1)).sum = 388 := by
    rw [show p BlsScalar = blsR from rfl, show NUM_BITS BlsScalar = 255 from rfl, ← Cost.count_bits 255 (blsR - 1) (by decide +kernel)]
    decide +kernel
  rw [e] at h2
  exact ⟨h2.mono, h1.mono⟩

/-- All kinds of operands occur, and with them all costs. -/
example (a b c : AllocatedBit) :
    relevant ch3 ![.is a, .not b, .is c] = 3 ∧ relevant ch3 ![.is a, .constant true, .is c] = 2 ∧
    relevant ch3 ![.is a, .constant true, .constant false] = 1 ∧ relevant ch3 ![.is a, .constant true, .constant true] = 0 ∧
    relevant maj3 ![.is a, .not b, .is c] = 3 ∧ relevant maj3 ![.is a, .not b, .constant true] = 2 ∧
    relevant maj3 ![.constant false, .not b, .constant true] = 1 ∧ relevant maj3 ![.constant true, .not b, .constant true] = 0 := by
  refine ⟨?_, ?_, ?_, ?_, ?_, ?_, ?_, ?_⟩ <;> rw [relevant_three] <;> first | rw [relevant_ch_eq]; rfl | rw [relevant_maj_eq]; rfl

/-- The gadgets can succeed: the gate which `sha256_ch` spends on a copy is made when keys are generated. -/
example (b c : AllocatedBit) : ∃ t r, Exec (Boolean.sha256Ch (.constant true) (.is b) (.not c) : Synth BlsScalar _).run t (some (.ok r)) ∧
    numAux t = 1 ∧ (consOf t).length = 1 := by
  have h : ∃ t r, Exec (Boolean.sha256Ch (.constant true) (.is b) (.not c) : Synth BlsScalar _).run t (some (.ok r)) :=
    ⟨_, _, Exec.allocSkip (.aux 0) (.enforce (.ret _))⟩
  obtain ⟨t, r, h⟩ := h
  exact ⟨t, r, h, (C82_ch_true rfl rfl rfl).2 t r h |>.1, (C82_ch_true rfl rfl rfl).2 t r h |>.2.1⟩

/-- A sum of two words one of which is a constant. -/
example (u : UInt32) (b : AllocatedBit) (hb : Boolean.is b ∈ u.bits) (v : BitVec 32) :
    HasSize (MSynth.withMultiEq (UInt32.addmany [u, UInt32.constant v]) : Synth BlsScalar _) 33 34 fun r => NoConstants r.bits ∧ r.bits.length = 32 := by
  have h := C82_addmany (F := BlsScalar) (ops := [u, UInt32.constant v]) ⟨u, by simp, _, hb, rfl⟩
  have e : Nat.size ([u, UInt32.constant v].length * (2 ^ 32 - 1)) = 33 := by
    show Nat.size (2 * (2 ^ 32 - 1)) = 33
    decide +kernel
  rwa [e] at h

end Examples

end Bellman
