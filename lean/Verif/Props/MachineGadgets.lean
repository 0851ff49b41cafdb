import Verif.Proofs.MachineMultiEq
import Verif.Props.Hash

/-!
# C85: `MultiEq` and the hash gadgets with machine integers
-/

set_option linter.unusedSectionVars false

namespace Bellman

open PrimeField List

variable {F : Type} [PrimeField F] {ρ : Var → F}

/-! ### Specification -/

/-- The program that performs the items in order, with the counters of the machine (compare `runItems`). -/
def runItemsW (b : Build) : List (MItem F) → MSynth F Unit
  | [] => pure ()
  | .eq n l r :: is => do
    MEq.enforceEqualW b n l r
    runItemsW b is
  | .other m :: is => do
    MSynth.lift m
    runItemsW b is

/-- `MultiEq::new`, the items, and the end of the scope. -/
def multiEqW (b : Build) (items : List (MItem F)) : Synth F Unit := MSynth.withMultiEqW b (runItemsW b items)

/-! ### Soundness -/

private theorem wpS_runItemsW (b : Build) (h1 : ρ .one = 1) (items : List (MItem F))
    (hb : ∀ n l r, MItem.eq n l r ∈ items → ∃ x y : ℕ, x < 2 ^ n ∧ y < 2 ^ n ∧ l.eval ρ = (x : F) ∧ r.eval ρ = (y : F))
    (hn : b = .debug ∨ ∀ n l r, MItem.eq n l r ∈ items → n + CAPACITY F < 2 ^ 64)
    {s : MEq F} {P : Prop} (hs : MEq.SInv ρ s P) :
    MSynth.wpS ρ (runItemsW b items) s fun _ s =>
      MEq.SInv ρ s (P ∧ ∀ n l r, MItem.eq n l r ∈ items → l.eval ρ = r.eval ρ) := by
  induction items generalizing s P with
  | nil =>
    rw [runItemsW, MSynth.wpS_pure]
    exact hs.mono fun h => ⟨h, by simp⟩
  | cons i items ih =>
    have ih := fun {s : MEq F} {P : Prop} => ih (s := s) (P := P) (fun n l r h => hb n l r (mem_cons_of_mem _ h))
      (hn.imp_right fun hn n l r h => hn n l r (mem_cons_of_mem _ h))
    cases i with
    | eq n l r =>
      obtain ⟨x, y, hx, hy, hl, hr⟩ := hb n l r mem_cons_self
      rw [runItemsW, MSynth.wpS_bind]
      refine MSynth.wpS_mono (MEq.wpS_enforceEqualW b h1 hs ⟨hl, hx⟩ ⟨hr, hy⟩ (hn.imp_right fun hn => ?_)) fun _ s hs => ?_
      · have := hn n l r mem_cons_self
        have := hs.bits_le
        omega
      refine MSynth.wpS_mono (ih hs) fun _ s hs => hs.mono ?_
      rintro ⟨⟨hP, rfl⟩, h⟩
      refine ⟨hP, fun n' l' r' hm => ?_⟩
      rcases mem_cons.1 hm with e | hm
      · cases e; rw [hl, hr]
      · exact h _ _ _ hm
    | other m =>
      rw [runItemsW, MSynth.wpS_bind, MSynth.wpS_lift]
      refine Synth.wpS_mono (Boolean.wpS_triv m) fun _ _ => ?_
      refine MSynth.wpS_mono (ih hs) fun _ s hs => hs.mono ?_
      rintro ⟨hP, h⟩
      refine ⟨hP, fun n' l' r' hm => ?_⟩
      rcases mem_cons.1 hm with e | hm
      · cases e
      · exact h _ _ _ hm

/-- C85: a debug build of `MultiEq` is sound for every sequence of calls: whatever the bit sizes, even absurd ones, the emitted constraints
imply every equality whose sides are integers below `2^num_bits`. -/
theorem C85_debug_sound (h1 : ρ .one = 1) (items : List (MItem F))
    (hb : ∀ n l r, MItem.eq n l r ∈ items → ∃ x y : ℕ, x < 2 ^ n ∧ y < 2 ^ n ∧ l.eval ρ = (x : F) ∧ r.eval ρ = (y : F)) :
    Sound ρ (multiEqW .debug items) fun _ => ∀ n l r, MItem.eq n l r ∈ items → l.eval ρ = r.eval ρ := by
  refine (Synth.wpS_iff ..).1 (MSynth.wpS_withMultiEqW .debug h1 ?_)
  exact MSynth.wpS_mono (wpS_runItemsW .debug h1 items hb (.inl rfl) MEq.SInv.new) fun _ s hs => hs.mono fun h => h.2

/-- C85: a release build is sound too as long as no bit size comes within `CAPACITY` of the end of `usize`. -/
theorem C85_release_sound (h1 : ρ .one = 1) (items : List (MItem F)) (hn : ∀ n l r, MItem.eq n l r ∈ items → n + CAPACITY F < 2 ^ 64)
    (hb : ∀ n l r, MItem.eq n l r ∈ items → ∃ x y : ℕ, x < 2 ^ n ∧ y < 2 ^ n ∧ l.eval ρ = (x : F) ∧ r.eval ρ = (y : F)) :
    Sound ρ (multiEqW .release items) fun _ => ∀ n l r, MItem.eq n l r ∈ items → l.eval ρ = r.eval ρ := by
  refine (Synth.wpS_iff ..).1 (MSynth.wpS_withMultiEqW .release h1 ?_)
  exact MSynth.wpS_mono (wpS_runItemsW .release h1 items hb (.inr hn) MEq.SInv.new) fun _ s hs => hs.mono fun h => h.2

/-! ### The program is the same -/

private theorem multiEqW_from (b : Build) : ∀ (items : List (MItem F)) (s : MEq F) (_ : s.bitsUsed ≤ CAPACITY F)
    (_ : s.ops + items.length + 1 < 2 ^ 64) (_ : ∀ n l r, MItem.eq n l r ∈ items → n + CAPACITY F < 2 ^ 64),
    (((runItemsW b items).run.run s).bind fun r => MEq.dropW b r.2 r.1) = ((runItems items).run.run s).bind fun r => MEq.drop r.2 r.1
  | [], s, _, ho, _ => by
    show (if s.bitsUsed > 0 then _ else _) = if s.bitsUsed > 0 then _ else _
    rw [MEq.accumulateW_eq b _ s (by simpa using ho)]
  | .eq n l r :: items, s, hs, ho, hn => by
    simp only [length_cons] at ho
    have hn' : ∀ n l r, MItem.eq n l r ∈ items → n + CAPACITY F < 2 ^ 64 := fun n l r h => hn n l r (mem_cons_of_mem _ h)
    have hn := hn n l r mem_cons_self
    rw [runItemsW, runItems, MSynth.run_bind, MSynth.run_bind, MEq.enforceEqualW_eq b n l r s (by omega) (by omega)]
    have key : ∀ s' : MEq F, s'.ops ≤ s.ops + 1 → ∀ g g' : Except SynthesisError Unit × MEq F → Circ F (Except SynthesisError Unit × MEq F),
        (∀ s, g (.ok (), s) = (runItemsW b items).run.run s) → (∀ s, g' (.ok (), s) = (runItems items).run.run s) →
        (((if CAPACITY F > s'.bitsUsed + n then
            (.ret (.ok (), ⟨s'.ops, s'.bitsUsed + n, s'.lhs + ((2 : F) ^ s'.bitsUsed, l), s'.rhs + ((2 : F) ^ s'.bitsUsed, r)⟩) :
              Circ F (Except SynthesisError Unit × MEq F))
          else .panic "assert!((Scalar::CAPACITY as usize) > (self.bits_used + num_bits))").bind g).bind fun r => MEq.dropW b r.2 r.1) =
        ((if CAPACITY F > s'.bitsUsed + n then
            (.ret (.ok (), ⟨s'.ops, s'.bitsUsed + n, s'.lhs + ((2 : F) ^ s'.bitsUsed, l), s'.rhs + ((2 : F) ^ s'.bitsUsed, r)⟩) :
              Circ F (Except SynthesisError Unit × MEq F))
          else .panic "assert!((Scalar::CAPACITY as usize) > (self.bits_used + num_bits))").bind g').bind fun r => MEq.drop r.2 r.1 := by
      intro s' h g g' hg hg'
      split
      · rename_i hc
        show (g _).bind _ = (g' _).bind _
        rw [hg, hg']
        exact multiEqW_from b items ⟨s'.ops, s'.bitsUsed + n, _, _⟩ (by simp only; omega) (by simp only; omega) hn'
      · rfl
    by_cases hc : CAPACITY F ≤ s.bitsUsed + n
    · have e : (MEq.enforceEqual n l r).run.run s = MEq.accumulate (fun s' => if CAPACITY F > s'.bitsUsed + n then
            (.ret (.ok (), ⟨s'.ops, s'.bitsUsed + n, s'.lhs + ((2 : F) ^ s'.bitsUsed, l), s'.rhs + ((2 : F) ^ s'.bitsUsed, r)⟩) :
              Circ F (Except SynthesisError Unit × MEq F))
          else .panic "assert!((Scalar::CAPACITY as usize) > (self.bits_used + num_bits))") s := if_pos hc
      rw [e]
      unfold MEq.accumulate
      exact congrArg (Circ.enforce _ _ _ _) (key ⟨s.ops + 1, 0, LC.zero, LC.zero⟩ le_rfl _ _ (fun _ => rfl) fun _ => rfl)
    · have e : (MEq.enforceEqual n l r).run.run s = if CAPACITY F > s.bitsUsed + n then
            (.ret (.ok (), ⟨s.ops, s.bitsUsed + n, s.lhs + ((2 : F) ^ s.bitsUsed, l), s.rhs + ((2 : F) ^ s.bitsUsed, r)⟩) :
              Circ F (Except SynthesisError Unit × MEq F))
          else .panic "assert!((Scalar::CAPACITY as usize) > (self.bits_used + num_bits))" := if_neg hc
      rw [e]
      exact key s (by omega) _ _ (fun _ => rfl) fun _ => rfl
  | .other m :: items, s, hs, ho, hn => by
    simp only [length_cons] at ho
    rw [runItemsW, runItems, MSynth.run_bind, MSynth.run_bind]
    show Circ.bind (Circ.bind (Circ.bind m.run _) _) _ = Circ.bind (Circ.bind (Circ.bind m.run _) _) _
    rw [Circ.bind_assoc, Circ.bind_assoc, Circ.bind_assoc, Circ.bind_assoc]
    congr 1
    funext r
    cases r with
    | error e =>
      show (if s.bitsUsed > 0 then _ else _) = if s.bitsUsed > 0 then _ else _
      rw [MEq.accumulateW_eq b _ s (by omega)]
    | ok a => exact multiEqW_from b items s hs (by omega) fun n l r h => hn n l r (mem_cons_of_mem _ h)

/-- C85: under that bound, and with fewer than `2^64 - 1` items, both builds are the very program of the unbounded model: the same calls
in the same order, the same panics. -/
theorem C85_same (b : Build) (items : List (MItem F)) (ho : items.length + 1 < 2 ^ 64)
    (hn : ∀ n l r, MItem.eq n l r ∈ items → n + CAPACITY F < 2 ^ 64) : multiEqW b items = MSynth.withMultiEq (runItems items) :=
  multiEqW_from b items MEq.new (Nat.zero_le _) (by simpa [MEq.new] using ho) hn

/-! ### The bound is needed -/

/-- C85: in a release build two calls whose bit sizes add up to `2^64` emit nothing: the counter wraps around to zero, the capacity check and
the assertion pass, and `Drop` believes that there is nothing to enforce.  So both equalities are lost.  The debug build panics. -/
theorem C85_release_loses (m n : ℕ) (hm : 0 < m) (hn0 : 0 < n) (hmc : m < CAPACITY F) (hn : m + n = 2 ^ 64) (l r l' r' : LC F) :
    (∀ t o, Exec (multiEqW .release [.eq m l r, .eq n l' r']).run t o ↔ t = [] ∧ o = some (.ok ())) ∧
      ∀ t o, Exec (multiEqW .debug [.eq m l r, .eq n l' r']).run t o ↔ t = [] ∧ o = none := by
  have hlt : 0 + m < 2 ^ 64 := by omega
  have h0 : ∀ b : Build, ((MEq.enforceEqualW b m l r).run.run (MEq.new : MEq F)) =
      .ret (.ok (), ⟨0, 0 + m, (LC.zero : LC F) + ((2 : F) ^ 0, l), (LC.zero : LC F) + ((2 : F) ^ 0, r)⟩) := by
    intro b
    show (match b.add 64 0 m with
      | some k => if CAPACITY F ≤ k then MEq.accumulateW b (MEq.addW b m l r) MEq.new else MEq.addW b m l r MEq.new
      | none => .panic "attempt to add with overflow") = _
    rw [b.add_lt hlt]
    dsimp only
    rw [if_neg (by omega)]
    unfold MEq.addW MEq.new
    dsimp only
    rw [b.add_lt hlt]
    dsimp only
    rw [if_pos (by omega)]
  have hr : (multiEqW .release [.eq m l r, .eq n l' r']).run = .ret (.ok ()) := by
    show (((runItemsW .release [.eq m l r, .eq n l' r']).run.run MEq.new).bind fun r => MEq.dropW .release r.2 r.1) = _
    have ha : Build.release.add 64 (0 + m) n = some 0 := by
      unfold Build.add Build.fit
      rw [if_neg (by omega), zero_add, hn, Nat.mod_self]
    rw [runItemsW, MSynth.run_bind, h0]
    show ((((MEq.enforceEqualW .release n l' r' >>= fun _ => runItemsW .release []).run.run _)).bind _) = _
    rw [MSynth.run_bind]
    show (Circ.bind (Circ.bind (match Build.release.add 64 (0 + m) n with
      | some k => if CAPACITY F ≤ k then MEq.accumulateW .release (MEq.addW .release n l' r') _ else MEq.addW .release n l' r' _
      | none => .panic "attempt to add with overflow") _) _) = _
    rw [ha]
    dsimp only
    rw [if_neg (by omega)]
    unfold MEq.addW
    dsimp only
    rw [ha]
    dsimp only
    rw [if_pos (by omega)]
    rfl
  have hd : (multiEqW .debug [.eq m l r, .eq n l' r']).run = .panic "attempt to add with overflow" := by
    show (((runItemsW .debug [.eq m l r, .eq n l' r']).run.run MEq.new).bind fun r => MEq.dropW .debug r.2 r.1) = _
    have ha : Build.debug.add 64 (0 + m) n = none := by
      unfold Build.add Build.fit
      rw [if_neg (by omega)]
    rw [runItemsW, MSynth.run_bind, h0]
    show ((((MEq.enforceEqualW .debug n l' r' >>= fun _ => runItemsW .debug []).run.run _)).bind _) = _
    rw [MSynth.run_bind]
    show (Circ.bind (Circ.bind (match Build.debug.add 64 (0 + m) n with
      | some k => if CAPACITY F ≤ k then MEq.accumulateW .debug (MEq.addW .debug n l' r') _ else MEq.addW .debug n l' r' _
      | none => .panic "attempt to add with overflow") _) _) = _
    rw [ha]
    rfl
  rw [hr, hd]
  refine ⟨fun t o => ⟨fun h => ?_, ?_⟩, fun t o => ⟨fun h => ?_, ?_⟩⟩
  · cases h; exact ⟨rfl, rfl⟩
  · rintro ⟨rfl, rfl⟩; exact .ret _
  · cases h; exact ⟨rfl, rfl⟩
  · rintro ⟨rfl, rfl⟩; exact .panic _

/-- So in a release build `1 = 0` and `0 = 1` pass together, if the second is declared to have `2^64 - 1` bits; the debug build refuses. -/
example : ∃ (items : List (MItem BlsScalar)) (ρ : Var → BlsScalar) (t : _), ρ .one = 1 ∧
    (∀ n l r, MItem.eq n l r ∈ items → n < 2 ^ 64 ∧ ∃ x y : ℕ, x < 2 ^ n ∧ y < 2 ^ n ∧ l.eval ρ = (x : BlsScalar) ∧ r.eval ρ = (y : BlsScalar)) ∧
    Exec (multiEqW .release items).run t (some (.ok ())) ∧ Sat ρ t ∧ ¬ ∀ n l r, MItem.eq n l r ∈ items → l.eval ρ = r.eval ρ := by
  refine ⟨[.eq 1 ((LC.zero : LC BlsScalar) + Var.one) (LC.zero : LC BlsScalar), .eq (2 ^ 64 - 1) (LC.zero : LC BlsScalar) ((LC.zero : LC BlsScalar) + Var.one)], fun _ => 1, [], rfl, ?_, ?_, Sat_nil _, ?_⟩
  · intro n l r h
    simp only [mem_cons, MItem.eq.injEq, not_mem_nil, or_false] at h
    rcases h with ⟨rfl, rfl, rfl⟩ | ⟨rfl, rfl, rfl⟩
    · exact ⟨by norm_num, 1, 0, by norm_num, by norm_num, by simp, by simp⟩
    · refine ⟨by norm_num, 0, 1, Nat.pow_pos (by norm_num), Nat.one_lt_pow (by norm_num) (by norm_num), by simp, by simp⟩
  · exact ((C85_release_loses 1 (2 ^ 64 - 1) (by norm_num) (by norm_num) (by decide +kernel) (by norm_num) _ _ _ _).1 [] _).2 ⟨rfl, rfl⟩
  · intro h
    have := h 1 _ _ (mem_cons_self ..)
    simp at this

/-- The hypotheses of the other theorems hold for equalities of 200, 100 and 30 bits, of which the first two do not fit together, with
another constraint in between; in both builds there is a run whose constraints hold. -/
example (b : Build) : ∃ (items : List (MItem BlsScalar)) (ρ : Var → BlsScalar) (t : _), ρ .one = 1 ∧
    (∀ n l r, MItem.eq n l r ∈ items → n + CAPACITY BlsScalar < 2 ^ 64) ∧ items.length = 4 ∧
    (∀ n l r, MItem.eq n l r ∈ items → ∃ x y : ℕ, x < 2 ^ n ∧ y < 2 ^ n ∧ l.eval ρ = (x : BlsScalar) ∧ r.eval ρ = (y : BlsScalar)) ∧
    Exec (multiEqW b items).run t (some (.ok ())) ∧ Sat ρ t := by
  have hc : CAPACITY BlsScalar = 254 := by decide +kernel
  let x : LC BlsScalar := (LC.zero : LC BlsScalar) + Var.aux 0
  let items : List (MItem BlsScalar) := [.eq 200 x ((LC.zero : LC BlsScalar) + Var.one), .other (Synth.enforce "square" (fun _ => x) (fun _ => x) fun _ => x),
    .eq 100 ((LC.zero : LC BlsScalar) + Var.one) x, .eq 30 x x]
  have hi : ∀ n l r, MItem.eq n l r ∈ items → (n = 200 ∨ n = 100 ∨ n = 30) ∧ (l = x ∨ l = (LC.zero : LC BlsScalar) + Var.one) ∧
      (r = x ∨ r = (LC.zero : LC BlsScalar) + Var.one) := by
    intro n l r h
    simp only [items, mem_cons, MItem.eq.injEq, not_mem_nil, or_false, reduceCtorEq, false_or] at h
    rcases h with ⟨rfl, rfl, rfl⟩ | ⟨rfl, rfl, rfl⟩ | ⟨rfl, rfl, rfl⟩ <;> simp
  have hn : ∀ n l r, MItem.eq n l r ∈ items → n + CAPACITY BlsScalar < 2 ^ 64 := fun n l r h => by
    obtain ⟨h, -⟩ := hi n l r h
    omega
  have hev : ∀ ρ : Var → BlsScalar, Extends [1] [1] ρ → ∀ l : LC BlsScalar, l = x ∨ l = (LC.zero : LC BlsScalar) + Var.one → l.eval ρ = 1 := by
    intro ρ hx l h
    have h0 : ρ (.aux 0) = 1 := hx (.aux 0) (by simp [Var.InRange])
    have h1 : ρ .one = 1 := hx .one (by simp [Var.InRange, Var.one])
    rcases h with rfl | rfl <;> simp [x, h0, h1]
  obtain ⟨ρ, t, a, hx, he, -, -, hs, -⟩ := Complete.realized (F := BlsScalar) [1] [1] fun ρ hx =>
    C14_complete (ρ := ρ) (hx .one (by simp [Var.InRange, Var.one])) items (fun n l r h => by
      obtain ⟨h, hl, hr⟩ := hi n l r h
      exact ⟨by omega, by rw [hev ρ hx l hl, hev ρ hx r hr]⟩) (fun m h => by
      simp only [items, mem_cons, MItem.other.injEq, not_mem_nil, or_false, reduceCtorEq, false_or] at h
      subst h
      refine ⟨?_, trivial⟩
      show x.eval ρ * x.eval ρ = x.eval ρ
      rw [hev ρ hx x (.inl rfl), mul_one])
  refine ⟨items, ρ, t, hx .one (by simp [Var.InRange, Var.one]), hn, rfl, fun n l r h => ?_, ?_, hs⟩
  · obtain ⟨h, hl, hr⟩ := hi n l r h
    have : 1 < 2 ^ n := Nat.one_lt_two_pow (by omega)
    exact ⟨1, 1, this, this, by simp [hev ρ hx l hl], by simp [hev ρ hx r hr]⟩
  · rw [C85_same b items (by simp [items]) hn]
    exact he.exec

/-! ### Hash functions -/

/-- C85: `sha256` of fewer than `2^63` bits (more than a slice can hold) does not overflow. -/
theorem C85_sha256 (b : Build) (input : List Boolean) (h : input.length < 2 ^ 63) :
    (Sha256.sha256W b input : Synth F (List Boolean)) = Sha256.sha256 input := Sha256.sha256W_eq b input h

/-- C85: neither does the byte counter of `blake2s`. -/
theorem C85_blake2s (b : Build) (input : List Boolean) (h : input.length < 2 ^ 64) (pers : List (BitVec 8)) :
    (Blake2s.blake2sW b input pers : Synth F (List Boolean)) = Blake2s.blake2s input pers := Blake2s.blake2sW_eq b input h pers

/-- The hypotheses hold for messages of three bytes. -/
example (b : Build) (x : Boolean) : (Sha256.sha256W b (List.replicate 24 x) : Synth BlsScalar (List Boolean)) = Sha256.sha256 (List.replicate 24 x) ∧
    (Blake2s.blake2sW b (List.replicate 24 x) (List.replicate 8 7) : Synth BlsScalar (List Boolean)) =
      Blake2s.blake2s (List.replicate 24 x) (List.replicate 8 7) :=
  ⟨C85_sha256 b _ (by simp), C85_blake2s b _ (by simp) _⟩

end Bellman
